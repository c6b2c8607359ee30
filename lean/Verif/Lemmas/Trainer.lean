import Verif.Spec.Trainer
import Mathlib.Tactic.Linarith
import Mathlib.Tactic.Ring

/-!
Lemmas about the trainers: what one training step does, and what the loop of an epoch does.
-/

namespace Verif.Trainer

set_option linter.unusedSectionVars false

variable {ω V F P : Type}

theorem accepts_iff (c : Cfg ω V F P) (x : F) : c.accepts x = true ↔ Accepts c.stopFn x := by
  unfold Cfg.accepts Accepts
  cases c.stopFn with
  | none => simp
  | some f => simp

theorem nearest_pyRound (x : ℚ) : Nearest x (pyRound x) := by
  have h1 : ((⌊x⌋ : ℤ) : ℚ) ≤ x := Int.floor_le x
  have h2 : x < ⌊x⌋ + 1 := Int.lt_floor_add_one x
  unfold pyRound Nearest
  simp only
  by_cases ha : x - ⌊x⌋ < 1 / 2
  · rw [if_pos ha]
    refine ⟨abs_le.2 ⟨by linarith, by linarith⟩, ?_⟩
    intro h
    rw [abs_of_nonneg (by linarith)] at h
    linarith
  · rw [if_neg ha]
    by_cases hb : 1 / 2 < x - ⌊x⌋
    · rw [if_pos hb]
      push_cast
      refine ⟨abs_le.2 ⟨by linarith, by linarith⟩, ?_⟩
      intro h
      rw [abs_of_nonpos (by linarith)] at h
      linarith
    · rw [if_neg hb]
      by_cases hc : ⌊x⌋ % 2 = 0
      · rw [if_pos hc]
        exact ⟨abs_le.2 ⟨by linarith, by linarith⟩, fun _ => Int.even_iff.2 hc⟩
      · rw [if_neg hc]
        push_cast
        refine ⟨abs_le.2 ⟨by linarith, by linarith⟩, fun _ => ?_⟩
        rw [Int.even_iff]
        omega

theorem nearest_unique (x : ℚ) (m n : ℤ) (hm : Nearest x m) (hn : Nearest x n) : m = n := by
  obtain ⟨h1, h2⟩ := hm
  obtain ⟨h3, h4⟩ := hn
  have a1 := abs_le.1 h1
  have a3 := abs_le.1 h3
  have hle : (m : ℚ) - n ≤ 1 := by linarith [a1.1, a1.2, a3.1, a3.2]
  have hge : -1 ≤ (m : ℚ) - n := by linarith [a1.1, a1.2, a3.1, a3.2]
  have hle' : m - n ≤ 1 := by exact_mod_cast hle
  have hge' : -1 ≤ m - n := by exact_mod_cast hge
  have key : m - n = 1 ∨ m - n = -1 → False := by
    intro h
    have hd : |x - m| = 1 / 2 ∧ |x - n| = 1 / 2 := by
      rcases h with h | h
      · have hq : (m : ℚ) = n + 1 := by
          have : m = n + 1 := by omega
          rw [this]; push_cast; ring
        have hx : x = n + 1 / 2 := by linarith [a1.1, a1.2, a3.1, a3.2]
        rw [hq, hx]
        constructor
        · rw [abs_of_nonpos (by linarith)]; ring
        · rw [abs_of_nonneg (by linarith)]; ring
      · have hq : (n : ℚ) = m + 1 := by
          have : n = m + 1 := by omega
          rw [this]; push_cast; ring
        have hx : x = m + 1 / 2 := by linarith [a1.1, a1.2, a3.1, a3.2]
        rw [hq, hx]
        constructor
        · rw [abs_of_nonneg (by linarith)]; ring
        · rw [abs_of_nonpos (by linarith)]; ring
    have e1 := Int.even_iff.1 (h2 hd.1)
    have e2 := Int.even_iff.1 (h4 hd.2)
    omega
  rcases (by omega : m - n = 0 ∨ m - n = 1 ∨ m - n = -1) with h | h | h
  · omega
  · exact (key (Or.inl h)).elim
  · exact (key (Or.inr h)).elim

/-- How often the policy was updated after a collection of `n` steps, and by how much the counter increased. -/
def Upd (c : Cfg ω V F P) (n k : Nat) (g : Int) : Prop :=
  match c.kind with
  | .offline => k = 1 ∧ g = 1
  | .offpolicy ratio => (k : Int) = pyRound (ratio * n) ∧ 0 < k ∧ g = k
  | .onpolicy => k = 1 ∧ ∃ len, g = onpolicySteps c.batchSize len

theorem sampleLoop_eq (c : Cfg ω V F P) (n : Nat) (t : T ω V F P) :
    ∃ w, sampleLoop c n t = { t with
      world := w
      gradientStep := t.gradientStep + n
      log := t.log ++ List.replicate n (.update t.within) } := by
  induction n generalizing t with
  | zero => exact ⟨t.world, by simp [sampleLoop]⟩
  | succ n ih =>
    obtain ⟨w, hw⟩ := ih (sampleAndUpdate c t)
    refine ⟨w, ?_⟩
    rw [sampleLoop, hw]
    simp only [sampleAndUpdate, List.append_assoc, List.replicate_succ, List.singleton_append]
    congr 1
    push_cast
    ring

theorem policyUpdate_ok (c : Cfg ω V F P) (n : Nat) (t t' : T ω V F P) (h : policyUpdate c n t = (t', .ok ())) :
    ∃ w k g, Upd c n k g ∧ t' = { t with
      world := w
      gradientStep := t.gradientStep + g
      log := t.log ++ List.replicate k (.update t.within) } := by
  unfold policyUpdate at h
  unfold Upd
  cases hk : c.kind with
  | offline =>
    rw [hk] at h
    simp only at h ⊢
    split_ifs at h with h1
    · cases h
      exact ⟨_, 1, 1, ⟨rfl, rfl⟩, rfl⟩
    · simp at h
  | offpolicy ratio =>
    rw [hk] at h
    simp only at h ⊢
    split_ifs at h with h1 h2 h3
    · simp at h
    · simp at h
    · simp at h
    · obtain ⟨w, hw⟩ := sampleLoop_eq c (pyRound (ratio * n)).toNat t
      simp only [Prod.mk.injEq, and_true] at h
      refine ⟨w, (pyRound (ratio * n)).toNat, (pyRound (ratio * n)).toNat, ⟨by omega, by omega, rfl⟩, ?_⟩
      rw [← h, hw]
  | onpolicy =>
    rw [hk] at h
    simp only at h ⊢
    split_ifs at h with h1
    · simp at h
    · cases h
      exact ⟨_, 1, _, ⟨rfl, _, rfl⟩, rfl⟩

/-- What a training step does if it does not raise: the events, in order, and the state afterwards. -/
inductive Block (c : Cfg ω V F P) (t : T ω V F P) : Option (CStats V) → Bool → List (Ev V F P) → T ω V F P → Prop
  | offline (w : ω) (k : Nat) (g : Int) (ht : c.hasTrain = false) (hu : Upd c 0 k g) :
    Block c t none false (List.replicate k (.update true))
      { t with world := w, gradientStep := t.gradientStep + g, log := t.log ++ List.replicate k (.update true) }
  | plain (w : ω) (s : CStats V) (k : Nat) (g : Int) (ht : c.hasTrain = true) (hu : Upd c s.steps k g)
      (hno : ¬ (0 < s.episodes ∧ t.testInTrain = true ∧ Accepts c.stopFn (c.out.mean s.returns))) :
    Block c t (some s) false (.collect true t.epoch t.envStep s :: List.replicate k (.update true))
      { t with
        world := w
        gradientStep := t.gradientStep + g
        envStep := t.envStep + s.steps
        envEpisode := t.envEpisode + s.episodes
        log := t.log ++ .collect true t.epoch t.envStep s :: List.replicate k (.update true) }
  | tested (w : ω) (s r : CStats V) (p : P) (k : Nat) (g : Int) (ht : c.hasTrain = true) (hu : Upd c s.steps k g)
      (hyes : 0 < s.episodes ∧ t.testInTrain = true ∧ Accepts c.stopFn (c.out.mean s.returns))
      (hno : ¬ Accepts c.stopFn (c.out.mean r.returns)) :
    Block c t (some s) false (.collect true t.epoch t.envStep s ::
        .test .early false t.epoch (t.envStep + s.steps) r r (c.score r) p :: List.replicate k (.update true))
      { t with
        world := w
        gradientStep := t.gradientStep + g
        envStep := t.envStep + s.steps
        envEpisode := t.envEpisode + s.episodes
        log := t.log ++ .collect true t.epoch t.envStep s ::
          .test .early false t.epoch (t.envStep + s.steps) r r (c.score r) p :: List.replicate k (.update true) }
  | stopped (w : ω) (s r : CStats V) (p : P) (ht : c.hasTrain = true)
      (hyes : 0 < s.episodes ∧ t.testInTrain = true ∧ Accepts c.stopFn (c.out.mean s.returns))
      (hyes' : Accepts c.stopFn (c.out.mean r.returns)) :
    Block c t (some s) true [.collect true t.epoch t.envStep s,
        .test .early false t.epoch (t.envStep + s.steps) r r (c.score r) p]
      { t with
        world := w
        envStep := t.envStep + s.steps
        envEpisode := t.envEpisode + s.episodes
        bestReward := c.out.mean r.returns
        bestStd := c.out.std r.returns
        bestScore := c.score r
        log := t.log ++ [.collect true t.epoch t.envStep s,
          .test .early false t.epoch (t.envStep + s.steps) r r (c.score r) p] }

theorem testEpisode_ok (c : Cfg ω V F P) (why : Why) (e : Nat) (m : Bool) (t t' : T ω V F P) (s : CStats V)
    (h : testEpisode c why e m t = (t', .ok s)) :
    ∃ w raw, s = (if m then c.metric raw else raw) ∧ t' = { t with
      world := w
      log := t.log ++ [.test why t.within e t.envStep raw s (c.score s) (c.out.policy w)] } := by
  unfold testEpisode at h
  simp only at h
  by_cases h1 : 0 < (c.out.test t.within e t.envStep t.world).2.episodes
  · rw [if_pos h1] at h
    simp only [Prod.mk.injEq, Except.ok.injEq] at h
    obtain ⟨h2, h3⟩ := h
    exact ⟨_, _, h3.symm, by rw [← h2, h3]⟩
  · rw [if_neg h1] at h
    simp at h

theorem testEpisode_state (c : Cfg ω V F P) (why : Why) (e : Nat) (m : Bool) (t : T ω V F P) :
    ∃ w raw s, (testEpisode c why e m t).1 = { t with
      world := w
      log := t.log ++ [.test why t.within e t.envStep raw s (c.score s) (c.out.policy w)] } ∧
      s = (if m then c.metric raw else raw) := by
  unfold testEpisode
  simp only
  split_ifs <;> exact ⟨_, _, _, rfl, by simp⟩

theorem collectTrain_ok (c : Cfg ω V F P) (t t' : T ω V F P) (s : CStats V) (h : collectTrain c t = (t', .ok s)) :
    ∃ w, t' = { t with
      world := w
      envStep := t.envStep + s.steps
      envEpisode := t.envEpisode + s.episodes
      log := t.log ++ [.collect t.within t.epoch t.envStep s] } := by
  unfold collectTrain at h
  by_cases h1 : c.episodePerTest.isNone
  · rw [if_pos h1] at h
    simp at h
  · rw [if_neg h1] at h
    simp only at h
    by_cases h2 : c.out.hasNull (c.out.collect t.within t.epoch t.envStep t.world).1
    · rw [if_pos h2] at h
      simp at h
    · rw [if_neg h2] at h
      simp only [Prod.mk.injEq, Except.ok.injEq] at h
      obtain ⟨h3, h4⟩ := h
      refine ⟨(c.out.collect t.within t.epoch t.envStep t.world).1, ?_⟩
      rw [← h3, h4]

theorem earlyTest_ok (c : Cfg ω V F P) (s : CStats V) (t t' : T ω V F P) (stop : Bool)
    (h : earlyTest c s t = (t', .ok stop)) :
    (stop = false ∧ t' = t ∧ ¬ (0 < s.episodes ∧ t.testInTrain = true ∧ Accepts c.stopFn (c.out.mean s.returns))) ∨
    ((0 < s.episodes ∧ t.testInTrain = true ∧ Accepts c.stopFn (c.out.mean s.returns)) ∧ ∃ w r,
      (stop = false ∧ ¬ Accepts c.stopFn (c.out.mean r.returns) ∧ t' = { t with
        world := w
        log := t.log ++ [.test .early t.within t.epoch t.envStep r r (c.score r) (c.out.policy w)] }) ∨
      (stop = true ∧ Accepts c.stopFn (c.out.mean r.returns) ∧ t' = { t with
        world := w
        bestReward := c.out.mean r.returns
        bestStd := c.out.std r.returns
        bestScore := c.score r
        log := t.log ++ [.test .early t.within t.epoch t.envStep r r (c.score r) (c.out.policy w)] })) := by
  unfold earlyTest at h
  by_cases h1 : (0 < s.episodes && t.testInTrain && c.accepts (c.out.mean s.returns)) = true
  · right
    rw [if_pos h1] at h
    simp only [Bool.and_eq_true, decide_eq_true_eq, accepts_iff] at h1
    refine ⟨⟨h1.1.1, h1.1.2, h1.2⟩, ?_⟩
    by_cases h2 : (!c.hasTest) = true
    · rw [if_pos h2] at h
      simp at h
    · rw [if_neg h2] at h
      split_ifs at h with h3
      · simp at h
      · cases ht : testEpisode c .early t.epoch false t with
        | mk t1 r =>
          rw [ht] at h
          cases r with
          | error e => simp at h
          | ok r =>
            simp only at h
            obtain ⟨w, raw, hs, hw⟩ := testEpisode_ok c _ _ _ _ _ _ ht
            simp only [Bool.false_eq_true, if_false] at hs
            subst hs
            refine ⟨w, r, ?_⟩
            by_cases h4 : c.accepts (c.out.mean r.returns) = true
            · right
              rw [if_pos h4] at h
              simp only [Prod.mk.injEq, Except.ok.injEq] at h
              refine ⟨h.2.symm, (accepts_iff c _).1 h4, ?_⟩
              rw [← h.1, hw]
            · left
              rw [if_neg h4] at h
              simp only [Prod.mk.injEq, Except.ok.injEq] at h
              refine ⟨h.2.symm, fun hh => h4 ((accepts_iff c _).2 hh), ?_⟩
              rw [← h.1, hw]
  · left
    rw [if_neg h1] at h
    simp only [Prod.mk.injEq, Except.ok.injEq] at h
    refine ⟨h.2.symm, h.1.symm, ?_⟩
    intro hh
    apply h1
    simp only [Bool.and_eq_true, decide_eq_true_eq, accepts_iff]
    exact ⟨⟨hh.1, hh.2.1⟩, hh.2.2⟩

theorem trainingStep_ok (c : Cfg ω V F P) (t t' : T ω V F P) (o : Option (CStats V)) (stop : Bool)
    (h : trainingStep c t = (t', .ok (o, stop))) : ∃ evs, Block c t o stop evs t' := by
  unfold trainingStep withFlag at h
  simp only [Prod.mk.injEq] at h
  obtain ⟨h1, h2⟩ := h
  cases hb : trainingBody c { t with within := true } with
  | mk tb r =>
    rw [hb] at h1 h2
    simp only at h1 h2
    subst h2
    unfold trainingBody at hb
    by_cases ht : c.hasTrain = true
    · rw [if_pos ht] at hb
      cases hc : collectTrain c { t with within := true } with
      | mk t1 r1 =>
        rw [hc] at hb
        cases r1 with
        | error e => simp at hb
        | ok s =>
          simp only at hb
          obtain ⟨w1, hw1⟩ := collectTrain_ok c _ _ _ hc
          cases he : withFlag false (earlyTest c s) t1 with
          | mk t2 r2 =>
            rw [he] at hb
            cases r2 with
            | error e => simp at hb
            | ok stop2 =>
              unfold withFlag at he
              simp only [Prod.mk.injEq] at he
              obtain ⟨he1, he2⟩ := he
              cases he3 : earlyTest c s { t1 with within := false } with
              | mk t3 r3 =>
                rw [he3] at he1 he2
                simp only at he1 he2
                subst he2
                rcases earlyTest_ok c _ _ _ _ he3 with ⟨hs, heq, hno⟩ | ⟨hyes, w2, r, ⟨hs, hno, heq⟩ | ⟨hs, hacc, heq⟩⟩
                · subst hs
                  simp only at hb
                  cases hp : policyUpdate c s.steps t2 with
                  | mk t4 r4 =>
                    rw [hp] at hb
                    cases r4 with
                    | error e => simp at hb
                    | ok u =>
                      simp only [Prod.mk.injEq, Except.ok.injEq] at hb
                      obtain ⟨hb1, hb2, hb3⟩ := hb
                      obtain ⟨w, k, g, hu, hw⟩ := policyUpdate_ok c _ _ _ hp
                      rw [← hb2, ← hb3]
                      subst heq
                      have hfin : t' = { t with
                          world := w
                          gradientStep := t.gradientStep + g
                          envStep := t.envStep + s.steps
                          envEpisode := t.envEpisode + s.episodes
                          log := t.log ++ .collect true t.epoch t.envStep s :: List.replicate k (.update true) } := by
                        rw [← h1, ← hb1, hw, ← he1, hw1]
                        simp
                      rw [hfin]
                      refine ⟨_, Block.plain w s k g ht hu ?_⟩
                      rw [hw1] at hno
                      exact hno
                · subst hs
                  simp only at hb
                  cases hp : policyUpdate c s.steps t2 with
                  | mk t4 r4 =>
                    rw [hp] at hb
                    cases r4 with
                    | error e => simp at hb
                    | ok u =>
                      simp only [Prod.mk.injEq, Except.ok.injEq] at hb
                      obtain ⟨hb1, hb2, hb3⟩ := hb
                      obtain ⟨w, k, g, hu, hw⟩ := policyUpdate_ok c _ _ _ hp
                      rw [← hb2, ← hb3]
                      have hfin : t' = { t with
                          world := w
                          gradientStep := t.gradientStep + g
                          envStep := t.envStep + s.steps
                          envEpisode := t.envEpisode + s.episodes
                          log := t.log ++ .collect true t.epoch t.envStep s ::
                            .test .early false t.epoch (t.envStep + s.steps) r r (c.score r) (c.out.policy w2) ::
                              List.replicate k (.update true) } := by
                        rw [← h1, ← hb1, hw, ← he1, heq, hw1]
                        simp
                      rw [hfin]
                      refine ⟨_, Block.tested w s r _ k g ht hu ?_ hno⟩
                      rw [hw1] at hyes
                      exact hyes
                · subst hs
                  simp only [Prod.mk.injEq, Except.ok.injEq] at hb
                  obtain ⟨hb1, hb2, hb3⟩ := hb
                  rw [← hb2, ← hb3]
                  have hfin : t' = { t with
                      world := w2
                      envStep := t.envStep + s.steps
                      envEpisode := t.envEpisode + s.episodes
                      bestReward := c.out.mean r.returns
                      bestStd := c.out.std r.returns
                      bestScore := c.score r
                      log := t.log ++ [.collect true t.epoch t.envStep s,
                        .test .early false t.epoch (t.envStep + s.steps) r r (c.score r) (c.out.policy w2)] } := by
                    rw [← h1, ← hb1, ← he1, heq, hw1]
                    simp
                  rw [hfin]
                  refine ⟨_, Block.stopped w2 s r _ ht ?_ hacc⟩
                  rw [hw1] at hyes
                  exact hyes
    · rw [if_neg ht] at hb
      split_ifs at hb with hbuf
      · simp at hb
      · cases hp : policyUpdate c 0 { t with within := true } with
        | mk t4 r4 =>
          rw [hp] at hb
          cases r4 with
          | error e => simp at hb
          | ok u =>
            simp only [Prod.mk.injEq, Except.ok.injEq] at hb
            obtain ⟨hb1, hb2, hb3⟩ := hb
            obtain ⟨w, k, g, hu, hw⟩ := policyUpdate_ok c _ _ _ hp
            rw [← hb2, ← hb3]
            have hfin : t' = { t with
                world := w
                gradientStep := t.gradientStep + g
                log := t.log ++ List.replicate k (.update true) } := by
              rw [← h1, ← hb1, hw]
            rw [hfin]
            exact ⟨_, Block.offline w k g (by simpa using ht) hu⟩

/-- By how much the loop of an epoch advances. -/
def advance : Option (CStats V) → Nat
  | none => 1
  | some s => s.steps

/-- The rounds of the loop of an epoch: what was collected, the events of each round, the state afterwards. -/
inductive Rounds (c : Cfg ω V F P) : Int → T ω V F P → List (Option (CStats V)) → List (List (Ev V F P)) → T ω V F P → Prop
  | done (n : Int) (t : T ω V F P) (h : c.stepPerEpoch ≤ n) : Rounds c n t [] [] t
  | stop (n : Int) (t t' : T ω V F P) (o : Option (CStats V)) (evs : List (Ev V F P)) (h : n < c.stepPerEpoch)
      (hb : Block c t o true evs t') : Rounds c n t [o] [evs] { t' with stopFlag := true }
  | more (n : Int) (t t' t'' : T ω V F P) (o : Option (CStats V)) (os : List (Option (CStats V)))
      (evs : List (Ev V F P)) (evss : List (List (Ev V F P))) (h : n < c.stepPerEpoch) (hb : Block c t o false evs t')
      (hr : Rounds c (n + advance o) { t' with stopFlag := false } os evss t'') : Rounds c n t (o :: os) (evs :: evss) t''

theorem trainLoop_ok (c : Cfg ω V F P) (fuel : Nat) (n : Int) (ran ran' : Bool) (t t' : T ω V F P)
    (hflag : t.stopFlag = false) (h : trainLoop c fuel n ran t = some (t', .ok ran')) :
    ∃ os evss, Rounds c n t os evss t' ∧ ran' = (ran || !os.isEmpty) := by
  induction fuel generalizing n ran t with
  | zero => simp [trainLoop] at h
  | succ fuel ih =>
    rw [trainLoop] at h
    by_cases hc : n < c.stepPerEpoch ∧ t.stopFlag = false
    · rw [if_pos hc] at h
      cases hs : trainingStep c t with
      | mk t1 r =>
        rw [hs] at h
        cases r with
        | error e => simp at h
        | ok r =>
          obtain ⟨o, stop⟩ := r
          obtain ⟨evs, hb⟩ := trainingStep_ok c _ _ _ _ hs
          cases o with
          | none =>
            simp only at h
            split_ifs at h with h1
            · simp at h
            · cases stop with
              | true => cases hb
              | false =>
                obtain ⟨os, evss, hr, hran⟩ := ih (n + 1) true _ rfl h
                refine ⟨none :: os, evs :: evss, Rounds.more n t t1 t' none os evs evss hc.1 hb ?_, ?_⟩
                · simpa [advance] using hr
                · simp [hran]
          | some s =>
            simp only at h
            cases stop with
            | true =>
              simp only [if_true, Option.some.injEq, Prod.mk.injEq, Except.ok.injEq] at h
              refine ⟨[some s], [evs], ?_, ?_⟩
              · rw [← h.1]
                exact Rounds.stop n t t1 _ evs hc.1 hb
              · simp [← h.2]
            | false =>
              simp only [Bool.false_eq_true, if_false] at h
              obtain ⟨os, evss, hr, hran⟩ := ih (n + s.steps) true _ rfl h
              refine ⟨some s :: os, evs :: evss, Rounds.more n t t1 t' (some s) os evs evss hc.1 hb ?_, ?_⟩
              · simpa [advance] using hr
              · simp [hran]
    · rw [if_neg hc] at h
      simp only [Option.some.injEq, Prod.mk.injEq, Except.ok.injEq] at h
      refine ⟨[], [], ?_, ?_⟩
      · rw [← h.1]
        refine Rounds.done n t ?_
        by_contra hlt
        exact hc ⟨by omega, hflag⟩
      · simp [h.2]

end Verif.Trainer
