import Verif.Lemmas.TrainerRun
import Mathlib.Order.Defs.LinearOrder

/-!
Lemmas about what a trainer has done: counters, the best score, collections and updates, the training-step flag.
-/

namespace Verif.Trainer

set_option linter.unusedSectionVars false

variable {ω V F P : Type}

/-! ### Projections of traces -/

theorem collected_append (a b : List (Ev V F P)) : collected (a ++ b) = collected a ++ collected b := by
  simp [collected, List.filterMap_append]

theorem collectedEpisodes_append (a b : List (Ev V F P)) :
    collectedEpisodes (a ++ b) = collectedEpisodes a ++ collectedEpisodes b := by
  simp [collectedEpisodes, List.filterMap_append]

theorem updates_append (a b : List (Ev V F P)) : updates (a ++ b) = updates a + updates b := by
  simp [updates, List.filter_append]

theorem work_append (a b : List (Ev V F P)) : work (a ++ b) = work a ++ work b := by
  simp [work, List.filterMap_append]

theorem candidates_append (a b : List (Ev V F P)) : candidates (a ++ b) = candidates a ++ candidates b := by
  simp [candidates, List.filterMap_append]

theorem saved_append (a b : List (Ev V F P)) : saved (a ++ b) = saved a ++ saved b := by
  simp [saved, List.filterMap_append]

theorem collected_updates (k : Nat) (b : Bool) : collected (List.replicate k (Ev.update b) : List (Ev V F P)) = [] := by
  induction k with
  | zero => rfl
  | succ k ih => rw [List.replicate_succ]; exact ih

theorem collectedEpisodes_updates (k : Nat) (b : Bool) :
    collectedEpisodes (List.replicate k (Ev.update b) : List (Ev V F P)) = [] := by
  induction k with
  | zero => rfl
  | succ k ih => rw [List.replicate_succ]; exact ih

theorem candidates_updates (k : Nat) (b : Bool) : candidates (List.replicate k (Ev.update b) : List (Ev V F P)) = [] := by
  induction k with
  | zero => rfl
  | succ k ih => rw [List.replicate_succ]; exact ih

theorem saved_updates (k : Nat) (b : Bool) : saved (List.replicate k (Ev.update b) : List (Ev V F P)) = [] := by
  induction k with
  | zero => rfl
  | succ k ih => rw [List.replicate_succ]; exact ih

theorem updates_updates (k : Nat) (b : Bool) : updates (List.replicate k (Ev.update b) : List (Ev V F P)) = k := by
  induction k with
  | zero => rfl
  | succ k ih =>
    rw [List.replicate_succ]
    change ((_ :: List.filter _ _).length = _)
    rw [List.length_cons]
    exact congrArg (· + 1) ih

theorem work_updates (k : Nat) (b : Bool) :
    work (List.replicate k (Ev.update b) : List (Ev V F P)) = List.replicate k none := by
  induction k with
  | zero => rfl
  | succ k ih =>
    rw [List.replicate_succ, List.replicate_succ]
    exact congrArg (List.cons _) ih

/-! ### Counters -/

/-- The environment step an event is given. -/
def stamp : Ev V F P → Option Int
  | .collect _ _ n _ => some n
  | .test _ _ _ n _ _ _ _ => some n
  | .checkpoint _ n _ => some n
  | _ => none

/-- Every event with an environment step is given the start plus the steps collected before. -/
def Stamped (start : Int) (tr : List (Ev V F P)) : Prop :=
  ∀ pre ev post n, tr = pre ++ ev :: post → stamp ev = some n → n = start + (collected pre).sum

theorem stamped_nil (start : Int) : Stamped start ([] : List (Ev V F P)) := by
  intro pre ev post n h
  exact absurd (congrArg List.length h) (by simp)

theorem stamped_cons (start : Int) (ev : Ev V F P) (tr : List (Ev V F P)) (h : ∀ n, stamp ev = some n → n = start)
    (ht : Stamped (start + (collected [ev]).sum) tr) : Stamped start (ev :: tr) := by
  intro pre x post n he hs
  cases pre with
  | nil =>
    simp only [List.nil_append, List.cons.injEq] at he
    rw [← he.1] at hs
    rw [h n hs]
    simp [collected]
  | cons z pre =>
    simp only [List.cons_append, List.cons.injEq] at he
    have := ht pre x post n he.2 hs
    rw [this, show z :: pre = [z] ++ pre from rfl, collected_append, ← he.1]
    simp
    omega

theorem stamped_append (start : Int) (a b : List (Ev V F P)) (ha : Stamped start a)
    (hb : Stamped (start + (collected a).sum) b) : Stamped start (a ++ b) := by
  induction a generalizing start with
  | nil => simpa [collected] using hb
  | cons x a ih =>
    rw [List.cons_append]
    refine stamped_cons start x (a ++ b) ?_ (ih _ ?_ ?_)
    · intro n hn
      have := ha [] x a n rfl hn
      simpa [collected] using this
    · intro pre ev post n h hs
      have := ha (x :: pre) ev post n (by rw [h]; rfl) hs
      rw [this, show x :: pre = [x] ++ pre from rfl, collected_append]
      simp
      omega
    · rw [show x :: a = [x] ++ a from rfl, collected_append] at hb
      simp only [List.sum_append] at hb
      push_cast at hb
      rw [← add_assoc] at hb
      exact hb

theorem stamped_updates (start : Int) (k : Nat) (b : Bool) :
    Stamped start (List.replicate k (Ev.update b) : List (Ev V F P)) := by
  induction k with
  | zero => exact stamped_nil _
  | succ k ih =>
    rw [List.replicate_succ]
    refine stamped_cons _ _ _ (by simp [stamp]) ?_
    simpa [collected] using ih

theorem Block.counted {c : Cfg ω V F P} {t t' : T ω V F P} {o : Option (CStats V)} {stop : Bool} {evs : List (Ev V F P)}
    (h : Block c t o stop evs t') :
    t'.envStep = t.envStep + (collected evs).sum ∧ t'.envEpisode = t.envEpisode + (collectedEpisodes evs).sum ∧
      Stamped t.envStep evs ∧ (c.kind ≠ .onpolicy → t'.gradientStep = t.gradientStep + updates evs) := by
  cases h with
  | offline w k g ht hu =>
    refine ⟨by simp [collected_updates], by simp [collectedEpisodes_updates], stamped_updates _ _ _, ?_⟩
    intro hk
    simp only [updates_updates]
    unfold Upd at hu
    cases hc : c.kind <;> rw [hc] at hu <;> simp_all
  | plain w s k g ht hu hno =>
    refine ⟨?_, ?_, ?_, ?_⟩
    · have := collected_updates (V := V) (F := F) (P := P) k true
      simp only [collected, List.filterMap_cons] at this ⊢
      rw [this]; simp
    · have := collectedEpisodes_updates (V := V) (F := F) (P := P) k true
      simp only [collectedEpisodes, List.filterMap_cons] at this ⊢
      rw [this]; simp
    · exact stamped_cons _ _ _ (by simp [stamp]) (stamped_updates _ _ _)
    · intro hk
      have := updates_updates (V := V) (F := F) (P := P) k true
      simp only [updates, List.filter_cons, Bool.false_eq_true, if_false] at this ⊢
      rw [this]
      unfold Upd at hu
      cases hc : c.kind <;> rw [hc] at hu <;> simp_all
  | tested w s r p k g ht hu hyes hno =>
    refine ⟨?_, ?_, ?_, ?_⟩
    · have := collected_updates (V := V) (F := F) (P := P) k true
      simp only [collected, List.filterMap_cons] at this ⊢
      rw [this]; simp
    · have := collectedEpisodes_updates (V := V) (F := F) (P := P) k true
      simp only [collectedEpisodes, List.filterMap_cons] at this ⊢
      rw [this]; simp
    · refine stamped_cons _ _ _ (by simp [stamp]) (stamped_cons _ _ _ ?_ (stamped_updates _ _ _))
      simp [stamp, collected]
    · intro hk
      have := updates_updates (V := V) (F := F) (P := P) k true
      simp only [updates, List.filter_cons, Bool.false_eq_true, if_false] at this ⊢
      rw [this]
      unfold Upd at hu
      cases hc : c.kind <;> rw [hc] at hu <;> simp_all
  | stopped w s r p ht hyes hyes' =>
    refine ⟨by simp [collected], by simp [collectedEpisodes], ?_, by simp [updates]⟩
    refine stamped_cons _ _ _ (by simp [stamp]) (stamped_cons _ _ _ ?_ (stamped_nil _))
    simp [stamp, collected]

theorem Rounds.counted {c : Cfg ω V F P} {n : Int} {t t' : T ω V F P} {os : List (Option (CStats V))}
    {evss : List (List (Ev V F P))} (h : Rounds c n t os evss t') :
    t'.envStep = t.envStep + (collected evss.flatten).sum ∧
      t'.envEpisode = t.envEpisode + (collectedEpisodes evss.flatten).sum ∧
      Stamped t.envStep evss.flatten ∧ (c.kind ≠ .onpolicy → t'.gradientStep = t.gradientStep + updates evss.flatten) := by
  induction h with
  | done n t h => exact ⟨by simp [collected], by simp [collectedEpisodes], stamped_nil _, by simp [updates]⟩
  | stop n t t' o evs h hb =>
    simpa using hb.counted
  | more n t t' t'' o os evs evss h hb hr ih =>
    obtain ⟨b1, b2, b3, b4⟩ := hb.counted
    obtain ⟨i1, i2, i3, i4⟩ := ih
    simp only at i1 i2 i3 i4
    rw [List.flatten_cons]
    refine ⟨?_, ?_, ?_, ?_⟩
    · rw [i1, b1, collected_append, List.sum_append]; push_cast; omega
    · rw [i2, b2, collectedEpisodes_append, List.sum_append]; omega
    · refine stamped_append _ _ _ b3 ?_
      rw [← b1]
      exact i3
    · intro hk
      rw [i4 hk, b4 hk, updates_append]; push_cast; omega

variable [LT F] [DecidableRel (α := F) (· < ·)]

theorem Finish.counted {c : Cfg ω V F P} {t t' : T ω V F P} {o : Option (CStats V)} {tail : List (Ev V F P)}
    (h : Finish c t o tail t') : collected tail = [] ∧ collectedEpisodes tail = [] ∧ updates tail = 0 ∧
      work tail = [] ∧ Stamped t.envStep tail := by
  cases h with
  | stopped h => exact ⟨rfl, rfl, rfl, rfl, stamped_nil _⟩
  | untested h ht =>
    exact ⟨rfl, rfl, rfl, rfl, stamped_cons _ _ _ (by simp [stamp]) (stamped_nil _)⟩
  | better w raw s h ht hs hlt =>
    refine ⟨by split_ifs <;> rfl, by split_ifs <;> rfl, by split_ifs <;> rfl, by split_ifs <;> rfl, ?_⟩
    refine stamped_cons _ _ _ (by simp [stamp]) (stamped_cons _ _ _ (by simp [stamp, collected]) ?_)
    split_ifs
    · exact stamped_cons _ _ _ (by simp [stamp]) (stamped_nil _)
    · exact stamped_nil _
  | notBetter w raw s h ht hs hlt =>
    refine ⟨rfl, rfl, rfl, rfl, ?_⟩
    exact stamped_cons _ _ _ (by simp [stamp]) (stamped_cons _ _ _ (by simp [stamp, collected]) (stamped_nil _))

theorem Epoch.counted {c : Cfg ω V F P} {t t' : T ω V F P} {y : EpochStats V F P} {os : List (Option (CStats V))}
    {evss : List (List (Ev V F P))} {mid : T ω V F P} {tail : List (Ev V F P)}
    (h : Epoch c t y t' os evss mid tail) :
    (c.hasTrain = true → t'.envStep = t.envStep + (collected y.trace).sum ∧ Stamped t.envStep y.trace) ∧
      t'.envEpisode = t.envEpisode + (collectedEpisodes y.trace).sum ∧
      (c.kind ≠ .onpolicy → t'.gradientStep = t.gradientStep + updates y.trace) := by
  obtain ⟨r1, r2, r3, r4⟩ := h.rounds.counted
  obtain ⟨f1, f2, f3, _, f5⟩ := h.finish.counted
  obtain ⟨_, _, _, _, _, _, k7, k8, k9⟩ := h.finish.kept
  simp only at r1 r2 r3 r4
  have e2 : (if c.hasTrain = true then mid else offlineStep c mid).envEpisode = mid.envEpisode := by split_ifs <;> rfl
  have e3 : (if c.hasTrain = true then mid else offlineStep c mid).gradientStep = mid.gradientStep := by
    split_ifs <;> rfl
  rw [h.trace]
  refine ⟨?_, ?_, ?_⟩
  · intro ht
    rw [if_pos ht] at k7 f5
    refine ⟨by rw [k7, r1, collected_append, f1, List.append_nil], ?_⟩
    refine stamped_append _ _ _ r3 ?_
    rw [← r1]
    exact f5
  · rw [k8, e2, r2, collectedEpisodes_append, f2, List.append_nil]
  · intro hk
    rw [k9, e3, r4 hk, updates_append, f3, Nat.add_zero]

/-! ### The best score -/

theorem Block.quiet {c : Cfg ω V F P} {t t' : T ω V F P} {o : Option (CStats V)} {stop : Bool} {evs : List (Ev V F P)}
    (h : Block c t o stop evs t') : candidates evs = [] ∧ saved evs = [] := by
  cases h with
  | offline w k g ht hu => exact ⟨candidates_updates _ _, saved_updates _ _⟩
  | plain w s k g ht hu hno => exact ⟨candidates_updates k true, saved_updates k true⟩
  | tested w s r p k g ht hu hyes hno => exact ⟨candidates_updates k true, saved_updates k true⟩
  | stopped w s r p ht hyes hyes' => exact ⟨rfl, rfl⟩

theorem Rounds.quiet {c : Cfg ω V F P} {n : Int} {t t' : T ω V F P} {os : List (Option (CStats V))}
    {evss : List (List (Ev V F P))} (h : Rounds c n t os evss t') :
    candidates evss.flatten = [] ∧ saved evss.flatten = [] := by
  induction h with
  | done n t h => exact ⟨rfl, rfl⟩
  | stop n t t' o evs h hb => simpa using hb.quiet
  | more n t t' t'' o os evs evss h hb hr ih =>
    obtain ⟨q1, q2⟩ := hb.quiet
    rw [List.flatten_cons, candidates_append, saved_append, q1, q2, ih.1, ih.2]
    exact ⟨rfl, rfl⟩

theorem Block.updates_only {c : Cfg ω V F P} {t t' : T ω V F P} {o : Option (CStats V)} {stop : Bool} {evs : List (Ev V F P)}
    (h : Block c t o stop evs t') (ht : c.hasTrain = false) : ∀ ev ∈ evs, ∃ b, ev = Ev.update b := by
  cases h with
  | offline w k g _ hu => exact fun ev hev => ⟨_, List.eq_of_mem_replicate hev⟩
  | plain w s k g h' hu hno => simp [ht] at h'
  | tested w s r p k g h' hu hyes hno => simp [ht] at h'
  | stopped w s r p h' hyes hyes' => simp [ht] at h'

theorem Rounds.updates_only {c : Cfg ω V F P} {n : Int} {t t' : T ω V F P} {os : List (Option (CStats V))}
    {evss : List (List (Ev V F P))} (h : Rounds c n t os evss t') (ht : c.hasTrain = false) :
    ∀ ev ∈ evss.flatten, ∃ b, ev = Ev.update b := by
  induction h with
  | done n t h => simp
  | stop n t t' o evs h hb => simpa using hb.updates_only ht
  | more n t t' t'' o os evs evss h hb hr ih =>
    intro ev hev
    rw [List.flatten_cons, List.mem_append] at hev
    exact hev.elim (hb.updates_only ht ev) (ih ev)

/-! ### Collections and updates of the off-policy trainer -/

/-- Collections of so many steps, each with so many updates after it. -/
def blocksOf (bs : List (Nat × Nat)) : List (Option Nat) := bs.flatMap fun b => some b.1 :: List.replicate b.2 none

theorem Rounds.ratio {c : Cfg ω V F P} {ratio : ℚ} (hk : c.kind = .offpolicy ratio) {n : Int} {t t' : T ω V F P}
    {os : List (Option (CStats V))} {evss : List (List (Ev V F P))} (h : Rounds c n t os evss t')
    (hflag : t.stopFlag = false) :
    ∃ bs : List (Nat × Nat), (∀ b ∈ bs, 1 ≤ b.2 ∧ Nearest (ratio * b.1) b.2) ∧
      ((t'.stopFlag = false ∧ work evss.flatten = blocksOf bs ∧ c.stepPerEpoch ≤ n + (bs.map Prod.fst).sum ∧
          (bs = [] ↔ os = []) ∧ (bs ≠ [] → n + (bs.dropLast.map Prod.fst).sum < c.stepPerEpoch)) ∨
        (t'.stopFlag = true ∧ n + (bs.map Prod.fst).sum < c.stepPerEpoch ∧
          ∃ m, work evss.flatten = blocksOf bs ++ [some m])) := by
  induction h with
  | done n t h => exact ⟨[], by simp, Or.inl ⟨hflag, rfl, by simpa using h, by simp, by simp⟩⟩
  | stop n t t' o evs h hb =>
    refine ⟨[], by simp, Or.inr ⟨rfl, by simpa using h, ?_⟩⟩
    cases hb with
    | stopped w s r p ht hyes hyes' => exact ⟨s.steps, rfl⟩
  | more n t t' t'' o os evs evss h hb hr ih =>
    obtain ⟨bs, hbs, hcase⟩ := ih rfl
    have hw : ∃ m k : Nat, 1 ≤ k ∧ Nearest (ratio * m) k ∧ advance o = m ∧ work evs = some m :: List.replicate k none := by
      cases hb with
      | offline w k g ht hu =>
        exfalso
        unfold Upd at hu
        rw [hk] at hu
        obtain ⟨h1, h2, _⟩ := hu
        have h3 := nearest_pyRound (ratio * ((0 : Nat) : ℚ))
        rw [← h1] at h3
        have h4 : Nearest (ratio * ((0 : Nat) : ℚ)) 0 := by simp [Nearest]
        have := nearest_unique _ _ _ h3 h4
        omega
      | plain w s k g ht hu hno =>
        unfold Upd at hu
        rw [hk] at hu
        obtain ⟨h1, h2, _⟩ := hu
        refine ⟨s.steps, k, h2, ?_, rfl, congrArg (List.cons _) (work_updates k true)⟩
        rw [h1]
        exact nearest_pyRound _
      | tested w s r p k g ht hu hyes hno =>
        unfold Upd at hu
        rw [hk] at hu
        obtain ⟨h1, h2, _⟩ := hu
        refine ⟨s.steps, k, h2, ?_, rfl, congrArg (List.cons _) (work_updates k true)⟩
        rw [h1]
        exact nearest_pyRound _
    obtain ⟨m, k, hk1, hnear, hadv, hwork⟩ := hw
    refine ⟨(m, k) :: bs, ?_, ?_⟩
    · intro b hb'
      rcases List.mem_cons.1 hb' with rfl | hb'
      · exact ⟨hk1, hnear⟩
      · exact hbs b hb'
    · rw [hadv] at hcase
      rcases hcase with ⟨g1, g2, g3, g4, g5⟩ | ⟨g1, g2, m', g3⟩
      · left
        refine ⟨g1, ?_, ?_, by simp, ?_⟩
        · rw [List.flatten_cons, work_append, hwork, g2]
          rfl
        · simp only [List.map_cons, List.sum_cons]
          push_cast at g3 ⊢
          omega
        · intro _
          cases bs with
          | nil => simpa using h
          | cons b bs =>
            have := g5 (by simp)
            rw [List.dropLast_cons_cons]
            simp only [List.map_cons, List.sum_cons] at this ⊢
            push_cast at this ⊢
            omega
      · right
        refine ⟨g1, ?_, m', ?_⟩
        · simp only [List.map_cons, List.sum_cons]
          push_cast at g2 ⊢
          omega
        · rw [List.flatten_cons, work_append, hwork, g3]
          simp [blocksOf]

/-! ### The training-step flag -/

/-- The flag of an event is as it should be; `w` is the value outside of training steps. -/
def FlagOk (w : Bool) : Ev V F P → Prop
  | .collect b _ _ _ => b = true
  | .update b => b = true
  | .test .early b _ _ _ _ _ _ => b = false
  | .test _ b _ _ _ _ _ _ => b = w
  | _ => True

/-- A state was reached with only such events. -/
def Flags (w : Bool) (t t' : T ω V F P) : Prop :=
  t'.within = t.within ∧ ∃ tr, t'.log = t.log ++ tr ∧ ∀ ev ∈ tr, FlagOk w ev

theorem Flags.refl (w : Bool) (t : T ω V F P) : Flags w t t := ⟨rfl, [], by simp, by simp⟩

theorem Flags.trans {w : Bool} {a b c : T ω V F P} (h : Flags w a b) (h' : Flags w b c) : Flags w a c := by
  obtain ⟨h1, tr, h2, h3⟩ := h
  obtain ⟨h1', tr', h2', h3'⟩ := h'
  refine ⟨h1'.trans h1, tr ++ tr', by rw [h2', h2, List.append_assoc], ?_⟩
  intro ev hev
  rcases List.mem_append.1 hev with hev | hev
  · exact h3 ev hev
  · exact h3' ev hev

theorem policyUpdate_flags (c : Cfg ω V F P) (n : Nat) (t : T ω V F P) (w : Bool) (hw : t.within = true) :
    Flags w t (policyUpdate c n t).1 := by
  unfold policyUpdate
  have one : ∀ ev ∈ [Ev.update (V := V) (F := F) (P := P) t.within], FlagOk w ev := by simp [FlagOk, hw]
  split
  · split_ifs
    · exact ⟨rfl, _, rfl, one⟩
    · exact Flags.refl _ _
  · simp only
    split_ifs
    · exact Flags.refl _ _
    · exact Flags.refl _ _
    · exact Flags.refl _ _
    · obtain ⟨w1, h1⟩ := sampleLoop_eq c (pyRound (_ * (n : ℚ))).toNat t
      rw [h1]
      refine ⟨rfl, _, rfl, ?_⟩
      intro ev hev
      rw [List.eq_of_mem_replicate hev, hw]
      rfl
  · split_ifs
    · exact Flags.refl _ _
    · exact ⟨rfl, _, rfl, one⟩

theorem collectTrain_flags (c : Cfg ω V F P) (t : T ω V F P) (w : Bool) (hw : t.within = true) :
    Flags w t (collectTrain c t).1 := by
  unfold collectTrain
  simp only
  split_ifs
  all_goals first
    | exact Flags.refl _ _
    | exact ⟨rfl, _, rfl, by simp [FlagOk, hw]⟩

theorem testEpisode_flags (c : Cfg ω V F P) (why : Why) (e : Nat) (m : Bool) (t : T ω V F P) (w : Bool)
    (hw : if why = .early then t.within = false else t.within = w) : Flags w t (testEpisode c why e m t).1 := by
  obtain ⟨w1, raw, s, h1, _⟩ := testEpisode_state c why e m t
  rw [h1]
  refine ⟨rfl, _, rfl, ?_⟩
  simp only [List.mem_singleton, forall_eq]
  cases why <;> simpa [FlagOk] using hw

theorem earlyTest_flags (c : Cfg ω V F P) (s : CStats V) (t : T ω V F P) (w : Bool) (hw : t.within = false) :
    Flags w t (earlyTest c s t).1 := by
  unfold earlyTest
  have h := testEpisode_flags c .early t.epoch false t w (by simpa using hw)
  by_cases h1 : (0 < s.episodes && t.testInTrain && c.accepts (c.out.mean s.returns)) = true
  · rw [if_pos h1]
    by_cases h2 : (!c.hasTest) = true
    · rw [if_pos h2]; exact Flags.refl _ _
    · rw [if_neg h2]
      by_cases h3 : (!c.testsEpisodes) = true
      · rw [if_pos h3]; exact Flags.refl _ _
      · rw [if_neg h3]
        cases ht : testEpisode c .early t.epoch false t with
        | mk t1 r =>
          rw [ht] at h
          cases r with
          | error e => exact h
          | ok r =>
            simp only
            split_ifs
            · exact h
            · exact h
  · rw [if_neg h1]
    exact Flags.refl _ _

theorem withFlag_flags {α : Type} (b w : Bool) (body : T ω V F P → T ω V F P × Except Err α) (t : T ω V F P)
    (h : Flags w { t with within := b } (body { t with within := b }).1) : Flags w t (withFlag b body t).1 := by
  obtain ⟨_, tr, h2, h3⟩ := h
  exact ⟨rfl, tr, h2, h3⟩

theorem trainingStep_flags (c : Cfg ω V F P) (t : T ω V F P) (w : Bool) : Flags w t (trainingStep c t).1 := by
  unfold trainingStep
  refine withFlag_flags true w _ t ?_
  generalize { t with within := true } = t0, (show ({ t with within := true } : T ω V F P).within = true from rfl) = h0
  unfold trainingBody
  split_ifs
  · have h1 := collectTrain_flags c t0 w h0
    cases hc : collectTrain c t0 with
    | mk t1 r1 =>
      rw [hc] at h1
      cases r1 with
      | error e => exact h1
      | ok s =>
        simp only at h1 ⊢
        have h2 : Flags w t1 (withFlag false (earlyTest c s) t1).1 :=
          withFlag_flags false w _ t1 (earlyTest_flags c s _ w rfl)
        cases he : withFlag false (earlyTest c s) t1 with
        | mk t2 r2 =>
          rw [he] at h2
          have h12 := h1.trans h2
          cases r2 with
          | error e => exact h12
          | ok b =>
            cases b with
            | true => exact h12
            | false =>
              simp only
              have h3 := policyUpdate_flags c s.steps t2 w (by rw [h12.1]; exact h0)
              cases hp : policyUpdate c s.steps t2 with
              | mk t3 r3 =>
                rw [hp] at h3
                cases r3 with
                | error e => exact h12.trans h3
                | ok u => exact h12.trans h3
  · exact Flags.refl _ _
  · have h3 := policyUpdate_flags c 0 t0 w h0
    cases hp : policyUpdate c 0 t0 with
    | mk t3 r3 =>
      rw [hp] at h3
      cases r3 with
      | error e => exact h3
      | ok u => exact h3

theorem trainLoop_flags (c : Cfg ω V F P) (w : Bool) (fuel : Nat) (n : Int) (ran : Bool) (t : T ω V F P)
    (r : T ω V F P × Except Err Bool) (h : trainLoop c fuel n ran t = some r) : Flags w t r.1 := by
  induction fuel generalizing n ran t with
  | zero => simp [trainLoop] at h
  | succ fuel ih =>
    rw [trainLoop] at h
    by_cases hc : n < c.stepPerEpoch ∧ t.stopFlag = false
    · rw [if_pos hc] at h
      have h1 := trainingStep_flags c t w
      cases hs : trainingStep c t with
      | mk t1 r1 =>
        rw [hs] at h h1
        have hset : ∀ b, Flags w t { t1 with stopFlag := b } := fun b => h1
        cases r1 with
        | error e =>
          simp only [Option.some.injEq] at h
          rw [← h]; exact h1
        | ok x =>
          obtain ⟨o, stop⟩ := x
          cases o with
          | none =>
            simp only at h
            split_ifs at h
            · simp only [Option.some.injEq] at h
              rw [← h]; exact hset _
            · exact (hset _).trans (ih _ _ _ h)
          | some s =>
            simp only at h
            split_ifs at h
            · simp only [Option.some.injEq] at h
              rw [← h]; exact hset _
            · exact (hset _).trans (ih _ _ _ h)
    · rw [if_neg hc] at h
      simp only [Option.some.injEq] at h
      rw [← h]
      exact Flags.refl _ _

theorem updateBest_flags (c : Cfg ω V F P) (s : CStats V) (t : T ω V F P) (w : Bool) : Flags w t (updateBest c s t) := by
  unfold updateBest callSaveBest
  split_ifs
  · exact ⟨rfl, _, rfl, by simp [FlagOk]⟩
  · exact Flags.refl w t
  · exact Flags.refl w t

theorem evaluate_flags (c : Cfg ω V F P) (t : T ω V F P) (w : Bool) (hw : t.within = w) : Flags w t (evaluate c t).1 := by
  unfold evaluate
  by_cases h1 : t.stopFlag = true
  · rw [if_pos h1]; exact Flags.refl _ _
  · rw [if_neg h1]
    simp only
    generalize ht : ({ t with log := t.log ++ [.checkpoint t.epoch t.envStep t.gradientStep] } : T ω V F P) = t1
    have h0 : Flags w t t1 := by
      rw [← ht]
      exact ⟨rfl, _, rfl, by simp [FlagOk]⟩
    by_cases h2 : c.hasTest = true
    · rw [if_pos h2]
      unfold testStep
      by_cases h3 : c.episodePerTest.isNone = true
      · rw [if_pos h3]; exact h0
      · rw [if_neg h3]
        have h4 := testEpisode_flags c .epochEnd t1.epoch true t1 w (by simp [h0.1, hw])
        cases hte : testEpisode c .epochEnd t1.epoch true t1 with
        | mk t2 r2 =>
          rw [hte] at h4
          cases r2 with
          | error e => exact h0.trans h4
          | ok s => exact (h0.trans h4).trans (updateBest_flags c s t2 w)
    · rw [if_neg h2]; exact h0

theorem next_flags (c : Cfg ω V F P) (fuel : Nat) (t : T ω V F P) (w : Bool) (hw : t.within = w)
    (r : T ω V F P × Except Err (Option (EpochStats V F P))) (h : next c fuel t = some r) : Flags w t r.1 := by
  unfold next at h
  simp only at h
  split_ifs at h with h1
  · simp only [Option.some.injEq] at h
    rw [← h]
    exact Flags.refl w t
  · cases hl : trainLoop c fuel 0 false { t with epoch := t.epoch + 1, iterNum := t.iterNum + 1 } with
    | none => rw [hl] at h; simp at h
    | some res =>
      have h2' := trainLoop_flags c w _ _ _ _ _ hl
      have h2 : Flags w t res.1 := h2'
      obtain ⟨mid, r1⟩ := res
      rw [hl] at h
      cases r1 with
      | error e =>
        simp only [Option.some.injEq] at h
        rw [← h]; exact h2
      | ok ran =>
        simp only at h
        have h3 : Flags w mid (finishEpoch c t.log.length ran mid).1 := by
          unfold finishEpoch
          by_cases hb : (!c.hasTrain && !c.hasBuffer) = true
          · rw [if_pos hb]; exact Flags.refl _ _
          · rw [if_neg hb]
            have h4 : Flags w mid (evaluate c (if c.hasTrain = true then mid else offlineStep c mid)).1 := by
              have hm : mid.within = w := by rw [h2.1, hw]
              split_ifs
              · exact evaluate_flags c mid w hm
              · have := evaluate_flags c (offlineStep c mid) w hm
                exact this
            cases hev : evaluate c (if c.hasTrain = true then mid else offlineStep c mid) with
            | mk t3 r3 =>
              rw [hev] at h4
              cases r3 with
              | error e => exact h4
              | ok o =>
                simp only
                split_ifs
                · exact h4
                · exact h4
        cases hf : finishEpoch c t.log.length ran mid with
        | mk t4 r4 =>
          rw [hf] at h h3
          cases r4 with
          | error e =>
            simp only [Option.some.injEq] at h
            rw [← h]; exact h2.trans h3
          | ok y =>
            simp only [Option.some.injEq] at h
            rw [← h]; exact h2.trans h3

theorem drain_flags (c : Cfg ω V F P) (fuel n : Nat) (t : T ω V F P) (w : Bool) (hw : t.within = w)
    (r : T ω V F P × Except Err (List (EpochStats V F P))) (h : drain c fuel n t = some r) : Flags w t r.1 := by
  induction n generalizing t r with
  | zero => simp [drain] at h
  | succ n ih =>
    rw [drain] at h
    cases hn : next c fuel t with
    | none => rw [hn] at h; simp at h
    | some res =>
      have h1 := next_flags c fuel t w hw res hn
      obtain ⟨t1, r1⟩ := res
      rw [hn] at h
      cases r1 with
      | error e =>
        simp only [Option.some.injEq] at h
        rw [← h]; exact h1
      | ok o =>
        cases o with
        | none =>
          simp only [Option.some.injEq] at h
          rw [← h]; exact h1
        | some y =>
          simp only at h
          cases hd : drain c fuel n t1 with
          | none => rw [hd] at h; simp at h
          | some res2 =>
            have h2 := ih t1 (by rw [h1.1, hw]) res2 hd
            obtain ⟨t2, r2⟩ := res2
            rw [hd] at h
            cases r2 with
            | error e =>
              simp only [Option.some.injEq] at h
              rw [← h]; exact h1.trans h2
            | ok ys =>
              simp only [Option.some.injEq] at h
              rw [← h]; exact h1.trans h2

theorem reset_flags (c : Cfg ω V F P) (rc rb : Bool) (t : T ω V F P) (w : Bool) (hw : t.within = w) :
    Flags w t (reset c rc rb t).1 := by
  have h0 : Flags w t (resetOutside c rc rb (resetCounters c t)) := by
    unfold resetOutside resetCounters
    split_ifs
    all_goals first
      | exact Flags.refl w t
      | exact ⟨rfl, _, rfl, by simp [FlagOk]⟩
  have hfin : ∀ t', Flags w t' (resetFinish c t') := by
    intro t'
    unfold resetFinish callSaveBest
    split_ifs
    · exact ⟨rfl, _, rfl, by simp [FlagOk]⟩
    · exact Flags.refl w t'
  unfold reset
  simp only
  generalize resetOutside c rc rb (resetCounters c t) = t1 at h0 ⊢
  by_cases h1 : c.hasTest = true
  · rw [if_pos h1]
    by_cases h2 : (c.episodePerTest.isNone || c.testAsync) = true
    · rw [if_pos h2]; exact h0
    · rw [if_neg h2]
      have h4 := testEpisode_flags c .initial t1.startEpoch true t1 w (by simp [h0.1, hw])
      cases hte : testEpisode c .initial t1.startEpoch true t1 with
      | mk t2 r2 =>
        rw [hte] at h4
        cases r2 with
        | error e => exact h0.trans h4
        | ok s =>
          have h5 := h0.trans h4
          exact Flags.trans (b := { t2 with
            bestEpoch := t2.startEpoch
            bestReward := c.out.mean s.returns
            bestStd := c.out.std s.returns
            bestScore := c.score s }) h5 (hfin _)
  · rw [if_neg h1]; exact h0.trans (hfin _)

/-! ### Whole iterations -/

theorem next_events (c : Cfg ω V F P) (fuel : Nat) (t t' : T ω V F P) (y : EpochStats V F P)
    (h : next c fuel t = some (t', .ok (some y))) :
    ∀ ev ∈ y.trace, (∀ b, ev ≠ .resetCollectors b) ∧ ∀ b e n raw s x p, ev ≠ .test .initial b e n raw s x p := by
  obtain ⟨os, evss, mid, tail, he⟩ := next_ok c fuel t t' y h
  intro ev hmem
  rw [he.trace] at hmem
  rcases List.mem_append.1 hmem with hm | hmem
  · have hr := he.rounds
    clear he h hmem
    have hmem := hm
    clear hm
    generalize ({ t with epoch := t.epoch + 1, iterNum := t.iterNum + 1 } : T ω V F P) = t1, (0 : Int) = k at hr
    induction hr with
    | done n t h => simp at hmem
    | stop n t t' o evs h hb =>
      cases hb with
      | stopped w s r p ht hyes hyes' =>
        simp only [List.flatten_cons, List.flatten_nil, List.append_nil, List.mem_cons, List.not_mem_nil, or_false] at hmem
        rcases hmem with rfl | rfl <;> simp
    | more n t t' t'' o os evs evss h hb hr ih =>
      simp only [List.flatten_cons, List.mem_append] at hmem
      rcases hmem with hmem | hmem
      · cases hb with
        | offline w k g ht hu => rw [List.eq_of_mem_replicate hmem]; simp
        | plain w s k g ht hu hno =>
          rcases List.mem_cons.1 hmem with rfl | hmem
          · simp
          · rw [List.eq_of_mem_replicate hmem]; simp
        | tested w s r p k g ht hu hyes hno =>
          rcases List.mem_cons.1 hmem with rfl | hmem
          · simp
          · rcases List.mem_cons.1 hmem with rfl | hmem
            · simp
            · rw [List.eq_of_mem_replicate hmem]; simp
      · exact ih hmem
  · have hf := he.finish
    generalize y.testStat = o at hf
    cases hf with
    | stopped h => simp at hmem
    | untested h ht =>
      rw [List.mem_singleton.1 hmem]; simp
    | better w raw s h ht hs hlt =>
      rcases List.mem_cons.1 hmem with rfl | hmem
      · simp
      · rcases List.mem_cons.1 hmem with rfl | hmem
        · simp
        · split_ifs at hmem
          · rw [List.mem_singleton.1 hmem]; simp
          · simp at hmem
    | notBetter w raw s h ht hs hlt =>
      rcases List.mem_cons.1 hmem with rfl | hmem
      · simp
      · rw [List.mem_singleton.1 hmem]; simp

theorem initialTests_append (a b : List (Ev V F P)) : initialTests (a ++ b) = initialTests a + initialTests b := by
  simp [initialTests, List.filter_append]

theorem initialTests_zero (tr : List (Ev V F P)) (h : ∀ ev ∈ tr, ∀ b e n raw s x p, ev ≠ .test .initial b e n raw s x p) :
    initialTests tr = 0 := by
  unfold initialTests
  rw [List.length_eq_zero_iff, List.filter_eq_nil_iff]
  intro ev hev
  have := h ev hev
  split
  · next b e n raw s x p => exact absurd rfl (this b e n raw s x p)
  · simp

theorem Started.initialTests {c : Cfg ω V F P} {rc rb : Bool} {t t' : T ω V F P} {evs : List (Ev V F P)}
    (h : Started c rc rb t t' evs) : initialTests evs = if c.hasTest then 1 else 0 := by
  cases ht : c.hasTest with
  | false =>
    rw [h.untested ht, initialTests_append]
    split_ifs <;> first | rfl | simp_all
  | true =>
    obtain ⟨raw, s, _, h2, _⟩ := h.tested ht
    rw [h2, initialTests_append, initialTests_append]
    split_ifs <;> first | rfl | simp_all

theorem Iterating.initialTests {c : Cfg ω V F P} {t0 t : T ω V F P} {ys : List (EpochStats V F P)}
    (h : Iterating c t0 ys t) :
    ∃ tr, t.log = t0.log ++ tr ∧ Trainer.initialTests tr = if c.hasTest then 1 else 0 := by
  induction h with
  | start rc rb t hr =>
    obtain ⟨evs, hs⟩ := reset_ok c rc rb t0 t hr
    exact ⟨evs, hs.log, hs.initialTests⟩
  | next fuel ys y t t' hi hn ih =>
    obtain ⟨tr, h1, h2⟩ := ih
    obtain ⟨os, evss, mid, tail, he⟩ := next_ok c fuel t t' y hn
    refine ⟨tr ++ y.trace, by rw [he.log, h1, List.append_assoc], ?_⟩
    rw [initialTests_append, h2, initialTests_zero y.trace (fun ev hev => (next_events c fuel t t' y hn ev hev).2)]
    rfl

theorem drain_iterating (c : Cfg ω V F P) (fuel n : Nat) (t0 t t' : T ω V F P) (pre ys : List (EpochStats V F P))
    (hi : Iterating c t0 pre t) (h : drain c fuel n t = some (t', .ok ys)) :
    ∃ t'', Iterating c t0 (pre ++ ys) t'' ∧ t' = { t'' with epoch := t''.epoch + 1, iterNum := t''.iterNum + 1 } := by
  induction n generalizing t pre ys with
  | zero => simp [drain] at h
  | succ n ih =>
    rw [drain] at h
    cases hn : next c fuel t with
    | none => rw [hn] at h; simp at h
    | some res =>
      obtain ⟨t1, r1⟩ := res
      rw [hn] at h
      cases r1 with
      | error e => simp at h
      | ok o =>
        cases o with
        | none =>
          simp only [Option.some.injEq, Prod.mk.injEq, Except.ok.injEq] at h
          obtain ⟨rfl, rfl⟩ := h
          refine ⟨t, by simpa using hi, ?_⟩
          unfold next at hn
          simp only at hn
          split_ifs at hn with h1
          · simp only [Option.some.injEq, Prod.mk.injEq, and_true] at hn
            exact hn.symm
          · exfalso
            cases hl : trainLoop c fuel 0 false { t with epoch := t.epoch + 1, iterNum := t.iterNum + 1 } with
            | none => rw [hl] at hn; simp at hn
            | some res =>
              obtain ⟨mid, r⟩ := res
              rw [hl] at hn
              cases r with
              | error e => simp at hn
              | ok ran =>
                simp only at hn
                cases hfe : finishEpoch c t.log.length ran mid with
                | mk t2 r2 =>
                  rw [hfe] at hn
                  cases r2 <;> simp at hn
        | some y =>
          simp only at h
          cases hd : drain c fuel n t1 with
          | none => rw [hd] at h; simp at h
          | some res2 =>
            obtain ⟨t2, r2⟩ := res2
            rw [hd] at h
            cases r2 with
            | error e => simp at h
            | ok ys1 =>
              simp only [Option.some.injEq, Prod.mk.injEq, Except.ok.injEq] at h
              obtain ⟨rfl, rfl⟩ := h
              obtain ⟨t'', g1, g2⟩ := ih t1 (pre ++ [y]) ys1 (Iterating.next fuel pre y t t1 hi hn) hd
              exact ⟨t'', by simpa using g1, g2⟩

end Verif.Trainer
