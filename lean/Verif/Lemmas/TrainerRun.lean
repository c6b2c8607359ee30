import Verif.Lemmas.TrainerEpoch
import Mathlib.Algebra.BigOperators.Group.List.Basic

/-!
Lemmas about whole runs of a trainer.
-/

namespace Verif.Trainer

set_option linter.unusedSectionVars false

variable {ω V F P : Type}

/-- The epoch at which a reset starts. -/
def startOf (c : Cfg ω V F P) (t : T ω V F P) : Nat := if c.resume then (c.out.restore t.world).1 else t.startEpoch

/-- The environment step at which a reset starts. -/
def stepOf (c : Cfg ω V F P) (t : T ω V F P) : Int := if c.resume then (c.out.restore t.world).2.1 else 0

/-- The gradient step at which a reset starts. -/
def gradOf (c : Cfg ω V F P) (t : T ω V F P) : Int := if c.resume then (c.out.restore t.world).2.2 else t.gradientStep

/-- What a reset does if it does not raise. -/
structure Started (c : Cfg ω V F P) (rc rb : Bool) (t t' : T ω V F P) (evs : List (Ev V F P)) : Prop where
  log : t'.log = t.log ++ evs
  epoch : t'.epoch = startOf c t
  startEpoch : t'.startEpoch = startOf c t
  flag : t'.stopFlag = false
  iterNum : t'.iterNum = 0
  envStep : t'.envStep = stepOf c t
  gradientStep : t'.gradientStep = gradOf c t
  envEpisode : t'.envEpisode = t.envEpisode
  within : t'.within = t.within
  untested : c.hasTest = false → evs = (if rc then [.resetCollectors rb] else []) ++
    (if c.saveBest then [.saveBest (c.out.policy t'.world)] else [])
  tested : c.hasTest = true → ∃ raw s, s = c.metric raw ∧
    evs = (if rc then [.resetCollectors rb] else []) ++
      [.test .initial t.within (startOf c t) (stepOf c t) raw s (c.score s) (c.out.policy t'.world)] ++
      (if c.saveBest then [.saveBest (c.out.policy t'.world)] else []) ∧
    t'.bestScore = c.score s ∧ t'.bestReward = c.out.mean s.returns ∧ t'.bestStd = c.out.std s.returns ∧
    t'.bestEpoch = startOf c t

theorem reset_ok (c : Cfg ω V F P) (rc rb : Bool) (t t' : T ω V F P) (h : reset c rc rb t = (t', .ok ())) :
    ∃ evs, Started c rc rb t t' evs := by
  unfold reset at h
  simp only at h
  set t1 := resetOutside c rc rb (resetCounters c t) with ht1
  have k1 : t1.log = t.log ++ (if rc then [.resetCollectors rb] else []) := by
    rw [ht1]; unfold resetOutside resetCounters; split_ifs <;> simp
  have k2 : t1.startEpoch = startOf c t := by
    rw [ht1]; unfold resetOutside resetCounters startOf; split_ifs <;> simp
  have k3 : t1.envStep = stepOf c t := by
    rw [ht1]; unfold resetOutside resetCounters stepOf; split_ifs <;> simp
  have k4 : t1.gradientStep = gradOf c t := by
    rw [ht1]; unfold resetOutside resetCounters gradOf; split_ifs <;> simp
  have k5 : t1.envEpisode = t.envEpisode := by
    rw [ht1]; unfold resetOutside resetCounters; split_ifs <;> simp
  have k6 : t1.within = t.within := by
    rw [ht1]; unfold resetOutside resetCounters; split_ifs <;> simp
  clear_value t1
  clear ht1
  cases hh : c.hasTest with
  | false =>
    rw [hh] at h
    simp only [Bool.false_eq_true, if_false, Prod.mk.injEq, and_true] at h
    subst h
    refine ⟨(if rc then [.resetCollectors rb] else []) ++ (if c.saveBest then [.saveBest (c.out.policy t1.world)] else []),
      ?_⟩
    unfold resetFinish callSaveBest
    constructor
    · split_ifs <;> simp [k1, *]
    · split_ifs <;> simp [k2]
    · split_ifs <;> simp [k2]
    · rfl
    · rfl
    · split_ifs <;> simp [k3]
    · split_ifs <;> simp [k4]
    · split_ifs <;> simp [k5]
    · split_ifs <;> simp [k6]
    · intro _
      split_ifs <;> rfl
    · intro hc
      rw [hh] at hc
      exact absurd hc (by simp)
  | true =>
    rw [hh] at h
    simp only [if_true] at h
    split_ifs at h with h1
    · simp at h
    · cases ht : testEpisode c .initial t1.startEpoch true t1 with
      | mk t2 r =>
        rw [ht] at h
        cases r with
        | error e => simp at h
        | ok s =>
          simp only [Prod.mk.injEq, and_true] at h
          subst h
          obtain ⟨w, raw, hs, hw⟩ := testEpisode_ok c _ _ _ _ _ _ ht
          simp only [if_true] at hs
          refine ⟨(if rc then [.resetCollectors rb] else []) ++
            [.test .initial t.within (startOf c t) (stepOf c t) raw s (c.score s) (c.out.policy w)] ++
            (if c.saveBest then [.saveBest (c.out.policy w)] else []), ?_⟩
          subst hw
          unfold resetFinish callSaveBest
          constructor
          · split_ifs <;> simp [k1, k2, k3, k6, *]
          · split_ifs <;> simp [k2]
          · split_ifs <;> simp [k2]
          · rfl
          · rfl
          · split_ifs <;> simp [k3]
          · split_ifs <;> simp [k4]
          · split_ifs <;> simp [k5]
          · split_ifs <;> simp [k6]
          · intro hc
            rw [hh] at hc
            exact absurd hc (by simp)
          · intro _
            refine ⟨raw, s, hs, ?_, ?_, ?_, ?_, ?_⟩
            · split_ifs <;> rfl
            · split_ifs <;> rfl
            · split_ifs <;> rfl
            · split_ifs <;> rfl
            · split_ifs <;> simp [k2]

variable [LT F] [DecidableRel (α := F) (· < ·)]

/-! ### Which epochs are run -/

theorem finish_tail {c : Cfg ω V F P} {t t' : T ω V F P} {o : Option (CStats V)} {tail : List (Ev V F P)}
    (h : Finish c t o tail t') : ¬ StoppedEarly c.stopFn c.out.mean tail := by
  cases h with
  | stopped h => exact stoppedEarly_nil _ _
  | untested h ht => simp [stoppedEarly_cons, HeadStop, stoppedEarly_nil]
  | better w raw s h ht hs hlt => split_ifs <;> simp [stoppedEarly_cons, HeadStop, stoppedEarly_nil]
  | notBetter w raw s h ht hs hlt => simp [stoppedEarly_cons, HeadStop, stoppedEarly_nil]

theorem Epoch.early {c : Cfg ω V F P} {t t' : T ω V F P} {y : EpochStats V F P} {os : List (Option (CStats V))}
    {evss : List (List (Ev V F P))} {mid : T ω V F P} {tail : List (Ev V F P)}
    (h : Epoch c t y t' os evss mid tail) : StoppedEarly c.stopFn c.out.mean y.trace ↔ mid.stopFlag = true := by
  rw [h.trace]
  exact stoppedEarly_rounds h.rounds (by exact h.flag) tail (finish_tail h.finish)

theorem Epoch.succeeded {c : Cfg ω V F P} {t t' : T ω V F P} {y : EpochStats V F P} {os : List (Option (CStats V))}
    {evss : List (List (Ev V F P))} {mid : T ω V F P} {tail : List (Ev V F P)}
    (h : Epoch c t y t' os evss mid tail) : Succeeded c.stopFn c.out.mean y ↔ t'.stopFlag = true := by
  unfold Succeeded
  rw [h.early, h.bestReward]
  have hmid : (if c.hasTrain = true then mid else offlineStep c mid).stopFlag = mid.stopFlag := by split_ifs <;> rfl
  have hfin := h.finish
  generalize y.testStat = o at hfin ⊢
  cases hfin with
  | stopped hf => rw [hmid] at hf ⊢; simp [hf]
  | untested hf ht => rw [hmid] at hf; simp [hmid]
  | better w raw s hf ht hs hlt =>
    rw [hmid] at hf
    simp [hf, accepts_iff]
  | notBetter w raw s hf ht hs hlt =>
    rw [hmid] at hf
    simp [hf, accepts_iff]

theorem Epoch.counts {c : Cfg ω V F P} {t t' : T ω V F P} {y : EpochStats V F P} {os : List (Option (CStats V))}
    {evss : List (List (Ev V F P))} {mid : T ω V F P} {tail : List (Ev V F P)}
    (h : Epoch c t y t' os evss mid tail) :
    t'.epoch = t.epoch + 1 ∧ t'.iterNum = t.iterNum + 1 ∧ t'.within = t.within := by
  obtain ⟨f1, _, _, f4, f5, f6, _⟩ := h.finish.kept
  obtain ⟨hk, _⟩ := h.rounds.kept
  have e1 : (if c.hasTrain = true then mid else offlineStep c mid).epoch = mid.epoch := by split_ifs <;> rfl
  have e2 : (if c.hasTrain = true then mid else offlineStep c mid).iterNum = mid.iterNum := by split_ifs <;> rfl
  have e3 : (if c.hasTrain = true then mid else offlineStep c mid).within = mid.within := by split_ifs <;> rfl
  exact ⟨by rw [f4, e1, hk.epoch], by rw [f5, e2, hk.iterNum], by rw [f6, e3, hk.within]⟩

theorem next_end (c : Cfg ω V F P) (fuel : Nat) (t t' : T ω V F P) (h : next c fuel t = some (t', .ok none)) :
    0 < t.iterNum ∧ (c.maxEpoch ≤ t.epoch ∨ t.stopFlag = true) := by
  unfold next at h
  simp only at h
  by_cases h1 : 1 < t.iterNum + 1 ∧ (c.maxEpoch < ((t.epoch + 1 : Nat) : Int) ∨ t.stopFlag = true)
  · refine ⟨by omega, ?_⟩
    rcases h1.2 with h2 | h2
    · left; omega
    · exact Or.inr h2
  · rw [if_neg h1] at h
    split at h
    · simp at h
    · simp at h
    · split at h <;> simp at h

theorem drain_ok (c : Cfg ω V F P) (fuel n : Nat) (t t' : T ω V F P) (ys : List (EpochStats V F P))
    (h : drain c fuel n t = some (t', .ok ys)) :
    ys.map EpochStats.epoch = List.range' (t.epoch + 1) ys.length ∧
      (ys = [] → 0 < t.iterNum ∧ (c.maxEpoch ≤ t.epoch ∨ t.stopFlag = true)) ∧
      (0 < t.iterNum → ys ≠ [] → (t.epoch : Int) + ys.length ≤ c.maxEpoch) ∧
      (1 < ys.length → (t.epoch : Int) + ys.length ≤ c.maxEpoch) ∧
      (∀ (i : Nat) (y : EpochStats V F P), ys[i]? = some y → i + 1 < ys.length → ¬ Succeeded c.stopFn c.out.mean y) ∧
      ∀ y, ys.getLast? = some y → Succeeded c.stopFn c.out.mean y ∨ c.maxEpoch ≤ (t.epoch : Int) + ys.length := by
  induction n generalizing t ys with
  | zero => simp [drain] at h
  | succ n ih =>
    rw [drain] at h
    cases hn : next c fuel t with
    | none => rw [hn] at h; simp at h
    | some res =>
      obtain ⟨t1, r⟩ := res
      rw [hn] at h
      cases r with
      | error e => simp at h
      | ok o =>
        cases o with
        | none =>
          simp only [Option.some.injEq, Prod.mk.injEq, Except.ok.injEq] at h
          obtain ⟨_, rfl⟩ := h
          have := next_end c fuel t t1 hn
          simpa using this
        | some y =>
          simp only at h
          cases hd : drain c fuel n t1 with
          | none => rw [hd] at h; simp at h
          | some res2 =>
            obtain ⟨t2, r2⟩ := res2
            rw [hd] at h
            cases r2 with
            | error e => simp at h
            | ok ys1 =>
              simp only [Option.some.injEq, Prod.mk.injEq, Except.ok.injEq] at h
              obtain ⟨rfl, rfl⟩ := h
              obtain ⟨os, evss, mid, tail, he⟩ := next_ok c fuel t t1 y hn
              obtain ⟨c1, c2, _⟩ := he.counts
              have hsuc := he.succeeded
              obtain ⟨i1, i2, i3, i4, i5, i6⟩ := ih t1 ys1 hd
              have hal := he.allowed
              have hep := he.epoch
              refine ⟨?_, by simp, ?_, ?_, ?_, ?_⟩
              · simp only [List.map_cons, List.length_cons, List.range'_succ, hep, i1, c1]
              · intro hpos _
                rcases hal with hal | hal
                · omega
                · cases ys1 with
                  | nil => simpa using hal
                  | cons z zs =>
                    have := i3 (by omega) (by simp)
                    simp only [List.length_cons] at this ⊢
                    push_cast at this ⊢
                    rw [c1] at this
                    push_cast at this
                    omega
              · intro hlen
                have hne : ys1 ≠ [] := by
                  rintro rfl
                  simp at hlen
                have := i3 (by omega) hne
                simp only [List.length_cons]
                push_cast
                rw [c1] at this
                push_cast at this
                omega
              · intro i z hz hi
                cases i with
                | zero =>
                  simp only [List.getElem?_cons_zero, Option.some.injEq] at hz
                  subst hz
                  rw [hsuc]
                  intro hflag
                  have hne : ys1 ≠ [] := by
                    rintro rfl
                    simp at hi
                  obtain ⟨z, zs, rfl⟩ := List.exists_cons_of_ne_nil hne
                  cases n with
                  | zero => simp [drain] at hd
                  | succ n =>
                    rw [drain] at hd
                    cases hn1 : next c fuel t1 with
                    | none => rw [hn1] at hd; simp at hd
                    | some res3 =>
                      obtain ⟨t3, r3⟩ := res3
                      rw [hn1] at hd
                      cases r3 with
                      | error e => simp at hd
                      | ok o3 =>
                        cases o3 with
                        | none => simp at hd
                        | some z1 =>
                          obtain ⟨_, _, _, _, he1⟩ := next_ok c fuel t1 t3 z1 hn1
                          rw [he1.flag] at hflag
                          exact absurd hflag (by simp)
                | succ i =>
                  simp only [List.getElem?_cons_succ] at hz
                  exact i5 i z hz (by simp only [List.length_cons] at hi; omega)
              · intro z hz
                cases ys1 with
                | nil =>
                  simp only [List.getLast?_singleton, Option.some.injEq] at hz
                  subst hz
                  rw [hsuc]
                  rcases (i2 rfl).2 with h2 | h2
                  · right
                    simp only [List.length_cons, List.length_nil]
                    rw [c1] at h2
                    push_cast at h2 ⊢
                    omega
                  · exact Or.inl h2
                | cons w ws =>
                  rw [List.getLast?_cons_cons] at hz
                  rcases i6 z hz with h2 | h2
                  · exact Or.inl h2
                  · right
                    simp only [List.length_cons] at h2 ⊢
                    rw [c1] at h2
                    push_cast at h2 ⊢
                    omega

/-! ### Termination -/

theorem collectTrain_steps (c : Cfg ω V F P) (hpos : ∀ b e n w, 0 < (c.out.collect b e n w).2.steps) (t t' : T ω V F P)
    (s : CStats V) (h : collectTrain c t = (t', .ok s)) : 0 < s.steps := by
  unfold collectTrain at h
  split_ifs at h with h1
  · simp at h
  · simp only at h
    by_cases h2 : c.out.hasNull (c.out.collect t.within t.epoch t.envStep t.world).1
    · rw [if_pos h2] at h
      simp at h
    · rw [if_neg h2] at h
      simp only [Prod.mk.injEq, Except.ok.injEq] at h
      have := hpos t.within t.epoch t.envStep t.world
      rw [← h.2]
      split_ifs
      · unfold Cfg.metric
        split <;> exact this
      · exact this

theorem trainingStep_steps (c : Cfg ω V F P) (hpos : c.hasTrain = true → ∀ b e n w, 0 < (c.out.collect b e n w).2.steps) (t t' : T ω V F P)
    (s : CStats V) (stop : Bool) (h : trainingStep c t = (t', .ok (some s, stop))) : 0 < s.steps := by
  unfold trainingStep withFlag at h
  simp only [Prod.mk.injEq] at h
  obtain ⟨-, h⟩ := h
  unfold trainingBody at h
  by_cases h1 : c.hasTrain = true
  · rw [if_pos h1] at h
    cases hc : collectTrain c { t with within := true } with
    | mk t1 r1 =>
      rw [hc] at h
      cases r1 with
      | error e => simp at h
      | ok s1 =>
        have hs := collectTrain_steps c (hpos h1) _ _ _ hc
        simp only at h
        cases he : withFlag false (earlyTest c s1) t1 with
        | mk t2 r2 =>
          rw [he] at h
          cases r2 with
          | error e => simp at h
          | ok b =>
            cases b with
            | true =>
              simp only [Except.ok.injEq, Prod.mk.injEq, Option.some.injEq] at h
              rw [← h.1]; exact hs
            | false =>
              simp only at h
              cases hp : policyUpdate c s1.steps t2 with
              | mk t3 r3 =>
                rw [hp] at h
                cases r3 with
                | error e => simp at h
                | ok u =>
                  simp only [Except.ok.injEq, Prod.mk.injEq, Option.some.injEq] at h
                  rw [← h.1]; exact hs
  · rw [if_neg h1] at h
    split_ifs at h with h2
    cases hp : policyUpdate c 0 { t with within := true } with
    | mk t3 r3 =>
      rw [hp] at h
      cases r3 <;> simp at h

theorem trainLoop_terminates (c : Cfg ω V F P) (hpos : c.hasTrain = true → ∀ b e n w, 0 < (c.out.collect b e n w).2.steps) (fuel : Nat)
    (n : Int) (ran : Bool) (t : T ω V F P) (hf : (c.stepPerEpoch - n).toNat < fuel) :
    ∃ r, trainLoop c fuel n ran t = some r := by
  induction fuel generalizing n ran t with
  | zero => omega
  | succ fuel ih =>
    rw [trainLoop]
    by_cases h : n < c.stepPerEpoch ∧ t.stopFlag = false
    · rw [if_pos h]
      cases hs : trainingStep c t with
      | mk t1 r =>
        cases r with
        | error e => exact ⟨_, rfl⟩
        | ok r =>
          obtain ⟨o, stop⟩ := r
          cases o with
          | none =>
            simp only
            split_ifs
            · exact ⟨_, rfl⟩
            · exact ih _ _ _ (by omega)
          | some s =>
            have := trainingStep_steps c hpos _ _ _ _ hs
            simp only
            split_ifs
            · exact ⟨_, rfl⟩
            · exact ih _ _ _ (by omega)
    · rw [if_neg h]
      exact ⟨_, rfl⟩

theorem next_terminates (c : Cfg ω V F P) (hpos : c.hasTrain = true → ∀ b e n w, 0 < (c.out.collect b e n w).2.steps) (t : T ω V F P) :
    ∃ r, next c (c.stepPerEpoch.toNat + 1) t = some r := by
  unfold next
  simp only
  split_ifs
  · exact ⟨_, rfl⟩
  · obtain ⟨r, hr⟩ := trainLoop_terminates c hpos (c.stepPerEpoch.toNat + 1) 0 false
      { t with epoch := t.epoch + 1, iterNum := t.iterNum + 1 } (by omega)
    rw [hr]
    obtain ⟨t1, r1⟩ := r
    cases r1 with
    | error e => exact ⟨_, rfl⟩
    | ok ran =>
      simp only
      cases hf : finishEpoch c t.log.length ran t1 with
      | mk t2 r2 => cases r2 <;> exact ⟨_, rfl⟩

theorem drain_terminates (c : Cfg ω V F P) (hpos : c.hasTrain = true → ∀ b e n w, 0 < (c.out.collect b e n w).2.steps) (n : Nat) (t : T ω V F P)
    (hn : (c.maxEpoch - t.epoch).toNat + (if t.iterNum = 0 then 1 else 0) < n) :
    ∃ r, drain c (c.stepPerEpoch.toNat + 1) n t = some r := by
  induction n generalizing t with
  | zero => omega
  | succ n ih =>
    rw [drain]
    obtain ⟨r, hr⟩ := next_terminates c hpos t
    rw [hr]
    obtain ⟨t1, r1⟩ := r
    cases r1 with
    | error e => exact ⟨_, rfl⟩
    | ok o =>
      cases o with
      | none => exact ⟨_, rfl⟩
      | some y =>
        simp only
        obtain ⟨_, _, _, _, he⟩ := next_ok c _ t t1 y hr
        obtain ⟨c1, c2, _⟩ := he.counts
        obtain ⟨r2, hr2⟩ := ih t1 (by
          rw [c1, c2, if_neg (by omega)]
          rcases he.allowed with ha | ha
          · rw [if_pos ha] at hn
            push_cast
            omega
          · push_cast
            split_ifs at hn <;> omega)
        rw [hr2]
        obtain ⟨t2, r3⟩ := r2
        cases r3 <;> exact ⟨_, rfl⟩

end Verif.Trainer
