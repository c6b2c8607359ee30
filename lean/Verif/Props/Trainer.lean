import Verif.Lemmas.TrainerTrace
import Verif.Lemmas.BatchUse
import Mathlib.Tactic.NormNum

/-! Properties C65-C69 and C80-C83: the trainers. -/

namespace Verif.Trainer

set_option linter.unusedSectionVars false

variable {ω V F P : Type}

/-! ### C65: epochs -/

section

variable [LT F] [DecidableRel (α := F) (· < ·)]

/-- C65, except that one epoch is always run (see `C65_violated`). If iterating over a trainer ends without an exception, the epochs are
`start + 1, start + 2, …`, at least one and at most up to `max_epoch`; the stop function did not succeed in any epoch but the
last, and it did in the last one unless that is `max_epoch`. -/
theorem C65_epochs_partial (c : Cfg ω V F P) (fuel n : Nat) (t t' : T ω V F P) (ys : List (EpochStats V F P))
    (h : iterate c fuel n t = some (t', .ok ys)) (start : Nat)
    (hstart : start = if c.resume then (c.out.restore t.world).1 else t.startEpoch) :
    1 ≤ ys.length ∧ ys.map EpochStats.epoch = List.range' (start + 1) ys.length ∧
      (start + ys.length : Int) ≤ max c.maxEpoch (start + 1) ∧
      (∀ (i : Nat) (y : EpochStats V F P), ys[i]? = some y → i + 1 < ys.length → ¬ Succeeded c.stopFn c.out.mean y) ∧
      ∀ y, ys.getLast? = some y → Succeeded c.stopFn c.out.mean y ∨ c.maxEpoch ≤ start + ys.length := by
  unfold iterate at h
  cases hr : reset c true false t with
  | mk t1 r =>
    rw [hr] at h
    cases r with
    | error e => simp at h
    | ok u =>
      simp only at h
      obtain ⟨evs, hs⟩ := reset_ok c true false t t1 hr
      obtain ⟨d1, d2, d3, d4, d5, d6⟩ := drain_ok c fuel n t1 t' ys h
      have he : t1.epoch = start := by rw [hs.epoch, hstart]; rfl
      rw [he] at d1 d2 d3 d4 d6
      have hne : ys ≠ [] := by
        intro h0
        have := (d2 h0).1
        rw [hs.iterNum] at this
        omega
      have hlen : 1 ≤ ys.length := List.length_pos_iff.2 hne
      refine ⟨hlen, d1, ?_, d5, d6⟩
      by_cases h1 : 1 < ys.length
      · exact le_max_of_le_left (d4 h1)
      · refine le_max_of_le_right ?_
        have : ys.length = 1 := by omega
        rw [this]
        simp

/-- C65. If every training collection makes at least one step, running a trainer ends, with or without an exception. -/
theorem C65_terminates (c : Cfg ω V F P) (hpos : c.hasTrain = true → ∀ b e n w, 1 ≤ (c.out.collect b e n w).2.steps)
    (resetPrior resetBuffer : Bool) (t : T ω V F P) :
    ∃ fuel n r, run c resetPrior resetBuffer fuel n t = some r := by
  refine ⟨c.stepPerEpoch.toNat + 1, c.maxEpoch.toNat + 2, ?_⟩
  have key : ∀ t, ∃ r, iterate c (c.stepPerEpoch.toNat + 1) (c.maxEpoch.toNat + 2) t = some r := by
    intro t
    unfold iterate
    cases hr : reset c true false t with
    | mk t1 r =>
      cases r with
      | error e => exact ⟨_, rfl⟩
      | ok u =>
        simp only
        refine drain_terminates c hpos _ t1 ?_
        split_ifs <;> omega
  unfold run
  split_ifs
  · cases hr : reset c true resetBuffer t with
    | mk t1 r =>
      cases r with
      | error e => exact ⟨_, rfl⟩
      | ok u => exact key t1
  · exact key t

end

/-- A small outside for examples: the world counts tests and collections, and the results are read off the given lists. -/
def demo (tests collects : List Int) : Outside (Nat × Nat) Int Int Nat where
  collect := fun _ _ _ w => ((w.1, w.2 + 1), ⟨3, 1, collects.getD w.2 0⟩)
  test := fun _ _ _ w => ((w.1 + 1, w.2), ⟨10, 2, tests.getD w.1 0⟩)
  update := fun _ w => w
  resetBuffer := fun w => w
  resetCollectors := fun _ w => w
  bufLen := fun _ => 10
  hasNull := fun _ => false
  policy := fun w => w.2
  restore := fun _ => (4, 40, 7)
  mean := fun v => v
  std := fun _ => 0

/-- A configuration for examples: 5 steps per epoch, two collections of 3 steps each. -/
def demoCfg (kind : Kind) (maxEpoch : Int) (resume : Bool) (metric : Option (Int → Int)) (tests collects : List Int) :
    Cfg (Nat × Nat) Int Int Nat where
  out := demo tests collects
  kind := kind
  maxEpoch := maxEpoch
  stepPerEpoch := 5
  batchSize := some 4
  episodePerTest := some 2
  hasTrain := true
  hasTest := true
  hasBuffer := false
  testAsync := false
  samePolicy := true
  stopFn := some fun x => 9 ≤ x
  scoreFn := none
  rewardMetric := metric
  saveBest := true
  resume := resume

/-- The result of a run without exception. -/
def yields {α β : Type} (r : Option (α × Except Err (List β))) : List β :=
  match r with
  | some (_, .ok ys) => ys
  | _ => []

/-- The state after a run. -/
def after {α β : Type} (r : Option (α × β)) : Option α := r.map Prod.fst

/-- Three epochs; in the third the test at the end succeeds. -/
example : (yields (iterate (demoCfg (.offpolicy (1 / 2)) 10 false none [1, 5, 3, 9] []) 9 9 (init true (0, 0)))).map
    EpochStats.epoch = [1, 2, 3] := by decide +kernel

/-- All epochs up to `max_epoch`. -/
example : (yields (iterate (demoCfg .onpolicy 2 false none [1, 5, 3, 9] []) 9 9 (init true (0, 0)))).map
    EpochStats.epoch = [1, 2] := by decide +kernel

/-- C65 does not hold as stated: if training is resumed at or after `max_epoch`, one more epoch is run. -/
theorem C65_violated : ∃ (c : Cfg (Nat × Nat) Int Int Nat) (t t' : T (Nat × Nat) Int Int Nat)
    (ys : List (EpochStats Int Int Nat)), iterate c 9 9 t = some (t', .ok ys) ∧ c.resume = true ∧
      (c.maxEpoch ≤ (c.out.restore t.world).1) ∧ ∃ y ∈ ys, c.maxEpoch < y.epoch := by
  refine ⟨demoCfg .onpolicy 4 true none [1, 5, 3, 9] [], init true (0, 0), _, _, rfl, rfl, by decide, ?_⟩
  exact ⟨_, List.mem_cons_self, by decide +kernel⟩

/-- C65. What is said of iterations in the properties below holds for `run`: its results are those of an iteration. -/
theorem C65_run_iterates [LT F] [DecidableRel (α := F) (· < ·)] (c : Cfg ω V F P) (resetPrior resetBuffer : Bool) (fuel n : Nat)
    (t t' : T ω V F P) (ys : List (EpochStats V F P)) (h : run c resetPrior resetBuffer fuel n t = some (t', .ok ys)) :
    ∃ t0 t'', (if resetPrior then Iterating c t [] t0 else t0 = t) ∧ Iterating c t0 ys t'' ∧
      t' = { t'' with epoch := t''.epoch + 1, iterNum := t''.iterNum + 1 } := by
  have key : ∀ t, iterate c fuel n t = some (t', .ok ys) → ∃ t'', Iterating c t ys t'' ∧
      t' = { t'' with epoch := t''.epoch + 1, iterNum := t''.iterNum + 1 } := by
    intro t h
    unfold iterate at h
    cases hr : reset c true false t with
    | mk t1 r =>
      rw [hr] at h
      cases r with
      | error e => simp at h
      | ok u => simpa using drain_iterating c fuel n t t1 t' [] ys (Iterating.start true false t1 hr) h
  unfold run at h
  cases resetPrior with
  | false => exact ⟨t, (key t h).choose, rfl, (key t h).choose_spec⟩
  | true =>
    simp only [if_true] at h
    cases hr : reset c true resetBuffer t with
    | mk t1 r =>
      rw [hr] at h
      cases r with
      | error e => simp at h
      | ok u => exact ⟨t1, (key t1 h).choose, Iterating.start true resetBuffer t1 hr, (key t1 h).choose_spec⟩

/-! ### C66: best score -/

section

variable [LinearOrder F]

/-- C66, as long as training was not stopped early (see `C66_violated`). After every epoch: the best score is the highest among the initial test and the
tests of all epochs so far, the best epoch is the first one in which it was attained, best reward and deviation are those of that test, and
`save_best_fn` was last called with the policy of that test. -/
theorem C66_best_partial (c : Cfg ω V F P) (t0 t : T ω V F P) (ys : List (EpochStats V F P)) (h : Iterating c t0 ys t)
    (htest : c.hasTest = true) (hearly : ∀ y ∈ ys, ¬ StoppedEarly c.stopFn c.out.mean y.trace) :
    ∃ tr, t.log = t0.log ++ tr ∧ (candidates tr).length = ys.length + 1 ∧
      ∃ (i : Nat) (b : Candidate V F P), (candidates tr)[i]? = some b ∧
        (∀ (j : Nat) (x : Candidate V F P), (candidates tr)[j]? = some x →
          x.score ≤ b.score ∧ (j < i → x.score < b.score)) ∧
        t.bestScore = b.score ∧ t.bestEpoch = b.epoch ∧ t.bestReward = c.out.mean b.stats.returns ∧
        t.bestStd = c.out.std b.stats.returns ∧ (c.saveBest = true → (saved tr).getLast? = some b.policy) ∧
        ∀ y, ys.getLast? = some y → y.bestScore = b.score ∧ y.bestReward = c.out.mean b.stats.returns ∧
          y.bestStd = c.out.std b.stats.returns := by
  induction h with
  | start rc rb t hr =>
    obtain ⟨evs, hs⟩ := reset_ok c rc rb t0 t hr
    obtain ⟨raw, s, h1, h2, h3, h4, h5, h6⟩ := hs.tested htest
    have hc : candidates evs = [⟨c.score s, startOf c t0, s, c.out.policy t.world⟩] := by
      rw [h2, candidates_append, candidates_append]
      split_ifs <;> rfl
    refine ⟨evs, hs.log, by rw [hc]; rfl, 0, _, by rw [hc]; rfl, ?_, h3, h6, h4, h5, ?_, by simp⟩
    · intro j x hx
      rw [hc] at hx
      cases j with
      | zero =>
        simp only [List.getElem?_cons_zero, Option.some.injEq] at hx
        subst hx
        exact ⟨le_refl _, fun hj => absurd hj (by omega)⟩
      | succ j => simp at hx
    · intro hsb
      rw [h2, saved_append, hsb]
      simp [saved]
  | next fuel ys y t t' hi hn ih =>
    obtain ⟨tr, i1, i2, i, b, i3, i4, i5, i6, i7, i8, i9, -⟩ := ih fun z hz => hearly z (by simp [hz])
    obtain ⟨os, evss, mid, tail, he⟩ := next_ok c fuel t t' y hn
    have hmid : mid.stopFlag = false := by
      have := hearly y (by simp)
      rw [he.early] at this
      simpa using this
    have hb := he.rounds.best hmid
    obtain ⟨hk, _⟩ := he.rounds.kept
    obtain ⟨q1, q2⟩ := he.rounds.quiet
    have e1 : (if c.hasTrain = true then mid else offlineStep c mid).bestScore = t.bestScore := by
      split_ifs <;> exact hb.score
    have e2 : (if c.hasTrain = true then mid else offlineStep c mid).bestReward = t.bestReward := by
      split_ifs <;> exact hb.reward
    have e3 : (if c.hasTrain = true then mid else offlineStep c mid).bestStd = t.bestStd := by
      split_ifs <;> exact hb.std
    have e4 : (if c.hasTrain = true then mid else offlineStep c mid).bestEpoch = t.bestEpoch := by
      split_ifs <;> exact hk.bestEpoch
    have e5 : (if c.hasTrain = true then mid else offlineStep c mid).stopFlag = false := by
      split_ifs <;> exact hmid
    generalize hm : (if c.hasTrain = true then mid else offlineStep c mid) = m at e1 e2 e3 e4 e5
    have hfin := he.finish
    rw [hm] at hfin
    have hcand : candidates y.trace = candidates tail := by rw [he.trace, candidates_append, q1, List.nil_append]
    have hsav : saved y.trace = saved tail := by rw [he.trace, saved_append, q2, List.nil_append]
    refine ⟨tr ++ y.trace, by rw [he.log, i1, List.append_assoc], ?_⟩
    rw [candidates_append, saved_append, hcand, hsav, List.length_append, i2]
    have y1 := he.bestScore
    have y2 := he.bestReward
    have y3 := he.bestStd
    generalize y.testStat = o at hfin
    cases hfin with
    | stopped hf => rw [e5] at hf; exact absurd hf (by simp)
    | untested hf ht => rw [htest] at ht; exact absurd ht (by simp)
    | better w raw s hf ht hs hlt =>
      have hc : candidates (Ev.checkpoint m.epoch m.envStep m.gradientStep ::
          Ev.test .epochEnd m.within m.epoch m.envStep raw s (c.score s) (c.out.policy w) ::
          (if c.saveBest = true then [Ev.saveBest (c.out.policy w)] else [])) =
          [⟨c.score s, m.epoch, s, c.out.policy w⟩] := by split_ifs <;> rfl
      rw [hc]
      refine ⟨by simp, ys.length + 1, ⟨c.score s, m.epoch, s, c.out.policy w⟩, ?_, ?_, rfl, rfl, rfl, rfl, ?_, ?_⟩
      · rw [List.getElem?_append_right (by omega), i2]
        simp
      · intro j x hx
        by_cases hj : j < ys.length + 1
        · rw [List.getElem?_append_left (by omega)] at hx
          have hx1 := (i4 j x hx).1
          have : x.score < c.score s := lt_of_le_of_lt hx1 (by rw [← i5, ← e1]; exact hlt)
          exact ⟨le_of_lt this, fun _ => this⟩
        · rw [List.getElem?_append_right (by omega), i2] at hx
          refine ⟨?_, fun h => absurd h hj⟩
          have : j - (ys.length + 1) = 0 := by
            by_contra hne
            rw [List.getElem?_eq_none (by simp; omega)] at hx
            exact absurd hx (by simp)
          rw [this] at hx
          simp only [List.getElem?_cons_zero, Option.some.injEq] at hx
          rw [← hx]
      · intro hsb
        rw [hsb]
        simp [saved]
      · intro z hz
        simp only [List.getLast?_append, List.getLast?_singleton, Option.some_or, Option.some.injEq] at hz
        subst hz
        exact ⟨y1, y2, y3⟩
    | notBetter w raw s hf ht hs hlt =>
      have hc : candidates [Ev.checkpoint m.epoch m.envStep m.gradientStep,
          Ev.test .epochEnd m.within m.epoch m.envStep raw s (c.score s) (c.out.policy w)] =
          [⟨c.score s, m.epoch, s, c.out.policy w⟩] := rfl
      rw [hc]
      have hilt : i < ys.length + 1 := by
        rw [← i2]
        by_contra hcon
        rw [List.getElem?_eq_none (by omega)] at i3
        exact absurd i3 (by simp)
      refine ⟨by simp, i, b, ?_, ?_, by rw [← i5, ← e1], by rw [← i6, ← e4], by rw [← i7, ← e2], by rw [← i8, ← e3], ?_, ?_⟩
      · rw [List.getElem?_append_left (by omega)]
        exact i3
      · intro j x hx
        by_cases hj : j < ys.length + 1
        · rw [List.getElem?_append_left (by omega)] at hx
          exact i4 j x hx
        · rw [List.getElem?_append_right (by omega), i2] at hx
          refine ⟨?_, fun h => absurd h (by omega)⟩
          have : j - (ys.length + 1) = 0 := by
            by_contra hne
            rw [List.getElem?_eq_none (by simp; omega)] at hx
            exact absurd hx (by simp)
          rw [this] at hx
          simp only [List.getElem?_cons_zero, Option.some.injEq] at hx
          rw [← hx]
          rw [e1, i5] at hlt
          exact not_lt.1 hlt
      · intro hsb
        have := i9 hsb
        simpa [saved] using this
      · intro z hz
        simp only [List.getLast?_append, List.getLast?_singleton, Option.some_or, Option.some.injEq] at hz
        subst hz
        refine ⟨?_, ?_, ?_⟩
        · rw [y1, ← i5, ← e1]
        · rw [y2, ← i7, ← e2]
        · rw [y3, ← i8, ← e3]

end

theorem Iterating.of_next {c : Cfg ω V F P} [LT F] [DecidableRel (α := F) (· < ·)] {t0 t1 : T ω V F P}
    {rc rb : Bool} (h0 : reset c rc rb t0 = (t1, .ok ())) : Iterating c t0 [] t1 := Iterating.start rc rb t1 h0

/-- Three epochs with scores 1 (initial), 5, 3, 5: the best epoch is the first one, and the saved policy is the one tested there
(after two collections). -/
example : ∃ (ys : List (EpochStats Int Int Nat)) (t : T (Nat × Nat) Int Int Nat),
    Iterating (demoCfg .onpolicy 3 false none [1, 5, 3, 5] []) (init true (0, 0)) ys t ∧ ys.length = 3 ∧
      t.bestScore = 5 ∧ t.bestEpoch = 1 ∧ (candidates t.log).map Candidate.score = [1, 5, 3, 5] ∧ saved t.log = [0, 2] := by
  refine ⟨_, _, Iterating.next 9 _ _ _ _ (Iterating.next 9 _ _ _ _ (Iterating.next 9 _ _ _ _
    (Iterating.start true false _ rfl) rfl) rfl) rfl, ?_, ?_, ?_, ?_, ?_⟩ <;> decide +kernel

/-- C66 does not hold as stated: when training is stopped early, the best score is overwritten with the score of the last test, which
may be lower than an earlier one; the saved policy is still the earlier one. -/
theorem C66_violated : ∃ (c : Cfg (Nat × Nat) Int Int Nat) (t0 t : T (Nat × Nat) Int Int Nat)
    (ys : List (EpochStats Int Int Nat)), Iterating c t0 ys t ∧ t0.log = [] ∧
      (∃ y, ys.getLast? = some y ∧ ∃ b ∈ candidates t.log, y.bestScore < b.score) ∧ t.bestScore = 9 ∧
      (saved t.log).getLast? = some 0 ∧ t.world.2 = 1 := by
  refine ⟨demoCfg .onpolicy 3 false none [20, 9] [12], init true (0, 0), _, _,
    Iterating.next 9 _ _ _ _ (Iterating.start true false _ rfl) rfl, rfl, ⟨_, rfl, ?_⟩, ?_, ?_, ?_⟩
  · refine ⟨⟨20, 0, ⟨10, 2, 20⟩, 0⟩, List.mem_cons_self, ?_⟩
    decide +kernel
  all_goals decide +kernel

/-! ### C67: off-policy training -/

section

variable [LT F] [DecidableRel (α := F) (· < ·)]

/-- C67. In an epoch of off-policy training, every collection of `n` steps is followed by as many updates as the integer nearest
to `update_per_step * n` (the even one if there are two), which is at least one. The collections make at least `step_per_epoch` steps in total, and
fewer before the last one. If training is stopped early, no update follows the last collection and the earlier ones made fewer than
`step_per_epoch` steps. -/
theorem C67_ratio (c : Cfg ω V F P) (ratio : ℚ) (hk : c.kind = .offpolicy ratio) (fuel : Nat) (t t' : T ω V F P)
    (y : EpochStats V F P) (h : next c fuel t = some (t', .ok (some y))) :
    ∃ bs : List (Nat × Nat), (∀ b ∈ bs, 1 ≤ b.2 ∧ Nearest (ratio * b.1) b.2) ∧
      ((¬ StoppedEarly c.stopFn c.out.mean y.trace ∧ bs ≠ [] ∧
          work y.trace = bs.flatMap (fun b => some b.1 :: List.replicate b.2 none) ∧
          c.stepPerEpoch ≤ (bs.map Prod.fst).sum ∧ (bs.dropLast.map Prod.fst).sum < c.stepPerEpoch) ∨
        (StoppedEarly c.stopFn c.out.mean y.trace ∧ (bs.map Prod.fst).sum < c.stepPerEpoch ∧
          ∃ n, work y.trace = bs.flatMap (fun b => some b.1 :: List.replicate b.2 none) ++ [some n])) := by
  obtain ⟨os, evss, mid, tail, he⟩ := next_ok c fuel t t' y h
  obtain ⟨bs, h1, h2⟩ := he.rounds.ratio hk (by exact he.flag)
  have hw : work y.trace = work evss.flatten := by
    rw [he.trace, work_append, he.finish.counted.2.2.2.1, List.append_nil]
  refine ⟨bs, h1, ?_⟩
  rw [he.early, hw]
  rcases h2 with ⟨g1, g2, g3, g4, g5⟩ | ⟨g1, g2, n, g3⟩
  · left
    have hne : bs ≠ [] := fun h0 => he.some_round (g4.1 h0)
    exact ⟨by simp [g1], hne, g2, by simpa using g3, by simpa using g5 hne⟩
  · exact Or.inr ⟨g1, by simpa using g2, n, g3⟩

/-- C67. A training step of off-policy training whose collection rounds to no update does not succeed, unless training is stopped early. -/
theorem C67_zero (c : Cfg ω V F P) (ratio : ℚ) (hk : c.kind = .offpolicy ratio) (t t' : T ω V F P) (s : CStats V)
    (stop : Bool) (h : trainingStep c t = (t', .ok (some s, stop))) (hz : Nearest (ratio * s.steps) 0) : stop = true := by
  obtain ⟨evs, hb⟩ := trainingStep_ok c t t' _ _ h
  have key : ∀ k g, Upd c s.steps k g → False := by
    intro k g hu
    unfold Upd at hu
    rw [hk] at hu
    obtain ⟨h1, h2, _⟩ := hu
    have h3 := nearest_pyRound (ratio * s.steps)
    rw [← h1] at h3
    have := nearest_unique _ _ _ h3 hz
    omega
  cases hb with
  | plain w _ k g ht hu hno => exact (key k g hu).elim
  | tested w _ r p k g ht hu hyes hno => exact (key k g hu).elim
  | stopped w _ r p ht hyes hyes' => rfl

/-- C67. It raises `ValueError` then. -/
theorem C67_raises (c : Cfg ω V F P) (ratio : ℚ) (hk : c.kind = .offpolicy ratio) (ht : c.hasTrain = true)
    (hstop : c.stopFn = none) (hep : c.episodePerTest.isSome) (t : T ω V F P)
    (hnull : ∀ w, c.out.hasNull w = false)
    (hz : Nearest (ratio * (c.out.collect true t.epoch t.envStep t.world).2.steps) 0) :
    (trainingStep c t).2 = .error .value := by
  have hz' : pyRound (ratio * (c.out.collect true t.epoch t.envStep t.world).2.steps) = 0 :=
    nearest_unique _ _ _ (nearest_pyRound _) hz
  obtain ⟨n, hn⟩ := Option.isSome_iff_exists.1 hep
  have hms : ∀ s, (c.metric s).steps = s.steps := by
    intro s
    unfold Cfg.metric
    split <;> rfl
  unfold trainingStep withFlag trainingBody collectTrain
  rw [if_pos ht]
  simp only [hn, Option.isNone_some, Bool.false_eq_true, if_false, hnull]
  unfold withFlag earlyTest
  simp only [Cfg.accepts, hstop, Bool.and_false, Bool.false_eq_true, if_false]
  unfold policyUpdate
  rw [hk]
  simp only [ht, Bool.not_true, Bool.false_eq_true, if_false]
  rw [if_pos]
  split_ifs
  · rw [hms]; exact hz'
  · exact hz'

end

/-- Half an update per step, two collections of 3 steps: the nearest integers to 1.5 are 1 and 2, and 2 is even. -/
example : (yields (iterate (demoCfg (.offpolicy (1 / 2)) 1 false none [1, 5] []) 9 9 (init true (0, 0)))).map
    (fun y => work y.trace) = [[some 3, none, none, some 3, none, none]] ∧ Nearest ((1 / 2 : ℚ) * 3) 2 := by
  refine ⟨by decide +kernel, ?_, fun _ => by decide⟩
  norm_num [abs_le]

/-- A tenth of an update per step: the first collection raises. -/
example : (trainingStep (demoCfg (.offpolicy (1 / 10)) 1 false none [1, 5] []) (init true (0, 0))).2.toOption = none ∧
    Nearest ((1 / 10 : ℚ) * 3) 0 := by
  refine ⟨by decide +kernel, ?_, ?_⟩
  · norm_num [abs_le]
  · norm_num

/-! ### C68: the counter of gradient steps of the on-policy trainer -/

theorem splitLoop_length (indices : List Nat) (size : Nat) (hs : 1 ≤ size) (fuel idx : Nat)
    (hf : indices.length < fuel + idx) :
    ((Batch.splitLoop indices size false fuel idx).length : Int) = -(-(((indices.length - idx : Nat) : Int)) / size) := by
  induction fuel generalizing idx with
  | zero =>
    rw [Batch.splitLoop, show indices.length - idx = 0 by omega]
    simp
  | succ fuel ih =>
    rw [Batch.splitLoop]
    by_cases h : idx < indices.length
    · rw [if_pos h, if_neg (by simp), List.length_cons]
      push_cast
      rw [ih (idx + size) (by omega)]
      by_cases h2 : idx + size ≤ indices.length
      · have e : ((indices.length - idx : Nat) : Int) = ((indices.length - (idx + size) : Nat) : Int) + size := by omega
        rw [e, neg_add, ← sub_eq_add_neg, Int.sub_ediv_of_dvd _ (dvd_refl _), Int.ediv_self (by omega)]
        omega
      · have e : ((indices.length - (idx + size) : Nat) : Int) = 0 := by omega
        rw [e]
        simp only [neg_zero, Int.zero_ediv, zero_add]
        have h3 : 0 < ((indices.length - idx : Nat) : Int) := by omega
        have h4 : ((indices.length - idx : Nat) : Int) ≤ size := by omega
        rw [show -((indices.length - idx : Nat) : Int) / size = -1 from ?_]
        · rfl
        · rw [Int.ediv_eq_iff_of_pos (by omega)]
          constructor <;> nlinarith
    · rw [if_neg h, show indices.length - idx = 0 by omega]
      simp

theorem onpolicySteps_ceil (b len : Nat) (hb : 1 ≤ b) :
    onpolicySteps (some (b : Int)) len = -(-(len : Int) / b) := by
  unfold onpolicySteps
  simp only
  rw [if_pos (by omega)]
  have hbq : (0 : ℚ) < b := by exact_mod_cast hb
  set k : Int := -(-(len : Int) / b) with hk
  have h1 : (b : Int) * k < len + b := by
    have := Int.lt_ediv_add_one_mul_self (-(len : Int)) (show (0 : Int) < b by omega)
    rw [hk]
    nlinarith
  have h2 : (len : Int) ≤ b * k := by
    have := Int.ediv_mul_le (-(len : Int)) (show (b : Int) ≠ 0 by omega)
    rw [hk]
    nlinarith
  have h1q : (b : ℚ) * k ≤ len + b - 1 := by
    have : (b : Int) * k ≤ len + b - 1 := by omega
    exact_mod_cast this
  have h2q : (len : ℚ) ≤ b * k := by exact_mod_cast h2
  have : ⌊((len : ℚ) - 1 / 10) / ((b : Int) : ℚ)⌋ = k - 1 := by
    rw [Int.floor_eq_iff]
    push_cast
    constructor
    · rw [le_div_iff₀ hbq]
      nlinarith
    · rw [div_lt_iff₀ hbq]
      nlinarith
  rw [this]
  ring

/-- C68, what is counted. An on-policy update increases the counter by the number of minibatches of `batch_size` rows (the last one possibly
smaller) that the buffer can be cut into. -/
theorem C68_counted_partial (c : Cfg ω V F P) (hk : c.kind = .onpolicy) (b : Nat) (hb : 1 ≤ b) (hbs : c.batchSize = some (b : Int))
    (n : Nat) (t t' : T ω V F P) (h : policyUpdate c n t = (t', .ok ())) (len : Nat)
    (hlen : len = c.out.bufLen (c.out.update t.within t.world)) (indices : List Nat)
    (hind : indices.length = len) (parts : List (List Nat)) (hp : Batch.split len b indices false = .ok parts) :
    t'.gradientStep = t.gradientStep + parts.length := by
  have h1 : t'.gradientStep = t.gradientStep + onpolicySteps c.batchSize len := by
    unfold policyUpdate at h
    rw [hk] at h
    simp only at h
    split_ifs at h
    · simp at h
    · simp only [Prod.mk.injEq, and_true] at h
      rw [← h, hlen]
  rw [h1, hbs, onpolicySteps_ceil b len hb]
  unfold Batch.split at hp
  simp only at hp
  rw [if_neg (show ¬ ((b : Int) = -1) by omega), if_pos (by omega)] at hp
  cases hp
  simp only [Bool.false_and, Int.toNat_natCast]
  rw [splitLoop_length indices b hb (len + 1) 0 (by omega)]
  simp [hind]

/-- C68 holds if the buffer is processed once, and its length is a multiple of the batch size or at most the batch size. -/
theorem C68_partial (c : Cfg ω V F P) (hk : c.kind = .onpolicy) (b : Nat) (hb : 1 ≤ b) (hbs : c.batchSize = some (b : Int))
    (n : Nat) (t t' : T ω V F P) (h : policyUpdate c n t = (t', .ok ())) (len : Nat)
    (hlen : len = c.out.bufLen (c.out.update t.within t.world)) (hpos : 1 ≤ len) (hfit : b ∣ len ∨ len ≤ b) :
    ∃ k, learnSteps c.batchSize 1 len = .ok k ∧ t'.gradientStep = t.gradientStep + k := by
  have hs : ∀ m, Batch.split len b (List.range len) m =
      .ok (Batch.splitLoop (List.range len) b (m && decide (len % b > 0)) (len + 1) 0) := by
    intro m
    unfold Batch.split
    simp only
    rw [if_neg (show ¬ ((b : Int) = -1) by omega), if_pos (by omega)]
    simp
  have h1 := C68_counted_partial c hk b hb hbs n t t' h len hlen (List.range len) (by simp) _ (hs false)
  refine ⟨(Batch.splitLoop (List.range len) b false (len + 1) 0).length, ?_, by simpa using h1⟩
  unfold learnSteps
  simp only [hbs]
  rw [if_neg (show ¬ ((b : Int) = 0) by omega), hs true]
  simp only [Except.map, one_mul, Except.ok.injEq, Bool.true_and]
  rcases hfit with hd | hle
  · rw [decide_eq_false (by rw [Nat.mod_eq_zero_of_dvd hd]; omega)]
  · by_cases hd : b = len
    · rw [hd, Nat.mod_self]
      rfl
    · rw [decide_eq_true (by rw [Nat.mod_eq_of_lt (by omega)]; omega)]
      have one : ∀ m, (Batch.splitLoop (List.range len) b m (len + 1) 0).length = 1 := by
        intro m
        rw [Batch.splitLoop, if_pos (by simp; omega)]
        have hn : Batch.splitLoop (List.range len) b m len (0 + b) = [] := by
          rw [Batch.splitLoop.eq_def]
          split
          · rfl
          · rw [if_neg (by simp; omega)]
        split_ifs
        · rfl
        · rw [hn]; rfl
      rw [one, one]

/-- C68 does not hold as stated: for 10 rows and batch size 3, the policy makes 3 steps (the last row joins the third minibatch) and the counter
increases by 4; without a batch size it makes one step and the counter increases by 2; processing 8 rows twice in minibatches of 4 makes 4 steps
and the counter increases by 2. -/
theorem C68_violated : (learnSteps (some 3) 1 10).toOption = some 3 ∧ onpolicySteps (some 3) 10 = 4 ∧
    (learnSteps none 1 10).toOption = some 1 ∧ onpolicySteps none 10 = 2 ∧
    (learnSteps (some 4) 2 8).toOption = some 4 ∧ onpolicySteps (some 4) 8 = 2 := by decide +kernel

/-- C68, the witness for a trainer: the counter after one on-policy update on 10 rows with batch size 4 is 3, for 2 steps of the policy. -/
theorem C68_trainer_violated : ∃ (c : Cfg (Nat × Nat) Int Int Nat) (t t' : T (Nat × Nat) Int Int Nat),
    c.kind = .onpolicy ∧ policyUpdate c 3 t = (t', .ok ()) ∧ c.out.bufLen (c.out.update t.within t.world) = 10 ∧
      (learnSteps c.batchSize 1 10).toOption = some 2 ∧ t'.gradientStep = t.gradientStep + 3 :=
  ⟨demoCfg .onpolicy 1 false none [] [], init true (0, 0), _, rfl, rfl, rfl, by decide +kernel, by decide +kernel⟩

/-- 8 rows in minibatches of 4. -/
example : (learnSteps (some 4) 1 8).toOption = some 2 ∧ onpolicySteps (some 4) 8 = 2 := by decide +kernel

/-! ### C69: run without reset -/

section

variable [LT F] [DecidableRel (α := F) (· < ·)]

/-- C69 does not hold for any trainer: running with `reset_prior_to_run=False` resets the collectors, sets the environment step back and
starts with epoch `start + 1` again, whatever the state. -/
theorem C69_violated (c : Cfg ω V F P) (fuel n : Nat) (t t' : T ω V F P) (ys : List (EpochStats V F P))
    (h : run c false false fuel n t = some (t', .ok ys)) :
    (∃ evs, t'.log = t.log ++ evs ∧ evs.head? = some (.resetCollectors false)) ∧
      ∃ y, ys.head? = some y ∧ y.epoch = (if c.resume then (c.out.restore t.world).1 else t.startEpoch) + 1 ∧
        ∀ e s st tr, y.trace = Ev.collect true e s st :: tr → s = if c.resume then (c.out.restore t.world).2.1 else 0 := by
  unfold run at h
  simp only [Bool.false_eq_true, if_false] at h
  obtain ⟨c1, c2, _⟩ := C65_epochs_partial c fuel n t t' ys h _ rfl
  unfold iterate at h
  cases hr : reset c true false t with
  | mk t1 r =>
    rw [hr] at h
    cases r with
    | error e => simp at h
    | ok u =>
      simp only at h
      obtain ⟨evs, hs⟩ := reset_ok c true false t t1 hr
      obtain ⟨_, tr, hlog, _⟩ := drain_flags c fuel n t1 t1.within rfl _ h
      simp only at hlog
      constructor
      · refine ⟨evs ++ tr, by rw [hlog, hs.log, List.append_assoc], ?_⟩
        cases ht : c.hasTest with
        | false => rw [hs.untested ht]; simp
        | true =>
          obtain ⟨_, _, _, h2, _⟩ := hs.tested ht
          rw [h2]; simp
      · cases ys with
        | nil => simp at c1
        | cons y ys =>
          refine ⟨y, rfl, ?_, ?_⟩
          · simp only [List.map_cons, List.length_cons, List.range'_succ, List.cons.injEq] at c2
            exact c2.1
          · intro e s st tr' htr
            cases n with
            | zero => simp [drain] at h
            | succ n =>
              rw [drain] at h
              cases hn : next c fuel t1 with
              | none => rw [hn] at h; simp at h
              | some res =>
                obtain ⟨t2, r2⟩ := res
                rw [hn] at h
                cases r2 with
                | error e => simp at h
                | ok o =>
                  cases o with
                  | none => simp at h
                  | some y1 =>
                    simp only at h
                    cases hd : drain c fuel n t2 with
                    | none => rw [hd] at h; simp at h
                    | some res3 =>
                      obtain ⟨t3, r3⟩ := res3
                      rw [hd] at h
                      cases r3 with
                      | error e => simp at h
                      | ok ys1 =>
                        simp only [Option.some.injEq, Prod.mk.injEq, Except.ok.injEq, List.cons.injEq] at h
                        obtain ⟨_, rfl, _⟩ := h
                        obtain ⟨os, evss, mid, tail, he⟩ := next_ok c fuel t1 t2 y1 hn
                        have hst := he.rounds.counted.2.2.1
                        have hcons : evss.flatten = [] ∨ ∃ tl, evss.flatten = Ev.collect true e s st :: tl := by
                          rw [he.trace] at htr
                          cases hfl : evss.flatten with
                          | nil => exact Or.inl rfl
                          | cons a l =>
                            rw [hfl] at htr
                            simp only [List.cons_append, List.cons.injEq] at htr
                            exact Or.inr ⟨l, by rw [htr.1]⟩
                        rcases hcons with h0 | ⟨tl, h0⟩
                        · exfalso
                          have hc := he.finish.counted.1
                          rw [he.trace, h0, List.nil_append] at htr
                          rw [htr] at hc
                          simp [collected] at hc
                        · have := hst [] _ tl s h0 rfl
                          simp only [collected, List.filterMap_nil, List.sum_nil] at this
                          rw [this, hs.envStep]
                          simp [stepOf]

/-- C69, what holds: `__next__` alone does not reset the collectors and makes no initial test. -/
theorem C69_next_partial (c : Cfg ω V F P) (fuel : Nat) (t t' : T ω V F P) (y : EpochStats V F P)
    (h : next c fuel t = some (t', .ok (some y))) :
    (∀ b, Ev.resetCollectors b ∉ y.trace) ∧ ∀ b e n raw s x p, Ev.test .initial b e n raw s x p ∉ y.trace := by
  have := next_events c fuel t t' y h
  exact ⟨fun b hb => (this _ hb).1 b rfl, fun b e n raw s x p hb => (this _ hb).2 b e n raw s x p rfl⟩

end

/-- A trainer that has been run up to epoch 2 and is run again without reset: the collectors are reset and epochs 1 and 2 are run again. -/
example : ∃ t, after (run (demoCfg .onpolicy 2 false none [1, 5, 3] []) true false 9 9 (init true (0, 0))) = some t ∧
    t.epoch = 3 ∧ t.envStep = 12 ∧
    ((yields (run (demoCfg .onpolicy 2 false none [1, 5, 3] []) false false 9 9 t)).map fun y => y.epoch) = [1, 2] := by
  refine ⟨_, rfl, ?_, ?_, ?_⟩ <;> decide +kernel

/-! ### C80: the reward metric -/

theorem metered (c : Cfg ω V F P) (raw : CStats V) : Metered c.rewardMetric raw (c.metric raw) := by
  unfold Cfg.metric
  constructor
  · split <;> rfl
  · split <;> rfl
  · intro h; rw [h]
  · intro f h; rw [h]

section

variable [LT F] [DecidableRel (α := F) (· < ·)]

/-- C80, without the test before an early stop (see `C80_violated`). The statistics of every initial test and every test at the end of an epoch are those after the reward metric, and
their score is computed from them. -/
theorem C80_tests_partial (c : Cfg ω V F P) (t0 t : T ω V F P) (ys : List (EpochStats V F P)) (h : Iterating c t0 ys t) :
    ∃ tr, t.log = t0.log ++ tr ∧ ∀ why b e n raw s x p, Ev.test why b e n raw s x p ∈ tr → why ≠ .early →
      Metered c.rewardMetric raw s ∧ (c.scoreFn = none → x = c.out.mean s.returns) ∧ ∀ f, c.scoreFn = some f → x = f s := by
  have hscore : ∀ s, (c.scoreFn = none → c.score s = c.out.mean s.returns) ∧ ∀ f, c.scoreFn = some f → c.score s = f s := by
    intro s
    unfold Cfg.score
    exact ⟨fun h => by rw [h], fun f h => by rw [h]⟩
  induction h with
  | start rc rb t hr =>
    obtain ⟨evs, hs⟩ := reset_ok c rc rb t0 t hr
    refine ⟨evs, hs.log, ?_⟩
    intro why b e n raw s x p hmem _
    cases ht : c.hasTest with
    | false =>
      rw [hs.untested ht] at hmem
      split_ifs at hmem <;> simp at hmem
    | true =>
      obtain ⟨raw', s', h1, h2, _⟩ := hs.tested ht
      rw [h2] at hmem
      have : Ev.test why b e n raw s x p = .test .initial t0.within (startOf c t0) (stepOf c t0) raw' s' (c.score s')
          (c.out.policy t.world) := by
        split_ifs at hmem <;> simpa using hmem
      simp only [Ev.test.injEq] at this
      obtain ⟨_, _, _, _, rfl, rfl, rfl, _⟩ := this
      rw [h1]
      exact ⟨metered c raw, hscore _⟩
  | next fuel ys y t t' hi hn ih =>
    obtain ⟨tr, h1, h2⟩ := ih
    obtain ⟨os, evss, mid, tail, he⟩ := next_ok c fuel t t' y hn
    refine ⟨tr ++ y.trace, by rw [he.log, h1, List.append_assoc], ?_⟩
    intro why b e n raw s x p hmem hwhy
    rcases List.mem_append.1 hmem with hmem | hmem
    · exact h2 why b e n raw s x p hmem hwhy
    · rw [he.trace] at hmem
      rcases List.mem_append.1 hmem with hmem | hmem
      · exfalso
        have hq := he.rounds.quiet.1
        have : (⟨x, e, s, p⟩ : Candidate V F P) ∈ candidates evss.flatten := by
          unfold candidates
          rw [List.mem_filterMap]
          refine ⟨_, hmem, ?_⟩
          cases why with
          | early => exact absurd rfl hwhy
          | initial => rfl
          | epochEnd => rfl
        rw [hq] at this
        simp at this
      · have hf := he.finish
        generalize y.testStat = o at hf
        generalize (if c.hasTrain = true then mid else offlineStep c mid) = m at hf
        have fin : ∀ w raw' s', s' = c.metric raw' → Ev.test why b e n raw s x p = .test .epochEnd m.within m.epoch
            m.envStep raw' s' (c.score s') (c.out.policy w) → Metered c.rewardMetric raw s ∧
            (c.scoreFn = none → x = c.out.mean s.returns) ∧ ∀ f, c.scoreFn = some f → x = f s := by
          intro w raw' s' hs heq
          simp only [Ev.test.injEq] at heq
          obtain ⟨_, _, _, _, rfl, rfl, rfl, _⟩ := heq
          rw [hs]
          exact ⟨metered c raw, hscore _⟩
        cases hf with
        | stopped h => simp at hmem
        | untested h ht => simp at hmem
        | better w raw' s' h ht hs hlt =>
          refine fin w raw' s' hs ?_
          split_ifs at hmem <;> simpa using hmem
        | notBetter w raw' s' h ht hs hlt =>
          refine fin w raw' s' hs ?_
          simpa using hmem

end

/-- C80, for training: the statistics of a training collection with a complete episode are those after the reward metric, and the ones of any
other collection are not changed. -/
theorem C80_training_partial (c : Cfg ω V F P) (t t' : T ω V F P) (s : CStats V) (stop : Bool)
    (h : trainingStep c t = (t', .ok (some s, stop))) :
    Metered (if 0 < s.episodes then c.rewardMetric else none) (c.out.collect true t.epoch t.envStep t.world).2 s := by
  have hs : s = if 0 < (c.out.collect true t.epoch t.envStep t.world).2.episodes
      then c.metric (c.out.collect true t.epoch t.envStep t.world).2
      else (c.out.collect true t.epoch t.envStep t.world).2 := by
    unfold trainingStep withFlag trainingBody at h
    simp only [Prod.mk.injEq] at h
    obtain ⟨_, h⟩ := h
    by_cases ht : c.hasTrain = true
    · rw [if_pos ht] at h
      cases hc : collectTrain c { t with within := true } with
      | mk t1 r1 =>
        rw [hc] at h
        cases r1 with
        | error e => simp at h
        | ok s1 =>
          have h1 : s1 = s := by
            simp only at h
            cases he : withFlag false (earlyTest c s1) t1 with
            | mk t2 r2 =>
              rw [he] at h
              cases r2 with
              | error e => simp at h
              | ok b =>
                cases b with
                | true =>
                  simp only [Except.ok.injEq, Prod.mk.injEq, Option.some.injEq] at h
                  exact h.1
                | false =>
                  simp only at h
                  cases hp : policyUpdate c s1.steps t2 with
                  | mk t3 r3 =>
                    rw [hp] at h
                    cases r3 with
                    | error e => simp at h
                    | ok u =>
                      simp only [Except.ok.injEq, Prod.mk.injEq, Option.some.injEq] at h
                      exact h.1
          unfold collectTrain at hc
          simp only at hc
          by_cases h2 : c.episodePerTest.isNone = true
          · rw [if_pos h2] at hc; simp at hc
          · rw [if_neg h2] at hc
            by_cases h3 : c.out.hasNull (c.out.collect true t.epoch t.envStep t.world).1 = true
            · rw [if_pos h3] at hc; simp at hc
            · rw [if_neg h3] at hc
              simp only [Prod.mk.injEq, Except.ok.injEq] at hc
              rw [← h1, ← hc.2]
    · rw [if_neg ht] at h
      split_ifs at h
      cases hp : policyUpdate c 0 { t with within := true } with
      | mk t3 r3 =>
        rw [hp] at h
        cases r3 <;> simp at h
  have hep : s.episodes = (c.out.collect true t.epoch t.envStep t.world).2.episodes := by
    rw [hs]
    split_ifs
    · exact (metered c _).episodes
    · rfl
  rw [hep]
  split_ifs with h1
  · rw [hs, if_pos h1]
    exact metered c _
  · rw [hs, if_neg h1]
    exact ⟨rfl, rfl, fun _ => rfl, fun f hf => by simp at hf⟩

/-- C80 does not hold as stated: the test before an early stop is used without the reward metric. Training stops although the metric of
the tested returns is not accepted by the stop function, and the best reward is not the metric of any returns. -/
theorem C80_violated : ∃ (c : Cfg (Nat × Nat) Int Int Nat) (t0 t : T (Nat × Nat) Int Int Nat)
    (y : EpochStats Int Int Nat), Iterating c t0 [y] t ∧ c.rewardMetric = some (fun x => -x) ∧
      StoppedEarly c.stopFn c.out.mean y.trace ∧ y.bestReward = 9 ∧
      ∀ why b e n raw s x p, Ev.test why b e n raw s x p ∈ t.log → c.out.mean (-raw.returns) ≠ 9 := by
  refine ⟨demoCfg .onpolicy 3 false (some fun x => -x) [-20, 9] [-12], init true (0, 0), _, _,
    Iterating.next 9 [] _ _ _ (Iterating.start true false _ rfl) rfl, rfl, ?_, by decide +kernel, ?_⟩
  · exact ⟨[], [], true, 1, 0, ⟨3, 1, 12⟩, .early, false, 1, 3, ⟨10, 2, 9⟩, ⟨10, 2, 9⟩, 9, 1, rfl, by decide,
      ⟨_, rfl, by decide⟩, ⟨_, rfl, by decide⟩⟩
  · have : ∀ ev ∈ (after ((next (demoCfg .onpolicy 3 false (some fun x => -x) [-20, 9] [-12]) 9
        (reset (demoCfg .onpolicy 3 false (some fun x => -x) [-20, 9] [-12]) true false (init true (0, 0))).1))).elim []
        T.log, (match ev with
          | Ev.test _ _ _ _ raw _ _ _ => !(raw.returns == -9)
          | _ => true) = true := by decide +kernel
    intro why b e n raw s x p hmem hx
    have h9 := this _ hmem
    change -raw.returns = 9 at hx
    simp only [Bool.not_eq_true', beq_eq_false_iff_ne, ne_eq] at h9
    omega

/-! ### C81: the training-step flag -/

/-- C81. During a run, also one that ends with an exception, collections and updates are made with `is_within_training_step` set, tests between a
collection and its updates are made with the flag cleared, and all other tests with the value from before the run. Afterwards the flag has that value. -/
theorem C81_flag [LT F] [DecidableRel (α := F) (· < ·)] (c : Cfg ω V F P) (resetPrior resetBuffer : Bool) (fuel n : Nat)
    (t t' : T ω V F P) (r : Except Err (List (EpochStats V F P)))
    (h : run c resetPrior resetBuffer fuel n t = some (t', r)) :
    t'.within = t.within ∧ ∃ tr, t'.log = t.log ++ tr ∧
      (∀ b e n s, Ev.collect b e n s ∈ tr → b = true) ∧ (∀ b, Ev.update b ∈ tr → b = true) ∧
      ∀ why b e n raw s x p, Ev.test why b e n raw s x p ∈ tr → b = if why = .early then false else t.within := by
  have key : ∀ t0, t0.within = t.within → iterate c fuel n t0 = some (t', r) → Flags t.within t0 t' := by
    intro t0 hw h
    unfold iterate at h
    have h1 := reset_flags c true false t0 t.within hw
    cases hr : reset c true false t0 with
    | mk t1 r1 =>
      rw [hr] at h h1
      cases r1 with
      | error e =>
        simp only [Option.some.injEq, Prod.mk.injEq] at h
        rw [← h.1]
        exact h1
      | ok u => exact h1.trans (drain_flags c fuel n t1 t.within (by rw [h1.1, hw]) _ h)
  have hfl : Flags t.within t t' := by
    unfold run at h
    split_ifs at h
    · have h1 := reset_flags c true resetBuffer t t.within rfl
      cases hr : reset c true resetBuffer t with
      | mk t1 r1 =>
        rw [hr] at h h1
        cases r1 with
        | error e =>
          simp only [Option.some.injEq, Prod.mk.injEq] at h
          rw [← h.1]
          exact h1
        | ok u => exact h1.trans (key t1 h1.1 h)
    · exact key t rfl h
  obtain ⟨h1, tr, h2, h3⟩ := hfl
  refine ⟨h1, tr, h2, fun b e n s hm => h3 _ hm, fun b hm => h3 _ hm, ?_⟩
  intro why b e n raw s x p hm
  have := h3 _ hm
  cases why with
  | early => exact this
  | initial => exact this
  | epochEnd => exact this

/-- A run that ends with an exception: the first collection rounds to no update. -/
example : (run (demoCfg (.offpolicy (1 / 10)) 1 false none [1, 5] []) true false 9 9 (init true (0, 0))).map
    (fun r => (r.1.log.length, r.1.within, r.2.toOption.isSome)) = some (7, false, false) := by decide +kernel

/-! ### C82: counters -/

/-- C82. In every iteration with a training collector, whatever `train_fn`, `test_fn` and the checkpoint function are given as environment step is
the start value plus the steps of all training collections made before, and the counter ends up at the start value plus all steps; the counter of episodes
is increased by the episodes of these collections. In off-policy training, the counter of gradient steps is increased by the number of updates. -/
theorem C82_counters [LT F] [DecidableRel (α := F) (· < ·)] (c : Cfg ω V F P) (t0 t : T ω V F P)
    (ys : List (EpochStats V F P)) (h : Iterating c t0 ys t) (htrain : c.hasTrain = true) (start grad : Int)
    (hstart : start = if c.resume then (c.out.restore t0.world).2.1 else 0)
    (hgrad : grad = if c.resume then ((c.out.restore t0.world).2.2 : Int) else t0.gradientStep) :
    ∃ tr, t.log = t0.log ++ tr ∧
      (∀ pre post b e n s, tr = pre ++ Ev.collect b e n s :: post → n = start + (collected pre).sum) ∧
      (∀ pre post why b e n raw s x p, tr = pre ++ Ev.test why b e n raw s x p :: post → n = start + (collected pre).sum) ∧
      (∀ pre post e n g, tr = pre ++ Ev.checkpoint e n g :: post → n = start + (collected pre).sum) ∧
      t.envStep = start + (collected tr).sum ∧ t.envEpisode = t0.envEpisode + (collectedEpisodes tr).sum ∧
      (c.kind ≠ .onpolicy → t.gradientStep = grad + updates tr) := by
  have key : ∃ tr, t.log = t0.log ++ tr ∧ Stamped start tr ∧ t.envStep = start + (collected tr).sum ∧
      t.envEpisode = t0.envEpisode + (collectedEpisodes tr).sum ∧
      (c.kind ≠ .onpolicy → t.gradientStep = grad + updates tr) := by
    induction h with
    | start rc rb t hr =>
      obtain ⟨evs, hs⟩ := reset_ok c rc rb t0 t hr
      have hq : collected evs = [] ∧ collectedEpisodes evs = [] ∧ updates evs = 0 ∧ Stamped start evs := by
        cases ht : c.hasTest with
        | false =>
          rw [hs.untested ht]
          refine ⟨by split_ifs <;> rfl, by split_ifs <;> rfl, by split_ifs <;> rfl, ?_⟩
          split_ifs
          · exact stamped_cons _ _ _ (by simp [stamp]) (stamped_cons _ _ _ (by simp [stamp]) (stamped_nil _))
          · exact stamped_cons _ _ _ (by simp [stamp]) (stamped_nil _)
          · exact stamped_cons _ _ _ (by simp [stamp]) (stamped_nil _)
          · exact stamped_nil _
        | true =>
          obtain ⟨raw, s, _, h2, _⟩ := hs.tested ht
          rw [h2]
          refine ⟨by split_ifs <;> rfl, by split_ifs <;> rfl, by split_ifs <;> rfl, ?_⟩
          have hst : stepOf c t0 = start := by rw [hstart]; rfl
          split_ifs
          · exact stamped_cons _ _ _ (by simp [stamp]) (stamped_cons _ _ _ (by simp [stamp, collected, hst])
              (stamped_cons _ _ _ (by simp [stamp]) (stamped_nil _)))
          · exact stamped_cons _ _ _ (by simp [stamp]) (stamped_cons _ _ _ (by simp [stamp, collected, hst])
              (stamped_nil _))
          · exact stamped_cons _ _ _ (by simp [stamp, hst]) (stamped_cons _ _ _ (by simp [stamp]) (stamped_nil _))
          · exact stamped_cons _ _ _ (by simp [stamp, hst]) (stamped_nil _)
      obtain ⟨q1, q2, q3, q4⟩ := hq
      refine ⟨evs, hs.log, q4, ?_, ?_, ?_⟩
      · rw [q1, hs.envStep, hstart]; simp [stepOf]
      · rw [q2, hs.envEpisode]; simp
      · intro _
        rw [q3, hs.gradientStep, hgrad]; simp [gradOf]
    | next fuel ys y t t' hi hn ih =>
      obtain ⟨tr, i1, i2, i3, i4, i5⟩ := ih
      obtain ⟨os, evss, mid, tail, he⟩ := next_ok c fuel t t' y hn
      obtain ⟨c1, c2, c3⟩ := he.counted
      obtain ⟨c0, c1⟩ := c1 htrain
      refine ⟨tr ++ y.trace, by rw [he.log, i1, List.append_assoc], ?_, ?_, ?_, ?_⟩
      · refine stamped_append _ _ _ i2 ?_
        rw [← i3]
        exact c1
      · rw [c0, i3, collected_append, List.sum_append]; push_cast; omega
      · rw [c2, i4, collectedEpisodes_append, List.sum_append]; omega
      · intro hk
        rw [c3 hk, i5 hk, updates_append]; push_cast; omega
  obtain ⟨tr, h1, h2, h3, h4, h5⟩ := key
  exact ⟨tr, h1, fun pre post b e n s he => h2 pre _ post n he rfl,
    fun pre post why b e n raw s x p he => h2 pre _ post n he rfl, fun pre post e n g he => h2 pre _ post n he rfl, h3, h4, h5⟩

/-- C82 for a new trainer without a log to resume from: the counters are the totals of what was done since it was constructed. -/
theorem C82_new [LT F] [DecidableRel (α := F) (· < ·)] [Zero F] (c : Cfg ω V F P) (tit : Bool) (w : ω) (t : T ω V F P)
    (ys : List (EpochStats V F P)) (h : Iterating c (init tit w) ys t) (htrain : c.hasTrain = true) (hr : c.resume = false) :
    t.envStep = (collected t.log).sum ∧ t.envEpisode = (collectedEpisodes t.log).sum ∧
      (c.kind ≠ .onpolicy → t.gradientStep = updates t.log) := by
  obtain ⟨tr, h1, _, _, _, h2, h3, h4⟩ := C82_counters c _ t ys h htrain 0 0 (by simp [hr]) (by simp [hr, init])
  have h1 : t.log = tr := by rw [h1]; rfl
  rw [h1]
  refine ⟨by simpa using h2, by rw [h3]; simp [init], fun hk => by simpa using h4 hk⟩

/-- C82 for offline training, where there are no environment steps: at the end of every epoch the counter is the number of samples used so far, the gradient steps
times the batch size, which is the size of the buffer if none is given. This is what the checkpoint function and the test are given. -/
theorem C82_offline [LT F] [DecidableRel (α := F) (· < ·)] (c : Cfg ω V F P) (fuel : Nat) (t t' : T ω V F P) (y : EpochStats V F P)
    (h : next c fuel t = some (t', .ok (some y))) (htrain : c.hasTrain = false) (hk : c.kind ≠ .onpolicy) (len : Nat) (size : Int)
    (hlen : ∀ w, c.out.bufLen w = len) (hsize : size = if c.batchSize = none ∨ c.batchSize = some 0 then (len : Int) else c.batchSize.getD 0) :
    t'.envStep = t'.gradientStep * size ∧ t'.gradientStep = t.gradientStep + updates y.trace ∧ y.gradientStep = t'.gradientStep ∧
      (∀ e n g, Ev.checkpoint e n g ∈ y.trace → e = y.epoch ∧ n = t'.gradientStep * size ∧ g = t'.gradientStep) ∧
      ∀ b e n raw s x p, Ev.test .epochEnd b e n raw s x p ∈ y.trace → e = y.epoch ∧ n = t'.gradientStep * size := by
  obtain ⟨os, evss, mid, tail, he⟩ := next_ok c fuel t t' y h
  have hf := he.finish
  have hg := he.counted.2.2 hk
  have hep : mid.epoch = y.epoch := by rw [he.epoch]; exact he.rounds.kept.1.epoch
  rw [htrain] at hf
  simp only [Bool.false_eq_true, if_false] at hf
  have h1 : (offlineStep c mid).envStep = mid.gradientStep * size := by
    unfold offlineStep
    rw [hsize]
    cases hb : c.batchSize with
    | none => simp [hlen]
    | some b =>
      by_cases h0 : b = 0
      · simp [h0, hlen]
      · simp [h0]
  have h2 : (offlineStep c mid).gradientStep = mid.gradientStep := rfl
  have h3 : (offlineStep c mid).epoch = mid.epoch := rfl
  obtain ⟨_, _, _, _, _, _, k1, _, k2⟩ := hf.kept
  have hup : ∀ ev ∈ evss.flatten, ∃ b, ev = Ev.update b := he.rounds.updates_only htrain
  have htail : ∀ ev ∈ tail, (∃ ev0, ev = Ev.saveBest ev0) ∨ ev = Ev.checkpoint mid.epoch (mid.gradientStep * size) mid.gradientStep ∨
      ∃ b raw s x p, ev = Ev.test .epochEnd b mid.epoch (mid.gradientStep * size) raw s x p := by
    intro ev hev
    rw [← h1, ← h2, ← h3]
    generalize offlineStep c mid = m at hf
    generalize y.testStat = o at hf
    cases hf with
    | stopped h => simp at hev
    | untested h ht =>
      simp only [List.mem_singleton] at hev
      exact .inr (.inl hev)
    | better w raw s h ht hs hlt =>
      simp only [List.mem_cons] at hev
      rcases hev with hev | hev | hev
      · exact .inr (.inl hev)
      · exact .inr (.inr ⟨_, _, _, _, _, hev⟩)
      · split_ifs at hev
        · exact .inl ⟨_, by simpa using hev⟩
        · simp at hev
    | notBetter w raw s h ht hs hlt =>
      simp only [List.mem_cons, List.not_mem_nil, or_false] at hev
      rcases hev with hev | hev
      · exact .inr (.inl hev)
      · exact .inr (.inr ⟨_, _, _, _, _, hev⟩)
  have hall : ∀ ev ∈ y.trace, (∃ b, ev = Ev.update b) ∨ ev ∈ tail := by
    intro ev hev
    rw [he.trace] at hev
    exact (List.mem_append.1 hev).imp (hup ev) id
  refine ⟨by rw [k1, k2, h1, h2], hg, he.gradientStep, ?_, ?_⟩
  · intro e n g hm
    rw [k2, h2, ← hep]
    rcases hall _ hm with ⟨b, hb⟩ | hb
    · simp at hb
    · rcases htail _ hb with ⟨_, h⟩ | h | ⟨_, _, _, _, _, h⟩
      · simp at h
      · simpa using h
      · simp at h
  · intro b e n raw s x p hm
    rw [k2, h2, ← hep]
    rcases hall _ hm with ⟨b, hb⟩ | hb
    · simp at hb
    · rcases htail _ hb with ⟨_, h⟩ | h | ⟨_, _, _, _, _, h⟩
      · simp at h
      · simp at h
      · simp only [Ev.test.injEq] at h
        exact ⟨h.2.2.1, h.2.2.2.1⟩

/-- Offline training with batches of 4 and of all 10 samples: two epochs of 5 updates. -/
example : [some 4, none].map (fun b => (after (iterate { demoCfg .offline 2 false none [1, 5, 6] [] with
      hasTrain := false, hasBuffer := true, batchSize := b } 9 9 (init true (0, 0)))).map
    (fun t => ([t.envStep, t.gradientStep], t.log.filterMap stamp))) =
    [some ([40, 10], [0, 20, 20, 40, 40]), some ([100, 10], [0, 50, 50, 100, 100])] := by decide +kernel

/-- Resumed at environment step 40 and gradient step 7: two collections of 3 steps and two updates each. -/
example : (after (iterate (demoCfg (.offpolicy (1 / 2)) 5 true none [1, 5] []) 9 9 (init true (0, 0)))).map
    (fun t => ([t.envStep, t.envEpisode, t.gradientStep], t.log.filterMap stamp, collected t.log)) =
    some ([46, 2, 11], [40, 40, 43, 46, 46], [3, 3]) := by decide +kernel

/-! ### C83: reset -/

/-- C83, what holds: a reset sets the counter of environment steps to zero and the epoch to the start epoch, or both to the values from the log. -/
theorem C83_reset_partial (c : Cfg ω V F P) (rc rb : Bool) (t t' : T ω V F P) (h : reset c rc rb t = (t', .ok ())) :
    (c.resume = false → t'.envStep = 0 ∧ t'.epoch = t.startEpoch) ∧
      (c.resume = true → (t'.epoch, t'.envStep, t'.gradientStep) =
        ((c.out.restore t.world).1, (c.out.restore t.world).2.1, ((c.out.restore t.world).2.2 : Int))) := by
  obtain ⟨evs, hs⟩ := reset_ok c rc rb t t' h
  rw [hs.epoch, hs.envStep, hs.gradientStep]
  unfold startOf stepOf gradOf
  constructor
  · intro hr; rw [hr]; simp
  · intro hr; rw [hr]; simp

/-- C83 does not hold as stated, for any trainer: a reset keeps the counter of episodes, and without a log also the counter of gradient steps. -/
theorem C83_violated (c : Cfg ω V F P) (rc rb : Bool) (t t' : T ω V F P) (h : reset c rc rb t = (t', .ok ())) :
    t'.envEpisode = t.envEpisode ∧ (c.resume = false → t'.gradientStep = t.gradientStep) := by
  obtain ⟨evs, hs⟩ := reset_ok c rc rb t t' h
  refine ⟨hs.envEpisode, ?_⟩
  intro hr
  rw [hs.gradientStep]
  simp [gradOf, hr]

/-- A trainer is run twice: at the end the counters of episodes and gradient steps are those of both runs, the counter of
environment steps is that of the second run. -/
example : (after (run (demoCfg (.offpolicy (1 / 2)) 2 false none [1, 5, 3] []) true false 9 9 (init true (0, 0)))).map
      (fun t => ([t.envStep, t.envEpisode, t.gradientStep] : List Int)) = some [12, 4, 8] ∧
    ((after (run (demoCfg (.offpolicy (1 / 2)) 2 false none [1, 5, 3] []) true false 9 9 (init true (0, 0)))).bind fun t =>
      after (run (demoCfg (.offpolicy (1 / 2)) 2 false none [1, 5, 3] []) true false 9 9 t)).map
      (fun t => ([t.envStep, t.envEpisode, t.gradientStep] : List Int)) = some [12, 8, 16] := by decide +kernel

/-! ### C84: the initial test -/

/-- C84 does not hold as stated, for any trainer with a test collector: `run()` makes the initial test twice. -/
theorem C84_violated [LT F] [DecidableRel (α := F) (· < ·)] (c : Cfg ω V F P) (ht : c.hasTest = true) (rb : Bool)
    (fuel n : Nat) (t t' : T ω V F P) (ys : List (EpochStats V F P)) (h : run c true rb fuel n t = some (t', .ok ys)) :
    ∃ tr, t'.log = t.log ++ tr ∧ initialTests tr = 2 := by
  obtain ⟨t0, t'', h1, h2, h3⟩ := C65_run_iterates c true rb fuel n t t' ys h
  rw [if_pos rfl] at h1
  obtain ⟨tr1, g1, g2⟩ := h1.initialTests
  obtain ⟨tr2, g3, g4⟩ := h2.initialTests
  refine ⟨tr1 ++ tr2, by rw [h3]; simp only; rw [g3, g1, List.append_assoc], ?_⟩
  rw [initialTests_append, g2, g4, ht]
  rfl

/-- C84 holds for `run(reset_prior_to_run=False)`. -/
theorem C84_once_partial [LT F] [DecidableRel (α := F) (· < ·)] (c : Cfg ω V F P) (ht : c.hasTest = true) (rb : Bool)
    (fuel n : Nat) (t t' : T ω V F P) (ys : List (EpochStats V F P)) (h : run c false rb fuel n t = some (t', .ok ys)) :
    ∃ tr, t'.log = t.log ++ tr ∧ initialTests tr = 1 := by
  obtain ⟨t0, t'', h1, h2, h3⟩ := C65_run_iterates c false rb fuel n t t' ys h
  rw [if_neg (by simp)] at h1
  subst h1
  obtain ⟨tr2, g3, g4⟩ := h2.initialTests
  refine ⟨tr2, by rw [h3]; exact g3, ?_⟩
  rw [g4, ht]
  rfl

example : ((after (run (demoCfg .onpolicy 2 false none [1, 5, 3] []) true false 9 9 (init true (0, 0)))).map fun t =>
    initialTests t.log) = some 2 := by decide +kernel

end Verif.Trainer
