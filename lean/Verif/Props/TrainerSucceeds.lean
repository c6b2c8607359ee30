import Verif.Props.Trainer

/-! Property C107: trainers do not fail. -/

set_option linter.unusedSectionVars false

namespace Verif.Trainer

variable {ω V F P : Type}

/-- A sensible configuration: at least one step per epoch, test episodes and a test collector that returns some (if
there is one); for training, either a collector that returns steps, without a hole in its buffer, and at least one update
per collection, or a buffer that is not empty and the offline trainer. -/
structure Sensible (c : Cfg ω V F P) : Prop where
  steps : 0 < c.stepPerEpoch
  episodes : ∃ n, c.episodePerTest = some n ∧ 0 < n
  test : c.hasTest = true → c.testAsync = false ∧ ∀ b e n w, 0 < (c.out.test b e n w).2.episodes
  train : (c.hasTrain = true ∧ (∀ w, c.out.hasNull w = false) ∧ (∀ b e n w, 0 < (c.out.collect b e n w).2.steps) ∧
      (c.kind = .onpolicy ∨ ∃ ratio, c.kind = .offpolicy ratio ∧
        ∀ b e n w, (1 / 2 : ℚ) < ratio * (c.out.collect b e n w).2.steps)) ∨
    (c.hasTrain = false ∧ c.hasBuffer = true ∧ c.kind = .offline ∧ ∀ w, 0 < c.out.bufLen w)

/-- `test_in_train` is on only if there is a test collector. -/
def Able (c : Cfg ω V F P) (t : T ω V F P) : Prop := c.hasTrain = true → t.testInTrain = true → c.hasTest = true

theorem testEpisode_succeeds {c : Cfg ω V F P} (h : Sensible c) (ht : c.hasTest = true) (why : Why) (e : Nat) (m : Bool)
    (t : T ω V F P) : ∃ t' s, testEpisode c why e m t = (t', .ok s) ∧ t'.testInTrain = t.testInTrain := by
  unfold testEpisode
  simp only
  rw [if_pos ((h.test ht).2 _ _ _ _)]
  exact ⟨_, _, rfl, rfl⟩

theorem pyRound_pos (x : ℚ) (h : 1 / 2 < x) : 0 < pyRound x := by
  have hn := nearest_pyRound x
  by_contra hc
  push Not at hc
  have h0 : (pyRound x : ℚ) ≤ 0 := by exact_mod_cast hc
  have h1 : |x - pyRound x| ≤ 1 / 2 := hn.1
  rw [abs_le] at h1
  linarith

theorem collect_steps (c : Cfg ω V F P) (t t' : T ω V F P) (s : CStats V) (h : collectTrain c t = (t', .ok s)) :
    s.steps = (c.out.collect t.within t.epoch t.envStep t.world).2.steps ∧ t'.testInTrain = t.testInTrain := by
  unfold collectTrain at h
  by_cases h1 : c.episodePerTest.isNone = true
  · rw [if_pos h1] at h
    simp at h
  · rw [if_neg h1] at h
    simp only at h
    by_cases h2 : c.out.hasNull (c.out.collect t.within t.epoch t.envStep t.world).1 = true
    · rw [if_pos h2] at h
      simp at h
    · rw [if_neg h2] at h
      simp only [Prod.mk.injEq, Except.ok.injEq] at h
      obtain ⟨h, rfl⟩ := h
      refine ⟨?_, by rw [← h]⟩
      unfold Cfg.metric
      split_ifs
      · cases c.rewardMetric <;> rfl
      · rfl

theorem sampleLoop_kept (c : Cfg ω V F P) (n : Nat) (t : T ω V F P) : (sampleLoop c n t).testInTrain = t.testInTrain := by
  induction n generalizing t with
  | zero => rfl
  | succ n ih => rw [sampleLoop, ih]; rfl

theorem trainingStep_succeeds {c : Cfg ω V F P} (h : Sensible c) (t : T ω V F P) (ha : Able c t) :
    ∃ t' o stop, trainingStep c t = (t', .ok (o, stop)) ∧ t'.testInTrain = t.testInTrain ∧
      (o = none → 0 < c.out.bufLen t'.world) := by
  obtain ⟨n, hn, hn0⟩ := h.episodes
  rcases h.train with ⟨h1, h2, h3, h4⟩ | ⟨h1, h2, h3, h4⟩
  · obtain ⟨t1, s, hc⟩ : ∃ t1 s, collectTrain c { t with within := true } = (t1, .ok s) := by
      unfold collectTrain
      rw [hn]
      simp only [Option.isNone_some, Bool.false_eq_true, if_false, h2]
      exact ⟨_, _, rfl⟩
    obtain ⟨hs, hk⟩ := collect_steps c _ _ _ hc
    obtain ⟨t2, stop, he, hk2⟩ : ∃ t2 stop, withFlag false (earlyTest c s) t1 = (t2, .ok stop) ∧
        t2.testInTrain = t1.testInTrain := by
      unfold withFlag earlyTest
      simp only
      split_ifs with g1 g2 g3
      · simp only [Bool.and_eq_true] at g1
        have := ha h1 (by rw [← hk]; exact g1.1.2)
        simp [this] at g2
      · simp [Cfg.testsEpisodes, hn, hn0] at g3
      · have htest : c.hasTest = true := by simpa using g2
        obtain ⟨t3, r, hr, hk3⟩ := testEpisode_succeeds h htest .early t1.epoch false { t1 with within := false }
        rw [hr]
        simp only
        split_ifs
        · exact ⟨_, _, rfl, hk3⟩
        · exact ⟨_, _, rfl, hk3⟩
      · exact ⟨_, _, rfl, rfl⟩
    have hbody : ∃ t' o stop, trainingBody c { t with within := true } = (t', .ok (some o, stop)) ∧
        t'.testInTrain = t.testInTrain := by
      unfold trainingBody
      rw [if_pos h1, hc]
      simp only
      rw [he]
      cases stop with
      | true => exact ⟨_, _, _, rfl, hk2.trans hk⟩
      | false =>
        simp only
        rcases h4 with h4 | ⟨ratio, h4, h5⟩
        · unfold policyUpdate
          rw [h4]
          simp only [h1, Bool.not_true, Bool.false_eq_true, if_false]
          exact ⟨_, s, false, rfl, hk2.trans hk⟩
        · have hpos := pyRound_pos _ (h5 true t.epoch t.envStep t.world)
          rw [← hs] at hpos
          refine ⟨sampleLoop c (pyRound (ratio * s.steps)).toNat t2, s, false, ?_, (sampleLoop_kept ..).trans (hk2.trans hk)⟩
          unfold policyUpdate
          rw [h4]
          simp only [h1, Bool.not_true, Bool.false_eq_true, if_false]
          rw [if_neg hpos.ne', if_neg (by omega)]
    obtain ⟨t', o, stop', hb, hk'⟩ := hbody
    refine ⟨{ t' with within := t.within }, some o, stop', ?_, hk', by simp⟩
    unfold trainingStep withFlag
    simp only [hb]
  · refine ⟨{ sampleAndUpdate c { t with within := true } with within := t.within }, none, false, ?_, rfl, fun _ => h4 _⟩
    unfold trainingStep withFlag trainingBody policyUpdate
    simp only [h1, h2, h3, h4, Bool.false_eq_true, if_false, Bool.not_true, Bool.true_and, decide_true, if_true]

theorem trainLoop_succeeds {c : Cfg ω V F P} (h : Sensible c) (fuel : Nat) (n : Int) (ran : Bool) (t : T ω V F P)
    (ha : Able c t) (r : T ω V F P × Except Err Bool) (hr : trainLoop c fuel n ran t = some r) :
    ∃ t' ran', r = (t', .ok ran') ∧ t'.testInTrain = t.testInTrain ∧
      (ran = true ∨ (n < c.stepPerEpoch ∧ t.stopFlag = false) → ran' = true) := by
  induction fuel generalizing n ran t with
  | zero => simp [trainLoop] at hr
  | succ fuel ih =>
    rw [trainLoop] at hr
    by_cases hc : n < c.stepPerEpoch ∧ t.stopFlag = false
    · rw [if_pos hc] at hr
      obtain ⟨t1, o, stop, h1, h2, h3⟩ := trainingStep_succeeds h t ha
      rw [h1] at hr
      cases o with
      | some s =>
        simp only at hr
        split_ifs at hr with hs
        · cases hr
          exact ⟨_, _, rfl, h2, fun _ => rfl⟩
        · obtain ⟨t', ran', e, k, hran⟩ := ih _ _ { t1 with stopFlag := stop }
            (fun a b => ha a (by rw [← h2]; exact b)) hr
          exact ⟨t', ran', e, k.trans h2, fun _ => hran (Or.inl rfl)⟩
      | none =>
        simp only at hr
        rw [if_neg (h3 rfl).ne'] at hr
        obtain ⟨t', ran', e, k, hran⟩ := ih _ _ { t1 with stopFlag := stop }
          (fun a b => ha a (by rw [← h2]; exact b)) hr
        exact ⟨t', ran', e, k.trans h2, fun _ => hran (Or.inl rfl)⟩
    · rw [if_neg hc] at hr
      cases hr
      exact ⟨_, _, rfl, rfl, fun hh => hh.resolve_right hc⟩

variable [LT F] [DecidableRel (α := F) (· < ·)]

theorem evaluate_succeeds {c : Cfg ω V F P} (h : Sensible c) (t : T ω V F P) :
    ∃ t' o, evaluate c t = (t', .ok o) ∧ t'.testInTrain = t.testInTrain := by
  obtain ⟨n, hn, hn0⟩ := h.episodes
  unfold evaluate
  split_ifs with h1 h2
  · exact ⟨_, _, rfl, rfl⟩
  · obtain ⟨t3, r, hr, hk3⟩ := testEpisode_succeeds h h2 .epochEnd t.epoch true
      { t with log := t.log ++ [.checkpoint t.epoch t.envStep t.gradientStep] }
    unfold testStep
    simp only [hn, Option.isNone_some, Bool.false_eq_true, if_false, hr]
    refine ⟨_, _, rfl, ?_⟩
    unfold updateBest callSaveBest
    split_ifs <;> exact hk3
  · exact ⟨_, _, rfl, rfl⟩

theorem next_succeeds {c : Cfg ω V F P} (h : Sensible c) (fuel : Nat) (t : T ω V F P) (ha : Able c t)
    (hs : t.iterNum = 0 → t.stopFlag = false) (r : T ω V F P × Except Err (Option (EpochStats V F P)))
    (hr : next c fuel t = some r) : ∃ t' o, r = (t', .ok o) ∧ Able c t' ∧ 0 < t'.iterNum := by
  unfold next at hr
  simp only at hr
  split_ifs at hr with h1
  · cases hr
    exact ⟨_, _, rfl, ha, Nat.succ_pos _⟩
  · have hstop : t.stopFlag = false := by
      by_cases h0 : t.iterNum = 0
      · exact hs h0
      · cases hf : t.stopFlag with
        | false => rfl
        | true => exact absurd ⟨by omega, Or.inr hf⟩ h1
    cases hl : trainLoop c fuel 0 false { t with epoch := t.epoch + 1, iterNum := t.iterNum + 1 } with
    | none => rw [hl] at hr; simp at hr
    | some r1 =>
      rw [hl] at hr
      obtain ⟨t1, ran, rfl, k1, hran⟩ := trainLoop_succeeds h fuel 0 false
        { t with epoch := t.epoch + 1, iterNum := t.iterNum + 1 } ha r1 hl
      have hran' := hran (Or.inr ⟨h.steps, hstop⟩)
      subst hran'
      simp only at hr
      obtain ⟨t2, o, he, k2⟩ := evaluate_succeeds h (if c.hasTrain then t1 else offlineStep c t1)
      have hsrc : (!c.hasTrain && !c.hasBuffer) = false := by
        rcases h.train with ⟨g, _⟩ | ⟨_, g, _⟩ <;> simp [g]
      obtain ⟨y, hf⟩ : ∃ y, finishEpoch c t.log.length true t1 = (t2, .ok y) := by
        unfold finishEpoch
        rw [hsrc]
        simp only [Bool.false_eq_true, if_false, he, if_true]
        exact ⟨_, rfl⟩
      rw [hf] at hr
      simp only [Option.some.injEq] at hr
      refine ⟨t2, some y, hr.symm, ?_, ?_⟩
      · intro a b
        refine ha a ?_
        rw [← k1]
        rw [k2] at b
        rw [if_pos a] at b
        exact b
      · have hnext : next c fuel t = some (t2, .ok (some y)) := by
          unfold next
          simp only
          rw [if_neg h1, hl]
          simp only [hf]
        obtain ⟨_, _, _, _, hep⟩ := next_ok c fuel t t2 y hnext
        obtain ⟨_, c2, _⟩ := hep.counts
        omega

theorem drain_succeeds {c : Cfg ω V F P} (h : Sensible c) (fuel n : Nat) (t : T ω V F P) (ha : Able c t)
    (hs : t.iterNum = 0 → t.stopFlag = false) (r : T ω V F P × Except Err (List (EpochStats V F P)))
    (hr : drain c fuel n t = some r) : ∃ t' ys, r = (t', .ok ys) := by
  induction n generalizing t r with
  | zero => simp [drain] at hr
  | succ n ih =>
    rw [drain] at hr
    cases hn : next c fuel t with
    | none => rw [hn] at hr; simp at hr
    | some r1 =>
      rw [hn] at hr
      obtain ⟨t1, o, rfl, ha1, hi1⟩ := next_succeeds h fuel t ha hs r1 hn
      cases o with
      | none => simp only [Option.some.injEq] at hr; exact ⟨_, _, hr.symm⟩
      | some y =>
        simp only at hr
        cases hd : drain c fuel n t1 with
        | none => rw [hd] at hr; simp at hr
        | some r2 =>
          rw [hd] at hr
          obtain ⟨t2, ys, rfl⟩ := ih t1 ha1 (by omega) r2 hd
          simp only [Option.some.injEq] at hr
          exact ⟨_, _, hr.symm⟩

theorem reset_succeeds {c : Cfg ω V F P} (h : Sensible c) (rc rb : Bool) (t : T ω V F P) :
    ∃ t', reset c rc rb t = (t', .ok ()) ∧ Able c t' ∧ t'.stopFlag = false := by
  obtain ⟨n, hn, hn0⟩ := h.episodes
  have hout : Able c (resetOutside c rc rb (resetCounters c t)) := by
    intro a b
    unfold resetOutside at b
    cases ht : c.hasTest with
    | true => rfl
    | false =>
      simp [a, ht] at b
  have hfin : ∀ t : T ω V F P, (resetFinish c t).testInTrain = t.testInTrain ∧ (resetFinish c t).stopFlag = false := by
    intro t
    unfold resetFinish callSaveBest
    split_ifs <;> exact ⟨rfl, rfl⟩
  unfold reset
  simp only
  split_ifs with h1 h2
  · rw [hn, (h.test h1).1] at h2
    simp at h2
  · obtain ⟨t3, r, hr, hk3⟩ := testEpisode_succeeds h h1 .initial
      (resetOutside c rc rb (resetCounters c t)).startEpoch true (resetOutside c rc rb (resetCounters c t))
    rw [hr]
    simp only
    exact ⟨_, rfl, fun _ _ => h1, (hfin _).2⟩
  · exact ⟨_, rfl, fun a b => hout a (by rw [← (hfin _).1]; exact b), (hfin _).2⟩

/-- C107: with a sensible configuration, running a trainer ends without an exception, whatever happened to it before and
whatever collections, tests and updates do. -/
theorem C107_runs (c : Cfg ω V F P) (h : Sensible c) (resetPrior resetBuffer : Bool) (t : T ω V F P) :
    ∃ fuel n t' ys, run c resetPrior resetBuffer fuel n t = some (t', .ok ys) := by
  have key : ∀ (t : T ω V F P), ∃ t' ys, iterate c (c.stepPerEpoch.toNat + 1) (c.maxEpoch.toNat + 2) t =
      some (t', .ok ys) := by
    intro t
    unfold iterate
    obtain ⟨t1, hr, ha, hs⟩ := reset_succeeds h true false t
    rw [hr]
    simp only
    have hterm : ∃ r, drain c (c.stepPerEpoch.toNat + 1) (c.maxEpoch.toNat + 2) t1 = some r := by
      rcases h.train with ⟨_, _, g, _⟩ | ⟨g1, g2, g3, g4⟩
      · exact drain_terminates c (fun _ => g) _ t1 (by split_ifs <;> omega)
      · exact drain_terminates c (fun g => by simp [g1] at g) _ t1 (by split_ifs <;> omega)
    obtain ⟨r, hd⟩ := hterm
    obtain ⟨t2, ys, rfl⟩ := drain_succeeds h _ _ t1 ha (fun _ => hs) r hd
    exact ⟨t2, ys, hd⟩
  refine ⟨c.stepPerEpoch.toNat + 1, c.maxEpoch.toNat + 2, ?_⟩
  unfold run
  split_ifs
  · obtain ⟨t1, hr, _⟩ := reset_succeeds h true resetBuffer t
    rw [hr]
    exact key t1
  · exact key t

/-- The examples of the other properties are sensible, with and without a test collector. -/
example (tests collects : List Int) : Sensible (demoCfg (.offpolicy (1 / 2)) 10 false none tests collects) ∧
    Sensible { demoCfg .onpolicy 10 false none tests collects with hasTest := false, testAsync := true } := by
  constructor
  · exact ⟨(by norm_num : (0 : Int) < 5), ⟨2, rfl, by decide⟩, fun _ => ⟨rfl, fun _ _ _ _ => (by norm_num : 0 < 2)⟩,
      Or.inl ⟨rfl, fun _ => rfl, fun _ _ _ _ => (by norm_num : 0 < 3), Or.inr ⟨1 / 2, rfl, fun _ _ _ _ => by
        simp only [demoCfg, demo]; norm_num⟩⟩⟩
  · exact ⟨(by norm_num : (0 : Int) < 5), ⟨2, rfl, by decide⟩, fun h => by simp at h,
      Or.inl ⟨rfl, fun _ => rfl, fun _ _ _ _ => (by norm_num : 0 < 3), Or.inl rfl⟩⟩

/-- Without a test collector `test_in_train` is turned off: an accepted training result does not end in an error. -/
example : (yields (iterate { demoCfg .onpolicy 2 false none [] [9, 9, 9, 9] with hasTest := false } 9 9
    (init true (0, 0)))).map EpochStats.epoch = [1, 2] := by decide +kernel

end Verif.Trainer
