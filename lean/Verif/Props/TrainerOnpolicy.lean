import Verif.Props.Trainer

/-! Property C108: on-policy training uses only data of the current policy. -/

set_option linter.unusedSectionVars false

namespace Verif.Trainer

variable {ω V F P : Type}

/-- `I` is kept by whatever the trainer makes happen outside. -/
structure WorldInv (c : Cfg ω V F P) (I : ω → Prop) : Prop where
  collect : ∀ b e n w, I w → I (c.out.collect b e n w).1
  test : ∀ b e n w, I w → I (c.out.test b e n w).1
  onpolicy : c.kind = .onpolicy → ∀ b w, I w → I (c.out.resetBuffer (c.out.update b w))
  other : c.kind ≠ .onpolicy → ∀ b w, I w → I (c.out.update b w)
  resetCollectors : ∀ b w, I w → I (c.out.resetCollectors b w)

variable {c : Cfg ω V F P} {I : ω → Prop}

theorem sampleLoop_inv (h : WorldInv c I) (hk : c.kind ≠ .onpolicy) (n : Nat) (t : T ω V F P) (ht : I t.world) :
    I (sampleLoop c n t).world := by
  induction n generalizing t with
  | zero => exact ht
  | succ n ih => exact ih _ (h.other hk _ _ ht)

theorem policyUpdate_inv (h : WorldInv c I) (n : Nat) (t : T ω V F P) (ht : I t.world) :
    I (policyUpdate c n t).1.world := by
  unfold policyUpdate
  split
  · rename_i hk
    split_ifs
    · exact h.other (by simp [hk]) _ _ ht
    · exact ht
  · rename_i hk
    simp only
    split_ifs
    · exact ht
    · exact ht
    · exact ht
    · exact sampleLoop_inv h (by simp [hk]) _ _ ht
  · rename_i hk
    split_ifs
    · exact ht
    · exact h.onpolicy hk _ _ ht

theorem collectTrain_inv (h : WorldInv c I) (t : T ω V F P) (ht : I t.world) : I (collectTrain c t).1.world := by
  unfold collectTrain
  simp only
  split_ifs
  all_goals first
    | exact ht
    | exact h.collect _ _ _ _ ht

theorem testEpisode_inv (h : WorldInv c I) (why : Why) (e : Nat) (m : Bool) (t : T ω V F P) (ht : I t.world) :
    I (testEpisode c why e m t).1.world := by
  unfold testEpisode
  simp only
  split_ifs <;> exact h.test _ _ _ _ ht

theorem earlyTest_inv (h : WorldInv c I) (s : CStats V) (t : T ω V F P) (ht : I t.world) :
    I (earlyTest c s t).1.world := by
  unfold earlyTest
  have hte := testEpisode_inv h .early t.epoch false t ht
  by_cases h1 : (0 < s.episodes && t.testInTrain && c.accepts (c.out.mean s.returns)) = true
  · rw [if_pos h1]
    by_cases h2 : (!c.hasTest) = true
    · rw [if_pos h2]; exact ht
    · rw [if_neg h2]
      by_cases h3 : (!c.testsEpisodes) = true
      · rw [if_pos h3]; exact ht
      · rw [if_neg h3]
        cases hr : testEpisode c .early t.epoch false t with
        | mk t1 r =>
          rw [hr] at hte
          cases r with
          | error e => exact hte
          | ok r =>
            simp only
            split_ifs
            · exact hte
            · exact hte
  · rw [if_neg h1]; exact ht

theorem trainingStep_inv (h : WorldInv c I) (t : T ω V F P) (ht : I t.world) : I (trainingStep c t).1.world := by
  unfold trainingStep withFlag
  simp only
  generalize { t with within := true } = t0, (show I ({ t with within := true } : T ω V F P).world from ht) = h0
  unfold trainingBody
  split_ifs
  · have h1 := collectTrain_inv h t0 h0
    cases hc : collectTrain c t0 with
    | mk t1 r1 =>
      rw [hc] at h1
      cases r1 with
      | error e => exact h1
      | ok s =>
        simp only at h1 ⊢
        have h2 : I (withFlag false (earlyTest c s) t1).1.world := earlyTest_inv h s { t1 with within := false } h1
        cases he : withFlag false (earlyTest c s) t1 with
        | mk t2 r2 =>
          rw [he] at h2
          cases r2 with
          | error e => exact h2
          | ok b =>
            cases b with
            | true => exact h2
            | false =>
              simp only
              have h3 := policyUpdate_inv h s.steps t2 h2
              cases hp : policyUpdate c s.steps t2 with
              | mk t3 r3 =>
                rw [hp] at h3
                cases r3 <;> exact h3
  · exact h0
  · have h3 := policyUpdate_inv h 0 t0 h0
    cases hp : policyUpdate c 0 t0 with
    | mk t3 r3 =>
      rw [hp] at h3
      cases r3 <;> exact h3

theorem trainLoop_inv (h : WorldInv c I) (fuel : Nat) (n : Int) (ran : Bool) (t : T ω V F P) (ht : I t.world)
    (r : T ω V F P × Except Err Bool) (hr : trainLoop c fuel n ran t = some r) : I r.1.world := by
  induction fuel generalizing n ran t with
  | zero => simp [trainLoop] at hr
  | succ fuel ih =>
    rw [trainLoop] at hr
    by_cases hc : n < c.stepPerEpoch ∧ t.stopFlag = false
    · rw [if_pos hc] at hr
      have h1 := trainingStep_inv h t ht
      cases hs : trainingStep c t with
      | mk t1 r1 =>
        rw [hs] at hr h1
        cases r1 with
        | error e =>
          simp only [Option.some.injEq] at hr
          rw [← hr]; exact h1
        | ok x =>
          obtain ⟨o, stop⟩ := x
          cases o with
          | none =>
            simp only at hr
            split_ifs at hr
            · simp only [Option.some.injEq] at hr
              rw [← hr]; exact h1
            · exact ih _ _ { t1 with stopFlag := stop } h1 hr
          | some s =>
            simp only at hr
            split_ifs at hr
            · simp only [Option.some.injEq] at hr
              rw [← hr]; exact h1
            · exact ih _ _ { t1 with stopFlag := stop } h1 hr
    · rw [if_neg hc] at hr
      simp only [Option.some.injEq] at hr
      rw [← hr]
      exact ht

variable [LT F] [DecidableRel (α := F) (· < ·)]

theorem evaluate_inv (h : WorldInv c I) (t : T ω V F P) (ht : I t.world) : I (evaluate c t).1.world := by
  unfold evaluate
  split_ifs
  · exact ht
  · have h1 := testEpisode_inv h .epochEnd t.epoch true
      { t with log := t.log ++ [.checkpoint t.epoch t.envStep t.gradientStep] } ht
    unfold testStep
    simp only
    split_ifs
    · exact ht
    · cases hr : testEpisode c .epochEnd t.epoch true
        { t with log := t.log ++ [.checkpoint t.epoch t.envStep t.gradientStep] } with
      | mk t1 r =>
        rw [hr] at h1
        cases r with
        | error e => exact h1
        | ok s =>
          simp only
          unfold updateBest callSaveBest
          split_ifs <;> exact h1
  · exact ht

theorem next_inv (h : WorldInv c I) (fuel : Nat) (t : T ω V F P) (ht : I t.world)
    (r : T ω V F P × Except Err (Option (EpochStats V F P))) (hr : next c fuel t = some r) : I r.1.world := by
  unfold next at hr
  simp only at hr
  split_ifs at hr with h1
  · simp only [Option.some.injEq] at hr
    rw [← hr]; exact ht
  · cases hl : trainLoop c fuel 0 false { t with epoch := t.epoch + 1, iterNum := t.iterNum + 1 } with
    | none => rw [hl] at hr; simp at hr
    | some res =>
      have h2 : I res.1.world :=
        trainLoop_inv h _ _ _ { t with epoch := t.epoch + 1, iterNum := t.iterNum + 1 } ht _ hl
      obtain ⟨mid, r1⟩ := res
      rw [hl] at hr
      cases r1 with
      | error e =>
        simp only [Option.some.injEq] at hr
        rw [← hr]; exact h2
      | ok ran =>
        simp only at hr
        have h3 : I (finishEpoch c t.log.length ran mid).1.world := by
          unfold finishEpoch
          by_cases hb : (!c.hasTrain && !c.hasBuffer) = true
          · rw [if_pos hb]; exact h2
          · rw [if_neg hb]
            have h4 : I (evaluate c (if c.hasTrain = true then mid else offlineStep c mid)).1.world := by
              split_ifs
              · exact evaluate_inv h mid h2
              · exact evaluate_inv h (offlineStep c mid) h2
            cases hev : evaluate c (if c.hasTrain = true then mid else offlineStep c mid) with
            | mk t3 r3 =>
              rw [hev] at h4
              cases r3 with
              | error e => exact h4
              | ok o =>
                simp only
                split_ifs
                · exact h4
                · exact h4
        cases hf : finishEpoch c t.log.length ran mid with
        | mk t4 r4 =>
          rw [hf] at hr h3
          cases r4 with
          | error e =>
            simp only [Option.some.injEq] at hr
            rw [← hr]; exact h3
          | ok y =>
            simp only [Option.some.injEq] at hr
            rw [← hr]; exact h3

theorem drain_inv (h : WorldInv c I) (fuel n : Nat) (t : T ω V F P) (ht : I t.world)
    (r : T ω V F P × Except Err (List (EpochStats V F P))) (hr : drain c fuel n t = some r) : I r.1.world := by
  induction n generalizing t r with
  | zero => simp [drain] at hr
  | succ n ih =>
    rw [drain] at hr
    cases hn : next c fuel t with
    | none => rw [hn] at hr; simp at hr
    | some res =>
      have h1 := next_inv h fuel t ht res hn
      obtain ⟨t1, r1⟩ := res
      rw [hn] at hr
      cases r1 with
      | error e =>
        simp only [Option.some.injEq] at hr
        rw [← hr]; exact h1
      | ok o =>
        cases o with
        | none =>
          simp only [Option.some.injEq] at hr
          rw [← hr]; exact h1
        | some y =>
          simp only at hr
          cases hd : drain c fuel n t1 with
          | none => rw [hd] at hr; simp at hr
          | some res2 =>
            have h2 := ih t1 h1 res2 hd
            obtain ⟨t2, r2⟩ := res2
            rw [hd] at hr
            cases r2 with
            | error e =>
              simp only [Option.some.injEq] at hr
              rw [← hr]; exact h2
            | ok ys =>
              simp only [Option.some.injEq] at hr
              rw [← hr]; exact h2

theorem reset_inv (h : WorldInv c I) (rc rb : Bool) (t : T ω V F P) (ht : I t.world) : I (reset c rc rb t).1.world := by
  have h0 : I (resetOutside c rc rb (resetCounters c t)).world := by
    unfold resetOutside resetCounters
    split_ifs
    all_goals first
      | exact ht
      | exact h.resetCollectors _ _ ht
  have hfin : ∀ t' : T ω V F P, I t'.world → I (resetFinish c t').world := by
    intro t' h'
    unfold resetFinish callSaveBest
    split_ifs <;> exact h'
  unfold reset
  simp only
  generalize resetOutside c rc rb (resetCounters c t) = t1 at h0 ⊢
  by_cases h1 : c.hasTest = true
  · rw [if_pos h1]
    by_cases h2 : (c.episodePerTest.isNone || c.testAsync) = true
    · rw [if_pos h2]; exact h0
    · rw [if_neg h2]
      have h4 := testEpisode_inv h .initial t1.startEpoch true t1 h0
      cases hte : testEpisode c .initial t1.startEpoch true t1 with
      | mk t2 r2 =>
        rw [hte] at h4
        cases r2 with
        | error e => exact h4
        | ok s => exact hfin _ h4
  · rw [if_neg h1]; exact hfin _ h0

theorem run_inv (h : WorldInv c I) (resetPrior resetBuffer : Bool) (fuel n : Nat) (t : T ω V F P) (ht : I t.world)
    (r : T ω V F P × Except Err (List (EpochStats V F P))) (hr : run c resetPrior resetBuffer fuel n t = some r) :
    I r.1.world := by
  have key : ∀ (t : T ω V F P) r, I t.world → iterate c fuel n t = some r → I r.1.world := by
    intro t r ht hr
    unfold iterate at hr
    have h1 := reset_inv h true false t ht
    cases hre : reset c true false t with
    | mk t1 r1 =>
      rw [hre] at hr h1
      cases r1 with
      | error e =>
        simp only [Option.some.injEq] at hr
        rw [← hr]; exact h1
      | ok u => exact drain_inv h fuel n t1 h1 r hr
  unfold run at hr
  by_cases hp : resetPrior = true
  · rw [if_pos hp] at hr
    have h1 := reset_inv h true resetBuffer t ht
    cases hre : reset c true resetBuffer t with
    | mk t1 r1 =>
      rw [hre] at hr h1
      cases r1 with
      | error e =>
        simp only [Option.some.injEq] at hr
        rw [← hr]; exact h1
      | ok u => exact key t1 r h1 hr
  · rw [if_neg hp] at hr
    exact key t r ht hr

/-- An outside in which every transition in the training buffer is marked with the version of the policy that collected
it. `update` gives the policy any other version, and `stale` records whether some update saw a transition of another
version than the policy had at that time. -/
structure Versioned (out : Outside ω V F P) (data : ω → List Nat) (version : ω → Nat) (stale : ω → Prop) : Prop where
  collect : ∀ b e n w, (∀ v ∈ data (out.collect b e n w).1, v ∈ data w ∨ v = version w) ∧
    version (out.collect b e n w).1 = version w ∧ (stale (out.collect b e n w).1 ↔ stale w)
  test : ∀ b e n w, data (out.test b e n w).1 = data w ∧ version (out.test b e n w).1 = version w ∧
    (stale (out.test b e n w).1 ↔ stale w)
  update : ∀ b w, data (out.update b w) = data w ∧ (stale (out.update b w) ↔ stale w ∨ ∃ v ∈ data w, v ≠ version w)
  resetBuffer : ∀ w, data (out.resetBuffer w) = [] ∧ version (out.resetBuffer w) = version w ∧
    (stale (out.resetBuffer w) ↔ stale w)
  resetCollectors : ∀ b w, (∀ v ∈ data (out.resetCollectors b w), v ∈ data w) ∧
    version (out.resetCollectors b w) = version w ∧ (stale (out.resetCollectors b w) ↔ stale w)

/-- C108: if the on-policy trainer is started with a buffer that holds data of the present policy only (for example,
an empty one), no update in a run, complete or ended by an exception, sees a transition collected by an earlier version of the
policy; and after the run the buffer again holds data of the present policy only, so this goes on for the next run. -/
theorem C108_onpolicy (c : Cfg ω V F P) (hk : c.kind = .onpolicy) (data : ω → List Nat) (version : ω → Nat)
    (stale : ω → Prop) (hv : Versioned c.out data version stale) (resetPrior resetBuffer : Bool) (fuel n : Nat)
    (t : T ω V F P) (hstart : ∀ v ∈ data t.world, v = version t.world) (hs : ¬ stale t.world)
    (t' : T ω V F P) (r : Except Err (List (EpochStats V F P)))
    (hr : run c resetPrior resetBuffer fuel n t = some (t', r)) :
    ¬ stale t'.world ∧ ∀ v ∈ data t'.world, v = version t'.world := by
  have hinv : WorldInv c (fun w => ¬ stale w ∧ ∀ v ∈ data w, v = version w) := by
    constructor
    · intro b e n w ⟨h1, h2⟩
      obtain ⟨c1, c2, c3⟩ := hv.collect b e n w
      refine ⟨by rwa [c3], fun v hm => ?_⟩
      rw [c2]
      rcases c1 v hm with h | h
      · exact h2 v h
      · exact h
    · intro b e n w ⟨h1, h2⟩
      obtain ⟨c1, c2, c3⟩ := hv.test b e n w
      exact ⟨by rwa [c3], by rw [c1, c2]; exact h2⟩
    · intro _ b w ⟨h1, h2⟩
      obtain ⟨c1, c2⟩ := hv.update b w
      obtain ⟨d1, d2, d3⟩ := hv.resetBuffer (c.out.update b w)
      refine ⟨?_, by rw [d1]; simp⟩
      rw [d3, c2]
      rintro (h | ⟨v, hm, hne⟩)
      · exact h1 h
      · exact hne (h2 v hm)
    · intro h; exact absurd hk h
    · intro b w ⟨h1, h2⟩
      obtain ⟨c1, c2, c3⟩ := hv.resetCollectors b w
      exact ⟨by rwa [c3], fun v hm => by rw [c2]; exact h2 v (c1 v hm)⟩
  exact run_inv hinv resetPrior resetBuffer fuel n t ⟨hs, hstart⟩ (t', r) hr

/-- An example of such an outside: the world is the buffer, the version and whether a stale update happened. -/
def versioned : Outside (List Nat × Nat × Bool) Int Int Nat where
  collect := fun _ _ _ w => ((w.1 ++ [w.2.1, w.2.1], w.2), ⟨2, 1, 0⟩)
  test := fun _ _ _ w => (w, ⟨10, 2, 0⟩)
  update := fun _ w => (w.1, w.2.1 + 1, w.2.2 || w.1.any (· != w.2.1))
  resetBuffer := fun w => ([], w.2)
  resetCollectors := fun b w => (if b then [] else w.1, w.2)
  bufLen := fun w => w.1.length
  hasNull := fun _ => false
  policy := fun w => w.2.1
  restore := fun _ => (0, 0, 0)
  mean := fun v => v
  std := fun _ => 0

theorem versioned_ok : Versioned versioned (fun w => w.1) (fun w => w.2.1) (fun w => w.2.2 = true) := by
  refine ⟨fun b e n w => ?_, fun b e n w => ?_, fun b w => ?_, fun w => ?_, fun b w => ?_⟩ <;> simp [versioned]

/-- A configuration with this outside. -/
def versionedCfg (kind : Kind) : Cfg (List Nat × Nat × Bool) Int Int Nat where
  out := versioned
  kind := kind
  maxEpoch := 2
  stepPerEpoch := 5
  batchSize := some 4
  episodePerTest := some 2
  hasTrain := true
  hasTest := true
  hasBuffer := false
  testAsync := false
  samePolicy := true
  stopFn := none
  scoreFn := none
  rewardMetric := none
  saveBest := false
  resume := false

/-- In an on-policy run of two epochs with three updates each no update is stale; an off-policy run with the same
outside has stale updates. -/
example : ((run (versionedCfg .onpolicy) true false 9 9 (init true ([], 0, false))).map fun r => r.1.world) =
      some ([], 6, false) ∧
    ((run (versionedCfg (.offpolicy 1)) true false 9 9 (init true ([], 0, false))).map fun r => r.1.world.2.2) =
      some true := by
  decide +kernel

end Verif.Trainer
