import Verif.Model.Timing
import Mathlib.Algebra.BigOperators.Group.List.Basic
import Mathlib.Algebra.Order.BigOperators.Group.List
import Mathlib.Algebra.Field.Rat
import Mathlib.Algebra.Order.Ring.Rat
import Mathlib.Tactic.Linarith
import Mathlib.Tactic.NormNum

/-! Property C198: times and counts in the result of training. -/

namespace Verif.Timing

variable {F : Type} [Field F] [LinearOrder F]

/-! What is asked for: how long the events of a kind took, and what they collected. -/

/-- The time an event takes. -/
def Event.time : Event F → F
  | .trainCollect d _ _ => d
  | .testCollect d _ _ => d
  | .update d => d
  | .other d => d

/-- The time an event spends collecting for training. -/
def Event.trainCollecting : Event F → F
  | .trainCollect d _ _ => d
  | _ => 0

/-- The time an event spends testing. -/
def Event.testing : Event F → F
  | .testCollect d _ _ => d
  | _ => 0

/-- The time an event spends updating the policy. -/
def Event.updating : Event F → F
  | .update d => d
  | _ => 0

/-- Steps and episodes collected for training. -/
def Event.trained : Event F → Nat × Nat
  | .trainCollect _ n k => (n, k)
  | _ => (0, 0)

/-- Steps and episodes collected for tests. -/
def Event.tested : Event F → Nat × Nat
  | .testCollect _ n k => (n, k)
  | _ => (0, 0)

/-- A trainer after a reset and some events. -/
def after (t : Trainer F) (evs : List (Event F)) : Trainer F := evs.foldl Trainer.handle t.reset

theorem handle_now (evs : List (Event F)) : ∀ t : Trainer F, (evs.foldl Trainer.handle t).now = t.now + (evs.map Event.time).sum := by
  induction evs with
  | nil => intro t; simp
  | cons e evs ih =>
    intro t
    rw [List.foldl_cons, ih, List.map_cons, List.sum_cons, ← add_assoc]
    cases e <;> rfl

theorem handle_start (evs : List (Event F)) : ∀ t : Trainer F, (evs.foldl Trainer.handle t).startTime = t.startTime := by
  induction evs with
  | nil => intro t; rfl
  | cons e evs ih => intro t; rw [List.foldl_cons, ih]; cases e <;> rfl

theorem handle_update (evs : List (Event F)) : ∀ t : Trainer F,
    (evs.foldl Trainer.handle t).updateTime = t.updateTime + (evs.map Event.updating).sum := by
  induction evs with
  | nil => intro t; simp
  | cons e evs ih =>
    intro t
    rw [List.foldl_cons, ih, List.map_cons, List.sum_cons, ← add_assoc]
    cases e <;> simp [Trainer.handle, Event.updating]

theorem handle_train (evs : List (Event F)) : ∀ (t : Trainer F) (c : Coll F), t.train = some c →
    ∃ c', (evs.foldl Trainer.handle t).train = some c' ∧ c'.isAsync = c.isAsync ∧
      c'.step = c.step + (evs.map fun e => e.trained.1).sum ∧ c'.episode = c.episode + (evs.map fun e => e.trained.2).sum ∧
      (c.isAsync = false → c'.time = c.time) ∧
      (c.isAsync = true → (∀ d n k, Event.trainCollect d n k ∈ evs → 1 / 10 ^ 9 ≤ d) →
        c'.time = c.time + (evs.map Event.trainCollecting).sum) := by
  induction evs with
  | nil => intro t c h; exact ⟨c, h, rfl, by simp, by simp, fun _ => rfl, fun _ _ => by simp⟩
  | cons e evs ih =>
    intro t c h
    cases e with
    | trainCollect d n k =>
      obtain ⟨c', h1, h2, h3, h4, h5, h6⟩ := ih (t.handle (.trainCollect d n k)) (c.collect d n k) (by simp [Trainer.handle, h])
      refine ⟨c', h1, h2, ?_, ?_, ?_, ?_⟩
      · rw [h3]; simp [Coll.collect, Event.trained, Nat.add_assoc]
      · rw [h4]; simp [Coll.collect, Event.trained, Nat.add_assoc]
      · intro ha; rw [h5 ha]; simp [Coll.collect, ha]
      · intro ha hd
        rw [h6 ha fun d n k hm => hd d n k (List.mem_cons_of_mem _ hm)]
        have : (1 / 10 ^ 9 : F) ≤ d := hd d n k List.mem_cons_self
        simp only [Coll.collect, ha, if_true, max_eq_left this, List.map_cons, List.sum_cons, Event.trainCollecting, add_assoc]
    | testCollect d n k =>
      obtain ⟨c', h1, h2, h3, h4, h5, h6⟩ := ih (t.handle (.testCollect d n k)) c (by simp [Trainer.handle, h])
      exact ⟨c', h1, h2, by rw [h3]; simp [Event.trained], by rw [h4]; simp [Event.trained], h5, fun ha hd => by
        rw [h6 ha fun d n k hm => hd d n k (List.mem_cons_of_mem _ hm)]; simp [Event.trainCollecting]⟩
    | update d =>
      obtain ⟨c', h1, h2, h3, h4, h5, h6⟩ := ih (t.handle (.update d)) c (by simp [Trainer.handle, h])
      exact ⟨c', h1, h2, by rw [h3]; simp [Event.trained], by rw [h4]; simp [Event.trained], h5, fun ha hd => by
        rw [h6 ha fun d n k hm => hd d n k (List.mem_cons_of_mem _ hm)]; simp [Event.trainCollecting]⟩
    | other d =>
      obtain ⟨c', h1, h2, h3, h4, h5, h6⟩ := ih (t.handle (.other d)) c (by simp [Trainer.handle, h])
      exact ⟨c', h1, h2, by rw [h3]; simp [Event.trained], by rw [h4]; simp [Event.trained], h5, fun ha hd => by
        rw [h6 ha fun d n k hm => hd d n k (List.mem_cons_of_mem _ hm)]; simp [Event.trainCollecting]⟩

theorem handle_test (evs : List (Event F)) : ∀ (t : Trainer F) (c : Coll F), t.test = some c →
    ∃ c', (evs.foldl Trainer.handle t).test = some c' ∧ c'.isAsync = c.isAsync ∧
      c'.step = c.step + (evs.map fun e => e.tested.1).sum ∧ c'.episode = c.episode + (evs.map fun e => e.tested.2).sum ∧
      (c.isAsync = false → c'.time = c.time) := by
  induction evs with
  | nil => intro t c h; exact ⟨c, h, rfl, by simp, by simp, fun _ => rfl⟩
  | cons e evs ih =>
    intro t c h
    cases e with
    | testCollect d n k =>
      obtain ⟨c', h1, h2, h3, h4, h5⟩ := ih (t.handle (.testCollect d n k)) (c.collect d n k) (by simp [Trainer.handle, h])
      refine ⟨c', h1, h2, ?_, ?_, ?_⟩
      · rw [h3]; simp [Coll.collect, Event.tested, Nat.add_assoc]
      · rw [h4]; simp [Coll.collect, Event.tested, Nat.add_assoc]
      · intro ha; rw [h5 ha]; simp [Coll.collect, ha]
    | trainCollect d n k =>
      obtain ⟨c', h1, h2, h3, h4, h5⟩ := ih (t.handle (.trainCollect d n k)) c (by simp [Trainer.handle, h])
      exact ⟨c', h1, h2, by rw [h3]; simp [Event.tested], by rw [h4]; simp [Event.tested], h5⟩
    | update d =>
      obtain ⟨c', h1, h2, h3, h4, h5⟩ := ih (t.handle (.update d)) c (by simp [Trainer.handle, h])
      exact ⟨c', h1, h2, by rw [h3]; simp [Event.tested], by rw [h4]; simp [Event.tested], h5⟩
    | other d =>
      obtain ⟨c', h1, h2, h3, h4, h5⟩ := ih (t.handle (.other d)) c (by simp [Trainer.handle, h])
      exact ⟨c', h1, h2, by rw [h3]; simp [Event.tested], by rw [h4]; simp [Event.tested], h5⟩

theorem handle_none (evs : List (Event F)) : ∀ (t : Trainer F),
    (t.train = none → (evs.foldl Trainer.handle t).train = none) ∧ (t.test = none → (evs.foldl Trainer.handle t).test = none) := by
  induction evs with
  | nil => intro t; exact ⟨id, id⟩
  | cons e evs ih =>
    intro t
    rw [List.foldl_cons]
    refine ⟨fun h => (ih _).1 ?_, fun h => (ih _).2 ?_⟩ <;> cases e <;> simp [Trainer.handle, h]

/-- What `gather_info` returns, field by field. -/
theorem gather_fields {t : Trainer F} {i : Info F} (h : t.gatherInfo = some i) :
    i.totalTime = max 0 (t.now - t.startTime) ∧ i.testTime = (t.test.map Coll.time).getD 0 ∧ i.trainTime = i.totalTime - i.testTime ∧
      i.trainTimeCollect = (t.train.map Coll.time).getD 0 ∧ i.trainTimeUpdate = t.updateTime ∧
      i.trainStep = (t.train.map Coll.step).getD 0 ∧ i.trainEpisode = (t.train.map Coll.episode).getD 0 ∧
      i.testStep = (t.test.map Coll.step).getD 0 ∧ i.testEpisode = (t.test.map Coll.episode).getD 0 ∧
      (t.train.isSome → i.updateSpeed = (i.trainStep : F) / i.trainTime ∧ i.trainTime ≠ 0) := by
  unfold Trainer.gatherInfo at h
  cases h1 : t.train <;> cases h2 : t.test <;> simp only [h1, h2] at h
  · obtain rfl := Option.some.inj h; simp
  · obtain rfl := Option.some.inj h; simp
  all_goals
    split_ifs at h with h3
    obtain rfl := Option.some.inj h
    simp only [Option.map_some, Option.map_none, Option.getD_some, Option.getD_none, Option.isSome_some, true_and]
    intro _
    first
      | exact ⟨trivial, h3⟩
      | exact h3

/-- C198. The total time is the time since the last reset, and it is split between training and tests. -/
theorem C198_total [IsStrictOrderedRing F] (t : Trainer F) (evs : List (Event F)) (hd : ∀ e ∈ evs, 0 ≤ e.time) (i : Info F)
    (h : (after t evs).gatherInfo = some i) :
    i.totalTime = (evs.map Event.time).sum ∧ i.trainTime + i.testTime = i.totalTime := by
  obtain ⟨h1, h2, h3, _⟩ := gather_fields h
  have e1 : (after t evs).now - (after t evs).startTime = (evs.map Event.time).sum := by
    rw [after, handle_now, handle_start]
    simp [Trainer.reset]
  rw [e1, max_eq_right (List.sum_nonneg (by simpa using hd))] at h1
  exact ⟨h1, by rw [h3, sub_add_cancel]⟩

/-- C198. The numbers of steps and episodes are those collected since the last reset. -/
theorem C198_counts (t : Trainer F) (evs : List (Event F)) (ht : t.train.isSome) (hs : t.test.isSome) (i : Info F)
    (h : (after t evs).gatherInfo = some i) :
    i.trainStep = (evs.map fun e => e.trained.1).sum ∧ i.trainEpisode = (evs.map fun e => e.trained.2).sum ∧
      i.testStep = (evs.map fun e => e.tested.1).sum ∧ i.testEpisode = (evs.map fun e => e.tested.2).sum ∧
      i.updateSpeed = (i.trainStep : F) / i.trainTime := by
  obtain ⟨c, hc⟩ := Option.isSome_iff_exists.1 ht
  obtain ⟨b, hb⟩ := Option.isSome_iff_exists.1 hs
  obtain ⟨c', h1, _, h2, h3, _⟩ := handle_train evs t.reset c.resetStat (by simp [Trainer.reset, hc])
  obtain ⟨b', g1, _, g2, g3, _⟩ := handle_test evs t.reset b.resetStat (by simp [Trainer.reset, hb])
  obtain ⟨_, _, _, _, _, f1, f2, f3, f4, f5⟩ := gather_fields h
  have e1 : (after t evs).train = some c' := h1
  have e2 : (after t evs).test = some b' := g1
  rw [e1] at f1 f2 f5
  rw [e2] at f3 f4
  refine ⟨?_, ?_, ?_, ?_, (f5 rfl).1⟩
  · rw [f1]; simpa [Coll.resetStat] using h2
  · rw [f2]; simpa [Coll.resetStat] using h3
  · rw [f3]; simpa [Coll.resetStat] using g2
  · rw [f4]; simpa [Coll.resetStat] using g3

/-- C198. Without a collector the numbers are zero. -/
theorem C198_offline (t : Trainer F) (evs : List (Event F)) (ht : t.train = none) (hs : t.test = none) :
    ∃ i, (after t evs).gatherInfo = some i ∧ i.trainStep = 0 ∧ i.trainEpisode = 0 ∧ i.testStep = 0 ∧ i.testEpisode = 0 ∧
      i.trainTimeCollect = 0 ∧ i.testTime = 0 := by
  have e1 : (after t evs).train = none := (handle_none evs t.reset).1 (by simp [Trainer.reset, ht])
  have e2 : (after t evs).test = none := (handle_none evs t.reset).2 (by simp [Trainer.reset, hs])
  unfold Trainer.gatherInfo
  rw [e1, e2]
  exact ⟨_, rfl, rfl, rfl, rfl, rfl, rfl, rfl⟩

/-- C198, for the time spent collecting with an asynchronous collector, each time for at least a nanosecond. -/
theorem C198_collect_partial (t : Trainer F) (evs : List (Event F)) (c : Coll F) (ht : t.train = some c) (ha : c.isAsync = true)
    (hd : ∀ d n k, Event.trainCollect d n k ∈ evs → 1 / 10 ^ 9 ≤ d) (i : Info F) (h : (after t evs).gatherInfo = some i) :
    i.trainTimeCollect = (evs.map Event.trainCollecting).sum := by
  obtain ⟨c', h1, _, _, _, _, h2⟩ := handle_train evs t.reset c.resetStat (by simp [Trainer.reset, ht])
  obtain ⟨_, _, _, f, _⟩ := gather_fields h
  have e1 : (after t evs).train = some c' := h1
  rw [f, e1]
  simpa [Coll.resetStat] using h2 ha hd

/-- C198, for the time spent updating in the first run of a trainer. -/
theorem C198_update_partial (now : F) (train test : Option (Coll F)) (evs : List (Event F)) (i : Info F)
    (h : (after (Trainer.new now train test) evs).gatherInfo = some i) :
    i.trainTimeUpdate = (evs.map Event.updating).sum := by
  obtain ⟨_, _, _, _, f, _⟩ := gather_fields h
  rw [f, after, handle_update]
  simp [Trainer.reset, Trainer.new]

/-- C198 fails for tests: the test collector is not asynchronous (`trainer/base.py` line 287), so the time spent testing is
always reported as 0, whatever the tests took, and all the time is reported as training time. -/
theorem C198_test_violated (t : Trainer F) (evs : List (Event F)) (hs : ∀ c, t.test = some c → c.isAsync = false) (i : Info F)
    (h : (after t evs).gatherInfo = some i) : i.testTime = 0 ∧ i.trainTime = i.totalTime := by
  obtain ⟨_, f1, f2, _⟩ := gather_fields h
  have key : i.testTime = 0 := by
    rw [f1]
    cases hc : t.test with
    | none => rw [show (after t evs).test = none from (handle_none evs t.reset).2 (by simp [Trainer.reset, hc])]; rfl
    | some c =>
      obtain ⟨c', h1, _, _, _, h2⟩ := handle_test evs t.reset c.resetStat (by simp [Trainer.reset, hc])
      rw [show (after t evs).test = some c' from h1]
      simpa [Coll.resetStat] using h2 (hs c hc)
  exact ⟨key, by rw [f2, key, sub_zero]⟩

/-- C198 fails likewise for the time spent collecting with a `Collector`. -/
theorem C198_collect_violated (t : Trainer F) (evs : List (Event F)) (c : Coll F) (ht : t.train = some c) (ha : c.isAsync = false)
    (i : Info F) (h : (after t evs).gatherInfo = some i) : i.trainTimeCollect = 0 := by
  obtain ⟨c', h1, _, _, _, h2, _⟩ := handle_train evs t.reset c.resetStat (by simp [Trainer.reset, ht])
  obtain ⟨_, _, _, f, _⟩ := gather_fields h
  rw [f, show (after t evs).train = some c' from h1]
  simpa [Coll.resetStat] using h2 ha

/-- A trainer with two collectors at the time 100. -/
def exTrainer : Trainer ℚ := Trainer.new 100 (some ⟨false, 0, 0, 0⟩) (some ⟨false, 0, 0, 0⟩)

/-- A run: a test of 7 seconds, a collection of 5 seconds and an update of 3 seconds. -/
def exRun : List (Event ℚ) := [.testCollect 7 40 4, .trainCollect 5 20 2, .update 3, .other 1]

example : (after exTrainer exRun).gatherInfo.map (fun i => [i.totalTime, i.trainTime, i.testTime, i.trainTimeCollect, i.trainTimeUpdate])
    = some [16, 16, 0, 0, 3] := by decide +kernel

example : (after exTrainer exRun).gatherInfo.map (fun i => [i.trainStep, i.trainEpisode, i.testStep, i.testEpisode])
    = some [20, 2, 40, 4] := by decide +kernel

example : (after (Trainer.new (100 : ℚ) (some ⟨true, 0, 0, 0⟩) none) exRun).gatherInfo.map (fun i => i.trainTimeCollect) = some 5 := by
  decide +kernel

/-- C198 fails: a run with 7 seconds of tests and 5 of collecting reports 0 for both, and a second run of the same trainer reports
more time for updates than it took altogether. -/
theorem C198_violated :
    ((exRun.map Event.testing).sum = 7 ∧ (exRun.map Event.trainCollecting).sum = 5 ∧
      (after exTrainer exRun).gatherInfo.map (fun i => (i.testTime, i.trainTimeCollect)) = some (0, 0)) ∧
    (after (after exTrainer [.update 50, .other 1]) [.update 3]).gatherInfo.map (fun i => (i.totalTime, i.trainTimeUpdate))
      = some (3, 53) := by
  decide +kernel

/-- C198. If no time passes, asking for the information raises `ZeroDivisionError`; this is the only failure without an
asynchronous test collector. -/
theorem C198_raises [IsStrictOrderedRing F] (t : Trainer F) (evs : List (Event F)) (hs : ∀ c, t.test = some c → c.isAsync = false)
    (hd : ∀ e ∈ evs, 0 ≤ e.time) :
    (after t evs).gatherInfo = none ↔ t.train.isSome ∧ (evs.map Event.time).sum = 0 := by
  have e0 : max 0 ((after t evs).now - (after t evs).startTime) = (evs.map Event.time).sum := by
    rw [after, handle_now, handle_start]
    simp only [Trainer.reset, add_sub_cancel_left]
    exact max_eq_right (List.sum_nonneg (by simpa using hd))
  have e1 : ((after t evs).test.map Coll.time).getD 0 = 0 := by
    cases hc : t.test with
    | none => rw [show (after t evs).test = none from (handle_none evs t.reset).2 (by simp [Trainer.reset, hc])]; rfl
    | some c =>
      obtain ⟨c', h1, _, _, _, h2⟩ := handle_test evs t.reset c.resetStat (by simp [Trainer.reset, hc])
      rw [show (after t evs).test = some c' from h1]
      simpa [Coll.resetStat] using h2 (hs c hc)
  unfold Trainer.gatherInfo
  simp only [e0, e1, sub_zero]
  cases ht : t.train with
  | none =>
    rw [show (after t evs).train = none from (handle_none evs t.reset).1 (by simp [Trainer.reset, ht])]
    simp
  | some c =>
    obtain ⟨c', h1, _⟩ := handle_train evs t.reset c.resetStat (by simp [Trainer.reset, ht])
    rw [show (after t evs).train = some c' from h1]
    by_cases hz : (evs.map Event.time).sum = 0
    · simp [hz]
    · simp [hz]

end Verif.Timing
