import Mathlib.Algebra.Order.Field.Basic

/-!
Model of the times and counts in the result of training: `gather_info` (`tianshou/trainer/utils.py` lines 41-87), the attributes
`start_time` and `policy_update_time` of the trainers (`tianshou/trainer/base.py` lines 190, 201, 275, 395-404, 674, 716, 755) and
`collect_step`, `collect_episode`, `collect_time` of the collectors (`tianshou/data/collector.py` lines 333, 401, 617, 1049-1050,
1344-1347).

Simplifications. Times are elements of an ordered field, without rounding. What the trainer does is a sequence of events, each of
which takes some time by the clock; the time measured by a collector or policy around its work (`collector.py` lines 1171, 1346;
`policy/base.py` lines 542-552) is that of the event.
-/

namespace Verif.Timing

variable {F : Type} [Field F] [LinearOrder F]

/-- The statistics kept by a collector. -/
structure Coll (F : Type) where
  isAsync : Bool
  time : F
  step : Nat
  episode : Nat

/-- `reset_stat`, `collector.py` lines 399-401. -/
def Coll.resetStat (c : Coll F) : Coll F := { c with time := 0, step := 0, episode := 0 }

/-- One collection of `steps` steps and `episodes` episodes taking the time `d`: `collector.py` lines 1049-1050 (`Collector`) and
1344-1347 (`AsyncCollector`). Only the latter writes `collect_time`. -/
def Coll.collect (c : Coll F) (d : F) (steps episodes : Nat) : Coll F :=
  { c with
    time := if c.isAsync then c.time + max d (1 / 10 ^ 9) else c.time
    step := c.step + steps
    episode := c.episode + episodes }

/-- A trainer: the clock, `start_time`, `policy_update_time` and its collectors. -/
structure Trainer (F : Type) where
  now : F
  startTime : F
  updateTime : F
  train : Option (Coll F)
  test : Option (Coll F)

/-- What happens during a run. -/
inductive Event (F : Type)
  | trainCollect (d : F) (steps episodes : Nat)
  | testCollect (d : F) (steps episodes : Nat)
  | update (d : F)
  | other (d : F)

/-- `__init__`, `trainer/base.py` lines 190 and 201. -/
def Trainer.new (now : F) (train test : Option (Coll F)) : Trainer F := ⟨now, now, 0, train, test⟩

/-- `reset`, `trainer/base.py` lines 250-283, up to the first test; with `reset_collectors=True`. -/
def Trainer.reset (t : Trainer F) : Trainer F :=
  { t with startTime := t.now, train := t.train.map Coll.resetStat, test := t.test.map Coll.resetStat }

/-- One event. -/
def Trainer.handle (t : Trainer F) : Event F → Trainer F
  | .trainCollect d steps episodes => { t with now := t.now + d, train := t.train.map fun c => c.collect d steps episodes }
  | .testCollect d steps episodes => { t with now := t.now + d, test := t.test.map fun c => c.collect d steps episodes }
  | .update d => { t with now := t.now + d, updateTime := t.updateTime + d }
  | .other d => { t with now := t.now + d }

/-- `InfoStats` and `TimingStats`, `tianshou/data/stats.py`, without the scores and the number of gradient steps, which are copied. -/
structure Info (F : Type) where
  totalTime : F
  trainTime : F
  trainTimeCollect : F
  trainTimeUpdate : F
  testTime : F
  updateSpeed : F
  trainStep : Nat
  trainEpisode : Nat
  testStep : Nat
  testEpisode : Nat

/-- `gather_info`, `trainer/utils.py` lines 41-87; `none` is the `ZeroDivisionError` of line 66. -/
def Trainer.gatherInfo (t : Trainer F) : Option (Info F) :=
  let duration := max 0 (t.now - t.startTime)
  let testTime := (t.test.map Coll.time).getD 0
  let counts : F → F → Info F := fun collect speed =>
    { totalTime := duration
      trainTime := duration - testTime
      trainTimeCollect := collect
      trainTimeUpdate := t.updateTime
      testTime := testTime
      updateSpeed := speed
      trainStep := (t.train.map Coll.step).getD 0
      trainEpisode := (t.train.map Coll.episode).getD 0
      testStep := (t.test.map Coll.step).getD 0
      testEpisode := (t.test.map Coll.episode).getD 0 }
  match t.train with
  | none => some (counts 0 0)
  | some c => if duration - testTime = 0 then none else some (counts c.time ((c.step : F) / (duration - testTime)))

end Verif.Timing
