import Verif.Spec.Logger
import Verif.Model.Evaluation

/-!
Specifications for the evaluation of several runs: what a run has logged.
-/

namespace Verif.Evaluation

open Verif.Logger

variable {V : Type}

/-- One call of a logger in a run: statistics of training or test episodes at an environment step, or something else. -/
inductive Item (V : Type)
  | train (step : Int) (s : Stats V)
  | test (step : Int) (s : Stats V)
  | other (w : Write V)

/-- The call of `write`. -/
def Item.write : Item V → Write V
  | .train x s => ⟨wTrain, wEnvStep, x, s.dict⟩
  | .test x s => ⟨wTest, wEnvStep, x, s.dict⟩
  | .other w => w

/-- The scope of training or test data. -/
def scopeName (test : Bool) : Str := if test then wTest else wTrain

/-- The statistics of training or test episodes in a call. -/
def Item.stats (test : Bool) : Item V → Option (Int × Stats V)
  | .train x s => if test then none else some (x, s)
  | .test x s => if test then some (x, s) else none
  | .other _ => none

/-- The points of the learning curve of a run: environment steps and statistics, in the order in which they were logged. -/
def points (test : Bool) (log : List (Item V)) : List (Int × Stats V) := log.filterMap (Item.stats test)

/-- The other calls of a run are in other scopes, and no path in them is the beginning of another. -/
structure LogOk [IntCast V] (log : List (Item V)) : Prop where
  good : ∀ w, Item.other w ∈ log → w.Good ∧ w.scope ≠ wTrain ∧ w.scope ≠ wTest
  free : ∀ w w', Item.other w ∈ log → Item.other w' ∈ log → ∀ p q, (w.at? p).isSome → (w'.at? q).isSome → p <+: q → p = q

/-- The directory of a run, with the event files of its calls. -/
def runDir [IntCast V] (log : List (Item V)) : Entry V :=
  { hidden := false
    isDir := true
    data := (fileOf (log.map Item.write)).bind restoreLogged
    subs := [] }

/-- Neither the training nor the test statistics have standard deviations of action distributions, and there are points of both kinds. -/
structure Plain (log : List (Item V)) : Prop where
  train : points false log ≠ []
  test : points true log ≠ []
  stds : ∀ b, ∀ x ∈ points b log, x.2.stds = none

end Verif.Evaluation
