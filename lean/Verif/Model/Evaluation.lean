import Verif.Model.Logger

/-!
Model of `tianshou/evaluation/rliable_evaluation_hl.py`: the data of several runs are read from the log directories and put into tables.

What is read comes from the loggers (`Verif.Model.Logger`). TensorBoard keeps all events (in fact at most 10000 of each tag, chosen at
random, and values in single precision). All exceptions are one value, `none`. The plots and the bootstrap of the library rliable are not
modelled.
-/

namespace Verif.Evaluation

open Verif.Logger

variable {V : Type}

/-! ### What is logged -/

/-- `mean`. -/
def wMean : Str := ['m', 'e', 'a', 'n']

/-- `std`. -/
def wStd : Str := ['s', 't', 'd']

/-- `max`. -/
def wMax : Str := ['m', 'a', 'x']

/-- `min`. -/
def wMin : Str := ['m', 'i', 'n']

/-- `n_collected_episodes`. -/
def wEpisodes : Str := ['n', '_', 'c', 'o', 'l', 'l', 'e', 'c', 't', 'e', 'd', '_', 'e', 'p', 'i', 's', 'o', 'd', 'e', 's']

/-- `n_collected_steps`. -/
def wSteps : Str := ['n', '_', 'c', 'o', 'l', 'l', 'e', 'c', 't', 'e', 'd', '_', 's', 't', 'e', 'p', 's']

/-- `collect_time`. -/
def wTime : Str := ['c', 'o', 'l', 'l', 'e', 'c', 't', '_', 't', 'i', 'm', 'e']

/-- `collect_speed`. -/
def wSpeed : Str := ['c', 'o', 'l', 'l', 'e', 'c', 't', '_', 's', 'p', 'e', 'e', 'd']

/-- `returns`. -/
def wReturns : Str := ['r', 'e', 't', 'u', 'r', 'n', 's']

/-- `returns_stat`. -/
def wReturnsStat : Str := ['r', 'e', 't', 'u', 'r', 'n', 's', '_', 's', 't', 'a', 't']

/-- `lens`. -/
def wLens : Str := ['l', 'e', 'n', 's']

/-- `lens_stat`. -/
def wLensStat : Str := ['l', 'e', 'n', 's', '_', 's', 't', 'a', 't']

/-- `pred_dist_std_array`. -/
def wStds : Str := ['p', 'r', 'e', 'd', '_', 'd', 'i', 's', 't', '_', 's', 't', 'd', '_', 'a', 'r', 'r', 'a', 'y']

/-- `pred_dist_std_array_stat`. -/
def wStdsStat : Str :=
  ['p', 'r', 'e', 'd', '_', 'd', 'i', 's', 't', '_', 's', 't', 'd', '_', 'a', 'r', 'r', 'a', 'y', '_', 's', 't', 'a', 't']

/-- `eps`. -/
def wEps : Str := ['e', 'p', 's']

/-- `SequenceSummaryStats`, `data/stats.py` lines 17-24. -/
structure Summary (V : Type) where
  mean : V
  std : V
  max : V
  min : V

/-- `CollectStats`, `data/collector.py` lines 103-144, in the case in which it is logged: there is at least one episode
(`trainer/base.py` lines 504-514, `trainer/utils.py` lines 32-34), so that `returns_stat` and `lens_stat` are not `None`. The arrays are not
logged. `stds`: the statistics of the standard deviation in each dimension of the action, `None` if the policy has no distribution. -/
structure Stats (V : Type) where
  episodes : V
  steps : V
  time : V
  speed : V
  returns : Summary V
  lens : Summary V
  stds : Option (List (Summary V))

/-- `asdict` of a `SequenceSummaryStats`. -/
def Summary.dict (s : Summary V) : Dict V :=
  .cons wMean (.num s.mean) <| .cons wStd (.num s.std) <| .cons wMax (.num s.max) <| .cons wMin (.num s.min) .nil

/-- `asdict` of `pred_dist_std_array_stat`: keys are the dimensions, `data/stats.py` lines 46-58. -/
def dimsDict : Nat → List (Summary V) → Dict V
  | _, [] => .nil
  | i, s :: ss => .cons (Nat.toDigits 10 i) (.dict s.dict) (dimsDict (i + 1) ss)

/-- `asdict(collect_stats)`. -/
def Stats.dict (s : Stats V) : Dict V :=
  .cons wEpisodes (.num s.episodes) <| .cons wSteps (.num s.steps) <| .cons wTime (.num s.time) <| .cons wSpeed (.num s.speed) <|
  .cons wReturns .arr <| .cons wReturnsStat (.dict s.returns.dict) <| .cons wLens .arr <| .cons wLensStat (.dict s.lens.dict) <|
  match s.stds with
  | none => .cons wStds .other <| .cons wStdsStat .other .nil
  | some l => .cons wStds .arr <| .cons wStdsStat (.dict (dimsDict 0 l)) .nil

/-- `logger.write("train/env_step", env_step, {"train/eps": eps})`, `highlevel/trainer.py` line 117: the data of the step type. The key with
a slash makes the same tag as a nested dictionary. -/
def epsData (eps : V) : Dict V := .cons wTrain (.dict (.cons wEps (.num eps) .nil)) .nil

/-! ### What is read -/

/-- The fields of `LoggedCollectStats`, `rliable_evaluation_hl.py` lines 32-39. -/
def fieldNames : List Str := [wEnvStep, wEpisodes, wSteps, wTime, wSpeed, wReturnsStat, wLensStat]

/-- The value of a field: an array or a `LoggedSummaryData`. -/
inductive Field (V : Type)
  | arr (vs : List V)
  | summary (mean std max min : Tree V)

/-- `LoggedSummaryData(**v)`, lines 23-28 and 51-52; `none` is a `TypeError` (missing or unknown keys). -/
def toSummary (kids : List (Str × Tree V)) : Option (Field V) :=
  match find wMean kids, find wStd kids, find wMax kids, find wMin kids with
  | some a, some b, some c, some d => if kids.length = 4 then some (.summary a b c d) else none
  | _, _, _, _ => none

/-- The body of the loop in `from_data_dict`, lines 48-52. A key which is not a field is removed from the dictionary during the iteration,
which raises a `RuntimeError` when the next key is asked for. (If its value is a dictionary, `LoggedSummaryData(**v)` raises a `TypeError`
or the key is added again, and the loop meets it once more, or `cls(**data)` raises a `TypeError`: an error in all cases.) -/
def convert (kv : Str × Tree V) : Option (Str × Field V) :=
  if kv.1 ∈ fieldNames then
    match kv.2 with
    | .leaf vs => some (kv.1, .arr vs)
    | .node kids => (toSummary kids).map fun f => (kv.1, f)
  else none

/-- `LoggedCollectStats.from_data_dict`, lines 41-53. -/
def fromDataDict (d : List (Str × Tree V)) : Option (List (Str × Field V)) := d.mapM convert

/-- One entry of the directory: whether its name begins with a dot, whether it is a directory, what `restore_logged_data` returns for it
(`none` for an exception) and for its subdirectories. -/
structure Entry (V : Type) where
  hidden : Bool
  isDir : Bool
  data : Option (List (Str × Tree V))
  subs : List (Option (List (Str × Tree V)))

/-- The lists and variables of the loop, lines 87-94. -/
structure Acc (V : Type) where
  testRows : List (List V)
  testStep : Option (Field V)
  trainRows : List (List V)
  trainStep : Option (Field V)

/-- `stat.mean` as an array; anything else raises an exception when it is used in lines 170-190. -/
def meanOf : Field V → Option (List V)
  | .summary (.leaf m) _ _ _ => some m
  | _ => none

/-- Lines 150-156 for one scope: the rows and the environment steps. -/
def addScope (data : List (Str × Field V)) (rows : List (List V)) (step : Option (Field V)) : Option (List (List V) × Option (Field V)) :=
  match find wReturnsStat data with
  | none => some (rows, step)
  | some f => (meanOf f).map fun m => (rows ++ [m], find wEnvStep data)

/-- The data of a directory or of its only subdirectory, lines 115-128. -/
def Entry.restored (e : Entry V) : Option (List (Str × Tree V)) :=
  match e.data with
  | none => none
  | some [] =>
    match e.subs with
    | [some (x :: l)] => some (x :: l)
    | _ => none
  | some d => some d

/-- The data of the two scopes, lines 130-146: nothing if there are no test data; `none` is an exception (there are no train data, or the
entry is not a dictionary; for an array of test data which is empty or a single zero the run is skipped in fact). -/
def scopes (d : List (Str × Tree V)) : Option (Option (List (Str × Tree V) × List (Str × Tree V))) :=
  match find wTest d with
  | none => some none
  | some (.node []) => some none
  | some (.node test) =>
    match find wTrain d with
    | some (.node train) => some (some (test, train))
    | _ => none
  | some (.leaf _) => none

/-- The body of the loop over the directory, lines 98-156. Which logger class is used makes no difference, both read TensorBoard files. -/
def loadEntry (acc : Acc V) (e : Entry V) : Option (Acc V) :=
  if e.hidden = true ∨ e.isDir = false then some acc
  else e.restored.bind fun d =>
    (scopes d).bind fun s =>
      match s with
      | none => some acc
      | some (test, train) =>
        (fromDataDict test).bind fun test =>
          (fromDataDict train).bind fun train =>
            (addScope test acc.testRows acc.testStep).bind fun t =>
              (addScope train acc.trainRows acc.trainStep).map fun r =>
                { testRows := t.1, testStep := t.2, trainRows := r.1, trainStep := r.2 }

/-- The loop over the directory, in the order of `os.scandir`. -/
def loadEntries : Acc V → List (Entry V) → Option (Acc V)
  | acc, [] => some acc
  | acc, e :: es => (loadEntry acc e).bind fun acc => loadEntries acc es

/-- `min([len(arr) for arr in rows])`; `none` is a `ValueError`. -/
def minLen : List (List V) → Option Nat
  | [] => none
  | r :: rows => some (rows.foldl (fun n r => min n r.length) r.length)

/-- `min(min_len, max_env_step)` unless the latter is `None`, lines 171-175. -/
def capLen (n : Nat) : Option Nat → Nat
  | none => n
  | some m => min n m

/-- An `RLiableExperimentResult`, lines 56-73. -/
structure Result (V : Type) where
  testRows : List (List V)
  testSteps : List V
  trainRows : List (List V)
  trainSteps : List V
deriving DecidableEq

variable [LT V] [DecidableLT V] [NatCast V]

/-- `np.searchsorted(steps, m)` for increasing steps: the number of steps below `m`. -/
def searchSorted (steps : List V) (m : Nat) : Nat := (steps.takeWhile fun v => v < (m : V)).length

/-- The number of columns and the environment steps of one scope, lines 170-187; `max_env_step` is a natural number or `None`. -/
def cut (rows : List (List V)) (step : Option (Field V)) (maxStep : Option Nat) : Option (Nat × List V) :=
  match minLen rows, step with
  | some n, some (.arr steps) =>
    let n := capLen n maxStep
    let steps := steps.take n
    match maxStep with
    | some (m + 1) => some (searchSorted steps (m + 1), steps.take (searchSorted steps (m + 1)))
    | _ => some (n, steps)
  | _, _ => none

/-- Lines 158-198. If one of the scopes has no data, the minimum of its lengths raises a `ValueError` or the assertions fail; the warnings
and the `RuntimeError` before are then without effect. -/
def finish (acc : Acc V) (maxStep : Option Nat) : Option (Result V) :=
  (cut acc.trainRows acc.trainStep maxStep).bind fun r =>
    (cut acc.testRows acc.testStep maxStep).map fun t =>
      { testRows := acc.testRows.map fun a => a.take t.1
        testSteps := t.2
        trainRows := acc.trainRows.map fun a => a.take r.1
        trainSteps := r.2 }

/-- `RLiableExperimentResult.load_from_disk`, lines 75-198. -/
def load (entries : List (Entry V)) (maxStep : Option Nat) : Option (Result V) :=
  (loadEntries ⟨[], none, [], none⟩ entries).bind fun acc => finish acc maxStep

end Verif.Evaluation
