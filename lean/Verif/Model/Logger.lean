import Mathlib.Data.List.Basic
import Mathlib.Data.List.Dedup

/-!
Model of the loggers in `tianshou/utils/logger/`: the intervals of `BaseLogger`, the nested dictionaries written and read back by
`TensorboardLogger`, its checkpoints, and `WandbLogger.load`.

Simplifications. Strings are lists of characters. The event files are the list of scalars in the order in which they were added; what
TensorBoard does to them (rounding to 32 bits, sub-sampling beyond 10000 values per tag, purging of orphaned data) is not modelled.
Figures and histograms are not modelled: arrays are dropped by `prepare_dict_for_logging`, whose argument `exclude_arrays` is never
given otherwise; the attribute of that name is not read. The keys of dictionaries are strings, steps are integers.
-/

namespace Verif.Logger

/-- Strings, as lists of characters. -/
abbrev Str := List Char

/-! ### Words -/

/-- `"train"`. -/
def wTrain : Str := ['t', 'r', 'a', 'i', 'n']

/-- `"test"`. -/
def wTest : Str := ['t', 'e', 's', 't']

/-- `"update"`. -/
def wUpdate : Str := ['u', 'p', 'd', 'a', 't', 'e']

/-- `"info"`. -/
def wInfo : Str := ['i', 'n', 'f', 'o']

/-- `"save"`. -/
def wSave : Str := ['s', 'a', 'v', 'e']

/-- `"epoch"`. -/
def wEpoch : Str := ['e', 'p', 'o', 'c', 'h']

/-- `"env_step"`. -/
def wEnvStep : Str := ['e', 'n', 'v', '_', 's', 't', 'e', 'p']

/-- `"gradient_step"`. -/
def wGradientStep : Str := ['g', 'r', 'a', 'd', 'i', 'e', 'n', 't', '_', 's', 't', 'e', 'p']

/-! ### Intervals -/

/-- `DataScope`, `base.py` lines 16-20. -/
inductive Scope
  | train
  | test
  | update
  | info
deriving DecidableEq, Repr

/-- The attributes of `BaseLogger`, `base.py` lines 26-49, and what was given to `write`, oldest first. -/
structure Base (D : Type) where
  interval : Scope → Int
  last : Scope → Int
  written : List (Scope × Int × D)

variable {D : Type}

/-- A logger as constructed, `base.py` lines 26-49. -/
def Base.new (interval : Scope → Int) : Base D :=
  { interval := interval, last := fun _ => -1, written := [] }

/-- `log_train_data`, `log_test_data`, `log_update_data`, `log_info_data`, `base.py` lines 74-121. `prepare` is
`prepare_dict_for_logging`. -/
def Base.log {D' : Type} (prepare : D' → D) (b : Base D) (s : Scope) (d : D') (step : Int) : Base D :=
  if step - b.last s ≥ b.interval s then
    { b with
      written := b.written ++ [(s, step, prepare d)]
      last := fun t => if t = s then step else b.last t }
  else b

/-- Calls in a row. -/
def Base.logs {D' : Type} (prepare : D' → D) (b : Base D) : List (Scope × Int × D') → Base D
  | [] => b
  | c :: cs => (b.log prepare c.1 c.2.2 c.2.1).logs prepare cs

/-! ### Nested dictionaries -/

mutual
/-- A value in a dictionary given to a logger: a number, an array, something else, or a dictionary. -/
inductive Val (V : Type)
  | num (v : V)
  | arr
  | other
  | dict (d : Dict V)
/-- The entries of a dictionary, in order. -/
inductive Dict (V : Type)
  | nil
  | cons (k : Str) (v : Val V) (rest : Dict V)
end

variable {V : Type}

/-- `d[k] = v` for a Python dictionary: an existing key keeps its place. -/
def assign {A B : Type} [DecidableEq A] (k : A) (v : B) : List (A × B) → List (A × B)
  | [] => [(k, v)]
  | (k', v') :: l => if k' = k then (k, v) :: l else (k', v') :: assign k v l

/-- `str.lstrip("/")`. -/
def lstrip : Str → Str
  | [] => []
  | c :: s => if c = '/' then lstrip s else c :: s

mutual
/-- `add_to_result` on one value, `tensorboard.py` lines 71-83. -/
def addValue (k : Str) (pre : Str) : Val V → List (Str × V) → List (Str × V)
  | .arr, res => res
  | .dict d, res => addDict d (lstrip (pre ++ '/' :: k)) res
  | .num v, res => assign (lstrip (pre ++ '/' :: k)) v res
  | .other, res => res
/-- `add_to_result`, `tensorboard.py` lines 66-83. -/
def addDict : Dict V → Str → List (Str × V) → List (Str × V)
  | .nil, _, res => res
  | .cons k v rest, pre, res => addDict rest pre (addValue k pre v res)
end

/-- `prepare_dict_for_logging`, `tensorboard.py` lines 47-86. -/
def prepare (d : Dict V) : List (Str × V) := addDict d [] []

/-! ### TensorBoard -/

/-- One scalar in the event files. -/
structure Event (V : Type) where
  tag : Str
  step : Int
  value : V
deriving DecidableEq

/-- `str.split("/")`. -/
def split : Str → List Str
  | [] => [[]]
  | c :: s =>
    if c = '/' then [] :: split s
    else match split s with
      | [] => [[c]]
      | w :: ws => (c :: w) :: ws

/-- `TensorboardLogger.write`, `tensorboard.py` lines 88-98; `none` if the type of step does not consist of two words. -/
def write [IntCast V] (stepType : Str) (step : Int) (data : List (Str × V)) (file : List (Event V)) : Option (List (Event V)) :=
  match split stepType with
  | [scope, _] =>
    some (file ++ ⟨stepType, step, (step : V)⟩ :: data.map fun kv => ⟨scope ++ '/' :: kv.1, step, kv.2⟩)
  | _ => none

/-- What `restore_logged_data` returns: arrays of values in nested dictionaries. -/
inductive Tree (V : Type)
  | leaf (vs : List V)
  | node (kids : List (Str × Tree V))

/-- The value of a key. -/
def find {A B : Type} [DecidableEq A] (k : A) : List (A × B) → Option B
  | [] => none
  | (k', v) :: l => if k' = k then some v else find k l

/-- `add_value_to_innermost_nested_dict`, `tensorboard.py` lines 156-184, for the list of keys; `none` if an intermediate key holds an
array (`AttributeError`). -/
def addPath (vs : List V) : List Str → List (Str × Tree V) → Option (List (Str × Tree V))
  | [], d => some d
  | [k], d => some (assign k (.leaf vs) d)
  | k :: k' :: ks, d =>
    match find k d with
    | none => (addPath vs (k' :: ks) []).map fun sub => assign k (.node sub) d
    | some (.node sub) => (addPath vs (k' :: ks) sub).map fun sub' => assign k (.node sub') d
    | some (.leaf _) => none

/-- The values of a tag, `[s.value for s in ea.scalars.Items(tag)]`. -/
def valuesOf (file : List (Event V)) (tag : Str) : List V :=
  (file.filter fun e => e.tag = tag).map (·.value)

/-- `ea.scalars.Keys()`: the tags in order of first occurrence. -/
def tags (file : List (Event V)) : List Str := (file.map (·.tag)).reverse.dedup.reverse

/-- `for key_string in ea.scalars.Keys()`, `tensorboard.py` lines 187-192. -/
def addTags (file : List (Event V)) : List Str → List (Str × Tree V) → Option (List (Str × Tree V))
  | [], d => some d
  | t :: ts, d => (addPath (valuesOf file t) (split t) d).bind (addTags file ts)

/-- `restore_logged_data`, `tensorboard.py` lines 142-194. -/
def restoreLogged (file : List (Event V)) : Option (List (Str × Tree V)) := addTags file (tags file) []

/-! ### Checkpoints -/

/-- A `TensorboardLogger`: `BaseLogger`, `save_interval`, `last_save_step`, the event files, and the calls of `save_checkpoint_fn`. -/
structure Tb (V : Type) where
  base : Base (List (Str × V))
  saveInterval : Int
  lastSave : Int
  writeFlush : Bool
  file : List (Event V)
  flushes : Nat
  saved : List (Int × Int × Int)

/-- The step type used for the data of a scope, `base.py` lines 83, 95, 107, 120. -/
def stepType : Scope → Str
  | .train => wTrain ++ '/' :: wEnvStep
  | .test => wTest ++ '/' :: wEnvStep
  | .update => wUpdate ++ '/' :: wGradientStep
  | .info => wInfo ++ '/' :: wEpoch

/-- A new `TensorboardLogger` on a directory with the given event files, `tensorboard.py` lines 31-45. -/
def Tb.new (interval : Scope → Int) (saveInterval : Int) (writeFlush : Bool) (file : List (Event V)) : Tb V :=
  { base := Base.new interval
    saveInterval := saveInterval
    lastSave := -1
    writeFlush := writeFlush
    file := file
    flushes := 0
    saved := [] }

variable [IntCast V]

/-- `write` on the logger, `tensorboard.py` lines 88-100. -/
def Tb.write (l : Tb V) (stepType : Str) (step : Int) (data : List (Str × V)) : Option (Tb V) :=
  (Logger.write stepType step data l.file).map fun f =>
    { l with file := f, flushes := if l.writeFlush then l.flushes + 1 else l.flushes }

/-- A `log_*_data` call, `base.py` lines 74-121, which ends in `write`. -/
def Tb.log (l : Tb V) (s : Scope) (d : Dict V) (step : Int) : Option (Tb V) :=
  if step - l.base.last s ≥ l.base.interval s then
    (l.write (stepType s) step (prepare d)).map fun l' => { l' with base := l.base.log prepare s d step }
  else some l

/-- `save_data`, `tensorboard.py` lines 105-121. `fn`: a `save_checkpoint_fn` is given. -/
def Tb.save (l : Tb V) (epoch envStep gradientStep : Int) (fn : Bool) : Option (Tb V) :=
  if fn = true ∧ epoch - l.lastSave ≥ l.saveInterval then
    (({ l with lastSave := epoch, saved := l.saved ++ [(epoch, envStep, gradientStep)] } : Tb V).write
        (wSave ++ '/' :: wEpoch) epoch [((wSave ++ '/' :: wEpoch), (epoch : V))]).bind fun l =>
      (l.write (wSave ++ '/' :: wEnvStep) envStep [((wSave ++ '/' :: wEnvStep), (envStep : V))]).bind fun l =>
        l.write (wSave ++ '/' :: wGradientStep) gradientStep [((wSave ++ '/' :: wGradientStep), (gradientStep : V))]
  else some l

/-- `ea.scalars.Items(tag)[-1].step`; `none` is a `KeyError`. -/
def lastStep (file : List (Event V)) (tag : Str) : Option Int :=
  ((file.filter fun e => e.tag = tag).getLast?).map (·.step)

/-- The state after the first `try` block of `restore_data`, `tensorboard.py` lines 127-133, with epoch and gradient step. -/
def Tb.restoreEpoch (l : Tb V) : Tb V × Int × Int :=
  match lastStep l.file (wSave ++ '/' :: wEpoch) with
  | none => (l, 0, 0)
  | some epoch =>
    let l := { l with
      lastSave := epoch
      base := { l.base with last := fun s => if s = .test then epoch else l.base.last s } }
    match lastStep l.file (wSave ++ '/' :: wGradientStep) with
    | none => (l, 0, 0)
    | some g => ({ l with base := { l.base with last := fun s => if s = .update then g else l.base.last s } }, epoch, g)

/-- `restore_data`, `tensorboard.py` lines 123-140: the logger afterwards and epoch, environment step, gradient step. -/
def Tb.restore (l : Tb V) : Tb V × Int × Int × Int :=
  let r := l.restoreEpoch
  match lastStep l.file (wSave ++ '/' :: wEnvStep) with
  | none => (r.1, r.2.1, 0, r.2.2)
  | some e => ({ r.1 with base := { r.1.base with last := fun s => if s = .train then e else r.1.base.last s } }, r.2.1, e, r.2.2)

/-- The calls a trainer makes on a logger. -/
inductive Call (V : Type)
  | log (s : Scope) (d : Dict V) (step : Int)
  | save (epoch envStep gradientStep : Int) (fn : Bool)

/-- One call. -/
def Tb.call (l : Tb V) : Call V → Option (Tb V)
  | .log s d step => l.log s d step
  | .save e s g fn => l.save e s g fn

/-- Calls in a row. -/
def Tb.calls (l : Tb V) : List (Call V) → Option (Tb V)
  | [] => some l
  | c :: cs => (l.call c).bind fun l => l.calls cs

/-! ### Weights and Biases -/

/-- The arguments of `WandbLogger.__init__` that matter here, `wandb.py` lines 48-70. -/
structure Wandb where
  interval : Scope → Int
  saveInterval : Int
  writeFlush : Bool

/-- The positional parameters of `TensorboardLogger.__init__` after the writer, `tensorboard.py` lines 31-40, with their defaults. -/
def tbArgs (train : Int := 1000) (test : Int := 1) (update : Int := 1000) (info : Int := 1) (save : Int := 1) (flush : Bool := true)
    (file : List (Event V)) : Tb V :=
  Tb.new (fun s => match s with | .train => train | .test => test | .update => update | .info => info) save flush file

/-- The integer a Python boolean stands for. -/
def ofBool (b : Bool) : Int := if b then 1 else 0

/-- `WandbLogger.load`, `wandb.py` lines 106-115: the logger used for writing. Six arguments are passed by position. -/
def Wandb.load (w : Wandb) (file : List (Event V)) : Tb V :=
  tbArgs (w.interval .train) (w.interval .test) (w.interval .update) w.saveInterval (ofBool w.writeFlush) (file := file)

/-- A checkpoint in the store of W&B: the metadata of the artifact. -/
structure Artifact where
  epoch : Int
  envStep : Int
  gradientStep : Int
  path : Str
deriving DecidableEq

/-- A `WandbLogger` and the versions of the artifact `run_<id>_checkpoint` in the store, which outlive it. `base`: the counters of
`BaseLogger`; `inner`: the logger that writes, once it is loaded. `saved`: the calls of `save_checkpoint_fn` in this process. -/
structure WandbRun (V : Type) where
  args : Wandb
  base : Base (List (Str × V))
  lastSave : Int
  inner : Option (Tb V)
  store : List Artifact
  saved : List (Int × Int × Int)

/-- `WandbLogger.__init__`, `wandb.py` lines 48-96, with `resume="allow"` on a run with the given artifacts. -/
def WandbRun.new (w : Wandb) (store : List Artifact) : WandbRun V :=
  { args := w, base := Base.new w.interval, lastSave := -1, inner := none, store := store, saved := [] }

/-- `WandbLogger.load`, `wandb.py` lines 106-115. -/
def WandbRun.loadWriter (l : WandbRun V) (file : List (Event V)) : WandbRun V := { l with inner := some (l.args.load file) }

/-- A `log_*_data` call, `base.py` lines 74-121, with `prepare_dict_for_logging` and `write` of `wandb.py` lines 98-104, 117-123: `none` if no
writer has been loaded. -/
def WandbRun.log (l : WandbRun V) (s : Scope) (d : Dict V) (step : Int) : Option (WandbRun V) :=
  if step - l.base.last s ≥ l.base.interval s then
    l.inner.bind fun t => (t.write (stepType s) step (prepare d)).map fun t' =>
      { l with inner := some t', base := l.base.log prepare s d step }
  else some l

/-- `WandbLogger.save_data`, `wandb.py` lines 131-164. `fn`: the path that `save_checkpoint_fn` returns, if there is such a function; the file is
there. -/
def WandbRun.save (l : WandbRun V) (epoch envStep gradientStep : Int) (fn : Option (Int → Int → Int → Str)) : WandbRun V :=
  match fn with
  | none => l
  | some f =>
    if epoch - l.lastSave ≥ l.args.saveInterval then
      { l with
        lastSave := epoch
        saved := l.saved ++ [(epoch, envStep, gradientStep)]
        store := l.store ++ [⟨epoch, envStep, gradientStep, f epoch envStep gradientStep⟩] }
    else l

/-- `WandbLogger.restore_data`, `wandb.py` lines 166-190, with the path whose directory the checkpoint is downloaded to. `none`: `use_artifact`
raises if no version of the artifact exists. -/
def WandbRun.restore (l : WandbRun V) : Option (WandbRun V × (Int × Int × Int) × Str) :=
  l.store.getLast?.map fun a =>
    ({ l with
        lastSave := a.epoch
        base := { l.base with last := fun s =>
          match s with
          | .test => a.epoch
          | .update => a.gradientStep
          | .train => a.envStep
          | .info => l.base.last .info } },
      (a.epoch, a.envStep, a.gradientStep), a.path)

/-- The calls a trainer makes, for a `WandbLogger`. `fn`: the checkpoint function of `save_data`. -/
def WandbRun.call (fn : Int → Int → Int → Str) (l : WandbRun V) : Call V → Option (WandbRun V)
  | .log s d step => l.log s d step
  | .save e s g b => some (l.save e s g (if b then some fn else none))

/-- Calls in a row. -/
def WandbRun.calls (fn : Int → Int → Int → Str) (l : WandbRun V) : List (Call V) → Option (WandbRun V)
  | [] => some l
  | c :: cs => (l.call fn c).bind fun l => l.calls fn cs

end Verif.Logger
