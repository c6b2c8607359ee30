import Verif.Model.EpisodeHook
import Mathlib.Data.Rat.Defs

/-!
The information (`info`) returned by the environments in a vector buffer, and the search for missing values at the end of a collection:
`tianshou/data/buffer/manager.py`, lines 151-196, `tianshou/data/batch.py`, lines 150-248 (`create_value`, `alloc_by_keys_diff`), 777-801
(item assignment), 1306-1325 (`isnull`, `hasnull`), the stacking of dictionaries in a batch (`stack_`, lines 1050-1130), and
`tianshou/data/collector.py`, lines 484-496 and 1032-1045. The rounds are those of the collector of `Collector.lean`.

Simplifications: a nested dictionary is written with one name for each path; the values are numbers (not arrays of numbers) and objects;
floats are rational numbers or NaN; an array does not have numbers of one row and objects of another (writing an object into an array of
numbers is taken as an error). The same holds for the other entries of a transition whose type is chosen at the first `add`.
-/

namespace Verif.InfoStore

open Verif.Buffer Verif.Pipeline

/-- The types of arrays, as far as they matter here. -/
inductive Kind where
  | bool
  | int
  | float
  | obj
deriving DecidableEq, Repr

/-- A value in a dictionary, or an entry of an array: a number (`none` is NaN) or an object (`none` is `None`). -/
inductive Val (S : Type) where
  | bool (b : Bool)
  | int (z : Int)
  | float (x : Option ℚ)
  | obj (o : Option S)
deriving DecidableEq, Repr

variable {O A R S : Type}

/-- The kind of a value, as `_to_array_with_correct_type` finds it, batch.py:121-145. -/
def Val.kind : Val S → Kind
  | .bool _ => .bool
  | .int _ => .int
  | .float _ => .float
  | .obj _ => .obj

/-- What `create_value` fills an array with (batch.py:173-176), and what item assignment writes for a missing key (batch.py:796-801). -/
def zero : Kind → Val S
  | .bool => .bool false
  | .int => .int 0
  | .float => .float (some 0)
  | .obj => .obj none

/-- The type of the array numpy makes of values of two types. -/
def join : Kind → Kind → Kind
  | .obj, _ => .obj
  | _, .obj => .obj
  | .float, _ => .float
  | _, .float => .float
  | .int, _ => .int
  | _, .int => .int
  | .bool, .bool => .bool

/-- Assignment to an entry of a numpy array: the value is converted to the type of the array; floats are cut off at the point, `nanInt` is
what numpy makes of NaN. -/
def cast (nanInt : Int) : Kind → Val S → Option (Val S)
  | .bool, .bool b => some (.bool b)
  | .bool, .int z => some (.bool (z != 0))
  | .bool, .float x => some (.bool (x != some 0))
  | .int, .bool b => some (.int (if b then 1 else 0))
  | .int, .int z => some (.int z)
  | .int, .float none => some (.int nanInt)
  | .int, .float (some q) => some (.int (q.num.tdiv q.den))
  | .float, .bool b => some (.float (some (if b then 1 else 0)))
  | .float, .int z => some (.float (some z))
  | .float, .float x => some (.float x)
  | .obj, v => some v
  | _, .obj _ => none

/-- A dictionary. -/
abbrev Info (S : Type) := List (String × Val S)

/-- `info.get(key)`. -/
def get (info : Info S) (key : String) : Option (Val S) := info.lookup key

/-- The entries of an array of the given type, one for each row; rows without a value keep what the array was filled with. -/
def castAll (nanInt : Int) (k : Kind) : List (Option (Val S)) → Option (List (Val S))
  | [] => some []
  | none :: t => (castAll nanInt k t).map (zero k :: ·)
  | some v :: t =>
    match cast nanInt k v with
    | none => none
    | some w => (castAll nanInt k t).map (w :: ·)

/-- The array `stack_` makes of the values under one key, one for each row: if all rows have the key, numpy chooses the type, otherwise the
first value does (batch.py:1078-1090 and 1109-1130). `some none`: no row has the key. -/
def stacked (nanInt : Int) (vs : List (Option (Val S))) : Option (Option (Kind × List (Val S))) :=
  match vs.filterMap id with
  | [] => some none
  | v :: rest =>
    let k := if vs.all Option.isSome then rest.foldl (fun k w => join k w.kind) v.kind else v.kind
    (castAll nanInt k vs).map fun l => some (k, l)

/-- An array of the buffer. -/
structure Column (S : Type) where
  kind : Kind
  cell : Nat → Val S

/-- `array[slots] = values`. -/
def writeCells : (Nat → Val S) → List Nat → List (Val S) → Nat → Val S
  | c, i :: is, v :: vs => writeCells (Function.update c i v) is vs
  | c, _, _ => c

/-- What `add` does to the array of one key, manager.py:180-195: a new key gets an array of the type of the values (batch.py:231-248); the
values are assigned; rows without the key get zero (batch.py:790-801). The outer `none` is an error. -/
def writeKey (nanInt : Int) (slots : List Nat) (vs : List (Option (Val S))) (col : Option (Column S)) : Option (Option (Column S)) :=
  match stacked nanInt vs with
  | none => none
  | some none => some (col.map fun c => { c with cell := fun i => if slots.contains i then zero c.kind else c.cell i })
  | some (some (k, l)) =>
    let c := col.getD ⟨k, fun _ => zero k⟩
    (castAll nanInt c.kind (l.map some)).map fun l' => some { c with cell := writeCells c.cell slots l' }

/-- `buffer.info`: the names of its arrays, and the arrays. -/
structure Store (S : Type) where
  names : List String
  column : String → Option (Column S)

/-- `self._meta = Batch()`, data/buffer/base.py:98. -/
def Store.empty : Store S := ⟨[], fun _ => none⟩

/-- The keys of the dictionaries that have no array yet. -/
def newNames (x : Store S) (infos : List (Info S)) : List String :=
  ((infos.flatMap fun d => d.map Prod.fst).filter fun key => !x.names.contains key).eraseDups

/-- The information of one round of transitions is written to their slots. -/
def addInfos (nanInt : Int) (x : Store S) (slots : List Nat) (infos : List (Info S)) : Option (Store S) :=
  let names := x.names ++ newNames x infos
  let write := fun key => writeKey nanInt slots (infos.map fun d => get d key) (x.column key)
  if names.all fun key => (write key).isSome then some ⟨names, fun key => (write key).join⟩ else none

/-- A vector buffer with the information stored in it. -/
structure IBuf (O A R S : Type) where
  mgr : Mgr O A R
  store : Store S

/-- Exceptions of storing `info`: those of the buffer, and of batch.py:186-233 and 787-812. -/
inductive Err where
  | buffer (e : Buffer.Err)
  | convert
  | malformed
deriving DecidableEq, Repr

/-- One round, collector.py:895-898 with manager.py:133-196. -/
def infoRound [Zero R] [Add R] (nanInt : Int) (x : IBuf O A R S) (round : List (Nat × Collector.Row O A R (Info S))) :
    Except Err (IBuf O A R S) :=
  match x.mgr.add (round.map Prod.fst) (round.map fun p => toTrans p.2) with
  | .error e => .error (.buffer e)
  | .ok (m', res) =>
    match addInfos nanInt x.store (res.map fun r => r.slot) (round.map fun p => p.2.out.info) with
    | none => .error .convert
    | some store => .ok ⟨m', store⟩

/-- Several rounds. -/
def infoRounds [Zero R] [Add R] (nanInt : Int) :
    IBuf O A R S → List (List (Nat × Collector.Row O A R (Info S))) → Except Err (IBuf O A R S)
  | x, [] => .ok x
  | x, round :: rest =>
    match infoRound nanInt x round with
    | .error e => .error e
    | .ok x' => infoRounds nanInt x' rest

/-- `pd.isnull`. -/
def isNull : Val S → Bool
  | .float none => true
  | .obj none => true
  | _ => false

/-- `buffer.hasnull()`, base.py:639-640 with 595-626 and batch.py:1309-1325, for the transitions listed by `sample_indices(0)`;
`rowNull` tells whether there is a NaN or `None` among the other entries of a transition. -/
def hasNull (rowNull : Trans O A R → Bool) (x : IBuf O A R S) : Except Err Bool :=
  match x.mgr.sampleIndices (fun _ => 0) (fun _ _ => 0) (some 0) with
  | .error e => .error (.buffer e)
  | .ok indices => .ok <| indices.any fun i =>
      (match x.mgr.data i with
        | some t => rowNull t
        | none => false) ||
      x.store.names.any fun key =>
        match x.store.column key with
        | some c => isNull (c.cell i)
        | none => false

/-- The end of a collection. The synchronous collector looks for missing values always (collector.py:1033-1045), and both collectors if
`raise_on_nan_in_buffer` is set (lines 484-496). -/
def finish (isAsync raiseOnNan : Bool) (rowNull : Trans O A R → Bool) (x : IBuf O A R S) : Except Err Unit :=
  match hasNull rowNull x with
  | .error e => .error e
  | .ok null =>
    if !isAsync && null then .error .malformed
    else if raiseOnNan && null then .error .malformed
    else .ok ()

end Verif.InfoStore
