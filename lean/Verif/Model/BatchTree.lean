import Mathlib.Data.Rat.Defs
import Mathlib.Algebra.Order.Field.Rat

/-!
Model of `tianshou/data/batch.py`: arithmetic, copying and conversion of batches, and of `tianshou/data/utils/converter.py`
where it hands batches on.

A batch is a tree of named entries whose values are of an arbitrary type `α`: what a function does with a single array is
a parameter or a small definition below. Keys that are names of methods of `Batch` (such as `items`), which hide the
methods, are left out.
-/

namespace Verif.BatchTree

/-- Exceptions raised in tianshou/data/batch.py, lines 148-249 and 631-1376. -/
inductive Err
  | typeError
  | valueError
  | attributeError
deriving DecidableEq, Repr

/-- A `Batch` with values in `α`: entries in insertion order, each a value or a nested batch. -/
inductive T (α : Type) where
  | nil
  | leaf (key : String) (a : α) (rest : T α)
  | sub (key : String) (b : T α) (rest : T α)
deriving DecidableEq, Repr

/-- An entry of a batch. -/
inductive Entry (α : Type) where
  | leaf (a : α)
  | sub (b : T α)

variable {α β : Type}

/-- `get_keys`, lines 669-670. -/
def T.keys : T α → List String
  | .nil => []
  | .leaf k _ rest => k :: rest.keys
  | .sub k _ rest => k :: rest.keys

/-- `self.__dict__.get(key)`, line 673. -/
def T.get? (key : String) : T α → Option (Entry α)
  | .nil => none
  | .leaf k a rest => if k = key then some (.leaf a) else rest.get? key
  | .sub k b rest => if k = key then some (.sub b) else rest.get? key

/-- `self.__dict__[key] = value`: an existing entry is replaced at its place, a new one added at the end. -/
def T.set (key : String) (v : Entry α) : T α → T α
  | .nil => match v with
    | .leaf a => .leaf key a .nil
    | .sub b => .sub key b .nil
  | .leaf k a rest =>
    if k = key then (match v with | .leaf a' => .leaf k a' rest | .sub b => .sub k b rest)
    else .leaf k a (rest.set key v)
  | .sub k b rest =>
    if k = key then (match v with | .leaf a => .leaf k a rest | .sub b' => .sub k b' rest)
    else .sub k b (rest.set key v)

/-- `update`, lines 1162-1169, and the loop of `__init__`, lines 650-651: the entries of `other` are assigned one after
the other. -/
def T.update (b : T α) : T α → T α
  | .nil => b
  | .leaf k a rest => T.update (b.set k (.leaf a)) rest
  | .sub k c rest => T.update (b.set k (.sub c)) rest

/-- `_apply_batch_values_func_recursively`, lines 1367-1384, for a function that may raise an exception. The function is
applied to all values, nested ones included. -/
def T.mapE (f : α → Except Err β) : T α → Except Err (T β)
  | .nil => .ok .nil
  | .leaf k a rest => do
    let x ← f a
    let r ← rest.mapE f
    .ok (.leaf k x r)
  | .sub k b rest => do
    let x ← b.mapE f
    let r ← rest.mapE f
    .ok (.sub k x r)

/-! ### Arithmetic, lines 803-851 -/

/-- An array of numbers, with its entries in order; the shape does not change. Integers and floats are told apart
because NumPy does not write floats into integer arrays. -/
inductive Arr
  | ints (xs : List Int)
  | floats (xs : List Rat)
deriving DecidableEq, Repr

/-- A number. -/
inductive Num
  | int (x : Int)
  | float (x : Rat)
deriving DecidableEq, Repr

/-- `array += number`: an integer array does not take floats (`UFuncTypeError`, a `TypeError`). -/
def Arr.addNum (c : Num) : Arr → Except Err Arr
  | .ints xs => match c with
    | .int c => .ok (.ints (xs.map fun x => x + c))
    | .float _ => .error .typeError
  | .floats xs => match c with
    | .int c => .ok (.floats (xs.map fun x => x + (c : Rat)))
    | .float c => .ok (.floats (xs.map fun x => x + c))

/-- `array *= number`. -/
def Arr.mulNum (c : Num) : Arr → Except Err Arr
  | .ints xs => match c with
    | .int c => .ok (.ints (xs.map fun x => x * c))
    | .float _ => .error .typeError
  | .floats xs => match c with
    | .int c => .ok (.floats (xs.map fun x => x * (c : Rat)))
    | .float c => .ok (.floats (xs.map fun x => x * c))

/-- `array /= number`: the quotient of integers is a float. Division by zero (infinities) is not modelled. -/
def Arr.divNum (c : Num) : Arr → Except Err Arr
  | .ints _ => .error .typeError
  | .floats xs => match c with
    | .int c => .ok (.floats (xs.map fun x => x / (c : Rat)))
    | .float c => .ok (.floats (xs.map fun x => x / c))

/-- `array += array`, for arrays of the same shape (broadcasting is left out: `ValueError`). -/
def Arr.addArr : Arr → Arr → Except Err Arr
  | .ints xs, .ints ys => if xs.length = ys.length then .ok (.ints (List.zipWith (· + ·) xs ys)) else .error .valueError
  | .ints _, .floats _ => .error .typeError
  | .floats xs, .ints ys =>
    if xs.length = ys.length then .ok (.floats (List.zipWith (fun (x : Rat) (y : Int) => x + (y : Rat)) xs ys)) else .error .valueError
  | .floats xs, .floats ys =>
    if xs.length = ys.length then .ok (.floats (List.zipWith (· + ·) xs ys)) else .error .valueError

/-- `b + number`, `b * number`, `b / number`, lines 815-825, 827-851, for the operation `op` on arrays: every entry of the
copy is changed, empty nested batches are skipped. -/
def T.withNum (op : Arr → Except Err Arr) (b : T Arr) : Except Err (T Arr) := b.mapE op

/-- `b += other`, lines 803-814: the entries of the two batches are paired by position (`zip(..., strict=True)`), empty
nested batches of the left side are skipped, a nested batch takes only a batch and an array only an array. The first
exception ends the loop; for `b + other` (line 823-825) the half-finished copy is lost. -/
def T.add : T Arr → T Arr → Except Err (T Arr)
  | .nil, .nil => .ok .nil
  | .nil, _ => .error .valueError
  | .leaf _ _ _, .nil => .error .valueError
  | .sub _ _ _, .nil => .error .valueError
  | .leaf k a rest, .leaf _ a' rest' => do
    let x ← a.addArr a'
    let r ← T.add rest rest'
    .ok (.leaf k x r)
  | .leaf _ _ _, .sub _ _ _ => .error .typeError
  | .sub k b rest, .leaf _ _ rest' =>
    match b with
    | .nil => do
      let r ← T.add rest rest'
      .ok (.sub k .nil r)
    | _ => .error .typeError
  | .sub k b rest, .sub _ b' rest' => do
    let x ← (match b with
      | .nil => .ok .nil
      | b => T.add b b')
    let r ← T.add rest rest'
    .ok (.sub k x r)

/-! ### Copying and pickling, lines 693-712 -/

/-- The truth value of an entry, as in `if copy:` (line 645): `truth` for values, non-emptiness for dictionaries. -/
def Entry.truth (truth : α → Except Err Bool) : Entry α → Except Err Bool
  | .leaf a => truth a
  | .sub b => .ok (b.keys ≠ [])

/-- The entries without some keys (the named parameters of `__init__`, which do not arrive in `kwargs`). -/
def T.without (ks : List String) : T α → T α
  | .nil => .nil
  | .leaf k a rest => if k ∈ ks then rest.without ks else .leaf k a (rest.without ks)
  | .sub k b rest => if k ∈ ks then rest.without ks else .sub k b (rest.without ks)

/-- `__setstate__(__getstate__())`, lines 693-712, with `__init__`, lines 636-659: the result of `copy.deepcopy` and of
pickling. The state is passed as keyword arguments (`self.__init__(**state)`), so the top-level keys `self`, `copy` and
`batch_dict` meet the parameters of `__init__`. A value `batch_dict` that is not a dictionary is ignored. -/
def T.restore (truth : α → Except Err Bool) (b : T α) : Except Err (T α) :=
  if "self" ∈ b.keys then .error .typeError
  else
    let copy : Except Err Bool := match b.get? "copy" with
      | none => .ok false
      | some v => v.truth truth
    match copy with
    | .error e => .error e
    | .ok _ =>
      let first : T α := match b.get? "batch_dict" with
        | some (.sub d) => T.update .nil d
        | _ => .nil
      .ok (T.update first (b.without ["copy", "batch_dict"]))

/-! ### Conversion to tensors, lines 868-914 -/

/-- A device: its type and index (`cuda` has none, `cuda:0` has the index 0). -/
structure Device where
  type : String
  index : Option Nat
deriving DecidableEq, Repr

/-- A value: a NumPy array of numbers, a NumPy array of objects, a tensor, or `None`. `δ` is the data. -/
inductive V (δ : Type) where
  | np (dtype : String) (data : δ)
  | npObject
  | torch (dtype : String) (device : Device) (data : δ)
  | none
deriving DecidableEq, Repr

variable {δ : Type}

/-- `arr_to_torch`, lines 898-912. `cast` converts data from one element type to another. A NumPy array keeps its element
type; an array of objects cannot be converted; `None` has no attribute `dtype` or `device`. -/
def toTorchVal (cast : String → String → δ → δ) (dtype : Option String) (device : Device) : V δ → Except Err (V δ)
  | .np t d => .ok (.torch t device d)
  | .npObject => .error .typeError
  | .none => .error .attributeError
  | .torch t dev d =>
    if (dtype.isSome ∧ dtype ≠ some t) ∨ dev.type ≠ device.type ∨ device.index ≠ dev.index then
      match dtype with
      | some t' => .ok (.torch t' device (cast t t' d))
      | Option.none => .ok (.torch t device d)
    else .ok (.torch t dev d)

/-- `Batch.to_torch(dtype, device)` and `to_torch(batch, dtype, device)` (converter.py 56-59), after the copy. -/
def toTorch (cast : String → String → δ → δ) (dtype : Option String) (device : Device) (b : T (V δ)) :
    Except Err (T (V δ)) :=
  b.mapE (toTorchVal cast dtype device)

/-- `arr_to_numpy`, lines 874-877, and `Batch.to_numpy`: tensors become arrays of the same element type. -/
def toNumpyVal : V δ → V δ
  | .torch t _ d => .np t d
  | v => v

/-- `Batch.to_numpy()`, lines 868-879. -/
def toNumpy (b : T (V δ)) : Except Err (T (V δ)) := b.mapE fun v => .ok (toNumpyVal v)

/-- `to_torch(x, dtype, device)` of converter.py, lines 37-54, for a single value. -/
def toTorchOne (cast : String → String → δ → δ) (dtype : Option String) (device : Device) : V δ → Except Err (V δ)
  | .np t d => match dtype with
    | some t' => .ok (.torch t' device (cast t t' d))
    | Option.none => .ok (.torch t device d)
  | .torch t _ d => match dtype with
    | some t' => .ok (.torch t' device (cast t t' d))
    | Option.none => .ok (.torch t device d)
  | .npObject => .error .typeError
  | .none => .error .typeError

end Verif.BatchTree
