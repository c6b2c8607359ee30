import Verif.Model.BatchTree
import Verif.Model.Dist

/-!
Model of `Batch.apply_values_transform` (tianshou/data/batch.py lines 1249-1266, 1367-1384) on objects in memory, and of
`Batch.to_at_least_2d` (lines 1354-1364).

Simplifications. Batches do not contain themselves. Values (arrays) are of an arbitrary type and are not modified by the function;
`deepcopy` is modelled for the batches only.
-/

namespace Verif.ApplyValues

open Verif.BatchTree

variable {α : Type}

/-- A value in the `__dict__` of a batch: an array or the address of another batch. -/
inductive Cell (α : Type)
  | leaf (a : α)
  | ref (addr : Nat)
deriving DecidableEq

/-- The batches in memory: below `next` the `__dict__` of each, from `next` on nothing. -/
structure Heap (α : Type) where
  next : Nat
  dict : Nat → List (String × Cell α)

/-- A new `Batch` object. -/
def Heap.new (h : Heap α) (d : List (String × Cell α)) : Nat × Heap α :=
  (h.next, ⟨h.next + 1, fun i => if i = h.next then d else h.dict i⟩)

/-- The loop of `_apply_batch_values_func_recursively`, batch.py lines 1377-1381, over a batch with the given content: the new entries. A nested
batch is replaced by the result of the same function without `inplace`, line 1379, which is a new object, line 1376. -/
def entries (f : α → α) : T α → Heap α → List (String × Cell α) × Heap α
  | .nil, h => ([], h)
  | .leaf k a rest, h =>
    let r := entries f rest h
    ((k, .leaf (f a)) :: r.1, r.2)
  | .sub k b rest, h =>
    let n := entries f b h
    let o := n.2.new n.1
    let r := entries f rest o.2
    ((k, .ref o.1) :: r.1, r.2)

/-- `_apply_batch_values_func_recursively(batch, f, inplace=True)`, batch.py lines 1367-1384, for the batch at `addr` with the content `b`. -/
def applyInPlace (f : α → α) (addr : Nat) (b : T α) (h : Heap α) : Heap α :=
  let r := entries f b h
  { r.2 with dict := fun i => if i = addr then r.1 else r.2.dict i }

/-- The same with `inplace=False`: the address of the result and the new memory. -/
def applyCopy (f : α → α) (b : T α) (h : Heap α) : Nat × Heap α :=
  let r := entries f b h
  r.2.new r.1

/-! ### At least two dimensions -/

variable {F : Type}

/-- A value: an array with its shape and numbers, a distribution, or an array with one row and one column that holds a distribution. -/
inductive Val (F : Type)
  | arr (shape : List Nat) (data : List F)
  | dist (d : Dists.Dist F)
  | boxed (d : Dists.Dist F)

/-- `np.atleast_2d`; anything that is not an array becomes an array of objects first. -/
def atLeast2d : Val F → Val F
  | .arr [] d => .arr [1, 1] d
  | .arr [n] d => .arr [1, n] d
  | .arr s d => .arr s d
  | .dist d => .boxed d
  | .boxed d => .boxed d

/-- `apply_values_transform` as a function of the content. -/
def mapV (f : α → α) : T α → T α
  | .nil => .nil
  | .leaf k a rest => .leaf k (f a) (mapV f rest)
  | .sub k b rest => .sub k (mapV f b) (mapV f rest)

variable [Field F]

/-- The loop of `to_at_least_2d`, batch.py lines 1361-1363, over the entries of `self`. -/
def fixDists : T (Val F) → T (Val F) → Except Dists.Err (T (Val F))
  | .nil, r => .ok r
  | .leaf k (.dist d) rest, r =>
    match d.atLeast2d with
    | .error e => .error e
    | .ok d' => fixDists rest (r.set k (.leaf (.dist d')))
  | .leaf _ _ rest, r => fixDists rest r
  | .sub _ _ rest, r => fixDists rest r

/-- `to_at_least_2d`, batch.py lines 1354-1364. -/
def toAtLeast2d (b : T (Val F)) : Except Dists.Err (T (Val F)) := fixDists b (mapV atLeast2d b)

end Verif.ApplyValues
