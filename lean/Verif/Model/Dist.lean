import Verif.Model.Stats

/-!
Model of the handling of action distributions: slicing and dimensions of distributions (`tianshou/data/batch.py` lines 266-302),
their standard deviations (`tianshou/data/collector.py` lines 78-99) and the statistics of these in `CollectStats` (`collector.py`
lines 138-141, 171-190, 240-245; `tianshou/data/stats.py` lines 46-59).

Simplifications. Tensors have at most two dimensions. Numbers are elements of a field, without rounding, and square roots are a
parameter. Devices are left out. The classes of PyTorch are modelled by their parameters: `Categorical` divides the given
probabilities by their sum, `Normal` has a location and a scale, and `Independent` turns trailing batch dimensions of another
distribution into event dimensions.
-/

namespace Verif.Dists

open Verif.Stats

variable {F : Type}

/-- A tensor of zero, one or two dimensions. -/
inductive Ten (F : Type)
  | r0 (x : F)
  | r1 (l : List F)
  | r2 (m : List (List F))
deriving DecidableEq, Repr

/-- The shape of a tensor. -/
def Ten.shape : Ten F → List Nat
  | .r0 _ => []
  | .r1 l => [l.length]
  | .r2 m => [m.length, (m.head?.map List.length).getD 0]

/-- The exceptions. -/
inductive Err
  | index
  | value
  | type
  | notImplemented
deriving DecidableEq, Repr

/-- An index: a number, or an array of numbers (slices select an array of positions). -/
inductive Index
  | int (i : Int)
  | arr (is : List Int)

/-- The position meant by a number in a dimension of the given size. -/
def pos (n : Nat) (i : Int) : Except Err Nat :=
  if 0 ≤ i ∧ i < n then .ok i.toNat else if i < 0 ∧ -i ≤ n then .ok (n + i).toNat else .error .index

/-- One entry of a list. -/
def pick {α : Type} (l : List α) (i : Int) : Except Err α :=
  match pos l.length i with
  | .error e => .error e
  | .ok k => match l[k]? with
    | some x => .ok x
    | none => .error .index

/-- Several entries of a list. -/
def picks {α : Type} (l : List α) : List Int → Except Err (List α)
  | [] => .ok []
  | i :: is =>
    match pick l i with
    | .error e => .error e
    | .ok x => match picks l is with
      | .error e => .error e
      | .ok xs => .ok (x :: xs)

/-- `tensor[index]`. -/
def Ten.getitem : Ten F → Index → Except Err (Ten F)
  | .r0 _, _ => .error .index
  | .r1 l, .int i => (pick l i).map .r0
  | .r1 l, .arr is => (picks l is).map .r1
  | .r2 m, .int i => (pick m i).map .r1
  | .r2 m, .arr is => (picks m is).map .r2

/-- A distribution. -/
inductive Dist (F : Type)
  | cat (probs : Ten F)
  | normal (loc scale : Ten F)
  | indep (base : Dist F) (k : Nat)
  | other (batchShape : List Nat)
deriving DecidableEq, Repr

/-- `dist.batch_shape`. -/
def Dist.batchShape : Dist F → List Nat
  | .cat p => p.shape.dropLast
  | .normal loc _ => loc.shape
  | .indep b k => b.batchShape.take (b.batchShape.length - k)
  | .other s => s

section

variable [Field F]

/-- Probabilities divided by their sum. -/
def normalise (l : List F) : List F := l.map fun x => x / l.sum

/-- `Categorical(probs=...)`. -/
def mkCat : Ten F → Except Err (Dist F)
  | .r0 _ => .error .value
  | .r1 l => .ok (.cat (.r1 (normalise l)))
  | .r2 m => .ok (.cat (.r2 (m.map normalise)))

/-- `Independent(base, k)`. -/
def mkIndep (base : Dist F) (k : Nat) : Except Err (Dist F) :=
  if base.batchShape.length < k then .error .value else .ok (.indep base k)

/-- `get_sliced_dist`, `batch.py` lines 266-278. -/
def Dist.slice (index : Index) : Dist F → Except Err (Dist F)
  | .cat p => match p.getitem index with
    | .error e => .error e
    | .ok p => mkCat p
  | .normal loc scale => match loc.getitem index with
    | .error e => .error e
    | .ok loc => match scale.getitem index with
      | .error e => .error e
      | .ok scale => .ok (.normal loc scale)
  | .indep base k => match base.slice index with
    | .error e => .error e
    | .ok base => mkIndep base k
  | .other _ => .error .notImplemented

/-- `get_len_of_dist`, `batch.py` lines 281-285. -/
def Dist.len (d : Dist F) : Except Err Nat :=
  match d.batchShape with
  | [] => .error .type
  | n :: _ => .ok n

/-- `tensor.unsqueeze(0)`; of a matrix it would have three dimensions, which are not modelled. -/
def Ten.unsqueeze : Ten F → Except Err (Ten F)
  | .r0 x => .ok (.r1 [x])
  | .r1 l => .ok (.r2 [l])
  | .r2 _ => .error .notImplemented

/-- `dist_to_atleast_2d`, `batch.py` lines 288-302. -/
def Dist.atLeast2d (d : Dist F) : Except Err (Dist F) :=
  if d.batchShape.length > 0 then .ok d
  else match d with
    | .cat p => match p.unsqueeze with
      | .error e => .error e
      | .ok p => mkCat p
    | .normal loc scale => match loc.unsqueeze with
      | .error e => .error e
      | .ok loc => match scale.unsqueeze with
        | .error e => .error e
        | .ok scale => .ok (.normal loc scale)
    | .indep base k => match base.atLeast2d with
      | .error e => .error e
      | .ok base => mkIndep base k
    | .other _ => .error .notImplemented

/-- Lines 91-94 of `get_stddev_from_dist` for one row of probabilities. -/
def catStd (sqrt : F → F) (p : List F) : F :=
  let mean := (p.zipIdx.map fun x => x.1 * (x.2 : F)).sum
  sqrt (p.zipIdx.map fun x => x.1 * ((x.2 : F) - mean) ^ 2).sum

/-- `dist.stddev` of PyTorch; for `Categorical` it is NaN, which is not modelled. -/
def Dist.ownStddev : Dist F → Except Err (Ten F)
  | .normal _ scale => .ok scale
  | .indep base _ => base.ownStddev
  | .cat _ => .error .notImplemented
  | .other _ => .error .notImplemented

/-- `get_stddev_from_dist`, `collector.py` lines 78-99. -/
def Dist.stddev (sqrt : F → F) (d : Dist F) : Except Err (Ten F) :=
  match d with
  | .cat (.r0 _) => .error .value
  | .cat (.r1 p) => .ok (.r1 [catStd sqrt p])
  | .cat (.r2 m) => .ok (.r2 (m.map fun p => [catStd sqrt p]))
  | d => d.ownStddev

/-- `np.atleast_2d`. -/
def Ten.atLeast2d : Ten F → List (List F)
  | .r0 x => [[x]]
  | .r1 l => [l]
  | .r2 m => m

/-- The fields of `CollectStats` that concern the distributions, `collector.py` lines 138-141, and the number of steps. -/
structure CollectStats (F : Type) where
  steps : Nat := 0
  stds : Option (List (List F)) := none

/-- `np.concatenate` of two matrices: they need the same number of columns. -/
def concat (a b : List (List F)) : Except Err (List (List F)) :=
  if (Ten.r2 a).shape.getD 1 0 = (Ten.r2 b).shape.getD 1 0 then .ok (a ++ b) else .error .value

/-- `update_at_step_batch`, `collector.py` lines 171-190, for a step of `n` environments. -/
def CollectStats.update (sqrt : F → F) (c : CollectStats F) (n : Nat) (dist : Option (Dist F)) : Except Err (CollectStats F) :=
  match dist with
  | none => .ok { c with steps := c.steps + n }
  | some d => match d.stddev sqrt with
    | .error e => .error e
    | .ok t => match c.stds with
      | none => .ok ⟨c.steps + n, some t.atLeast2d⟩
      | some a => match concat a t.atLeast2d with
        | .error e => .error e
        | .ok a => .ok ⟨c.steps + n, some a⟩

/-- All steps of a collection, `collector.py` line 883. -/
def CollectStats.updates (sqrt : F → F) (c : CollectStats F) : List (Nat × Option (Dist F)) → Except Err (CollectStats F)
  | [] => .ok c
  | x :: xs => match c.update sqrt x.1 x.2 with
    | .error e => .error e
    | .ok c => c.updates sqrt xs

/-- `arr.T` of a matrix. -/
def transpose (a : List (List F)) : List (List F) :=
  (List.range ((Ten.r2 a).shape.getD 1 0)).map fun j => a.map fun row => row.getD j 0

/-- `refresh_std_array_stats`, `collector.py` lines 240-245, with `compute_dim_to_summary_stats`, `stats.py` lines 46-59: the
summaries by dimension. -/
def CollectStats.stdStats [LinearOrder F] (sqrt : F → F) (c : CollectStats F) : Option (List (Summary F)) :=
  match c.stds with
  | none => none
  | some a => if a.length * (Ten.r2 a).shape.getD 1 0 = 0 then none else some ((transpose a).map (summarise sqrt))

end

end Verif.Dists
