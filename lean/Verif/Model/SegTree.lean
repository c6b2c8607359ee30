import Mathlib.Algebra.Order.Ring.Defs
import Mathlib.Logic.Function.Basic

/-!
Model of `tianshou/data/utils/segtree.py`.

Simplifications common to the file: entries live in an arbitrary (ordered) ring `R` instead of float64;
the numpy array `_value` of length `2 * bound` is a total function `Nat → R` (out-of-range reads, which
numpy would reject, read an unwritten 0; `Props/SegTree.lean` shows that queries only look inside the array).
-/

namespace Verif.SegTree

/-- `SegmentTree` attributes, segtree.py:22-25 (`_size`, `_bound`, `_value`). -/
structure Tree (R : Type) where
  size : Nat
  bound : Nat
  value : Nat → R

variable {R : Type}

/-- segtree.py:20-22: `bound = 1; while bound < size: bound *= 2`. -/
def growBound (size bound : Nat) : Nat :=
  if 0 < bound ∧ bound < size then growBound size (bound * 2) else bound
termination_by size - bound

/-- `SegmentTree.__init__`, segtree.py:19-26 (`_compile` only warms up numba). -/
def init [Zero R] (size : Nat) : Tree R :=
  { size := size, bound := growBound size 1, value := fun _ => 0 }

/-- numpy scatter `a[idx] = vals`: elements are written in order, so a later duplicate wins. -/
def scatter (a : Nat → R) : List (Nat × R) → Nat → R
  | [] => a
  | (i, x) :: rest => scatter (Function.update a i x) rest

/-- segtree.py:99-101, the loop of `_setitem`: `while index[0] > 1: index //= 2;
`tree[index] = tree[index*2] + tree[index*2+1]`. The right-hand side is gathered from the old tree before
the scatter. `first` is `index[0]`. -/
def pullUp [Add R] (tree : Nat → R) (first : Nat) (index : List Nat) : Nat → R :=
  if 1 < first then
    let index' := index.map (· / 2)
    pullUp (scatter tree (index'.map fun i => (i, tree (i * 2) + tree (i * 2 + 1)))) (first / 2) index'
  else tree
termination_by first

/-- `_setitem`, segtree.py:96-101. `none`: `index[0]` on an empty index array. -/
def setitemRaw [Add R] (tree : Nat → R) (kv : List (Nat × R)) : Option (Nat → R) :=
  match kv with
  | [] => none
  | (i0, _) :: _ => some (pullUp (scatter tree kv) i0 (kv.map Prod.fst))

/-- `__setitem__`, segtree.py:35-51. The index and value arrays (or scalars, made one-element arrays on
line 47-48) are given as a list of pairs of equal length; `none` = a failed assertion (lines 49-50) or an
empty index array. -/
def setitem [Add R] (t : Tree R) (kv : List (Int × R)) : Option (Tree R) :=
  if (∀ p ∈ kv, 0 ≤ p.1) ∧ (∀ p ∈ kv, p.1 < t.size) then
    (setitemRaw t.value (kv.map fun p => (p.1.toNat + t.bound, p.2))).map fun v => { t with value := v }
  else none

/-- `__getitem__` on one non-negative index, segtree.py:31-33. -/
def getitem (t : Tree R) (i : Nat) : R := t.value (i + t.bound)

/-- `_reduce`, segtree.py:105-116, both arguments non-negative. -/
def reduceLoop [Add R] (tree : Nat → R) (start stop : Nat) (result : R) : R :=
  if start + 1 < stop then
    let result := if start % 2 = 0 then result + tree (start + 1) else result
    let start' := start / 2
    let result := if stop % 2 = 1 then result + tree (stop - 1) else result
    reduceLoop tree start' (stop / 2) result
  else result
termination_by stop

/-- `reduce`, segtree.py:53-61. `start` non-negative; `stop = none` is Python's `None`. A negative
`end + bound` (line 61) makes the loop empty, as does its truncation to 0. -/
def reduce [Zero R] [Add R] (t : Tree R) (start : Nat) (stop : Option Int) : R :=
  if start = 0 ∧ stop = none then t.value 1
  else
    let e : Int := stop.getD t.size
    let e := if e < 0 then e + t.size else e
    reduceLoop t.value (start + t.bound - 1) (e + t.bound).toNat 0

variable [CommRing R] [LinearOrder R]

/-- One pass of the loop body of `_get_prefix_sum_idx`, segtree.py:128-132, on one element of the
vectorised state `(index, value)`. -/
def descend (sums : Nat → R) (s : Nat × R) : Nat × R :=
  let i := s.1 * 2
  let lsons := sums i
  if lsons < s.2 then (i + 1, s.2 - lsons * 1) else (i, s.2 - lsons * 0)

/-- segtree.py:126-132, `while index[0] < bound: ...` over the whole array; `first` is `index[0]`
(it starts at 1 and never becomes 0, which the guard `0 < first` records for termination). -/
def prefixLoop (bound : Nat) (sums : Nat → R) (s : List (Nat × R)) : List (Nat × R) :=
  match s with
  | [] => []
  | (first, v) :: rest =>
    if 0 < first ∧ first < bound then
      prefixLoop bound sums (descend sums (first, v) :: rest.map (descend sums))
    else (first, v) :: rest
termination_by bound - (s.headD (bound, 0)).1
decreasing_by
  simp only [List.headD_cons, descend]
  split <;> simp <;> omega

/-- `get_prefix_sum_idx`, segtree.py:63-82, on a float ndarray. Returns the indices *and* the contents of
the caller's array after the call: `_get_prefix_sum_idx` works in place on it (line 131). `none` = failed
assertion (lines 75-76). (For an empty array `index[0]` is out of bounds; modelled as returning `[]`.) -/
def getPrefixSumIdx (t : Tree R) (values : List R) : Option (List Nat × List R) :=
  if (∀ v ∈ values, 0 ≤ v) ∧ (∀ v ∈ values, v < t.value 1) then
    let out := prefixLoop t.bound t.value (values.map fun v => (1, v))
    some (out.map fun s => s.1 - t.bound, out.map Prod.snd)
  else none

end Verif.SegTree
