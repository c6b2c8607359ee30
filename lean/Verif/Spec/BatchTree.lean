import Verif.Model.BatchTree

/-! Specification notions for trees of values: which value is at which path of keys. -/

namespace Verif.BatchTree

variable {α β : Type}

/-- The (non-batch) value at a path of keys. -/
def T.leafAt : T α → List String → Option α
  | _, [] => none
  | .nil, _ :: _ => none
  | .leaf k a rest, key :: path => if k = key then (if path = [] then some a else none) else rest.leafAt (key :: path)
  | .sub k b rest, key :: path => if k = key then b.leafAt path else rest.leafAt (key :: path)

/-- Whether there is a nested batch at a path of keys. -/
def T.isSub : T α → List String → Bool
  | _, [] => true
  | .nil, _ :: _ => false
  | .leaf k _ rest, key :: path => if k = key then false else rest.isSub (key :: path)
  | .sub k b rest, key :: path => if k = key then b.isSub path else rest.isSub (key :: path)

/-- A property of all values. -/
def T.All (P : α → Prop) (b : T α) : Prop := ∀ path a, b.leafAt path = some a → P a

/-- Keys occur once (Python dictionaries). -/
def T.WF : T α → Prop
  | .nil => True
  | .leaf k _ rest => k ∉ rest.keys ∧ rest.WF
  | .sub k b rest => k ∉ rest.keys ∧ b.WF ∧ rest.WF

/-- The same keys at all levels, with values and nested batches at the same places. -/
def SameShape (b : T α) (c : T β) : Prop :=
  ∀ path, ((b.leafAt path).isSome = (c.leafAt path).isSome) ∧ b.isSub path = c.isSub path

/-- The same keys in the same order at all levels, with values and nested batches at the same places. -/
def SameOrder : T α → T β → Prop
  | .nil, .nil => True
  | .leaf k _ rest, .leaf k' _ rest' => k = k' ∧ SameOrder rest rest'
  | .sub k b rest, .sub k' b' rest' => k = k' ∧ SameOrder b b' ∧ SameOrder rest rest'
  | _, _ => False

/-- The entries of an array as numbers. -/
def Arr.vals : Arr → List Rat
  | .ints xs => xs.map fun x : Int => (x : Rat)
  | .floats xs => xs

/-- The value of a number. -/
def Num.val : Num → Rat
  | .int x => (x : Rat)
  | .float x => x

end Verif.BatchTree
