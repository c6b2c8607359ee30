import Verif.Model.Batch

/-! Specification notions for batches: which value is at which path of keys, what "zero" means, uniform lengths. -/

namespace Verif.Batch

mutual
/-- The value at a path of keys below an entry. -/
def Val.leafAt : Val → List String → Option Leaf
  | .leaf l, [] => some l
  | .leaf _, _ :: _ => none
  | .sub b, path => B.leafAt b path
/-- The (non-batch) value at a path of keys. -/
def B.leafAt : B → List String → Option Leaf
  | _, [] => none
  | .nil, _ :: _ => none
  | .leaf k l rest, key :: path => if k = key then (if path = [] then some l else none) else B.leafAt rest (key :: path)
  | .sub k b rest, key :: path => if k = key then B.leafAt b path else B.leafAt rest (key :: path)
end

/-- The nested batch at a path of keys. -/
def B.subAt : B → List String → Option B
  | b, [] => some b
  | .nil, _ :: _ => none
  | .leaf k _ rest, key :: path => if k = key then none else rest.subAt (key :: path)
  | .sub k b rest, key :: path => if k = key then b.subAt path else rest.subAt (key :: path)

/-- All entries are the fill value: `None` in arrays of objects, zero in arrays of numbers. -/
inductive Blank : (object : Bool) → D → Prop
  | zero : Blank false (.num 0)
  | none : Blank true .none
  | arr {object : Bool} (rows : List D) (h : ∀ r ∈ rows, Blank object r) : Blank object (.arr rows)

/-- The entry `l'` has the kind (objects or numbers) of `l`; where `l` is `None`, it is an array of objects. -/
def Leaf.Kind (l l' : Leaf) : Prop := l'.object = l.object ∨ (l.data = .none ∧ l'.object = true)

/-- A property of all values of a batch, nested ones included. -/
def B.All (P : D → Prop) : B → Prop
  | .nil => True
  | .leaf _ l rest => P l.data ∧ rest.All P
  | .sub _ b rest => b.All P ∧ rest.All P

/-- An array with `n` rows. -/
def Rows (n : Nat) (d : D) : Prop := ∃ rows, d = .arr rows ∧ rows.length = n

/-- Every value of the batch is an array with `n` rows. -/
def B.Tall (n : Nat) (b : B) : Prop := b.All (Rows n)

/-- Keys occur once (Python dictionaries). -/
def B.WF : B → Prop
  | .nil => True
  | .leaf k _ rest => k ∉ rest.keys ∧ rest.WF
  | .sub k b rest => k ∉ rest.keys ∧ b.WF ∧ rest.WF

/-- `r` has all the data of `b`, and only zeros where `b` has nothing. -/
def Reads (b r : B) : Prop :=
  ∀ path, (∀ l, b.leafAt path = some l → ∃ l', r.leafAt path = some l' ∧ l'.data = l.data) ∧
    (b.leafAt path = none → ∀ l', r.leafAt path = some l' → Blank l'.object l'.data)

/-- The same data at the same paths. -/
def SameData (b r : B) : Prop := ∀ path, (b.leafAt path).map Leaf.data = (r.leafAt path).map Leaf.data

/-- Same nested keys, with values and nested batches at the same places. -/
def SameShape (b c : B) : Prop :=
  ∀ path, ((b.leafAt path).isSome ↔ (c.leafAt path).isSome) ∧ ((b.subAt path).isSome ↔ (c.subAt path).isSome)

/-- Every value of `v` belongs to a value of `b`, every nested batch of `v` to a nested batch of `b`. -/
def Fits (v b : B) : Prop :=
  ∀ path, ((v.leafAt path).isSome → (b.leafAt path).isSome) ∧ ((v.subAt path).isSome → (b.subAt path).isSome)

end Verif.Batch
