import Verif.Model.Hdf5

/-! Specification notions for saving and loading: what is found at a path of keys, which structures are meant. -/

namespace Verif.Hdf5

/-- An entry: a value or a nested structure. -/
inductive Entry (α : Type)
  | atom (a : Atom α)
  | node (batch : Bool) (c : F α)

/-- The entry of a key. -/
def F.get? {α : Type} (key : Key) : F α → Option (Entry α)
  | .nil => none
  | .atom k a rest => if k = key then some (.atom a) else rest.get? key
  | .node k b c rest => if k = key then some (.node b c) else rest.get? key

/-- What is at the end of a path of keys: a value, a batch or a dictionary. -/
inductive Found (α : Type)
  | atom (a : Atom α)
  | batch
  | dict

/-- What is found at a path `key :: path`. -/
def F.find {α : Type} : Key → List Key → F α → Option (Found α)
  | key, [], x => match x.get? key with
    | some (.atom a) => some (.atom a)
    | some (.node true _) => some .batch
    | some (.node false _) => some .dict
    | none => none
  | key, key' :: path, x => match x.get? key with
    | some (.node _ c) => F.find key' path c
    | _ => none

/-- The keys. -/
def F.keys {α : Type} : F α → List Key
  | .nil => []
  | .atom k _ rest => k :: rest.keys
  | .node k _ _ rest => k :: rest.keys

/-- Values that are stored under their own type name: numbers are not under the marker, other values have keys without
slashes, and no class is called like the array types. -/
def Plain {α : Type} (k : Key) : Atom α → Prop
  | .num _ => k ≠ marker
  | .obj cls _ => (∃ s, k = [s]) ∧ cls ≠ "ndarray" ∧ cls ≠ "Tensor"
  | _ => ∃ s, k = [s]

/-- Structures made of different plain keys; a batch contains batches, not dictionaries. -/
def F.OK {α : Type} (inBatch : Bool) : F α → Prop
  | .nil => True
  | .atom k a rest => k ∉ rest.keys ∧ Plain k a ∧ rest.OK inBatch
  | .node k b c rest => k ∉ rest.keys ∧ (∃ s, k = [s]) ∧ (inBatch = true → b = true) ∧ c.OK b ∧ rest.OK inBatch

end Verif.Hdf5
