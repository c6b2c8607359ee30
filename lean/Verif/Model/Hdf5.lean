/-!
Model of `tianshou/data/utils/converter.py` lines 93-165: saving nested dictionaries to HDF5 and loading them.

Simplifications. The order of dictionary entries is not modelled. `h5py` stores arrays, tensors and numbers of the types
it supports exactly (numbers come back as numpy scalars of the same value); it rejects other arrays with a
`TypeError`. Values that belong to a `Batch` have been through `_parse_value` (`data/batch.py` lines 190-228) before,
which leaves them as they are when the loaded dictionary is turned into a `Batch`.
-/

namespace Verif.Hdf5

/-- A key, as its components between slashes: `h5py` reads slashes in the names of groups and datasets as paths. -/
abbrev Key := List String

/-- A value that is neither a `Batch` nor a `dict`. `α` are array contents; an object has the name of its class. -/
inductive Atom (α : Type)
  | tensor (x : α)
  | arr (x : α)
  | num (x : Int)
  | obj (cls : String) (x : Nat)
deriving DecidableEq, Repr

/-- The entries of a `Batch` (`batch = true`) or `dict`. -/
inductive F (α : Type)
  | nil
  | atom (k : Key) (a : Atom α) (rest : F α)
  | node (k : Key) (batch : Bool) (c : F α) (rest : F α)

/-- The value of an attribute. -/
inductive Attr
  | num (x : Int)
  | text (s : String)
deriving DecidableEq, Repr

/-- A group: attributes, datasets (with their attribute `__data_type__`) and groups. -/
inductive G (α : Type)
  | nil
  | attr (k : Key) (v : Attr) (rest : G α)
  | data (k : String) (type : String) (x : α) (rest : G α)
  | group (k : String) (c : G α) (rest : G α)

/-- What can be created in a group. -/
inductive Item (α : Type)
  | data (type : String) (x : α)
  | group (c : G α)

/-- `pickle`, as array contents, and the array types `h5py` supports. -/
structure Codec (α : Type) where
  pickle : Atom α → α
  unpickle : α → Atom α
  supported : α → Bool

/-- The marker attribute. -/
def marker : Key := ["__data_type__"]

/-- The item with a name in a group. -/
def G.child? {α : Type} (name : String) : G α → Option (Item α)
  | .nil => none
  | .attr _ _ rest => rest.child? name
  | .data k t x rest => if k = name then some (.data t x) else rest.child? name
  | .group k c rest => if k = name then some (.group c) else rest.child? name

/-- The attribute with a name of a group. -/
def G.attr? {α : Type} (name : Key) : G α → Option Attr
  | .nil => none
  | .attr k v rest => if k = name then some v else rest.attr? name
  | .data _ _ _ rest => rest.attr? name
  | .group _ _ rest => rest.attr? name

/-- `group.attrs[k] = v`. -/
def G.setAttr {α : Type} (name : Key) (v : Attr) : G α → G α
  | .nil => .attr name v .nil
  | .attr k w rest => if k = name then .attr k v rest else .attr k w (rest.setAttr name v)
  | .data k t x rest => .data k t x (rest.setAttr name v)
  | .group k c rest => .group k c (rest.setAttr name v)

/-- Adding an item under a new name. -/
def Item.add {α : Type} (name : String) (i : Item α) (g : G α) : G α :=
  match i with
  | .data t x => .data name t x g
  | .group c => .group name c g

/-- Replacing the group with a name. -/
def G.replace {α : Type} (name : String) (c : G α) : G α → G α
  | .nil => .nil
  | .attr k v rest => .attr k v (G.replace name c rest)
  | .data k t x rest => .data k t x (G.replace name c rest)
  | .group k d rest => if k = name then .group k c rest else .group k d (G.replace name c rest)

/-- `group.create_dataset(key, …)`, `group.create_group(key)`: groups on the path of the key are created as needed; a
name that is taken raises an error. -/
def G.create {α : Type} : Key → Item α → G α → Option (G α)
  | [], _, _ => none
  | [name], i, g => match g.child? name with
    | some _ => none
    | none => some (i.add name g)
  | name :: path, i, g => match g.child? name with
    | some (.data _ _) => none
    | some (.group c) => (G.create path i c).map fun c => G.replace name c g
    | none => (G.create path i .nil).map fun c => .group name c g

/-- The dataset for a value that is not a number: lines 116-136 and 140-148. -/
def Codec.dataset {α : Type} (cd : Codec α) : Atom α → Item α
  | .tensor x => .data "Tensor" x
  | .arr x => if cd.supported x then .data "ndarray" x else .data "pickled_ndarray" (cd.pickle (.arr x))
  | .num x => .data "int" (cd.pickle (.num x))
  | .obj cls x => .data cls (cd.pickle (.obj cls x))

/-- A fresh group for a `Batch` or `dict`, lines 109-112. Batches inside a batch have become dictionaries
(`__getstate__`, `data/batch.py` lines 693-704) and get no marker. -/
def fresh {α : Type} (inBatch batch : Bool) : G α :=
  if batch && !inBatch then .attr marker (.text "Batch") .nil else .nil

/-- `to_hdf5(x, y)`, lines 93-148; `none` if an error is raised. `inBatch` says that `x` is the state of a batch. -/
def toHdf5 {α : Type} (cd : Codec α) (inBatch : Bool) : F α → G α → Option (G α)
  | .nil, g => some g
  | .atom k a rest, g => match a with
    | .num x => toHdf5 cd inBatch rest (g.setAttr k (.num x))
    | a => (g.create k (cd.dataset a)).bind fun g => toHdf5 cd inBatch rest g
  | .node k batch c rest, g =>
    (toHdf5 cd batch c (fresh inBatch batch)).bind fun sub =>
      (g.create k (.group sub)).bind fun g => toHdf5 cd inBatch rest g

/-- `from_hdf5` of a dataset, lines 153-159. -/
def Codec.load {α : Type} (cd : Codec α) (type : String) (x : α) : Atom α :=
  if type = "ndarray" then .arr x else if type = "Tensor" then .tensor x else cd.unpickle x

/-- `Batch(y)`: nested dictionaries become batches (`_parse_value`, `data/batch.py` lines 203-204). -/
def F.toBatch {α : Type} : F α → F α
  | .nil => .nil
  | .atom k a rest => .atom k a rest.toBatch
  | .node k true c rest => .node k true c rest.toBatch
  | .node k false c rest => .node k true c.toBatch rest.toBatch

/-- Attributes as dictionary entries, lines 161-162. -/
def G.attrs {α : Type} : G α → F α
  | .nil => .nil
  | .attr k (.num x) rest => if k = marker then rest.attrs else .atom k (.num x) rest.attrs
  | .attr k (.text _) rest => if k = marker then rest.attrs else .atom k (.obj "str" 0) rest.attrs
  | .data _ _ _ rest => rest.attrs
  | .group _ _ rest => rest.attrs

/-- Putting the entries of one dictionary before those of another. -/
def F.append {α : Type} : F α → F α → F α
  | .nil, y => y
  | .atom k a rest, y => .atom k a (rest.append y)
  | .node k b c rest, y => .node k b c (rest.append y)

/-- Whether `from_hdf5` of a group returns a `Batch`, line 165. -/
def G.isBatch {α : Type} (g : G α) : Bool := g.attr? marker = some (.text "Batch")

/-- The datasets and groups as dictionary entries, lines 163-164 (with line 165 for the nested ones). -/
def G.children {α : Type} (cd : Codec α) : G α → F α
  | .nil => .nil
  | .attr _ _ rest => rest.children cd
  | .data k t x rest => .atom [k] (cd.load t x) (rest.children cd)
  | .group k c rest =>
    let y := (c.children cd).append c.attrs
    .node [k] c.isBatch (if c.isBatch then y.toBatch else y) (rest.children cd)

/-- The dictionary `y` of `from_hdf5` for a group, lines 160-164. Children with the name of an attribute replace it. -/
def G.load {α : Type} (cd : Codec α) (g : G α) : F α := (g.children cd).append g.attrs

end Verif.Hdf5
