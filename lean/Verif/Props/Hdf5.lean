import Verif.Lemmas.Hdf5

/-! Property C49: loading what was saved to HDF5. -/

namespace Verif.Hdf5

/-- Saving succeeds, and loading finds at every path of keys what was there: the same value, a batch for a batch, a
dictionary for a dictionary. Partial: keys of values other than numbers have no slashes, no number is stored under
`__data_type__`, and no pickled object has a class called `ndarray` or `Tensor` (see the counterexamples below). -/
theorem C49_roundtrip_partial {α : Type} (cd : Codec α) (hpickle : ∀ a, cd.unpickle (cd.pickle a) = a) (x : F α)
    (hx : x.OK false) :
    ∃ g, toHdf5 cd false x .nil = some g ∧ g.isBatch = false ∧
      ∀ key path, (g.load cd).find key path = x.find key path := by
  obtain ⟨g, hg, _⟩ := toHdf5_spec cd false x hx (fresh false false) (fun s _ => fresh_child false false s)
  exact ⟨g, hg, saved_isBatch cd hx hg, fun key path => load_find cd hpickle path key x false false hx g hg⟩

/-- Array contents for examples: some numbers, or a pickled value. -/
inductive Bytes
  | raw (supported : Bool) (n : Nat)
  | pickled (a : Atom Bytes)

/-- Pickling for examples. -/
def exCodec : Codec Bytes where
  pickle := .pickled
  unpickle
    | .pickled a => a
    | .raw _ n => .obj "bytes" n
  supported
    | .pickled _ => true
    | .raw b _ => b

example : ∀ a, exCodec.unpickle (exCodec.pickle a) = a := fun _ => rfl

/-- A batch in a batch in a dictionary, with an array of objects, a tensor, a number and a pickled object. -/
def exSaved : F Bytes :=
  .atom ["maxsize"] (.num 10) (.node ["_meta"] true
    (.atom ["obs"] (.arr (.raw false 3)) (.node ["info"] true (.atom ["t"] (.tensor (.raw true 4)) .nil) .nil))
    (.node ["options"] false (.atom ["f"] (.obj "function" 5) .nil) .nil))

example : exSaved.OK false := by
  simp [exSaved, F.OK, F.keys, Plain, marker]

example : exSaved.find ["_meta"] [["info"]] = some .batch ∧
    exSaved.find ["_meta"] [["info"], ["t"]] = some (.atom (.tensor (.raw true 4))) := ⟨by rfl, by rfl⟩

example : (toHdf5 exCodec false exSaved .nil).map (fun g => (g.load exCodec).find ["_meta"] [["info"]]) =
    some (some .batch) := by rfl

/-- A key with a slash is read as a path: the value comes back inside a nested dictionary. -/
theorem C49_slash_violated {α : Type} (cd : Codec α) (v : α) :
    ∃ x g, toHdf5 cd false x .nil = some g ∧ x.find ["a", "b"] [] = some (.atom (.tensor v)) ∧
      (g.load cd).find ["a", "b"] [] = none ∧ (g.load cd).find ["a"] [["b"]] = some (.atom (.tensor v)) := by
  refine ⟨.atom ["a", "b"] (.tensor v) .nil, .group "a" (.data "b" "Tensor" v .nil) .nil, rfl, rfl, rfl, ?_⟩
  simp [G.load, G.children, G.attrs, F.append, F.find, F.get?, Codec.load, G.isBatch, G.attr?]

/-- A number under the key of the marker is lost. -/
theorem C49_marker_violated {α : Type} (cd : Codec α) :
    ∃ (x : F α) (g : G α), toHdf5 cd false x .nil = some g ∧ x.find marker [] = some (.atom (.num 1)) ∧
      (g.load cd).find marker [] = none :=
  ⟨.atom marker (.num 1) .nil, .attr marker (.num 1) .nil, rfl, rfl, rfl⟩

/-- A pickled object whose class is called `ndarray` or `Tensor` comes back as the bytes of the pickle. -/
theorem C49_class_violated {α : Type} (cd : Codec α) (o : Nat) :
    ∃ (x : F α) (g : G α), toHdf5 cd false x .nil = some g ∧ x.find ["a"] [] = some (.atom (.obj "ndarray" o)) ∧
      (g.load cd).find ["a"] [] = some (.atom (.arr (cd.pickle (.obj "ndarray" o)))) :=
  ⟨.atom ["a"] (.obj "ndarray" o) .nil, .data "a" "ndarray" (cd.pickle (.obj "ndarray" o)) .nil, rfl, rfl, rfl⟩

end Verif.Hdf5
