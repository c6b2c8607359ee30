import Mathlib.Data.List.Dedup

/-!
Model of `tianshou/data/batch.py`: indexing, item assignment, stacking, concatenation, splitting.

Simplifications. Arrays and tensors are trees of atoms; only the first axis is looked at. Element types are reduced
to "object or not" (it decides about fill values); type promotion, broadcasting and `torch.distributions` values are
left out: arrays that are stacked, concatenated or assigned have fitting shapes. A Python `dict` given for a `Batch`
is the `Batch` it is converted to (`_parse_value`, lines 190-228). Sets of keys, whose iteration order Python does
not fix, are lists in order of first occurrence.
-/

namespace Verif.Batch

/-- Exceptions raised in tianshou/data/batch.py, lines 631-1376. -/
inductive Err
  | indexError
  | valueError
  | typeError
  | assertionError
deriving DecidableEq, Repr

/-- Array data: an entry or a sequence along the first axis. `obj` are arbitrary Python objects. -/
inductive D
  | num (x : Int)
  | none
  | obj (x : Nat)
  | arr (rows : List D)
deriving Repr

mutual
/-- Equality test of array data. -/
def D.beq : D → D → Bool
  | .num x, .num y => x == y
  | .none, .none => true
  | .obj x, .obj y => x == y
  | .arr l, .arr l' => D.beqs l l'
  | _, _ => false
/-- Equality test of rows. -/
def D.beqs : List D → List D → Bool
  | [], [] => true
  | x :: l, y :: l' => x.beq y && D.beqs l l'
  | _, _ => false
end

mutual
/-- `np.full(shape of inst, 0 or None)`, lines 164-174: same shape, every entry the fill value. -/
def D.fill (z : D) : D → D
  | .arr rows => .arr (D.fills z rows)
  | _ => z
/-- The rows of a filled array. -/
def D.fills (z : D) : List D → List D
  | [] => []
  | r :: rows => D.fill z r :: D.fills z rows
end

/-- A value that is not a `Batch`: an array, tensor, scalar or `None`. -/
structure Leaf where
  object : Bool
  data : D
deriving Repr

/-- The fill value: lines 169-172, 796-801. -/
def Leaf.zero (l : Leaf) : D := if l.object then .none else .num 0

/-- A `Batch`: entries in insertion order, each a value or a nested batch. -/
inductive B
  | nil
  | leaf (key : String) (l : Leaf) (rest : B)
  | sub (key : String) (b : B) (rest : B)
deriving Repr

/-- An entry of a batch. -/
inductive Val
  | leaf (l : Leaf)
  | sub (b : B)
deriving Repr

/-- `get_keys`, line 670-671. -/
def B.keys : B → List String
  | .nil => []
  | .leaf k _ rest => k :: rest.keys
  | .sub k _ rest => k :: rest.keys

/-- `self.__dict__.get(key)`. -/
def B.get? (key : String) : B → Option Val
  | .nil => none
  | .leaf k l rest => if k = key then some (.leaf l) else rest.get? key
  | .sub k b rest => if k = key then some (.sub b) else rest.get? key

/-- Adding an entry under a new key. -/
def B.cons (key : String) (v : Val) (rest : B) : B :=
  match v with
  | .leaf l => .leaf key l rest
  | .sub b => .sub key b rest

/-- Nesting depth. -/
def B.depth : B → Nat
  | .nil => 0
  | .leaf _ _ rest => rest.depth
  | .sub _ b rest => max (b.depth + 1) rest.depth

/-- An index: an integer, an array of integers, or a slice `lo:hi` with non-negative ends and step 1. -/
inductive Index
  | one (i : Int)
  | many (is : List Int)
  | slice (lo hi : Nat)
deriving Repr

/-- Position meant by an integer index into `n` rows; negative ones count from the end. -/
def pos (n : Nat) (i : Int) : Option Nat :=
  if 0 ≤ i then (if i.toNat < n then some i.toNat else none)
  else if (-i).toNat ≤ n then some (n - (-i).toNat) else none

/-- Positions meant by an index that selects several rows. -/
def positions (n : Nat) (is : List Int) : Option (List Nat) := is.mapM (pos n)

/-- `array[index]`: an `IndexError` for scalars and for positions outside the array, a `TypeError` for `None`
inside. -/
def D.getitem (d : D) (index : Index) : Except Err D :=
  match d with
  | .arr rows =>
    match index with
    | .one i => match (pos rows.length i).bind fun p => rows[p]? with
      | some r => .ok r
      | Option.none => .error .indexError
    | .many is => match positions rows.length is with
      | some ps => .ok (.arr (ps.filterMap fun p => rows[p]?))
      | Option.none => .error .indexError
    | .slice lo hi => .ok (.arr ((rows.take hi).drop lo))
  | _ => .error .indexError

/-- The loop of `__getitem__`, lines 727-745; `None` and empty batches are part of every slice. -/
def B.getLoop (index : Index) : B → Except Err B
  | .nil => .ok .nil
  | .leaf k l rest =>
    match l.data with
    | .none => do
      let r ← rest.getLoop index
      .ok (.leaf k l r)
    | d => do
      let x ← d.getitem index
      let r ← rest.getLoop index
      .ok (.leaf k ⟨l.object, x⟩ r)
  | .sub k b rest => do
    let x ← b.getLoop index
    let r ← rest.getLoop index
    .ok (.sub k x r)

/-- `__getitem__`, lines 722-746, for an index that is not a key. -/
def B.getitem (b : B) (index : Index) : Except Err B :=
  match b with
  | .nil => .error .indexError
  | b => b.getLoop index

/-- Writing rows to positions one after the other. -/
def writeRows (rows : List D) : List Nat → List D → List D
  | p :: ps, x :: xs => writeRows (rows.set p x) ps xs
  | _, _ => rows

/-- `array[index] = value` for a value of fitting shape: as many rows as positions (`ValueError` otherwise). -/
def D.setitem (d : D) (index : Index) (v : D) : Except Err D :=
  match d with
  | .arr rows =>
    match index with
    | .one i => match pos rows.length i with
      | some p => .ok (.arr (rows.set p v))
      | Option.none => .error .indexError
    | .many is => match positions rows.length is with
      | Option.none => .error .indexError
      | some ps => match v with
        | .arr vs => if vs.length = ps.length then .ok (.arr (writeRows rows ps vs)) else .error .valueError
        | _ => .error .valueError
    | .slice lo hi => match v with
      | .arr vs =>
        let ps := List.range' lo (min hi rows.length - lo)
        if vs.length = ps.length then .ok (.arr (writeRows rows ps vs)) else .error .valueError
      | _ => .error .valueError
  | .none => .error .typeError
  | _ => .error .indexError

/-- `array[index] = z` for a fill value, lines 796-801: the selected rows are filled. -/
def D.setfill (d : D) (index : Index) (z : D) : Except Err D :=
  match d with
  | .arr rows =>
    match index with
    | .one i => match pos rows.length i with
      | some p => .ok (.arr (rows.modify p (D.fill z)))
      | Option.none => .error .indexError
    | .many is => match positions rows.length is with
      | Option.none => .error .indexError
      | some ps => .ok (.arr (ps.foldl (fun r p => r.modify p (D.fill z)) rows))
    | .slice lo hi =>
      .ok (.arr ((List.range' lo (min hi rows.length - lo)).foldl (fun r p => r.modify p (D.fill z)) rows))
  | .none => .error .typeError
  | _ => .error .indexError

/-- The loop of `__setitem__`, lines 789-801, over the entries of the batch. It stops at the first exception, with
the entries before it changed. -/
def B.setLoop (index : Index) (v : B) : B → B × Option Err
  | .nil => (.nil, none)
  | .leaf k l rest =>
    let new := match v.get? k with
      | some (.leaf l') => l.data.setitem index l'.data
      | some (.sub _) => .error .typeError
      | none => l.data.setfill index l.zero
    match new with
    | .error e => (.leaf k l rest, some e)
    | .ok d =>
      let r := B.setLoop index v rest
      (.leaf k ⟨l.object, d⟩ r.1, r.2)
  | .sub k b rest =>
    let new := match v.get? k with
      | some (.sub v') => if v'.keys ⊆ b.keys then B.setLoop index v' b else (b, some .valueError)
      | some (.leaf _) => (b, some .valueError)
      | none => B.setLoop index .nil b
    match new with
    | (b', some e) => (.sub k b' rest, some e)
    | (b', none) =>
      let r := B.setLoop index v rest
      (.sub k b' r.1, r.2)

/-- `__setitem__`, lines 777-801, for an index that is not a key and a value that is a batch. -/
def B.setitem (b : B) (index : Index) (v : B) : B × Option Err :=
  if v.keys ⊆ b.keys then B.setLoop index v b else (b, some .valueError)

/-- `create_value(inst, size, stack)`, lines 148-183, for an array: `size` filled copies of `inst` (stack) or of a
row of `inst` (the shape of the first row; an array without rows gives rows without shape). -/
def D.create (z : D) (size : Nat) (stack : Bool) (d : D) : Except Err D :=
  if stack then .ok (.arr (List.replicate size (D.fill z d)))
  else match d with
    | .arr rows => .ok (.arr (List.replicate size (D.fill z (rows.headD .none))))
    | _ => .error .typeError

/-- `create_value` for a value: scalars and `None` become arrays of `size` entries; `None` makes an array of
objects. -/
def Leaf.create (size : Nat) (stack : Bool) (l : Leaf) : Except Err Leaf :=
  match l.data with
  | .none => .ok ⟨true, .arr (List.replicate size .none)⟩
  | d => (D.create l.zero size stack d).map fun x => ⟨l.object, x⟩

/-- `create_value` for a batch. -/
def B.create (size : Nat) (stack : Bool) : B → Except Err B
  | .nil => .ok .nil
  | .leaf k l rest => do
    let x ← l.create size stack
    let r ← rest.create size stack
    .ok (.leaf k x r)
  | .sub k b rest => do
    let x ← b.create size stack
    let r ← rest.create size stack
    .ok (.sub k x r)

/-- `create_value` for an entry. -/
def Val.create (size : Nat) (stack : Bool) : Val → Except Err Val
  | .leaf l => (l.create size stack).map .leaf
  | .sub b => (b.create size stack).map .sub

/-- Item assignment on an entry: arrays take arrays, batches take batches. -/
def Val.setitem (h : Val) (index : Index) (v : Val) : Except Err Val :=
  match h, v with
  | .leaf l, .leaf l' => (l.data.setitem index l'.data).map fun d => .leaf ⟨l.object, d⟩
  | .sub b, .sub b' => match b.setitem index b' with
    | (r, none) => .ok (.sub r)
    | (_, some e) => .error e
  | .leaf _, .sub _ => .error .typeError
  | .sub _, .leaf _ => .error .valueError

/-- The entry, unless it is missing or an empty batch ("reserved"), lines 939-946, 1067-1074. -/
def full (v : Option Val) : Option Val :=
  match v with
  | some (.sub .nil) => none
  | v => v

/-- The leaves, if all entries are leaves. -/
def allLeaves (vs : List Val) : Option (List Leaf) := vs.mapM fun v => match v with | .leaf l => some l | .sub _ => none

/-- The nested batches, if all entries are batches. -/
def allSubs (vs : List Val) : Option (List B) := vs.mapM fun v => match v with | .sub b => some b | .leaf _ => none

/-- Padding of keys that only some batches have, lines 1108-1125 (stack) and 969-981 (cat): the first value creates
the holder, every value is assigned at its place. -/
def padLoop (size : Nat) (stack : Bool) : List (Index × Option Val) → Option Val → Except Err (Option Val)
  | [], h => .ok h
  | (_, none) :: rest, h => padLoop size stack rest h
  | (i, some v) :: rest, none => do
    let h ← v.create size stack
    let h ← h.setitem i v
    padLoop size stack rest (some h)
  | (i, some v) :: rest, some h => do
    let h ← h.setitem i v
    padLoop size stack rest (some h)

/-- The entry of one key in a stack or concatenation: shared, reserved or partial. `places` are the index ranges of
the batches in the result, `shared` says what to do with a key that all have. -/
def mergeKey (size : Nat) (stack : Bool) (places : List Index) (shared : List Val → Except Err Val)
    (vs : List (Option Val)) : Except Err Val :=
  match (vs.map full).mapM id with
  | some fs => shared fs
  | none =>
    if (vs.map full).all Option.isNone then .ok (.sub .nil)
    else do
      match ← padLoop size stack (places.zip (vs.map full)) none with
      | some h => .ok h
      | none => .ok (.sub .nil)

/-- A batch with the given keys. -/
def build (f : String → Except Err Val) : List String → Except Err B
  | [] => .ok .nil
  | k :: ks => do
    let v ← f k
    let r ← build f ks
    .ok (B.cons k v r)

/-- All keys of the batches. -/
def allKeys (bs : List B) : List String := (bs.flatMap B.keys).dedup

/-- `Batch.stack` (axis 0), lines 1050-1125, 1127-1132, on nested levels up to `fuel`. -/
def stackAux : Nat → List B → Except Err B
  | 0, _ => .ok .nil
  | fuel + 1, bs =>
    let bs := bs.filter fun b => b.keys ≠ []
    if bs = [] then .ok .nil
    else
      build (fun k => mergeKey bs.length true ((List.range bs.length).map fun i : Nat => Index.one (i : Int))
        (fun vs => match allLeaves vs with
          | some ls => .ok (.leaf ⟨ls.any Leaf.object, .arr (ls.map Leaf.data)⟩)
          | none => match allSubs vs with
            | some cs => (stackAux fuel cs).map .sub
            | none => .error .valueError)
        (bs.map (B.get? k))) (allKeys bs)

/-- `Batch.stack(batches)`. -/
def stack (bs : List B) : Except Err B := stackAux ((bs.map B.depth).foldl max 0 + 1) bs

/-- `len(array)`: `TypeError` for scalars; `None` entries do not count. -/
def B.lens : B → Except Err (List Nat)
  | .nil => .ok []
  | .leaf _ l rest =>
    match l.data with
    | .none => rest.lens
    | .arr rows => rest.lens.map fun r => rows.length :: r
    | _ => .error .typeError
  | .sub _ b rest => do
    let x ← b.lens
    let n := x.min?.getD 0
    let r ← rest.lens
    if n = 0 then .ok r else .ok (n :: r)

/-- `len(batch)`, lines 1171-1191. -/
def B.len (b : B) : Except Err Nat := b.lens.map fun l => l.min?.getD 0

/-- The structure of a batch, lines 1002-1003: nested keys; values and empty batches are not distinguished. -/
def B.sameStructure : Nat → B → B → Bool
  | 0, _, _ => true
  | fuel + 1, b, c =>
    decide (b.keys ⊆ c.keys) && decide (c.keys ⊆ b.keys) &&
      b.keys.all fun k =>
        match full (b.get? k), full (c.get? k) with
        | some (.sub x), some (.sub y) => x.sameStructure fuel y
        | some (.sub _), _ => false
        | _, some (.sub _) => false
        | _, _ => true

/-- Start positions and ends of the segments, lines 934-937. -/
def segments : Nat → List Nat → List Index
  | _, [] => []
  | s, n :: ns => .slice s (s + n) :: segments (s + n) ns

/-- `__cat`, lines 916-983. -/
def catAux : Nat → List Nat → List B → Except Err B
  | 0, _, _ => .ok .nil
  | fuel + 1, lens, bs =>
    build (fun k => mergeKey lens.sum false (segments 0 lens)
      (fun vs => match allSubs vs with
        | some cs => (catAux fuel lens cs).map .sub
        | none => match allLeaves vs with
          | some ls =>
            match ls.mapM fun l => match l.data with | .arr rows => some rows | _ => none with
            | some rs => .ok (.leaf ⟨ls.any Leaf.object, .arr rs.flatten⟩)
            | none => .error .valueError
          | none => .error .valueError)
      (bs.map (B.get? k))) (allKeys bs)

/-- `Batch.cat(batches)`, lines 985-1042, 1044-1048. -/
def cat (bs : List B) : Except Err B :=
  let fuel := (bs.map B.depth).foldl max 0 + 1
  let bs := bs.filter fun b => b.keys ≠ []
  match bs with
  | [] => .ok .nil
  | b :: rest =>
    if rest.all fun c => b.sameStructure fuel c then
      match (b :: rest).mapM B.len with
      | .ok lens => catAux fuel lens (b :: rest)
      | .error _ => .error .valueError
    else .error .valueError

/-- The loop of `split`, lines 1219-1224: `idx` runs through `range(0, length, size)`. -/
def splitLoop (indices : List Nat) (size : Nat) (merge : Bool) : Nat → Nat → List (List Nat)
  | 0, _ => []
  | fuel + 1, idx =>
    if idx < indices.length then
      if merge ∧ indices.length ≤ idx + size + size then [indices.drop idx]
      else (indices.drop idx).take size :: splitLoop indices size merge fuel (idx + size)
    else []

/-- `split`, lines 1208-1224: the index arrays of the minibatches. `indices` is the permutation (or `arange`). -/
def split (length : Nat) (size : Int) (indices : List Nat) (mergeLast : Bool) : Except Err (List (List Nat)) :=
  let size := if size = -1 then (length : Int) else size
  if 1 ≤ size then
    .ok (splitLoop indices size.toNat (mergeLast && decide (length % size.toNat > 0)) (length + 1) 0)
  else .error .assertionError

end Verif.Batch
