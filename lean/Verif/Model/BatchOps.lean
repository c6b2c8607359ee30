import Verif.Model.Batch

/-!
Model of further parts of `tianshou/data/batch.py`: concatenating and stacking onto an existing batch, iteration, dropping
rows with missing values, emptying, setting an array at a key, allocating new keys (as used by the replay buffers).

Simplifications as in `Model/Batch.lean`.
-/

namespace Verif.Batch

/-- `self.__dict__[key] = value`: an existing entry is replaced at its place, a new one added at the end. -/
def B.set (key : String) (v : Val) : B → B
  | .nil => B.cons key v .nil
  | .leaf k l rest => if k = key then B.cons k v rest else .leaf k l (rest.set key v)
  | .sub k b rest => if k = key then B.cons k v rest else .sub k b (rest.set key v)

/-! ### `cat_` and `stack_` onto a batch -/

/-- The entry of one key when the result is written into the batch itself: as `mergeKey`, but a partial key (lines
969-983 and 1108-1125) that the batch has already is assigned to the existing entry `own`, which is not enlarged. -/
def mergeKeyInto (own : Option Val) (size : Nat) (stack : Bool) (places : List Index) (shared : List Val → Except Err Val)
    (vs : List (Option Val)) : Except Err Val :=
  match (vs.map full).mapM id with
  | some fs => shared fs
  | none =>
    if (vs.map full).all Option.isNone then .ok (.sub .nil)
    else do
      match ← padLoop size stack (places.zip (vs.map full)) own with
      | some h => .ok h
      | none => .ok (.sub .nil)

/-- What `stack_` does with a key that all batches have, lines 1083-1104. -/
def stackShared (fuel : Nat) (vs : List Val) : Except Err Val :=
  match allLeaves vs with
  | some ls => .ok (.leaf ⟨ls.any Leaf.object, .arr (ls.map Leaf.data)⟩)
  | none => match allSubs vs with
    | some cs => (stackAux fuel cs).map .sub
    | none => .error .valueError

/-- What `__cat` does with a key that all batches have, lines 949-960. -/
def catShared (fuel : Nat) (lens : List Nat) (vs : List Val) : Except Err Val :=
  match allSubs vs with
  | some cs => (catAux fuel lens cs).map .sub
  | none => match allLeaves vs with
    | some ls =>
      match ls.mapM fun l => match l.data with | .arr rows => some rows | _ => none with
      | some rs => .ok (.leaf ⟨ls.any Leaf.object, .arr rs.flatten⟩)
      | none => .error .valueError
    | none => .error .valueError

/-- `x.stack_(batches)`, lines 1050-1125, for `x` with or without entries. -/
def stackInto (x : B) (bs : List B) : Except Err B :=
  let fuel := ((x :: bs).map B.depth).foldl max 0
  let bs := bs.filter fun b => b.keys ≠ []
  if bs = [] then .ok x
  else
    let all := if x.keys ≠ [] then x :: bs else bs
    build (fun k => mergeKeyInto (x.get? k) all.length true
      ((List.range all.length).map fun i : Nat => Index.one (i : Int)) (stackShared fuel) (all.map (B.get? k))) (allKeys all)

/-- `x.cat_(batches)`, lines 985-1042. The structure is compared with that of `x` if `x` has rows, otherwise with that of
the first non-empty batch; `len(x)` of a batch with scalars raises a `TypeError`. -/
def catInto (x : B) (bs : List B) : Except Err B := do
  let fuel := ((x :: bs).map B.depth).foldl max 0
  let n ← x.len
  let bs := bs.filter fun b => b.keys ≠ []
  match bs with
  | [] => .ok x
  | b :: rest =>
    let same := if 0 < n then (b :: rest).all fun c => x.sameStructure (fuel + 1) c
      else rest.all fun c => b.sameStructure (fuel + 1) c
    if same then
      match (b :: rest).mapM B.len with
      | .error _ => .error .valueError
      | .ok lens =>
        let all := if x.keys ≠ [] then x :: b :: rest else b :: rest
        let lens := if x.keys ≠ [] then n :: lens else lens
        build (fun k => mergeKeyInto (x.get? k) lens.sum false (segments 0 lens) (catShared fuel lens) (all.map (B.get? k)))
          (allKeys all)
    else .error .valueError

/-! ### Iteration and missing values -/

/-- `list(batch)`, lines 769-775. -/
def B.rows (b : B) : Except Err (List B) :=
  if b.keys = [] then .ok []
  else do
    let n ← b.len
    (List.range n).mapM fun i : Nat => b.getitem (.one (i : Int))

mutual
/-- `np.any(pd.isnull(value))`: `none` stands for `None` and for NaN. -/
def D.hasnull : D → Bool
  | .none => true
  | .num _ => false
  | .obj _ => false
  | .arr rows => D.hasnulls rows
/-- A missing value in one of the rows. -/
def D.hasnulls : List D → Bool
  | [] => false
  | r :: rows => r.hasnull || D.hasnulls rows
end

/-- `hasnull`, lines 1309-1325. -/
def B.hasnull : B → Bool
  | .nil => false
  | .leaf _ l rest => l.data.hasnull || rest.hasnull
  | .sub _ b rest => b.hasnull || rest.hasnull

/-- `np.atleast_1d`. -/
def D.atleast1d : D → D
  | .arr rows => .arr rows
  | d => .arr [d]

/-- `apply_values_transform(np.atleast_1d)`, line 1335. -/
def B.atleast1d : B → B
  | .nil => .nil
  | .leaf k l rest => .leaf k ⟨l.object, l.data.atleast1d⟩ rest.atleast1d
  | .sub k b rest => .sub k b.atleast1d rest.atleast1d

/-- `dropnull`, lines 1327-1337. -/
def B.dropnull (b : B) : Except Err B := do
  let rs ← b.rows
  cat ((rs.filter fun r => !r.hasnull).map B.atleast1d)

/-! ### Emptying -/

/-- `array[index] = z`; without an index (`array[None] = z`) the whole array is filled. -/
def D.emptyAt (d : D) (index : Option Index) (z : D) : Except Err D :=
  match index with
  | Option.none => .ok (D.fill z d)
  | some i => d.setfill i z

/-- What `empty_` does with an entry, lines 1136-1155: `None` is left alone, scalars become 0 or `None` whatever the
index. -/
def D.emptyEntry (d : D) (index : Option Index) (z : D) : Except Err D :=
  match d with
  | .none => .ok .none
  | .arr rows => (D.arr rows).emptyAt index z
  | _ => .ok z

/-- `empty_(index)`, lines 1134-1156. The first exception leaves the batch half-emptied, which is not modelled. -/
def B.emptyAt (index : Option Index) : B → Except Err B
  | .nil => .ok .nil
  | .leaf k l rest => do
    let d ← l.data.emptyEntry index l.zero
    let r ← rest.emptyAt index
    .ok (.leaf k ⟨l.object, d⟩ r)
  | .sub k b rest => do
    let x ← b.emptyAt index
    let r ← rest.emptyAt index
    .ok (.sub k x r)

/-! ### Setting an array -/

/-- `set_array_at_key(arr, key, index, default_value)`, lines 1268-1304. `fill` is what `np.array([default_value] * n,
dtype)` gives as an entry (a `TypeError` if the default does not fit the type). With an index, a key that does not exist
is created first and stays if the assignment fails. -/
def B.setArray (b : B) (arr : Leaf) (key : String) (index : Option Index) (fill : Except Err D) : B × Option Err :=
  match index with
  | some i =>
    match b.get? key with
    | none =>
      match b.len, fill with
      | .error e, _ => (b, some e)
      | _, .error e => (b, some e)
      | .ok n, .ok z =>
        match (D.arr (List.replicate n z)).setitem i arr.data with
        | .ok d => (b.set key (.leaf ⟨arr.object, d⟩), none)
        | .error e => (b.set key (.leaf ⟨arr.object, .arr (List.replicate n z)⟩), some e)
    | some (.sub _) => (b, some .valueError)
    | some (.leaf l) =>
      match l.data.setitem i arr.data with
      | .ok d => (b.set key (.leaf ⟨l.object, d⟩), none)
      | .error e => (b, some e)
  | none =>
    match arr.data, b.len with
    | .arr rows, .ok n => if rows.length = n then (b.set key (.leaf arr), none) else (b, some .valueError)
    | _, _ => (b, some .typeError)

/-! ### Allocating new keys -/

/-- `alloc_by_keys_diff(meta, batch, size, stack)`, lines 231-248. -/
def B.alloc (size : Nat) (stack : Bool) : B → B → Except Err B
  | m, .nil => .ok m
  | m, .leaf k l rest => do
    let m ← (match m.get? k with
      | none => (l.create size stack).map fun x => m.set k (.leaf x)
      | some (.sub .nil) => (l.create size stack).map fun x => m.set k (.leaf x)
      | some _ => .ok m)
    m.alloc size stack rest
  | m, .sub k b rest => do
    let m ← (match m.get? k with
      | none => (b.create size stack).map fun x => m.set k (.sub x)
      | some (.sub c) => (c.alloc size stack b).map fun x => m.set k (.sub x)
      | some (.leaf _) => .ok m)
    m.alloc size stack rest

/-- Writing transitions into the storage of a replay buffer, buffer/base.py lines 471-486 and buffer/manager.py lines
179-192: if the assignment fails with a `ValueError` (no storage yet, or new keys), storage is allocated and the assignment
repeated. A single transition is written to one slot (`index` is `one`; in the code an array of one position, to which
NumPy broadcasts the row). The conversion of the element types of `rew` and the flags is left out. -/
def bufWrite (size : Nat) (stack : Bool) (index : Index) (m v : B) : Except Err B :=
  match m.setitem index v with
  | (m', none) => .ok m'
  | (m', some .valueError) => do
    let m' ← if m'.keys = [] then v.create size stack else m'.alloc size stack v
    match m'.setitem index v with
    | (r, none) => .ok r
    | (_, some e) => .error e
  | (_, some e) => .error e

end Verif.Batch
