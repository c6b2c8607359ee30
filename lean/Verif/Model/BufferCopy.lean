import Verif.Model.Manager

/-!
Copies of vector buffers: `copy.deepcopy`, pickling (`__setstate__`, base.py:233-234, only restores the
attributes) and `save_hdf5`/`load_hdf5` (base.py:241-252) of a `ReplayBufferManager` (manager.py) or a
`CachedReplayBuffer` (cached.py) that already holds data.

In the original the arrays of the sub-buffers are numpy views of the arrays of the vector buffer; the views are
made by `_set_batch_for_children` (manager.py:77-79), which runs when the arrays are allocated or new keys are
allocated (manager.py:183-192) and in `set_batch` (manager.py:81-83). A copy of a view is an array of its own, so in
a copied buffer the sub-buffers own separate arrays. Everything else (`_offset`, `last_index`, `_lengths`,
the bookkeeping of the sub-buffers) is as in the model of the original, `Mgr`.

Simplifications: the keys of the added batches are those already stored (a new key would make new views);
`main_buffer` of a cached buffer is `buffers[0]` (so for deep copies and pickles; not after `load_hdf5`).
-/

namespace Verif.Buffer

variable {O A R : Type}

/-- A copied vector buffer: `mgr` is the vector buffer with its own arrays, `own` holds the arrays of the
sub-buffers, those of the sub-buffer with offset `o` from position `o` on. -/
structure Unlinked (O A R : Type) where
  mgr : Mgr O A R
  own : Nat → Option (Trans O A R)

/-- `copy.deepcopy(buf)`, or `pickle.loads(pickle.dumps(buf))`: the arrays of the sub-buffers are copies of
the slices they were views of; base.py:233-234. -/
def Mgr.copy (m : Mgr O A R) : Unlinked O A R := { mgr := m, own := m.data }

/-- `set_batch(buf._meta)`, manager.py:77-83: the sub-buffers get views again, so the buffer is an ordinary
one. -/
def Unlinked.relink (c : Unlinked O A R) : Mgr O A R := c.mgr

/-- `self.buffers[b]` of the copied buffer for the entry `s`: the bookkeeping and the array it owns. -/
def Unlinked.child (c : Unlinked O A R) (s : Sub R) : Buf O A R := childOf c.mgr.opts c.own s

/-- `add`, manager.py:131-193: rows are written by `self._meta[...] = batch` (line 180) into the arrays of the
vector buffer. -/
def Unlinked.add [Zero R] [Add R] (c : Unlinked O A R) (ids : List Nat) (rows : List (Trans O A R)) :
    Except Err (Unlinked O A R × List (AddResult R)) :=
  match c.mgr.add ids rows with
  | .error e => .error e
  | .ok (m, rs) => .ok ({ c with mgr := m }, rs)

/-- `reset`, manager.py:70-75. -/
def Unlinked.reset [Zero R] (c : Unlinked O A R) (keepStatistics : Bool) : Unlinked O A R :=
  { c with mgr := c.mgr.reset keepStatistics }

/-- `__len__`, manager.py:67-68. -/
def Unlinked.len (c : Unlinked O A R) : Nat := c.mgr.len

/-- `buf[i]` reads the arrays of the vector buffer, base.py:583-618. -/
def Unlinked.row (c : Unlinked O A R) (i : Nat) : Option (Trans O A R) := c.mgr.data i

/-- `prev`, manager.py:93-108: with `self.done`, the array of the vector buffer. -/
def Unlinked.prev (c : Unlinked O A R) (index : Int) : Nat := c.mgr.prev index

/-- `next`, manager.py:110-125: with `self.done`, the array of the vector buffer. -/
def Unlinked.next (c : Unlinked O A R) (index : Int) : Nat := c.mgr.next index

/-- `unfinished_index`, manager.py:85-91: asks each sub-buffer, which reads its own arrays. -/
def Unlinked.unfinishedIndex (c : Unlinked O A R) : Except Err (List Nat) :=
  concatOk (c.mgr.subs.map fun s => ((c.child s).unfinishedIndex true).map fun l => l.map (· + s.offset))

/-- `sample_indices`, manager.py:195-229: asks the sub-buffers, which read their own arrays. -/
def Unlinked.sampleIndices (c : Unlinked O A R) (draw : Nat → Nat) (rng : Nat → Nat → Nat)
    (batchSize : Option Int) : Except Err (List Nat) :=
  { c.mgr with data := c.own }.sampleIndices draw rng batchSize

/-- Public calls that change a vector buffer. -/
inductive Use (O A R : Type)
  | add (ids : List Nat) (rows : List (Trans O A R))
  | reset (keepStatistics : Bool)

/-- Calls on an ordinary vector buffer, manager.py:70-75 and 131-193, with the values returned. -/
def Mgr.run [Zero R] [Add R] (m : Mgr O A R) : List (Use O A R) → Except Err (Mgr O A R × List (List (AddResult R)))
  | [] => .ok (m, [])
  | .reset k :: us => (m.reset k).run us
  | .add ids rows :: us =>
    match m.add ids rows with
    | .error e => .error e
    | .ok (m', rs) =>
      match m'.run us with
      | .error e => .error e
      | .ok (m'', rss) => .ok (m'', rs :: rss)

/-- The same calls on a copied vector buffer. -/
def Unlinked.run [Zero R] [Add R] (c : Unlinked O A R) :
    List (Use O A R) → Except Err (Unlinked O A R × List (List (AddResult R)))
  | [] => .ok (c, [])
  | .reset k :: us => (c.reset k).run us
  | .add ids rows :: us =>
    match c.add ids rows with
    | .error e => .error e
    | .ok (c', rs) =>
      match c'.run us with
      | .error e => .error e
      | .ok (c'', rss) => .ok (c'', rs :: rss)

/-- cached.py:72-82 on a copied cached buffer: `main_buffer.update` (base.py:326-346) copies from the arrays the
cached sub-buffer owns into the arrays the main sub-buffer owns. -/
def Unlinked.move [Zero R] (c : Unlinked O A R) (b : Nat) : Except Err (Unlinked O A R × (Int × Int)) :=
  match c.mgr.subs[0]?, c.mgr.subs[b]? with
  | some s0, some sb =>
    let r := (c.child s0).update (c.child sb)
    let first : Int := match r.2.head? with | some i => i | none => -1
    let last : Int := match r.2.getLast? with | some i => i | none => -1
    .ok ({ own := writeBack c.own s0 r.1.data
           mgr := { c.mgr with
             subs := (c.mgr.subs.set 0 { s0 with idx := r.1.idx, length := r.1.idx.size, last := last }).set b
               { sb with idx := sb.idx.reset false, length := 0, last := sb.offset } } }, (first, last))
  | _, _ => .error .indexError

/-- cached.py:72-84 on a copied cached buffer. -/
def Unlinked.moves [Zero R] (c : Unlinked O A R) : List Nat → Except Err (Unlinked O A R × List (Int × Int))
  | [] => .ok (c, [])
  | b :: rest =>
    match c.move b with
    | .error e => .error e
    | .ok (c', p) =>
      match c'.moves rest with
      | .error e => .error e
      | .ok (c'', ps) => .ok (c'', p :: ps)

/-- `CachedReplayBuffer.add`, cached.py:46-85, on a copied cached buffer. -/
def Unlinked.cachedAdd [Zero R] [Add R] (c : Unlinked O A R) (ids : List Nat) (rows : List (Trans O A R)) :
    Except Err (Unlinked O A R × List (CachedResult R)) :=
  match c.add (ids.map (· + 1)) rows with
  | .error e => .error e
  | .ok (c', rs) =>
    let done := rows.map Trans.done
    match c'.moves (((ids.zip rows).filter fun p => p.2.done).map fun p => p.1 + 1) with
    | .error e => .error e
    | .ok (c'', ps) => .ok (c'', overwrite rs done ps)

/-- Calls of `CachedReplayBuffer.add`, cached.py:46-85, one after the other, with the values returned. -/
def Mgr.cachedRun [Zero R] [Add R] (m : Mgr O A R) :
    List (List Nat × List (Trans O A R)) → Except Err (Mgr O A R × List (List (CachedResult R)))
  | [] => .ok (m, [])
  | (ids, rows) :: us =>
    match m.cachedAdd ids rows with
    | .error e => .error e
    | .ok (m', rs) =>
      match m'.cachedRun us with
      | .error e => .error e
      | .ok (m'', rss) => .ok (m'', rs :: rss)

/-- The same calls on a copied cached buffer. -/
def Unlinked.cachedRun [Zero R] [Add R] (c : Unlinked O A R) :
    List (List Nat × List (Trans O A R)) → Except Err (Unlinked O A R × List (List (CachedResult R)))
  | [] => .ok (c, [])
  | (ids, rows) :: us =>
    match c.cachedAdd ids rows with
    | .error e => .error e
    | .ok (c', rs) =>
      match c'.cachedRun us with
      | .error e => .error e
      | .ok (c'', rss) => .ok (c'', rs :: rss)

end Verif.Buffer
