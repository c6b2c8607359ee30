import Verif.Model.Buffer

/-!
Model of `tianshou/data/buffer/manager.py` (`ReplayBufferManager`), `vecbuf.py` (`VectorReplayBuffer`) and
`cached.py` (`CachedReplayBuffer`).

Simplifications: the parallel arrays `_offset`, `buffers`, `last_index`, `_lengths` are one list of records.
The children's `_meta` are numpy views of slices of the manager's `_meta` (manager.py:77-79), so there is one
store `data` and a child sees its slice. Children are plain `ReplayBuffer`s.
-/

namespace Verif.Buffer

variable {O A R : Type}

/-- Entry `b` of the arrays `_offset`, `buffers`, `last_index`, `_lengths`, manager.py:26-53. -/
structure Sub (R : Type) where
  offset : Nat
  idx : Idx R
  last : Int
  length : Nat
deriving DecidableEq, Repr

/-- A `ReplayBufferManager`; `total` is `_extend_offset[-1] = maxsize`. -/
structure Mgr (O A R : Type) where
  opts : Opts O
  subs : List (Sub R)
  total : Nat
  data : Nat → Option (Trans O A R)

/-- manager.py:33-47: the loop over `buffer_list` computing offsets; `size` is the running total. -/
def initSubs [Zero R] : List Nat → Nat → List (Sub R) × Nat
  | [], size => ([], size)
  | s :: rest, size =>
    let r := initSubs rest (size + s)
    ({ offset := size, idx := Idx.new s, last := size + (0 : Nat), length := 0 } :: r.1, r.2)

/-- `ReplayBufferManager.__init__`, manager.py:26-53, for fresh buffers of the given sizes. -/
def Mgr.new [Zero R] (sizes : List Nat) (opts : Opts O) : Mgr O A R :=
  let r := initSubs sizes 0
  { opts := opts, subs := r.1, total := r.2, data := fun _ => none }

/-- `VectorReplayBuffer.__init__`, vecbuf.py:33-37: `size = ceil(total_size / buffer_num)`. -/
def Mgr.newVector [Zero R] (totalSize bufferNum : Nat) (opts : Opts O) : Mgr O A R :=
  Mgr.new (List.replicate bufferNum ((totalSize + bufferNum - 1) / bufferNum)) opts

/-- The child buffer of an entry: its bookkeeping and the slice `_meta[offset : offset + maxsize]`,
manager.py:77-79. -/
def childOf (opts : Opts O) (data : Nat → Option (Trans O A R)) (s : Sub R) : Buf O A R :=
  { opts := opts
    idx := s.idx
    data := fun i => if i < s.idx.maxsize then data (s.offset + i) else none }

/-- `self.buffers[b]` for the entry `s`. -/
def Mgr.child (m : Mgr O A R) (s : Sub R) : Buf O A R := childOf m.opts m.data s

/-- `__len__`, manager.py:67-68. -/
def Mgr.len (m : Mgr O A R) : Nat := (m.subs.map Sub.length).sum

/-- `reset`, manager.py:70-75. -/
def Mgr.reset [Zero R] (m : Mgr O A R) (keepStatistics : Bool) : Mgr O A R :=
  { m with subs := m.subs.map fun s =>
      { s with last := s.offset, length := 0, idx := s.idx.reset keepStatistics } }

/-- `np.concatenate` of the children's results (or the first error). -/
def concatOk : List (Except Err (List Nat)) → Except Err (List Nat)
  | [] => .ok []
  | .error e :: _ => .error e
  | .ok l :: rest =>
    match concatOk rest with
    | .error e => .error e
    | .ok r => .ok (l ++ r)

/-- `unfinished_index`, manager.py:85-91 (after the first write: `_meta` is allocated in all children). -/
def Mgr.unfinishedIndex (m : Mgr O A R) : Except Err (List Nat) :=
  concatOk (m.subs.map fun s => ((m.child s).unfinishedIndex true).map fun l => l.map (· + s.offset))

/-- Loop body of `_prev_index`, manager.py:318-330, for one index. -/
def prevStep (data : Nat → Option (Trans O A R)) (index : Nat) (acc : Nat) (s : Sub R) : Nat :=
  if s.offset ≤ index ∧ index < s.offset + s.idx.maxsize then
    let curLen := max 1 s.length
    let subind := (((index : Int) - s.offset - 1) % (curLen : Int)).toNat
    let endFlag := doneAt data (subind + s.offset) || (((subind + s.offset : Nat) : Int) == s.last)
    (subind + endFlag.toNat) % curLen + s.offset
  else acc

/-- `prev`, manager.py:93-108 with `_prev_index`, manager.py:306-331, on one index. The pairs
`(offset[:-1], offset[1:])` are `(offset, offset + maxsize)` of each entry. -/
def Mgr.prev (m : Mgr O A R) (index : Int) : Nat :=
  m.subs.foldl (prevStep m.data (index % (m.total : Int)).toNat) 0

/-- Loop body of `_next_index`, manager.py:346-357, for one index. -/
def nextStep (data : Nat → Option (Trans O A R)) (index : Nat) (acc : Nat) (s : Sub R) : Nat :=
  if s.offset ≤ index ∧ index < s.offset + s.idx.maxsize then
    let curLen := max 1 s.length
    let endFlag := doneAt data index || ((index : Int) == s.last)
    (index - s.offset + (1 - endFlag.toNat)) % curLen + s.offset
  else acc

/-- `next`, manager.py:110-125 with `_next_index`, manager.py:334-358, on one index. -/
def Mgr.next (m : Mgr O A R) (index : Int) : Nat :=
  m.subs.foldl (nextStep m.data (index % (m.total : Int)).toNat) 0

/-- manager.py:163-178, the loop of `add` over `buffer_ids` (entry, preprocessed row). -/
def addLoop [Zero R] [Add R] :
    List (Sub R) → List (Nat × Trans O A R) → Except Err (List (Sub R) × List (AddResult R))
  | subs, [] => .ok (subs, [])
  | subs, (b, t) :: rest =>
    match subs[b]? with
    | none => .error .indexError
    | some s =>
      match s.idx.preAdd t.rew t.done with
      | .error e => .error e
      | .ok (x, r) =>
        match addLoop (subs.set b { s with
            idx := x, last := ((r.slot + s.offset : Nat) : Int), length := x.size }) rest with
        | .error e => .error e
        | .ok (subs', rs) =>
          .ok (subs', { r with slot := r.slot + s.offset, epStart := r.epStart + s.offset } :: rs)

/-- `add`, manager.py:131-193; `ids` non-negative. Rows and ids must have the same number (otherwise the
indexing on line 169 or the assignment on line 180/193 raises). -/
def Mgr.add [Zero R] [Add R] (m : Mgr O A R) (ids : List Nat) (rows : List (Trans O A R)) :
    Except Err (Mgr O A R × List (AddResult R)) :=
  if ids.length ≠ rows.length then .error .valueError
  else
    let rows := rows.map (prep m.opts)
    match addLoop m.subs (ids.zip rows) with
    | .error e => .error e
    | .ok (subs, rs) =>
      .ok ({ m with subs := subs, data := scatter m.data ((rs.map AddResult.slot).zip (rows.map some)) }, rs)

/-- Concatenate the results of sampling in the children, manager.py:224-229. -/
def Mgr.concatSamples (m : Mgr O A R) (rng : Nat → Nat → Nat) (num : Nat → Int) : Except Err (List Nat) :=
  concatOk (m.subs.zipIdx.map fun p =>
    ((m.child p.1).sampleIndices (rng p.2) (some (num p.2))).map fun l => l.map (· + p.1.offset))

/-- `sample_indices`, manager.py:195-229. `draw k` decides the sub-buffer of the `k`-th sample among those
with positive probability `lengths[b] / lengths.sum()` (line 213-217; if all lengths are 0 the probabilities
are NaN and numpy raises `ValueError`); `rng b` is the randomness used by child `b`. -/
def Mgr.sampleIndices (m : Mgr O A R) (draw : Nat → Nat) (rng : Nat → Nat → Nat) (batchSize : Option Int) :
    Except Err (List Nat) :=
  if batchSize.getD 0 < 0 then .ok []
  else if m.opts.sampleAvail ∧ 1 < m.opts.stackNum then
    match m.concatSamples rng (fun _ => 0) with
    | .error e => .error e
    | .ok all =>
      if batchSize = some 0 then .ok all
      else choice draw all (batchSize.getD all.length).toNat
  else if batchSize.getD 0 = 0 then m.concatSamples rng (fun _ => 0)
  else
    let cands := (List.range m.subs.length).filter fun b => decide (0 < (m.subs.map Sub.length).getD b 0)
    match choice draw cands (batchSize.getD 0).toNat with
    | .error e => .error e
    | .ok bufferIdx =>
      m.concatSamples rng fun b => if bufferIdx.count b = 0 then -1 else (bufferIdx.count b : Int)

/-! ### CachedReplayBuffer: entry 0 is the main buffer. -/

/-- `CachedReplayBuffer.__init__`, cached.py:28-44. -/
def Mgr.newCached [Zero R] (mainSize num maxEpLen : Nat) (opts : Opts O) : Mgr O A R :=
  Mgr.new (mainSize :: List.replicate num maxEpLen) opts

/-- Write the slice of a child back into the shared store. -/
def writeBack (data : Nat → Option (Trans O A R)) (s : Sub R) (new : Nat → Option (Trans O A R)) :
    Nat → Option (Trans O A R) :=
  fun i => if s.offset ≤ i ∧ i < s.offset + s.idx.maxsize then new (i - s.offset) else data i

/-- cached.py:72-82, one pass of the loop over finished episodes: move the content of cached buffer `b`
(`buffers[b]`) into the main buffer. Returns the first and last slot written (`-1` if none). -/
def Mgr.move [Zero R] (m : Mgr O A R) (b : Nat) : Except Err (Mgr O A R × (Int × Int)) :=
  match m.subs[0]?, m.subs[b]? with
  | some s0, some sb =>
    let r := (m.child s0).update (m.child sb)
    let first : Int := match r.2.head? with | some i => i | none => -1
    let last : Int := match r.2.getLast? with | some i => i | none => -1
    .ok ({ m with
        data := writeBack m.data s0 r.1.data
        subs := (m.subs.set 0 { s0 with idx := r.1.idx, length := r.1.idx.size, last := last }).set b
          { sb with idx := sb.idx.reset false, length := 0, last := sb.offset } }, (first, last))
  | _, _ => .error .indexError

/-- cached.py:72-84: the loop over `cached_buffer_ids[done]`. -/
def Mgr.moves [Zero R] (m : Mgr O A R) : List Nat → Except Err (Mgr O A R × List (Int × Int))
  | [] => .ok (m, [])
  | b :: rest =>
    match m.move b with
    | .error e => .error e
    | .ok (m', p) =>
      match m'.moves rest with
      | .error e => .error e
      | .ok (m'', ps) => .ok (m'', p :: ps)

/-- One row of the result of `CachedReplayBuffer.add`. -/
structure CachedResult (R : Type) where
  slot : Int
  epRet : R
  epLen : Nat
  epStart : Int
deriving DecidableEq, Repr

/-- cached.py:83-84: overwrite the entries of finished episodes by the moved slots. -/
def overwrite : List (AddResult R) → List Bool → List (Int × Int) → List (CachedResult R)
  | r :: rs, true :: ds, (a, z) :: ps => ⟨z, r.epRet, r.epLen, a⟩ :: overwrite rs ds ps
  | r :: rs, false :: ds, ps => ⟨r.slot, r.epRet, r.epLen, r.epStart⟩ :: overwrite rs ds ps
  | _, _, _ => []

/-- `CachedReplayBuffer.add`, cached.py:46-85. -/
def Mgr.cachedAdd [Zero R] [Add R] (m : Mgr O A R) (ids : List Nat) (rows : List (Trans O A R)) :
    Except Err (Mgr O A R × List (CachedResult R)) :=
  match m.add (ids.map (· + 1)) rows with
  | .error e => .error e
  | .ok (m', rs) =>
    let done := rows.map Trans.done
    match m'.moves (((ids.zip rows).filter fun p => p.2.done).map fun p => p.1 + 1) with
    | .error e => .error e
    | .ok (m'', ps) => .ok (m'', overwrite rs done ps)

/-- `subbuffer_edges` of a manager, manager.py:32-49 and 55-58: the first slots of the sub-buffers and the
capacity. -/
def Mgr.edges (m : Mgr O A R) : List Nat := m.subs.map Sub.offset ++ [m.total]

/-- `get_buffer_indices` of a manager, inherited, base.py:163-218. -/
def Mgr.getBufferIndices (m : Mgr O A R) (start stop : Nat) : Except Err (List Nat) :=
  Buffer.getBufferIndices m.edges start stop

end Verif.Buffer
