import Mathlib.Algebra.Group.Defs
import Mathlib.Logic.Function.Iterate

/-!
Model of `tianshou/data/buffer/base.py` (`ReplayBuffer`).

Simplifications common to the file. A transition is a record with the keys the buffer itself looks at;
`act` stands for all further payload (`act`, `info`, `policy`, extra keys), which is only ever copied. All
transitions carry the same keys. `_meta`, an array of `maxsize` rows, is a function from slots to
`Option` rows; `none` is a row that was never written (numpy zeros: its `done` reads `False`). Indices are
non-negative (the vector buffer, `Model/Manager.lean`, also takes negative ones). Scalar rewards.
-/

namespace Verif.Buffer

/-- One transition; keys of `_reserved_keys`, base.py:35-46. `obsNext` is `none` when the key is absent. -/
structure Trans (O A R : Type) where
  obs : O
  act : A
  rew : R
  terminated : Bool
  truncated : Bool
  obsNext : Option O
deriving DecidableEq, Repr

variable {O A R : Type}

/-- base.py:430: `done = np.logical_or(terminated, truncated)`, recomputed on every `add`. -/
def Trans.done (t : Trans O A R) : Bool := t.terminated || t.truncated

/-- Errors raised by the modelled functions. -/
inductive Err where
  /-- `MalformedBufferError` -/
  | malformed
  /-- `ZeroDivisionError` -/
  | zeroDivision
  | valueError
  | indexError
  | attributeError
deriving DecidableEq, Repr

/-- Bookkeeping attributes of a `ReplayBuffer`, base.py:88-103: `maxsize`, `last_index[0]`,
`_insertion_idx`, `_size`, `_ep_return`, `_ep_len`, `_ep_start_idx`. -/
structure Idx (R : Type) where
  maxsize : Nat
  last : Nat
  ins : Nat
  size : Nat
  epRet : R
  epLen : Nat
  epStart : Nat
deriving DecidableEq, Repr

/-- Constructor options, base.py:79-97. `lastFrame = some f` is `save_only_last_obs=True` with `f` the
selection `x[-1]`. -/
structure Opts (O : Type) where
  stackNum : Nat := 1
  ignoreObsNext : Bool := false
  lastFrame : Option (O → O) := none
  sampleAvail : Bool := false

/-- A `ReplayBuffer`: options, bookkeeping and `_meta`. -/
structure Buf (O A R : Type) where
  opts : Opts O
  idx : Idx R
  data : Nat → Option (Trans O A R)

/-- base.py:100-103 / 288-291. -/
def Idx.new [Zero R] (maxsize : Nat) : Idx R :=
  { maxsize := maxsize, last := 0, ins := 0, size := 0, epRet := 0, epLen := 0, epStart := 0 }

/-- `ReplayBuffer.__init__`, base.py:73-103. -/
def Buf.new [Zero R] (maxsize : Nat) (opts : Opts O) : Buf O A R :=
  { opts := opts, idx := Idx.new maxsize, data := fun _ => none }

/-- `__len__`, base.py:220-221. -/
def Buf.len (b : Buf O A R) : Nat := b.idx.size

/-- `reset`, base.py:285-291, on the bookkeeping: `_meta` is left as it is. -/
def Idx.reset [Zero R] (x : Idx R) (keepStatistics : Bool) : Idx R :=
  { x with
    last := 0, ins := 0, size := 0, epStart := 0
    epRet := if keepStatistics then x.epRet else 0
    epLen := if keepStatistics then x.epLen else 0 }

/-- `reset`, base.py:285-291. -/
def Buf.reset [Zero R] (b : Buf O A R) (keepStatistics : Bool) : Buf O A R :=
  { b with idx := b.idx.reset keepStatistics }

/-- `self.done[i]`: rows never written read `False`. -/
def doneAt (data : Nat → Option (Trans O A R)) (i : Nat) : Bool :=
  match data i with
  | some t => t.done
  | none => false

/-- `unfinished_index`, base.py:302-305. `attributeError`: `self.done` does not exist before the first write
(it is evaluated before the size check); `alloc` says whether `_meta` has been allocated. -/
def Buf.unfinishedIndex (b : Buf O A R) (alloc : Bool) : Except Err (List Nat) :=
  let last := if b.idx.size ≠ 0 then (((b.idx.ins : Int) - 1) % (b.idx.size : Int)).toNat else 0
  if ¬ alloc then .error .attributeError
  else .ok (if ¬ doneAt b.data last ∧ b.idx.size ≠ 0 then [last] else [])

/-- `prev` on one index, base.py:307-314; `_size > 0` (all uses here are on live slots). -/
def Buf.prev (b : Buf O A R) (index : Nat) : Nat :=
  let index := (((index : Int) - 1) % (b.idx.size : Int)).toNat
  let endFlag := doneAt b.data index || (index == b.idx.last)
  (index + endFlag.toNat) % b.idx.size

/-- `next` on one index, base.py:316-322; `_size > 0`. -/
def Buf.next (b : Buf O A R) (index : Nat) : Nat :=
  let endFlag := doneAt b.data index || (index == b.idx.last)
  (index + (1 - endFlag.toNat)) % b.idx.size

/-- `np.arange(a, b)`. -/
def arange (a b : Nat) : List Nat := (List.range (b - a)).map (a + ·)

/-- base.py:504-507 (and 516-518): all slots, from the insertion point on. -/
def Idx.allIndices (x : Idx R) : List Nat := arange x.ins x.size ++ arange 0 x.ins

/-- `np.random.choice(all, n)` with `all` given as a list; `rng k` is the raw `k`-th random draw, reduced
modulo the number of candidates, so that every outcome is some `rng`. Sampling from nothing raises
`ValueError`. -/
def choice (rng : Nat → Nat) (all : List Nat) (n : Nat) : Except Err (List Nat) :=
  if all.length = 0 ∧ 0 < n then .error .valueError
  else .ok ((List.range n).map fun k => all.getD (rng k % all.length) 0)

/-- `sample_indices`, base.py:488-524. -/
def Buf.sampleIndices (b : Buf O A R) (rng : Nat → Nat) (batchSize : Option Int) : Except Err (List Nat) :=
  let bs : Int := batchSize.getD b.len
  if b.opts.stackNum = 1 ∨ ¬ b.opts.sampleAvail then
    if 0 < bs then choice rng (arange 0 b.idx.size) bs.toNat
    else if bs = 0 then .ok b.idx.allIndices
    else .ok []
  else if bs < 0 then .ok []
  else
    let all := b.idx.allIndices
    let prevI := fun i => Nat.iterate b.prev (b.opts.stackNum - 2) i
    let avail := all.filter fun i => prevI i ≠ b.prev (prevI i)
    if 0 < bs then choice rng avail bs.toNat
    else .ok avail

/-- numpy scatter `_meta[indices] = rows`, in order (a later duplicate wins). -/
def scatter {α : Type} (a : Nat → Option α) : List (Nat × Option α) → Nat → Option α
  | [] => a
  | (i, x) :: rest => scatter (Function.update a i x) rest

/-- base.py:337-341, the bookkeeping loop of `update`: returns the slots and the new bookkeeping. -/
def Idx.advance (x : Idx R) : Nat → List Nat × Idx R
  | 0 => ([], x)
  | n + 1 =>
    let x' := { x with
      last := x.ins
      ins := (x.ins + 1) % x.maxsize
      size := min (x.size + 1) x.maxsize }
    let r := x'.advance n
    (x.ins :: r.1, r.2)

/-- `update`, base.py:324-346: returns the updated buffer and the slots written. The source is read only
(`stack_num` is set to 1 and restored). -/
def Buf.update (b src : Buf O A R) : Buf O A R × List Nat :=
  if src.len = 0 ∨ b.idx.maxsize = 0 then (b, [])
  else
    let fromI := src.idx.allIndices
    if fromI.length = 0 then (b, [])
    else
      let r := b.idx.advance fromI.length
      ({ b with idx := r.2, data := scatter b.data (r.1.zip (fromI.map src.data)) }, r.1)

/-- Result of adding one transition: slot, episode return, episode length, episode start slot. -/
structure AddResult (R : Type) where
  slot : Nat
  epRet : R
  epLen : Nat
  epStart : Nat
deriving DecidableEq, Repr

/-- `_update_state_pre_add`, base.py:348-403, for scalar rewards. -/
def Idx.preAdd [Zero R] [Add R] (x : Idx R) (rew : R) (done : Bool) : Except Err (Idx R × AddResult R) :=
  if x.maxsize = 0 then .error .zeroDivision
  else
    let cur := x.ins
    let size := min (x.size + 1) x.maxsize
    let ins := (x.ins + 1) % x.maxsize
    let epRet := x.epRet + rew
    let epLen := x.epLen + 1
    if x.epStart > size then .error .malformed
    else
      let res : AddResult R :=
        { slot := cur
          epRet := if done then epRet else 0
          epLen := if done then epLen else 0
          epStart := x.epStart }
      .ok ({ x with
              last := cur, size := size, ins := ins
              epRet := if done then 0 else epRet
              epLen := if done then 0 else epLen
              epStart := if done then ins else x.epStart }, res)

/-- base.py:455-462: `save_only_last_obs` and `ignore_obs_next` processing of the row to be stored. -/
def prep (opts : Opts O) (t : Trans O A R) : Trans O A R :=
  { t with
    obs := match opts.lastFrame with | some f => f t.obs | none => t.obs
    obsNext :=
      if opts.ignoreObsNext then none
      else match opts.lastFrame with | some f => t.obsNext.map f | none => t.obsNext }

/-- `add` without `buffer_ids`, base.py:405-486. -/
def Buf.add [Zero R] [Add R] (b : Buf O A R) (t : Trans O A R) : Except Err (Buf O A R × AddResult R) :=
  let t := prep b.opts t
  match b.idx.preAdd t.rew t.done with
  | .error e => .error e
  | .ok (x, res) => .ok ({ b with idx := x, data := Function.update b.data res.slot (some t) }, res)

/-- `add` with `buffer_ids` and a batch of rows, base.py:443-453 then as above. The check on line 444 is
`len(buffer_ids) != 1 and buffer_ids[0] != 0`. -/
def Buf.addIds [Zero R] [Add R] (b : Buf O A R) (ids : List Int) (rows : List (Trans O A R)) :
    Except Err (Buf O A R × AddResult R) :=
  match ids with
  | [] => .error .indexError
  | id0 :: _ =>
    if ids.length ≠ 1 ∧ id0 ≠ 0 then .error .valueError
    else match rows with
      | [t] => b.add t
      | _ => .error .valueError

/-- base.py:571-573, the loop of `get` for `stack_num > 1` on one index; for `stack_num = 1` (lines 564-565)
the single value without the stacking axis, here a one-element list. `val` is the selected key. -/
def Buf.get {V : Type} (b : Buf O A R) (val : Trans O A R → V) (index : Nat) (stackNum : Nat) :
    List (Option V) :=
  go stackNum index []
where
  go : Nat → Nat → List (Option V) → List (Option V)
  | 0, _, stack => stack
  | n + 1, i, stack => go n (b.prev i) ((b.data i).map val :: stack)

/-- A row of `buffer[index]`. -/
structure Row (O A R : Type) where
  obs : List (Option O)
  act : Option A
  rew : Option R
  terminated : Option Bool
  truncated : Option Bool
  done : Bool
  obsNext : List (Option (Option O))

/-- `__getitem__` on one index, base.py:604-628. -/
def Buf.getRow (b : Buf O A R) (i : Nat) : Row O A R :=
  { obs := b.get Trans.obs i b.opts.stackNum
    act := (b.data i).map Trans.act
    rew := (b.data i).map Trans.rew
    terminated := (b.data i).map Trans.terminated
    truncated := (b.data i).map Trans.truncated
    done := doneAt b.data i
    obsNext :=
      if b.opts.ignoreObsNext then
        b.get (fun t => some t.obs) (b.next i) b.opts.stackNum
      else b.get Trans.obsNext i b.opts.stackNum }

/-- `buffer[:]`, base.py:593-597: rows at `sample_indices(0)`. -/
def Buf.getAll (b : Buf O A R) : Except Err (List (Row O A R)) :=
  (b.sampleIndices (fun _ => 0) (some 0)).map fun l => l.map b.getRow

/-- `np.searchsorted(edges, x, side="left")` for sorted `edges`. -/
def searchLeft (edges : List Nat) (x : Int) : Nat := (edges.filter fun (e : Nat) => decide ((e : Int) < x)).length

/-- `np.searchsorted(edges, x, side="right")` for sorted `edges`. -/
def searchRight (edges : List Nat) (x : Int) : Nat := (edges.filter fun (e : Nat) => decide ((e : Int) ≤ x)).length

/-- `_get_start_stop_tuples_for_edge_crossing_interval`, base.py:115-161. -/
def crossing (edges : List Nat) (start stop : Nat) : Except Err ((Nat × Nat) × (Nat × Nat)) :=
  if stop ≥ start then .error .valueError
  else
    let k := searchLeft edges start
    if k = 0 then .error .valueError
    else match edges[k]?, edges[k - 1]? with
      | some after, some before =>
        if before ≥ stop then .error .valueError
        else .ok ((start, after), (before, stop))
      | _, _ => .error .indexError

/-- `get_buffer_indices`, base.py:163-218, for given `subbuffer_edges` (`[0, maxsize]` for a plain buffer,
base.py:113). -/
def getBufferIndices (edges : List Nat) (start stop : Nat) : Except Err (List Nat) :=
  if searchRight edges start ≠ searchRight edges ((stop : Int) - 1) then .error .valueError
  else if stop > start then .ok (arange start stop)
  else match crossing edges start stop with
    | .error e => .error e
    | .ok ((s, upper), (lower, e)) => .ok (arange s upper ++ arange lower e)

/-- `get_buffer_indices` of a plain buffer. -/
def Buf.getBufferIndices (b : Buf O A R) (start stop : Nat) : Except Err (List Nat) :=
  Buffer.getBufferIndices [0, b.idx.maxsize] start stop

end Verif.Buffer
