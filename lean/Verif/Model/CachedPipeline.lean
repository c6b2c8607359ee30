import Verif.Model.Pipeline

/-!
What the collectors do with a `CachedReplayBuffer` (`tianshou/data/collector.py`): the batches they add and the statistics of finished episodes they
take from what `add` returns, lines 853-983 and 192-215 for the synchronous collector, lines 1264-1307 and 1352-1357 for the asynchronous
one. Not modelled: hooks, the entry `policy` of the batch, and `info`.
-/

namespace Verif.Pipeline

open Verif.Buffer

variable {O A R I : Type}

/-- Lines 944-954 and 979-983 with 192-215 for one environment that is done: the entries appended to `returns` and `lens`. The length is that of
the batch read back from the buffer; the range from -1 to 0 has one entry. -/
def cachedStat (m : Mgr O A R) (r : CachedResult R) : Except Buffer.Err (R × Nat) :=
  if r.epStart < 0 ∨ r.slot < 0 then .ok (r.epRet, 1)
  else
    match m.getBufferIndices r.epStart.toNat (r.slot.toNat + 1) with
    | .error e => .error e
    | .ok indices => .ok (r.epRet, indices.length)

/-- The loop over the environments that are done, lines 939-983. -/
def cachedStats (m : Mgr O A R) : List (CachedResult R) → Except Buffer.Err (List (R × Nat))
  | [] => .ok []
  | r :: rest =>
    match cachedStat m r with
    | .error e => .error e
    | .ok x =>
      match cachedStats m rest with
      | .error e => .error e
      | .ok xs => .ok (x :: xs)

/-- Lines 895-898 and 911-983: one round of the loop, as far as the buffer and the statistics are concerned. -/
def cachedRound [Zero R] [Add R] (m : Mgr O A R) (round : List (Nat × Collector.Row O A R I)) :
    Except Buffer.Err (Mgr O A R × List (R × Nat)) :=
  match m.cachedAdd (round.map Prod.fst) (round.map fun p => toTrans p.2) with
  | .error e => .error e
  | .ok (m', res) =>
    match cachedStats m' (((round.zip res).filter fun p => p.1.2.out.done).map Prod.snd) with
    | .error e => .error e
    | .ok stats => .ok (m', stats)

/-- Several rounds: the buffer, and the `returns` and `lens` of the statistics, pair by pair. -/
def cachedRecord [Zero R] [Add R] :
    Mgr O A R → List (List (Nat × Collector.Row O A R I)) → Except Buffer.Err (Mgr O A R × List (R × Nat))
  | m, [] => .ok (m, [])
  | m, round :: rest =>
    match cachedRound m round with
    | .error e => .error e
    | .ok (m', xs) =>
      match cachedRecord m' rest with
      | .error e => .error e
      | .ok (m'', ys) => .ok (m'', xs ++ ys)

/-- One round of the asynchronous collector: lines 1264-1288 and 1302-1307. The lengths are those returned by `add`. -/
def asyncCachedRound [Zero R] [Add R] (m : Mgr O A R) (round : List (Nat × Collector.Row O A R I)) :
    Except Buffer.Err (Mgr O A R × List (R × Nat)) :=
  match m.cachedAdd (round.map Prod.fst) (round.map fun p => toTrans p.2) with
  | .error e => .error e
  | .ok (m', res) => .ok (m', (((round.zip res).filter fun p => p.1.2.out.done).map Prod.snd).map fun r => (r.epRet, r.epLen))

/-- Several rounds of the asynchronous collector. -/
def asyncCachedRecord [Zero R] [Add R] :
    Mgr O A R → List (List (Nat × Collector.Row O A R I)) → Except Buffer.Err (Mgr O A R × List (R × Nat))
  | m, [] => .ok (m, [])
  | m, round :: rest =>
    match asyncCachedRound m round with
    | .error e => .error e
    | .ok (m', xs) =>
      match asyncCachedRecord m' rest with
      | .error e => .error e
      | .ok (m'', ys) => .ok (m'', xs ++ ys)

end Verif.Pipeline
