import Verif.Model.Collector
import Verif.Model.Manager

/-!
What the collector does with its vector buffer (`tianshou/data/collector.py`): the batches it adds, lines 853-898, and the statistics of
finished episodes it takes from what `add` returns, lines 911-983 and 192-215. The rounds are those logged by the collector of
`Collector.lean`. Not modelled: hooks, the entry `policy` of the batch, and `info`.
-/

namespace Verif.Pipeline

open Verif.Buffer

variable {O A R I : Type}

/-- One row of `batch_to_add_R`, lines 853-867 and 889-892. -/
def toTrans (row : Collector.Row O A R I) : Trans O A R where
  obs := row.obs
  act := row.act
  rew := row.out.rew
  terminated := row.out.terminated
  truncated := row.out.truncated
  obsNext := some row.out.obs

/-- Lines 944-954 and 979-983 with 192-215 for one environment that is done: the entries appended to `returns` and `lens`. The
length is that of the batch read back from the buffer. -/
def episodeStat (m : Mgr O A R) (r : AddResult R) : Except Buffer.Err (R × Nat) :=
  match m.getBufferIndices r.epStart (r.slot + 1) with
  | .error e => .error e
  | .ok indices => .ok (r.epRet, indices.length)

/-- The loop over the environments that are done, lines 939-983. -/
def episodeStats (m : Mgr O A R) : List (AddResult R) → Except Buffer.Err (List (R × Nat))
  | [] => .ok []
  | r :: rest =>
    match episodeStat m r with
    | .error e => .error e
    | .ok x =>
      match episodeStats m rest with
      | .error e => .error e
      | .ok xs => .ok (x :: xs)

/-- Lines 895-898 and 911-983: one round of the loop, as far as the buffer and the statistics are concerned. -/
def recordRound [Zero R] [Add R] (m : Mgr O A R) (round : List (Nat × Collector.Row O A R I)) :
    Except Buffer.Err (Mgr O A R × List (R × Nat)) :=
  match m.add (round.map Prod.fst) (round.map fun p => toTrans p.2) with
  | .error e => .error e
  | .ok (m', res) =>
    match episodeStats m' (((round.zip res).filter fun p => p.1.2.out.done).map Prod.snd) with
    | .error e => .error e
    | .ok stats => .ok (m', stats)

/-- Several rounds: the buffer, and the `returns` and `lens` of the statistics, pair by pair. -/
def record [Zero R] [Add R] : Mgr O A R → List (List (Nat × Collector.Row O A R I)) → Except Buffer.Err (Mgr O A R × List (R × Nat))
  | m, [] => .ok (m, [])
  | m, round :: rest =>
    match recordRound m round with
    | .error e => .error e
    | .ok (m', xs) =>
      match record m' rest with
      | .error e => .error e
      | .ok (m'', ys) => .ok (m'', xs ++ ys)

end Verif.Pipeline
