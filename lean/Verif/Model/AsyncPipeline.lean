import Verif.Model.AsyncCollector
import Verif.Model.Pipeline

/-!
What the asynchronous collector does with its vector buffer (`tianshou/data/collector.py`, `AsyncCollector._collect`): the batches it adds, lines
1264-1288, and the statistics of finished episodes, lines 1302-1307 and 1352-1357. The rounds are those logged by the collector of
`AsyncCollector.lean`. Not modelled: the entry `policy` of the batch, and `info`.
-/

namespace Verif.Pipeline

open Verif.Buffer

variable {O A R I : Type}

/-- One round: lines 1264-1288 and 1302-1307. The lengths are those returned by `add`. -/
def asyncRound [Zero R] [Add R] (m : Mgr O A R) (round : List (Nat × Collector.Row O A R I)) :
    Except Buffer.Err (Mgr O A R × List (R × Nat)) :=
  match m.add (round.map Prod.fst) (round.map fun p => toTrans p.2) with
  | .error e => .error e
  | .ok (m', res) => .ok (m', (((round.zip res).filter fun p => p.1.2.out.done).map Prod.snd).map fun r => (r.epRet, r.epLen))

/-- Several rounds: the buffer, and the `returns` and `lens` of the statistics, pair by pair. -/
def asyncRecord [Zero R] [Add R] :
    Mgr O A R → List (List (Nat × Collector.Row O A R I)) → Except Buffer.Err (Mgr O A R × List (R × Nat))
  | m, [] => .ok (m, [])
  | m, round :: rest =>
    match asyncRound m round with
    | .error e => .error e
    | .ok (m', xs) =>
      match asyncRecord m' rest with
      | .error e => .error e
      | .ok (m'', ys) => .ok (m'', xs ++ ys)

end Verif.Pipeline
