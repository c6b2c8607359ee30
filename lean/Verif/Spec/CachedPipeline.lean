import Verif.Spec.Pipeline
import Verif.Spec.Manager

/-! Specification vocabulary: what a `CachedReplayBuffer` keeps of the streams of transitions. -/

namespace Verif.Pipeline

open Verif.Buffer

variable {O A R I : Type}

/-- The finished episodes one after the other, in the order in which they end in `new`, each cut to its last `L` steps and seen through `f`;
`past` is what was collected before. -/
def completed (L : Nat) (f : Collector.Row O A R I → Trans O A R) :
    List (Nat × Collector.Row O A R I) → List (Nat × Collector.Row O A R I) → List (Trans O A R)
  | _, [] => []
  | past, (e, row) :: rest =>
    (if row.out.ended then Spec.lastN L ((openEpisode (Collector.rowsOf e [past]) ++ [row]).map f) else []) ++
      completed L f (past ++ [(e, row)]) rest

/-- Capacity of the main part of a `CachedReplayBuffer`. -/
def mainSize (m : Mgr O A R) : Nat := ((m.subs[0]?).map fun s => s.idx.maxsize).getD 0

end Verif.Pipeline
