import Verif.Model.Prio
import Verif.Spec.Manager

/-! Histories of prioritised buffers. -/

namespace Verif.Buffer

open Verif.Spec

variable {O A R : Type} [AddCommMonoid R]

/-- `PHistory p ps old`: `p` results from public operations on a fresh prioritised buffer of positive size;
`ps` are all priorities (`|weight| + eps`) ever passed to `update_weight`; `old` is the largest length the
buffer had when it was reset (0 if it was never reset or only while empty). `update_weight` is called on slots
that hold, or held before a reset, a transition. -/
inductive PHistory : PBuf O A R → List ℝ → Nat → Prop
  | new (size : Nat) (hs : 0 < size) (opts : Opts O) (popts : PrioOpts) (heps : 0 < popts.eps) (beta : ℝ)
      (weightNorm : Bool) {p : PBuf O A R} :
      PBuf.new size opts popts beta weightNorm = some p → PHistory p [] 0
  | add {p p' : PBuf O A R} {ps : List ℝ} {old : Nat} {t : Trans O A R} {r : AddResult R} :
      PHistory p ps old → p.add t = some (p', r) → PHistory p' ps old
  | update {p p' : PBuf O A R} {ps : List ℝ} {old : Nat} {src : Buf O A R} {gs : Ghost O A R} {l : List Nat} :
      PHistory p ps old → History src gs → p.update src = some (p', l) → PHistory p' ps old
  | updateWeight {p p' : PBuf O A R} {ps : List ℝ} {old : Nat} {kv : List (Nat × ℝ)} :
      PHistory p ps old → (∀ q ∈ kv, q.1 < max old p.base.len) → p.updateWeight kv = some p' →
      PHistory p' (ps ++ kv.map fun q => |q.2| + p.popts.eps) old
  | setBeta {p : PBuf O A R} {ps : List ℝ} {old : Nat} (beta : ℝ) :
      PHistory p ps old → PHistory (p.setBeta beta) ps old
  | reset {p : PBuf O A R} {ps : List ℝ} {old : Nat} (keepStatistics : Bool) :
      PHistory p ps old → PHistory (p.reset keepStatistics) ps (max old p.base.len)

/-- The same for a `PrioritizedVectorReplayBuffer` that is never reset; `sep` are the separate buffers of
`Spec/Manager.lean`. -/
inductive PMHistory : PMgr O A R → List (Buf O A R) → List ℝ → Prop
  | new (totalSize bufferNum : Nat) (hs : 0 < totalSize) (opts : Opts O) (popts : PrioOpts)
      (heps : 0 < popts.eps) (beta : ℝ) (weightNorm : Bool) {p : PMgr O A R} :
      PMgr.new totalSize bufferNum opts popts beta weightNorm = some p →
      PMHistory p (List.replicate bufferNum (Buf.new ((totalSize + bufferNum - 1) / bufferNum) opts)) []
  | add {p p' : PMgr O A R} {sep sep' : List (Buf O A R)} {ps : List ℝ} {ids : List Nat}
      {rows : List (Trans O A R)} {res res' : List (AddResult R)} :
      PMHistory p sep ps → p.add ids rows = some (p', res) → routeAll sep (ids.zip rows) = some (sep', res') →
      PMHistory p' sep' ps
  | updateWeight {p p' : PMgr O A R} {sep : List (Buf O A R)} {ps : List ℝ} {kv : List (Nat × ℝ)} :
      PMHistory p sep ps → (∀ q ∈ kv, LiveIn sep q.1) → p.updateWeight kv = some p' →
      PMHistory p' sep (ps ++ kv.map fun q => |q.2| + p.popts.eps)
  | setBeta {p : PMgr O A R} {sep : List (Buf O A R)} {ps : List ℝ} (beta : ℝ) :
      PMHistory p sep ps → PMHistory (p.setBeta beta) sep ps

end Verif.Buffer
