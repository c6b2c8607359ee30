import Mathlib.Algebra.Field.Defs
import Mathlib.Algebra.BigOperators.Group.List.Basic
import Mathlib.Order.Defs.LinearOrder

/-!
Model of `tianshou/utils/statistics.py` (`MovAvg`, `RunningMeanStd`) and `SequenceSummaryStats` of `tianshou/data/stats.py`.

Simplifications. Finite floating point numbers are elements of an arbitrary field, without rounding and overflow. The items of
a data stream are families of numbers (arrays of one fixed shape). Square roots are a parameter.
-/

namespace Verif.Stats

/-- A Python or numpy float. `nan true` is the object `np.nan` itself, `nan false` any other NaN. -/
inductive Num (F : Type)
  | fin (x : F)
  | inf
  | ninf
  | nan (theObject : Bool)
deriving DecidableEq, Repr

variable {F : Type}

/-- Line 30 and 47: `number in self.banned`. Python compares by identity or equality, and a NaN equals nothing. -/
def banned : Num F → Bool
  | .fin _ => false
  | .inf => true
  | .ninf => true
  | .nan theObject => theObject

/-- Lines 26-30. -/
structure MovAvg (F : Type) where
  size : Int := 100
  cache : List (Num F) := []

/-- Lines 46-48: the loop over the numbers. -/
def MovAvg.push (m : MovAvg F) : List (Num F) → List (Num F)
  | [] => m.cache
  | x :: xs => if banned x then MovAvg.push m xs else MovAvg.push { m with cache := m.cache ++ [x] } xs

/-- Lines 41-50: `add`. A number or tensor is given here as the list of its entries. -/
def MovAvg.add (m : MovAvg F) (data : List (Num F)) : MovAvg F :=
  let cache := m.push data
  if m.size > 0 ∧ (cache.length : Int) > m.size then { m with cache := cache.drop (cache.length - m.size.toNat) }
  else { m with cache := cache }

/-- The value of a finite number. -/
def Num.finite? : Num F → Option F
  | .fin y => some y
  | _ => none

/-- `np.mean` of a list that contains no infinity: NaN if there is a NaN. -/
def npMean [Field F] (l : List (Num F)) : Num F :=
  match l.mapM Num.finite? with
  | some ys => .fin (ys.sum / (ys.length : F))
  | none => .nan false

/-- Lines 52-56: `get`. -/
def MovAvg.get [Field F] (m : MovAvg F) : Num F := if m.cache.length = 0 then .fin 0 else npMean m.cache

section

variable {ι : Type} [Field F]

/-- Lines 81-91: the attributes of `RunningMeanStd`; the argument `std` is stored as the variance. -/
structure RMS (ι F : Type) where
  mean : ι → F
  var : ι → F
  count : Nat := 0
  clipMax : Option F
  eps : F

/-- Lines 81-91: the constructor; `std` becomes the variance. -/
def RMS.new (mean std : ι → F) (clipMax : Option F) (eps : F) : RMS ι F := ⟨mean, std, 0, clipMax, eps⟩

/-- `np.mean(data, axis=0)`. -/
def batchMean (data : List (ι → F)) (i : ι) : F := (data.map fun x => x i).sum / (data.length : F)

/-- `np.var(data, axis=0)`. -/
def batchVar (data : List (ι → F)) (i : ι) : F :=
  (data.map fun x => (x i - batchMean data i) ^ 2).sum / (data.length : F)

/-- Lines 99-114: `update`. -/
def RMS.update (s : RMS ι F) (data : List (ι → F)) : RMS ι F :=
  let batchCount := data.length
  let total := s.count + batchCount
  let delta := fun i => batchMean data i - s.mean i
  let m2 := fun i => s.var i * (s.count : F) + batchVar data i * (batchCount : F)
    + delta i ^ 2 * (s.count : F) * (batchCount : F) / (total : F)
  { s with
    mean := fun i => s.mean i + delta i * (batchCount : F) / (total : F)
    var := fun i => m2 i / (total : F)
    count := total }

/-- Lines 93-97: `norm`; a `clip_max` of 0 or `None` switches clipping off. -/
def RMS.norm [LinearOrder F] (sqrt : F → F) (s : RMS ι F) (x : ι → F) (i : ι) : F :=
  let y := (x i - s.mean i) / sqrt (s.var i + s.eps)
  match s.clipMax with
  | none => y
  | some c => if c = 0 then y else min (max y (-c)) c

/-- `tianshou/env/venv_wrappers.py` lines 69-121: `VectorEnvNormObs`, as far as its statistics go. -/
structure NormObs (ι F : Type) where
  updateObsRms : Bool
  rms : RMS ι F

/-- `venv_wrappers.py` lines 81-112: `reset` and `step` treat the observations they get from the wrapped environments in the same
way. (`if self.obs_rms` is always true: the class defines neither `__bool__` nor `__len__`.) -/
def NormObs.observe [LinearOrder F] (sqrt : F → F) (w : NormObs ι F) (obs : List (ι → F)) :
    NormObs ι F × List (ι → F) :=
  let rms := if w.updateObsRms then w.rms.update obs else w.rms
  ({ w with rms := rms }, obs.map fun x => rms.norm sqrt x)

/-- `tianshou/data/stats.py` lines 19-44: `SequenceSummaryStats.from_sequence`. -/
structure Summary (F : Type) where
  mean : F
  std : F
  max : F
  min : F

/-- `from_sequence`, lines 28-44. -/
def summarise [LinearOrder F] (sqrt : F → F) (l : List F) : Summary F :=
  match l with
  | [] => ⟨0, 0, 0, 0⟩
  | x :: xs =>
    let m := (x :: xs).sum / ((x :: xs).length : F)
    ⟨m, sqrt (((x :: xs).map fun y => (y - m) ^ 2).sum / ((x :: xs).length : F)), xs.foldl max x, xs.foldl min x⟩

end

end Verif.Stats
