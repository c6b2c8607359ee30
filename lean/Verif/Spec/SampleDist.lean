import Mathlib.MeasureTheory.Measure.Lebesgue.Basic
import Mathlib.MeasureTheory.Constructions.Pi

/-! Random draws, as numpy promises them. -/

namespace Verif.Spec

open MeasureTheory

/-- The uniform distribution on `[0, 1)`, of `np.random.rand`. -/
noncomputable def unit : Measure ℝ := volume.restrict (Set.Ico 0 1)

instance : IsProbabilityMeasure unit := ⟨by simp [unit]⟩

/-- `n` independent such numbers. -/
noncomputable def units (n : ℕ) : Measure (Fin n → ℝ) := Measure.pi fun _ => unit

instance {n : ℕ} : IsProbabilityMeasure (units n) := by unfold units; infer_instance

/-- Action `j` is allowed in row `i` (`mask`: one row of flags per observation; without a mask everything is allowed). -/
def Allowed (mask : Option (List (List Bool))) (i j : ℕ) : Prop :=
  ∀ m, mask = some m → ∃ row, m[i]? = some row ∧ row[j]? = some true

/-- On a probability space, `U k` are random numbers uniform on `[0, 1)`, and `J b k` is a random whole number below
`size b`, uniform whatever the values of `U`. -/
structure Draws {Ω : Type} [MeasurableSpace Ω] (P : Measure Ω) (U : ℕ → Ω → ℝ) (J : ℕ → ℕ → Ω → ℕ) (size : ℕ → ℕ) :
    Prop where
  measU : ∀ k, Measurable (U k)
  measJ : ∀ b k, Measurable (J b k)
  range : ∀ k ω, 0 ≤ U k ω ∧ U k ω < 1
  law : ∀ k, P.map (U k) = unit
  below : ∀ b k ω, 0 < size b → J b k ω < size b
  unif : ∀ b k i, i < size b → ∀ s : Set (ℕ → ℝ), MeasurableSet s →
    P {ω | (fun j => U j ω) ∈ s ∧ J b k ω = i} = P {ω | (fun j => U j ω) ∈ s} / (size b : ENNReal)

end Verif.Spec
