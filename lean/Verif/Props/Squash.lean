import Verif.Model.Squash
import Mathlib.Analysis.SpecialFunctions.Artanh
import Mathlib.Analysis.SpecialFunctions.Trigonometric.DerivHyp
import Mathlib.MeasureTheory.Function.Jacobian
import Mathlib.MeasureTheory.Measure.Haar.OfBasis

/-! Squashed actions and their log-probabilities (C186). -/

namespace Verif.Squash

open MeasureTheory Set

/-- C186. The action of row `i` is the hyperbolic tangent of the drawn action (of the mode in deterministic evaluation), componentwise, and its
log-probability is the corrected log-density of that same action in the distribution of that same row. -/
theorem C186_forward (eps : ℝ) (det train : Bool) (dists : List Dist) (draw : Nat → List ℝ) :
    (forward eps det train dists draw).length = dists.length ∧
    ∀ (i : Nat) d, dists[i]? = some d → ∃ raw : List ℝ, raw = (if det = true ∧ train = false then d.mode else draw i) ∧
      (forward eps det train dists draw)[i]? = some ⟨raw.map Real.tanh, correct eps (d.logProb raw) (raw.map Real.tanh)⟩ := by
  refine ⟨by simp [forward], fun i d hd => ⟨_, rfl, ?_⟩⟩
  simp only [forward, List.getElem?_map, List.getElem?_zipIdx, hd, Option.map_some, zero_add]
  cases det <;> cases train <;> rfl

example : ((forward 0 true false [⟨[0, 0], fun _ => 5⟩, ⟨[0], fun x => x.sum⟩] fun _ => [1]).map Out.act) = [[0, 0], [0]] := by
  simp [forward]

private theorem hasDerivAt_tanh (x : ℝ) : HasDerivAt Real.tanh (1 - Real.tanh x ^ 2) x := by
  have h : HasDerivAt (fun x => Real.sinh x / Real.cosh x) ((Real.cosh x * Real.cosh x - Real.sinh x * Real.sinh x) / Real.cosh x ^ 2) x :=
    (Real.hasDerivAt_sinh x).div (Real.hasDerivAt_cosh x) (Real.cosh_pos x).ne'
  have e : (fun x => Real.sinh x / Real.cosh x) = Real.tanh := by ext x; rw [Real.tanh_eq_sinh_div_cosh]
  rw [e] at h
  convert h using 1
  rw [Real.tanh_eq_sinh_div_cosh]
  have := (Real.cosh_pos x).ne'
  field_simp

/-- C186. The corrected log-probability, with no `eps`, is the log-density of the squashed action: if the action has the density `p` (any positive
one, in any dimension), then the probability that the squashed action is in a set is the integral over the set, within the cube,
of the exponential of the corrected log-probability. -/
theorem C186_density (d : Nat) (p : (Fin d → ℝ) → ℝ) (hp : ∀ x, 0 < p x) (S : Set (Fin d → ℝ)) (hS : MeasurableSet S) :
    ∫⁻ x in {x : Fin d → ℝ | (fun i => Real.tanh (x i)) ∈ S}, ENNReal.ofReal (p x) =
      ∫⁻ y in S ∩ {y | ∀ i, -1 < y i ∧ y i < 1},
        ENNReal.ofReal (Real.exp (correct 0 (Real.log (p fun i => Real.artanh (y i))) (List.ofFn y))) := by
  set T : (Fin d → ℝ) → (Fin d → ℝ) := fun x i => Real.tanh (x i) with hT
  have hderiv : ∀ x, HasFDerivAt T (ContinuousLinearMap.pi fun i =>
      (ContinuousLinearMap.toSpanSingleton ℝ (1 - Real.tanh (x i) ^ 2)).comp (ContinuousLinearMap.proj (R := ℝ) (φ := fun _ : Fin d => ℝ) i)) x := by
    intro x
    rw [hasFDerivAt_pi]
    intro i
    have h1 : HasFDerivAt Real.tanh (ContinuousLinearMap.toSpanSingleton ℝ (1 - Real.tanh (x i) ^ 2)) (x i) := (hasDerivAt_tanh (x i)).hasFDerivAt
    exact h1.comp x (ContinuousLinearMap.proj (R := ℝ) (φ := fun _ : Fin d => ℝ) i).hasFDerivAt
  have hcont : Continuous T := continuous_iff_continuousAt.2 fun x => (hderiv x).continuousAt
  have hmeas : MeasurableSet (T ⁻¹' S) := hcont.measurable hS
  have hinj : Set.InjOn T (T ⁻¹' S) := by
    intro x _ y _ h
    funext i
    exact Real.tanh_injective (congrFun h i)
  have himg : T '' (T ⁻¹' S) = S ∩ {y | ∀ i, -1 < y i ∧ y i < 1} := by
    rw [Set.image_preimage_eq_inter_range]
    congr 1
    ext y
    constructor
    · rintro ⟨x, rfl⟩ i
      exact ⟨Real.neg_one_lt_tanh _, Real.tanh_lt_one _⟩
    · intro h
      exact ⟨fun i => Real.artanh (y i), funext fun i => Real.tanh_artanh (h i)⟩
  have key := lintegral_image_eq_lintegral_abs_det_fderiv_mul volume hmeas (fun x _ => (hderiv x).hasFDerivWithinAt) hinj
    fun y => ENNReal.ofReal (Real.exp (correct 0 (Real.log (p fun i => Real.artanh (y i))) (List.ofFn y)))
  rw [himg] at key
  rw [key]
  apply setLIntegral_congr_fun hmeas
  intro x _
  have hpos : ∀ i, 0 < 1 - Real.tanh (x i) ^ 2 := fun i => by have := Real.tanh_sq_lt_one (x i); linarith
  have hdet : (ContinuousLinearMap.pi fun i =>
      (ContinuousLinearMap.toSpanSingleton ℝ (1 - Real.tanh (x i) ^ 2)).comp (ContinuousLinearMap.proj (R := ℝ) (φ := fun _ : Fin d => ℝ) i)).det =
      ∏ i, (1 - Real.tanh (x i) ^ 2) := by
    rw [ContinuousLinearMap.det_pi]
    simp
  simp only
  rw [hdet, abs_of_pos (Finset.prod_pos fun i _ => hpos i), ← ENNReal.ofReal_mul (Finset.prod_nonneg fun i _ => (hpos i).le)]
  congr 1
  have hsum : ((List.ofFn (T x)).map fun y => Real.log (1 - y ^ 2 + 0)).sum = ∑ i, Real.log (1 - Real.tanh (x i) ^ 2) := by
    rw [List.map_ofFn, List.sum_ofFn]
    simp [hT]
  have harg : (fun i => Real.artanh (T x i)) = x := funext fun i => Real.artanh_tanh (x i)
  rw [harg, correct, hsum, Real.exp_sub, Real.exp_log (hp x), Real.exp_sum]
  have : ∏ i, Real.exp (Real.log (1 - Real.tanh (x i) ^ 2)) = ∏ i, (1 - Real.tanh (x i) ^ 2) :=
    Finset.prod_congr rfl fun i _ => Real.exp_log (hpos i)
  rw [this]
  have := (Finset.prod_pos fun i (_ : i ∈ Finset.univ) => hpos i).ne'
  field_simp

example : ∃ p : (Fin 2 → ℝ) → ℝ, (∀ x, 0 < p x) ∧ p 0 ≠ p 1 :=
  ⟨fun x => Real.exp (-(x 0) ^ 2 - (x 1) ^ 2), fun x => Real.exp_pos _, by
    have : Real.exp (-2) < 1 := by rw [← Real.exp_zero]; exact Real.exp_lt_exp.2 (by norm_num)
    norm_num; exact this.ne'⟩

/-- C186. With `eps` the corrected log-probability is at most the exact one, and less by at most the sum of `eps / (1 - y²)`. -/
theorem C186_eps (eps : ℝ) (he : 0 ≤ eps) (logp : ℝ) (ys : List ℝ) (hy : ∀ y ∈ ys, -1 < y ∧ y < 1) :
    correct 0 logp ys - (ys.map fun y => eps / (1 - y ^ 2)).sum ≤ correct eps logp ys ∧ correct eps logp ys ≤ correct 0 logp ys := by
  unfold correct
  induction ys with
  | nil => simp
  | cons y ys ih =>
    obtain ⟨h1, h2⟩ := ih fun z hz => hy z (by simp [hz])
    obtain ⟨a, b⟩ := hy y (by simp)
    have hpos : 0 < 1 - y ^ 2 := by nlinarith
    have hle : Real.log (1 - y ^ 2 + 0) ≤ Real.log (1 - y ^ 2 + eps) := Real.log_le_log (by linarith) (by linarith)
    have hge : Real.log (1 - y ^ 2 + eps) - Real.log (1 - y ^ 2 + 0) ≤ eps / (1 - y ^ 2) := by
      rw [add_zero, ← Real.log_div (by linarith) hpos.ne']
      have := Real.log_le_sub_one_of_pos (show 0 < (1 - y ^ 2 + eps) / (1 - y ^ 2) by positivity)
      have e : (1 - y ^ 2 + eps) / (1 - y ^ 2) - 1 = eps / (1 - y ^ 2) := by field_simp; ring
      linarith
    simp only [List.map_cons, List.sum_cons]
    constructor <;> linarith

/-- C186. With a positive `eps` the correction stays within bounds even for components that are -1 or 1 because of rounding. -/
theorem C186_bounded (eps : ℝ) (he : 0 < eps) (logp : ℝ) (ys : List ℝ) (hy : ∀ y ∈ ys, -1 ≤ y ∧ y ≤ 1) :
    logp - ys.length * Real.log (1 + eps) ≤ correct eps logp ys ∧ correct eps logp ys ≤ logp - ys.length * Real.log eps := by
  unfold correct
  induction ys with
  | nil => simp
  | cons y ys ih =>
    obtain ⟨h1, h2⟩ := ih fun z hz => hy z (by simp [hz])
    obtain ⟨a, b⟩ := hy y (by simp)
    have hpos : 0 ≤ 1 - y ^ 2 := by nlinarith
    have hlo : Real.log eps ≤ Real.log (1 - y ^ 2 + eps) := Real.log_le_log he (by linarith)
    have hhi : Real.log (1 - y ^ 2 + eps) ≤ Real.log (1 + eps) := Real.log_le_log (by linarith) (by nlinarith)
    simp only [List.map_cons, List.sum_cons, List.length_cons, Nat.cast_add, Nat.cast_one]
    constructor <;> linarith

example : correct 1 0 [0, 1] = -Real.log 2 := by norm_num [correct]

end Verif.Squash
