import Verif.Model.Vae
import Verif.Props.NetOut
import Verif.Props.QLearning
import Mathlib.Probability.Distributions.Gaussian.Real
import Mathlib.Probability.Independence.Integration
import Mathlib.MeasureTheory.Integral.Pi
import Mathlib.Analysis.SpecialFunctions.Trigonometric.DerivHyp

/-! C251: what the loss of the autoencoder in BCQ minimises. -/

namespace Verif.NetOut

open MeasureTheory ProbabilityTheory
open scoped NNReal ENNReal

/-! ### Specification -/

/-- The latent variable: independent standard normal numbers. -/
noncomputable def latentLaw (L : Nat) : Measure (Fin L → ℝ) := Measure.pi fun _ => gaussianReal 0 1

/-- The probability density of the action `a` in the state `s`, given the latent vector `z`: each entry of the action is normal
around that of the decoded action, with variance `var`. -/
noncomputable def likelihood (v : Vae) {A L : Nat} (var : ℝ≥0) (s : List ℝ) (a : Fin A → ℝ) (z : Fin L → ℝ) : ℝ :=
  ∏ j : Fin A, gaussianPDFReal ((v.decode s (some (List.ofFn z)) []).getD j 0) var (a j)

/-- The probability density of the action `a` in the state `s`, for a latent vector drawn from its law. -/
noncomputable def evidence (v : Vae) {A : Nat} (L : Nat) (var : ℝ≥0) (s : List ℝ) (a : Fin A → ℝ) : ℝ :=
  ∫ z, likelihood v var s a z ∂latentLaw L

/-- Mean of the latent vector that the encoder gives for a state and an action. -/
noncomputable def encMean (v : Vae) {A : Nat} (s : List ℝ) (a : Fin A → ℝ) (i : Nat) : ℝ :=
  (v.mean (v.encoder (s ++ List.ofFn a))).getD i 0

/-- Its variance: the logarithm of the standard deviation is kept between -4 and 15. -/
noncomputable def encVar (v : Vae) {A : Nat} (s : List ℝ) (a : Fin A → ℝ) (i : Nat) : ℝ≥0 :=
  Real.toNNReal (Real.exp (max (-4) (min 15 ((v.logStd (v.encoder (s ++ List.ofFn a))).getD i 0))) ^ 2)

/-- The Kullback-Leibler divergence of the encoder's law of the latent vector from its law given the action, which has the density
`prior(z) likelihood(z) / evidence` (Bayes). -/
noncomputable def gap (v : Vae) {A : Nat} (L : Nat) (var : ℝ≥0) (s : List ℝ) (a : Fin A → ℝ) : ℝ :=
  ∫ z : Fin L → ℝ, Real.log ((∏ i : Fin L, gaussianPDFReal (encMean v s a i) (encVar v s a i) (z i)) /
    ((∏ i, gaussianPDFReal 0 1 (z i)) * likelihood v var s a z / evidence v L var s a))
    ∂Measure.pi fun i : Fin L => gaussianReal (encMean v s a i) (encVar v s a i)

/-- The sizes of the networks of a `VAE` with latent vectors of length `L` for actions of length `A`; the decoder is a measurable
function of the latent vector. -/
structure Vae.Fits (v : Vae) (A L : Nat) : Prop where
  mean : ∀ x, (v.mean x).length = L
  logStd : ∀ x, (v.logStd x).length = L
  decoder : ∀ x, (v.decoder x).length = A
  measurable : ∀ (s : List ℝ) (j : Nat), Measurable fun z : Fin L → ℝ => (v.decoder (s ++ List.ofFn z)).getD j 0

/-! ### Lemmas -/

theorem gaussian_sq (m : ℝ) (v : ℝ≥0) : ∫ x, x ^ 2 ∂gaussianReal m v = v + m ^ 2 := by
  have h1 := variance_id_gaussianReal (μ := m) (v := v)
  rw [variance_eq_sub (memLp_id_gaussianReal 2)] at h1
  simp only [Pi.pow_apply, id_eq, integral_id_gaussianReal] at h1
  linarith

theorem gaussian_int (m : ℝ) (v : ℝ≥0) : Integrable (fun x : ℝ => x) (gaussianReal m v) :=
  (memLp_id_gaussianReal (μ := m) (v := v) 1).integrable le_rfl

theorem gaussian_int_sq (m : ℝ) (v : ℝ≥0) : Integrable (fun x : ℝ => x ^ 2) (gaussianReal m v) :=
  (memLp_id_gaussianReal (μ := m) (v := v) 2).integrable_sq

theorem log_pdf (m : ℝ) (v : ℝ≥0) (hv : v ≠ 0) (x : ℝ) :
    Real.log (gaussianPDFReal m v x) = -(Real.log (2 * Real.pi * v) / 2) - (x - m) ^ 2 / (2 * v) := by
  have hv' : (0 : ℝ) < v := by positivity
  have h : 0 < 2 * Real.pi * v := by positivity
  rw [gaussianPDFReal, Real.log_mul (by positivity) (Real.exp_ne_zero _), Real.log_exp, Real.log_inv, Real.log_sqrt h.le]
  ring

/-- The density of the standard normal law relative to another normal law. -/
noncomputable def ratio (m : ℝ) (v : ℝ≥0) (x : ℝ) : ℝ := gaussianPDFReal 0 1 x / gaussianPDFReal m v x

theorem ratio_pos (m : ℝ) (v : ℝ≥0) (hv : v ≠ 0) (x : ℝ) : 0 < ratio m v x :=
  div_pos (gaussianPDFReal_pos _ _ _ one_ne_zero) (gaussianPDFReal_pos _ _ _ hv)

theorem ratio_meas (m : ℝ) (v : ℝ≥0) : Measurable (ratio m v) :=
  (measurable_gaussianPDFReal _ _).div (measurable_gaussianPDFReal _ _)

theorem log_ratio (m σ : ℝ) (hσ : 0 < σ) (v : ℝ≥0) (hv : (v : ℝ) = σ ^ 2) (x : ℝ) :
    Real.log (ratio m v x) = Real.log σ - x ^ 2 / 2 + (x - m) ^ 2 / (2 * σ ^ 2) := by
  have hv0 : v ≠ 0 := by
    rintro rfl; exact (pow_pos hσ 2).ne hv
  rw [ratio, Real.log_div (gaussianPDFReal_pos _ _ _ one_ne_zero).ne' (gaussianPDFReal_pos _ _ _ hv0).ne',
    log_pdf _ _ one_ne_zero, log_pdf _ _ hv0, hv, Real.log_mul (x := 2 * Real.pi) (y := σ ^ 2) (by positivity) (by positivity),
    Real.log_pow]
  simp
  ring

theorem log_ratio_int (m σ : ℝ) (hσ : 0 < σ) (v : ℝ≥0) (hv : (v : ℝ) = σ ^ 2) :
    Integrable (fun x => Real.log (ratio m v x)) (gaussianReal m v) := by
  simp only [log_ratio m σ hσ v hv]
  have h2 := gaussian_int_sq m v
  have h1 := gaussian_int m v
  have : (fun x : ℝ => Real.log σ - x ^ 2 / 2 + (x - m) ^ 2 / (2 * σ ^ 2)) =
      fun x => (-(1 / 2) + 1 / (2 * σ ^ 2)) * x ^ 2 + (-m / σ ^ 2) * x + (Real.log σ + m ^ 2 / (2 * σ ^ 2)) := by
    funext x; field_simp; ring
  rw [this]
  exact ((h2.const_mul _).add (h1.const_mul _)).add (integrable_const _)

theorem log_ratio_mean (m σ : ℝ) (hσ : 0 < σ) (v : ℝ≥0) (hv : (v : ℝ) = σ ^ 2) :
    ∫ x, Real.log (ratio m v x) ∂gaussianReal m v = Real.log σ - (σ ^ 2 + m ^ 2 - 1) / 2 := by
  simp only [log_ratio m σ hσ v hv]
  have h2 := gaussian_int_sq m v
  have h1 := gaussian_int m v
  have : (fun x : ℝ => Real.log σ - x ^ 2 / 2 + (x - m) ^ 2 / (2 * σ ^ 2)) =
      fun x => (-(1 / 2) + 1 / (2 * σ ^ 2)) * x ^ 2 + (-m / σ ^ 2) * x + (Real.log σ + m ^ 2 / (2 * σ ^ 2)) := by
    funext x; field_simp; ring
  have h3 : Integrable (fun x : ℝ => (-(1 / 2) + 1 / (2 * σ ^ 2)) * x ^ 2 + (-m / σ ^ 2) * x) (gaussianReal m v) :=
    (h2.const_mul _).add (h1.const_mul _)
  rw [this, integral_add h3 (integrable_const _), integral_add (h2.const_mul _) (h1.const_mul _), integral_const_mul, integral_const_mul, gaussian_sq,
    integral_id_gaussianReal, hv]
  simp
  field_simp
  ring

theorem gaussian_ratio (m : ℝ) (v : ℝ≥0) (hv : v ≠ 0) :
    (gaussianReal m v).withDensity (fun x => ENNReal.ofReal (ratio m v x)) = gaussianReal 0 1 := by
  rw [gaussianReal_of_var_ne_zero _ hv, gaussianReal_of_var_ne_zero _ one_ne_zero,
    ← withDensity_mul _ (measurable_gaussianPDF _ _) (ratio_meas m v).ennreal_ofReal]
  congr 1
  funext x
  rw [Pi.mul_apply, gaussianPDF, gaussianPDF, ← ENNReal.ofReal_mul (gaussianPDFReal_nonneg _ _ _), ratio]
  congr 1
  rw [mul_div_cancel₀ _ (gaussianPDFReal_pos _ _ _ hv).ne']

/-- Independent normal numbers reweighted to independent standard normal ones. -/
theorem latent_ratio {L : Nat} (m : Fin L → ℝ) (v : Fin L → ℝ≥0) (hv : ∀ i, v i ≠ 0) :
    (Measure.pi fun i => gaussianReal (m i) (v i)).withDensity (fun z => ENNReal.ofReal (∏ i, ratio (m i) (v i) (z i))) =
      latentLaw L := by
  unfold latentLaw
  refine (Measure.pi_eq fun s hs => ?_).symm
  rw [withDensity_apply _ (MeasurableSet.univ_pi hs), ← lintegral_indicator (MeasurableSet.univ_pi hs)]
  have e : ∀ z : Fin L → ℝ, (Set.univ.pi s).indicator (fun z => ENNReal.ofReal (∏ i, ratio (m i) (v i) (z i))) z =
      ∏ i, (s i).indicator (fun x => ENNReal.ofReal (ratio (m i) (v i) x)) (z i) := by
    intro z
    by_cases hz : z ∈ Set.univ.pi s
    · rw [Set.indicator_of_mem hz, ENNReal.ofReal_prod_of_nonneg fun i _ => (ratio_pos _ _ (hv i) _).le]
      exact Finset.prod_congr rfl fun i _ => (Set.indicator_of_mem (hz i trivial) (fun x => ENNReal.ofReal (ratio (m i) (v i) x))).symm
    · rw [Set.indicator_of_notMem hz]
      obtain ⟨i, hi⟩ : ∃ i, z i ∉ s i := by
        by_contra hn; push Not at hn; exact hz fun i _ => hn i
      exact (Finset.prod_eq_zero (Finset.mem_univ i) (Set.indicator_of_notMem hi _)).symm
  simp only [e]
  have hm : ∀ i, Measurable ((s i).indicator fun x => ENNReal.ofReal (ratio (m i) (v i) x)) := fun i =>
    (ratio_meas _ _).ennreal_ofReal.indicator (hs i)
  rw [lintegral_prod_eq_prod_lintegral_of_indepFun Finset.univ
    (fun i (z : Fin L → ℝ) => (s i).indicator (fun x => ENNReal.ofReal (ratio (m i) (v i) x)) (z i))
    (iIndepFun_pi (X := fun i => (s i).indicator fun x => ENNReal.ofReal (ratio (m i) (v i) x)) fun i => (hm i).aemeasurable)
    fun i => (hm i).comp (measurable_pi_apply i)]
  refine Finset.prod_congr rfl fun i _ => ?_
  have := (measurePreserving_eval (fun i => gaussianReal (m i) (v i)) i).lintegral_comp (hm i)
  rw [show (∫⁻ z, (s i).indicator (fun x => ENNReal.ofReal (ratio (m i) (v i) x)) (z i)
    ∂Measure.pi fun i => gaussianReal (m i) (v i)) = _ from this, lintegral_indicator (hs i), ← withDensity_apply _ (hs i),
    gaussian_ratio _ _ (hv i)]

/-- Shifted and scaled standard normal numbers. -/
theorem latent_affine {L : Nat} (m σ : Fin L → ℝ) (v : Fin L → ℝ≥0) (hv : ∀ i, (v i : ℝ) = σ i ^ 2) :
    (latentLaw L).map (fun e i => m i + σ i * e i) = Measure.pi fun i => gaussianReal (m i) (v i) := by
  have h : ∀ i, (gaussianReal 0 1).map (fun x => m i + σ i * x) = gaussianReal (m i) (v i) := by
    intro i
    have h1 := gaussianReal_map_const_mul (μ := 0) (v := 1) (σ i)
    have h2 := gaussianReal_map_const_add (μ := σ i * 0) (v := .mk (σ i ^ 2) (sq_nonneg _) * 1) (m i)
    rw [← h1, Measure.map_map (measurable_const_add _) (measurable_const_mul _)] at h2
    rw [show (fun x => m i + σ i * x) = ((fun x => m i + x) ∘ fun x => σ i * x) from rfl, h2]
    congr 1
    · ring
    · apply NNReal.coe_injective; rw [hv i]; simp
  unfold latentLaw
  have : ∀ i, SigmaFinite ((gaussianReal 0 1).map (fun x => m i + σ i * x)) := fun i => by rw [h i]; infer_instance
  rw [Measure.pi_map_pi (f := fun i x => m i + σ i * x) fun i => by fun_prop]
  simp only [h]

/-- Gibbs' inequality for a density. -/
theorem log_mean_ge {Ω : Type} [MeasurableSpace Ω] (P : Measure Ω) [IsProbabilityMeasure P] (f : Ω → ℝ) (hf : ∀ x, 0 < f x)
    (hi : Integrable f P) (hl : Integrable (fun x => Real.log (f x)) P) :
    ∫ x, Real.log (f x) ∂P ≤ Real.log (∫ x, f x ∂P) := by
  have hc : 0 < ∫ x, f x ∂P := by
    rw [integral_pos_iff_support_of_nonneg (fun x => (hf x).le) hi]
    rw [show Function.support f = Set.univ from Set.eq_univ_of_forall fun x => (hf x).ne']
    simp
  have h : ∫ x, Real.log (f x) ∂P ≤ ∫ x, (Real.log (∫ x, f x ∂P) + (f x / (∫ x, f x ∂P) - 1)) ∂P := by
    refine integral_mono hl ((integrable_const _).add ((hi.div_const _).sub (integrable_const _))) fun x => ?_
    have := Real.log_le_sub_one_of_pos (div_pos (hf x) hc)
    rw [Real.log_div (hf x).ne' hc.ne'] at this
    show Real.log (f x) ≤ Real.log (∫ x, f x ∂P) + (f x / (∫ x, f x ∂P) - 1)
    linarith
  have h3 : Integrable (fun x => f x / (∫ x, f x ∂P) - 1) P := (hi.div_const _).sub (integrable_const _)
  rw [integral_add (integrable_const _) h3, integral_sub (hi.div_const _) (integrable_const _), integral_div, div_self hc.ne'] at h
  simpa using h

/-- The evidence bound for one row. -/
theorem bound_row {L A : Nat} (m σ : Fin L → ℝ) (hσ : ∀ i, 0 < σ i) (r : (Fin L → ℝ) → Fin A → ℝ)
    (hr : ∀ j, Measurable fun z => r z j) (M : ℝ) (hM : ∀ z j, |r z j| ≤ M) (a : Fin A → ℝ) (w : ℝ≥0) (hw : w ≠ 0)
    (v : Fin L → ℝ≥0) (hv : ∀ i, (v i : ℝ) = σ i ^ 2) :
    Integrable (fun e => ∑ j, (a j - r (fun i => m i + σ i * e i) j) ^ 2) (latentLaw L) ∧
    (let c := ∫ z, ∏ j, gaussianPDFReal (r z j) w (a j) ∂latentLaw L
     let gap := ∫ z : Fin L → ℝ, Real.log ((∏ i, gaussianPDFReal (m i) (v i) (z i)) /
      ((∏ i, gaussianPDFReal 0 1 (z i)) * (∏ j, gaussianPDFReal (r z j) w (a j)) / c)) ∂Measure.pi fun i => gaussianReal (m i) (v i)
     (∫ e, ∑ j, (a j - r (fun i => m i + σ i * e i) j) ^ 2 ∂latentLaw L) / (2 * w) + A / 2 * Real.log (2 * Real.pi * w) +
        ∑ i, (-Real.log (σ i) + (σ i ^ 2 + m i ^ 2 - 1) / 2) = -Real.log c + gap ∧ 0 ≤ gap) := by
  have hv0 : ∀ i, v i ≠ 0 := fun i h => by
    have := hv i; rw [h] at this; exact (pow_pos (hσ i) 2).ne this
  let Q : Measure (Fin L → ℝ) := Measure.pi fun i => gaussianReal (m i) (v i)
  have hw' : (0 : ℝ) < w := by positivity
  have hprob : IsProbabilityMeasure (latentLaw L) := by unfold latentLaw; infer_instance
  -- the squares
  have hsqm : Measurable fun z => ∑ j, (a j - r z j) ^ 2 :=
    Finset.measurable_sum _ fun j _ => ((hr j).const_sub _).pow_const _
  have hsqb : ∀ z, |∑ j, (a j - r z j) ^ 2| ≤ ∑ j, (|a j| + M) ^ 2 := by
    intro z
    rw [abs_of_nonneg (Finset.sum_nonneg fun j _ => sq_nonneg _)]
    refine Finset.sum_le_sum fun j _ => ?_
    rw [← sq_abs]
    exact pow_le_pow_left₀ (abs_nonneg _) ((abs_sub _ _).trans (by have := hM z j; linarith)) 2
  have hsq : ∀ P : Measure (Fin L → ℝ), IsProbabilityMeasure P → Integrable (fun z => ∑ j, (a j - r z j) ^ 2) P := fun P _ =>
    Integrable.of_bound hsqm.aestronglyMeasurable _ (Filter.Eventually.of_forall hsqb)
  have haff : Measurable fun (e : Fin L → ℝ) i => m i + σ i * e i := by fun_prop
  have hmap : (latentLaw L).map (fun e i => m i + σ i * e i) = Q := latent_affine m σ v hv
  refine ⟨?_, ?_⟩
  · have := hsq Q inferInstance
    rw [← hmap] at this
    exact this.comp_measurable haff
  have hexp : ∫ e, ∑ j, (a j - r (fun i => m i + σ i * e i) j) ^ 2 ∂latentLaw L = ∫ z, ∑ j, (a j - r z j) ^ 2 ∂Q := by
    rw [← hmap, integral_map haff.aemeasurable hsqm.aestronglyMeasurable]
  -- the density
  let g : (Fin L → ℝ) → ℝ := fun z => ∏ j, gaussianPDFReal (r z j) w (a j)
  have hg0 : ∀ z, 0 < g z := fun z => Finset.prod_pos fun j _ => gaussianPDFReal_pos _ _ _ hw
  have hgl : ∀ z, Real.log (g z) = -(A / 2 * Real.log (2 * Real.pi * w)) - (∑ j, (a j - r z j) ^ 2) / (2 * w) := by
    intro z
    show Real.log (∏ j, gaussianPDFReal (r z j) w (a j)) = _
    rw [Real.log_prod (fun j _ => (gaussianPDFReal_pos _ _ _ hw).ne')]
    simp only [log_pdf _ _ hw, Finset.sum_sub_distrib, Finset.sum_div]
    simp
    ring
  have hgm : Measurable g := by
    refine Finset.measurable_prod _ fun j _ => ?_
    unfold gaussianPDFReal
    have := hr j
    fun_prop
  let f : (Fin L → ℝ) → ℝ := fun z => (∏ i, ratio (m i) (v i) (z i)) * g z
  have hρ0 : ∀ z : Fin L → ℝ, 0 < ∏ i, ratio (m i) (v i) (z i) := fun z =>
    Finset.prod_pos fun i _ => ratio_pos _ _ (hv0 i) _
  have hρm : Measurable fun z : Fin L → ℝ => ∏ i, ratio (m i) (v i) (z i) :=
    Finset.measurable_prod _ fun i _ => (ratio_meas _ _).comp (measurable_pi_apply i)
  have hf0 : ∀ z, 0 < f z := fun z => mul_pos (hρ0 z) (hg0 z)
  have hgi : Integrable g (latentLaw L) := by
    refine Integrable.of_bound hgm.aestronglyMeasurable (Real.exp (-(A / 2 * Real.log (2 * Real.pi * w)))) ?_
    refine Filter.Eventually.of_forall fun z => ?_
    rw [Real.norm_of_nonneg (hg0 z).le, ← Real.log_le_iff_le_exp (hg0 z), hgl]
    have : 0 ≤ (∑ j, (a j - r z j) ^ 2) / (2 * w) :=
      div_nonneg (Finset.sum_nonneg fun j _ => sq_nonneg _) (by positivity)
    linarith
  have hd := latent_ratio m v hv0
  have hfi : Integrable f Q := by
    rw [← hd, integrable_withDensity_iff hρm.ennreal_ofReal (Filter.Eventually.of_forall fun z => ENNReal.ofReal_lt_top)] at hgi
    refine hgi.congr (Filter.Eventually.of_forall fun z => ?_)
    show g z * (ENNReal.ofReal _).toReal = _ * g z
    rw [ENNReal.toReal_ofReal (hρ0 z).le, mul_comm]
  have hfe : ∫ z, f z ∂Q = ∫ z, g z ∂latentLaw L := by
    rw [← hd, integral_withDensity_eq_integral_toReal_smul hρm.ennreal_ofReal
      (Filter.Eventually.of_forall fun z => ENNReal.ofReal_lt_top)]
    refine integral_congr_ae (Filter.Eventually.of_forall fun z => ?_)
    show _ * g z = (ENNReal.ofReal _).toReal • g z
    rw [ENNReal.toReal_ofReal (hρ0 z).le, smul_eq_mul]
  have hfl : ∀ z, Real.log (f z) = (∑ i, Real.log (ratio (m i) (v i) (z i))) +
      (-(A / 2 * Real.log (2 * Real.pi * w)) - (∑ j, (a j - r z j) ^ 2) / (2 * w)) := by
    intro z
    show Real.log (_ * _) = _
    rw [Real.log_mul (hρ0 z).ne' (hg0 z).ne', hgl, Real.log_prod (fun i _ => (ratio_pos _ _ (hv0 i) _).ne')]
  have hli : ∀ i, Integrable (fun z : Fin L → ℝ => Real.log (ratio (m i) (v i) (z i))) Q := fun i =>
    integrable_comp_eval (μ := fun i => gaussianReal (m i) (v i)) (log_ratio_int (m i) (σ i) (hσ i) (v i) (hv i))
  have hle : ∀ i, ∫ z : Fin L → ℝ, Real.log (ratio (m i) (v i) (z i)) ∂Q = Real.log (σ i) - (σ i ^ 2 + m i ^ 2 - 1) / 2 := by
    intro i
    rw [← log_ratio_mean (m i) (σ i) (hσ i) (v i) (hv i)]
    exact integral_comp_eval (μ := fun i => gaussianReal (m i) (v i)) (i := i)
      (f := fun x => Real.log (ratio (m i) (v i) x)) (ratio_meas _ _).log.aestronglyMeasurable
  have hs1 : Integrable (fun z : Fin L → ℝ => ∑ i, Real.log (ratio (m i) (v i) (z i))) Q :=
    integrable_finsetSum _ fun i _ => hli i
  have hs2 : Integrable (fun z => -(A / 2 * Real.log (2 * Real.pi * w)) - (∑ j, (a j - r z j) ^ 2) / (2 * w)) Q :=
    (integrable_const _).sub ((hsq Q inferInstance).div_const _)
  have hfli : Integrable (fun z => Real.log (f z)) Q := by simp only [hfl]; exact hs1.add hs2
  have key := log_mean_ge Q f hf0 hfi hfli
  have hc : 0 < ∫ z, g z ∂latentLaw L := by
    rw [integral_pos_iff_support_of_nonneg (fun x => (hg0 x).le) hgi]
    rw [show Function.support g = Set.univ from Set.eq_univ_of_forall fun x => (hg0 x).ne']
    simp
  intro c gap
  have hcc : c = ∫ z, g z ∂latentLaw L := rfl
  have hgap : gap = Real.log c - ∫ z, Real.log (f z) ∂Q := by
    have e : ∀ z : Fin L → ℝ, Real.log ((∏ i, gaussianPDFReal (m i) (v i) (z i)) /
      ((∏ i, gaussianPDFReal 0 1 (z i)) * (∏ j, gaussianPDFReal (r z j) w (a j)) / c)) = Real.log c - Real.log (f z) := by
      intro z
      rw [← Real.log_div (by rw [hcc]; exact hc.ne') (hf0 z).ne']
      congr 1
      have h1 : (∏ i, gaussianPDFReal (m i) (v i) (z i)) ≠ 0 :=
        (Finset.prod_pos fun i _ => gaussianPDFReal_pos _ _ _ (hv0 i)).ne'
      have h2 : (∏ i : Fin L, gaussianPDFReal 0 1 (z i)) ≠ 0 :=
        (Finset.prod_pos fun i _ => gaussianPDFReal_pos _ _ _ one_ne_zero).ne'
      have h3 : (∏ j, gaussianPDFReal (r z j) w (a j)) ≠ 0 := (hg0 z).ne'
      show _ = c / ((∏ i, ratio (m i) (v i) (z i)) * ∏ j, gaussianPDFReal (r z j) w (a j))
      unfold ratio
      rw [Finset.prod_div_distrib]
      field_simp
    show (∫ z : Fin L → ℝ, Real.log ((∏ i, gaussianPDFReal (m i) (v i) (z i)) /
      ((∏ i, gaussianPDFReal 0 1 (z i)) * (∏ j, gaussianPDFReal (r z j) w (a j)) / c)) ∂Q) = _
    simp only [e]
    rw [integral_sub (integrable_const _) hfli]
    simp
  refine ⟨?_, by rw [hgap, hcc, ← hfe]; linarith⟩
  rw [hgap]
  simp only [hfl]
  rw [integral_add hs1 hs2, integral_finsetSum _ (fun i _ => hli i), integral_sub (integrable_const _)
    ((hsq Q inferInstance).div_const _), integral_div, ← hexp]
  simp only [hle, Finset.sum_sub_distrib, integral_const, probReal_univ, one_smul]
  simp only [Finset.sum_add_distrib, Finset.sum_neg_distrib]
  ring

theorem mean2_ofFn {B A : Nat} (f : Fin B → Fin A → ℝ) :
    Offline.mean2 (List.ofFn fun b => List.ofFn (f b)) = (∑ b, ∑ j, f b j) / (B * A) := by
  unfold Offline.mean2 Ppo.mean
  rw [List.sum_flatten, List.length_flatten, List.map_ofFn, List.map_ofFn, List.sum_ofFn, List.sum_ofFn]
  simp [List.sum_ofFn]

theorem list_eq_ofFn {n : Nat} (l : List ℝ) (h : l.length = n) : l = List.ofFn fun i : Fin n => l.getD i 0 := by
  subst h
  apply List.ext_getElem
  · simp
  · intro i h1 h2; simp [h1]

theorem encVar_eq (v : Vae) {A : Nat} (s : List ℝ) (a : Fin A → ℝ) (i : Nat) :
    (encVar v s a i : ℝ) =
      Real.exp (max (-4) (min 15 ((v.logStd (v.encoder (s ++ List.ofFn a))).getD i 0))) ^ 2 :=
  Real.coe_toNNReal _ (by positivity)

theorem tanh_meas : Measurable Real.tanh := by
  rw [show Real.tanh = fun x => Real.sinh x / Real.cosh x from funext Real.tanh_eq_sinh_div_cosh]
  exact Real.measurable_sinh.div Real.measurable_cosh

theorem decode_getD (v : Vae) {A L : Nat} (hf : v.Fits A L) (s : List ℝ) (z : Fin L → ℝ) (j : Fin A) :
    (v.decode s (some (List.ofFn z)) []).getD j 0 = v.maxAction * Real.tanh ((v.decoder (s ++ List.ofFn z)).getD j 0) := by
  have h : (j : Nat) < (v.decoder (s ++ List.ofFn z)).length := by rw [hf.decoder]; exact j.2
  simp [Vae.decode, squash, h]

/-- What the network gives for a row. -/
theorem forward_ofFn (v : Vae) {A L : Nat} (hf : v.Fits A L) (s : List ℝ) (a : Fin A → ℝ) (e : Fin L → ℝ) :
    v.forward s (List.ofFn a) (List.ofFn e) =
      (List.ofFn fun j : Fin A => (v.decode s (some (List.ofFn fun i : Fin L => encMean v s a i + Real.sqrt (encVar v s a i) * e i))
        []).getD j 0,
       List.ofFn fun i : Fin L => encMean v s a i, List.ofFn fun i : Fin L => Real.sqrt (encVar v s a i)) := by
  have hstd : ((v.logStd (v.encoder (s ++ List.ofFn a))).map fun x => Real.exp (clamp (-4) 15 x)) =
      List.ofFn fun i : Fin L => Real.sqrt (encVar v s a i) := by
    conv_lhs => rw [list_eq_ofFn _ (hf.logStd _), List.map_ofFn]
    congr 1
    funext i
    rw [encVar_eq, Real.sqrt_sq (Real.exp_pos _).le]
    show Real.exp (clamp _ _ _) = _
    congr 1
    unfold clamp
    rw [max_comm, max_min_distrib_left, min_comm, max_eq_right (show (-4 : ℝ) ≤ 15 by norm_num)]
  have hmean : v.mean (v.encoder (s ++ List.ofFn a)) = List.ofFn fun i : Fin L => encMean v s a i :=
    list_eq_ofFn _ (hf.mean _)
  unfold Vae.forward
  simp only [hstd]
  rw [hmean, Verif.QLearning.zipWith_ofFn, Verif.QLearning.zipWith_ofFn, ← list_eq_ofFn _ (by simp [Vae.decode, squash, hf.decoder])]

/-! ### C251 -/

/-- C251: the loss is the mean squared error of the reconstructed actions plus half the mean divergence of the latent variables from
the standard normal law. -/
theorem C251_loss (v : Vae) {B A L : Nat} (hf : v.Fits A L) (s : Fin B → List ℝ) (a : Fin B → Fin A → ℝ) (e : Fin B → Fin L → ℝ) :
    v.loss (List.ofFn fun b => (s b, List.ofFn (a b))) (List.ofFn fun b => List.ofFn (e b)) =
      (∑ b, ∑ j : Fin A, (a b j - (v.forward (s b) (List.ofFn (a b)) (List.ofFn (e b))).1.getD j 0) ^ 2) / (B * A) +
      (∑ b, ∑ i : Fin L, ∫ x, Real.log (gaussianPDFReal (encMean v (s b) (a b) i) (encVar v (s b) (a b) i) x /
        gaussianPDFReal 0 1 x) ∂gaussianReal (encMean v (s b) (a b) i) (encVar v (s b) (a b) i)) / (B * L) / 2 := by
  have hkl : ∀ b (i : Fin L), ∫ x, Real.log (gaussianPDFReal (encMean v (s b) (a b) i) (encVar v (s b) (a b) i) x /
        gaussianPDFReal 0 1 x) ∂gaussianReal (encMean v (s b) (a b) i) (encVar v (s b) (a b) i) =
      -Real.log (Real.sqrt (encVar v (s b) (a b) i)) +
        (Real.sqrt (encVar v (s b) (a b) i) ^ 2 + encMean v (s b) (a b) i ^ 2 - 1) / 2 := by
    intro b i
    have hpos : 0 < Real.sqrt (encVar v (s b) (a b) i) := by
      rw [encVar_eq, Real.sqrt_sq (Real.exp_pos _).le]; exact Real.exp_pos _
    have h := log_ratio_mean (encMean v (s b) (a b) i) _ hpos (encVar v (s b) (a b) i) (Real.sq_sqrt (NNReal.coe_nonneg _)).symm
    rw [show (fun x => Real.log (gaussianPDFReal (encMean v (s b) (a b) i) (encVar v (s b) (a b) i) x / gaussianPDFReal 0 1 x)) =
      fun x => -Real.log (ratio (encMean v (s b) (a b) i) (encVar v (s b) (a b) i) x) from
        funext fun x => by rw [← Real.log_inv, ratio, inv_div], integral_neg, h]
    ring
  unfold Vae.loss
  simp only [Verif.QLearning.zipWith_ofFn, List.map_ofFn, Function.comp_def, forward_ofFn v hf, mean2_ofFn, hkl]
  simp

/-- C251, the divergence is never negative, and 0 only for the standard normal law. -/
theorem C251_divergence (m : ℝ) (w : ℝ≥0) (hw : w ≠ 0) :
    0 ≤ ∫ x, Real.log (gaussianPDFReal m w x / gaussianPDFReal 0 1 x) ∂gaussianReal m w ∧
    (∫ x, Real.log (gaussianPDFReal m w x / gaussianPDFReal 0 1 x) ∂gaussianReal m w = 0 ↔ m = 0 ∧ w = 1) := by
  have hw' : (0 : ℝ) < w := by positivity
  have hpos : 0 < Real.sqrt w := Real.sqrt_pos.2 hw'
  have hs := Real.sq_sqrt hw'.le
  have h := log_ratio_mean m _ hpos w hs.symm
  have e : ∫ x, Real.log (gaussianPDFReal m w x / gaussianPDFReal 0 1 x) ∂gaussianReal m w =
      -(Real.log w / 2) + (w + m ^ 2 - 1) / 2 := by
    rw [show (fun x => Real.log (gaussianPDFReal m w x / gaussianPDFReal 0 1 x)) = fun x => -Real.log (ratio m w x) from
        funext fun x => by rw [← Real.log_inv, ratio, inv_div], integral_neg, h, Real.log_sqrt hw'.le, hs]
    ring
  rw [e]
  have hl := Real.log_le_sub_one_of_pos hw'
  refine ⟨by nlinarith [sq_nonneg m], fun h0 => ?_, ?_⟩
  · have h1 : (w : ℝ) = 1 := by
      by_contra hne
      have := Real.log_lt_sub_one_of_pos hw' hne
      nlinarith [sq_nonneg m]
    rw [h1] at h0
    simp at h0
    exact ⟨h0, by exact_mod_cast h1⟩
  · rintro ⟨rfl, rfl⟩; simp

/-- C251: the expected loss is, up to constants, the mean negative logarithm of the probability densities of the actions, plus the
mean divergence of the encoder from the law of the latent vector given the action. -/
theorem C251_identity {Ω : Type} [MeasurableSpace Ω] (P : Measure Ω) [IsProbabilityMeasure P] (v : Vae) {B A L : Nat} (hB : 0 < B)
    (hA : 0 < A) (hL : 0 < L) (hf : v.Fits A L) (s : Fin B → List ℝ) (a : Fin B → Fin A → ℝ) (noise : Fin B → Ω → Fin L → ℝ)
    (hm : ∀ b, Measurable (noise b)) (hn : ∀ b, P.map (noise b) = latentLaw L) (var : ℝ≥0) (hvar : (var : ℝ) = A / (4 * L)) :
    ∫ ω, v.loss (List.ofFn fun b => (s b, List.ofFn (a b))) (List.ofFn fun b => List.ofFn (noise b ω)) ∂P =
      ((∑ b, (-Real.log (evidence v L var (s b) (a b)) + gap v L var (s b) (a b))) / B - A / 2 * Real.log (2 * Real.pi * var)) /
        (2 * L) ∧
    ∀ b, 0 ≤ gap v L var (s b) (a b) := by
  have hvar0 : var ≠ 0 := by
    rintro rfl
    have : (0 : ℝ) < A / (4 * L) := by positivity
    rw [← hvar] at this; exact lt_irrefl _ this
  have hrow := fun b => bound_row (fun i : Fin L => encMean v (s b) (a b) i) (fun i => Real.sqrt (encVar v (s b) (a b) i))
    (fun i => by rw [encVar_eq, Real.sqrt_sq (Real.exp_pos _).le]; exact Real.exp_pos _)
    (fun z (j : Fin A) => (v.decode (s b) (some (List.ofFn z)) []).getD j 0)
    (fun j => by
      simp only [decode_getD v hf]
      exact (tanh_meas.comp (hf.measurable (s b) j)).const_mul _) |v.maxAction|
    (fun z j => by
      simp only [decode_getD v hf, abs_mul]
      exact mul_le_of_le_one_right (abs_nonneg _) (tanh_lt _).le) (a b) var hvar0 (fun i => encVar v (s b) (a b) i)
    (fun i => (Real.sq_sqrt (NNReal.coe_nonneg _)).symm)
  refine ⟨?_, fun b => (hrow b).2.2⟩
  have hi : ∀ b, Integrable (fun ω => ∑ j : Fin A, (a b j - (v.decode (s b) (some (List.ofFn fun i : Fin L =>
      encMean v (s b) (a b) i + Real.sqrt (encVar v (s b) (a b) i) * noise b ω i)) []).getD j 0) ^ 2) P := by
    intro b
    have := (hrow b).1
    rw [← hn b] at this
    exact this.comp_measurable (hm b)
  have he : ∀ b, ∫ ω, ∑ j : Fin A, (a b j - (v.decode (s b) (some (List.ofFn fun i : Fin L =>
      encMean v (s b) (a b) i + Real.sqrt (encVar v (s b) (a b) i) * noise b ω i)) []).getD j 0) ^ 2 ∂P =
      2 * var * (-Real.log (evidence v L var (s b) (a b)) + gap v L var (s b) (a b) - A / 2 * Real.log (2 * Real.pi * var) -
        ∑ i : Fin L, (-Real.log (Real.sqrt (encVar v (s b) (a b) i)) +
          (Real.sqrt (encVar v (s b) (a b) i) ^ 2 + encMean v (s b) (a b) i ^ 2 - 1) / 2)) := by
    intro b
    have h1 := (hrow b).2.1
    have h2 := (hrow b).1
    rw [← hn b] at h2
    have h3 := integral_map (hm b).aemeasurable h2.aestronglyMeasurable
    rw [hn b] at h3
    rw [show (fun ω => ∑ j : Fin A, (a b j - (v.decode (s b) (some (List.ofFn fun i : Fin L =>
      encMean v (s b) (a b) i + Real.sqrt (encVar v (s b) (a b) i) * noise b ω i)) []).getD j 0) ^ 2) = _ from rfl, ← h3]
    have hv0 : (var : ℝ) ≠ 0 := by exact_mod_cast hvar0
    have h4 : ∀ x y z u : ℝ, x / (2 * var) + y + z = u → x = 2 * var * (u - y - z) := by
      intro x y z u h; field_simp at h ⊢; linarith
    exact h4 _ _ _ _ h1
  have hl : ∀ ω, v.loss (List.ofFn fun b => (s b, List.ofFn (a b))) (List.ofFn fun b => List.ofFn (noise b ω)) =
      (∑ b, ∑ j : Fin A, (a b j - (v.decode (s b) (some (List.ofFn fun i : Fin L =>
      encMean v (s b) (a b) i + Real.sqrt (encVar v (s b) (a b) i) * noise b ω i)) []).getD j 0) ^ 2) / (B * A) +
      (∑ b, ∑ i : Fin L, (-Real.log (Real.sqrt (encVar v (s b) (a b) i)) +
        (Real.sqrt (encVar v (s b) (a b) i) ^ 2 + encMean v (s b) (a b) i ^ 2 - 1) / 2)) / (B * L) / 2 := by
    intro ω
    unfold Vae.loss
    simp only [Verif.QLearning.zipWith_ofFn, List.map_ofFn, Function.comp_def, forward_ofFn v hf, mean2_ofFn]
  simp only [hl]
  rw [integral_add ((integrable_finsetSum _ fun b _ => hi b).div_const _) (integrable_const _), integral_div,
    integral_finsetSum _ fun b _ => hi b]
  simp only [he]
  rw [← Finset.mul_sum, Finset.sum_sub_distrib, Finset.sum_sub_distrib]
  simp only [integral_const, probReal_univ, one_smul, Finset.sum_const, Finset.card_univ, Fintype.card_fin, nsmul_eq_mul]
  generalize (∑ b, (-Real.log (evidence v L var (s b) (a b)) + gap v L var (s b) (a b))) = X
  generalize (∑ b, ∑ i : Fin L, (-Real.log (Real.sqrt (encVar v (s b) (a b) i)) +
        (Real.sqrt (encVar v (s b) (a b) i) ^ 2 + encMean v (s b) (a b) i ^ 2 - 1) / 2)) = Y
  generalize Real.log (2 * Real.pi * var) = Z
  rw [hvar]
  have : (B : ℝ) ≠ 0 := by positivity
  have : (A : ℝ) ≠ 0 := by positivity
  have : (L : ℝ) ≠ 0 := by positivity
  field_simp
  ring

/-- C251, the bound: minimising the loss pushes up a lower bound of the probability densities of the actions in the batch. -/
theorem C251_bound {Ω : Type} [MeasurableSpace Ω] (P : Measure Ω) [IsProbabilityMeasure P] (v : Vae) {B A L : Nat} (hB : 0 < B)
    (hA : 0 < A) (hL : 0 < L) (hf : v.Fits A L) (s : Fin B → List ℝ) (a : Fin B → Fin A → ℝ) (noise : Fin B → Ω → Fin L → ℝ)
    (hm : ∀ b, Measurable (noise b)) (hn : ∀ b, P.map (noise b) = latentLaw L) (var : ℝ≥0) (hvar : (var : ℝ) = A / (4 * L)) :
    -(2 * L * ∫ ω, v.loss (List.ofFn fun b => (s b, List.ofFn (a b))) (List.ofFn fun b => List.ofFn (noise b ω)) ∂P) -
        A / 2 * Real.log (2 * Real.pi * var) ≤
      (∑ b, Real.log (evidence v L var (s b) (a b))) / B := by
  obtain ⟨h1, h2⟩ := C251_identity P v hB hA hL hf s a noise hm hn var hvar
  rw [h1]
  have hL' : (L : ℝ) ≠ 0 := by positivity
  have h3 : 0 ≤ (∑ b, gap v L var (s b) (a b)) / B := div_nonneg (Finset.sum_nonneg fun b _ => h2 b) (by positivity)
  rw [Finset.sum_add_distrib, Finset.sum_neg_distrib, mul_div_cancel₀ _ (by positivity), add_div, neg_div]
  linarith

/-- A small autoencoder. -/
noncomputable def exVae : Vae where
  encoder x := x
  mean x := [x.sum, 0]
  logStd x := [-1, x.sum]
  decoder x := [x.getLast?.getD 0]
  maxAction := 2

theorem exVae_fits : exVae.Fits 1 2 := by
  refine ⟨fun _ => rfl, fun _ => rfl, fun _ => rfl, fun s j => ?_⟩
  match j with
  | 0 =>
    have : ∀ z : Fin 2 → ℝ, (exVae.decoder (s ++ List.ofFn z)).getD 0 0 = z 1 := by intro z; simp [exVae]
    simp only [this]; fun_prop
  | j + 1 =>
    have : ∀ z : Fin 2 → ℝ, (exVae.decoder (s ++ List.ofFn z)).getD (j + 1) 0 = 0 := by intro z; simp [exVae]
    simp only [this]; fun_prop

/-- The hypotheses are met: a batch with one transition, and noise with the right law. -/
example : ∃ (noise : Fin 1 → (Fin 2 → ℝ) → Fin 2 → ℝ) (var : ℝ≥0), (∀ b, Measurable (noise b)) ∧
    (∀ b, (latentLaw 2).map (noise b) = latentLaw 2) ∧ (var : ℝ) = (1 : ℕ) / (4 * (2 : ℕ)) :=
  ⟨fun _ ω => ω, ⟨1 / 8, by norm_num⟩, fun _ => measurable_id, fun _ => Measure.map_id, by
    show (1 / 8 : ℝ) = _; norm_num⟩

end Verif.NetOut
