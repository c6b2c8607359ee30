import Verif.Model.Natural
import Verif.Props.TrustRegion
import Verif.Props.Vae
import Mathlib.Analysis.Calculus.DerivativeTest
import Mathlib.Analysis.Calculus.FDeriv.Symmetric
import Mathlib.Analysis.Calculus.ContDiff.Basic
import Mathlib.Analysis.SpecialFunctions.ExpDeriv
import Mathlib.Analysis.SpecialFunctions.Log.Deriv
import Mathlib.Algebra.BigOperators.Field

/-! C255: the curvature that NPG and TRPO use is the Fisher information. -/

namespace Verif.TrustRegion

open Matrix Filter Topology MeasureTheory ProbabilityTheory
open scoped NNReal

variable {n A D N : ℕ}

/-! ### Lemmas: second derivatives -/

theorem lin_sum (L : (Fin n → ℝ) →L[ℝ] ℝ) (v : Fin n → ℝ) : (fun i => L (Pi.single i 1)) ⬝ᵥ v = L v := by
  have h : v = ∑ i, v i • (Pi.single i (1 : ℝ) : Fin n → ℝ) := by
    funext j
    simp [Finset.sum_apply, Pi.single_apply]
  conv_rhs => rw [h]
  simp [dotProduct, map_sum, mul_comm]

theorem gradOf_dot (f : (Fin n → ℝ) → ℝ) (w v : Fin n → ℝ) : gradOf f w ⬝ᵥ v = fderiv ℝ f w v := lin_sum _ v

theorem hvpOf_dot {f : (Fin n → ℝ) → ℝ} (hf : ContDiff ℝ 2 f) (w u v : Fin n → ℝ) :
    u ⬝ᵥ hvpOf f w v = fderiv ℝ (fderiv ℝ f) w u v := by
  have e : (fun x => gradOf f x ⬝ᵥ v) = fun x => fderiv ℝ f x v := funext fun x => gradOf_dot f x v
  rw [hvpOf, e, dotProduct_comm, gradOf_dot]
  have hd : DifferentiableAt ℝ (fderiv ℝ f) w := ((hf.fderiv_right (m := 1) (by norm_num)).differentiable (by norm_num)) w
  rw [fderiv_clm_apply hd (differentiableAt_const v)]
  simp

theorem line_id (w v : Fin n → ℝ) (t : ℝ) : HasDerivAt (fun t : ℝ => w + t • v) v t := by
  simpa using ((hasDerivAt_id t).smul_const v).const_add w

theorem line_first {f : (Fin n → ℝ) → ℝ} (hf : ContDiff ℝ 2 f) (w v : Fin n → ℝ) (t : ℝ) :
    HasDerivAt (fun t : ℝ => f (w + t • v)) (fderiv ℝ f (w + t • v) v) t :=
  (hf.differentiable (by norm_num) (w + t • v)).hasFDerivAt.comp_hasDerivAt t (line_id w v t)

theorem line_second {f : (Fin n → ℝ) → ℝ} (hf : ContDiff ℝ 2 f) (w v : Fin n → ℝ) :
    HasDerivAt (fun t : ℝ => fderiv ℝ f (w + t • v) v) (fderiv ℝ (fderiv ℝ f) w v v) 0 := by
  have hd : DifferentiableAt ℝ (fderiv ℝ f) (w + (0 : ℝ) • v) :=
    ((hf.fderiv_right (m := 1) (by norm_num)).differentiable (by norm_num)) _
  have h1 := hd.hasFDerivAt.comp_hasDerivAt (0 : ℝ) (line_id w v 0)
  have h2 := h1.clm_apply (hasDerivAt_const (0 : ℝ) v)
  simpa using h2

theorem line_has {f : (Fin n → ℝ) → ℝ} (hf : ContDiff ℝ 2 f) (w v : Fin n → ℝ) :
    (∀ t : ℝ, HasDerivAt (fun t : ℝ => f (w + t • v)) (fderiv ℝ f (w + t • v) v) t) ∧
      HasDerivAt (fun t : ℝ => fderiv ℝ f (w + t • v) v) (fderiv ℝ (fderiv ℝ f) w v v) 0 :=
  ⟨line_first hf w v, line_second hf w v⟩

theorem line_deriv {f : (Fin n → ℝ) → ℝ} (hf : ContDiff ℝ 2 f) (w v : Fin n → ℝ) :
    (deriv fun t : ℝ => f (w + t • v)) = fun t => fderiv ℝ f (w + t • v) v := funext fun t => ((line_has hf w v).1 t).deriv

theorem line_deriv2 {f : (Fin n → ℝ) → ℝ} (hf : ContDiff ℝ 2 f) (w v : Fin n → ℝ) :
    deriv (deriv fun t : ℝ => f (w + t • v)) 0 = fderiv ℝ (fderiv ℝ f) w v v := by
  rw [line_deriv hf]
  exact (line_has hf w v).2.deriv

theorem second_eq {f : (Fin n → ℝ) → ℝ} (hf : ContDiff ℝ 2 f) (w v : Fin n → ℝ) {g : ℝ → ℝ} {x : ℝ}
    (h1 : ∀ t, HasDerivAt (fun t : ℝ => f (w + t • v)) (g t) t) (h2 : HasDerivAt g x 0) :
    fderiv ℝ (fderiv ℝ f) w v v = x := by
  have e : (fun t : ℝ => fderiv ℝ f (w + t • v) v) = g := funext fun t => ((line_has hf w v).1 t).unique (h1 t)
  have := (line_has hf w v).2
  rw [e] at this
  exact this.unique h2

theorem second_mean (f : Fin N → (Fin n → ℝ) → ℝ) (hf : ∀ k, ContDiff ℝ 2 (f k)) (w v : Fin n → ℝ) :
    fderiv ℝ (fderiv ℝ fun x => (∑ k, f k x) / N) w v v = (∑ k, fderiv ℝ (fderiv ℝ (f k)) w v v) / N := by
  refine second_eq ((ContDiff.sum fun k _ => hf k).div_const _) w v
    (g := fun t => (∑ k, fderiv ℝ (f k) (w + t • v) v) / N) (fun t => ?_) ?_
  · exact (HasDerivAt.fun_sum fun k _ => (line_has (hf k) w v).1 t).div_const _
  · exact (HasDerivAt.fun_sum fun k _ => (line_has (hf k) w v).2).div_const _

/-- The second derivative at a minimum is not negative. -/
theorem second_nonneg {f : (Fin n → ℝ) → ℝ} (hf : ContDiff ℝ 2 f) (w : Fin n → ℝ) (hmin : ∀ x, f w ≤ f x) (v : Fin n → ℝ) :
    0 ≤ fderiv ℝ (fderiv ℝ f) w v v := by
  rw [← line_deriv2 hf]
  by_contra hneg
  rw [not_le] at hneg
  have hmin' : ∀ t : ℝ, f (w + (0 : ℝ) • v) ≤ f (w + t • v) := fun t => by simpa using hmin (w + t • v)
  have hlmin : IsLocalMin (fun t : ℝ => f (w + t • v)) 0 := Eventually.of_forall hmin'
  have hc : Continuous fun t : ℝ => f (w + t • v) := hf.continuous.comp (by fun_prop)
  have hlmax := isLocalMax_of_deriv_deriv_neg hneg hlmin.deriv_eq_zero hc.continuousAt
  have hconst : (fun t : ℝ => f (w + t • v)) =ᶠ[𝓝 0] fun _ => f (w + (0 : ℝ) • v) :=
    hlmax.mono fun t ht => le_antisymm ht (hmin' t)
  have hd : (deriv fun t : ℝ => f (w + t • v)) =ᶠ[𝓝 0] fun _ => 0 := by
    have := hconst.deriv
    simpa using this
  rw [hd.deriv_eq] at hneg
  simp at hneg

theorem psd_of_min {f : (Fin n → ℝ) → ℝ} (hf : ContDiff ℝ 2 f) (w : Fin n → ℝ) (hmin : ∀ x, f w ≤ f x) : Psd (hvpOf f w) := by
  have ext : ∀ x y : Fin n → ℝ, (∀ u, u ⬝ᵥ x = u ⬝ᵥ y) → x = y := by
    intro x y h
    funext i
    simpa using h (Pi.single i 1)
  refine ⟨?_, ?_, ?_, ?_⟩
  · intro u v
    refine ext _ _ fun x => ?_
    rw [dotProduct_add, hvpOf_dot hf, hvpOf_dot hf, hvpOf_dot hf, map_add]
  · intro c v
    refine ext _ _ fun x => ?_
    rw [dotProduct_smul, hvpOf_dot hf, hvpOf_dot hf, map_smul]
  · intro u v
    rw [hvpOf_dot hf, hvpOf_dot hf]
    exact (hf.contDiffAt.isSymmSndFDerivAt (by simp)) u v
  · intro v
    rw [hvpOf_dot hf]
    exact second_nonneg hf w hmin v

/-! ### Specification -/

/-- An actor with discrete actions whose logits are twice continuously differentiable functions of the parameters. -/
def DRow.Smooth (r : DRow n A) : Prop := ∀ a, ContDiff ℝ 2 fun theta => r.logits theta a

/-- An actor with continuous actions: mean and standard deviation are twice continuously differentiable, the latter positive. -/
def CRow.Smooth (r : CRow n D) : Prop := ∀ d, (ContDiff ℝ 2 fun theta => r.mu theta d) ∧ (ContDiff ℝ 2 fun theta => r.sigma theta d) ∧
  ∀ theta, 0 < r.sigma theta d

/-- The probability of an action. -/
noncomputable def DRow.prob (r : DRow n A) (theta : Fin n → ℝ) (a : Fin A) : ℝ :=
  Real.exp (r.logits theta a) / ∑ b, Real.exp (r.logits theta b)

/-- The Fisher information of an actor with discrete actions in the direction `v`: the expectation of the square of the score, on
average over the observations. -/
noncomputable def fisher (rows : Fin N → DRow n A) (theta v : Fin n → ℝ) : ℝ :=
  (∑ k, ∑ a, (rows k).prob theta a * (fderiv ℝ (fun w => Real.log ((rows k).prob w a)) theta v) ^ 2) / N

/-- The same for an actor with independent normal actions. The score of a normal law has the variance `1 / sigma ^ 2` for the mean and
`2 / sigma ^ 2` for the standard deviation, and these two are uncorrelated. -/
noncomputable def fisherNormal (rows : Fin N → CRow n D) (theta v : Fin n → ℝ) : ℝ :=
  (∑ k, ∑ d, ((fderiv ℝ (fun w => (rows k).mu w d) theta v) ^ 2 + 2 * (fderiv ℝ (fun w => (rows k).sigma w d) theta v) ^ 2) /
    (rows k).sigma theta d ^ 2) / N

/-- The variance of an entry of the action. -/
noncomputable def CRow.var (r : CRow n D) (theta : Fin n → ℝ) (d : Fin D) : ℝ≥0 := Real.toNNReal (r.sigma theta d ^ 2)

/-- The law of the action: independent normal entries. -/
noncomputable def CRow.law (r : CRow n D) (theta : Fin n → ℝ) : Measure (Fin D → ℝ) :=
  Measure.pi fun d => gaussianReal (r.mu theta d) (r.var theta d)

/-- Its density. -/
noncomputable def CRow.density (r : CRow n D) (theta : Fin n → ℝ) (x : Fin D → ℝ) : ℝ :=
  ∏ d, gaussianPDFReal (r.mu theta d) (r.var theta d) (x d)

/-- The rows that the actors of the library give: discrete actions, or normal ones. -/
def Row.Regular (r : Row n) : Prop :=
  (∃ (A : ℕ) (d : DRow n A), d.Smooth ∧ r = d.row) ∨ ∃ (D : ℕ) (c : CRow n D), c.Smooth ∧ r = c.row

/-! ### Lemmas: divergences -/

section discrete

variable (r : DRow n A)

theorem sum_exp_pos (a : Fin A) (theta : Fin n → ℝ) : 0 < ∑ b, Real.exp (r.logits theta b) :=
  Finset.sum_pos (fun _ _ => Real.exp_pos _) ⟨a, Finset.mem_univ a⟩

theorem logProb_exp (theta : Fin n → ℝ) (a : Fin A) : Real.exp (r.logProb theta a) = r.prob theta a := by
  rw [DRow.logProb, Real.exp_sub, Real.exp_log (sum_exp_pos r a theta), DRow.prob]

theorem logProb_log (theta : Fin n → ℝ) (a : Fin A) : r.logProb theta a = Real.log (r.prob theta a) := by
  rw [← logProb_exp, Real.log_exp]

theorem prob_sum (hA : 0 < A) (theta : Fin n → ℝ) : ∑ a, r.prob theta a = 1 := by
  unfold DRow.prob
  rw [← Finset.sum_div]
  exact div_self (sum_exp_pos r ⟨0, hA⟩ theta).ne'

theorem logProb_smooth (h : r.Smooth) (a : Fin A) : ContDiff ℝ 2 fun theta => r.logProb theta a := by
  unfold DRow.logProb
  exact (h a).sub ((ContDiff.sum fun b _ => (h b).exp).log fun theta => (sum_exp_pos r a theta).ne')

theorem dkl_smooth (h : r.Smooth) (theta : Fin n → ℝ) : ContDiff ℝ 2 (r.row.kl theta) := by
  show ContDiff ℝ 2 fun w => ∑ a, Real.exp (r.logProb theta a) * (r.logProb theta a - r.logProb w a)
  exact ContDiff.sum fun a _ => contDiff_const.mul (contDiff_const.sub (logProb_smooth r h a))

theorem dkl_nonneg (theta w : Fin n → ℝ) : 0 ≤ r.row.kl theta w := by
  rcases Nat.eq_zero_or_pos A with rfl | hA
  · simp [DRow.row]
  have hw := prob_sum r hA w
  have ht := prob_sum r hA theta
  have key : ∀ a, r.prob theta a - r.prob w a ≤ Real.exp (r.logProb theta a) * (r.logProb theta a - r.logProb w a) := by
    intro a
    have h1 := Real.add_one_le_exp (r.logProb w a - r.logProb theta a)
    have hp := Real.exp_pos (r.logProb theta a)
    have h2 := mul_le_mul_of_nonneg_left h1 hp.le
    rw [← Real.exp_add, add_sub_cancel, logProb_exp r w a] at h2
    rw [← logProb_exp r theta a]
    linarith
  have := Finset.sum_le_sum fun a (_ : a ∈ Finset.univ) => key a
  rw [Finset.sum_sub_distrib, hw, ht, sub_self] at this
  exact this

theorem dkl_self (theta : Fin n → ℝ) : r.row.kl theta theta = 0 := by simp [DRow.row]

/-- The second derivative of the divergence of one row. -/
theorem dkl_second (h : r.Smooth) (theta v : Fin n → ℝ) :
    fderiv ℝ (fderiv ℝ (r.row.kl theta)) theta v v =
      ∑ a, r.prob theta a * (fderiv ℝ (fun w => Real.log (r.prob w a)) theta v) ^ 2 := by
  have hA : 0 < A := r.act.pos
  have hl := fun a => line_has (logProb_smooth r h a) theta v
  have hx := second_eq (dkl_smooth r h theta) theta v
    (g := fun t => ∑ a, Real.exp (r.logProb theta a) * (0 - fderiv ℝ (fun w => r.logProb w a) (theta + t • v) v))
    (fun t => by
      show HasDerivAt (fun t : ℝ => ∑ a, Real.exp (r.logProb theta a) * (r.logProb theta a - r.logProb (theta + t • v) a)) _ t
      exact HasDerivAt.fun_sum fun a _ => ((hasDerivAt_const t (r.logProb theta a)).sub ((hl a).1 t)).const_mul _)
    (HasDerivAt.fun_sum fun a _ => ((hasDerivAt_const (0 : ℝ) (0 : ℝ)).sub (hl a).2).const_mul _)
  have hone : ∀ t : ℝ, ∑ a, Real.exp (r.logProb (theta + t • v) a) = 1 := fun t => by
    rw [← prob_sum r hA (theta + t • v)]
    exact Finset.sum_congr rfl fun a _ => logProb_exp r _ a
  have h1 : (fun t : ℝ => ∑ a, Real.exp (r.logProb (theta + t • v) a) * fderiv ℝ (fun w => r.logProb w a) (theta + t • v) v) =
      fun _ => 0 := by
    funext t
    have e : (fun t : ℝ => ∑ a, Real.exp (r.logProb (theta + t • v) a)) = fun _ => (1 : ℝ) := funext hone
    have d : HasDerivAt (fun t : ℝ => ∑ a, Real.exp (r.logProb (theta + t • v) a))
        (∑ a, Real.exp (r.logProb (theta + t • v) a) * fderiv ℝ (fun w => r.logProb w a) (theta + t • v) v) t :=
      HasDerivAt.fun_sum fun a _ => ((hl a).1 t).exp
    rw [e] at d
    exact d.unique (hasDerivAt_const t 1)
  have h2 : HasDerivAt (fun t : ℝ => ∑ a, Real.exp (r.logProb (theta + t • v) a) *
      fderiv ℝ (fun w => r.logProb w a) (theta + t • v) v)
      (∑ a, (Real.exp (r.logProb (theta + (0 : ℝ) • v) a) * fderiv ℝ (fun w => r.logProb w a) (theta + (0 : ℝ) • v) v *
        fderiv ℝ (fun w => r.logProb w a) (theta + (0 : ℝ) • v) v +
        Real.exp (r.logProb (theta + (0 : ℝ) • v) a) * fderiv ℝ (fderiv ℝ fun w => r.logProb w a) theta v v)) 0 :=
    HasDerivAt.fun_sum fun a _ => ((hl a).1 0).exp.mul (hl a).2
  rw [h1] at h2
  have h3 := h2.unique (hasDerivAt_const (0 : ℝ) (0 : ℝ))
  simp only [zero_smul, add_zero, Finset.sum_add_distrib] at h3
  have el : ∀ a, (fun w => Real.log (r.prob w a)) = fun w => r.logProb w a := fun a => funext fun w => (logProb_log r w a).symm
  rw [hx]
  simp only [el]
  simp only [← logProb_exp]
  simp only [zero_sub, mul_neg, Finset.sum_neg_distrib]
  rw [neg_eq_iff_add_eq_zero, ← h3, add_comm]
  congr 1
  exact Finset.sum_congr rfl fun a _ => by ring

end discrete

section continuous

variable (r : CRow n D)

theorem ckl_smooth (h : r.Smooth) (theta : Fin n → ℝ) : ContDiff ℝ 2 (r.row.kl theta) := by
  show ContDiff ℝ 2 fun w => ∑ d, 1 / 2 * ((r.sigma theta d / r.sigma w d) ^ 2 + ((r.mu theta d - r.mu w d) / r.sigma w d) ^ 2 - 1 -
    Real.log ((r.sigma theta d / r.sigma w d) ^ 2))
  refine ContDiff.sum fun d _ => ?_
  obtain ⟨h1, h2, h3⟩ := h d
  have hr : ContDiff ℝ 2 fun w => r.sigma theta d / r.sigma w d := contDiff_const.div h2 fun w => (h3 w).ne'
  refine contDiff_const.mul ((((hr.pow 2).add (((contDiff_const.sub h1).div h2 fun w => (h3 w).ne').pow 2)).sub contDiff_const).sub
    ((hr.pow 2).log fun w => ?_))
  have := div_pos (h3 theta) (h3 w)
  positivity

theorem ckl_nonneg (h : r.Smooth) (theta w : Fin n → ℝ) : 0 ≤ r.row.kl theta w := by
  show 0 ≤ ∑ d, 1 / 2 * ((r.sigma theta d / r.sigma w d) ^ 2 + ((r.mu theta d - r.mu w d) / r.sigma w d) ^ 2 - 1 -
    Real.log ((r.sigma theta d / r.sigma w d) ^ 2))
  refine Finset.sum_nonneg (s := Finset.univ) fun d _ => ?_
  obtain ⟨-, -, h3⟩ := h d
  have hp : 0 < (r.sigma theta d / r.sigma w d) ^ 2 := by have := div_pos (h3 theta) (h3 w); positivity
  have := Real.log_le_sub_one_of_pos hp
  have := sq_nonneg ((r.mu theta d - r.mu w d) / r.sigma w d)
  linarith

theorem ckl_self (h : r.Smooth) (theta : Fin n → ℝ) : r.row.kl theta theta = 0 := by
  show ∑ d, 1 / 2 * ((r.sigma theta d / r.sigma theta d) ^ 2 + ((r.mu theta d - r.mu theta d) / r.sigma theta d) ^ 2 - 1 -
    Real.log ((r.sigma theta d / r.sigma theta d) ^ 2)) = 0
  refine Finset.sum_eq_zero fun d _ => ?_
  have := ((h d).2.2 theta).ne'
  rw [div_self this]
  simp

theorem clogp_smooth (h : r.Smooth) : ContDiff ℝ 2 r.row.logp := by
  show ContDiff ℝ 2 fun theta => ∑ d, (-((r.act d - r.mu theta d) ^ 2) / (2 * r.sigma theta d ^ 2) - Real.log (r.sigma theta d) -
    Real.log (Real.sqrt (2 * Real.pi)))
  refine ContDiff.sum fun d _ => ?_
  obtain ⟨h1, h2, h3⟩ := h d
  refine (((((contDiff_const.sub h1).pow 2).neg).div (contDiff_const.mul (h2.pow 2)) fun w => ?_).sub (h2.log fun w => (h3 w).ne')).sub
    contDiff_const
  have := h3 w
  positivity

/-- The second derivative of the divergence of one row. -/
theorem ckl_second (h : r.Smooth) (theta v : Fin n → ℝ) :
    fderiv ℝ (fderiv ℝ (r.row.kl theta)) theta v v =
      ∑ d, ((fderiv ℝ (fun w => r.mu w d) theta v) ^ 2 + 2 * (fderiv ℝ (fun w => r.sigma w d) theta v) ^ 2) / r.sigma theta d ^ 2 := by
  have hm := fun d => line_has (h d).1 theta v
  have hs := fun d => line_has (h d).2.1 theta v
  have hp := fun d => (h d).2.2
  refine second_eq (ckl_smooth r h theta) theta v
    (g := fun t => ∑ d, (-(r.sigma theta d ^ 2) * fderiv ℝ (fun w => r.sigma w d) (theta + t • v) v / r.sigma (theta + t • v) d ^ 3 +
      (r.mu (theta + t • v) d - r.mu theta d) * fderiv ℝ (fun w => r.mu w d) (theta + t • v) v / r.sigma (theta + t • v) d ^ 2 -
      (r.mu (theta + t • v) d - r.mu theta d) ^ 2 * fderiv ℝ (fun w => r.sigma w d) (theta + t • v) v / r.sigma (theta + t • v) d ^ 3 +
      fderiv ℝ (fun w => r.sigma w d) (theta + t • v) v / r.sigma (theta + t • v) d)) (fun t => ?_) ?_
  · show HasDerivAt (fun t : ℝ => ∑ d, 1 / 2 * ((r.sigma theta d / r.sigma (theta + t • v) d) ^ 2 +
      ((r.mu theta d - r.mu (theta + t • v) d) / r.sigma (theta + t • v) d) ^ 2 - 1 -
      Real.log ((r.sigma theta d / r.sigma (theta + t • v) d) ^ 2))) _ t
    refine HasDerivAt.fun_sum fun d _ => ?_
    have h0 := (hp d theta).ne'
    have h1 := (hp d (theta + t • v)).ne'
    have hr := (hasDerivAt_const t (r.sigma theta d)).div ((hs d).1 t) h1
    have hq := ((hasDerivAt_const t (r.mu theta d)).sub ((hm d).1 t)).div ((hs d).1 t) h1
    have := ((((hr.pow 2).add (hq.pow 2)).sub_const 1).sub ((hr.pow 2).log (by
      show (r.sigma theta d / r.sigma (theta + t • v) d) ^ 2 ≠ 0
      exact pow_ne_zero 2 (div_ne_zero h0 h1)))).const_mul (1 / 2 : ℝ)
    refine this.congr_deriv ?_
    simp
    field_simp
    ring
  · refine HasDerivAt.fun_sum fun d _ => ?_
    have h1 := (hp d theta).ne'
    have h1' : r.sigma (theta + (0 : ℝ) • v) d ≠ 0 := (hp d _).ne'
    have hdm := ((hm d).1 0).sub_const (r.mu theta d)
    have := (((((hs d).2.const_mul (-(r.sigma theta d ^ 2))).div (((hs d).1 0).pow 3) (pow_ne_zero 3 h1')).add
      ((hdm.mul (hm d).2).div (((hs d).1 0).pow 2) (pow_ne_zero 2 h1'))).sub
      (((hdm.pow 2).mul (hs d).2).div (((hs d).1 0).pow 3) (pow_ne_zero 3 h1'))).add ((hs d).2.div ((hs d).1 0) h1')
    refine this.congr_deriv ?_
    simp
    field_simp
    ring

end continuous

theorem mean_psd (rows : Fin N → Row n) (theta : Fin n → ℝ) (hs : ∀ k, ContDiff ℝ 2 ((rows k).kl theta))
    (h0 : ∀ k w, 0 ≤ (rows k).kl theta w) (h1 : ∀ k, (rows k).kl theta theta = 0) :
    Psd (hvpOf (fun w => (∑ k, (rows k).kl theta w) / N) theta) := by
  refine psd_of_min ((ContDiff.sum fun k _ => hs k).div_const _) theta fun w => ?_
  rw [Finset.sum_eq_zero fun k _ => h1 k, zero_div]
  exact div_nonneg (Finset.sum_nonneg fun k _ => h0 k w) (Nat.cast_nonneg _)

theorem regular_logp {r : Row n} (h : r.Regular) : ContDiff ℝ 2 r.logp := by
  rcases h with ⟨A, d, hd, rfl⟩ | ⟨D, c, hc, rfl⟩
  · exact logProb_smooth d hd d.act
  · exact clogp_smooth c hc

theorem regular_kl {r : Row n} (h : r.Regular) (theta : Fin n → ℝ) :
    ContDiff ℝ 2 (r.kl theta) ∧ (∀ w, 0 ≤ r.kl theta w) ∧ r.kl theta theta = 0 := by
  rcases h with ⟨A, d, hd, rfl⟩ | ⟨D, c, hc, rfl⟩
  · exact ⟨dkl_smooth d hd theta, dkl_nonneg d theta, dkl_self d theta⟩
  · exact ⟨ckl_smooth c hc theta, ckl_nonneg c hc theta, ckl_self c hc theta⟩

/-- A function falls along a direction of descent. -/
theorem falls {f : (Fin n → ℝ) → ℝ} (hf : ContDiff ℝ 2 f) (theta d : Fin n → ℝ) (h : gradOf f theta ⬝ᵥ d < 0) :
    ∀ᶠ t in 𝓝[>] (0 : ℝ), f (theta + t • d) < f theta := by
  rw [gradOf_dot] at h
  have h1 := line_first hf theta d 0
  rw [zero_smul, add_zero] at h1
  have h2 := h1.hasDerivWithinAt (s := Set.Ioi 0)
  rw [hasDerivWithinAt_iff_tendsto_slope' (by simp)] at h2
  have h3 := h2.eventually (eventually_lt_nhds h)
  filter_upwards [h3, self_mem_nhdsWithin] with t ht hpos
  have hpos' : (0 : ℝ) < t := hpos
  rw [slope_def_field, zero_smul, add_zero, sub_zero, div_lt_iff₀ hpos', zero_mul, sub_neg] at ht
  exact ht

/-! ### C255 -/

/-- C255: what a row stands for, for discrete actions: the logarithm of the probability of the action taken, and the
Kullback-Leibler divergence. -/
theorem C255_discrete (r : DRow n A) (theta w : Fin n → ℝ) : r.row.logp theta = Real.log (r.prob theta r.act) ∧
    r.row.kl theta w = ∑ a, r.prob theta a * Real.log (r.prob theta a / r.prob w a) ∧ ∑ a, r.prob theta a = 1 := by
  refine ⟨logProb_log r theta _, ?_, prob_sum r r.act.pos theta⟩
  show ∑ a, Real.exp (r.logProb theta a) * (r.logProb theta a - r.logProb w a) = _
  refine Finset.sum_congr rfl fun a _ => ?_
  have h1 := Real.exp_pos (r.logProb theta a)
  have h2 := Real.exp_pos (r.logProb w a)
  rw [logProb_exp] at h1 h2
  rw [logProb_exp, Real.log_div h1.ne' h2.ne', logProb_log, logProb_log]

theorem var_coe (r : CRow n D) (theta : Fin n → ℝ) (d : Fin D) : (r.var theta d : ℝ) = r.sigma theta d ^ 2 :=
  Real.coe_toNNReal _ (sq_nonneg _)

theorem var_ne (r : CRow n D) (h : r.Smooth) (theta : Fin n → ℝ) (d : Fin D) : r.var theta d ≠ 0 := by
  intro e
  have := var_coe r theta d
  rw [e] at this
  have := pow_pos ((h d).2.2 theta) 2
  simp_all

/-- C255: what a row stands for, for normal actions: the logarithm of the density at the action taken, and the Kullback-Leibler
divergence, the expectation of the logarithm of the ratio of the densities. -/
theorem C255_normal (r : CRow n D) (h : r.Smooth) (theta w : Fin n → ℝ) :
    r.row.logp theta = Real.log (r.density theta r.act) ∧
    r.row.kl theta w = ∫ x, Real.log (r.density theta x / r.density w x) ∂r.law theta := by
  have hlog : ∀ theta x, Real.log (r.density theta x) = ∑ d, (-((x d - r.mu theta d) ^ 2) / (2 * r.sigma theta d ^ 2) -
      Real.log (r.sigma theta d) - Real.log (Real.sqrt (2 * Real.pi))) := by
    intro theta x
    rw [CRow.density, Real.log_prod fun d _ => (gaussianPDFReal_pos _ _ _ (var_ne r h theta d)).ne']
    refine Finset.sum_congr rfl fun d _ => ?_
    have hs := (h d).2.2 theta
    rw [NetOut.log_pdf _ _ (var_ne r h theta d), var_coe, Real.log_mul (by positivity) (by positivity), Real.log_pow,
      Real.log_sqrt (by positivity)]
    push_cast
    ring
  refine ⟨(hlog theta r.act).symm, ?_⟩
  have hpos : ∀ theta x, r.density theta x ≠ 0 := fun theta x =>
    Finset.prod_ne_zero_iff.2 fun d _ => (gaussianPDFReal_pos _ _ _ (var_ne r h theta d)).ne'
  have e : ∀ x, Real.log (r.density theta x / r.density w x) = ∑ d, ((1 / (2 * r.sigma w d ^ 2) - 1 / (2 * r.sigma theta d ^ 2)) * x d ^ 2 +
      (r.mu theta d / r.sigma theta d ^ 2 - r.mu w d / r.sigma w d ^ 2) * x d + (r.mu w d ^ 2 / (2 * r.sigma w d ^ 2) -
      r.mu theta d ^ 2 / (2 * r.sigma theta d ^ 2) + Real.log (r.sigma w d) - Real.log (r.sigma theta d))) := by
    intro x
    rw [Real.log_div (hpos _ _) (hpos _ _), hlog, hlog, ← Finset.sum_sub_distrib]
    refine Finset.sum_congr rfl fun d _ => ?_
    have h1 := ((h d).2.2 theta).ne'
    have h2 := ((h d).2.2 w).ne'
    field_simp
    ring
  have hi2 : ∀ d, Integrable (fun x : Fin D → ℝ => x d ^ 2) (r.law theta) := fun d =>
    integrable_comp_eval (μ := fun d => gaussianReal (r.mu theta d) (r.var theta d)) (i := d) (f := fun y : ℝ => y ^ 2)
      (NetOut.gaussian_int_sq _ _)
  have hi1 : ∀ d, Integrable (fun x : Fin D → ℝ => x d) (r.law theta) := fun d =>
    integrable_comp_eval (μ := fun d => gaussianReal (r.mu theta d) (r.var theta d)) (i := d) (f := fun y : ℝ => y)
      (NetOut.gaussian_int _ _)
  have hv2 : ∀ d, ∫ x : Fin D → ℝ, x d ^ 2 ∂r.law theta = r.sigma theta d ^ 2 + r.mu theta d ^ 2 := fun d => by
    have := integral_comp_eval (μ := fun d => gaussianReal (r.mu theta d) (r.var theta d)) (i := d) (f := fun y : ℝ => y ^ 2)
      (NetOut.gaussian_int_sq _ _).aestronglyMeasurable
    rw [NetOut.gaussian_sq, var_coe] at this
    exact this
  have hv1 : ∀ d, ∫ x : Fin D → ℝ, x d ∂r.law theta = r.mu theta d := fun d => by
    have := integral_comp_eval (μ := fun d => gaussianReal (r.mu theta d) (r.var theta d)) (i := d) (f := fun y : ℝ => y)
      (NetOut.gaussian_int _ _).aestronglyMeasurable
    rw [integral_id_gaussianReal] at this
    exact this
  have : IsProbabilityMeasure (r.law theta) := by unfold CRow.law; infer_instance
  simp only [e]
  have hi : ∀ d ∈ Finset.univ, Integrable (fun x : Fin D → ℝ => (1 / (2 * r.sigma w d ^ 2) - 1 / (2 * r.sigma theta d ^ 2)) * x d ^ 2 +
      (r.mu theta d / r.sigma theta d ^ 2 - r.mu w d / r.sigma w d ^ 2) * x d + (r.mu w d ^ 2 / (2 * r.sigma w d ^ 2) -
      r.mu theta d ^ 2 / (2 * r.sigma theta d ^ 2) + Real.log (r.sigma w d) - Real.log (r.sigma theta d))) (r.law theta) := fun d _ =>
    (((hi2 d).const_mul _).add ((hi1 d).const_mul _)).add (integrable_const _)
  rw [integral_finsetSum _ hi]
  show ∑ d, 1 / 2 * ((r.sigma theta d / r.sigma w d) ^ 2 + ((r.mu theta d - r.mu w d) / r.sigma w d) ^ 2 - 1 -
    Real.log ((r.sigma theta d / r.sigma w d) ^ 2)) = _
  refine Finset.sum_congr rfl fun d _ => ?_
  have h3 : Integrable (fun x : Fin D → ℝ => (1 / (2 * r.sigma w d ^ 2) - 1 / (2 * r.sigma theta d ^ 2)) * x d ^ 2 +
      (r.mu theta d / r.sigma theta d ^ 2 - r.mu w d / r.sigma w d ^ 2) * x d) (r.law theta) :=
    ((hi2 d).const_mul _).add ((hi1 d).const_mul _)
  rw [integral_add h3 (integrable_const _), integral_add ((hi2 d).const_mul _) ((hi1 d).const_mul _), integral_const_mul,
    integral_const_mul, hv2, hv1]
  have h1 := ((h d).2.2 theta).ne'
  have h2 := ((h d).2.2 w).ne'
  rw [Real.log_pow, Real.log_div h1 h2]
  simp
  field_simp
  ring

/-- C255: the curvature that NPG and TRPO use for discrete actions is the Fisher information. -/
theorem C255_fisher (rows : Fin N → DRow n A) (h : ∀ k, (rows k).Smooth) (theta v : Fin n → ℝ) :
    v ⬝ᵥ (npgMini fun k => (rows k).row).hvp theta v = fisher rows theta v ∧
    v ⬝ᵥ (trpoMini fun k => (rows k).row).hvp theta v = fisher rows theta v := by
  have : v ⬝ᵥ hvpOf (fun w => (∑ k, (rows k).row.kl theta w) / N) theta v = fisher rows theta v := by
    rw [hvpOf_dot ((ContDiff.sum fun k _ => dkl_smooth (rows k) (h k) theta).div_const _),
      second_mean _ fun k => dkl_smooth (rows k) (h k) theta, fisher]
    congr 1
    exact Finset.sum_congr rfl fun k _ => dkl_second (rows k) (h k) theta v
  exact ⟨this, this⟩

/-- C255: the same for normal actions. -/
theorem C255_fisher_normal (rows : Fin N → CRow n D) (h : ∀ k, (rows k).Smooth) (theta v : Fin n → ℝ) :
    v ⬝ᵥ (npgMini fun k => (rows k).row).hvp theta v = fisherNormal rows theta v ∧
    v ⬝ᵥ (trpoMini fun k => (rows k).row).hvp theta v = fisherNormal rows theta v := by
  have : v ⬝ᵥ hvpOf (fun w => (∑ k, (rows k).row.kl theta w) / N) theta v = fisherNormal rows theta v := by
    rw [hvpOf_dot ((ContDiff.sum fun k _ => ckl_smooth (rows k) (h k) theta).div_const _),
      second_mean _ fun k => ckl_smooth (rows k) (h k) theta, fisherNormal]
    congr 1
    exact Finset.sum_congr rfl fun k _ => ckl_second (rows k) (h k) theta v
  exact ⟨this, this⟩

/-- C255: it is linear, symmetric and positive semidefinite, as C88 requires. -/
theorem C255_curvature (rows : Fin N → Row n) (h : ∀ k, (rows k).Regular) (theta : Fin n → ℝ) :
    Psd ((npgMini rows).hvp theta) ∧ Psd ((trpoMini rows).hvp theta) := by
  have := mean_psd rows theta (fun k => (regular_kl (h k) theta).1) (fun k => (regular_kl (h k) theta).2.1)
    fun k => (regular_kl (h k) theta).2.2
  exact ⟨this, this⟩

/-- C255 for NPG: unless the gradient is zero, a small enough step raises the average of the advantages weighted with the
log-probabilities. -/
theorem C255_npg (rows : Fin N → Row n) (h : ∀ k, (rows k).Regular) (theta : Fin n → ℝ) (damping tol : ℝ) (hd : 0 < damping)
    (ht : 0 < tol) (nsteps : ℕ) (hs : 0 < nsteps) (hg : (npgMini rows).grad theta ≠ 0) :
    ∃ delta > 0, ∀ stepSize, 0 < stepSize → stepSize < delta → ∃ new, npgStep (npgMini rows) damping tol nsteps stepSize theta = some new ∧
      (∑ k, (rows k).logp theta * (rows k).adv) / N < (∑ k, (rows k).logp new * (rows k).adv) / N := by
  obtain ⟨d, h1, h2, -⟩ := C88_direction_partial (npgMini rows) theta (C255_curvature rows h theta).1 damping tol hd ht nsteps hs hg
  have hf : ContDiff ℝ 2 fun theta => -((∑ k, (rows k).logp theta * (rows k).adv) / N) :=
    ((ContDiff.sum fun k _ => (regular_logp (h k)).mul contDiff_const).div_const _).neg
  have h3 := falls hf theta d h2
  obtain ⟨delta, hpos, h4⟩ := mem_nhdsGT_iff_exists_Ioo_subset.1 h3
  refine ⟨delta, hpos, fun s hs1 hs2 => ⟨theta + s • d, by unfold npgStep; rw [h1]; rfl, ?_⟩⟩
  have := h4 ⟨hs1, hs2⟩
  simpa using this

/-- C255 for TRPO: unless the gradient is zero, the line search succeeds if it may go back often enough: the actor it leaves is within the
trust region and has a higher average of the advantages weighted with the ratios of the probabilities. -/
theorem C255_trpo (rows : Fin N → Row n) (h : ∀ k, (rows k).Regular) (theta : Fin n → ℝ) (damping tol : ℝ) (hd : 0 < damping)
    (ht : 0 < tol) (nsteps : ℕ) (hs : 0 < nsteps) (hg : (trpoMini rows).grad theta ≠ 0) (maxKl coeff : ℝ) (hkl : 0 < maxKl)
    (hc : 0 < coeff) (hc1 : coeff < 1) :
    ∃ enough, ∀ backtracks, enough ≤ backtracks →
      ∃ s, trpoStep Real.sqrt ⟨backtracks, maxKl, coeff⟩ damping tol nsteps (trpoMini rows) theta = some s ∧ 0 < s.step ∧
        (∑ k, (rows k).kl theta s.actor) / N < maxKl ∧ s.kl = (∑ k, (rows k).kl theta s.actor) / N ∧
        (∑ k, Real.exp ((rows k).logp theta - (rows k).logpOld) * (rows k).adv) / N <
          (∑ k, Real.exp ((rows k).logp s.actor - (rows k).logpOld) * (rows k).adv) / N := by
  have hpsd := (C255_curvature rows h theta).2
  obtain ⟨d, h1, h2, -⟩ := C88_direction_partial (trpoMini rows) theta hpsd damping tol hd ht nsteps hs hg
  have hf : ContDiff ℝ 2 fun theta => -((∑ k, Real.exp ((rows k).logp theta - (rows k).logpOld) * (rows k).adv) / N) :=
    ((ContDiff.sum fun k _ => (((regular_logp (h k)).sub contDiff_const).exp).mul contDiff_const).div_const _).neg
  have h3 := falls hf theta d h2
  have hd0 : d ≠ 0 := by
    rintro rfl
    simp at h2
  have hden : 0 < d ⬝ᵥ mvp ((trpoMini rows).hvp theta) damping d := (hpsd.mvp hd).pos d hd0
  have hstep : ∀ b, maxStep Real.sqrt ⟨b, maxKl, coeff⟩ (trpoMini rows) damping theta d =
      some (Real.sqrt (2 * maxKl / (d ⬝ᵥ mvp ((trpoMini rows).hvp theta) damping d))) := by
    intro b
    unfold maxStep fdiv
    rw [if_neg hden.ne']
    rfl
  generalize hq : Real.sqrt (2 * maxKl / (d ⬝ᵥ mvp ((trpoMini rows).hvp theta) damping d)) = q at hstep
  have hq0 : 0 < q := by rw [← hq]; positivity
  have hlim : Tendsto (fun i : ℕ => q * coeff ^ i) atTop (𝓝[>] 0) := by
    refine tendsto_nhdsWithin_iff.2 ⟨?_, Eventually.of_forall fun i => by show 0 < q * coeff ^ i; positivity⟩
    have := (tendsto_pow_atTop_nhds_zero_of_lt_one hc.le hc1).const_mul q
    simpa using this
  have hklc : ContDiff ℝ 2 fun w => (∑ k, (rows k).kl theta w) / N :=
    (ContDiff.sum fun k _ => (regular_kl (h k) theta).1).div_const _
  have h4 : ∀ᶠ t in 𝓝[>] (0 : ℝ), (∑ k, (rows k).kl theta (theta + t • d)) / N < maxKl := by
    have hcont : Continuous fun t : ℝ => (∑ k, (rows k).kl theta (theta + t • d)) / N := hklc.continuous.comp (by fun_prop)
    have h5 := hcont.tendsto (0 : ℝ)
    rw [zero_smul, add_zero, Finset.sum_eq_zero fun k _ => (regular_kl (h k) theta).2.2, zero_div] at h5
    exact (h5.mono_left nhdsWithin_le_nhds).eventually (eventually_lt_nhds hkl)
  obtain ⟨i, hi1, hi2⟩ := ((hlim.eventually h3).and (hlim.eventually h4)).exists
  refine ⟨i + 1, fun b hb => ⟨lineSearch ⟨b, maxKl, coeff⟩ (trpoMini rows) theta d q, ?_, ?_⟩⟩
  · unfold trpoStep
    rw [h1]
    simp only [hstep, Option.map_some]
  have hex : ∃ j, j < b ∧ Improves (trpoMini rows) maxKl theta (theta + (q * coeff ^ j) • d) := ⟨i, by omega, hi2, hi1⟩
  classical
  obtain ⟨hj1, hj2⟩ := Nat.find_spec hex
  obtain ⟨hr, -⟩ := C87_accepted_partial ⟨b, maxKl, coeff⟩ (trpoMini rows) theta d q _ hj1 hj2
    (fun i hi hI => Nat.find_min hex hi ⟨lt_trans hi hj1, hI⟩)
  rw [hr]
  refine ⟨by show 0 < q * coeff ^ _; positivity, hj2.1, rfl, ?_⟩
  have := hj2.2
  simp only [trpoMini, neg_lt_neg_iff] at this
  exact this

/-- C255: the quadratic model of the divergence stays below the bound for the largest step that TRPO tries. -/
theorem C255_region (rows : Fin N → Row n) (h : ∀ k, (rows k).Regular) (theta d : Fin n → ℝ) (damping : ℝ) (hd : 0 < damping)
    (hne : d ≠ 0) (c : Trpo ℝ) (hk : 0 ≤ c.maxKl) :
    ∃ s, maxStep Real.sqrt c (trpoMini rows) damping theta d = some s ∧ 0 ≤ s ∧
      (s • d) ⬝ᵥ (trpoMini rows).hvp theta (s • d) / 2 ≤ c.maxKl := by
  have hpsd := (C255_curvature rows h theta).2
  have hden : 0 < d ⬝ᵥ mvp ((trpoMini rows).hvp theta) damping d := (hpsd.mvp hd).pos d hne
  refine ⟨Real.sqrt (2 * c.maxKl / (d ⬝ᵥ mvp ((trpoMini rows).hvp theta) damping d)), ?_, Real.sqrt_nonneg _, ?_⟩
  · unfold maxStep fdiv
    rw [if_neg hden.ne']
    rfl
  · have hsq := Real.sq_sqrt (show 0 ≤ 2 * c.maxKl / (d ⬝ᵥ mvp ((trpoMini rows).hvp theta) damping d) by positivity)
    generalize Real.sqrt (2 * c.maxKl / (d ⬝ᵥ mvp ((trpoMini rows).hvp theta) damping d)) = s at hsq
    rw [hpsd.smul, dotProduct_smul, smul_dotProduct, smul_eq_mul, smul_eq_mul]
    have hle : d ⬝ᵥ (trpoMini rows).hvp theta d ≤ d ⬝ᵥ mvp ((trpoMini rows).hvp theta) damping d := by
      unfold mvp
      rw [dotProduct_add, dotProduct_smul, smul_eq_mul]
      have : 0 ≤ d ⬝ᵥ d := Finset.sum_nonneg fun i _ => mul_self_nonneg _
      have := mul_nonneg hd.le this
      linarith
    have h0 := hpsd.nonneg d
    have e : s ^ 2 * (d ⬝ᵥ mvp ((trpoMini rows).hvp theta) damping d) = 2 * c.maxKl := by
      rw [hsq]; exact div_mul_cancel₀ _ hden.ne'
    have := mul_le_mul_of_nonneg_left hle (sq_nonneg s)
    nlinarith

/-- C255: as long as the actor is the one that gave `logp_old`, the gradients and directions of NPG and TRPO agree. -/
theorem C255_same (rows : Fin N → Row n) (h : ∀ k, (rows k).Regular) (theta : Fin n → ℝ)
    (hold : ∀ k, (rows k).logpOld = (rows k).logp theta) (damping tol : ℝ) (nsteps : ℕ) :
    (trpoMini rows).grad theta = (npgMini rows).grad theta ∧
    direction (trpoMini rows) damping tol nsteps theta = direction (npgMini rows) damping tol nsteps theta := by
  have hg : (trpoMini rows).grad theta = (npgMini rows).grad theta := by
    funext i
    show fderiv ℝ _ theta _ = fderiv ℝ _ theta _
    congr 1
    have hl := fun k => (regular_logp (h k)).differentiable (by norm_num) theta
    have h1 : HasFDerivAt (fun theta => -((∑ k, (rows k).logp theta * (rows k).adv) / N))
        (-((N : ℝ)⁻¹ • ∑ k, (rows k).adv • fderiv ℝ (rows k).logp theta)) theta := by
      simp only [div_eq_mul_inv]
      exact ((HasFDerivAt.fun_sum fun k _ => (hl k).hasFDerivAt.mul_const _).mul_const _).neg
    have h2 : HasFDerivAt (fun theta => -((∑ k, Real.exp ((rows k).logp theta - (rows k).logpOld) * (rows k).adv) / N))
        (-((N : ℝ)⁻¹ • ∑ k, (rows k).adv • (Real.exp ((rows k).logp theta - (rows k).logpOld) • fderiv ℝ (rows k).logp theta))) theta := by
      simp only [div_eq_mul_inv]
      exact ((HasFDerivAt.fun_sum fun k _ => (((hl k).hasFDerivAt.sub_const _).exp).mul_const _).mul_const _).neg
    rw [h1.fderiv, h2.fderiv]
    simp only [hold, sub_self, Real.exp_zero, one_smul]
  exact ⟨hg, by unfold direction; rw [hg]; rfl⟩

/-! ### Examples -/

/-- Two actions; the parameter is the logit of the first. -/
noncomputable def exD : DRow 1 2 where
  logits := fun theta a => if a = 0 then theta 0 else 0
  act := 0
  adv := 1
  logpOld := Real.log (1 / 2)

theorem exD_smooth : exD.Smooth := by
  intro a
  fin_cases a
  · exact contDiff_apply ℝ ℝ 0
  · exact contDiff_const

/-- The parameters are the mean and the logarithm of the standard deviation. -/
noncomputable def exC : CRow 2 1 where
  mu := fun theta _ => theta 0
  sigma := fun theta _ => Real.exp (theta 1)
  act := fun _ => 1
  adv := 1
  logpOld := 0

theorem exC_smooth : exC.Smooth := fun _ => ⟨contDiff_apply ℝ ℝ 0, (contDiff_apply ℝ ℝ 1).exp, fun theta => Real.exp_pos _⟩

/-- The actors of the examples meet the hypotheses of `C255_curvature`. -/
example : ∀ k, ((fun _ : Fin 3 => exD.row) k).Regular := fun _ => Or.inl ⟨2, exD, exD_smooth, rfl⟩

/-- The derivative of the loss of the first actor. -/
theorem exD_slope (v : Fin 1 → ℝ) : gradOf (fun theta => exD.logProb theta 0) 0 ⬝ᵥ v = 1 / 2 * v 0 := by
  rw [gradOf_dot]
  have h := line_first (logProb_smooth exD exD_smooth 0) 0 v 0
  have e : (fun t : ℝ => exD.logProb (0 + t • v) 0) = fun t => t * v 0 - Real.log (Real.exp (t * v 0) + 1) := by
    funext t
    simp [DRow.logProb, exD, Fin.sum_univ_two]
  have h2 : HasDerivAt (fun t : ℝ => t * v 0 - Real.log (Real.exp (t * v 0) + 1)) (1 / 2 * v 0) 0 := by
    have h3 : HasDerivAt (fun t : ℝ => t * v 0) (v 0) 0 := by simpa using (hasDerivAt_id (0 : ℝ)).mul_const (v 0)
    have := h3.sub ((h3.exp.add_const 1).log (by positivity))
    refine this.congr_deriv ?_
    simp
    ring
  have h' : HasDerivAt (fun t : ℝ => exD.logProb (0 + t • v) 0) (fderiv ℝ (fun theta => exD.logProb theta 0) 0 v) 0 := by
    simpa using h
  rw [e] at h'
  exact h'.unique h2

/-- The gradient of a minibatch of three such rows is not zero, so `C255_npg` and `C255_trpo` apply. -/
example : (npgMini fun _ : Fin 3 => exD.row).grad 0 ≠ 0 := by
  intro h0
  have e : (npgMini fun _ : Fin 3 => exD.row).grad 0 = gradOf (fun theta => -exD.logProb theta 0) 0 := by
    show gradOf _ _ = _
    congr 1
    funext theta
    simp [DRow.row, exD]
  rw [e] at h0
  have h1 : gradOf (fun theta => -exD.logProb theta 0) 0 0 = -(gradOf (fun theta => exD.logProb theta 0) 0 0) := by
    unfold gradOf
    rw [show (fun theta => -exD.logProb theta 0) = -fun theta => exD.logProb theta 0 from rfl, fderiv_neg]
    rfl
  have h2 := exD_slope (fun _ => 1)
  rw [congrFun h0 0] at h1
  simp [dotProduct] at h2 h1
  rw [h2] at h1
  norm_num at h1

/-- The Fisher information of the second actor: 1 for the mean, 2 for the logarithm of the standard deviation. -/
example (v : Fin 2 → ℝ) : fisherNormal (fun _ : Fin 3 => exC) 0 v = v 0 ^ 2 + 2 * v 1 ^ 2 := by
  have h0 : HasFDerivAt (fun w : Fin 2 → ℝ => w 0) (ContinuousLinearMap.proj (R := ℝ) (φ := fun _ : Fin 2 => ℝ) 0) 0 :=
    (ContinuousLinearMap.proj (R := ℝ) (φ := fun _ : Fin 2 => ℝ) 0).hasFDerivAt
  have h1 : HasFDerivAt (fun w : Fin 2 → ℝ => w 1) (ContinuousLinearMap.proj (R := ℝ) (φ := fun _ : Fin 2 => ℝ) 1) 0 :=
    (ContinuousLinearMap.proj (R := ℝ) (φ := fun _ : Fin 2 => ℝ) 1).hasFDerivAt
  simp [fisherNormal, exC, h0.fderiv, h1.exp.fderiv]
  ring

end Verif.TrustRegion
