import Verif.Props.Offline
import Mathlib.Analysis.SpecialFunctions.ExpDeriv
import Mathlib.Analysis.Complex.ExponentialBounds
import Mathlib.Analysis.Calculus.Deriv.Mul
import Mathlib.Analysis.Calculus.Deriv.Pow
import Mathlib.Tactic.Linarith

/-!
C258: what the loss of the actor of discrete CRR does to the critic.
-/

namespace Verif.Offline

open Verif.Ppo

/-! ### Specification -/

/-- A row when the outputs of the critic for its observation are moved by `t` in the direction `dq`. -/
def moved (t : ℝ) (x : CrrRow ℝ × List ℝ) : CrrRow ℝ := { x.1 with q := List.zipWith (fun q d => q + t * d) x.1.q x.2 }

/-- How fast the advantage of the logged action then changes: the change of its value minus the mean change under the policy. -/
noncomputable def dAdv (x : CrrRow ℝ × List ℝ) : ℝ := x.2.getD x.1.act 0 - (List.zipWith (· * ·) x.2 x.1.probs).sum

/-- Directions have one number for each action, and the logged action is one of them. -/
def Fits (x : CrrRow ℝ × List ℝ) : Prop := x.2.length = x.1.q.length ∧ x.1.act < x.1.q.length

/-! ### Lemmas -/

theorem dot_moved (t : ℝ) : ∀ (q d p : List ℝ), d.length = q.length →
    dot (List.zipWith (fun q d => q + t * d) q d) p = dot q p + t * dot d p
  | [], [], _, _ => by simp [dot]
  | q :: qs, d :: ds, [], _ => by simp [dot]
  | q :: qs, d :: ds, p :: ps, h => by
    have := dot_moved t qs ds ps (by simpa using h)
    simp only [dot, List.zipWith_cons_cons, List.sum_cons] at this ⊢
    rw [this]
    ring

theorem getD_moved (t : ℝ) : ∀ (q d : List ℝ) (a : Nat), d.length = q.length → a < q.length →
    (List.zipWith (fun q d => q + t * d) q d).getD a 0 = q.getD a 0 + t * d.getD a 0
  | q :: qs, d :: ds, 0, _, _ => by simp
  | q :: qs, d :: ds, a + 1, h, ha => by
    have := getD_moved t qs ds a (by simpa using h) (by simpa using ha)
    simpa using this

theorem advantage_moved (t : ℝ) (x : CrrRow ℝ × List ℝ) (h : Fits x) : (moved t x).advantage = x.1.advantage + t * dAdv x := by
  simp only [CrrRow.advantage, CrrRow.qa, moved, dAdv]
  rw [dot_moved t _ _ _ h.1, getD_moved t _ _ _ h.1 h.2]
  simp only [dot]
  ring

/-- The derivative of the weight of a row, where it has one. -/
noncomputable def dCoef (mode : CrrMode) (beta bound : ℝ) (x : CrrRow ℝ × List ℝ) : ℝ :=
  match mode with
  | .exp => if Real.exp (x.1.advantage / beta) < bound then Real.exp (x.1.advantage / beta) / beta * dAdv x else 0
  | _ => 0

/-- Rows at which the weight has a derivative: not at a jump of the indicator, and not at the bend of the bound. -/
def Smooth (mode : CrrMode) (beta bound : ℝ) (x : CrrRow ℝ × List ℝ) : Prop :=
  match mode with
  | .exp => Real.exp (x.1.advantage / beta) ≠ bound
  | .binary => x.1.advantage ≠ 0
  | .all => True

theorem coef_deriv (mode : CrrMode) (beta bound : ℝ) (x : CrrRow ℝ × List ℝ) (hf : Fits x) (hs : Smooth mode beta bound x) :
    HasDerivAt (fun t => crrCoef Real.exp mode beta bound (moved t x).advantage) (dCoef mode beta bound x) 0 := by
  have hlin : HasDerivAt (fun t : ℝ => x.1.advantage + t * dAdv x) (dAdv x) 0 := by
    simpa using ((hasDerivAt_id (0 : ℝ)).mul_const (dAdv x)).const_add x.1.advantage
  have e0 : x.1.advantage + 0 * dAdv x = x.1.advantage := by ring
  simp only [advantage_moved _ x hf]
  have hcont : ContinuousAt (fun t : ℝ => x.1.advantage + t * dAdv x) 0 := hlin.continuousAt
  cases mode with
  | all => exact hasDerivAt_const _ _
  | binary =>
    rcases lt_or_gt_of_ne hs with h | h
    · refine (hasDerivAt_const (0 : ℝ) (0 : ℝ)).congr_of_eventuallyEq ?_
      have := hcont.eventually_lt continuousAt_const (show x.1.advantage + 0 * dAdv x < 0 by rw [e0]; exact h)
      filter_upwards [this] with t ht
      simp only [crrCoef, if_neg (not_lt.2 ht.le)]
    · refine (hasDerivAt_const (0 : ℝ) (1 : ℝ)).congr_of_eventuallyEq ?_
      have := continuousAt_const.eventually_lt hcont (show 0 < x.1.advantage + 0 * dAdv x by rw [e0]; exact h)
      filter_upwards [this] with t ht
      simp only [crrCoef, if_pos ht]
  | exp =>
    have hexp : HasDerivAt (fun t : ℝ => Real.exp ((x.1.advantage + t * dAdv x) / beta))
        (Real.exp (x.1.advantage / beta) / beta * dAdv x) 0 := by
      have := (hlin.div_const beta).exp
      rw [e0] at this
      convert this using 1
      ring
    have hc := hexp.continuousAt
    have e1 : Real.exp ((x.1.advantage + 0 * dAdv x) / beta) = Real.exp (x.1.advantage / beta) := by rw [e0]
    rcases lt_or_gt_of_ne hs with h | h
    · simp only [dCoef, if_pos h]
      refine hexp.congr_of_eventuallyEq ?_
      have := hc.eventually_lt continuousAt_const (show Real.exp ((x.1.advantage + 0 * dAdv x) / beta) < bound by rw [e1]; exact h)
      filter_upwards [this] with t ht
      simp only [crrCoef, max_eq_left (Real.exp_pos _).le, min_eq_left ht.le]
    · simp only [dCoef, if_neg (not_lt.2 (le_of_lt h))]
      refine (hasDerivAt_const (0 : ℝ) bound).congr_of_eventuallyEq ?_
      have := continuousAt_const.eventually_lt hc (show bound < Real.exp ((x.1.advantage + 0 * dAdv x) / beta) by rw [e1]; exact h)
      filter_upwards [this] with t ht
      simp only [crrCoef, max_eq_left (Real.exp_pos _).le, min_eq_right (le_of_lt ht)]

theorem sum_deriv {A : Type} (f : A → ℝ → ℝ) (f' : A → ℝ) : ∀ (l : List A), (∀ x ∈ l, HasDerivAt (f x) (f' x) 0) →
    HasDerivAt (fun t => (l.map fun x => f x t).sum) (l.map f').sum 0
  | [], _ => by simpa using hasDerivAt_const (0 : ℝ) (0 : ℝ)
  | x :: l, h => by
    have := (h x (by simp)).add (sum_deriv f f' l fun y hy => h y (by simp [hy]))
    simp only [List.map_cons, List.sum_cons]
    exact this

/-! ### C258 -/

/-- C258, what happens: if the outputs of the critic for the observations of a batch move in any directions, the loss of the actor changes at
the rate of the mean of the negative log-likelihoods times the mean of the rates of the weights. -/
theorem C258_rate (mode : CrrMode) (beta bound : ℝ) (xs : List (CrrRow ℝ × List ℝ)) (hne : xs ≠ []) (hf : ∀ x ∈ xs, Fits x)
    (hs : ∀ x ∈ xs, Smooth mode beta bound x) :
    HasDerivAt (fun t => crrActorLoss Real.exp mode beta bound (xs.map (moved t)))
      ((xs.map fun x => -x.1.logp).sum / xs.length * ((xs.map (dCoef mode beta bound)).sum / xs.length)) 0 := by
  have h1 : ∀ t, crrActorLoss Real.exp mode beta bound (xs.map (moved t)) =
      (xs.map fun x => -x.1.logp).sum / xs.length *
        ((xs.map fun x => crrCoef Real.exp mode beta bound (moved t x).advantage).sum / xs.length) := by
    intro t
    rw [(C114_actor_partial Real.exp mode beta bound (xs.map (moved t)) (by simpa using hne)).1]
    simp only [mean, List.map_map, List.length_map]
    rfl
  simp only [h1]
  exact ((sum_deriv _ _ xs fun x hx => coef_deriv mode beta bound x (hf x hx) (hs x hx)).div_const _).const_mul _

/-- C258, modes "binary" and "all": the loss of the actor does not act on the critic: its rate is zero in all directions. -/
theorem C258_apart_partial (mode : CrrMode) (hm : mode ≠ .exp) (beta bound : ℝ) (xs : List (CrrRow ℝ × List ℝ)) (hne : xs ≠ [])
    (hf : ∀ x ∈ xs, Fits x) (hs : ∀ x ∈ xs, mode = .binary → x.1.advantage ≠ 0) :
    HasDerivAt (fun t => crrActorLoss Real.exp mode beta bound (xs.map (moved t))) 0 0 := by
  have := C258_rate mode beta bound xs hne hf (fun x hx => by
    cases mode with
    | exp => exact absurd rfl hm
    | binary => exact hs x hx rfl
    | all => trivial)
  have e : xs.map (dCoef mode beta bound) = xs.map fun _ => (0 : ℝ) := by
    apply List.map_congr_left
    intro x _
    cases mode with
    | exp => exact absurd rfl hm
    | binary => rfl
    | all => rfl
  rw [e] at this
  simpa using this

/-- A terminal transition with reward 1 and two actions, both with probability one half; the critic has the value 1 for the action taken and 0
for the other. -/
noncomputable def fitted : CrrRow ℝ := ⟨[1, 0], 0, [1 / 2, 1 / 2], -Real.log 2, 1, true, false, [0, 0], [1 / 2, 1 / 2]⟩

theorem fitted_adv : fitted.advantage = 1 / 2 := by norm_num [fitted, CrrRow.advantage, CrrRow.qa, dot]

/-- C258 is violated in mode "exp", the weights not being detached: a critic that already has the value of its target, so that its own loss is
zero, is moved away from it. With `beta = 1` and the bound 20 the total loss (no conservative term) grows with the value of the logged action
at a positive rate, so that the step of the optimizer lowers it. -/
theorem C258_violated : crrCriticLoss 1 [fitted] = 0 ∧ ∃ rate : ℝ, 0 < rate ∧
    HasDerivAt (fun t => crrLoss Real.exp lse .exp 1 20 1 0 ([(fitted, [1, 0])].map (moved t))) rate 0 := by
  have h0 : crrCriticLoss 1 [fitted] = 0 := by norm_num [crrCriticLoss, crrTarget, fitted, CrrRow.qa, mean]
  refine ⟨h0, Real.log 2 * (Real.exp (1 / 2) * (1 / 2)), by positivity, ?_⟩
  have hb : Real.exp (1 / 2) < 20 := by
    have h := Real.exp_one_lt_d9
    have : Real.exp (1 / 2) ≤ Real.exp 1 := Real.exp_le_exp.2 (by norm_num)
    linarith
  have hfit : Fits (fitted, [1, 0]) := ⟨rfl, by norm_num [fitted]⟩
  have hd : dAdv (fitted, [1, 0]) = 1 / 2 := by norm_num [dAdv, fitted]
  have hA := C258_rate .exp 1 20 [(fitted, [1, 0])] (by simp) (by simpa using hfit) (by
    intro x hx
    rw [List.mem_singleton.1 hx]
    show Real.exp (fitted.advantage / 1) ≠ 20
    rw [fitted_adv, div_one]
    exact hb.ne)
  have hc : dCoef .exp 1 20 (fitted, [1, 0]) = Real.exp (1 / 2) * (1 / 2) := by
    simp only [dCoef, fitted_adv, div_one, if_pos hb, hd]
  have hC : HasDerivAt (fun t : ℝ => crrCriticLoss 1 ([(fitted, [1, 0])].map (moved t))) 0 0 := by
    have : ∀ t : ℝ, crrCriticLoss 1 ([(fitted, [1, 0])].map (moved t)) = 1 / 2 * t ^ 2 := by
      intro t
      simp [crrCriticLoss, crrTarget, fitted, CrrRow.qa, mean, moved]
    simp only [this]
    exact (((hasDerivAt_id (0 : ℝ)).pow 2).const_mul (1 / 2 : ℝ)).congr_deriv (by simp)
  have hall := hA.add hC
  have e : (fun t => crrLoss Real.exp lse .exp 1 20 1 0 ([(fitted, [1, 0])].map (moved t))) =
      (fun t => crrActorLoss Real.exp .exp 1 20 ([(fitted, [1, 0])].map (moved t))) +
        fun t => crrCriticLoss 1 ([(fitted, [1, 0])].map (moved t)) := by
    funext t
    simp only [crrLoss, zero_mul, add_zero, Pi.add_apply]
  rw [e]
  refine hall.congr_deriv ?_
  show (List.sum [- -Real.log 2]) / (([(fitted, [1, 0])] : List (CrrRow ℝ × List ℝ)).length : ℝ) *
    ((List.sum [dCoef .exp 1 20 (fitted, [1, 0])]) / (([(fitted, [1, 0])] : List (CrrRow ℝ × List ℝ)).length : ℝ)) + 0 = _
  rw [hc]
  simp

/-- A batch as in the theorems. -/
example : Fits (fitted, [3, -1]) ∧ Smooth .binary 1 20 (fitted, [3, -1]) :=
  ⟨⟨rfl, by norm_num [fitted]⟩, by show fitted.advantage ≠ 0; rw [fitted_adv]; norm_num⟩

end Verif.Offline
