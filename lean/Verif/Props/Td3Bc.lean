import Verif.Model.Td3Bc
import Verif.Props.QLearning
import Mathlib.Analysis.SpecialFunctions.Sqrt

/-!
C273: what the actor of TD3+BC aims at.
-/

namespace Verif.Td3Bc

open Verif.Offline Verif.Ppo Verif.QLearning

variable {S Θ : Type} {n d : ℕ}

/-! ### Specification -/

/-- A dataset of `n` rows with actions of `d` entries, and a critic. -/
structure Task (S : Type) (n d : ℕ) where
  obs : Fin n → S
  act : Fin n → Fin d → ℝ
  critic : S → (Fin d → ℝ) → ℝ

/-- The critic as function of lists. -/
noncomputable def Task.net (t : Task S n d) (s : S) (a : List ℝ) : ℝ := t.critic s fun i => a.getD i 0

/-- Rows of actions. -/
def table (a : Fin n → Fin d → ℝ) : List (List ℝ) := List.ofFn fun k => List.ofFn (a k)

/-- The loss of an update with the whole dataset: the actor takes the actions `now` before the update. -/
noncomputable def Task.loss (t : Task S n d) (alpha : ℝ) (now act : Fin n → Fin d → ℝ) : Option ℝ :=
  actorLoss alpha t.net (List.ofFn t.obs) (table t.act) (table now) (table act)

/-- Training has settled: with the actor `mu θ` the loss is defined, and no parameters have a lower loss. -/
def Task.Settled (t : Task S n d) (alpha : ℝ) (mu : Θ → S → Fin d → ℝ) (θ : Θ) : Prop :=
  ∃ x, t.loss alpha (fun k => mu θ (t.obs k)) (fun k => mu θ (t.obs k)) = some x ∧
    ∀ θ' y, t.loss alpha (fun k => mu θ (t.obs k)) (fun k => mu θ' (t.obs k)) = some y → x ≤ y

/-- The mean value of actions, their mean absolute value, and their mean squared distance to the dataset. -/
noncomputable def Task.value (t : Task S n d) (a : Fin n → Fin d → ℝ) : ℝ := (∑ k, t.critic (t.obs k) (a k)) / n
noncomputable def Task.size (t : Task S n d) (a : Fin n → Fin d → ℝ) : ℝ := (∑ k, |t.critic (t.obs k) (a k)|) / n
noncomputable def Task.distance (t : Task S n d) (a : Fin n → Fin d → ℝ) : ℝ := (∑ k, ∑ i, (a k i - t.act k i) ^ 2) / (n * d)

/-! ### Proofs -/

theorem mse_eq (a b : Fin n → Fin d → ℝ) : mseLoss (table a) (table b) = (∑ k, ∑ i, (a k i - b k i) ^ 2) / (n * d) := by
  unfold mseLoss table mean
  rw [zipWith_ofFn]
  simp only [zipWith_ofFn]
  rw [List.sum_flatten, List.length_flatten, List.map_ofFn, List.map_ofFn, List.sum_ofFn, List.sum_ofFn]
  simp [List.sum_ofFn]

theorem Task.values_eq (t : Task S n d) (a : Fin n → Fin d → ℝ) :
    values t.net (List.ofFn t.obs) (table a) = List.ofFn fun k => t.critic (t.obs k) (a k) := by
  unfold values table
  rw [zipWith_ofFn]
  congr 1
  funext k
  unfold Task.net
  congr 1
  funext i
  simp

theorem Task.loss_eq (t : Task S n d) (alpha : ℝ) (now act : Fin n → Fin d → ℝ) : t.loss alpha now act =
    if t.size now = 0 then none else some (-(alpha / t.size now) * t.value act + t.distance act) := by
  unfold Task.loss actorLoss lmbda
  rw [t.values_eq, t.values_eq, mse_eq, List.map_ofFn, mean_ofFn, mean_ofFn]
  change Option.map _ (if t.size now = 0 then none else some (alpha / t.size now)) = _
  split <;> rfl

theorem Task.settled_iff (t : Task S n d) (alpha : ℝ) (mu : Θ → S → Fin d → ℝ) (θ : Θ) : t.Settled alpha mu θ ↔
    t.size (fun k => mu θ (t.obs k)) ≠ 0 ∧ ∀ θ', -(alpha / t.size fun k => mu θ (t.obs k)) * t.value (fun k => mu θ (t.obs k)) + t.distance (fun k => mu θ (t.obs k)) ≤
      -(alpha / t.size fun k => mu θ (t.obs k)) * t.value (fun k => mu θ' (t.obs k)) + t.distance (fun k => mu θ' (t.obs k)) := by
  unfold Task.Settled
  simp only [t.loss_eq]
  by_cases h : t.size (fun k => mu θ (t.obs k)) = 0
  · simp [h]
  · simp [h]

theorem Task.size_nonneg (t : Task S n d) (a : Fin n → Fin d → ℝ) : 0 ≤ t.size a :=
  div_nonneg (Finset.sum_nonneg fun _ _ => abs_nonneg _) (Nat.cast_nonneg n)

theorem Task.distance_nonneg (t : Task S n d) (a : Fin n → Fin d → ℝ) : 0 ≤ t.distance a :=
  div_nonneg (Finset.sum_nonneg fun _ _ => Finset.sum_nonneg fun _ _ => sq_nonneg _) (mul_nonneg (Nat.cast_nonneg n) (Nat.cast_nonneg d))

theorem Task.value_le_size (t : Task S n d) (a : Fin n → Fin d → ℝ) : t.value a ≤ t.size a :=
  div_le_div_of_nonneg_right (Finset.sum_le_sum fun _ _ => le_abs_self _) (Nat.cast_nonneg n)

/-- The loss that is reported is that of C127. -/
theorem actorLoss_reported (alpha : ℝ) (critic : S → List ℝ → ℝ) (obs : List S) (data act : List (List ℝ)) :
    actorLoss alpha critic obs data act act = td3bcLoss alpha (values critic obs act) (mseLoss act data) := by
  unfold actorLoss lmbda td3bcLoss
  simp only
  split <;> rfl

/-- **C273, values against distance.** Compared with any other parameters, the actor is further away from the dataset by at most `alpha` times the gain in value,
relative to the mean absolute value of its own actions. -/
theorem C273_trade (t : Task S n d) (alpha : ℝ) (mu : Θ → S → Fin d → ℝ) (θ : Θ) (h : t.Settled alpha mu θ) (θ' : Θ) :
    0 < t.size (fun k => mu θ (t.obs k)) ∧ t.distance (fun k => mu θ (t.obs k)) - t.distance (fun k => mu θ' (t.obs k)) ≤
      alpha * ((t.value (fun k => mu θ (t.obs k)) - t.value fun k => mu θ' (t.obs k)) / t.size fun k => mu θ (t.obs k)) := by
  obtain ⟨hs, h⟩ := (t.settled_iff alpha mu θ).mp h
  refine ⟨lt_of_le_of_ne (t.size_nonneg _) (Ne.symm hs), ?_⟩
  have h1 := h θ'
  have h2 : alpha * ((t.value (fun k => mu θ (t.obs k)) - t.value fun k => mu θ' (t.obs k)) / t.size fun k => mu θ (t.obs k)) =
      (alpha / t.size fun k => mu θ (t.obs k)) * (t.value fun k => mu θ (t.obs k)) - (alpha / t.size fun k => mu θ (t.obs k)) * t.value fun k => mu θ' (t.obs k) := by
    ring
  rw [h2]
  linarith

/-- **C273, near the data and at least as good.** If some parameters `θ₀` repeat the actions of the dataset, then the critic values the actions of the actor at
least as high as those of the dataset, and their mean squared distance is at most `alpha` times the gain in value, relative to the mean absolute value. -/
theorem C273_near_partial (t : Task S n d) (alpha : ℝ) (ha : 0 < alpha) (mu : Θ → S → Fin d → ℝ) (θ θ₀ : Θ) (h₀ : ∀ k, mu θ₀ (t.obs k) = t.act k)
    (h : t.Settled alpha mu θ) :
    t.value t.act ≤ t.value (fun k => mu θ (t.obs k)) ∧
      t.distance (fun k => mu θ (t.obs k)) ≤ alpha * ((t.value (fun k => mu θ (t.obs k)) - t.value t.act) / t.size fun k => mu θ (t.obs k)) := by
  obtain ⟨hs, h⟩ := (t.settled_iff alpha mu θ).mp h
  have hpos := lt_of_le_of_ne (t.size_nonneg _) (Ne.symm hs)
  have h1 := h θ₀
  simp only [h₀] at h1
  have h2 : t.distance t.act = 0 := by simp [Task.distance]
  rw [h2, add_zero] at h1
  have h3 := t.distance_nonneg fun k => mu θ (t.obs k)
  have hl : 0 < alpha / t.size fun k => mu θ (t.obs k) := div_pos ha hpos
  have h4 : t.distance (fun k => mu θ (t.obs k)) ≤ (alpha / t.size fun k => mu θ (t.obs k)) * (t.value (fun k => mu θ (t.obs k)) - t.value t.act) := by
    linarith
  refine ⟨?_, h4.trans (le_of_eq (by ring))⟩
  have := (mul_nonneg_iff_of_pos_left hl).mp (h3.trans h4)
  linarith

/-- C273: so the mean squared distance is at most `alpha` if the actions of the dataset do not have a negative mean value. -/
theorem C273_alpha_partial (t : Task S n d) (alpha : ℝ) (ha : 0 < alpha) (mu : Θ → S → Fin d → ℝ) (θ θ₀ : Θ) (h₀ : ∀ k, mu θ₀ (t.obs k) = t.act k)
    (h : t.Settled alpha mu θ) (hv : 0 ≤ t.value t.act) : t.distance (fun k => mu θ (t.obs k)) ≤ alpha := by
  have hs := ((t.settled_iff alpha mu θ).mp h).1
  have hpos := lt_of_le_of_ne (t.size_nonneg _) (Ne.symm hs)
  refine (C273_near_partial t alpha ha mu θ θ₀ h₀ h).2.trans ?_
  have : (t.value (fun k => mu θ (t.obs k)) - t.value t.act) / t.size (fun k => mu θ (t.obs k)) ≤ 1 := by
    rw [div_le_one hpos]
    linarith [t.value_le_size fun k => mu θ (t.obs k)]
  exact mul_le_of_le_one_right ha.le this

/-- The same dataset with all values multiplied by `c` and shifted by `b`. -/
def Task.rescale (t : Task S n d) (c b : ℝ) : Task S n d := { t with critic := fun s a => c * t.critic s a + b }

/-- C273: the unit in which rewards are measured does not matter. -/
theorem C273_scale (t : Task S n d) (alpha : ℝ) (mu : Θ → S → Fin d → ℝ) (θ : Θ) (c : ℝ) (hc : 0 < c) :
    (t.rescale c 0).Settled alpha mu θ ↔ t.Settled alpha mu θ := by
  rw [Task.settled_iff, Task.settled_iff]
  have h1 : ∀ a, (t.rescale c 0).size a = c * t.size a := by
    intro a
    simp [Task.size, Task.rescale, abs_mul, abs_of_pos hc, ← Finset.mul_sum, mul_div_assoc]
  have h2 : ∀ a, (t.rescale c 0).value a = c * t.value a := by
    intro a
    simp [Task.value, Task.rescale, ← Finset.mul_sum, mul_div_assoc]
  have h3 : ∀ a, (t.rescale c 0).distance a = t.distance a := fun a => rfl
  have h4 : (t.rescale c 0).obs = t.obs := rfl
  simp only [h1, h2, h3, h4]
  have h5 : ∀ x y : ℝ, -(alpha / (c * x)) * (c * y) = -(alpha / x) * y := by
    intro x y
    rcases eq_or_ne x 0 with rfl | hx
    · simp
    · field_simp
  simp only [h5, ne_eq, mul_eq_zero, hc.ne', false_or]

/-! ### Violations -/

/-- One row with the action 0, actions with one entry, and a critic whose value is the action. -/
noncomputable def lineTask : Task Unit 1 1 where
  obs _ := ()
  act _ _ := 0
  critic _ a := a 0

/-- An actor that can take any action. -/
def free (x : ℝ) (_ : Unit) (_ : Fin 1) : ℝ := x

theorem line_settled (b x : ℝ) : (lineTask.rescale 1 b).Settled 2 free x ↔ x + b ≠ 0 ∧ x * |x + b| = 1 := by
  rw [Task.settled_iff]
  have h1 : ∀ y, (lineTask.rescale 1 b).size (fun k => free y ((lineTask.rescale 1 b).obs k)) = |y + b| := by
    intro y; simp [Task.size, Task.rescale, lineTask, free]
  have h2 : ∀ y, (lineTask.rescale 1 b).value (fun k => free y ((lineTask.rescale 1 b).obs k)) = y + b := by
    intro y; simp [Task.value, Task.rescale, lineTask, free]
  have h3 : ∀ y, (lineTask.rescale 1 b).distance (fun k => free y ((lineTask.rescale 1 b).obs k)) = y ^ 2 := by
    intro y; simp [Task.distance, Task.rescale, lineTask, free]
  simp only [h1, h2, h3, ne_eq, abs_eq_zero]
  refine and_congr_right fun hne => ?_
  have hpos : 0 < |x + b| := abs_pos.mpr hne
  constructor
  · intro h
    have h4 := h (1 / |x + b|)
    have h5 : (x - 1 / |x + b|) ^ 2 ≤ 0 := by
      have : (2 : ℝ) / |x + b| = 2 * (1 / |x + b|) := by ring
      rw [this] at h4
      nlinarith
    have h6 : x - 1 / |x + b| = 0 := by
      have := le_antisymm h5 (sq_nonneg _)
      exact pow_eq_zero_iff (two_ne_zero) |>.mp this
    exact (eq_div_iff hpos.ne').mp (sub_eq_zero.mp h6)
  · intro h y
    have h4 : (2 : ℝ) / |x + b| = 2 * x := by
      rw [div_eq_iff hpos.ne']; linarith
    rw [h4]
    nlinarith [sq_nonneg (x - y)]

/-- **C273 is violated if rewards are shifted**: when `b` is added to all values, which does not change which actions are better, the actor settles at most at
the distance `1 / b` from the dataset, although it settles at distance 1 without. -/
theorem C273_violated : (lineTask.rescale 1 0).Settled 2 free 1 ∧ ∀ b x, 0 < b → (lineTask.rescale 1 b).Settled 2 free x → |x| ≤ 1 / b := by
  refine ⟨(line_settled 0 1).mpr ⟨by norm_num, by norm_num⟩, fun b x hb h => ?_⟩
  obtain ⟨hne, h⟩ := (line_settled b x).mp h
  have hx : 0 < x := by
    by_contra hx
    have := mul_nonneg (neg_nonneg.mpr (not_lt.mp hx)) (abs_nonneg (x + b))
    linarith
  rw [abs_of_pos (by linarith)] at h
  rw [abs_of_pos hx, le_div_iff₀ hb]
  nlinarith

/-- **C273 is violated for negative values**: the distance of the actor from the dataset is not bounded in terms of `alpha`. -/
theorem C273_violated_far (b : ℝ) (hb : 0 < b) : ∃ x, b ≤ x ∧ (lineTask.rescale 1 (-b)).Settled 2 free x := by
  have h1 : 0 ≤ b ^ 2 + 4 := by positivity
  have h2 : b < √(b ^ 2 + 4) := by
    rw [Real.lt_sqrt hb.le]; linarith
  refine ⟨(b + √(b ^ 2 + 4)) / 2, by linarith, (line_settled _ _).mpr ⟨by linarith, ?_⟩⟩
  rw [abs_of_pos (by linarith)]
  nlinarith [Real.sq_sqrt h1]

/-! ### Examples -/

/-- The hypotheses of `C273_near_partial` and `C273_alpha_partial`. -/
example : lineTask.Settled 2 free 1 ∧ (∀ k, free 0 (lineTask.obs k) = lineTask.act k) ∧ 0 ≤ lineTask.value lineTask.act := by
  refine ⟨?_, fun _ => rfl, by simp [Task.value, lineTask]⟩
  have := (C273_scale (lineTask) 2 free 1 1 one_pos).mp C273_violated.1
  exact this

end Verif.Td3Bc
