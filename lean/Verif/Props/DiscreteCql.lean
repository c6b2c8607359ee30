import Verif.Model.DiscreteCql
import Verif.Props.Quantile
import Mathlib.Analysis.SpecialFunctions.Exponential
import Mathlib.Analysis.Normed.Group.Bounded
import Mathlib.Topology.Order.Compact
import Mathlib.Topology.MetricSpace.ProperSpace.Real
import Mathlib.Analysis.SpecialFunctions.Log.Basic
import Mathlib.Tactic.FieldSimp

/-! C277: what discrete CQL learns from a dataset. -/

namespace Verif.DiscreteCql

open Verif.QTarget Verif.Imitation
open Verif.QLearning (mean_ofFn zipWith_ofFn)
open Verif.Quantile (h slope balance total mass)

set_option linter.unusedSectionVars false

variable {X : Type} [DecidableEq X] {A B n : ℕ}

/-! ### Specification -/

/-- A batch: observations, actions, and the numbers of the target distributions. -/
structure Data (X : Type) (A B n : ℕ) where
  obs : Fin B → X
  act : Fin B → Fin A
  target : Fin B → Fin n → ℝ

/-- The value of an action: the mean of its quantiles. -/
noncomputable def value (T : X → Fin A → Fin n → ℝ) (x : X) (a : Fin A) : ℝ := (∑ i, T x a i) / n

/-- Probabilities in proportion to the exponentials of the values. -/
noncomputable def softmax (T : X → Fin A → Fin n → ℝ) (x : X) (a : Fin A) : ℝ := Real.exp (value T x a) / ∑ b, Real.exp (value T x b)

/-- How often the action `a` was taken in `x`. -/
def Data.times (d : Data X A B n) (x : X) (a : Fin A) : ℕ := (Finset.univ.filter fun k => d.obs k = x ∧ d.act k = a).card

/-- How often `x` occurs. -/
def Data.visits (d : Data X A B n) (x : X) : ℕ := (Finset.univ.filter fun k => d.obs k = x).card

/-- The frequency of `a` among the actions in `x`. -/
noncomputable def Data.freq (d : Data X A B n) (x : X) (a : Fin A) : ℝ := d.times x a / d.visits x

/-- The loss of a table of quantiles. -/
noncomputable def Data.loss (d : Data X A B n) (minQWeight : ℝ) (T : X → Fin A → Fin n → ℝ) : Option ℝ :=
  learnLoss minQWeight n (fun x => List.ofFn fun a => List.ofFn (T x a)) (List.ofFn d.obs) (List.ofFn fun k => (d.act k).val)
    (List.ofFn fun k => List.ofFn (d.target k)) (List.ofFn fun _ : Fin B => 1)

/-- No table has a smaller loss. -/
def Data.Settled (d : Data X A B n) (minQWeight : ℝ) (T : X → Fin A → Fin n → ℝ) : Prop :=
  ∀ T', ∃ l l', d.loss minQWeight T = some l ∧ d.loss minQWeight T' = some l' ∧ l ≤ l'

/-! ### The loss as a sum -/

/-- The fractions of the quantiles. -/
noncomputable def tau (n : ℕ) (i : Fin n) : ℝ := (2 * (i : ℝ) + 1) / (2 * n)

theorem tauHat_ofFn (n : ℕ) : tauHat (K := ℝ) n = List.ofFn (tau n) := by
  rcases Nat.eq_zero_or_pos n with h0 | h0
  · subst h0; rfl
  · obtain ⟨h1, h2⟩ := C98_midpoints (K := ℝ) n h0
    refine List.ext_getElem (by rw [h1, List.length_ofFn]) fun i hi hi' => ?_
    have h3 := (h2 i (by rwa [h1] at hi)).1
    rw [List.getElem?_eq_getElem hi, Option.some.injEq] at h3
    rw [h3, List.getElem_ofFn]
    rfl

theorem tau_bounds (i : Fin n) : 0 < tau n i ∧ tau n i < 1 := by
  have hn : (0 : ℝ) < n := by exact_mod_cast Fin.pos i
  have hi : (i : ℝ) + 1 ≤ n := by exact_mod_cast i.isLt
  unfold tau
  constructor
  · positivity
  · rw [div_lt_one (by positivity)]
    linarith

theorem mapM_ofFn {α β : Type} {m : ℕ} (f : α → Option β) (a : Fin m → α) (b : Fin m → β) (hab : ∀ k, f (a k) = some (b k)) :
    (List.ofFn a).mapM f = some (List.ofFn b) := by
  induction m with
  | zero => simp
  | succ m ih =>
    rw [List.ofFn_succ, List.ofFn_succ, List.mapM_cons, hab, ih _ (fun k => b k.succ) fun k => hab k.succ]
    rfl

/-- The sum of the losses of the rows. -/
noncomputable def Data.sum (d : Data X A B n) (minQWeight : ℝ) (T : X → Fin A → Fin n → ℝ) : ℝ :=
  ∑ k, ((∑ i, ∑ j, h (tau n i) (d.target k j - T (d.obs k) (d.act k) i)) / n +
    minQWeight * (Real.log (∑ a, Real.exp (value T (d.obs k) a)) - value T (d.obs k) (d.act k)))

theorem Data.loss_eq (d : Data X A B n) (minQWeight : ℝ) (T : X → Fin A → Fin n → ℝ) : d.loss minQWeight T = some (d.sum minQWeight T / B) := by
  have hz : ((List.ofFn d.obs).map fun x => List.ofFn fun a => List.ofFn (T x a)).zip (List.ofFn fun k => (d.act k).val) =
      List.ofFn fun k => (List.ofFn fun a => List.ofFn (T (d.obs k) a), (d.act k).val) := by
    rw [List.map_ofFn, List.zip, zipWith_ofFn]
    rfl
  have hz2 : (((List.ofFn d.obs).map fun x => List.ofFn fun a => List.ofFn (T x a)).map fun r => r.map quantileValue).zip (List.ofFn fun k => (d.act k).val) =
      List.ofFn fun k => (List.ofFn fun a => value T (d.obs k) a, (d.act k).val) := by
    rw [List.map_ofFn, List.map_ofFn, List.zip, zipWith_ofFn]
    congr 1
    funext k
    simp only [Function.comp_def, List.map_ofFn, quantileValue, mean_ofFn, value]
  unfold Data.loss learnLoss
  simp only [hz]
  rw [mapM_ofFn _ _ (fun k => List.ofFn (T (d.obs k) (d.act k))) fun k => by simp]
  simp only [Option.bind_some, cqlTotal, cqlPenalty]
  rw [hz2, mapM_ofFn _ _ (fun k => value T (d.obs k) (d.act k)) fun k => by simp]
  simp only [Option.map_some, Option.some.injEq, quantileLoss, quantileRow, zipWith_ofFn, tauHat_ofFn, mean_ofFn, List.map_ofFn, List.sum_ofFn,
    Function.comp_def, mul_one, lse, quantileValue]
  unfold Data.sum value h
  rw [Finset.sum_add_distrib, add_div, ← Finset.mul_sum, Finset.sum_sub_distrib]
  ring

theorem Data.settled_iff (d : Data X A B n) (hB : 0 < B) (minQWeight : ℝ) (T : X → Fin A → Fin n → ℝ) :
    d.Settled minQWeight T ↔ ∀ T', d.sum minQWeight T ≤ d.sum minQWeight T' := by
  have hB' : (0 : ℝ) < B := by exact_mod_cast hB
  unfold Data.Settled
  refine forall_congr' fun T' => ?_
  simp only [d.loss_eq, Option.some.injEq, exists_eq_left', exists_and_left]
  rw [div_le_div_iff_of_pos_right hB']

/-! ### Changing one number -/

/-- The table with one number changed. -/
def bump (T : X → Fin A → Fin n → ℝ) (x : X) (a : Fin A) (i : Fin n) (delta : ℝ) (x' : X) (a' : Fin A) (i' : Fin n) : ℝ :=
  T x' a' i' + if x' = x ∧ a' = a ∧ i' = i then delta else 0

theorem value_bump (T : X → Fin A → Fin n → ℝ) (x : X) (a : Fin A) (i : Fin n) (delta : ℝ) (x' : X) (a' : Fin A) :
    value (bump T x a i delta) x' a' = value T x' a' + if x' = x ∧ a' = a then delta / n else 0 := by
  unfold value bump
  rw [Finset.sum_add_distrib, add_div]
  congr 1
  by_cases hx : x' = x ∧ a' = a
  · simp [hx.1, hx.2]
  · have : ∀ i' : Fin n, ¬(x' = x ∧ a' = a ∧ i' = i) := fun i' hc => hx ⟨hc.1, hc.2.1⟩
    simp [this, hx]

/-- The weights of the numbers of all target distributions, those of other observations and actions being 0. -/
def Data.weights (d : Data X A B n) (x : X) (a : Fin A) (q : Fin B × Fin n) : ℝ := if d.obs q.1 = x ∧ d.act q.1 = a then 1 else 0

theorem Data.weights_nonneg (d : Data X A B n) (x : X) (a : Fin A) (q : Fin B × Fin n) : 0 ≤ d.weights x a q := by
  unfold Data.weights
  split <;> norm_num

theorem Data.weights_sum (d : Data X A B n) (x : X) (a : Fin A) : ∑ q, d.weights x a q = d.times x a * n := by
  unfold Data.weights Data.times
  rw [Fintype.sum_prod_type]
  have e : ∀ k : Fin B, (∑ _j : Fin n, if d.obs k = x ∧ d.act k = a then (1 : ℝ) else 0) = n * if d.obs k = x ∧ d.act k = a then 1 else 0 := by
    intro k
    rw [Finset.sum_const, Finset.card_univ, Fintype.card_fin, nsmul_eq_mul]
  refine (Finset.sum_congr rfl fun k _ => e k).trans ?_
  rw [← Finset.mul_sum, Finset.sum_boole]
  ring

theorem total_upper {J : Type} [Fintype J] {t : ℝ} (h0 : 0 < t) (h1 : t < 1) (w x : J → ℝ) (hw : ∀ j, 0 ≤ w j) (c d : ℝ) :
    total t w x (c + d) ≤ total t w x c - d * balance t w x c + (∑ j, w j) * (d ^ 2 / 2) := by
  unfold total balance
  rw [Finset.mul_sum, Finset.sum_mul, ← Finset.sum_sub_distrib, ← Finset.sum_add_distrib]
  refine Finset.sum_le_sum fun j _ => ?_
  rw [Quantile.h_eq h0 h1, Quantile.h_eq h0 h1]
  have e1 := Quantile.pos_upper (x j - c) (x j - (c + d))
  have e2 := Quantile.pos_upper (-(x j - c)) (-(x j - (c + d)))
  have e3 : t * Quantile.pos (x j - (c + d)) + (1 - t) * Quantile.pos (-(x j - (c + d))) ≤
      t * (Quantile.pos (x j - c) + slope (x j - c) * (x j - (c + d) - (x j - c)) + (x j - (c + d) - (x j - c)) ^ 2 / 2) +
        (1 - t) * (Quantile.pos (-(x j - c)) + slope (-(x j - c)) * (-(x j - (c + d)) - -(x j - c)) + (-(x j - (c + d)) - -(x j - c)) ^ 2 / 2) :=
    add_le_add (mul_le_mul_of_nonneg_left e1 h0.le) (mul_le_mul_of_nonneg_left e2 (by linarith))
  refine (mul_le_mul_of_nonneg_left e3 (hw j)).trans (le_of_eq ?_)
  ring

theorem quantile_bump (d : Data X A B n) (T : X → Fin A → Fin n → ℝ) (x : X) (a : Fin A) (i : Fin n) (delta : ℝ) :
    ∑ k, (∑ i', ∑ j, h (tau n i') (d.target k j - bump T x a i delta (d.obs k) (d.act k) i')) =
      ∑ k, (∑ i', ∑ j, h (tau n i') (d.target k j - T (d.obs k) (d.act k) i')) +
        (total (tau n i) (d.weights x a) (fun q => d.target q.1 q.2) (T x a i + delta) - total (tau n i) (d.weights x a) (fun q => d.target q.1 q.2) (T x a i)) := by
  unfold total
  rw [Fintype.sum_prod_type, Fintype.sum_prod_type, ← Finset.sum_sub_distrib, ← Finset.sum_add_distrib]
  refine Finset.sum_congr rfl fun k _ => ?_
  unfold Data.weights bump
  by_cases hk : d.obs k = x ∧ d.act k = a
  · simp only [hk, and_self, true_and, if_true, one_mul]
    rw [← Finset.add_sum_erase _ _ (Finset.mem_univ i),
      ← Finset.add_sum_erase _ (fun i' => ∑ j, h (tau n i') (d.target k j - T x a i')) (Finset.mem_univ i)]
    have : ∑ i' ∈ Finset.univ.erase i, ∑ j, h (tau n i') (d.target k j - (T x a i' + if i' = i then delta else 0)) =
        ∑ i' ∈ Finset.univ.erase i, ∑ j, h (tau n i') (d.target k j - T x a i') := by
      refine Finset.sum_congr rfl fun i' hi' => ?_
      rw [if_neg (Finset.ne_of_mem_erase hi'), add_zero]
    rw [this, if_pos rfl]
    ring
  · have hno : ∀ i' : Fin n, ¬(d.obs k = x ∧ d.act k = a ∧ i' = i) := fun i' hc => hk ⟨hc.1, hc.2.1⟩
    simp only [hno, hk, if_false, add_zero, zero_mul, Finset.sum_const_zero, sub_zero]

theorem softmax_pos (T : X → Fin A → Fin n → ℝ) (x : X) (a : Fin A) : 0 < softmax T x a :=
  div_pos (Real.exp_pos _) (Finset.sum_pos (fun _ _ => Real.exp_pos _) ⟨a, Finset.mem_univ a⟩)

/-- How much the logarithm of the sum of exponentials grows with one value. -/
theorem lse_bump (T : X → Fin A → Fin n → ℝ) (x : X) (a : Fin A) (i : Fin n) (eps : ℝ) (he : |eps| ≤ 1) :
    Real.log (∑ b, Real.exp (value (bump T x a i (n * eps)) x b)) - Real.log (∑ b, Real.exp (value T x b)) ≤ softmax T x a * (eps + eps ^ 2) := by
  have hn : (n : ℝ) ≠ 0 := by exact_mod_cast (Fin.pos i).ne'
  have hpos : 0 < ∑ b, Real.exp (value T x b) := Finset.sum_pos (fun _ _ => Real.exp_pos _) ⟨a, Finset.mem_univ a⟩
  have hpos' : 0 < ∑ b, Real.exp (value (bump T x a i (n * eps)) x b) := Finset.sum_pos (fun _ _ => Real.exp_pos _) ⟨a, Finset.mem_univ a⟩
  have hsum : ∑ b, Real.exp (value (bump T x a i (n * eps)) x b) = ∑ b, Real.exp (value T x b) + Real.exp (value T x a) * (Real.exp eps - 1) := by
    simp only [value_bump, true_and]
    rw [← Finset.add_sum_erase _ _ (Finset.mem_univ a), ← Finset.add_sum_erase (a := a) _ (fun b => Real.exp (value T x b)) (Finset.mem_univ a)]
    have : ∑ b ∈ Finset.univ.erase a, Real.exp (value T x b + if b = a then n * eps / n else 0) = ∑ b ∈ Finset.univ.erase a, Real.exp (value T x b) := by
      refine Finset.sum_congr rfl fun b hb => ?_
      rw [if_neg (Finset.ne_of_mem_erase hb), add_zero]
    rw [this, if_pos rfl, mul_div_cancel_left₀ _ hn, Real.exp_add]
    ring
  rw [← Real.log_div hpos'.ne' hpos.ne']
  refine (Real.log_le_sub_one_of_pos (div_pos hpos' hpos)).trans ?_
  rw [hsum, add_div, div_self hpos.ne', add_sub_cancel_left]
  have h1 := (abs_le.mp (Real.abs_exp_sub_one_sub_id_le he)).2
  have h2 : Real.exp (value T x a) * (Real.exp eps - 1) / ∑ b, Real.exp (value T x b) = softmax T x a * (Real.exp eps - 1) := by
    unfold softmax
    ring
  rw [h2]
  exact mul_le_mul_of_nonneg_left (by linarith) (softmax_pos T x a).le

theorem flat_of_nonneg (p q : ℝ) (hpq : ∀ eps : ℝ, |eps| ≤ 1 → 0 ≤ p * eps + q * eps ^ 2) : p = 0 := by
  by_contra hp
  have hD : 0 < 2 * (|p| + |q| + 1) := by positivity
  have h1 := hpq (-p / (2 * (|p| + |q| + 1))) (by
    rw [abs_div, abs_neg, abs_of_pos hD, div_le_one hD]
    linarith [abs_nonneg q, abs_nonneg p])
  have h2 : p * (-p / (2 * (|p| + |q| + 1))) + q * (-p / (2 * (|p| + |q| + 1))) ^ 2 =
      p ^ 2 / (2 * (|p| + |q| + 1)) ^ 2 * (q - 2 * (|p| + |q| + 1)) := by
    field_simp
    ring
  rw [h2] at h1
  have h3 : q - 2 * (|p| + |q| + 1) < 0 := by linarith [le_abs_self q, abs_nonneg q, abs_nonneg p]
  have h4 : 0 < p ^ 2 / (2 * (|p| + |q| + 1)) ^ 2 := by positivity
  have := mul_neg_of_pos_of_neg h4 h3
  linarith

/-- Where the loss is least, the pull of the targets on each quantile is that of the penalty. -/
theorem Data.stationary (d : Data X A B n) (w : ℝ) (hw : 0 ≤ w) (T : X → Fin A → Fin n → ℝ) (hT : d.Settled w T) (x : X) (a : Fin A) (i : Fin n)
    (hB : 0 < B) : balance (tau n i) (d.weights x a) (fun q => d.target q.1 q.2) (T x a i) = w * (d.visits x * softmax T x a - d.times x a) := by
  rw [d.settled_iff hB] at hT
  have hn : (0 : ℝ) < n := by exact_mod_cast Fin.pos i
  have key := flat_of_nonneg (-balance (tau n i) (d.weights x a) (fun q => d.target q.1 q.2) (T x a i) + w * (d.visits x * softmax T x a - d.times x a))
    (d.times x a * n * n / 2 + w * (d.visits x * softmax T x a)) (fun eps he => by
      have h1 := hT (bump T x a i (n * eps))
      unfold Data.sum at h1
      rw [Finset.sum_add_distrib, Finset.sum_add_distrib, ← Finset.sum_div, ← Finset.sum_div, quantile_bump, ← Finset.mul_sum, ← Finset.mul_sum] at h1
      have h2 := total_upper (tau_bounds i).1 (tau_bounds i).2 (d.weights x a) (fun q => d.target q.1 q.2) (d.weights_nonneg x a) (T x a i) (n * eps)
      rw [d.weights_sum] at h2
      have h3 : ∑ k, (Real.log (∑ b, Real.exp (value (bump T x a i (n * eps)) (d.obs k) b)) - value (bump T x a i (n * eps)) (d.obs k) (d.act k)) ≤
          ∑ k, (Real.log (∑ b, Real.exp (value T (d.obs k) b)) - value T (d.obs k) (d.act k)) +
            (d.visits x * (softmax T x a * (eps + eps ^ 2)) - d.times x a * eps) := by
        have e1 : (d.visits x : ℝ) * (softmax T x a * (eps + eps ^ 2)) - d.times x a * eps =
            ∑ k, ((if d.obs k = x then softmax T x a * (eps + eps ^ 2) else 0) - if d.obs k = x ∧ d.act k = a then eps else 0) := by
          unfold Data.visits Data.times
          rw [Finset.sum_sub_distrib, ← Finset.sum_filter, ← Finset.sum_filter, Finset.sum_const, Finset.sum_const, nsmul_eq_mul, nsmul_eq_mul]
        rw [e1, ← Finset.sum_add_distrib]
        refine Finset.sum_le_sum fun k _ => ?_
        have e2 : value (bump T x a i (n * eps)) (d.obs k) (d.act k) = value T (d.obs k) (d.act k) + if d.obs k = x ∧ d.act k = a then eps else 0 := by
          rw [value_bump, mul_div_cancel_left₀ _ hn.ne']
        rw [e2]
        by_cases hk : d.obs k = x
        · rw [if_pos hk, hk]
          have := lse_bump T x a i eps he
          linarith
        · have e3 : ∀ b, value (bump T x a i (n * eps)) (d.obs k) b = value T (d.obs k) b := by
            intro b
            rw [value_bump, if_neg (fun hc => hk hc.1), add_zero]
          simp only [e3, hk, if_false, false_and]
          linarith
      have h4 := mul_le_mul_of_nonneg_left h3 hw
      have h5 := div_le_div_of_nonneg_right h2 hn.le
      rw [add_div] at h1
      rw [sub_div] at h1
      have e4 : (total (tau n i) (d.weights x a) (fun q => d.target q.1 q.2) (T x a i) -
          n * eps * balance (tau n i) (d.weights x a) (fun q => d.target q.1 q.2) (T x a i) + d.times x a * n * ((n * eps) ^ 2 / 2)) / n =
          total (tau n i) (d.weights x a) (fun q => d.target q.1 q.2) (T x a i) / n -
            eps * balance (tau n i) (d.weights x a) (fun q => d.target q.1 q.2) (T x a i) + d.times x a * n * n / 2 * eps ^ 2 := by
        field_simp
      rw [e4] at h5
      linarith)
  linarith

/-- The pull of the targets is bounded. -/
theorem balance_bounds {J : Type} [Fintype J] {t : ℝ} (h0 : 0 < t) (h1 : t < 1) (w x : J → ℝ) (hw : ∀ j, 0 ≤ w j) (c : ℝ) :
    -((1 - t) * ∑ j, w j) ≤ balance t w x c ∧ balance t w x c ≤ t * ∑ j, w j := by
  rw [Quantile.balance_split]
  have hs : ∀ u, 0 ≤ slope u ∧ slope u ≤ 1 := fun u => ⟨le_min (le_max_right _ _) zero_le_one, min_le_right _ _⟩
  have b1 : ∀ f : J → ℝ, 0 ≤ ∑ j, w j * slope (f j) ∧ ∑ j, w j * slope (f j) ≤ ∑ j, w j := fun f =>
    ⟨Finset.sum_nonneg fun j _ => mul_nonneg (hw j) (hs _).1, Finset.sum_le_sum fun j _ => mul_le_of_le_one_right (hw j) (hs _).2⟩
  obtain ⟨p1, p2⟩ := b1 fun j => x j - c
  obtain ⟨q1, q2⟩ := b1 fun j => -(x j - c)
  constructor <;> nlinarith

theorem Data.penalty_bound (d : Data X A B n) (hn : 0 < n) (w : ℝ) (hw : 0 ≤ w) (T : X → Fin A → Fin n → ℝ) (hT : d.Settled w T) (x : X) (a : Fin A)
    (hB : 0 < B) : |w * (d.visits x * softmax T x a - d.times x a)| ≤ d.times x a / 2 := by
  have hn' : (0 : ℝ) < n := by exact_mod_cast hn
  rw [abs_le]
  constructor
  · rw [← d.stationary w hw T hT x a ⟨n - 1, by omega⟩ hB]
    have h1 := (balance_bounds (tau_bounds (⟨n - 1, by omega⟩ : Fin n)).1 (tau_bounds _).2 (d.weights x a) (fun q => d.target q.1 q.2)
      (d.weights_nonneg x a) (T x a ⟨n - 1, by omega⟩)).1
    rw [d.weights_sum] at h1
    refine le_trans (le_of_eq ?_) h1
    unfold tau
    simp only
    rw [Nat.cast_sub (by omega : 1 ≤ n)]
    field_simp
    ring
  · rw [← d.stationary w hw T hT x a ⟨0, hn⟩ hB]
    have h1 := (balance_bounds (tau_bounds (⟨0, hn⟩ : Fin n)).1 (tau_bounds _).2 (d.weights x a) (fun q => d.target q.1 q.2)
      (d.weights_nonneg x a) (T x a ⟨0, hn⟩)).2
    rw [d.weights_sum] at h1
    refine h1.trans (le_of_eq ?_)
    unfold tau
    simp only [Nat.cast_zero]
    field_simp
    ring

theorem Data.visits_pos (d : Data X A B n) (k : Fin B) : (0 : ℝ) < d.visits (d.obs k) := by
  have : 0 < d.visits (d.obs k) := Finset.card_pos.mpr ⟨k, by simp⟩
  exact_mod_cast this

/-! ### C277 -/

/-- **C277, what is learned: mostly the frequencies.** Once the loss has settled, the softmax of the learned values differs from the frequencies of
the actions in the data by at most `1 / (2 * min_q_weight)` of these (5 % for the default 10), whatever the rewards, the targets and the number of
quantiles are. -/
theorem C277_clone (d : Data X A B n) (hn : 0 < n) (w : ℝ) (hw : 0 < w) (T : X → Fin A → Fin n → ℝ) (hT : d.Settled w T) (k : Fin B) (a : Fin A) :
    |softmax T (d.obs k) a - d.freq (d.obs k) a| ≤ d.freq (d.obs k) a / (2 * w) := by
  have h1 := d.penalty_bound hn w hw.le T hT (d.obs k) a (Fin.pos k)
  have hv := d.visits_pos k
  rw [abs_mul, abs_of_pos hw] at h1
  have e1 : (d.visits (d.obs k) : ℝ) * softmax T (d.obs k) a - d.times (d.obs k) a = d.visits (d.obs k) * (softmax T (d.obs k) a - d.freq (d.obs k) a) := by
    unfold Data.freq
    field_simp
  rw [e1, abs_mul, abs_of_pos hv] at h1
  have e2 : d.freq (d.obs k) a / (2 * w) = d.times (d.obs k) a / 2 / (w * d.visits (d.obs k)) := by
    unfold Data.freq
    field_simp
  rw [e2, le_div_iff₀ (mul_pos hw hv)]
  linarith

/-- C277: so an action that is more frequent (by more than these errors) gets the larger value, whatever the rewards are. -/
theorem C277_order (d : Data X A B n) (hn : 0 < n) (w : ℝ) (hw : 0 < w) (T : X → Fin A → Fin n → ℝ) (hT : d.Settled w T) (k : Fin B) (a b : Fin A)
    (hab : d.freq (d.obs k) b * (1 + 1 / (2 * w)) < d.freq (d.obs k) a * (1 - 1 / (2 * w))) : value T (d.obs k) b < value T (d.obs k) a := by
  have h1 := (abs_le.mp (C277_clone d hn w hw T hT k a)).1
  have h2 := (abs_le.mp (C277_clone d hn w hw T hT k b)).2
  have e : ∀ c : ℝ, c * (1 / (2 * w)) = c / (2 * w) := fun c => by ring
  have h3 : softmax T (d.obs k) b < softmax T (d.obs k) a := by
    rw [mul_add, mul_sub, e, e] at hab
    linarith
  unfold softmax at h3
  rw [div_lt_div_iff_of_pos_right (Finset.sum_pos (fun _ _ => Real.exp_pos _) ⟨a, Finset.mem_univ a⟩)] at h3
  exact Real.exp_lt_exp.mp h3

/-- C277, what else is learned: the quantiles of the targets. For an action that is in the data the numbers learned are, up to a distance of 1 (see C246),
quantiles of the target distributions for a fraction between `i / num_quantiles` and `(i + 1) / num_quantiles`, the fraction of QRDQN being in the middle:
at most `i + 1` of `num_quantiles` targets are smaller by 1 or more, and at least `i` are not larger by 1 or more. -/
theorem C277_quantiles (d : Data X A B n) (w : ℝ) (hw : 0 ≤ w) (T : X → Fin A → Fin n → ℝ) (hT : d.Settled w T) (k : Fin B) (i : Fin n) :
    ((Finset.univ.filter fun q : Fin B × Fin n => (d.obs q.1 = d.obs k ∧ d.act q.1 = d.act k) ∧
        d.target q.1 q.2 ≤ T (d.obs k) (d.act k) i - 1).card : ℝ) ≤ (i + 1) * d.times (d.obs k) (d.act k) ∧
    i * d.times (d.obs k) (d.act k) ≤ ((Finset.univ.filter fun q : Fin B × Fin n => (d.obs q.1 = d.obs k ∧ d.act q.1 = d.act k) ∧
        d.target q.1 q.2 < T (d.obs k) (d.act k) i + 1).card : ℝ) := by
  have hn : (0 : ℝ) < n := by exact_mod_cast Fin.pos i
  set x := d.obs k
  set a := d.act k
  have hs := d.stationary w hw T hT x a i (Fin.pos k)
  have hp := abs_le.mp (d.penalty_bound (Fin.pos i) w hw T hT x a (Fin.pos k))
  rw [← hs, Quantile.balance_split] at hp
  have hmass : ∀ (p : ℝ → Prop) [DecidablePred p], mass (d.weights x a) (fun q => d.target q.1 q.2) p =
      ((Finset.univ.filter fun q : Fin B × Fin n => (d.obs q.1 = x ∧ d.act q.1 = a) ∧ p (d.target q.1 q.2)).card : ℝ) := by
    intro p _
    unfold mass Data.weights
    rw [← Finset.sum_boole]
    refine Finset.sum_congr rfl fun q _ => ?_
    by_cases h1 : d.obs q.1 = x ∧ d.act q.1 = a <;> by_cases h2 : p (d.target q.1 q.2) <;> simp [h1, h2]
  rw [← hmass fun y => y ≤ T x a i - 1, ← hmass fun y => y < T x a i + 1]
  have hw0 := d.weights_nonneg x a
  obtain ⟨⟨a1, a2⟩, b1, b2⟩ := Quantile.slope_bounds (d.weights x a) (fun q => d.target q.1 q.2) hw0 (T x a i)
  have e1 := Quantile.mass_not (d.weights x a) (fun q => d.target q.1 q.2) fun y => y ≤ T x a i - 1
  have e2 := Quantile.mass_not (d.weights x a) (fun q => d.target q.1 q.2) fun y => y < T x a i + 1
  rw [d.weights_sum] at e1 e2
  have m1 : (mass (d.weights x a) (fun q => d.target q.1 q.2) fun y => T x a i < y) ≤ mass (d.weights x a) (fun q => d.target q.1 q.2) fun y => ¬ y ≤ T x a i - 1 :=
    Quantile.mass_mono _ _ hw0 fun y hy h => by linarith
  have m2 : (mass (d.weights x a) (fun q => d.target q.1 q.2) fun y => y < T x a i) ≤ mass (d.weights x a) (fun q => d.target q.1 q.2) fun y => y < T x a i + 1 :=
    Quantile.mass_mono _ _ hw0 fun y hy => by linarith
  have m3 : (mass (d.weights x a) (fun q => d.target q.1 q.2) fun y => ¬ y < T x a i + 1) = mass (d.weights x a) (fun q => d.target q.1 q.2) fun y => T x a i + 1 ≤ y := by
    simp only [not_lt]
  rw [m3] at e2
  obtain ⟨t0, t1⟩ := tau_bounds i
  have p1 := mul_le_mul_of_nonneg_left (a2.trans m1) t0.le
  have p2 := mul_le_mul_of_nonneg_left b1 (by linarith : 0 ≤ 1 - tau n i)
  have p3 := mul_le_mul_of_nonneg_left a1 t0.le
  have p4 := mul_le_mul_of_nonneg_left (b2.trans m2) (by linarith : 0 ≤ 1 - tau n i)
  have et : tau n i * (d.times x a * n) = (i + 1 / 2) * d.times x a := by
    unfold tau
    field_simp
  constructor <;> nlinarith

/-- C277: an action that was never taken in an observation of the data has no value at which the loss settles. -/
theorem C277_unlogged (d : Data X A B n) (hn : 0 < n) (w : ℝ) (hw : 0 < w) (k : Fin B) (a : Fin A) (ha : ∀ k', d.obs k' = d.obs k → d.act k' ≠ a)
    (T : X → Fin A → Fin n → ℝ) : ¬d.Settled w T := by
  intro hT
  have h1 := C277_clone d hn w hw T hT k a
  have h2 : d.freq (d.obs k) a = 0 := by
    unfold Data.freq Data.times
    rw [Finset.filter_false_of_mem fun k' _ hc => ha k' hc.1 hc.2]
    simp
  rw [h2, sub_zero, zero_div, abs_of_pos (softmax_pos T _ a)] at h1
  exact absurd (softmax_pos T (d.obs k) a) (not_lt.mpr h1)

theorem h_lower (i : Fin n) (u : ℝ) : (|u| - 1 / 2) / (2 * n) ≤ h (tau n i) u := by
  obtain ⟨t0, t1⟩ := tau_bounds i
  have hn : (0 : ℝ) < n := by exact_mod_cast Fin.pos i
  have hi : (i : ℝ) + 1 ≤ n := by exact_mod_cast i.isLt
  have h1 : 1 / (2 * n : ℝ) ≤ tau n i := by
    unfold tau
    rw [div_le_div_iff_of_pos_right (by positivity)]
    have : (0 : ℝ) ≤ (i : ℕ) := Nat.cast_nonneg _
    linarith
  have h2 : 1 / (2 * n : ℝ) ≤ 1 - tau n i := by
    unfold tau
    rw [le_sub_iff_add_le, ← add_div, div_le_one (by positivity)]
    linarith
  have h3 : |u| - 1 / 2 ≤ huber u := by
    unfold huber
    split
    · nlinarith [sq_nonneg (|u| - 1), sq_abs u]
    · exact le_rfl
  have h4 : (0 : ℝ) ≤ huber u := by
    unfold huber
    split
    · positivity
    · rename_i hc
      linarith [not_lt.mp hc]
  have h5 : 1 / (2 * n : ℝ) ≤ |tau n i - if u ≤ 0 then 1 else 0| := by
    split
    · rw [abs_of_nonpos (by linarith)]
      linarith
    · rw [sub_zero, abs_of_pos t0]
      exact h1
  unfold h
  have h6 := mul_le_mul_of_nonneg_left h5 h4
  have h7 := mul_le_mul_of_nonneg_right h3 (by positivity : (0 : ℝ) ≤ 1 / (2 * n))
  have e : (|u| - 1 / 2) * (1 / (2 * n : ℝ)) = (|u| - 1 / 2) / (2 * n) := by ring
  linarith

theorem h_nonneg (i : Fin n) (u : ℝ) : 0 ≤ h (tau n i) u := by
  unfold h huber
  refine mul_nonneg ?_ (abs_nonneg _)
  split
  · positivity
  · rename_i hc
    linarith [not_lt.mp hc]

theorem continuous_pos : Continuous Quantile.pos := by
  have : Quantile.pos = fun u => (min (max u 0) 1) ^ 2 / 2 + (max u 1 - 1) := by
    funext u
    rcases Quantile.slope_cases u with ⟨a, b, c⟩ | ⟨a, a', b, c⟩ | ⟨a, b, c⟩ <;> unfold Quantile.slope at b <;> rw [c, b]
    · rw [max_eq_right (by linarith)]; ring
    · rw [max_eq_right (by linarith)]; ring
    · rw [max_eq_left (by linarith)]; ring
  rw [this]
  fun_prop

theorem continuous_h (i : Fin n) : Continuous (h (tau n i)) := by
  have : h (tau n i) = fun u => tau n i * Quantile.pos u + (1 - tau n i) * Quantile.pos (-u) := by
    funext u
    exact Quantile.h_eq (tau_bounds i).1 (tau_bounds i).2 u
  rw [this]
  have := continuous_pos
  fun_prop

/-- C277: if every action was taken in every observation, there is a table at which the loss settles. -/
theorem C277_exists [Fintype X] (d : Data X A B n) (hn : 0 < n) (w : ℝ) (hw : 0 ≤ w) (hall : ∀ x a, ∃ k, d.obs k = x ∧ d.act k = a) (hB : 0 < B) :
    ∃ T, d.Settled w T := by
  have hn' : (0 : ℝ) < n := by exact_mod_cast hn
  simp only [d.settled_iff hB]
  have hcont : Continuous (d.sum w) := by
    unfold Data.sum value
    refine continuous_finsetSum _ fun k _ => Continuous.add (Continuous.div_const (continuous_finsetSum _ fun i _ => continuous_finsetSum _ fun j _ => ?_) _) ?_
    · exact (continuous_h i).comp (by fun_prop)
    · refine continuous_const.mul (Continuous.sub (Continuous.log (by fun_prop) fun T => ?_) (by fun_prop))
      exact (Finset.sum_pos (fun _ _ => Real.exp_pos _) ⟨d.act k, Finset.mem_univ _⟩).ne'
  refine hcont.exists_forall_le' 0 ?_
  obtain ⟨M, hM⟩ : ∃ M, ∀ k j, |d.target k j| ≤ M := by
    refine ⟨∑ k, ∑ j, |d.target k j|, fun k j => ?_⟩
    exact (Finset.single_le_sum (f := fun j => |d.target k j|) (fun j _ => abs_nonneg _) (Finset.mem_univ j)).trans
      (Finset.single_le_sum (f := fun k => ∑ j, |d.target k j|) (fun k _ => Finset.sum_nonneg fun j _ => abs_nonneg _) (Finset.mem_univ k))
  have hlow : ∀ (T : X → Fin A → Fin n → ℝ) x a i, (|T x a i| - M - 1 / 2) / (2 * n * n) ≤ d.sum w T := by
    intro T x a i
    obtain ⟨k, rfl, rfl⟩ := hall x a
    have hterm : ∀ k', 0 ≤ (∑ i, ∑ j, h (tau n i) (d.target k' j - T (d.obs k') (d.act k') i)) / n ∧
        0 ≤ w * (Real.log (∑ a, Real.exp (value T (d.obs k') a)) - value T (d.obs k') (d.act k')) := by
      intro k'
      refine ⟨div_nonneg (Finset.sum_nonneg fun i _ => Finset.sum_nonneg fun j _ => h_nonneg i _) hn'.le, mul_nonneg hw (sub_nonneg.mpr ?_)⟩
      rw [Real.le_log_iff_exp_le (Finset.sum_pos (fun _ _ => Real.exp_pos _) ⟨d.act k', Finset.mem_univ _⟩)]
      exact Finset.single_le_sum (f := fun a => Real.exp (value T (d.obs k') a)) (fun _ _ => (Real.exp_pos _).le) (Finset.mem_univ (d.act k'))
    have h1 : (∑ i, ∑ j, h (tau n i) (d.target k j - T (d.obs k) (d.act k) i)) / n ≤ d.sum w T := by
      have := Finset.single_le_sum (f := fun k => (∑ i, ∑ j, h (tau n i) (d.target k j - T (d.obs k) (d.act k) i)) / n +
        w * (Real.log (∑ a, Real.exp (value T (d.obs k) a)) - value T (d.obs k) (d.act k))) (fun k' _ => add_nonneg (hterm k').1 (hterm k').2) (Finset.mem_univ k)
      have h2 := (hterm k).2
      unfold Data.sum
      linarith
    refine le_trans ?_ h1
    have h2 : h (tau n i) (d.target k ⟨0, hn⟩ - T (d.obs k) (d.act k) i) ≤ ∑ i, ∑ j, h (tau n i) (d.target k j - T (d.obs k) (d.act k) i) :=
      (Finset.single_le_sum (f := fun j => h (tau n i) (d.target k j - T (d.obs k) (d.act k) i)) (fun j _ => h_nonneg i _) (Finset.mem_univ ⟨0, hn⟩)).trans
        (Finset.single_le_sum (f := fun i => ∑ j, h (tau n i) (d.target k j - T (d.obs k) (d.act k) i))
          (fun i _ => Finset.sum_nonneg fun j _ => h_nonneg i _) (Finset.mem_univ i))
    have h3 := h_lower i (d.target k ⟨0, hn⟩ - T (d.obs k) (d.act k) i)
    have h4 : |T (d.obs k) (d.act k) i| - M ≤ |d.target k ⟨0, hn⟩ - T (d.obs k) (d.act k) i| := by
      have h5 := abs_sub_abs_le_abs_sub (T (d.obs k) (d.act k) i) (d.target k ⟨0, hn⟩)
      rw [abs_sub_comm] at h5
      have h6 := hM k ⟨0, hn⟩
      linarith
    rw [← div_div, div_le_div_iff_of_pos_right hn']
    refine le_trans ?_ (h3.trans h2)
    rw [div_le_div_iff_of_pos_right (by positivity)]
    linarith
  have hev := (tendsto_norm_cocompact_atTop (E := X → Fin A → Fin n → ℝ)).eventually_gt_atTop (max (|d.sum w 0| * (2 * n * n) + M + 1 / 2) 0)
  filter_upwards [hev] with T hT
  by_contra hlt
  have hlt := not_le.mp hlt
  refine absurd hT (not_lt.mpr ((pi_norm_le_iff_of_nonneg (le_max_right _ _)).mpr fun x => (pi_norm_le_iff_of_nonneg (le_max_right _ _)).mpr fun a =>
    (pi_norm_le_iff_of_nonneg (le_max_right _ _)).mpr fun i => le_max_of_le_left ?_))
  have h1 := (hlow T x a i).trans hlt.le |>.trans (le_abs_self _)
  rw [div_le_iff₀ (by positivity)] at h1
  rw [Real.norm_eq_abs]
  linarith

/-! ### Violation -/

/-- One observation; action 0 was taken three times with the result 0, action 1 once with the result 100. -/
noncomputable def rareReward : Data Unit 2 4 2 := ⟨fun _ => (), ![0, 0, 0, 1], ![fun _ => 0, fun _ => 0, fun _ => 0, fun _ => 100]⟩

theorem rareReward_times (a : Fin 2) : rareReward.times () a = if a = 0 then 3 else 1 := by
  unfold rareReward Data.times
  fin_cases a <;> decide +kernel

theorem rareReward_visits : rareReward.visits () = 4 := by
  unfold rareReward Data.visits
  decide +kernel

/-- **C277 violated**: the action with the larger value need not be the better one in the data. With the default `min_q_weight = 10` every table at which
the loss settles (there is one) prefers the action that was taken three times with the result 0 to the one that was taken once with the result 100. -/
theorem C277_violated : (∃ T, rareReward.Settled 10 T) ∧ ∀ T, rareReward.Settled 10 T → value T () 1 < value T () 0 := by
  refine ⟨C277_exists rareReward (by norm_num) 10 (by norm_num) (fun _ a => ?_) (by norm_num), fun T hT => ?_⟩
  · fin_cases a
    · exact ⟨0, rfl, rfl⟩
    · exact ⟨3, rfl, rfl⟩
  · refine C277_order rareReward (by norm_num) 10 (by norm_num) T hT 0 0 1 ?_
    have e : rareReward.obs 0 = () := rfl
    rw [e]
    unfold Data.freq
    rw [rareReward_times, rareReward_times, rareReward_visits]
    norm_num

/-- The data of the violation meet the hypotheses of `C277_clone` and `C277_quantiles`: the probability of the rewarding action is between 0.2375 and
0.2625, although its quantiles are above 99. -/
example : ∃ T, rareReward.Settled 10 T ∧ |softmax T () 1 - 1 / 4| ≤ 1 / 80 := by
  obtain ⟨T, hT⟩ := C277_violated.1
  refine ⟨T, hT, ?_⟩
  have h1 := C277_clone rareReward (by norm_num) 10 (by norm_num) T hT 0 1
  have e : rareReward.obs 0 = () := rfl
  have e2 : rareReward.freq () 1 = 1 / 4 := by
    unfold Data.freq
    rw [rareReward_times, rareReward_visits]
    norm_num
  rw [e, e2] at h1
  norm_num at h1 ⊢
  exact h1

/-- One row and two actions: the second was never taken. -/
example (T : Unit → Fin 2 → Fin 3 → ℝ) : ¬(⟨fun _ => (), fun _ => 0, fun _ _ => 5⟩ : Data Unit 2 1 3).Settled 10 T :=
  C277_unlogged _ (by norm_num) 10 (by norm_num) 0 1 (fun _ _ => by simp) T

end Verif.DiscreteCql
