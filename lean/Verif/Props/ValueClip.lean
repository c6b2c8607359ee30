import Verif.Props.Ppo
import Verif.Props.QLearning

/-! C281: what the critic learns with the value clipping of PPO. -/

namespace Verif.ValueClip

open Verif.Ppo

variable {X : Type} {B : ℕ}

/-! ### Specification -/

/-- A batch: observations, and what the loss reads besides the critic's values. -/
structure Data (X : Type) (B : ℕ) where
  obs : Fin B → X
  ret : Fin B → ℝ
  vOld : Fin B → ℝ
  adv : Fin B → ℝ
  ratio : Fin B → ℝ
  entropy : Fin B → ℝ

/-- The loss of PPO as a function of the critic. -/
noncomputable def Data.loss (d : Data X B) (c : Cfg ℝ) (V : X → ℝ) : ℝ :=
  Ppo.loss c (List.ofFn fun k => ⟨d.adv k, d.ratio k, d.ret k, d.vOld k, V (d.obs k), d.entropy k⟩)

/-- No critic has a smaller loss. -/
def Data.Settled (d : Data X B) (c : Cfg ℝ) (V : X → ℝ) : Prop := ∀ V', d.loss c V ≤ d.loss c V'

/-- The returns are determined by the observations. -/
def Data.Certain (d : Data X B) : Prop := ∃ R : X → ℝ, ∀ k, d.ret k = R (d.obs k)

/-- How far the return is outside of the interval around the old value. -/
noncomputable def Data.excess (d : Data X B) (eps : ℝ) (k : Fin B) : ℝ := max 0 (|d.ret k - d.vOld k| - eps)

/-! ### Lemmas -/

theorem clamp_eq {eps : ℝ} (he : 0 ≤ eps) (x : ℝ) : clamp (-eps) eps x = if x < -eps then -eps else if eps < x then eps else x := by
  unfold clamp
  split
  · rw [max_eq_right (by linarith), min_eq_left (by linarith)]
  · split
    · rw [max_eq_left (by linarith), min_eq_right (by linarith)]
    · rw [max_eq_left (by linarith), min_eq_left (by linarith)]

theorem max_sq (x y : ℝ) (hy : 0 ≤ y) : max (x ^ 2) (y ^ 2) = max |x| y ^ 2 := by
  rcases le_total |x| y with h | h
  · rw [max_eq_right h, max_eq_right (sq_le_sq.mpr (by rwa [abs_of_nonneg hy]))]
  · rw [max_eq_left h, sq_abs, max_eq_left (sq_le_sq.mpr (by rwa [abs_of_nonneg hy]))]

theorem valueLoss_floor (c : Cfg ℝ) (hc : c.valueClip = true) (he : 0 ≤ c.epsClip) (ret vOld v : ℝ) :
    valueLoss c ret vOld v = max |ret - v| (max 0 (|ret - vOld| - c.epsClip)) ^ 2 := by
  rw [← max_sq _ _ (le_max_left _ _)]
  unfold valueLoss clippedValue
  rw [if_pos hc, clamp_eq he]
  have key : ∀ x y z : ℝ, |x| = |z| ∨ (|x| ≤ |y| ∧ |z| ≤ |y|) → max (y ^ 2) (x ^ 2) = max (y ^ 2) (z ^ 2) := by
    rintro x y z (h | ⟨h1, h2⟩)
    · rw [← sq_abs x, h, sq_abs]
    · rw [max_eq_left (sq_le_sq.mpr h1), max_eq_left (sq_le_sq.mpr h2)]
  apply key
  rcases le_total 0 (ret - vOld) with h0 | h0
  · rw [abs_of_nonneg h0]
    rcases le_total (ret - vOld - c.epsClip) 0 with h1 | h1
    · rw [max_eq_left h1, abs_zero]
      right
      refine ⟨?_, abs_nonneg _⟩
      rw [abs_le]
      constructor <;> split <;> try split
      all_goals (rcases abs_cases (ret - v) with ⟨e, h⟩ | ⟨e, h⟩ <;> rw [e] <;> linarith)
    · rw [max_eq_right h1, abs_of_nonneg h1]
      split
      · right
        rw [abs_of_nonneg (by linarith : 0 ≤ ret - (vOld + -c.epsClip)), abs_of_nonneg (by linarith : 0 ≤ ret - v)]
        constructor <;> linarith
      · split
        · left
          rw [abs_of_nonneg (by linarith : 0 ≤ ret - (vOld + c.epsClip))]
          ring
        · right
          rw [abs_of_nonneg (by linarith : 0 ≤ ret - (vOld + (v - vOld))), abs_of_nonneg (by linarith : 0 ≤ ret - v)]
          constructor <;> linarith
  · rw [abs_of_nonpos h0]
    rcases le_total (-(ret - vOld) - c.epsClip) 0 with h1 | h1
    · rw [max_eq_left h1, abs_zero]
      right
      refine ⟨?_, abs_nonneg _⟩
      rw [abs_le]
      constructor <;> split <;> try split
      all_goals (rcases abs_cases (ret - v) with ⟨e, h⟩ | ⟨e, h⟩ <;> rw [e] <;> linarith)
    · rw [max_eq_right h1, abs_of_nonneg h1]
      split
      · left
        rw [abs_of_nonpos (by linarith : ret - (vOld + -c.epsClip) ≤ 0)]
        ring
      · split
        · right
          rw [abs_of_nonpos (by linarith : ret - (vOld + c.epsClip) ≤ 0), abs_of_nonpos (by linarith : ret - v ≤ 0)]
          constructor <;> linarith
        · right
          rw [abs_of_nonpos (by linarith : ret - (vOld + (v - vOld)) ≤ 0), abs_of_nonpos (by linarith : ret - v ≤ 0)]
          constructor <;> linarith

/-! ### C281 -/

/-- **C281: clipping is a floor.** With value clipping the loss of PPO has, in place of each squared error, its maximum with the square of the distance of the return from the interval of width `eps_clip` around the
old value. -/
theorem C281_floor (d : Data X B) (c : Cfg ℝ) (hc : c.valueClip = true) (he : 0 ≤ c.epsClip) (V : X → ℝ) :
    d.loss c V = d.loss { c with valueClip := false } V +
      c.vfCoef * ((∑ k, (max |d.ret k - V (d.obs k)| (d.excess c.epsClip k) ^ 2 - (d.ret k - V (d.obs k)) ^ 2)) / B) := by
  unfold Data.loss Ppo.loss
  simp only [List.map_ofFn, Function.comp_def, QLearning.mean_ofFn]
  have e1 : ∀ k, valueLoss c (d.ret k) (d.vOld k) (V (d.obs k)) = max |d.ret k - V (d.obs k)| (d.excess c.epsClip k) ^ 2 := fun k =>
    valueLoss_floor c hc he _ _ _
  have e2 : ∀ k, valueLoss { c with valueClip := false } (d.ret k) (d.vOld k) (V (d.obs k)) = (d.ret k - V (d.obs k)) ^ 2 := fun k => by
    simp [valueLoss]
  simp only [e1, e2, Finset.sum_sub_distrib, sub_div, mul_sub]
  unfold surrogate
  ring

theorem Data.loss_le (d : Data X B) (hB : 0 < B) (c : Cfg ℝ) (hc : c.valueClip = true) (he : 0 ≤ c.epsClip) (hv : 0 < c.vfCoef) (V V' : X → ℝ) :
    d.loss c V ≤ d.loss c V' ↔ ∑ k, max |d.ret k - V (d.obs k)| (d.excess c.epsClip k) ^ 2 ≤ ∑ k, max |d.ret k - V' (d.obs k)| (d.excess c.epsClip k) ^ 2 := by
  have hB' : (0 : ℝ) < B := by exact_mod_cast hB
  unfold Data.loss Ppo.loss
  simp only [List.map_ofFn, Function.comp_def, QLearning.mean_ofFn]
  have e1 : ∀ (W : X → ℝ) k, valueLoss c (d.ret k) (d.vOld k) (W (d.obs k)) = max |d.ret k - W (d.obs k)| (d.excess c.epsClip k) ^ 2 := fun W k =>
    valueLoss_floor c hc he _ _ _
  simp only [e1, sub_le_sub_iff_right, add_le_add_iff_left, mul_le_mul_iff_right₀ hv, div_le_div_iff_of_pos_right hB']

/-- **C281: what has settled.** If the returns are determined by the observations, the critic has settled exactly if each value is at least as near to the return as the interval around the old value is. -/
theorem C281_settled (d : Data X B) (hB : 0 < B) (hd : d.Certain) (c : Cfg ℝ) (hc : c.valueClip = true) (he : 0 ≤ c.epsClip) (hv : 0 < c.vfCoef) (V : X → ℝ) :
    d.Settled c V ↔ ∀ k, |d.ret k - V (d.obs k)| ≤ max 0 (|d.ret k - d.vOld k| - c.epsClip) := by
  have hex : ∀ k, 0 ≤ d.excess c.epsClip k := fun k => le_max_left _ _
  unfold Data.Settled
  simp only [d.loss_le hB c hc he hv]
  have hfloor : ∀ (V' : X → ℝ) k, d.excess c.epsClip k ^ 2 ≤ max |d.ret k - V' (d.obs k)| (d.excess c.epsClip k) ^ 2 := fun V' k =>
    pow_le_pow_left₀ (hex k) (le_max_right _ _) 2
  constructor
  · intro h k
    obtain ⟨R, hR⟩ := hd
    have h1 := h R
    simp only [← hR, sub_self, abs_zero, max_eq_right (hex _)] at h1
    have h2 := (Finset.sum_eq_sum_iff_of_le fun k _ => hfloor V k).mp (le_antisymm (Finset.sum_le_sum fun k _ => hfloor V k) h1) k (Finset.mem_univ k)
    have h3 := (pow_left_inj₀ (hex k) (le_max_of_le_right (hex k)) two_ne_zero).mp h2
    exact (le_max_left _ _).trans h3.symm.le
  · intro h V'
    refine Finset.sum_le_sum fun k _ => ?_
    have : max |d.ret k - V (d.obs k)| (d.excess c.epsClip k) = d.excess c.epsClip k := max_eq_right (h k)
    rw [this]
    exact hfloor V' k

/-- **C281: repeated updates.** Let the critic settle again and again on batches with the same observations and returns, each with the values before as old values. After `n` updates
each value is nearer to its return by `n * eps_clip` than it was, or exact. -/
theorem C281_repeated (d : ℕ → Data X B) (hB : 0 < B) (c : Cfg ℝ) (hc : c.valueClip = true) (he : 0 ≤ c.epsClip) (hv : 0 < c.vfCoef) (V : ℕ → X → ℝ) (obs : Fin B → X) (R : X → ℝ)
    (hd : ∀ n, (d n).obs = obs ∧ (∀ k, (d n).ret k = R (obs k)) ∧ ∀ k, (d n).vOld k = V n (obs k)) (hV : ∀ n, (d n).Settled c (V (n + 1))) (n : ℕ) (k : Fin B) :
    |R (obs k) - V n (obs k)| ≤ max 0 (|R (obs k) - V 0 (obs k)| - n * c.epsClip) := by
  induction n with
  | zero =>
    rw [Nat.cast_zero, zero_mul, sub_zero]
    exact le_max_right _ _
  | succ n ih =>
    obtain ⟨h1, h2, h3⟩ := hd n
    have h := (C281_settled (d n) hB ⟨R, fun k => by rw [h2, h1]⟩ c hc he hv (V (n + 1))).mp (hV n) k
    rw [h1, h2, h3] at h
    refine h.trans (max_le (le_max_left _ _) ?_)
    push_cast
    rcases le_max_iff.mp ih with h4 | h4
    · exact (by linarith : _ ≤ (0 : ℝ)).trans (le_max_left _ _)
    · exact (by linarith : _ ≤ |R (obs k) - V 0 (obs k)| - (n + 1) * c.epsClip).trans (le_max_right _ _)

/-- **C281 violated**: the values of a critic trained with value clipping do not stay within `eps_clip` of the old values: whatever the old value and the bound, there is a batch on which a critic that moved its value further than the bound has settled. -/
theorem C281_violated (c : Cfg ℝ) (hc : c.valueClip = true) (he : 0 ≤ c.epsClip) (hv : 0 < c.vfCoef) (vOld bound : ℝ) :
    ∃ (d : Data Unit 1) (V : Unit → ℝ), d.vOld 0 = vOld ∧ d.Settled c V ∧ bound < |V (d.obs 0) - d.vOld 0| ∧
      -- and one that moved to the border of the interval has settled, too
      ∃ V', d.Settled c V' ∧ |V' (d.obs 0) - d.vOld 0| = c.epsClip := by
  let r := vOld + |bound| + 1 + c.epsClip
  let d : Data Unit 1 := ⟨fun _ => (), fun _ => r, fun _ => vOld, fun _ => 0, fun _ => 1, fun _ => 0⟩
  have hb := abs_nonneg bound
  refine ⟨d, fun _ => r, rfl, ?_, ?_, fun _ => vOld + c.epsClip, ?_, ?_⟩
  · rw [C281_settled d one_pos ⟨fun _ => r, fun _ => rfl⟩ c hc he hv]
    intro k
    simp [d]
  · change bound < |r - vOld|
    have : r - vOld = |bound| + 1 + c.epsClip := by simp only [r]; ring
    rw [this, abs_of_nonneg (by linarith)]
    linarith [le_abs_self bound]
  · rw [C281_settled d one_pos ⟨fun _ => r, fun _ => rfl⟩ c hc he hv]
    intro k
    refine le_max_of_le_right ?_
    change |r - (vOld + c.epsClip)| ≤ |r - vOld| - c.epsClip
    have h1 : r - (vOld + c.epsClip) = |bound| + 1 := by simp only [r]; ring
    have h2 : r - vOld = |bound| + 1 + c.epsClip := by simp only [r]; ring
    rw [h1, h2, abs_of_nonneg (by linarith : 0 ≤ |bound| + 1), abs_of_nonneg (by linarith : 0 ≤ |bound| + 1 + c.epsClip)]
    linarith
  · change |vOld + c.epsClip - vOld| = c.epsClip
    rw [add_sub_cancel_left, abs_of_nonneg he]

/-- Two observations, one of them twice. -/
def clipped : Data Bool 3 := ⟨![true, true, false], ![2, 2, 1], ![1, 1, 1], ![1, -1, 0], ![1, 1, 1], ![0, 0, 0]⟩

-- The return 2 is by 4/5 outside of the interval around the old value 1: all values between 6/5 and 14/5 have the least loss. The return 1 is inside: only 1 has.
example (V : Bool → ℝ) : clipped.Settled ⟨1 / 5, none, true, 1 / 2, 0⟩ V ↔ (6 / 5 ≤ V true ∧ V true ≤ 14 / 5) ∧ V false = 1 := by
  rw [C281_settled clipped (by norm_num) ⟨fun b => if b then 2 else 1, fun k => by fin_cases k <;> simp [clipped]⟩ _ rfl (by norm_num) (by norm_num)]
  have e2 : max 0 (|(2 : ℝ) - 1| - 1 / 5) = 4 / 5 := by norm_num
  have e1 : max 0 (|(1 : ℝ) - 1| - 1 / 5) = 0 := by norm_num
  constructor
  · intro h
    have h0 : |2 - V true| ≤ 4 / 5 := by rw [← e2]; exact h 0
    have h2 : |1 - V false| ≤ 0 := by rw [← e1]; exact h 2
    rw [abs_le] at h0 h2
    exact ⟨⟨by linarith, by linarith⟩, by linarith⟩
  · rintro ⟨⟨h1, h2⟩, h3⟩ k
    have h0 : |2 - V true| ≤ max 0 (|(2 : ℝ) - 1| - 1 / 5) := by rw [e2, abs_le]; constructor <;> linarith
    fin_cases k
    · exact h0
    · exact h0
    · change |1 - V false| ≤ max 0 (|(1 : ℝ) - 1| - 1 / 5)
      rw [e1, h3, sub_self, abs_zero]

end Verif.ValueClip
