import Verif.Props.Natural
import Verif.Props.PolicyGradient
import Mathlib.Algebra.Order.BigOperators.Ring.Finset

/-! C271: what the updates of TRPO guarantee for the expected return. -/

namespace Verif.TrustRegion

open Verif.PolicyGradient

set_option linter.unusedSectionVars false

variable {S : Type} [Fintype S] {p A N : ℕ}

/-! ### Specification -/

/-- The probabilities of the actions of a policy given by logits. -/
noncomputable def policy (logits : (Fin p → ℝ) → S → Fin A → ℝ) (w : Fin p → ℝ) (s : S) (a : Fin A) : ℝ :=
  Real.exp (logits w s a) / ∑ b, Real.exp (logits w s b)

/-- The expected sum of rewards of an episode with at most `n` steps, plus `V` of the last state if it was broken off. -/
noncomputable def expectedReturn (e : Env S (Fin A)) (V : S → ℝ) (n : ℕ) (π : S → Fin A → ℝ) : ℝ :=
  expectEpisode e π n fun τ => total e.rew 1 τ + brokenOff e V τ

/-- The expected number of steps. -/
noncomputable def expectedLength (e : Env S (Fin A)) (n : ℕ) (π : S → Fin A → ℝ) : ℝ := expectEpisode e π n fun τ => (τ.length : ℝ)

/-- What action `a` is worth in state `s`. -/
noncomputable def worth (e : Env S (Fin A)) (V : S → ℝ) (s : S) (a : Fin A) : ℝ :=
  ∑ s', e.next s a s' * (e.rew s a s' + if e.ends s a s' then 0 else V s')

/-- A batch of transitions without errors: made by the policy with parameters `theta`, every pair of state and action as often as expected, with
the values `V` of that policy and (possibly shifted and scaled) advantages. -/
structure Exact (e : Env S (Fin A)) (V : S → ℝ) (n : ℕ) (logits : (Fin p → ℝ) → S → Fin A → ℝ) (theta : Fin p → ℝ) (state : Fin N → S)
    (rows : Fin N → DRow p A) : Prop where
  init : ∀ s, 0 ≤ e.init s
  next : ∀ s a s', 0 ≤ e.next s a s'
  ok : e.Ok
  value : ∀ s, ∑ a, policy logits theta s a * worth e V s a = V s
  actor : ∀ k w, (rows k).logits w = logits w (state k)
  old : ∀ k, (rows k).logpOld = Real.log (policy logits theta (state k) (rows k).act)
  adv : ∃ shift scale, 0 < scale ∧ ∀ k, (rows k).adv = (worth e V (state k) (rows k).act - V (state k) - shift) / scale
  often : ∀ f : S → Fin A → ℝ, (∑ k, f (state k) (rows k).act) / N * expectedLength e n (policy logits theta) =
    expectEpisode e (policy logits theta) n (total (fun s a _ => f s a) 1)

/-! ### Lemmas -/

section
variable {B : Type} [Fintype B]

theorem expect_step (e : Env S B) (he : e.Ok) (π : S → B → ℝ) (hπ : ∀ s, ∑ a, π s a = 1) (f : S → B → S → ℝ) (n : ℕ) (s : S) :
    expectFrom e π (n + 1) s (total f 1) =
      ∑ a, π s a * ∑ s', e.next s a s' * (f s a s' + if e.ends s a s' then 0 else expectFrom e π n s' (total f 1)) := by
  rw [expectFrom]
  refine Finset.sum_congr rfl fun a _ => ?_
  congr 1
  refine Finset.sum_congr rfl fun s' _ => ?_
  congr 1
  by_cases h : e.ends s a s' = true
  · rw [if_pos h, if_pos h]; simp [total]
  · rw [if_neg h, if_neg h]
    have : (fun τ => total f 1 ((s, a, s') :: τ)) = fun τ => f s a s' + total f 1 τ := by
      funext τ; simp [total]
    rw [this, expectFrom_add e π n s' (fun _ => f s a s') (total f 1), expectFrom_const e he π hπ]

/-- Steps of one kind as seen from a state. -/
theorem expect_step' (e : Env S B) (he : e.Ok) (π : S → B → ℝ) (hπ : ∀ s, ∑ a, π s a = 1) (f : S → B → ℝ) (n : ℕ) (s : S) :
    expectFrom e π (n + 1) s (total (fun s a _ => f s a) 1) =
      ∑ a, π s a * f s a + ∑ a, π s a * ∑ s', e.next s a s' *
        (if e.ends s a s' then 0 else expectFrom e π n s' (total (fun s a _ => f s a) 1)) := by
  rw [expect_step e he π hπ, ← Finset.sum_add_distrib]
  refine Finset.sum_congr rfl fun a _ => ?_
  rw [← mul_add]
  congr 1
  simp only [mul_add, Finset.sum_add_distrib]
  rw [← Finset.sum_mul, he.next, one_mul]

/-- Only the mean over the actions matters. -/
theorem expect_mean (e : Env S B) (he : e.Ok) (π : S → B → ℝ) (hπ : ∀ s, ∑ a, π s a = 1) (f g : S → B → ℝ)
    (h : ∀ s, ∑ a, π s a * f s a = ∑ a, π s a * g s a) (n : ℕ) (s : S) :
    expectFrom e π n s (total (fun s a _ => f s a) 1) = expectFrom e π n s (total (fun s a _ => g s a) 1) := by
  induction n generalizing s with
  | zero => rfl
  | succ n ih => rw [expect_step' e he π hπ, expect_step' e he π hπ, h]; simp only [ih]

theorem expect_mono (e : Env S B) (he : e.Ok) (hn : ∀ s a s', 0 ≤ e.next s a s') (π : S → B → ℝ) (h0 : ∀ s a, 0 ≤ π s a)
    (hπ : ∀ s, ∑ a, π s a = 1) (f g : S → B → ℝ) (h : ∀ s a, f s a ≤ g s a) (n : ℕ) (s : S) :
    expectFrom e π n s (total (fun s a _ => f s a) 1) ≤ expectFrom e π n s (total (fun s a _ => g s a) 1) := by
  induction n generalizing s with
  | zero => exact le_rfl
  | succ n ih =>
    rw [expect_step' e he π hπ, expect_step' e he π hπ]
    refine add_le_add (Finset.sum_le_sum fun a _ => mul_le_mul_of_nonneg_left (h s a) (h0 s a))
      (Finset.sum_le_sum fun a _ => mul_le_mul_of_nonneg_left (Finset.sum_le_sum fun s' _ => mul_le_mul_of_nonneg_left ?_ (hn s a s')) (h0 s a))
    split
    · exact le_rfl
    · exact ih s'

theorem expect_abs (e : Env S B) (he : e.Ok) (hn : ∀ s a s', 0 ≤ e.next s a s') (π : S → B → ℝ) (h0 : ∀ s a, 0 ≤ π s a)
    (hπ : ∀ s, ∑ a, π s a = 1) (f : S → B → ℝ) (M : ℝ) (hM : 0 ≤ M) (h : ∀ s a, |f s a| ≤ M) (n : ℕ) (s : S) :
    |expectFrom e π n s (total (fun s a _ => f s a) 1)| ≤ n * M := by
  induction n generalizing s with
  | zero => simp [expectFrom, total]
  | succ n ih =>
    rw [expect_step' e he π hπ]
    have h1 : |∑ a, π s a * f s a| ≤ M := by
      refine (Finset.abs_sum_le_sum_abs _ _).trans ?_
      calc ∑ a, |π s a * f s a| ≤ ∑ a, π s a * M := Finset.sum_le_sum fun a _ => by
            rw [abs_mul, abs_of_nonneg (h0 s a)]; exact mul_le_mul_of_nonneg_left (h s a) (h0 s a)
        _ = M := by rw [← Finset.sum_mul, hπ, one_mul]
    have h2 : ∀ a, |∑ s', e.next s a s' * (if e.ends s a s' then 0 else expectFrom e π n s' (total (fun s a _ => f s a) 1))| ≤ n * M := by
      intro a
      refine (Finset.abs_sum_le_sum_abs _ _).trans ?_
      calc _ ≤ ∑ s', e.next s a s' * (n * M) := Finset.sum_le_sum fun s' _ => by
            rw [abs_mul, abs_of_nonneg (hn s a s')]
            refine mul_le_mul_of_nonneg_left ?_ (hn s a s')
            split
            · rw [abs_zero]; positivity
            · exact ih s'
        _ = n * M := by rw [← Finset.sum_mul, he.next, one_mul]
    have h3 : |∑ a, π s a * ∑ s', e.next s a s' * (if e.ends s a s' then 0 else expectFrom e π n s' (total (fun s a _ => f s a) 1))| ≤ n * M := by
      refine (Finset.abs_sum_le_sum_abs _ _).trans ?_
      calc _ ≤ ∑ a, π s a * (n * M) := Finset.sum_le_sum fun a _ => by
            rw [abs_mul, abs_of_nonneg (h0 s a)]; exact mul_le_mul_of_nonneg_left (h2 a) (h0 s a)
        _ = n * M := by rw [← Finset.sum_mul, hπ, one_mul]
    refine (abs_add_le _ _).trans ?_
    push_cast
    linarith

/-- The same reward function under two policies. -/
theorem expect_change (e : Env S B) (he : e.Ok) (hn : ∀ s a s', 0 ≤ e.next s a s') (π π' : S → B → ℝ) (h0 : ∀ s a, 0 ≤ π s a)
    (h0' : ∀ s a, 0 ≤ π' s a) (hπ : ∀ s, ∑ a, π s a = 1) (hπ' : ∀ s, ∑ a, π' s a = 1) (f : S → B → ℝ) (M : ℝ) (hM : 0 ≤ M)
    (h : ∀ s a, |f s a| ≤ M) (L n : ℕ) (hL : n ≤ L + 1) (s : S) :
    expectFrom e π n s (total (fun s _ _ => ∑ a, π' s a * f s a) 1) - L * M * expectFrom e π n s (total (fun s _ _ => ∑ a, |π' s a - π s a|) 1) ≤
      expectFrom e π' n s (total (fun s a _ => f s a) 1) := by
  induction n generalizing s with
  | zero => simp [expectFrom, total]
  | succ n ih =>
    rw [expect_step' e he π hπ (fun s _ => ∑ a, π' s a * f s a), expect_step' e he π hπ (fun s _ => ∑ a, |π' s a - π s a|), expect_step' e he π' hπ']
    rw [← Finset.sum_mul, ← Finset.sum_mul, hπ, one_mul, one_mul]
    have hin : ∀ a, |∑ s', e.next s a s' * (if e.ends s a s' then 0 else expectFrom e π' n s' (total (fun s a _ => f s a) 1))| ≤ L * M := by
      intro a
      refine (Finset.abs_sum_le_sum_abs _ _).trans ?_
      calc _ ≤ ∑ s', e.next s a s' * (L * M) := Finset.sum_le_sum fun s' _ => by
            rw [abs_mul, abs_of_nonneg (hn s a s')]
            refine mul_le_mul_of_nonneg_left ?_ (hn s a s')
            split
            · rw [abs_zero]; positivity
            · refine (expect_abs e he hn π' h0' hπ' f M hM h n s').trans (mul_le_mul_of_nonneg_right ?_ hM)
              exact_mod_cast (by omega : n ≤ L)
        _ = L * M := by rw [← Finset.sum_mul, he.next, one_mul]
    have hdiff : -(L * M * ∑ a, |π' s a - π s a|) ≤
        ∑ a, (π' s a - π s a) * ∑ s', e.next s a s' * (if e.ends s a s' then 0 else expectFrom e π' n s' (total (fun s a _ => f s a) 1)) := by
      rw [Finset.mul_sum, ← Finset.sum_neg_distrib]
      refine Finset.sum_le_sum fun a _ => ?_
      have h1 := neg_abs_le ((π' s a - π s a) * ∑ s', e.next s a s' * (if e.ends s a s' then 0 else expectFrom e π' n s' (total (fun s a _ => f s a) 1)))
      rw [abs_mul] at h1
      have h2 := mul_le_mul_of_nonneg_left (hin a) (abs_nonneg (π' s a - π s a))
      linarith
    have hrest : ∑ a, π s a * ∑ s', e.next s a s' * (if e.ends s a s' then 0 else expectFrom e π n s' (total (fun s _ _ => ∑ a, π' s a * f s a) 1)) -
        L * M * ∑ a, π s a * ∑ s', e.next s a s' * (if e.ends s a s' then 0 else expectFrom e π n s' (total (fun s _ _ => ∑ a, |π' s a - π s a|) 1)) ≤
        ∑ a, π s a * ∑ s', e.next s a s' * (if e.ends s a s' then 0 else expectFrom e π' n s' (total (fun s a _ => f s a) 1)) := by
      rw [Finset.mul_sum, ← Finset.sum_sub_distrib]
      refine Finset.sum_le_sum fun a _ => ?_
      rw [mul_left_comm, ← mul_sub]
      refine mul_le_mul_of_nonneg_left ?_ (h0 s a)
      rw [Finset.mul_sum, ← Finset.sum_sub_distrib]
      refine Finset.sum_le_sum fun s' _ => ?_
      rw [mul_left_comm, ← mul_sub]
      refine mul_le_mul_of_nonneg_left ?_ (hn s a s')
      split
      · simp
      · exact ih (by omega) s'
    have hsplit : ∑ a, π' s a * ∑ s', e.next s a s' * (if e.ends s a s' then 0 else expectFrom e π' n s' (total (fun s a _ => f s a) 1)) =
        ∑ a, (π' s a - π s a) * ∑ s', e.next s a s' * (if e.ends s a s' then 0 else expectFrom e π' n s' (total (fun s a _ => f s a) 1)) +
        ∑ a, π s a * ∑ s', e.next s a s' * (if e.ends s a s' then 0 else expectFrom e π' n s' (total (fun s a _ => f s a) 1)) := by
      rw [← Finset.sum_add_distrib]
      exact Finset.sum_congr rfl fun a _ => by ring
    rw [hsplit]
    linarith

end

theorem length_total {B : Type} (τ : List (Step S B)) : (τ.length : ℝ) = total (fun _ _ _ => 1) 1 τ := by
  induction τ with
  | nil => simp [total]
  | cons x l ih => simp only [List.length_cons, total, one_mul, ← ih]; push_cast; ring

/-- The distance of two probability distributions, by their divergence. -/
theorem distance_le {Y : Type} [Fintype Y] (p q : Y → ℝ) (hp : ∀ y, 0 < p y) (hq : ∀ y, 0 < q y) (h1 : ∑ y, p y = 1) (h2 : ∑ y, q y = 1) :
    0 ≤ ∑ y, p y * (Real.log (p y) - Real.log (q y)) ∧ ∑ y, |q y - p y| ≤ 2 * √(∑ y, p y * (Real.log (p y) - Real.log (q y))) := by
  have hterm : ∀ y, (√(q y) - √(p y)) ^ 2 + (p y - q y) ≤ p y * (Real.log (p y) - Real.log (q y)) := by
    intro y
    have e1 : (√(q y) - √(p y)) ^ 2 = p y + q y - 2 * (√(p y) * √(q y)) := by
      have a1 := Real.sq_sqrt (hp y).le
      have a2 := Real.sq_sqrt (hq y).le
      nlinarith
    have hsp := Real.sqrt_pos.mpr (hp y)
    have hsq := Real.sqrt_pos.mpr (hq y)
    have hl : Real.log (q y) - Real.log (p y) ≤ 2 * (√(q y) / √(p y) - 1) := by
      have := Real.log_le_sub_one_of_pos (div_pos hsq hsp)
      rw [Real.log_div hsq.ne' hsp.ne', Real.log_sqrt (hq y).le, Real.log_sqrt (hp y).le] at this
      linarith
    have hm := mul_le_mul_of_nonneg_left hl (hp y).le
    have e2 : p y * (2 * (√(q y) / √(p y) - 1)) = 2 * (√(p y) * √(q y)) - 2 * p y := by
      have : p y = √(p y) * √(p y) := (Real.mul_self_sqrt (hp y).le).symm
      field_simp
      nlinarith
    rw [e1]
    nlinarith
  have hsum := Finset.sum_le_sum fun y (_ : y ∈ Finset.univ) => hterm y
  rw [Finset.sum_add_distrib, Finset.sum_sub_distrib, h1, h2, sub_self, add_zero] at hsum
  have e3 : ∀ y, |q y - p y| = |√(q y) - √(p y)| * (√(q y) + √(p y)) := by
    intro y
    rw [← abs_of_nonneg (add_nonneg (Real.sqrt_nonneg (q y)) (Real.sqrt_nonneg (p y))), ← abs_mul]
    congr 1
    have a1 := Real.mul_self_sqrt (hp y).le
    have a2 := Real.mul_self_sqrt (hq y).le
    linarith [show (√(q y) - √(p y)) * (√(q y) + √(p y)) = √(q y) * √(q y) - √(p y) * √(p y) by ring]
  have hcs := Finset.sum_mul_sq_le_sq_mul_sq Finset.univ (fun y => |√(q y) - √(p y)|) fun y => √(q y) + √(p y)
  simp only [sq_abs, ← e3] at hcs
  have h4 : ∑ y, (√(q y) + √(p y)) ^ 2 ≤ 4 := by
    calc ∑ y, (√(q y) + √(p y)) ^ 2 ≤ ∑ y, (2 * q y + 2 * p y) := Finset.sum_le_sum fun y _ => by
          have a1 := Real.sq_sqrt (hp y).le
          have a2 := Real.sq_sqrt (hq y).le
          nlinarith [sq_nonneg (√(q y) - √(p y))]
      _ = 4 := by rw [Finset.sum_add_distrib, ← Finset.mul_sum, ← Finset.mul_sum, h1, h2]; norm_num
  have h0 : 0 ≤ ∑ y, (√(q y) - √(p y)) ^ 2 := Finset.sum_nonneg fun y _ => sq_nonneg _
  have h5 : (∑ y, |q y - p y|) ^ 2 ≤ 4 * ∑ y, p y * (Real.log (p y) - Real.log (q y)) := by nlinarith
  have h6 := Real.abs_le_sqrt h5
  rw [abs_of_nonneg (Finset.sum_nonneg fun y _ => abs_nonneg _), Real.sqrt_mul (by norm_num),
    show (4 : ℝ) = 2 ^ 2 by norm_num, Real.sqrt_sq (by norm_num)] at h6
  exact ⟨h0.trans hsum, h6⟩

theorem policy_pos (logits : (Fin p → ℝ) → S → Fin A → ℝ) (w : Fin p → ℝ) (s : S) (a : Fin A) : 0 < policy logits w s a :=
  div_pos (Real.exp_pos _) (Finset.sum_pos (fun _ _ => Real.exp_pos _) ⟨a, Finset.mem_univ a⟩)

theorem policy_sum (hA : 0 < A) (logits : (Fin p → ℝ) → S → Fin A → ℝ) (w : Fin p → ℝ) (s : S) : ∑ a, policy logits w s a = 1 := by
  unfold policy
  rw [← Finset.sum_div]
  exact div_self (Finset.sum_pos (fun _ _ => Real.exp_pos _) ⟨⟨0, hA⟩, Finset.mem_univ _⟩).ne'

theorem row_policy {rows : Fin N → DRow p A} {logits : (Fin p → ℝ) → S → Fin A → ℝ} {state : Fin N → S}
    (h : ∀ k w, (rows k).logits w = logits w (state k)) (k : Fin N) (w : Fin p → ℝ) (a : Fin A) :
    (rows k).logProb w a = Real.log (policy logits w (state k) a) := by
  rw [logProb_log, DRow.prob, policy, h]

theorem expect_inner {B : Type} [Fintype B] (e : Env S B) (he : e.Ok) (π : S → B → ℝ) (hπ : ∀ s, ∑ a, π s a = 1) (f : S → B → S → ℝ) (n : ℕ) (s : S) :
    expectFrom e π n s (total f 1) = expectFrom e π n s (total (fun s a _ => ∑ s', e.next s a s' * f s a s') 1) := by
  induction n generalizing s with
  | zero => rfl
  | succ n ih =>
    rw [expect_step e he π hπ, expect_step' e he π hπ, ← Finset.sum_add_distrib]
    refine Finset.sum_congr rfl fun a _ => ?_
    rw [← mul_add]
    congr 1
    simp only [mul_add, Finset.sum_add_distrib, ih]

section
variable {e : Env S (Fin A)} {V : S → ℝ} {n : ℕ} {logits : (Fin p → ℝ) → S → Fin A → ℝ} {theta : Fin p → ℝ} {state : Fin N → S}
  {rows : Fin N → DRow p A}

theorem Exact.return_eq (h : Exact e V n logits theta state rows) (hn : 1 ≤ n) (π : S → Fin A → ℝ) (hπ : ∀ s, ∑ a, π s a = 1) :
    expectedReturn e V n π = ∑ s, e.init s * V s + expectEpisode e π n (total (fun s a _ => worth e V s a - V s) 1) := by
  unfold expectedReturn expectEpisode
  rw [← Finset.sum_add_distrib]
  refine Finset.sum_congr rfl fun s _ => ?_
  rw [← mul_add]
  congr 1
  have h1 := expect_telescope e h.ok π hπ V n hn s
  rw [expect_inner e h.ok π hπ] at h1
  have h2 : (fun s a (_ : S) => ∑ s', e.next s a s' * stepDelta e 1 V s a s') = fun s a _ => worth e V s a - V s := by
    funext s a _
    unfold worth stepDelta
    simp only [mul_one, mul_sub, Finset.sum_sub_distrib]
    rw [← Finset.sum_mul, h.ok.next, one_mul]
  rw [h2] at h1
  linarith

theorem Exact.length_nonneg (h : Exact e V n logits theta state rows) (hA : 0 < A) : 0 ≤ expectedLength e n (policy logits theta) := by
  refine Finset.sum_nonneg fun s _ => mul_nonneg (h.init s) ?_
  have := expect_mono e h.ok h.next (policy logits theta) (fun s a => (policy_pos logits theta s a).le) (policy_sum hA logits theta)
    (fun _ _ => 0) (fun _ _ => 1) (fun _ _ => zero_le_one) n s
  have e0 : total (fun (_ : S) (_ : Fin A) (_ : S) => (0 : ℝ)) 1 = fun _ => 0 := by
    funext τ
    induction τ with
    | nil => rfl
    | cons x l ih => simp [total, ih]
  rw [e0, expectFrom_const e h.ok _ (policy_sum hA logits theta)] at this
  simpa only [length_total] using this

/-- The change of the policy, on average over the states of the batch. -/
theorem Exact.near (h : Exact e V n logits theta state rows) (hA : 0 < A) (w w' : Fin p → ℝ) (delta : ℝ)
    (hkl : (trpoMini fun k => (rows k).row).kl w w' < delta) :
    expectEpisode e (policy logits theta) n (total (fun s _ _ => ∑ a, |policy logits w' s a - policy logits w s a|) 1) ≤
      2 * √delta * expectedLength e n (policy logits theta) := by
  have hk : ∀ k, (rows k).row.kl w w' = ∑ a, policy logits w (state k) a * (Real.log (policy logits w (state k) a) - Real.log (policy logits w' (state k) a)) := by
    intro k
    show ∑ a, Real.exp ((rows k).logProb w a) * _ = _
    refine Finset.sum_congr rfl fun a _ => ?_
    rw [row_policy h.actor, row_policy h.actor, Real.exp_log (policy_pos logits w _ a)]
  have hd : ∀ k, 0 ≤ (rows k).row.kl w w' ∧ ∑ a, |policy logits w' (state k) a - policy logits w (state k) a| ≤ 2 * √((rows k).row.kl w w') := by
    intro k
    rw [hk]
    exact distance_le _ _ (policy_pos logits w _) (policy_pos logits w' _) (policy_sum hA logits w _) (policy_sum hA logits w' _)
  have hmean : (∑ k, (rows k).row.kl w w') / N < delta := hkl
  have hpos : 0 < delta := lt_of_le_of_lt (div_nonneg (Finset.sum_nonneg fun k _ => (hd k).1) (Nat.cast_nonneg N)) hmean
  rw [← h.often fun s _ => ∑ a, |policy logits w' s a - policy logits w s a|]
  refine mul_le_mul_of_nonneg_right ?_ (h.length_nonneg hA)
  have hr := Real.sqrt_pos.mpr hpos
  have hone : ∀ k, ∑ a, |policy logits w' (state k) a - policy logits w (state k) a| ≤ (rows k).row.kl w w' / √delta + √delta := by
    intro k
    refine (hd k).2.trans ?_
    have h1 := Real.sq_sqrt (hd k).1
    rw [div_add' _ _ _ hr.ne', le_div_iff₀ hr]
    nlinarith [sq_nonneg (√((rows k).row.kl w w') - √delta)]
  have hsum := Finset.sum_le_sum fun k (_ : k ∈ Finset.univ) => hone k
  rw [Finset.sum_add_distrib, ← Finset.sum_div, Finset.sum_const, Finset.card_univ, Fintype.card_fin, nsmul_eq_mul] at hsum
  rcases Nat.eq_zero_or_pos N with h0 | h0
  · subst h0; simp
  · have hN : (0 : ℝ) < N := by exact_mod_cast h0
    rw [div_lt_iff₀ hN] at hmean
    rw [div_le_iff₀ hN]
    have h2 : (∑ k, (rows k).row.kl w w') / √delta ≤ √delta * N := by
      rw [div_le_iff₀ hr]
      nlinarith [Real.mul_self_sqrt hpos.le]
    linarith

/-- A lower loss means that the new actions are better on average, in the states of the batch. -/
theorem Exact.better (h : Exact e V n logits theta state rows) (hA : 0 < A) (w : Fin p → ℝ)
    (hloss : (trpoMini fun k => (rows k).row).loss w ≤ (trpoMini fun k => (rows k).row).loss theta) :
    0 ≤ expectEpisode e (policy logits theta) n (total (fun s _ _ => ∑ a, policy logits w s a * (worth e V s a - V s)) 1) := by
  obtain ⟨mu, sigma, hs, hadv⟩ := h.adv
  have hratio : ∀ (w : Fin p → ℝ) (k : Fin N), Real.exp ((rows k).row.logp w - (rows k).row.logpOld) * (rows k).row.adv =
      policy logits w (state k) (rows k).act / policy logits theta (state k) (rows k).act *
        ((worth e V (state k) (rows k).act - V (state k) - mu) / sigma) := by
    intro w k
    show Real.exp ((rows k).logProb w (rows k).act - (rows k).logpOld) * (rows k).adv = _
    rw [hadv, h.old, row_policy h.actor, Real.exp_sub, Real.exp_log (policy_pos logits w _ _), Real.exp_log (policy_pos logits theta _ _)]
  have hle : (∑ k, Real.exp ((rows k).row.logp theta - (rows k).row.logpOld) * (rows k).row.adv) / N ≤
      (∑ k, Real.exp ((rows k).row.logp w - (rows k).row.logpOld) * (rows k).row.adv) / N := neg_le_neg_iff.mp hloss
  simp only [hratio] at hle
  have hlen := mul_le_mul_of_nonneg_right hle (h.length_nonneg hA)
  have hconv : ∀ w : Fin p → ℝ, (∑ k, policy logits w (state k) (rows k).act / policy logits theta (state k) (rows k).act *
        ((worth e V (state k) (rows k).act - V (state k) - mu) / sigma)) / N * expectedLength e n (policy logits theta) =
      (expectEpisode e (policy logits theta) n (total (fun s _ _ => ∑ a, policy logits w s a * (worth e V s a - V s)) 1) -
        expectEpisode e (policy logits theta) n (total (fun _ _ _ => mu) 1)) / sigma := by
    intro w
    rw [h.often fun s a => policy logits w s a / policy logits theta s a * ((worth e V s a - V s - mu) / sigma),
      ← h.often fun s _ => ∑ a, policy logits w s a * (worth e V s a - V s), ← h.often fun _ _ => mu, ← sub_mul, ← sub_div, ← Finset.sum_sub_distrib]
    have h1 : expectEpisode e (policy logits theta) n (total (fun s a _ => policy logits w s a / policy logits theta s a * ((worth e V s a - V s - mu) / sigma)) 1) =
        expectEpisode e (policy logits theta) n (total (fun s _ _ => (∑ a, policy logits w s a * (worth e V s a - V s) - mu) / sigma) 1) := by
      refine Finset.sum_congr rfl fun s _ => ?_
      congr 1
      refine expect_mean e h.ok _ (policy_sum hA logits theta) _ (fun s _ => (∑ a, policy logits w s a * (worth e V s a - V s) - mu) / sigma) (fun s => ?_) n s
      rw [← Finset.sum_mul, policy_sum hA, one_mul]
      have : ∀ a, policy logits theta s a * (policy logits w s a / policy logits theta s a * ((worth e V s a - V s - mu) / sigma)) =
          (policy logits w s a * (worth e V s a - V s) - policy logits w s a * mu) / sigma := by
        intro a
        have := (policy_pos logits theta s a).ne'
        field_simp
      simp only [this]
      rw [← Finset.sum_div, Finset.sum_sub_distrib, ← Finset.sum_mul, policy_sum hA, one_mul]
    rw [h1, ← h.often fun s _ => (∑ a, policy logits w s a * (worth e V s a - V s) - mu) / sigma, ← Finset.sum_div]
    ring
  rw [hconv, hconv, div_le_div_iff_of_pos_right hs] at hlen
  have hzero : expectEpisode e (policy logits theta) n (total (fun s _ _ => ∑ a, policy logits theta s a * (worth e V s a - V s)) 1) = 0 := by
    have : ∀ s, ∑ a, policy logits theta s a * (worth e V s a - V s) = 0 := by
      intro s
      simp only [mul_sub, Finset.sum_sub_distrib]
      rw [h.value, ← Finset.sum_mul, policy_sum hA, one_mul, sub_self]
    simp only [this]
    rw [← h.often fun _ _ => 0]
    simp
  linarith

theorem Exact.return_ge (h : Exact e V n logits theta state rows) (hA : 0 < A) (hn : 1 ≤ n) (M : ℝ) (hM : ∀ s a, |worth e V s a - V s| ≤ M)
    (w : Fin p → ℝ) (dist : ℝ)
    (hd : expectEpisode e (policy logits theta) n (total (fun s _ _ => ∑ a, |policy logits w s a - policy logits theta s a|) 1) ≤ dist)
    (hloss : (trpoMini fun k => (rows k).row).loss w ≤ (trpoMini fun k => (rows k).row).loss theta) :
    expectedReturn e V n (policy logits theta) - (n - 1) * M * dist ≤ expectedReturn e V n (policy logits w) := by
  rw [h.return_eq hn _ (policy_sum hA logits theta), h.return_eq hn _ (policy_sum hA logits w)]
  have hzero : expectEpisode e (policy logits theta) n (total (fun s a _ => worth e V s a - V s) 1) = 0 := by
    have h1 : ∀ s, expectFrom e (policy logits theta) n s (total (fun s a _ => worth e V s a - V s) 1) = 
        expectFrom e (policy logits theta) n s (total (fun _ _ _ => 0) 1) := by
      intro s
      refine expect_mean e h.ok _ (policy_sum hA logits theta) (fun s a => worth e V s a - V s) (fun _ _ => 0) (fun s => ?_) n s
      simp only [mul_sub, Finset.sum_sub_distrib]
      rw [h.value, ← Finset.sum_mul, policy_sum hA, one_mul, sub_self]
      simp
    unfold expectEpisode
    simp only [h1]
    have := h.often fun _ _ => 0
    unfold expectEpisode at this
    rw [← this]
    simp
  rw [hzero, add_zero]
  by_cases hS : Nonempty S
  · obtain ⟨s0⟩ := hS
    have hM0 : 0 ≤ M := (abs_nonneg _).trans (hM s0 ⟨0, hA⟩)
    have hch := fun s => mul_le_mul_of_nonneg_left (expect_change e h.ok h.next (policy logits theta) (policy logits w)
      (fun s a => (policy_pos logits theta s a).le) (fun s a => (policy_pos logits w s a).le) (policy_sum hA logits theta)
      (policy_sum hA logits w) (fun s a => worth e V s a - V s) M hM0 hM (n - 1) n (by omega) s) (h.init s)
    have hsum := Finset.sum_le_sum fun s (_ : s ∈ Finset.univ) => hch s
    simp only [mul_sub, Finset.sum_sub_distrib] at hsum
    have hb := h.better hA w hloss
    simp only [mul_sub] at hb
    have e1 : ((n - 1 : ℕ) : ℝ) = n - 1 := by rw [Nat.cast_sub hn]; simp
    have e2 : ∑ s, e.init s * (((n - 1 : ℕ) : ℝ) * M * expectFrom e (policy logits theta) n s (total (fun s _ _ => ∑ a, |policy logits w s a - policy logits theta s a|) 1)) =
        (n - 1) * M * expectEpisode e (policy logits theta) n (total (fun s _ _ => ∑ a, |policy logits w s a - policy logits theta s a|) 1) := by
      unfold expectEpisode
      rw [Finset.mul_sum, e1]
      exact Finset.sum_congr rfl fun s _ => by ring
    rw [e2] at hsum
    have hn0 : (0 : ℝ) ≤ n - 1 := by rw [← e1]; exact Nat.cast_nonneg _
    have h3 := mul_le_mul_of_nonneg_left hd (mul_nonneg hn0 hM0)
    unfold expectEpisode at *
    simp only [mul_sub, Finset.sum_sub_distrib] at *
    linarith
  · rw [not_nonempty_iff] at hS
    exact absurd h.ok.init (by simp)

theorem Exact.triangle (h : Exact e V n logits theta state rows) (hA : 0 < A) (u v w : Fin p → ℝ) :
    expectEpisode e (policy logits theta) n (total (fun s _ _ => ∑ a, |policy logits w s a - policy logits u s a|) 1) ≤
      expectEpisode e (policy logits theta) n (total (fun s _ _ => ∑ a, |policy logits v s a - policy logits u s a|) 1) +
      expectEpisode e (policy logits theta) n (total (fun s _ _ => ∑ a, |policy logits w s a - policy logits v s a|) 1) := by
  rw [← h.often fun s _ => ∑ a, |policy logits w s a - policy logits u s a|, ← h.often fun s _ => ∑ a, |policy logits v s a - policy logits u s a|,
    ← h.often fun s _ => ∑ a, |policy logits w s a - policy logits v s a|, ← add_mul, ← add_div, ← Finset.sum_add_distrib]
  refine mul_le_mul_of_nonneg_right (div_le_div_of_nonneg_right (Finset.sum_le_sum fun k _ => ?_) (Nat.cast_nonneg N)) (h.length_nonneg hA)
  rw [← Finset.sum_add_distrib]
  refine Finset.sum_le_sum fun a _ => ?_
  rw [add_comm]
  exact abs_sub_le _ _ _

/-! ### C271 -/

/-- **C271.** `repeat` updates of TRPO with the whole batch, which has no errors: after `j + 1` of them, all with a step that was not rejected
(the reported step size is not 0), the expected return is at most `2 * M * (n - 1) * length * (j + 1) * sqrt(max_kl)` lower than that of the policy
that made the batch. `n` is the time limit, `length` the expected number of steps and `M` a bound of the advantages. -/
theorem C271_learn (h : Exact e V n logits theta state rows) (hA : 0 < A) (hn : 1 ≤ n) (M : ℝ) (hM : ∀ s a, |worth e V s a - V s| ≤ M)
    (sqrt : ℝ → ℝ) (c : Trpo ℝ) (hpos : 0 < c.maxBacktracks) (damping tol : ℝ) (nsteps rounds : ℕ) (ss : List (Search ℝ p))
    (hss : trpoLearn sqrt c damping tol nsteps (List.replicate rounds (trpoMini fun k => (rows k).row)) theta = some ss) (j : ℕ) (s : Search ℝ p)
    (hs : ss[j]? = some s) (hacc : ∀ i ≤ j, ∀ s', ss[i]? = some s' → s'.step ≠ 0) :
    expectedReturn e V n (policy logits theta) - 2 * M * (n - 1) * expectedLength e n (policy logits theta) * (j + 1) * √c.maxKl ≤
      expectedReturn e V n (policy logits s.actor) := by
  obtain ⟨hlen, hall⟩ := C87_learn_partial sqrt c hpos damping tol nsteps _ theta ss hss
  rw [List.length_replicate] at hlen
  have key : ∀ (j : ℕ) (s : Search ℝ p), ss[j]? = some s → (∀ i ≤ j, ∀ s', ss[i]? = some s' → s'.step ≠ 0) →
      (trpoMini fun k => (rows k).row).loss s.actor ≤ (trpoMini fun k => (rows k).row).loss theta ∧
      expectEpisode e (policy logits theta) n (total (fun x _ _ => ∑ a, |policy logits s.actor x a - policy logits theta x a|) 1) ≤
        2 * √c.maxKl * expectedLength e n (policy logits theta) * (j + 1) := by
    intro j
    induction j with
    | zero =>
      intro s hs hacc
      have hlt := (List.getElem?_eq_some_iff.mp hs).1
      have := hall 0 _ theta s (by rw [List.getElem?_replicate, if_pos (by omega)]) (by simp) hs (hacc 0 le_rfl s hs)
      refine ⟨this.2.le, ?_⟩
      simpa using h.near hA theta s.actor c.maxKl this.1
    | succ j ih =>
      intro s hs hacc
      have hlt := (List.getElem?_eq_some_iff.mp hs).1
      obtain ⟨s', hs'⟩ : ∃ s', ss[j]? = some s' := ⟨_, List.getElem?_eq_getElem (by omega)⟩
      obtain ⟨h1, h2⟩ := ih s' hs' fun i hi => hacc i (by omega)
      have := hall (j + 1) _ s'.actor s (by rw [List.getElem?_replicate, if_pos (by omega)])
        (by rw [List.getElem?_cons_succ, List.getElem?_map, hs']; rfl) hs (hacc _ le_rfl s hs)
      refine ⟨this.2.le.trans h1, ?_⟩
      have h3 := h.near hA s'.actor s.actor c.maxKl this.1
      have h4 := h.triangle hA theta s'.actor s.actor
      push_cast
      linarith
  obtain ⟨h1, h2⟩ := key j s hs hacc
  have := h.return_ge hA hn M hM s.actor _ h2 h1
  refine le_trans (le_of_eq ?_) this
  ring

/-- C271 for one update: if the step is not rejected, the expected return falls by at most `2 * M * (n - 1) * length * sqrt(max_kl)`. If episodes
have one step only, it does not fall. -/
theorem C271_step (h : Exact e V n logits theta state rows) (hA : 0 < A) (hn : 1 ≤ n) (M : ℝ) (hM : ∀ s a, |worth e V s a - V s| ≤ M)
    (sqrt : ℝ → ℝ) (c : Trpo ℝ) (hpos : 0 < c.maxBacktracks) (damping tol : ℝ) (nsteps : ℕ) (s : Search ℝ p)
    (hs : trpoStep sqrt c damping tol nsteps (trpoMini fun k => (rows k).row) theta = some s) (hacc : s.step ≠ 0) :
    expectedReturn e V n (policy logits theta) - 2 * M * (n - 1) * expectedLength e n (policy logits theta) * √c.maxKl ≤
      expectedReturn e V n (policy logits s.actor) ∧
    (n = 1 → expectedReturn e V n (policy logits theta) ≤ expectedReturn e V n (policy logits s.actor)) := by
  have hl : trpoLearn sqrt c damping tol nsteps (List.replicate 1 (trpoMini fun k => (rows k).row)) theta = some [s] := by
    simp [trpoLearn, hs]
  have := C271_learn h hA hn M hM sqrt c hpos damping tol nsteps 1 [s] hl 0 s rfl (by
    intro i hi s' hs'
    obtain rfl : i = 0 := by omega
    obtain rfl : s = s' := by simpa using hs'
    exact hacc)
  simp only [Nat.cast_zero, zero_add, mul_one] at this
  refine ⟨this, fun h1 => ?_⟩
  subst h1
  simpa using this

end

/-! ### Examples -/

/-- Two steps; action 1 has the reward 1, action 0 the reward 0. -/
noncomputable def twice : Env (Fin 2) (Fin 2) where
  init s := if s = 0 then 1 else 0
  next _ _ s' := if s' = 1 then 1 else 0
  rew _ a _ := if a = 1 then 1 else 0
  ends s _ _ := s = 1

/-- The parameter is the logit of action 1. -/
noncomputable def oneLogit (w : Fin 1 → ℝ) (_ : Fin 2) (a : Fin 2) : ℝ := if a = 1 then w 0 else 0

/-- Each state with each action. -/
noncomputable def fourRows (k : Fin 4) : DRow 1 2 where
  logits w := oneLogit w 0
  act := if k.val % 2 = 0 then 0 else 1
  adv := if k.val % 2 = 0 then -1 / 2 else 1 / 2
  logpOld := Real.log (1 / 2)

theorem oneLogit_zero (s a : Fin 2) : policy oneLogit 0 s a = 1 / 2 := by
  unfold policy oneLogit
  fin_cases a <;> norm_num [Fin.sum_univ_two]

theorem twice_worth (s a : Fin 2) : worth twice (fun s => if s = 0 then 1 else 1 / 2) s a - (if s = 0 then 1 else 1 / 2) = if a = 0 then -1 / 2 else 1 / 2 := by
  unfold worth twice
  fin_cases s <;> fin_cases a <;> norm_num [Fin.sum_univ_two]

theorem fourRows_exact : Exact twice (fun s => if s = 0 then 1 else 1 / 2) 2 oneLogit 0 (fun k : Fin 4 => if k.val < 2 then 0 else 1) fourRows where
  init s := by unfold twice; fin_cases s <;> norm_num
  next _ _ s' := by unfold twice; fin_cases s' <;> norm_num
  ok := ⟨by simp [twice], by simp [twice]⟩
  value s := by
    unfold worth twice
    simp only [oneLogit_zero]
    fin_cases s <;> norm_num [Fin.sum_univ_two]
  actor k w := rfl
  old k := by rw [oneLogit_zero]; rfl
  adv := ⟨0, 1, one_pos, fun k => by
    rw [twice_worth, sub_zero, div_one]
    fin_cases k <;> simp [fourRows]⟩
  often f := by
    unfold expectedLength expectEpisode
    simp only [expectFrom, oneLogit_zero, Fin.sum_univ_two, Fin.sum_univ_four, twice, total, fourRows]
    norm_num
    ring

theorem fourRows_regular (k : Fin 4) : (fourRows k).row.Regular := Or.inl ⟨2, fourRows k, fun a => by
  show ContDiff ℝ 2 fun theta => oneLogit theta 0 a
  unfold oneLogit
  fin_cases a
  · exact contDiff_const
  · exact contDiff_apply ℝ ℝ 0, rfl⟩

theorem fourRows_loss (t : ℝ) : (trpoMini fun k => (fourRows k).row).loss (fun _ => t) = 1 / 2 - Real.exp t / (1 + Real.exp t) := by
  have hl : ∀ (k : Fin 4) (a : Fin 2), (fourRows k).logProb (fun _ => t) a = Real.log (Real.exp (if a = 1 then t else 0) / (1 + Real.exp t)) := by
    intro k a
    rw [logProb_log, DRow.prob]
    simp [fourRows, oneLogit, Fin.sum_univ_two]
  have hp : 0 < 1 + Real.exp t := by positivity
  show -((∑ k : Fin 4, Real.exp ((fourRows k).logProb (fun _ => t) (fourRows k).act - (fourRows k).logpOld) * (fourRows k).adv) / ((4 : ℕ) : ℝ)) = _
  simp only [hl, Fin.sum_univ_four]
  have e1 : ∀ x : ℝ, 0 < x → Real.exp (Real.log x - Real.log (1 / 2)) = 2 * x := by
    intro x hx
    rw [Real.exp_sub, Real.exp_log hx, Real.exp_log (by norm_num)]
    ring
  simp only [fourRows]
  norm_num
  have e2 := e1 (1 / (1 + Real.exp t)) (by positivity)
  have e3 := e1 (Real.exp t / (1 + Real.exp t)) (by positivity)
  norm_num at e2 e3
  simp only [e2, e3]
  field_simp
  ring

/-- With enough rounds of the line search there is an update that is not rejected, so `C271_step` applies. -/
example : ∃ rounds s, trpoStep Real.sqrt ⟨rounds, 1 / 100, 4 / 5⟩ (1 / 10) (1 / 10 ^ 10) 10 (trpoMini fun k => (fourRows k).row) 0 = some s ∧
    0 < s.step ∧ expectedReturn twice (fun s => if s = 0 then 1 else 1 / 2) 2 (policy oneLogit 0) -
      2 * (1 / 2) * (2 - 1) * expectedLength twice 2 (policy oneLogit 0) * √(1 / 100) ≤
        expectedReturn twice (fun s => if s = 0 then 1 else 1 / 2) 2 (policy oneLogit s.actor) := by
  have hg : (trpoMini fun k => (fourRows k).row).grad 0 ≠ 0 := by
    intro h0
    have hf : ContDiff ℝ 2 (trpoMini fun k => (fourRows k).row).loss :=
      ((ContDiff.sum fun k _ => (((regular_logp (fourRows_regular k)).sub contDiff_const).exp).mul contDiff_const).div_const _).neg
    have h1 := line_first hf 0 (fun _ => 1) 0
    have h2 := gradOf_dot (trpoMini fun k => (fourRows k).row).loss 0 (fun _ => 1)
    have h3 : gradOf (trpoMini fun k => (fourRows k).row).loss 0 = 0 := h0
    rw [h3, zero_dotProduct] at h2
    have e : (fun t : ℝ => (trpoMini fun k => (fourRows k).row).loss (0 + t • fun _ => 1)) = fun t => 1 / 2 - Real.exp t / (1 + Real.exp t) := by
      funext t
      rw [← fourRows_loss]
      congr 1
      funext i
      simp
    rw [e, zero_smul, add_zero, ← h2] at h1
    have h4 := ((Real.hasDerivAt_exp (0 : ℝ)).div ((Real.hasDerivAt_exp (0 : ℝ)).const_add 1) (by positivity)).const_sub (1 / 2)
    have := h1.unique h4
    norm_num at this
  obtain ⟨k, hk⟩ := C255_trpo (fun k => (fourRows k).row) fourRows_regular 0 (1 / 10) (1 / 10 ^ 10) (by norm_num) (by norm_num) 10 (by norm_num) hg
    (1 / 100) (4 / 5) (by norm_num) (by norm_num) (by norm_num)
  obtain ⟨s, h1, h2, -⟩ := hk (k + 1) (by omega)
  refine ⟨k + 1, s, h1, h2, ?_⟩
  have := (C271_step fourRows_exact (by norm_num) (by norm_num) (1 / 2) (fun s a => by
    rw [twice_worth]; split <;> norm_num [abs_le]) Real.sqrt ⟨k + 1, 1 / 100, 4 / 5⟩ (Nat.succ_pos k) (1 / 10) (1 / 10 ^ 10) 10 s h1 h2.ne').1
  simpa using this

end Verif.TrustRegion
