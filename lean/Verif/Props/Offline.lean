import Verif.Model.Offline
import Verif.Lemmas.BatchUse
import Verif.Lemmas.QTarget
import Verif.Props.Batch
import Verif.Props.Ppo
import Verif.Props.Returns
import Mathlib.Tactic.NormNum
import Mathlib.Tactic.Linarith
import Mathlib.Tactic.FieldSimp
import Mathlib.Analysis.SpecialFunctions.Exp

/-! Properties C114-C127: offline policies, imitation, curiosity and the random policy. -/

set_option linter.unusedSectionVars false

namespace Verif.Offline

open Verif.Policy Verif.Returns Verif.Ppo Verif.Buffer Verif.Spec

section Field
variable {K : Type} [Field K] [LinearOrder K] [IsStrictOrderedRing K]

/-! ### Sums over broadcast tensors -/

theorem outer_length (f : K → K → K) (xs ys : List K) :
    ((outer f xs ys).flatten).length = ys.length * xs.length := by
  unfold outer
  induction ys with
  | nil => simp
  | cons y ys ih =>
    rw [List.map_cons, List.flatten_cons, List.length_append, ih, List.length_map, List.length_cons]
    ring

theorem outer_mul_sum (xs ys : List K) : (outer (· * ·) xs ys).flatten.sum = xs.sum * ys.sum := by
  unfold outer
  induction ys with
  | nil => simp
  | cons y ys ih =>
    rw [List.map_cons, List.flatten_cons, List.sum_append, ih, List.sum_cons]
    rw [show (xs.map fun x => x * y).sum = xs.sum * y from List.sum_map_mul_right ..|>.trans (by simp)]
    ring

theorem sum_map_sub_const (xs : List K) (y : K) : (xs.map fun x => x - y).sum = xs.sum - xs.length * y := by
  induction xs with
  | nil => simp
  | cons x xs ih => rw [List.map_cons, List.sum_cons, ih, List.sum_cons, List.length_cons]; push_cast; ring

theorem outer_sub_sum (xs ys : List K) :
    (outer (· - ·) xs ys).flatten.sum = ys.length * xs.sum - xs.length * ys.sum := by
  unfold outer
  induction ys with
  | nil => simp
  | cons y ys ih =>
    rw [List.map_cons, List.flatten_cons, List.sum_append, ih, sum_map_sub_const, List.sum_cons, List.length_cons]
    push_cast; ring

theorem mean2_outer_mul (xs ys : List K) : mean2 (outer (· * ·) xs ys) = mean xs * mean ys := by
  rw [mean2, mean, mean, mean, outer_mul_sum, outer_length]
  push_cast
  rw [div_mul_div_comm, mul_comm (ys.length : K)]

theorem mean2_outer_sub (xs ys : List K) (h : xs.length = ys.length) :
    mean2 (outer (· - ·) xs ys) = mean xs - mean ys := by
  rw [mean2, mean, mean, mean, outer_sub_sum, outer_length, h]
  push_cast
  by_cases h0 : (ys.length : K) = 0
  · simp [h0]
  · field_simp

theorem mean_sub (l : List (CrrRow K)) (f g : CrrRow K → K) :
    mean (l.map f) - mean (l.map g) = mean (l.map fun r => f r - g r) := by
  rw [mean, mean, mean]
  simp only [List.length_map]
  rw [← sub_div]
  congr 1
  induction l with
  | nil => simp
  | cons x l ih => simp only [List.map_cons, List.sum_cons]; rw [← ih]; ring

/-! ### C114 -/

/-- The objective of advantage-weighted regression: every logged action's log-likelihood, weighted by a function of its
own advantage. -/
def weighted (coef : K → K) (rows : List (CrrRow K)) : K := mean (rows.map fun r => coef r.advantage * -r.logp)

/-- C114, what holds: the actor's loss is the product of the mean negative log-likelihood and the mean weight. That is
the weighted regression if all rows have the same weight, in particular with one row and in mode "all". Missing: rows
with different weights (`C114_violated`). -/
theorem C114_actor_partial (e : K → K) (mode : CrrMode) (beta bound : K) (rows : List (CrrRow K)) (hne : rows ≠ []) :
    crrActorLoss e mode beta bound rows =
      mean (rows.map fun r => -r.logp) * mean (rows.map fun r => crrCoef e mode beta bound r.advantage) ∧
    ((∀ r ∈ rows, ∀ s ∈ rows, crrCoef e mode beta bound r.advantage = crrCoef e mode beta bound s.advantage) →
      crrActorLoss e mode beta bound rows = weighted (crrCoef e mode beta bound) rows) := by
  have hlen : (rows.length : K) ≠ 0 := by
    rw [Nat.cast_ne_zero]; intro h; exact hne (List.length_eq_zero_iff.mp h)
  have hsum : ∀ (l : List (CrrRow K)) (c : K), (∀ r ∈ l, crrCoef e mode beta bound r.advantage = c) →
      (l.map fun r => crrCoef e mode beta bound r.advantage).sum = l.length * c ∧
      (l.map fun r => crrCoef e mode beta bound r.advantage * -r.logp).sum = c * (l.map fun r => -r.logp).sum := by
    intro l c hl
    induction l with
    | nil => simp
    | cons x l ih =>
      obtain ⟨h1, h2⟩ := ih fun r hr => hl r (List.mem_cons_of_mem _ hr)
      simp only [List.map_cons, List.sum_cons, List.length_cons]
      rw [h1, h2, hl x (List.mem_cons_self ..)]
      push_cast
      constructor <;> ring
  have hprod : crrActorLoss e mode beta bound rows =
      mean (rows.map fun r => -r.logp) * mean (rows.map fun r => crrCoef e mode beta bound r.advantage) := by
    cases mode with
    | all =>
      rw [crrActorLoss]
      have : mean (rows.map fun r => crrCoef e .all beta bound r.advantage) = 1 := by
        rw [mean, (hsum rows 1 fun r _ => rfl).1, List.length_map, mul_one, div_self hlen]
      rw [this]
      simp only [mul_one]
    | exp => exact mean2_outer_mul _ _
    | binary => exact mean2_outer_mul _ _
  refine ⟨hprod, ?_⟩
  intro hall
  rw [hprod, weighted]
  obtain ⟨r0, l, rfl⟩ := List.exists_cons_of_ne_nil hne
  obtain ⟨h1, h2⟩ := hsum _ (crrCoef e mode beta bound r0.advantage) fun r hr => hall r hr r0 (List.mem_cons_self ..)
  rw [mean, mean, mean, h1, h2]
  simp only [List.length_map]
  field_simp

/-- Two rows with two actions of equal probability. In the first the logged action is the better one, in the second the
worse one; the second is the less likely one according to `logp` (numbers chosen for simplicity). -/
def exCrr : List (CrrRow ℚ) :=
  [⟨[1, 0], 0, [1 / 2, 1 / 2], -1, 0, false, false, [4, 2], [1 / 2, 1 / 2]⟩,
   ⟨[1, 0], 1, [1 / 2, 1 / 2], -2, 1, false, true, [4, 2], [1 / 2, 1 / 2]⟩]

/-- C114 violated: with a good and a bad action in the batch, the bad one is imitated as much as the good one. -/
theorem C114_violated : ∃ rows : List (CrrRow ℚ), rows.map CrrRow.advantage = [1 / 2, -1 / 2] ∧
    crrActorLoss id .binary 1 20 rows = 3 / 4 ∧ weighted (crrCoef id .binary 1 20) rows = 1 / 2 :=
  ⟨exCrr, by decide +kernel, by decide +kernel, by decide +kernel⟩

/-- C114: the weights. In mode "binary" an action counts if and only if it is better than the policy's mean; in mode "exp" its weight is the exponential of
the advantage divided by `beta`, but at most the bound; in mode "all" all actions count the same. -/
theorem C114_weights (e : K → K) (he : ∀ x, 0 < e x) (beta bound adv : K) :
    crrCoef e .all beta bound adv = 1 ∧ (0 < adv → crrCoef e .binary beta bound adv = 1) ∧ (adv ≤ 0 → crrCoef e .binary beta bound adv = 0) ∧
    (e (adv / beta) ≤ bound → crrCoef e .exp beta bound adv = e (adv / beta)) ∧ (bound ≤ e (adv / beta) → crrCoef e .exp beta bound adv = bound) := by
  have h := max_eq_left (he (adv / beta)).le
  refine ⟨rfl, fun h => if_pos h, fun h => if_neg (not_lt.2 h), fun hb => ?_, fun hb => ?_⟩
  · simp only [crrCoef, h]
    exact min_eq_left hb
  · simp only [crrCoef, h]
    exact min_eq_right hb

/-- C114: the critic's part of the loss is half the mean squared difference to reward plus discounted expected value under the policy's own
distribution, no value being added at the end of an episode; so it is zero only if all values agree with their targets. -/
theorem C114_critic (gamma : K) (rows : List (CrrRow K)) (hne : rows ≠ []) :
    0 ≤ crrCriticLoss gamma rows ∧ (crrCriticLoss gamma rows = 0 ↔ ∀ r ∈ rows, r.qa = crrTarget gamma r) ∧
    ∀ r, (r.terminated = true ∨ r.truncated = true → crrTarget gamma r = r.rew) ∧
      (r.terminated = false → r.truncated = false → crrTarget gamma r = r.rew + gamma * (List.zipWith (· * ·) r.qNext r.probsNext).sum) := by
  have hlen : (0 : K) < rows.length := by exact_mod_cast List.length_pos_of_ne_nil hne
  have hnn : ∀ y ∈ rows.map fun r => (r.qa - crrTarget gamma r) ^ 2, 0 ≤ y := by
    intro y hy
    obtain ⟨r, _, rfl⟩ := List.mem_map.1 hy
    exact sq_nonneg _
  have hs := List.sum_nonneg hnn
  have hdef : crrCriticLoss gamma rows = 1 / 2 * ((rows.map fun r => (r.qa - crrTarget gamma r) ^ 2).sum / rows.length) := by
    simp [crrCriticLoss, mean]
  refine ⟨?_, ?_, ?_⟩
  · rw [hdef]
    exact mul_nonneg (by norm_num) (div_nonneg hs hlen.le)
  · rw [hdef]
    constructor
    · intro h r hr
      have h0 : (rows.map fun r => (r.qa - crrTarget gamma r) ^ 2).sum = 0 := by
        rcases mul_eq_zero.1 h with h | h
        · norm_num at h
        · rcases div_eq_zero_iff.1 h with h | h
          · exact h
          · exact absurd h hlen.ne'
      have h1 := List.single_le_sum hnn _ (List.mem_map.2 ⟨r, hr, rfl⟩)
      rw [h0] at h1
      have h2 := le_antisymm h1 (sq_nonneg _)
      exact sub_eq_zero.1 (pow_eq_zero_iff (by norm_num) |>.1 h2)
    · intro h
      have : (rows.map fun r => (r.qa - crrTarget gamma r) ^ 2).sum = 0 := by
        refine List.sum_eq_zero ?_
        intro y hy
        obtain ⟨r, hr, rfl⟩ := List.mem_map.1 hy
        rw [h r hr]
        simp
      rw [this]
      simp
  · intro r
    constructor
    · intro h
      rcases h with h | h <;> simp [crrTarget, h]
    · intro h1 h2
      simp [crrTarget, dot, h1, h2]

/-- C114: the whole loss is the sum of the actor's and the critic's part and the weighted conservative regulariser. -/
theorem C114_loss (e : K → K) (lse : List K → K) (mode : CrrMode) (beta bound gamma w : K) (rows : List (CrrRow K)) :
    crrLoss e lse mode beta bound gamma w rows = crrActorLoss e mode beta bound rows + crrCriticLoss gamma rows +
      w * mean (rows.map fun r => lse r.q - r.q.getD r.act 0) := by
  rw [crrLoss, crrMinQ, mean2_outer_sub _ _ (by simp), mean_sub]
  rfl

example : crrCoef (fun x : ℚ => x + 5) .exp 2 20 4 = 7 ∧ crrCoef (fun x : ℚ => x + 5) .exp 2 6 4 = 6 ∧ crrCoef (fun x : ℚ => x + 5) .binary 2 6 0 = 0 ∧
    crrCriticLoss (1 / 2) exCrr = 5 / 16 := by decide +kernel

/-! ### C115 -/

end Field

/-- `logsumexp`. -/
noncomputable def lse (l : List ℝ) : ℝ := Real.log (l.map Real.exp).sum

theorem exp_le_sum (l : List ℝ) (x : ℝ) (hx : x ∈ l) : Real.exp x ≤ (l.map Real.exp).sum := by
  induction l with
  | nil => simp at hx
  | cons y l ih =>
    rw [List.map_cons, List.sum_cons]
    have hnn : 0 ≤ (l.map Real.exp).sum := List.sum_nonneg (by
      intro z hz; obtain ⟨w, -, rfl⟩ := List.mem_map.mp hz; exact (Real.exp_pos w).le)
    rcases List.mem_cons.mp hx with rfl | hx
    · linarith
    · have := ih hx; have := Real.exp_pos y; linarith

theorem le_lse (l : List ℝ) (x : ℝ) (hx : x ∈ l) : x ≤ lse l := by
  rw [lse, Real.le_log_iff_exp_le (lt_of_lt_of_le (Real.exp_pos x) (exp_le_sum l x hx))]
  exact exp_le_sum l x hx

/-- C115: the conservative regulariser of discrete CRR is the mean over the batch of `logsumexp` of the row's values
minus the value of the row's logged action, despite the broadcast; it is never negative. -/
theorem C115_regulariser (rows : List (CrrRow ℝ)) (hact : ∀ r ∈ rows, r.act < r.q.length) :
    crrMinQ lse rows = mean (rows.map fun r => lse r.q - r.q.getD r.act 0) ∧ 0 ≤ crrMinQ lse rows := by
  have h1 : crrMinQ lse rows = mean (rows.map fun r => lse r.q - r.q.getD r.act 0) := by
    rw [crrMinQ, mean2_outer_sub _ _ (by simp)]
    exact mean_sub rows (fun r => lse r.q) CrrRow.qa
  refine ⟨h1, ?_⟩
  rw [h1, mean]
  apply div_nonneg
  · apply List.sum_nonneg
    intro x hx
    obtain ⟨r, hr, rfl⟩ := List.mem_map.mp hx
    have hlt := hact r hr
    have : r.q.getD r.act 0 ∈ r.q := by
      rw [List.getD_eq_getElem?_getD, List.getElem?_eq_getElem hlt]; exact List.getElem_mem _
    linarith [le_lse r.q _ this]
  · exact Nat.cast_nonneg _

/-- Two rows whose regulariser is not zero. -/
example : ∃ rows : List (CrrRow ℝ), rows.length = 2 ∧ (∀ r ∈ rows, r.act < r.q.length) ∧ 0 < crrMinQ lse rows := by
  refine ⟨[⟨[0, 0], 0, [], 0, 0, false, false, [], []⟩, ⟨[0, 0], 1, [], 0, 0, false, false, [], []⟩], rfl,
    by simp, ?_⟩
  rw [(C115_regulariser _ (by simp)).1, mean]
  have : lse [0, 0] = Real.log 2 := by rw [lse]; norm_num
  simp only [List.map_cons, List.map_nil, this]
  norm_num
  have := Real.log_pos (show (1 : ℝ) < 2 by norm_num)
  linarith

section Field
variable {K : Type} [Field K] [LinearOrder K] [IsStrictOrderedRing K]

/-! ### C116 -/

/-- C116, what holds: a terminated transition's target is its reward, and the target of a transition that neither
terminated nor was truncated is the reward plus the discounted value of the next state. Missing: truncated transitions
(`C116_violated`). -/
theorem C116_targets_partial (gamma : K) :
    (∀ r : CrrRow K, (r.terminated = true → crrTarget gamma r = r.rew) ∧
      (r.terminated = false → r.truncated = false → crrTarget gamma r = r.rew + gamma * dot r.qNext r.probsNext)) ∧
    (∀ (alpha rew q1 q2 logp : K) (trunc : Bool), cqlTarget gamma alpha rew true trunc q1 q2 logp = rew ∧
      cqlTarget gamma alpha rew false false q1 q2 logp = rew + gamma * (min q1 q2 - alpha * logp)) := by
  constructor
  · intro r
    constructor
    · intro h; rw [crrTarget, h, Bool.true_or, if_pos rfl, mul_zero, add_zero]
    · intro h1 h2; rw [crrTarget, h1, h2, Bool.or_false, if_neg (by simp)]
  · intro alpha rew q1 q2 logp trunc
    constructor
    · rw [cqlTarget, Bool.true_or, if_pos rfl, zero_mul, zero_mul, add_zero]
    · rw [cqlTarget, Bool.or_false, if_neg (by simp), one_mul]

/-- C116 violated: discrete CRR, CQL and BCQ do not bootstrap from the state after a transition that was only
truncated. -/
theorem C116_violated :
    (∃ r : CrrRow ℚ, r.terminated = false ∧ r.truncated = true ∧ dot r.qNext r.probsNext = 3 ∧
      crrTarget 1 r = r.rew) ∧
    (∀ q : ℚ, cqlTarget 1 0 5 false true q q 0 = 5) ∧
    (∀ q : ℚ, bcqTarget (fun _ (_ : Unit) => ()) (fun _ _ => q) (fun _ _ => q) 1 1 1 [5] [true] [()] = [5]) := by
  refine ⟨⟨⟨[1, 0], 1, [1 / 2, 1 / 2], -2, 1, false, true, [4, 2], [1 / 2, 1 / 2]⟩, rfl, rfl, by decide +kernel,
    by decide +kernel⟩, ?_, ?_⟩
  · intro q; simp [cqlTarget]
  · intro q; simp [bcqTarget, repeatRows, reshapeRows]

/-! ### C117 -/

/-- C117, what holds: if `min_action` is 0 the random actions fill the interval from `min_action` to `max_action`. If
it is negative and not larger than `max_action` in size they stay inside the interval. Missing: other bounds, and
filling the interval (`C117_violated`). -/
theorem C117_random_partial (hi u : K) (hu0 : 0 ≤ u) (hu1 : u < 1) :
    (0 ≤ hi → cqlRandom 0 hi u = some (0 + u * (hi - 0))) ∧
    (∀ lo, lo ≤ 0 → -lo ≤ hi → ∃ a, cqlRandom lo hi u = some a ∧ lo ≤ a ∧ a ≤ hi) := by
  constructor
  · intro h
    rw [cqlRandom, uniform, neg_zero, if_pos h]
  · intro lo h0 h
    refine ⟨-lo + u * (hi - -lo), by rw [cqlRandom, uniform, if_pos h], ?_, ?_⟩
    · have : 0 ≤ u * (hi - -lo) := mul_nonneg hu0 (by linarith)
      linarith
    · have : u * (hi - -lo) ≤ 1 * (hi - -lo) := mul_le_mul_of_nonneg_right hu1.le (by linarith)
      linarith

/-- C117 violated: with the default bounds -1 and 1 every entry of every random action is 1; the bounds -2 and 1 raise
an exception; with the bounds 1 and 3 actions below 1 occur. -/
theorem C117_violated :
    (∀ u : ℚ, cqlRandom (-1) 1 u = some 1) ∧ (∀ u : ℚ, cqlRandom (-2) 1 u = none) ∧
    (∃ u a : ℚ, 0 ≤ u ∧ u < 1 ∧ cqlRandom 1 3 u = some a ∧ a < 1) := by
  refine ⟨?_, ?_, 0, -1, by norm_num, by norm_num, by decide +kernel, by norm_num⟩
  · intro u; rw [cqlRandom, uniform, if_pos (by norm_num)]; norm_num
  · intro u; rw [cqlRandom, uniform, if_neg (by norm_num)]

end Field

/-- The importance weight of the random actions (also C117): the logarithm of the density of the uniform distribution
on the interval is subtracted if the interval has length 2. -/
theorem C117_density_partial (lo hi q : ℝ) (h : hi - lo = 2) (dim : Nat) :
    randomValue dim q = q - Real.log ((1 / (hi - lo)) ^ dim) := by
  rw [randomValue, h]

/-- C117 violated as to the density: for the interval from -2 to 2 the density is 1/4, not 1/2. -/
theorem C117_density_violated : ∃ lo hi q : ℝ, lo < hi ∧ randomValue 1 q ≠ q - Real.log ((1 / (hi - lo)) ^ 1) := by
  refine ⟨-2, 2, 0, by norm_num, ?_⟩
  rw [randomValue]
  intro h
  have h1 : Real.log ((1 / 2 : ℝ) ^ 1) = Real.log ((1 / (2 - -2) : ℝ) ^ 1) := by linarith
  have := Real.log_injOn_pos (by norm_num : (1 / 2 : ℝ) ^ 1 ∈ Set.Ioi 0)
    (by norm_num : (1 / (2 - -2) : ℝ) ^ 1 ∈ Set.Ioi 0) h1
  norm_num at this

/-! ### C118 -/

/-- The values of `B` rows with `R` repetitions each, as the flat list the code works with. -/
def flat {α : Type} (B R : Nat) (f : Nat → Nat → α) : List α :=
  (List.range B).flatMap fun i => (List.range R).map fun r => f i r

theorem zipWith_flatMap {α β γ : Type} (op : α → β → γ) (l : List Nat) (R : Nat) (f : Nat → Nat → α) (g : Nat → Nat → β) :
    List.zipWith op (l.flatMap fun i => (List.range R).map fun r => f i r)
      (l.flatMap fun i => (List.range R).map fun r => g i r) =
      l.flatMap fun i => (List.range R).map fun r => op (f i r) (g i r) := by
  induction l with
  | nil => rfl
  | cons i l ih =>
    simp only [List.flatMap_cons]
    rw [List.zipWith_append (by simp), ih]
    congr 1
    rw [List.zipWith_map_left, List.zipWith_map_right, List.zipWith_self]

theorem zipWith_flat {α β γ : Type} (op : α → β → γ) (B R : Nat) (f : Nat → Nat → α) (g : Nat → Nat → β) :
    List.zipWith op (flat B R f) (flat B R g) = flat B R fun i r => op (f i r) (g i r) := zipWith_flatMap op _ R f g

theorem repeatRows_flat {α : Type} (B R : Nat) (c : Nat → α) :
    repeatRows R ((List.range B).map c) = flat B R fun i _ => c i := by
  rw [repeatRows, flat, List.flatMap_map]
  apply List.flatMap_congr
  intro i _
  rw [List.map_const', List.length_range]

theorem catQ_flat (B R : Nat) (f g h : Nat → Nat → ℝ) :
    catQ (flat B R f) (flat B R g) (flat B R h) = flat B R fun i r => [f i r, g i r, h i r] := by
  rw [catQ, zipWith_flat, zipWith_flat]

/-- The penalty as described: for each row the (soft) maximum over all its sampled actions, minus the value of the
logged action. `vals i r` are the values of the actions of row `i` in repetition `r`. -/
noncomputable def conservative (temperature weight : ℝ) (B R : Nat) (vals : Nat → Nat → List ℝ) (current : List ℝ) : ℝ :=
  weight * (mean ((List.range B).map fun i => temperature * lseT temperature ((List.range R).flatMap (vals i))) -
    mean current)

/-- The three values of row `i` in repetition `r`, not below the calibration return of the row if there is one. -/
noncomputable def sampled (cal : Option (Nat → ℝ)) (f g h : Nat → Nat → ℝ) (i r : Nat) : List ℝ :=
  match cal with
  | none => [f i r, g i r, h i r]
  | some c => [max (f i r) (c i), max (g i r) (c i), max (h i r) (c i)]

theorem cqlLoss_flat (T w : ℝ) (B R : Nat) (cal : Option (Nat → ℝ)) (f g h : Nat → Nat → ℝ) (current : List ℝ) :
    cqlLoss T w R (cal.map fun c => (List.range B).map c) (flat B R f) (flat B R g) (flat B R h) current =
      cqlPenalty T w (flat B R (sampled cal f g h)) current := by
  cases cal with
  | none => rw [Option.map_none, cqlLoss, catQ_flat]; rfl
  | some c =>
    rw [Option.map_some, cqlLoss]
    rw [repeatRows_flat, zipWith_flat, zipWith_flat, zipWith_flat, catQ_flat]
    rfl

theorem sum_exp_pos (T : ℝ) (l : List ℝ) (h : l ≠ []) : 0 < (l.map fun x => Real.exp (x / T)).sum := by
  obtain ⟨x, l, rfl⟩ := List.exists_cons_of_ne_nil h
  rw [List.map_cons, List.sum_cons]
  have : 0 ≤ (l.map fun x => Real.exp (x / T)).sum := List.sum_nonneg (by
    intro z hz; obtain ⟨y, -, rfl⟩ := List.mem_map.mp hz; exact (Real.exp_pos _).le)
  have := Real.exp_pos (x / T)
  linarith

theorem sum_exp_mono (T : ℝ) (l : List Nat) (vals : Nat → List ℝ) (r : Nat) (hr : r ∈ l) :
    ((vals r).map fun x => Real.exp (x / T)).sum ≤ ((l.flatMap vals).map fun x => Real.exp (x / T)).sum := by
  have hnn : ∀ l : List ℝ, 0 ≤ (l.map fun x => Real.exp (x / T)).sum := fun l => List.sum_nonneg (by
    intro z hz; obtain ⟨y, -, rfl⟩ := List.mem_map.mp hz; exact (Real.exp_pos _).le)
  induction l with
  | nil => simp at hr
  | cons s l ih =>
    rw [List.flatMap_cons, List.map_append, List.sum_append]
    rcases List.mem_cons.mp hr with rfl | hr
    · linarith [hnn (l.flatMap vals)]
    · linarith [ih hr, hnn (vals s)]

theorem sampled_ne (cal : Option (Nat → ℝ)) (f g h : Nat → Nat → ℝ) (i r : Nat) : sampled cal f g h i r ≠ [] := by
  cases cal <;> simp [sampled]

theorem lseT_mono (T : ℝ) (l : List Nat) (vals : Nat → List ℝ) (r : Nat) (hr : r ∈ l) (hne : vals r ≠ []) :
    lseT T (vals r) ≤ lseT T (l.flatMap vals) :=
  Real.log_le_log (sum_exp_pos T _ hne) (sum_exp_mono T l vals r hr)

theorem flat_length {α : Type} (B R : Nat) (f : Nat → Nat → α) : (flat B R f).length = B * R := by
  simp [flat, List.length_flatMap]

/-- C118, what holds: with one repetition the penalty is the one described (with calibration, every sampled value is
replaced by the return of its own row if that is larger); with more it is at most the one described. Missing: equality
for several repetitions (`C118_violated`). -/
theorem C118_penalty_partial (T w : ℝ) (hT : 0 < T) (hw : 0 ≤ w) (B R : Nat) (hB : 0 < B) (hR : 0 < R)
    (cal : Option (Nat → ℝ)) (f g h : Nat → Nat → ℝ) (current : List ℝ) :
    cqlLoss T w R (cal.map fun c => (List.range B).map c) (flat B R f) (flat B R g) (flat B R h) current ≤
      conservative T w B R (sampled cal f g h) current ∧
    (R = 1 → cqlLoss T w R (cal.map fun c => (List.range B).map c) (flat B R f) (flat B R g) (flat B R h) current =
      conservative T w B R (sampled cal f g h) current) := by
  rw [cqlLoss_flat, cqlPenalty, conservative]
  obtain ⟨vals, hvals⟩ : ∃ v, v = sampled cal f g h := ⟨_, rfl⟩
  rw [← hvals]
  have hne : ∀ i r, vals i r ≠ [] := by rw [hvals]; exact sampled_ne cal f g h
  have hsum : ∀ l : List Nat, ((l.flatMap fun i => (List.range R).map fun r => vals i r).map (lseT T)).sum ≤
      R * (l.map fun i => lseT T ((List.range R).flatMap (vals i))).sum := by
    intro l
    induction l with
    | nil => simp
    | cons i l ih =>
      rw [List.flatMap_cons, List.map_append, List.sum_append, List.map_cons, List.sum_cons, mul_add]
      refine add_le_add ?_ ih
      rw [List.map_map]
      have := List.sum_le_card_nsmul ((List.range R).map (lseT T ∘ fun r => vals i r))
        (lseT T ((List.range R).flatMap (vals i))) (by
          intro x hx
          obtain ⟨r, hr, rfl⟩ := List.mem_map.mp hx
          exact lseT_mono T _ (vals i) r hr (hne i r))
      simpa using this
  have hmul : ∀ l : List Nat, (l.map fun i => T * lseT T ((List.range R).flatMap (vals i))).sum =
      T * (l.map fun i => lseT T ((List.range R).flatMap (vals i))).sum := fun l => List.sum_map_mul_left ..
  have hBR : (0 : ℝ) < B := by exact_mod_cast hB
  have hRR : (0 : ℝ) < R := by exact_mod_cast hR
  constructor
  · simp only [mean]
    rw [hmul, List.length_map, flat_length, List.length_map, List.length_range]
    have h1 := hsum (List.range B)
    have h2 : ((flat B R vals).map (lseT T)).sum / ((B * R : Nat) : ℝ) ≤
        ((List.range B).map fun i => lseT T ((List.range R).flatMap (vals i))).sum / B := by
      push_cast
      rw [div_le_div_iff₀ (by positivity) hBR]
      have : ((flat B R vals).map (lseT T)).sum * B ≤
        R * ((List.range B).map fun i => lseT T ((List.range R).flatMap (vals i))).sum * B :=
        mul_le_mul_of_nonneg_right h1 hBR.le
      linarith
    have h3 := mul_le_mul_of_nonneg_right h2 (mul_nonneg hw hT.le)
    rw [mul_sub]
    have e1 : w * (T * ((List.range B).map fun i => lseT T ((List.range R).flatMap (vals i))).sum / B) =
      ((List.range B).map fun i => lseT T ((List.range R).flatMap (vals i))).sum / B * (w * T) := by ring
    rw [e1]
    nlinarith [h3]
  · rintro rfl
    have : (flat B 1 vals).map (lseT T) = (List.range B).map fun i => lseT T ((List.range 1).flatMap (vals i)) := by
      rw [flat]
      have : (fun i => (List.range 1).map fun r => vals i r) = fun i => [vals i 0] := by funext i; rfl
      rw [this, ← List.map_eq_flatMap, List.map_map]
      apply List.map_congr_left
      intro i _
      simp
    rw [this]
    simp only [mean]
    rw [hmul, List.length_map, List.length_map]
    ring

/-- C118 violated: one row, two repetitions, all values 0: the penalty is log 3 instead of log 6. -/
theorem C118_violated : ∃ (f : Nat → Nat → ℝ) (current : List ℝ),
    cqlLoss 1 1 2 none (flat 1 2 f) (flat 1 2 f) (flat 1 2 f) current = Real.log 3 ∧
    conservative 1 1 1 2 (sampled none f f f) current = Real.log 6 := by
  refine ⟨fun _ _ => 0, [0], ?_, ?_⟩
  · have := cqlLoss_flat 1 1 1 2 none (fun _ _ => 0) (fun _ _ => 0) (fun _ _ => 0) [0]
    rw [Option.map_none] at this
    rw [this, cqlPenalty, mean, mean]
    simp [flat, sampled, lseT, List.range_succ]
    norm_num
  · rw [conservative, mean, mean]
    simp [sampled, lseT, List.range_succ]
    norm_num

/-! ### C119 -/

/-- C119, what is read in general: with the transition in slot `i` one reads the discounted sum of the rewards from the `i`-th
oldest transition to the end of its stored episode. -/
theorem C119_column {O A R : Type} [CommRing R] {b : Buf O A R} {g : Ghost O A R} (h : History b g) (gamma : R) :
    ∃ col, calibrationColumn (ofBuf b) (rowsAt b.data b.idx.allIndices) b.idx.allIndices gamma = some col ∧
      ∀ i, i < b.len → calibrationAt col i = some (mcSum (stored b) gamma i) := by
  obtain ⟨ret, adv, h1, h2, h3⟩ := (C35_buffer h (fun _ => 0) gamma).1
  refine ⟨ret, by rw [calibrationColumn, h1]; rfl, ?_⟩
  intro i hlt
  have hall := h.inv.allIndices_eq
  have hst : (stored b).length = b.idx.size := by
    have hc := C05_fifo h
    have : stored b = lastN b.idx.maxsize g.received := by
      rw [stored, show b.idx.allIndices.filterMap b.data = (b.idx.allIndices.map b.data).filterMap id by
        rw [List.filterMap_map]; rfl, hc, List.filterMap_map]
      simp
    have hl := congrArg List.length hc
    rw [List.length_map, List.length_map, hall] at hl
    rw [this, ← hl]
    simp
  rw [calibrationAt, h3 i (by rw [hst]; exact hlt)]

/-- C119, what holds: in a buffer that has not received more transitions than it can hold, or has been filled a whole number of
times, the calibration return read with a transition is the discounted sum of the rewards from that transition to the end of
its stored episode. Missing: other buffers (see `C119_column` for what is read there), and vector buffers (`C119_violated`). -/
theorem C119_calibration_partial {O A R : Type} [CommRing R] {b : Buf O A R} {g : Ghost O A R} (h : History b g)
    (hfit : g.received.length ≤ b.idx.maxsize ∨ b.idx.maxsize ∣ g.received.length) (gamma : R) :
    ∃ col, calibrationColumn (ofBuf b) (rowsAt b.data b.idx.allIndices) b.idx.allIndices gamma = some col ∧
      ∀ k i, b.idx.allIndices[k]? = some i → calibrationAt col i = some (mcSum (stored b) gamma k) := by
  obtain ⟨col, hcol, hr⟩ := C119_column h gamma
  refine ⟨col, hcol, ?_⟩
  intro k i hk
  have hsz := h.inv.size
  have hall := h.inv.allIndices_eq
  have hlt : k < b.idx.size := by
    rw [hall] at hk
    have := (List.getElem?_eq_some_iff.mp hk).1
    simpa using this
  have hi : i = k := by
    rw [hall, List.getElem?_map, List.getElem?_range hlt, Option.map_some, Option.some.injEq] at hk
    by_cases hle : g.received.length ≤ b.idx.maxsize
    · rw [← hk, Nat.mod_eq_of_lt (by omega)]
      omega
    · obtain ⟨q, hq⟩ := hfit.resolve_left hle
      have hs : b.idx.size = b.idx.maxsize := by omega
      obtain ⟨q', rfl⟩ : ∃ q', q = q' + 1 := by
        cases q with
        | zero => rw [hq] at hle; simp at hle
        | succ q' => exact ⟨q', rfl⟩
      rw [← hk, hs, hq, show b.idx.maxsize * (q' + 1) - b.idx.maxsize + k = k + b.idx.maxsize * q' by
        rw [Nat.mul_add, Nat.mul_one]; omega, Nat.add_mul_mod_self_left, Nat.mod_eq_of_lt (by omega)]
  subst hi
  exact hr i hlt

/-- A buffer of size 4 with the first four transitions of the running example meets the hypotheses. -/
example : ∃ g, History (addAll (Buf.new 4 {}) (exTrans.take 4)) g ∧
    (g.received.length ≤ (addAll (Buf.new 4 {}) (exTrans.take 4)).idx.maxsize ∨
      (addAll (Buf.new 4 {}) (exTrans.take 4)).idx.maxsize ∣ g.received.length) := by
  obtain ⟨g, h1, h2⟩ := (History.new (A := Nat) (R := Int) 4 (by decide) ({} : Opts Nat)).addAll (exTrans.take 4)
  exact ⟨g, h1, Or.inl (by rw [h2]; decide)⟩

/-- The returns read in that buffer (discount factor 2). -/
example : (calibrationColumn (ofBuf (addAll (Buf.new 4 {}) (exTrans.take 4)))
    (rowsAt (addAll (Buf.new 4 {}) (exTrans.take 4)).data [0, 1, 2, 3]) [0, 1, 2, 3] 2) =
      some [10 + 2 * 11, 11, 20 + 2 * 21, 21] := by decide +kernel

/-- C119 for a vector buffer, what is read in general: the column lists the returns of the sub-buffers one after another. -/
theorem C119_vector_column {O A R : Type} [CommRing R] {m : Mgr O A R} {sep : List (Buf O A R)} (hr : Reach m sep)
    (hm : m.opts.stackNum = 1 ∨ m.opts.sampleAvail = false) {draw : Nat → Nat} {rng : Nat → Nat → Nat}
    {indices : List Nat} (hi : m.sampleIndices draw rng (some 0) = .ok indices) (gamma : R) :
    ∃ col, calibrationColumn (ofMgr m) (rowsAt m.data indices) indices gamma = some col ∧ col.length = indices.length ∧
      ∀ (b : Nat) (cb : Buf O A R) (k : Nat), sep[b]? = some cb → k < (stored cb).length →
        calibrationAt col (offset sep b + k) = some (mcSum (stored cb) gamma k) := by
  obtain ⟨ret, adv, h1, h2, h3⟩ := (C35_vector hr hm hi (fun _ => 0) gamma).1
  exact ⟨ret, by rw [calibrationColumn, h1]; rfl, h2, h3⟩

/-- C119 for a vector buffer, what holds: if every sub-buffer is full and its oldest transition is in its first slot, then
the calibration return read with a transition is the discounted sum of the rewards from there to the end of its stored
episode. Missing: other vector buffers (`C119_violated`). -/
theorem C119_vector_partial {O A R : Type} [CommRing R] {m : Mgr O A R} {sep : List (Buf O A R)} (hr : Reach m sep)
    (hm : m.opts.stackNum = 1 ∨ m.opts.sampleAvail = false) {draw : Nat → Nat} {rng : Nat → Nat → Nat}
    {indices : List Nat} (hi : m.sampleIndices draw rng (some 0) = .ok indices)
    (hfull : ∀ cb ∈ sep, cb.idx.allIndices = List.range cb.idx.maxsize) (gamma : R) :
    ∃ col, calibrationColumn (ofMgr m) (rowsAt m.data indices) indices gamma = some col ∧
      ∀ (b : Nat) (cb : Buf O A R) (k j : Nat), sep[b]? = some cb → cb.idx.allIndices[k]? = some j →
        calibrationAt col (j + startOf sep b) = some (mcSum (stored cb) gamma k) := by
  obtain ⟨col, h1, -, h3⟩ := C119_vector_column hr hm hi gamma
  refine ⟨col, h1, ?_⟩
  have hlen : ∀ cb ∈ sep, (stored cb).length = cb.idx.maxsize := by
    intro cb hcb
    obtain ⟨b, hb⟩ := List.getElem?_of_mem hcb
    obtain ⟨-, g, hg⟩ := C20_store hr b cb hb
    have hfifo := C05_fifo hg
    have hst := stored_eq hg
    unfold content at hst
    rw [← hst] at hfifo
    have := congrArg List.length hfifo
    rw [List.length_map, List.length_map, hfull cb hcb, List.length_range] at this
    exact this.symm
  intro b cb k j hb hk
  have hcb := List.mem_of_getElem? hb
  rw [hfull cb hcb] at hk
  obtain ⟨hlt, hkj⟩ := List.getElem?_eq_some_iff.mp hk
  rw [List.getElem_range] at hkj
  subst hkj
  rw [List.length_range] at hlt
  have hoff : offset sep b = startOf sep b := by
    rw [offset, startOf, List.map_congr_left (l := sep) hlen]
  rw [Nat.add_comm, ← hoff]
  exact h3 b cb k hb (by rw [hlen cb hcb]; exact hlt)

/-- A vector buffer with two full sub-buffers of size 2. -/
def exFull : Mgr Nat Nat Int :=
  (Mgr.new [2, 2] {} : Mgr Nat Nat Int).addAll
    [([1, 0], [tr 10 false false, tr 50 false false]), ([0, 1], [tr 51 true false, tr 11 false false])]

/-- In it the hypotheses are met. -/
example : ∃ sep, Reach exFull sep ∧ exFull.opts.stackNum = 1 ∧
    exFull.sampleIndices (fun _ => 0) (fun _ _ => 0) (some 0) = .ok [0, 1, 2, 3] ∧
    ∀ cb ∈ sep, cb.idx.allIndices = List.range cb.idx.maxsize := by
  refine ⟨[addAll (Buf.new 2 {}) [tr 50 false false, tr 51 true false],
    addAll (Buf.new 2 {}) [tr 10 false false, tr 11 false false]], ?_, by decide, by decide +kernel, by decide +kernel⟩
  refine .add (ids := [0, 1]) (rows := [tr 51 true false, tr 11 false false])
    (.add (ids := [1, 0]) (rows := [tr 10 false false, tr 50 false false]) (.new [2, 2] (by decide) {}) rfl rfl) rfl rfl

/-- The returns read from it (discount factor 2). -/
example : calibrationColumn (ofMgr exFull) (rowsAt exFull.data [0, 1, 2, 3]) [0, 1, 2, 3] 2 =
    some [50 + 2 * 51, 51, 10 + 2 * 11, 11] := by decide +kernel

/-- A vector buffer with two sub-buffers of sizes 2 and 3, one unfinished episode in each. -/
def exHalf : Mgr Nat Nat Int :=
  (Mgr.new [2, 3] {} : Mgr Nat Nat Int).addAll [([1, 0], [tr 10 false false, tr 50 false false])]

/-- C119 violated: in the wrapped `exBuf` the oldest transition, in slot 1, gets the return of its successor; in the
vector buffer `exHalf`, which never wrapped around, reading the transition of the second sub-buffer raises an index
error. -/
theorem C119_violated :
    (∃ col, calibrationColumn (ofBuf exBuf) (rowsAt exBuf.data exBuf.idx.allIndices) exBuf.idx.allIndices 2 = some col ∧
      exBuf.idx.allIndices[0]? = some 1 ∧ mcSum (stored exBuf) 2 0 = 11 ∧ calibrationAt col 1 = some 150) ∧
    (∃ indices col, exHalf.sampleIndices (fun _ => 0) (fun _ _ => 0) (some 0) = .ok indices ∧
      calibrationColumn (ofMgr exHalf) (rowsAt exHalf.data indices) indices 2 = some col ∧
      2 ∈ indices ∧ calibrationAt col 2 = none) :=
  ⟨⟨[11, 150, 65, 22], by decide +kernel, by decide +kernel, by decide +kernel, by decide +kernel⟩,
   ⟨[0, 2], [50, 10], by decide +kernel, by decide +kernel, by decide +kernel, by decide +kernel⟩⟩

section Field
variable {K : Type} [Field K] [LinearOrder K] [IsStrictOrderedRing K] {O A : Type}

/-! ### C120 -/

/-- C120: BCQ acts with the best, according to the first critic, of the perturbed actions generated for the
observation. -/
theorem C120_act [Inhabited A] (decode : Nat → O → A) (perturb : O → A → A) (critic : O → A → K) (times : Nat)
    (ht : 0 < times) (obs : O) :
    ∃ j, j < times ∧ bcqAct decode perturb critic times obs = perturb obs (decode j obs) ∧
      ∀ i, i < times → critic obs (perturb obs (decode i obs)) ≤ critic obs (bcqAct decode perturb critic times obs) := by
  obtain ⟨act, hact⟩ : ∃ l, l = (List.range times).map fun j => perturb obs (decode j obs) := ⟨_, rfl⟩
  have hb : bcqAct decode perturb critic times obs = act.getD (argmax (act.map (critic obs))) default := by
    rw [hact]; rfl
  obtain ⟨q, h1, h2, -⟩ := argmax_spec (act.map (critic obs)) (by
    rw [hact]; intro h; have := congrArg List.length h; simp at this; omega)
  rw [List.getElem?_map, Option.map_eq_some_iff] at h1
  obtain ⟨a, ha, hq⟩ := h1
  have hba : bcqAct decode perturb critic times obs = a := by
    rw [hb, List.getD_eq_getElem?_getD, ha]; rfl
  have hj := ha
  rw [hact, List.getElem?_map, Option.map_eq_some_iff] at hj
  obtain ⟨j, hj, hja⟩ := hj
  have hjlt : j < times := List.mem_range.mp (List.mem_of_getElem? hj)
  refine ⟨j, hjlt, by rw [hba, hja], ?_⟩
  intro i hi
  rw [hba, hq]
  exact h2 i _ (by rw [hact, List.getElem?_map, List.getElem?_map, List.getElem?_range hi]; rfl)

example : bcqAct (fun j (o : Int) => o + j) (fun _ a => 2 * a) (fun _ a => -((a : ℚ) - 13) ^ 2) 4 (5 : Int) = 12 := by
  decide +kernel

/-- The mixture of the two critics' values. -/
def mix (lmbda : K) (x y : K) : K := lmbda * min x y + (1 - lmbda) * max x y

theorem repeatRows_length {α : Type} (n : Nat) (l : List α) : (repeatRows n l).length = l.length * n := by
  simp [repeatRows, List.length_flatMap]

theorem repeatRows_get {α : Type} (n : Nat) (l : List α) (i j : Nat) (hj : j < n) :
    (repeatRows n l)[i * n + j]? = l[i]? := by
  induction l generalizing i with
  | nil => simp [repeatRows]
  | cons x l ih =>
    have hcons : repeatRows n (x :: l) = List.replicate n x ++ repeatRows n l := by
      rw [repeatRows, List.flatMap_cons]; rfl
    rw [hcons]
    cases i with
    | zero =>
      rw [List.getElem?_append_left (by simp; omega), List.getElem?_replicate, if_pos (by omega)]
      simp
    | succ i =>
      rw [List.getElem?_append_right (by simp; rw [Nat.add_mul]; omega), List.length_replicate,
        show (i + 1) * n + j - n = i * n + j by rw [Nat.add_mul]; omega, ih]
      simp

/-- C120: the target of BCQ's critics for row `i` uses the largest mixture of the target critics' values among the
`num_sampled_action` actions generated for that row's next observation, and only the reward of a row that is done. -/
theorem C120_target (decode : Nat → O → A) (q1 q2 : O → A → K) (lmbda gamma : K) (n : Nat) (hn : 0 < n)
    (rew : List K) (done : List Bool) (obsNext : List O) (hr : rew.length = obsNext.length)
    (hd : done.length = obsNext.length) :
    (bcqTarget decode q1 q2 lmbda gamma n rew done obsNext).length = obsNext.length ∧
    ∀ (i : Nat) (r : K) (d : Bool) (o : O), rew[i]? = some r → done[i]? = some d → obsNext[i]? = some o →
      ∃ m, (∃ j, j < n ∧ m = mix lmbda (q1 o (decode (i * n + j) o)) (q2 o (decode (i * n + j) o))) ∧
        (∀ j, j < n → mix lmbda (q1 o (decode (i * n + j) o)) (q2 o (decode (i * n + j) o)) ≤ m) ∧
        (bcqTarget decode q1 q2 lmbda gamma n rew done obsNext)[i]? = some (if d then r else r + gamma * m) := by
  obtain ⟨t, ht⟩ : ∃ t, t = List.zipWith (fun o a => lmbda * min (q1 o a) (q2 o a) + (1 - lmbda) * max (q1 o a) (q2 o a))
      (repeatRows n obsNext)
      (((List.range (repeatRows n obsNext).length).zip (repeatRows n obsNext)).map fun p => decode p.1 p.2) := ⟨_, rfl⟩
  have hb : bcqTarget decode q1 q2 lmbda gamma n rew done obsNext =
      List.zipWith (fun (rd : K × Bool) x => rd.1 + (if rd.2 then 0 else 1) * gamma * x) (rew.zip done)
        ((reshapeRows obsNext.length t).map maxOf) := by rw [ht]; rfl
  have htlen : t.length = obsNext.length * n := by
    rw [ht]; simp [repeatRows_length]
  have htget : ∀ (i j : Nat) (o : O), j < n → obsNext[i]? = some o →
      t[i * n + j]? = some (mix lmbda (q1 o (decode (i * n + j) o)) (q2 o (decode (i * n + j) o))) := by
    intro i j o hj ho
    have hi : i < obsNext.length := (List.getElem?_eq_some_iff.mp ho).1
    have hlt : i * n + j < obsNext.length * n := by
      have : (i + 1) * n ≤ obsNext.length * n := Nat.mul_le_mul_right _ hi
      rw [Nat.add_mul] at this; omega
    rw [ht, List.getElem?_zipWith, repeatRows_get n obsNext i j hj, ho, List.getElem?_map, List.zip,
      List.getElem?_zipWith, repeatRows_get n obsNext i j hj, ho, List.getElem?_range (by rw [repeatRows_length]; exact hlt)]
    rfl
  constructor
  · rw [hb]; simp [reshapeRows, hr, hd]
  · intro i r d o hri hdi hoi
    have hi : i < obsNext.length := (List.getElem?_eq_some_iff.mp hoi).1
    have hdiv : t.length / obsNext.length = n := by
      rw [htlen, Nat.mul_comm, Nat.mul_div_cancel _ (by omega)]
    obtain ⟨row, hrow⟩ : ∃ l, l = (t.drop (i * n)).take n := ⟨_, rfl⟩
    have hrowget : ∀ j, j < n → row[j]? = some (mix lmbda (q1 o (decode (i * n + j) o)) (q2 o (decode (i * n + j) o))) := by
      intro j hj
      rw [hrow, List.getElem?_take, if_pos hj, List.getElem?_drop, htget i j o hj hoi]
    have hne : row ≠ [] := by
      intro h; have := hrowget 0 hn; rw [h] at this; simp at this
    have hlen : row.length ≤ n := by rw [hrow, List.length_take]; omega
    refine ⟨maxOf row, ?_, ?_, ?_⟩
    · obtain ⟨j, hj⟩ := List.getElem?_of_mem (QTarget.maxOf_mem row hne)
      have hjn : j < n := lt_of_lt_of_le (List.getElem?_eq_some_iff.mp hj).1 hlen
      rw [hrowget j hjn] at hj
      exact ⟨j, hjn, (Option.some.inj hj).symm⟩
    · intro j hj
      exact le_maxOf row _ (List.mem_of_getElem? (hrowget j hj))
    · rw [hb, List.getElem?_zipWith, List.zip, List.getElem?_zipWith, hri, hdi, List.getElem?_map, reshapeRows,
        List.getElem?_map, List.getElem?_range hi, hdiv]
      simp only [Option.map_some]
      rw [← hrow]
      cases d <;> simp

example : bcqTarget (fun j (o : Int) => o + j) (fun _ a => (a : ℚ)) (fun o _ => (o : ℚ)) (3 / 4) (1 / 2) 2 [1, 2, 3]
    [false, true, false] [10, 20, 30] = [1 + 1 / 2 * (41 / 4), 2, 3 + 1 / 2 * (125 / 4)] := by decide +kernel

/-! ### C121 -/

/-- C121 violated: the values backed up are those of the unperturbed actions of the generator. Here the policy, with one
candidate, acts with the perturbed action 1, which both target critics value at 1, while the target of a transition
leading there (reward 0, discount factor 1) is 0. -/
theorem C121_violated : ∃ (decode : Nat → Unit → Int) (perturb : Unit → Int → Int) (q : Unit → Int → ℚ),
    bcqAct decode perturb q 1 () = 1 ∧ q () 1 = 1 ∧ bcqTarget decode q q 1 1 1 [0] [false] [()] = [0] :=
  ⟨fun _ _ => 0, fun _ a => a + 1, fun _ a => a, by decide +kernel, by decide +kernel, by decide +kernel⟩

end Field

/-! ### C122 -/

/-- The reward of GAIL is the softplus of the discriminator's output. -/
theorem gailReward_eq (d : ℝ) : gailReward d = Real.log (1 + Real.exp d) := by
  rw [gailReward, logSigmoid, neg_neg, one_div, Real.log_inv, neg_neg]

/-- C122: the reward GAIL learns from is positive, at least the discriminator's output, and grows strictly with it. -/
theorem C122_reward : (∀ d, 0 < gailReward d ∧ d ≤ gailReward d) ∧ StrictMono gailReward := by
  refine ⟨fun d => ?_, fun x y h => ?_⟩
  · rw [gailReward_eq]
    have := Real.exp_pos d
    refine ⟨Real.log_pos (by linarith), ?_⟩
    rw [Real.le_log_iff_exp_le (by linarith)]
    linarith
  · rw [gailReward_eq, gailReward_eq]
    have h1 := Real.exp_pos x
    have h2 := Real.exp_lt_exp.mpr h
    exact Real.log_lt_log (by linarith) (by linarith)

theorem gailRows_rows (n : Nat) (rew : Nat → ℝ) (disc : Nat → ℝ) (term trunc : Nat → Bool) :
    gailRows ((List.range n).map disc) (rows n rew term trunc) = rows n (fun k => gailReward (disc k)) term trunc := by
  rw [gailRows, rows, rows, List.zipWith_map_left, List.zipWith_map_right, List.zipWith_self]

/-- C122: advantages and returns are computed from these rewards: the advantage of a transition is the GAE sum of the
rest of its episode with the discriminator's rewards, whatever rewards the environment gave. -/
theorem C122_returns (w : View ℝ) (n : Nat) (rew disc v v' : Nat → ℝ) (term trunc : Nat → Bool) (slotOf : Nat → Nat)
    (gamma lam : ℝ) (isClose : Bool) :
    ∃ ret adv, computeEpisodicReturn w (gailRows ((List.range n).map disc) (rows n rew term trunc))
        ((List.range n).map slotOf) (some ((List.range n).map v')) (some ((List.range n).map v)) gamma lam isClose =
          some (ret, adv) ∧ adv.length = n ∧ ret.length = n ∧
      ∀ t, t < n → adv[t]? = some (∑ l ∈ Finset.range (epLast id (endsAt w n term trunc slotOf) t - t + 1),
        (gamma * lam) ^ l * (gailReward (disc (t + l)) +
          gamma * (if w.terminated (slotOf (t + l)) then 0 else v' (t + l)) - v (t + l))) := by
  rw [gailRows_rows]
  exact C33_gae w n _ v v' term trunc slotOf gamma lam isClose

/-- The discriminator's loss falls when its output for a policy's transition falls and when its output for an expert's
transition rises: its outputs are trained towards negative numbers for the policy and positive ones for the expert. -/
theorem C122_direction (d d' x x' : ℝ) (hd : d' < d) (hx : x < x') :
    gailDiscLoss [d'] [x] < gailDiscLoss [d] [x] ∧ gailDiscLoss [d] [x'] < gailDiscLoss [d] [x] := by
  have hr : ∀ y, -logSigmoid y = gailReward (-y) := by intro y; rw [gailReward, neg_neg]
  have e : ∀ a b, gailDiscLoss [a] [b] = gailReward a + gailReward (-b) := by
    intro a b
    rw [gailDiscLoss, mean, mean]
    simp only [List.map_cons, List.map_nil, List.sum_cons, List.sum_nil, List.length_cons, List.length_nil, hr, neg_neg]
    norm_num
  rw [e, e, e]
  have h1 := C122_reward.2 hd
  have h2 := C122_reward.2 (neg_lt_neg hx)
  constructor <;> linarith

/-- A transition the discriminator is undecided about has the reward log 2. -/
example : gailReward 0 = Real.log 2 := by rw [gailReward_eq, Real.exp_zero]; norm_num

/-! ### C123 -/

theorem splitLoop_count (indices : List Nat) (size : Nat) (hs : 1 ≤ size) (fuel idx : Nat) (hidx : size ∣ idx)
    (hge : idx + size ≤ indices.length) (hf : indices.length < fuel + idx) :
    (Batch.splitLoop indices size (decide (indices.length % size > 0)) fuel idx).length = (indices.length - idx) / size := by
  induction fuel generalizing idx with
  | zero => omega
  | succ fuel ih =>
    rw [Batch.splitLoop, if_pos (by omega)]
    obtain ⟨c, hc⟩ := hidx
    by_cases hm : indices.length % size > 0
    · by_cases h2 : indices.length ≤ idx + size + size
      · rw [if_pos ⟨by simpa using hm, h2⟩]
        have : (indices.length - idx) / size = 1 := by
          apply Nat.div_eq_of_lt_le
          · omega
          · by_contra hcon
            have heq : indices.length = idx + size + size := by omega
            rw [heq, hc] at hm
            have : (size * c + size + size) % size = 0 := by
              rw [Nat.add_mod_right, Nat.add_mod_right, Nat.mul_mod_right]
            omega
        rw [this]; rfl
      · rw [if_neg (by omega), List.length_cons, ih (idx + size) ⟨c + 1, by rw [hc, Nat.mul_add, Nat.mul_one]⟩
          (by omega) (by omega), show indices.length - idx = (indices.length - (idx + size)) + size by omega,
          Nat.add_div_right _ (by omega)]
    · rw [if_neg (by simp; intro h; omega), List.length_cons]
      by_cases h3 : idx + size + size ≤ indices.length
      · rw [ih (idx + size) ⟨c + 1, by rw [hc, Nat.mul_add, Nat.mul_one]⟩ h3 (by omega),
          show indices.length - idx = (indices.length - (idx + size)) + size by omega, Nat.add_div_right _ (by omega)]
      · have hd : size ∣ indices.length := Nat.dvd_of_mod_eq_zero (by omega)
        obtain ⟨a, ha⟩ := hd
        have heq : indices.length = idx + size := by
          by_contra hne
          have h1 : c + 1 < a := by
            by_contra hca
            have : size * a ≤ size * (c + 1) := Nat.mul_le_mul_left _ (by omega)
            rw [Nat.mul_add] at this; omega
          have : size * (c + 2) ≤ size * a := Nat.mul_le_mul_left _ (by omega)
          rw [Nat.mul_add] at this; omega
        cases fuel with
        | zero => omega
        | succ fuel =>
          rw [Batch.splitLoop, if_neg (by omega), heq, Nat.add_sub_cancel_left, Nat.div_self (by omega)]
          rfl

/-- C123, what holds for a batch of at least `disc_update_num` transitions: every transition of the batch is used in
exactly one discriminator update, every update uses `len(batch) // disc_update_num` expert transitions, the number of
updates is at least `disc_update_num`, and equal to it if it divides the length of the batch. Missing: equality in
general, and smaller batches (`C123_violated`). -/
theorem C123_updates_partial (n num : Nat) (perm : List Nat) (hp : perm.Perm (List.range n)) (h0 : 0 < num) (hn : num ≤ n) :
    ∃ ups, gailUpdates n num perm = some ups ∧ (ups.map Prod.fst).flatten.Perm (List.range n) ∧
      (∀ u ∈ ups, u.2 = n / num) ∧ num ≤ ups.length ∧ (num ∣ n → ups.length = num) := by
  have hb : 1 ≤ n / num := (Nat.one_le_div_iff h0).mpr hn
  have hlen : perm.length = n := by rw [hp.length_eq, List.length_range]
  obtain ⟨parts, hparts⟩ := Batch.C46_ok n ((n / num : Nat) : Int) perm true (Or.inl (by exact_mod_cast hb))
  refine ⟨parts.map fun p => (p, n / num), ?_, ?_, ?_, ?_⟩
  · rw [gailUpdates, if_neg (by omega)]
    simp only [hparts]
  · rw [List.map_map]
    have := (Batch.C46_partition _ _ _ _ _ hp hparts).1
    have he : (parts.map (Prod.fst ∘ fun p => (p, n / num))) = parts := by simp [Function.comp_def]
    rw [he, this]
    exact hp
  · intro u hu
    obtain ⟨p, -, rfl⟩ := List.mem_map.mp hu
    rfl
  · have hcount : parts.length = n / (n / num) := by
      rw [Batch.split] at hparts
      have hne : ((n / num : Nat) : Int) ≠ -1 := by omega
      simp only [if_neg hne] at hparts
      rw [if_pos (by exact_mod_cast hb)] at hparts
      simp only [Int.toNat_natCast, Bool.true_and, Except.ok.injEq] at hparts
      have hle : n / num ≤ n := Nat.div_le_self ..
      have := splitLoop_count perm (n / num) hb (n + 1) 0 (Nat.dvd_zero _) (by omega) (by omega)
      rw [hlen] at this
      rw [← hparts, this, Nat.sub_zero]
    rw [List.length_map, hcount]
    constructor
    · rw [Nat.le_div_iff_mul_le (by omega)]
      exact Nat.mul_div_le n num
    · rintro ⟨a, rfl⟩
      rw [Nat.mul_div_cancel_left _ h0] at hb ⊢
      rw [Nat.mul_div_cancel _ (by omega)]

example : gailUpdates 8 4 [7, 6, 5, 4, 3, 2, 1, 0] = some [([7, 6], 2), ([5, 4], 2), ([3, 2], 2), ([1, 0], 2)] := by rfl

/-- C123 violated: ten transitions and `disc_update_num = 4` give five updates; three transitions raise an exception. -/
theorem C123_violated : (gailUpdates 10 4 (List.range 10)).map List.length = some 5 ∧
    gailUpdates 3 4 (List.range 3) = none := ⟨by rfl, by rfl⟩

section Field
variable {K : Type} [Field K] [LinearOrder K] [IsStrictOrderedRing K]

/-! ### C124, C125 -/

theorem icm_rows (scale : K) (n : Nat) (mse rew : Nat → K) (term trunc : Nat → Bool) :
    withRewards (rows n rew term trunc) (icmProcess scale ((List.range n).map mse)
      { arrays := [(rows n rew term trunc).map BRow.rew], rew := 0, origRew := none }).rewards =
      rows n (fun k => rew k + mse k * scale) term trunc := by
  have h1 : (icmProcess scale ((List.range n).map mse)
      { arrays := [(rows n rew term trunc).map BRow.rew], rew := 0, origRew := none }).rewards =
      (List.range n).map fun k => rew k + mse k * scale := by
    rw [icmProcess, IcmBatch.rewards, IcmBatch.rewards]
    simp only [List.getD_cons_zero, List.set_cons_zero, rows, List.map_map]
    rw [List.zipWith_map_left, List.zipWith_map_right, List.zipWith_self]
    rfl
  rw [h1, withRewards, rows, rows, List.zipWith_map_left, List.zipWith_map_right, List.zipWith_self]

/-- C124, what holds: around a policy that learns from episodic returns (here Monte-Carlo returns, as in PG), the
returns are those of the rewards plus `reward_scale` times the prediction error. Missing: policies that learn from
n-step returns (`C124_violated`). -/
theorem C124_bonus_partial (w : View K) (n : Nat) (scale : K) (rew mse : Nat → K) (term trunc : Nat → Bool)
    (slotOf : Nat → Nat) (gamma : K) :
    ∃ ret adv, icmEpisodic scale ((List.range n).map mse) w (rows n rew term trunc) ((List.range n).map slotOf)
        none none gamma 1 true = some (ret, adv) ∧ ret.length = n ∧
      ∀ t, t < n → ret[t]? = some (∑ l ∈ Finset.range (epLast id (endsAt w n term trunc slotOf) t - t + 1),
        gamma ^ l * (rew (t + l) + scale * mse (t + l))) := by
  obtain ⟨ret, adv, h1, h2, h3⟩ := C35_gae w n (fun k => rew k + mse k * scale) none term trunc slotOf gamma
  refine ⟨ret, adv, ?_, h2, ?_⟩
  · rw [icmEpisodic, icm_rows]
    exact h1
  · intro t ht
    rw [(h3 t _ ht rfl).1 rfl]
    congr 1
    apply Finset.sum_congr rfl
    intro l _
    ring

/-- C124, likewise for the policies that use generalised advantage estimates (A2C, PPO, NPG, TRPO). -/
theorem C124_gae_partial (w : View K) (n : Nat) (scale : K) (rew mse v v' : Nat → K) (term trunc : Nat → Bool)
    (slotOf : Nat → Nat) (gamma lam : K) (isClose : Bool) :
    ∃ ret adv, icmEpisodic scale ((List.range n).map mse) w (rows n rew term trunc) ((List.range n).map slotOf)
        (some ((List.range n).map v')) (some ((List.range n).map v)) gamma lam isClose = some (ret, adv) ∧
      adv.length = n ∧
      ∀ t, t < n → adv[t]? = some (∑ l ∈ Finset.range (epLast id (endsAt w n term trunc slotOf) t - t + 1),
        (gamma * lam) ^ l * (rew (t + l) + scale * mse (t + l) +
          gamma * (if w.terminated (slotOf (t + l)) then 0 else v' (t + l)) - v (t + l))) := by
  obtain ⟨ret, adv, h1, h2, -, h3⟩ :=
    C33_gae w n (fun k => rew k + mse k * scale) v v' term trunc slotOf gamma lam isClose
  refine ⟨ret, adv, ?_, h2, ?_⟩
  · rw [icmEpisodic, icm_rows]
    exact h1
  · intro t ht
    rw [h3 t ht]
    congr 1
    apply Finset.sum_congr rfl
    intro l _
    ring

/-- C124 violated: around a policy that learns from n-step returns the prediction error has no influence at all on the
returns, whatever `reward_scale` is. -/
theorem C124_violated (scale : K) (w : View K) (batch : List (BRow K)) (mse : List K) (hl : mse.length = batch.length)
    (indices : List Nat) (targetQ : List Nat → List (List K)) (gamma : K) (N : Nat) :
    icmNstep scale mse w batch indices targetQ gamma N = computeNstepReturn w batch.length indices targetQ gamma N := by
  have : (withRewards batch (icmProcess scale mse
      { arrays := [batch.map BRow.rew], rew := 0, origRew := none }).rewards).length = batch.length := by
    rw [icmProcess, IcmBatch.rewards, IcmBatch.rewards]
    simp [withRewards, hl]
  rw [icmNstep, this]

/-- One terminated transition with reward 0 and prediction error 1: the one-step return is 0. -/
example : icmNstep (1 : ℚ) [1] ⟨fun _ => 0, fun _ => true, fun _ => true, [], id⟩ [⟨0, true, false⟩] [0]
    (fun l => l.map fun _ => [7]) 1 1 = some [[0]] := by decide +kernel

/-- C125 violated: after `post_process_fn` the batch holds the rewards with the bonus. -/
theorem C125_violated : ∃ b : IcmBatch ℚ, b.rewards = [1, 2] ∧
    (icmPostProcess (icmProcess 10 [3, 4] b)).rewards = [31, 42] :=
  ⟨⟨[[1, 2]], 0, Option.none⟩, by decide +kernel, by decide +kernel⟩

/-! ### C126 -/

theorem argmaxBot_spec (l : List (WithBot K)) (hne : l ≠ []) :
    ∃ x, l[argmaxBot l]? = some x ∧ ∀ y ∈ l, y ≤ x := by
  induction l with
  | nil => exact absurd rfl hne
  | cons x l ih =>
    rw [argmaxBot]
    by_cases h : ∀ y ∈ l, y ≤ x
    · rw [if_pos h]
      exact ⟨x, rfl, by simpa using h⟩
    · rw [if_neg h]
      have hl : l ≠ [] := by rintro rfl; simp at h
      obtain ⟨z, h1, h2⟩ := ih hl
      refine ⟨z, by rw [List.getElem?_cons_succ]; exact h1, ?_⟩
      intro y hy
      rcases List.mem_cons.mp hy with rfl | hy
      · push Not at h
        obtain ⟨t, ht, htx⟩ := h
        exact htx.le.trans (h2 t ht)
      · exact h2 y hy

theorem argmaxBot_unique (l : List (WithBot K)) (a : Nat) (x : WithBot K) (ha : l[a]? = some x)
    (hlt : ∀ (b : Nat) (y : WithBot K), b ≠ a → l[b]? = some y → y < x) : argmaxBot l = a := by
  obtain ⟨z, h1, h2⟩ := argmaxBot_spec l (by rintro rfl; simp at ha)
  by_contra hne
  exact absurd (h2 x (List.mem_of_getElem? ha)) (not_le.mpr (hlt _ z hne h1))

/-- C126: the random policy takes a legal action if there is one, and every legal action is possible. -/
theorem C126_random (mask : List Bool) (hex : true ∈ mask) :
    (∀ u : List K, u.length = mask.length → mask[randomAct mask u]? = some true) ∧
    (∀ a, mask[a]? = some true → ∃ u : List K, u.length = mask.length ∧ (∀ x ∈ u, 0 ≤ x ∧ x < 1) ∧
      randomAct mask u = a) := by
  have hget : ∀ (u : List K) (i : Nat), (List.zipWith (fun m x => if m then (x : WithBot K) else ⊥) mask u)[i]? =
      match mask[i]?, u[i]? with
      | some m, some x => some (if m then (x : WithBot K) else ⊥)
      | _, _ => Option.none := by
    intro u i
    rw [List.getElem?_zipWith]
    cases mask[i]? <;> cases u[i]? <;> rfl
  constructor
  · intro u hu
    obtain ⟨l, hl⟩ : ∃ l, l = List.zipWith (fun m x => if m then (x : WithBot K) else ⊥) mask u := ⟨_, rfl⟩
    obtain ⟨i, hi⟩ := List.getElem?_of_mem hex
    have hilt : i < u.length := by rw [hu]; exact (List.getElem?_eq_some_iff.mp hi).1
    have hli : l[i]? = some ((u[i] : K) : WithBot K) := by
      rw [hl, hget, hi, List.getElem?_eq_getElem hilt]; rfl
    obtain ⟨x, h1, h2⟩ := argmaxBot_spec l (by intro h; rw [h] at hli; simp at hli)
    have hx : x ≠ ⊥ := by
      have := h2 _ (List.mem_of_getElem? hli)
      intro hb
      rw [hb] at this
      exact absurd (le_bot_iff.mp this) (WithBot.coe_ne_bot)
    rw [randomAct, ← hl]
    rw [hl, hget] at h1
    rw [← hl] at h1
    cases hm : mask[argmaxBot l]? with
    | none => rw [hm] at h1; simp at h1
    | some m =>
      cases hv : u[argmaxBot l]? with
      | none => rw [hm, hv] at h1; simp at h1
      | some v =>
        rw [hm, hv] at h1
        cases m with
        | true => rfl
        | false => simp at h1; exact absurd h1.symm hx
  · intro a ha
    have halt : a < mask.length := (List.getElem?_eq_some_iff.mp ha).1
    refine ⟨(List.range mask.length).map fun i => if i = a then 1 / 2 else 0, by simp, ?_, ?_⟩
    · intro x hx
      obtain ⟨i, -, rfl⟩ := List.mem_map.mp hx
      have h2 : (0 : K) < 1 / 2 := by norm_num
      have h3 : (1 / 2 : K) < 1 := by norm_num
      by_cases h : i = a
      · rw [if_pos h]; exact ⟨h2.le, h3⟩
      · rw [if_neg h]; exact ⟨le_refl _, zero_lt_one⟩
    · rw [randomAct]
      apply argmaxBot_unique _ a ((1 / 2 : K) : WithBot K)
      · rw [hget, ha, List.getElem?_map, List.getElem?_range halt]
        simp
      · intro b y hb hy
        rw [hget, List.getElem?_map] at hy
        cases hm : mask[b]? with
        | none => rw [hm] at hy; simp at hy
        | some m =>
          have hblt : b < mask.length := (List.getElem?_eq_some_iff.mp hm).1
          rw [hm, List.getElem?_range hblt, Option.map_some] at hy
          simp only [if_neg hb, Option.some.injEq] at hy
          subst hy
          cases m with
          | true => rw [if_pos rfl]; exact WithBot.coe_lt_coe.mpr (by norm_num)
          | false => rw [if_neg (by simp)]; exact WithBot.bot_lt_coe _

example : randomAct [false, true, false, true] [9 / 10, 1 / 10, 8 / 10, (2 / 10 : ℚ)] = 3 := by decide +kernel

/-! ### C127 -/

theorem abs_sum_le (q : List K) : |q.sum| ≤ (q.map fun x => |x|).sum := by
  induction q with
  | nil => simp
  | cons x q ih =>
    rw [List.sum_cons, List.map_cons, List.sum_cons]
    exact (abs_add_le x q.sum).trans (by linarith)

/-- C127: unless all values are zero, the part of the actor's loss that comes from the critic is at most `alpha` in
size, it is `-alpha` if all values are positive, and the loss does not change when the critic is scaled by a positive
factor. -/
theorem C127_normalised (alpha mse : K) (ha : 0 ≤ alpha) (q : List K) (hq : ∃ x ∈ q, x ≠ 0) :
    ∃ loss, td3bcLoss alpha q mse = some loss ∧ |loss - mse| ≤ alpha ∧
      ((∀ x ∈ q, 0 < x) → loss = mse - alpha) ∧
      ∀ c, 0 < c → td3bcLoss alpha (q.map fun x => c * x) mse = some loss := by
  obtain ⟨x0, hx0, hx0'⟩ := hq
  have hlen : (0 : K) < q.length := by
    have := List.length_pos_of_mem hx0
    exact_mod_cast this
  have hnn : ∀ l : List K, 0 ≤ (l.map fun x => |x|).sum := fun l => List.sum_nonneg (by
    intro z hz; obtain ⟨y, -, rfl⟩ := List.mem_map.mp hz; exact abs_nonneg y)
  have hpos : 0 < (q.map fun x => |x|).sum := by
    have hle : ∀ l : List K, x0 ∈ l → |x0| ≤ (l.map fun x => |x|).sum := by
      intro l hl
      induction l with
      | nil => simp at hl
      | cons y l ih =>
        rw [List.map_cons, List.sum_cons]
        rcases List.mem_cons.mp hl with rfl | hl
        · linarith [hnn l]
        · linarith [ih hl, abs_nonneg y]
    exact lt_of_lt_of_le (abs_pos.mpr hx0') (hle q hx0)
  have hm : 0 < mean (q.map fun x => |x|) := by
    rw [mean, List.length_map]; exact div_pos hpos hlen
  refine ⟨-(alpha / mean (q.map fun x => |x|)) * mean q + mse, ?_, ?_, ?_, ?_⟩
  · rw [td3bcLoss, if_neg hm.ne']
  · rw [add_sub_cancel_right, abs_mul, abs_neg, abs_div, abs_of_nonneg ha, abs_of_pos hm]
    have : |mean q| ≤ mean (q.map fun x => |x|) := by
      rw [mean, mean, List.length_map, abs_div, abs_of_pos hlen]
      exact div_le_div_of_nonneg_right (abs_sum_le q) hlen.le
    calc alpha / mean (q.map fun x => |x|) * |mean q|
        ≤ alpha / mean (q.map fun x => |x|) * mean (q.map fun x => |x|) :=
          mul_le_mul_of_nonneg_left this (div_nonneg ha hm.le)
      _ = alpha := by field_simp
  · intro hall
    have : (q.map fun x => |x|) = q := by
      conv_rhs => rw [← List.map_id q]
      apply List.map_congr_left
      intro x hx
      rw [abs_of_pos (hall x hx)]; rfl
    rw [this] at hm ⊢
    field_simp
    ring
  · intro c hc
    have h1 : mean ((q.map fun x => c * x).map fun x => |x|) = c * mean (q.map fun x => |x|) := by
      rw [mean, mean, List.map_map]
      have : ((fun x => |x|) ∘ fun x => c * x) = fun x : K => c * |x| := by
        funext x; simp [abs_mul, abs_of_pos hc]
      rw [this, List.sum_map_mul_left, List.length_map, List.length_map]
      ring
    have h2 : mean (q.map fun x => c * x) = c * mean q := by
      rw [mean, mean, List.sum_map_mul_left, List.length_map]
      simp only [List.map_id']
      ring
    rw [td3bcLoss, h1, h2, if_neg (mul_pos hc hm).ne']
    congr 2
    field_simp

example : td3bcLoss (5 / 2 : ℚ) [1, -3] 7 = some (7 + 5 / 4) := by decide +kernel

end Field

end Verif.Offline
