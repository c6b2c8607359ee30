import Verif.Props.Advantage
import Verif.Props.Fitting

/-!
# What repeated updates with one batch lead to (property C283)

`PGPolicy` and `A2CPolicy` go through the same batch `repeat` times, with the returns and advantages that were computed before the first update.
-/

namespace Verif.Repeat

open Verif.OnPolicy Verif.Returns Verif.Stats Verif.PolicyGradient

variable {S A : Type} [Fintype S] [DecidableEq S] [Fintype A] [DecidableEq A]

/-! ### Specification -/

/-- A policy: positive probabilities (a softmax). -/
structure Policy (π : S → A → ℝ) : Prop where
  pos : ∀ s a, 0 < π s a
  sum : ∀ s, ∑ a, π s a = 1

/-- The log-probabilities. -/
noncomputable def logs (π : S → A → ℝ) (s : S) (a : A) : ℝ := Real.log (π s a)

/-- Further updates change nothing: no policy has a smaller loss. -/
def Settled (loss : (S → A → ℝ) → Option ℝ) (π : S → A → ℝ) : Prop :=
  ∃ l, loss (logs π) = some l ∧ ∀ π' l', Policy π' → loss (logs π') = some l' → l ≤ l'

/-- The loss has no lower bound. -/
def Unbounded (loss : (S → A → ℝ) → Option ℝ) : Prop :=
  ∀ bound, ∃ π l, Policy π ∧ loss (logs π) = some l ∧ l < bound

/-- The sum of the weights `x` (returns or advantages) of the rows with observation `s` and action `a`. -/
def total (rows : List (Row S A)) (x : List ℝ) (s : S) (a : A) : ℝ :=
  (((rows.zip x).filter fun p => p.1.obs = s ∧ p.1.act = a).map Prod.snd).sum

/-- The entropy of a policy, averaged over the rows. -/
noncomputable def entropy (rows : List (Row S A)) (π : S → A → ℝ) : ℝ :=
  (rows.map fun r => -∑ a, π r.obs a * Real.log (π r.obs a)).sum / rows.length

/-! ### The loss in terms of the sums -/

theorem sum_zip (l : List (Row S A × ℝ)) (f : S → A → ℝ) : (l.map fun p => f p.1.obs p.1.act * p.2).sum =
    ∑ s, ∑ a, ((l.filter fun p => p.1.obs = s ∧ p.1.act = a).map Prod.snd).sum * f s a := by
  induction l with
  | nil => simp
  | cons p l ih =>
    rw [List.map_cons, List.sum_cons, ih]
    have e : ∀ s a, (((p :: l).filter fun p => p.1.obs = s ∧ p.1.act = a).map Prod.snd).sum * f s a =
        (if p.1.obs = s then if p.1.act = a then p.2 * f s a else 0 else 0) +
          ((l.filter fun p => p.1.obs = s ∧ p.1.act = a).map Prod.snd).sum * f s a := by
      intro s a
      by_cases h1 : p.1.obs = s
      · by_cases h2 : p.1.act = a
        · rw [List.filter_cons_of_pos (by simp [h1, h2])]
          simp only [List.map_cons, List.sum_cons, if_pos h1, if_pos h2]
          ring
        · rw [List.filter_cons_of_neg (by simp [h2])]
          simp [h2]
      · rw [List.filter_cons_of_neg (by simp [h1])]
        simp [h1]
    simp only [e, Finset.sum_add_distrib]
    congr 1
    rw [Finset.sum_eq_single p.1.obs (fun s _ h => by simp [Ne.symm h]) (by simp)]
    rw [Finset.sum_eq_single p.1.act (fun a _ h => by simp [Ne.symm h]) (by simp)]
    simp
    ring

/-- What the loss has to be small for. -/
noncomputable def score (rows : List (Row S A)) (x : List ℝ) (π : S → A → ℝ) : ℝ := ∑ s, ∑ a, total rows x s a * Real.log (π s a)

theorem loss_eq (rows : List (Row S A)) (x : List ℝ) (hx : x.length = rows.length) (perm : List ℕ) (hp : perm.Perm (List.range rows.length))
    (π : S → A → ℝ) : weightedLogLoss rows x perm (logs π) = -(score rows x π / rows.length) := by
  unfold weightedLogLoss score total
  rw [mean_products rows x perm hp hx, ← sum_zip (rows.zip x) fun s a => Real.log (π s a), List.zip, List.map_zipWith]
  rfl

/-! ### Changing the policy for one observation -/

theorem score_update (rows : List (Row S A)) (x : List ℝ) (π : S → A → ℝ) (s : S) (p : A → ℝ) :
    score rows x (Function.update π s p) = score rows x π + ∑ a, total rows x s a * (Real.log (p a) - Real.log (π s a)) := by
  unfold score
  rw [← Finset.sum_erase_add _ _ (Finset.mem_univ s), ← Finset.sum_erase_add _ _ (Finset.mem_univ s), add_assoc, ← Finset.sum_add_distrib]
  congr 1
  · refine Finset.sum_congr rfl fun s' hs' => ?_
    rw [Function.update_of_ne (Finset.ne_of_mem_erase hs')]
  · refine Finset.sum_congr rfl fun a _ => ?_
    rw [Function.update_self]
    ring

theorem Policy.update {π : S → A → ℝ} (hπ : Policy π) (s : S) (p : A → ℝ) (hp : ∀ a, 0 < p a) (hs : ∑ a, p a = 1) : Policy (Function.update π s p) := by
  constructor
  · intro s' a
    by_cases h : s' = s
    · subst h
      rw [Function.update_self]
      exact hp a
    · rw [Function.update_of_ne h]
      exact hπ.pos s' a
  · intro s'
    by_cases h : s' = s
    · subst h
      rw [Function.update_self]
      exact hs
    · rw [Function.update_of_ne h]
      exact hπ.sum s'

/-- Keep the part `e` of the probability of `a` and give the rest to `b`. -/
def shift (q : A → ℝ) (a b : A) (e : ℝ) (c : A) : ℝ := if c = a then e * q a else if c = b then q b + (1 - e) * q a else q c

theorem shift_sum (q f : A → ℝ) {a b : A} (hab : a ≠ b) (e : ℝ) (g : A → ℝ → ℝ) :
    ∑ c, (g c (shift q a b e c) - g c (q c)) = (g a (e * q a) - g a (q a)) + (g b (q b + (1 - e) * q a) - g b (q b)) := by
  rw [Finset.sum_eq_add a b hab]
  · simp [shift, hab.symm]
  · intro c _ hc
    simp [shift, hc.1, hc.2]
  · simp
  · simp

theorem shift_pos {q : A → ℝ} (hq : ∀ a, 0 < q a) (a b : A) {e : ℝ} (he : 0 < e) (he1 : e ≤ 1) (c : A) : 0 < shift q a b e c := by
  unfold shift
  split
  · exact mul_pos he (hq a)
  · split
    · have := hq b
      have := mul_nonneg (sub_nonneg.mpr he1) (hq a).le
      linarith
    · exact hq c

theorem shift_one (q : A → ℝ) {a b : A} (hab : a ≠ b) (e : ℝ) : ∑ c, shift q a b e c = ∑ c, q c := by
  have := shift_sum q q hab e fun _ x => x
  rw [Finset.sum_sub_distrib] at this
  linarith

theorem score_shift (rows : List (Row S A)) (x : List ℝ) (π : S → A → ℝ) (s : S) {a b : A} (hab : a ≠ b) (e : ℝ) :
    score rows x (Function.update π s (shift (π s) a b e)) = score rows x π + total rows x s a * (Real.log (e * π s a) - Real.log (π s a)) +
      total rows x s b * (Real.log (π s b + (1 - e) * π s a) - Real.log (π s b)) := by
  have := shift_sum (π s) (π s) hab e fun c y => total rows x s c * Real.log y
  rw [score_update, add_assoc]
  congr 1
  simp only [mul_sub] at this ⊢
  exact this

theorem le_one {π : S → A → ℝ} (hπ : Policy π) (s : S) {a b : A} (hab : a ≠ b) : π s b + π s a ≤ 1 := by
  rw [← hπ.sum s, ← Finset.sum_erase_add _ _ (Finset.mem_univ a)]
  have := Finset.single_le_sum (f := π s) (fun c _ => (hπ.pos s c).le) (Finset.mem_erase.mpr ⟨hab.symm, Finset.mem_univ b⟩)
  linarith

/-- A negative sum makes the score as large as one likes. -/
theorem score_unbounded (rows : List (Row S A)) (x : List ℝ) {π : S → A → ℝ} (hπ : Policy π) {s : S} {a b : A} (hab : a ≠ b)
    (hneg : total rows x s a < 0) (bound : ℝ) : ∃ π', Policy π' ∧ bound < score rows x π' := by
  set K := |bound| + |score rows x π| + |total rows x s b| * |Real.log (π s b)| + 1 with hK
  have hK0 : 0 < K := by positivity
  set e := Real.exp (K / total rows x s a) with he
  have he0 : 0 < e := Real.exp_pos _
  have he1 : e ≤ 1 := Real.exp_le_one_iff.mpr (div_nonpos_of_nonneg_of_nonpos hK0.le hneg.le)
  refine ⟨_, hπ.update s (shift (π s) a b e) (shift_pos (hπ.pos s) a b he0 he1) ((shift_one _ hab e).trans (hπ.sum s)), ?_⟩
  rw [score_shift _ _ _ _ hab, Real.log_mul he0.ne' (hπ.pos s a).ne', add_sub_cancel_right, he, Real.log_exp, mul_div_cancel₀ _ hneg.ne, ← he]
  have h1 : Real.log (π s b) ≤ Real.log (π s b + (1 - e) * π s a) :=
    Real.log_le_log (hπ.pos s b) (by have := mul_nonneg (sub_nonneg.mpr he1) (hπ.pos s a).le; linarith)
  have h2 : Real.log (π s b + (1 - e) * π s a) ≤ 0 := by
    refine Real.log_nonpos ?_ ?_
    · have := mul_nonneg (sub_nonneg.mpr he1) (hπ.pos s a).le
      have := hπ.pos s b
      linarith
    · have := le_one hπ s hab
      have := mul_pos he0 (hπ.pos s a)
      linarith
  have h3 : -(|total rows x s b| * |Real.log (π s b)|) ≤ total rows x s b * (Real.log (π s b + (1 - e) * π s a) - Real.log (π s b)) := by
    rw [← neg_mul]
    have h4 : Real.log (π s b + (1 - e) * π s a) - Real.log (π s b) ≤ |Real.log (π s b)| := by
      have := neg_le_abs (Real.log (π s b))
      linarith
    have h5 : 0 ≤ Real.log (π s b + (1 - e) * π s a) - Real.log (π s b) := by linarith
    have h6 := neg_abs_le (total rows x s b)
    calc -|total rows x s b| * |Real.log (π s b)| ≤ -|total rows x s b| * (Real.log (π s b + (1 - e) * π s a) - Real.log (π s b)) :=
          mul_le_mul_of_nonpos_left h4 (neg_nonpos.mpr (abs_nonneg _))
      _ ≤ _ := mul_le_mul_of_nonneg_right h6 h5
  have h7 := le_abs_self bound
  have h8 := neg_abs_le (score rows x π)
  linarith

/-- Sums that are partly positive and partly zero leave something to improve. -/
theorem score_improves (rows : List (Row S A)) (x : List ℝ) {π : S → A → ℝ} (hπ : Policy π) {s : S} {a b : A}
    (hz : total rows x s a = 0) (hpos : 0 < total rows x s b) : ∃ π', Policy π' ∧ score rows x π < score rows x π' := by
  have hab : a ≠ b := by
    rintro rfl
    exact hpos.ne' hz
  refine ⟨_, hπ.update s (shift (π s) a b (1 / 2)) (shift_pos (hπ.pos s) a b (by norm_num) (by norm_num)) ((shift_one _ hab _).trans (hπ.sum s)), ?_⟩
  rw [score_shift _ _ _ _ hab, hz, zero_mul, add_zero]
  have : Real.log (π s b) < Real.log (π s b + (1 - 1 / 2) * π s a) := Real.log_lt_log (hπ.pos s b) (by have := hπ.pos s a; linarith)
  have := mul_pos hpos (sub_pos.mpr this)
  linarith

/-- Positive sums: the proportions are best. -/
theorem part_le (t q : A → ℝ) (ht : ∀ a, 0 < t a) (hq : ∀ a, 0 < q a) (hs : ∑ a, q a = 1) [Nonempty A] :
    ∑ a, t a * Real.log (q a) ≤ ∑ a, t a * Real.log (t a / ∑ b, t b) ∧
      (∑ a, t a * Real.log (q a) = ∑ a, t a * Real.log (t a / ∑ b, t b) → ∀ a, q a = t a / ∑ b, t b) := by
  have hT : 0 < ∑ b, t b := Finset.sum_pos (fun a _ => ht a) Finset.univ_nonempty
  have hg := Fitting.gibbs (fun a => t a / ∑ b, t b) q (fun a => (div_pos (ht a) hT).le) hq (by rw [← Finset.sum_div, div_self hT.ne', hs])
  have e : ∀ f : A → ℝ, ∑ a, t a * f a = (∑ b, t b) * ∑ a, t a / (∑ b, t b) * f a := by
    intro f
    rw [Finset.mul_sum]
    refine Finset.sum_congr rfl fun a _ => ?_
    field_simp
  rw [e fun a => Real.log (q a), e fun a => Real.log (t a / ∑ b, t b)]
  refine ⟨mul_le_mul_of_nonneg_left hg.1 hT.le, fun h a => ?_⟩
  have := hg.2.mp (mul_left_cancel₀ hT.ne' h)
  rw [this]

/-- Where training with one batch settles, for any weights. -/
theorem best_iff [Nontrivial A] (rows : List (Row S A)) (x : List ℝ) {π : S → A → ℝ} (hπ : Policy π) :
    (∀ π', Policy π' → score rows x π' ≤ score rows x π) ↔
      ∀ s, (∀ a, total rows x s a = 0) ∨ ∀ a, 0 < total rows x s a ∧ π s a = total rows x s a / ∑ b, total rows x s b := by
  constructor
  · intro h s
    have hnn : ∀ a, 0 ≤ total rows x s a := by
      intro a
      by_contra hneg
      obtain ⟨b, hb⟩ := exists_ne a
      obtain ⟨π', h1, h2⟩ := score_unbounded rows x hπ hb.symm (not_le.mp hneg) (score rows x π)
      exact absurd (h π' h1) (not_le.mpr h2)
    by_cases hall : ∀ a, total rows x s a = 0
    · exact Or.inl hall
    · refine Or.inr ?_
      push Not at hall
      obtain ⟨b, hb⟩ := hall
      have hpos : ∀ a, 0 < total rows x s a := by
        intro a
        refine lt_of_le_of_ne (hnn a) fun hz => ?_
        obtain ⟨π', h1, h2⟩ := score_improves rows x hπ hz.symm (lt_of_le_of_ne (hnn b) hb.symm)
        exact absurd (h π' h1) (not_le.mpr h2)
      have hT : 0 < ∑ b, total rows x s b := Finset.sum_pos (fun a _ => hpos a) Finset.univ_nonempty
      have hk := part_le (total rows x s) (π s) hpos (hπ.pos s) (hπ.sum s)
      have hu := h _ (hπ.update s (fun a => total rows x s a / ∑ b, total rows x s b) (fun a => div_pos (hpos a) hT)
        (by rw [← Finset.sum_div, div_self hT.ne']))
      rw [score_update] at hu
      simp only [mul_sub, Finset.sum_sub_distrib] at hu
      exact fun a => ⟨hpos a, hk.2 (le_antisymm hk.1 (by linarith)) a⟩
  · intro h π' hπ'
    refine Finset.sum_le_sum fun s _ => ?_
    rcases h s with h0 | h1
    · simp [h0]
    · have hk := part_le (total rows x s) (π' s) (fun a => (h1 a).1) (hπ'.pos s) (hπ'.sum s)
      refine hk.1.trans_eq (Finset.sum_congr rfl fun a _ => ?_)
      rw [(h1 a).2]

theorem settled_iff [Nontrivial A] (loss : (S → A → ℝ) → Option ℝ) (rows : List (Row S A)) (hne : rows ≠ []) (x : List ℝ)
    (hl : ∀ π, loss (logs π) = some (-(score rows x π / rows.length))) {π : S → A → ℝ} (hπ : Policy π) :
    Settled loss π ↔ ∀ s, (∀ a, total rows x s a = 0) ∨ ∀ a, 0 < total rows x s a ∧ π s a = total rows x s a / ∑ b, total rows x s b := by
  have hB : (0 : ℝ) < rows.length := by exact_mod_cast List.length_pos_iff.mpr hne
  rw [← best_iff rows x hπ]
  unfold Settled
  simp only [hl, Option.some.injEq]
  constructor
  · rintro ⟨l, rfl, h⟩ π' hπ'
    have := h π' _ hπ' rfl
    rwa [neg_le_neg_iff, div_le_div_iff_of_pos_right hB] at this
  · intro h
    refine ⟨_, rfl, ?_⟩
    rintro π' l' hπ' rfl
    rw [neg_le_neg_iff, div_le_div_iff_of_pos_right hB]
    exact h π' hπ'

theorem uniform_policy [Nonempty A] : Policy (fun (_ : S) (_ : A) => 1 / (Fintype.card A : ℝ)) :=
  ⟨fun _ _ => by positivity, fun _ => by simp⟩

theorem entropy_nonneg (rows : List (Row S A)) {π : S → A → ℝ} (hπ : Policy π) : 0 ≤ entropy rows π := by
  refine div_nonneg (List.sum_nonneg ?_) (Nat.cast_nonneg _)
  intro y hy
  obtain ⟨r, -, rfl⟩ := List.mem_map.mp hy
  rw [neg_nonneg]
  refine Finset.sum_nonpos fun a _ => mul_nonpos_of_nonneg_of_nonpos (hπ.pos _ _).le (Real.log_nonpos (hπ.pos _ _).le ?_)
  rw [← hπ.sum r.obs]
  exact Finset.single_le_sum (f := π r.obs) (fun c _ => (hπ.pos _ c).le) (Finset.mem_univ a)

theorem unbounded_of [Nontrivial A] (loss : (S → A → ℝ) → Option ℝ) (rows : List (Row S A)) (hne : rows ≠ []) (x : List ℝ)
    (hl : ∀ π, Policy π → ∃ l, loss (logs π) = some l ∧ l ≤ -(score rows x π / rows.length)) {s : S} {a : A} (hneg : total rows x s a < 0) : Unbounded loss := by
  have hB : (0 : ℝ) < rows.length := by exact_mod_cast List.length_pos_iff.mpr hne
  intro bound
  obtain ⟨b, hb⟩ := exists_ne a
  obtain ⟨π', h1, h2⟩ := score_unbounded rows x uniform_policy hb.symm hneg (-bound * rows.length)
  obtain ⟨l, h3, h4⟩ := hl π' h1
  refine ⟨π', l, h1, h3, lt_of_le_of_lt h4 ?_⟩
  rw [neg_lt, lt_div_iff₀ hB]
  exact h2

/-! ### C283 -/

/-- **C283: Reinforce.** Repeated updates with one batch settle at a policy if and only if for every observation the returns of each action add up to a positive
number and the probabilities are in proportion to these sums (or all sums are 0, as for observations that do not occur). -/
theorem C283_reinforce [Nontrivial A] (c : Cfg) (w : View ℝ) (rows : List (Row S A)) (hne : rows ≠ []) (indices : List ℕ) (rms rms' : RMS Unit ℝ)
    (perm : List ℕ) (hp : perm.Perm (List.range rows.length)) (returns : List ℝ)
    (hret : pgReturns c w (rows.map Row.step) indices rms = some (returns, rms')) (hlen : returns.length = rows.length)
    (π : S → A → ℝ) (hπ : Policy π) :
    Settled (pgLoss c w rows indices rms perm) π ↔ ∀ s, (∀ a, total rows returns s a = 0) ∨
      ∀ a, 0 < total rows returns s a ∧ π s a = total rows returns s a / ∑ b, total rows returns s b := by
  refine settled_iff _ rows hne returns (fun π' => ?_) hπ
  unfold pgLoss
  rw [hret, Option.map_some, loss_eq rows returns hlen perm hp]

/-- **C283**: if the returns of some observation and action add up to a negative number, the loss has no lower bound: with `repeat` large the probability of this
action goes to 0. -/
theorem C283_diverges [Nontrivial A] (c : Cfg) (w : View ℝ) (rows : List (Row S A)) (hne : rows ≠ []) (indices : List ℕ) (rms rms' : RMS Unit ℝ)
    (perm : List ℕ) (hp : perm.Perm (List.range rows.length)) (returns : List ℝ)
    (hret : pgReturns c w (rows.map Row.step) indices rms = some (returns, rms')) (hlen : returns.length = rows.length)
    (s : S) (a : A) (hneg : total rows returns s a < 0) : Unbounded (pgLoss c w rows indices rms perm) := by
  refine unbounded_of _ rows hne returns (fun π' _ => ⟨_, ?_, le_rfl⟩) hneg
  unfold pgLoss
  rw [hret, Option.map_some, loss_eq rows returns hlen perm hp]

/-- **C283: A2C** (and the natural gradient methods, which have the same loss), without the entropy bonus: as Reinforce, with the advantages. -/
theorem C283_a2c [Nontrivial A] (c : Cfg) (critic : List S → List ℝ) (w : View ℝ) (rows : List (Row S A)) (hne : rows ≠ []) (indices : List ℕ)
    (rms rms' : RMS Unit ℝ) (perm : List ℕ) (hp : perm.Perm (List.range rows.length)) (r : Prepared)
    (hret : computeReturns c critic w rows indices rms = some (r, rms')) (hlen : r.adv.length = rows.length) (π : S → A → ℝ) (hπ : Policy π) :
    Settled (a2cLoss c critic w rows indices rms perm) π ↔ ∀ s, (∀ a, total rows r.adv s a = 0) ∨
      ∀ a, 0 < total rows r.adv s a ∧ π s a = total rows r.adv s a / ∑ b, total rows r.adv s b := by
  refine settled_iff _ rows hne r.adv (fun π' => ?_) hπ
  unfold a2cLoss
  rw [hret, Option.map_some, loss_eq rows r.adv hlen perm hp]

/-- **C283**: the entropy bonus of A2C (`loss = actor_loss - ent_coef * entropy`, besides the loss of the critic) does not prevent the loss from going to minus
infinity. -/
theorem C283_entropy [Nontrivial A] (c : Cfg) (critic : List S → List ℝ) (w : View ℝ) (rows : List (Row S A)) (hne : rows ≠ []) (indices : List ℕ)
    (rms rms' : RMS Unit ℝ) (perm : List ℕ) (hp : perm.Perm (List.range rows.length)) (r : Prepared)
    (hret : computeReturns c critic w rows indices rms = some (r, rms')) (hlen : r.adv.length = rows.length) (entCoef : ℝ) (hent : 0 ≤ entCoef)
    (s : S) (a : A) (hneg : total rows r.adv s a < 0) (bound : ℝ) :
    ∃ π l, Policy π ∧ a2cLoss c critic w rows indices rms perm (logs π) = some l ∧ l - entCoef * entropy rows π < bound := by
  have hu : Unbounded (a2cLoss c critic w rows indices rms perm) := by
    refine unbounded_of _ rows hne r.adv (fun π' _ => ⟨_, ?_, le_rfl⟩) hneg
    unfold a2cLoss
    rw [hret, Option.map_some, loss_eq rows r.adv hlen perm hp]
  obtain ⟨π, l, h1, h2, h3⟩ := hu bound
  refine ⟨π, l, h1, h2, ?_⟩
  have := mul_nonneg hent (entropy_nonneg rows h1)
  linarith

/-! ### Examples -/

/-- Three episodes of one step each: one action was taken twice, with reward `x` each time, the other once, with reward `y`. -/
def bandit (x y : ℝ) : List (Row Unit Bool) :=
  [⟨⟨x, true, false⟩, (), (), true⟩, ⟨⟨x, true, false⟩, (), (), true⟩, ⟨⟨y, true, false⟩, (), (), false⟩]

theorem bandit_returns (c : Cfg) (hc : c.rewNorm = false) (rms : RMS Unit ℝ) (hr : rms.mean () = 0) (x y : ℝ) :
    pgReturns c (view (bandit x y)) ((bandit x y).map Row.step) (List.range (bandit x y).length) rms = some ([x, x, y], rms) := by
  rw [pgReturns_eq _ c hc rms hr]
  simp [bandit, gaeLoop, delta]

theorem bandit_total (x y : ℝ) : total (bandit x y) [x, x, y] () true = 2 * x ∧ total (bandit x y) [x, x, y] () false = y := by
  constructor
  · simp [total, bandit]
    ring
  · simp [total, bandit]

/-- **C283 is violated**: the policy at which repeated updates settle does not prefer the action with the higher return. Here each reward of one action
is 1, and the reward of the other 3/2, but the former was taken twice; training settles where its probability is 4/7. -/
theorem C283_violated (c : Cfg) (hc : c.rewNorm = false) (rms : RMS Unit ℝ) (hr : rms.mean () = 0) (π : Unit → Bool → ℝ) (hπ : Policy π) :
    Settled (pgLoss c (view (bandit 1 (3 / 2))) (bandit 1 (3 / 2)) (List.range 3) rms (List.range 3)) π ↔ π () true = 4 / 7 ∧ π () false = 3 / 7 := by
  have h := C283_reinforce c (view (bandit 1 (3 / 2))) (bandit 1 (3 / 2)) (by simp [bandit]) (List.range 3) rms rms (List.range 3) (List.Perm.refl _)
    [1, 1, 3 / 2] (bandit_returns c hc rms hr 1 (3 / 2)) rfl π hπ
  obtain ⟨h1, h2⟩ := bandit_total 1 (3 / 2)
  rw [h]
  simp only [Bool.forall_bool, Fintype.sum_bool, h1, h2]
  norm_num
  exact ⟨fun h => (h ()).symm, fun h _ => h.symm⟩

/-- The same rewards, lowered by 2: the loss has no lower bound. -/
example (c : Cfg) (hc : c.rewNorm = false) (rms : RMS Unit ℝ) (hr : rms.mean () = 0) :
    Unbounded (pgLoss c (view (bandit (-1) (-1 / 2))) (bandit (-1) (-1 / 2)) (List.range 3) rms (List.range 3)) := by
  refine C283_diverges c (view (bandit (-1) (-1 / 2))) (bandit (-1) (-1 / 2)) (by simp [bandit]) (List.range 3) rms rms (List.range 3) (List.Perm.refl _)
    [-1, -1, -1 / 2] (bandit_returns c hc rms hr (-1) (-1 / 2)) rfl () true ?_
  rw [(bandit_total (-1) (-1 / 2)).1]
  norm_num

/-- A2C with a critic that says 5/4: the advantages are -1/4 and 1/4, and there is no lower bound, whatever the entropy bonus. -/
example (c : Cfg) (hc : c.rewNorm = false) (hm : SizeOk c.maxBatch) (rms : RMS Unit ℝ) (entCoef : ℝ) (hent : 0 ≤ entCoef) (bound : ℝ) :
    ∃ π l, Policy π ∧ a2cLoss c (fun l => l.map fun _ => 5 / 4) (view (bandit 1 (3 / 2))) (bandit 1 (3 / 2)) (List.range 3) rms (List.range 3) (logs π) =
      some l ∧ l - entCoef * entropy (bandit 1 (3 / 2)) π < bound := by
  have hu : unitOf c rms = 1 := by simp [unitOf, hc]
  obtain ⟨p, q, h1, h2, -⟩ := computeReturns_eq (bandit 1 (3 / 2)) (by simp [bandit]) c hm (fun l => l.map fun _ => 5 / 4) (fun _ => 5 / 4) rms
    (by rw [hu]; norm_num) (by rw [hu]; intro l; induction l <;> simp_all)
  have h3 : p.adv = [-1 / 4, -1 / 4, 1 / 4] := by
    rw [h2]
    simp [bandit, gaeLoop, delta]
    norm_num
  refine C283_entropy c _ (view (bandit 1 (3 / 2))) (bandit 1 (3 / 2)) (by simp [bandit]) (List.range 3) rms q (List.range 3) (List.Perm.refl _) p h1
    (by rw [h3]; rfl) entCoef hent () true ?_ bound
  rw [h3]
  simp [total, bandit]
  norm_num

end Verif.Repeat
