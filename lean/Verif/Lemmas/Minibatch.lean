import Verif.Props.SampleDist
import Mathlib.Probability.Independence.Basic
import Mathlib.MeasureTheory.Integral.Bochner.Basic
import Mathlib.MeasureTheory.Integral.Bochner.Set
import Mathlib.Algebra.BigOperators.Ring.Finset
import Mathlib.Algebra.BigOperators.Field

/-! Helpers for Props/Minibatch.lean: expectations over independent draws as finite sums. -/

namespace Verif.Buffer

open Verif Verif.Spec MeasureTheory ProbabilityTheory Finset

/-- The expectation of a function of one of `n` independent draws. -/
theorem sum_draws {n : ℕ} (T : Finset ℕ) (q h : ℕ → ℝ) (hq : ∑ i ∈ T, q i = 1) (j : Fin n) :
    ∑ x ∈ Fintype.piFinset (fun _ : Fin n => T), (∏ k, q (x k)) * h (x j) = ∑ i ∈ T, q i * h i := by
  have e : ∀ x : Fin n → ℕ, (∏ k, q (x k)) * h (x j) = ∏ k, q (x k) * (if k = j then h (x k) else 1) := by
    intro x
    rw [Finset.prod_mul_distrib, Finset.prod_ite_eq' Finset.univ j]
    simp
  simp_rw [e]
  have := Finset.prod_univ_sum (fun _ : Fin n => T) (fun k i => q i * (if k = j then h i else 1))
  rw [← this, Finset.prod_eq_single j]
  · simp
  · intro k _ hk
    simp [hk, hq]
  · simp

/-- The mean over the draws. -/
theorem sum_draws_mean {n : ℕ} (hn : 0 < n) (T : Finset ℕ) (q h : ℕ → ℝ) (hq : ∑ i ∈ T, q i = 1) :
    ∑ x ∈ Fintype.piFinset (fun _ : Fin n => T), (∏ k, q (x k)) * ((∑ k, h (x k)) / n) = ∑ i ∈ T, q i * h i := by
  have e : ∀ x : Fin n → ℕ, (∏ k, q (x k)) * ((∑ k, h (x k)) / n) = (∑ j, (∏ k, q (x k)) * h (x j)) / n := by
    intro x
    rw [← Finset.mul_sum, mul_div_assoc]
  simp_rw [e]
  rw [← Finset.sum_div, Finset.sum_comm]
  simp_rw [sum_draws T q h hq]
  have : (n : ℝ) ≠ 0 := by exact_mod_cast hn.ne'
  rw [Finset.sum_const, Finset.card_univ, Fintype.card_fin, nsmul_eq_mul, mul_div_cancel_left₀ _ this]

/-- The expectation of a function of the sample, from the probabilities of the samples. -/
theorem expect_sample {Ω : Type} [MeasurableSpace Ω] {P : Measure Ω} [IsProbabilityMeasure P] (S : Ω → List ℕ) (n : ℕ)
    (T : Finset ℕ) (q : ℕ → ℝ) (hq : ∀ i ∈ T, 0 ≤ q i) (hS : ∀ᵐ ω ∂P, (S ω).length = n ∧ ∀ i ∈ S ω, i ∈ T)
    (hlaw : ∀ l : List ℕ, l.length = n → (∀ i ∈ l, i ∈ T) →
      NullMeasurableSet {ω | S ω = l} P ∧ P {ω | S ω = l} = (l.map fun i => ENNReal.ofReal (q i)).prod)
    (G : List ℕ → ℝ) :
    ∫ ω, G (S ω) ∂P = ∑ x ∈ Fintype.piFinset (fun _ : Fin n => T), (∏ k, q (x k)) * G (List.ofFn x) := by
  classical
  have hx : ∀ x ∈ Fintype.piFinset (fun _ : Fin n => T), ∀ i ∈ List.ofFn x, i ∈ T := by
    intro x hx i hi
    obtain ⟨k, rfl⟩ := List.mem_ofFn.mp hi
    exact Fintype.mem_piFinset.mp hx k
  have hl : ∀ x ∈ Fintype.piFinset (fun _ : Fin n => T), NullMeasurableSet {ω | S ω = List.ofFn x} P ∧
      P {ω | S ω = List.ofFn x} = ENNReal.ofReal (∏ k, q (x k)) := by
    intro x hxm
    obtain ⟨h1, h2⟩ := hlaw (List.ofFn x) (by simp) (hx x hxm)
    refine ⟨h1, ?_⟩
    rw [h2, List.map_ofFn, List.prod_ofFn, ENNReal.ofReal_prod_of_nonneg]
    · rfl
    · intro k _
      exact hq _ (Fintype.mem_piFinset.mp hxm k)
  have e : (fun ω => G (S ω)) =ᵐ[P] fun ω => ∑ x ∈ Fintype.piFinset (fun _ : Fin n => T),
      ({ω | S ω = List.ofFn x}.indicator (fun _ => G (List.ofFn x)) ω) := by
    filter_upwards [hS] with ω hω
    have hof : List.ofFn (fun k : Fin n => (S ω)[k.1]'(by rw [hω.1]; exact k.2)) = S ω := by
      apply List.ext_getElem
      · simp [hω.1]
      · intro k h1 h2
        simp
    rw [Finset.sum_eq_single (fun k : Fin n => (S ω)[k.1]'(by rw [hω.1]; exact k.2))]
    · rw [Set.indicator_of_mem]
      · rw [hof]
      · exact hof.symm
    · intro x _ hne
      rw [Set.indicator_of_notMem]
      intro hc
      have hc : S ω = List.ofFn x := hc
      apply hne
      rw [← List.ofFn_injective.eq_iff, hof, hc]
    · intro hno
      exact absurd (Fintype.mem_piFinset.mpr fun k => hω.2 _ (List.getElem_mem _)) hno
  rw [integral_congr_ae e, integral_finset_sum]
  · apply Finset.sum_congr rfl
    intro x hxm
    obtain ⟨h1, h2⟩ := hl x hxm
    rw [integral_indicator₀ h1, setIntegral_const, Measure.real, h2, ENNReal.toReal_ofReal, smul_eq_mul]
    exact Finset.prod_nonneg fun k _ => hq _ (Fintype.mem_piFinset.mp hxm k)
  · intro x hxm
    exact (integrable_const _).indicator₀ (hl x hxm).1

/-- With weights normalised by the largest weight of the sample, no constant relates the expected weighted mean to the
plain mean. -/
theorem biased {n : ℕ} (hn : 0 < n) (T : Finset ℕ) (s : ℕ → ℝ) (hs : ∀ i ∈ T, 0 < s i) (a b : ℕ) (ha : a ∈ T) (hb : b ∈ T)
    (hab : s a ≠ s b) (W : (Fin n → ℕ) → ℕ → ℝ)
    (hW : ∀ x ∈ Fintype.piFinset (fun _ : Fin n => T), ∀ m : Fin n, (∀ k, s (x m) ≤ s (x k)) →
      ∀ k, W x (x k) = s (x m) / s (x k)) :
    ¬ ∃ c : ℝ, ∀ f : ℕ → ℝ,
      ∑ x ∈ Fintype.piFinset (fun _ : Fin n => T), (∏ k, s (x k) / ∑ i ∈ T, s i) * ((∑ k, W x (x k) * f (x k)) / n) =
        c * ((∑ i ∈ T, f i) / T.card) := by
  rintro ⟨c, hc⟩
  set S := ∑ i ∈ T, s i with hSdef
  have hS : 0 < S := Finset.sum_pos hs ⟨a, ha⟩
  have hq1 : ∑ i ∈ T, s i / S = 1 := by rw [← Finset.sum_div, div_self hS.ne']
  have hn' : (0 : ℝ) < n := by exact_mod_cast hn
  obtain ⟨m, hm, hmin⟩ := Finset.exists_min_image T s ⟨a, ha⟩
  obtain ⟨j, hj, hjm⟩ : ∃ j ∈ T, s m < s j := by
    rcases lt_or_gt_of_ne hab with h | h
    · exact ⟨b, hb, (hmin a ha).trans_lt h⟩
    · exact ⟨a, ha, (hmin b hb).trans_lt h⟩
  have hsm := hs m hm
  have hsj := hs j hj
  have hne : j ≠ m := by rintro rfl; exact lt_irrefl _ hjm
  -- the smallest priority of each sample
  have hmx : ∀ x ∈ Fintype.piFinset (fun _ : Fin n => T), ∃ t : Fin n, ∀ k, s (x t) ≤ s (x k) := by
    intro x _
    haveI : Nonempty (Fin n) := ⟨⟨0, hn⟩⟩
    obtain ⟨t, ht⟩ := Finite.exists_min (fun k => s (x k))
    exact ⟨t, ht⟩
  have hmean : ∀ i ∈ T, (∑ i' ∈ T, (if i' = i then (1 : ℝ) else 0)) / T.card = 1 / T.card := by
    intro i hi
    rw [Finset.sum_ite_eq' T i]; simp [hi]
  have eqs := (hc fun i => if i = m then 1 else 0).trans
    ((by rw [hmean m hm, hmean j hj] : _ = _).trans (hc fun i => if i = j then 1 else 0).symm)
  -- the transition with the smallest priority
  have up : ∑ x ∈ Fintype.piFinset (fun _ : Fin n => T), (∏ k, s (x k) / S) *
      ((∑ k, W x (x k) * (if x k = m then 1 else 0)) / n) ≤ s m / S := by
    have h1 := sum_draws_mean hn T (fun i => s i / S) (fun i => if i = m then 1 else 0) hq1
    have h2 : ∑ i ∈ T, s i / S * (if i = m then 1 else 0) = s m / S := by
      simp [hm]
    rw [← h2, ← h1]
    apply Finset.sum_le_sum
    intro x hx
    have hxT := Fintype.mem_piFinset.mp hx
    obtain ⟨t, ht⟩ := hmx x hx
    apply mul_le_mul_of_nonneg_left _ (Finset.prod_nonneg fun k _ => (div_pos (hs _ (hxT k)) hS).le)
    apply div_le_div_of_nonneg_right _ hn'.le
    apply Finset.sum_le_sum
    intro k _
    split
    · rw [hW x hx t ht k, mul_one, div_le_one (hs _ (hxT k))]
      exact ht k
    · simp
  have low : s m / S < ∑ x ∈ Fintype.piFinset (fun _ : Fin n => T), (∏ k, s (x k) / S) *
      ((∑ k, W x (x k) * (if x k = j then 1 else 0)) / n) := by
    have h1 := sum_draws_mean hn T (fun i => s i / S) (fun i => if i = j then s m / s j else 0) hq1
    have h2 : ∑ i ∈ T, s i / S * (if i = j then s m / s j else 0) = s m / S := by
      simp only [mul_ite, mul_zero, Finset.sum_ite_eq' T j, hj, if_true]
      field_simp
    rw [← h2, ← h1]
    have hterm : ∀ x ∈ Fintype.piFinset (fun _ : Fin n => T), ∀ k : Fin n,
        (if x k = j then s m / s j else 0) ≤ W x (x k) * (if x k = j then 1 else 0) := by
      intro x hx k
      have hxT := Fintype.mem_piFinset.mp hx
      obtain ⟨t, ht⟩ := hmx x hx
      split
      · rename_i hk
        rw [hW x hx t ht k, mul_one, hk]
        exact div_le_div_of_nonneg_right (hmin _ (hxT t)) hsj.le
      · simp
    apply Finset.sum_lt_sum
    · intro x hx
      have hxT := Fintype.mem_piFinset.mp hx
      apply mul_le_mul_of_nonneg_left _ (Finset.prod_nonneg fun k _ => (div_pos (hs _ (hxT k)) hS).le)
      exact div_le_div_of_nonneg_right (Finset.sum_le_sum fun k _ => hterm x hx k) hn'.le
    · have hx : (fun _ : Fin n => j) ∈ Fintype.piFinset (fun _ : Fin n => T) := Fintype.mem_piFinset.mpr fun _ => hj
      refine ⟨fun _ => j, hx, ?_⟩
      apply mul_lt_mul_of_pos_left _ (Finset.prod_pos fun k _ => div_pos hsj hS)
      apply div_lt_div_of_pos_right _ hn'
      apply Finset.sum_lt_sum (fun k _ => hterm _ hx k)
      refine ⟨⟨0, hn⟩, Finset.mem_univ _, ?_⟩
      have := hW _ hx ⟨0, hn⟩ (fun _ => le_refl _) ⟨0, hn⟩
      rw [if_pos rfl, if_pos rfl, mul_one, this, div_self hsj.ne', div_lt_one hsj]
      exact hjm
  linarith


variable {Ω : Type} [MeasurableSpace Ω] {P : Measure Ω} {U : ℕ → Ω → ℝ} {J : ℕ → ℕ → Ω → ℕ} {size : ℕ → ℕ}

theorem _root_.Verif.Spec.Draws.pos (D : Draws P U J size) : ∀ᵐ ω ∂P, ∀ k, 0 < U k ω := by
  rw [ae_all_iff]
  intro k
  rw [ae_iff]
  have : {ω | ¬ 0 < U k ω} = {ω | U k ω = 0} := by
    ext ω
    have := (D.range k ω).1
    simp only [Set.mem_ofPred_eq]
    constructor
    · intro h; exact le_antisymm (not_lt.mp h) this
    · intro h; rw [h]; exact lt_irrefl _
  rw [this, D.zero k]

theorem prod_range_getD (l : List ℕ) (g : ℕ → ENNReal) : ∏ k ∈ Finset.range l.length, g (l.getD k 0) = (l.map g).prod := by
  induction l with
  | nil => rfl
  | cons x l ih =>
    rw [List.length_cons, Finset.prod_range_succ', List.map_cons, List.prod_cons, ← ih, mul_comm]
    rfl

/-- The probability of a sample whose `k`-th entry depends on the `k`-th random number only. -/
theorem law_of_intervals (D : Draws P U J size) (hI : iIndepFun U P) (n : ℕ) (f : (ℕ → ℝ) → List ℕ) (lo hi : ℕ → ℝ)
    (T : Finset ℕ) (hlo : ∀ i ∈ T, 0 ≤ lo i) (hhi : ∀ i ∈ T, hi i ≤ 1)
    (hf : ∀ u : ℕ → ℝ, (∀ k, 0 ≤ u k ∧ u k < 1) → (f u).length = n ∧
      ∀ k < n, 0 < u k → ∀ i, (f u)[k]? = some i ↔ lo i < u k ∧ u k ≤ hi i)
    (l : List ℕ) (hl : l.length = n) (hT : ∀ i ∈ l, i ∈ T) :
    NullMeasurableSet {ω | f (fun k => U k ω) = l} P ∧
      P {ω | f (fun k => U k ω) = l} = (l.map fun i => ENNReal.ofReal (hi i - lo i)).prod := by
  have e : {ω | f (fun k => U k ω) = l} =ᵐ[P] ⋂ k ∈ Finset.range n, U k ⁻¹' Set.Ioc (lo (l.getD k 0)) (hi (l.getD k 0)) := by
    filter_upwards [D.pos] with ω hω
    apply propext
    obtain ⟨h1, h2⟩ := hf (fun k => U k ω) (fun k => D.range k ω)
    change f (fun k => U k ω) = l ↔ ω ∈ ⋂ k ∈ Finset.range n, U k ⁻¹' Set.Ioc (lo (l.getD k 0)) (hi (l.getD k 0))
    simp only [Set.mem_iInter, Set.mem_preimage, Set.mem_Ioc, Finset.mem_range]
    have hg : ∀ k < n, l[k]? = some (l.getD k 0) := by
      intro k hk
      rw [List.getD_eq_getElem?_getD, List.getElem?_eq_getElem (by omega), Option.getD_some]
    constructor
    · intro h k hk
      rw [← h2 k hk (hω k), h]
      exact hg k hk
    · intro h
      apply List.ext_getElem?
      intro k
      by_cases hk : k < n
      · rw [hg k hk, h2 k hk (hω k)]
        exact h k hk
      · rw [List.getElem?_eq_none (by omega), List.getElem?_eq_none (by omega)]
  have hm : MeasurableSet (⋂ k ∈ Finset.range n, U k ⁻¹' Set.Ioc (lo (l.getD k 0)) (hi (l.getD k 0))) :=
    Finset.measurableSet_biInter _ fun k _ => D.measU k measurableSet_Ioc
  refine ⟨hm.nullMeasurableSet.congr e.symm, ?_⟩
  rw [measure_congr e, hI.measure_inter_preimage_eq_mul (Finset.range n) (fun k _ => measurableSet_Ioc)]
  have hk : ∀ k ∈ Finset.range n, P (U k ⁻¹' Set.Ioc (lo (l.getD k 0)) (hi (l.getD k 0))) =
      ENNReal.ofReal (hi (l.getD k 0) - lo (l.getD k 0)) := by
    intro k hk
    have hk := Finset.mem_range.mp hk
    have hmem : l.getD k 0 ∈ T := by
      rw [List.getD_eq_getElem?_getD, List.getElem?_eq_getElem (by omega), Option.getD_some]
      exact hT _ (List.getElem_mem _)
    rw [← D.interval' k (hlo _ hmem) (hhi _ hmem)]
    congr 1
    ext ω
    simp only [Set.mem_preimage, Set.mem_Ioc, Set.mem_ofPred_eq]
    exact ⟨fun h => ⟨(hlo _ hmem).trans_lt h.1, h⟩, fun h => h.2⟩
  rw [Finset.prod_congr rfl hk]
  subst hl
  exact prod_range_getD l fun i => ENNReal.ofReal (hi i - lo i)

/-- The same for draws from a list of candidates. -/
theorem law_of_choice [IsProbabilityMeasure P] (D : Draws P U J size) (b : ℕ) (hI : iIndepFun (J b) P) (cands : List ℕ)
    (hs : size b = cands.length) (hnd : cands.Nodup) (n : ℕ) (l : List ℕ) (hl : l.length = n) (hT : ∀ i ∈ l, i ∈ cands)
    (hn : 0 < n) :
    P {ω | choice (fun k => J b k ω) cands n = .ok l} = (1 / (cands.length : ENNReal)) ^ n := by
  have hpos : 0 < cands.length := by
    cases l with
    | nil => simp at hl; omega
    | cons x l => exact List.length_pos_of_mem (hT x (by simp))
  have hmem : ∀ k < n, l.getD k 0 ∈ cands := by
    intro k hk
    rw [List.getD_eq_getElem?_getD, List.getElem?_eq_getElem (by omega), Option.getD_some]
    exact hT _ (List.getElem_mem _)
  have e : {ω | choice (fun k => J b k ω) cands n = .ok l} =
      ⋂ k ∈ Finset.range n, J b k ⁻¹' {cands.idxOf (l.getD k 0)} := by
    ext ω
    simp only [Set.mem_iInter, Set.mem_preimage, Set.mem_singleton_iff, Finset.mem_range, Set.mem_ofPred_eq]
    unfold choice
    rw [if_neg (by omega), Except.ok.injEq]
    have hb : ∀ k, J b k ω < cands.length := fun k => hs ▸ D.below b k ω (by omega)
    constructor
    · intro h k hk
      rw [← h, List.getD_eq_getElem?_getD, List.getElem?_map, List.getElem?_range hk]
      simp only [Option.map_some, Option.getD_some]
      rw [Nat.mod_eq_of_lt (hb k), List.getD_eq_getElem?_getD, List.getElem?_eq_getElem (hb k), Option.getD_some,
        hnd.idxOf_getElem]
    · intro h
      apply List.ext_getElem
      · simp [hl]
      · intro k h1 h2
        have hk : k < n := by omega
        have h3 : l[k] = l.getD k 0 := by
          rw [List.getD_eq_getElem?_getD, List.getElem?_eq_getElem h2, Option.getD_some]
        have h4 : cands.idxOf (l.getD k 0) < cands.length := List.idxOf_lt_length_iff.mpr (hmem k hk)
        simp only [List.getElem_map, List.getElem_range]
        rw [Nat.mod_eq_of_lt (hb k), h k hk, h3, List.getD_eq_getElem?_getD, List.getElem?_eq_getElem h4, Option.getD_some,
          List.getElem_idxOf]
  rw [e, hI.measure_inter_preimage_eq_mul (Finset.range n) (fun k _ => measurableSet_singleton _)]
  have hk : ∀ k ∈ Finset.range n, P (J b k ⁻¹' {cands.idxOf (l.getD k 0)}) = 1 / (cands.length : ENNReal) := by
    intro k hk
    have := D.unif' b k (cands.idxOf (l.getD k 0)) (by rw [hs]; exact List.idxOf_lt_length_iff.mpr (hmem k (Finset.mem_range.mp hk)))
    rw [hs] at this
    exact this
  rw [Finset.prod_congr rfl hk, Finset.prod_const, Finset.card_range]

end Verif.Buffer
