import Verif.Props.ActorCritic
import Mathlib.GroupTheory.Perm.Fin
import Mathlib.Data.Fintype.Perm
import Mathlib.Algebra.BigOperators.Field
import Mathlib.Algebra.Order.BigOperators.Group.Finset

/-! C254: the target of REDQ on average over the random subset of the ensemble. -/

namespace Verif.ActorCritic

open Equiv

variable {K : Type} [Field K] [LinearOrder K] [IsStrictOrderedRing K]

/-! ### Specification -/

/-- The members of an ensemble of `n` that a random draw of `m` without replacement selects: the first `m` of a permutation. -/
def drawn {n : ℕ} (m : ℕ) (s : Perm (Fin n)) : List ℕ := (List.ofFn fun k => (s k : ℕ)).take m

/-- The target of one row on average over all draws; all permutations are equally likely. -/
def averageTarget (useMin : Bool) (alpha : K) {n : ℕ} (q : Fin n → K) (m : ℕ) (logProb : K) : K :=
  (∑ s : Perm (Fin n), redqTarget useMin alpha (List.ofFn q) (drawn m s) logProb) / (n.factorial : K)

/-! ### Lemmas -/

theorem drawn_length {n m : ℕ} (h : m ≤ n) (s : Perm (Fin n)) : (drawn m s).length = m := by simp [drawn, h]

theorem drawn_lt {n m : ℕ} (s : Perm (Fin n)) : ∀ i ∈ drawn m s, i < n := by
  intro i hi
  have := List.mem_of_mem_take hi
  obtain ⟨k, rfl⟩ := (List.mem_ofFn' _ _).1 this
  exact (s k).2

/-- Every member of the ensemble is at every place of a random permutation equally often. -/
theorem place_sum {n : ℕ} (q : Fin n → K) (k : Fin n) :
    ∑ s : Perm (Fin n), q (s k) = (n.factorial : K) * ((∑ j, q j) / n) := by
  have same : ∀ j, ∑ s : Perm (Fin n), q (s j) = ∑ s : Perm (Fin n), q (s k) := by
    intro j
    rw [← Equiv.sum_comp (Equiv.mulRight (swap j k)) fun s : Perm (Fin n) => q (s k)]
    refine Finset.sum_congr rfl fun s _ => ?_
    simp [Perm.mul_apply]
  have all : ∑ j, ∑ s : Perm (Fin n), q (s j) = (n.factorial : K) * ∑ j, q j := by
    rw [Finset.sum_comm]
    rw [Finset.sum_congr rfl fun s _ => Equiv.sum_comp s q]
    simp [Fintype.card_perm]
  rw [Finset.sum_congr rfl fun j _ => same j] at all
  have hn : (n : K) ≠ 0 := by
    have := k.2
    exact_mod_cast (by omega : n ≠ 0)
  simp only [Finset.sum_const, Finset.card_univ, Fintype.card_fin, nsmul_eq_mul] at all
  field_simp
  linear_combination all

theorem fact_ne (n : ℕ) : (n.factorial : K) ≠ 0 := by exact_mod_cast n.factorial_ne_zero

theorem drawn_sum {n m : ℕ} (h : m ≤ n) (q : Fin n → K) (s : Perm (Fin n)) :
    ((drawn m s).map fun i => (List.ofFn q).getD i 0).sum = ∑ j : Fin m, q (s (Fin.castLE h j)) := by
  have e : drawn m s = List.ofFn fun j : Fin m => (s (Fin.castLE h j) : ℕ) := by
    apply List.ext_getElem
    · simp [drawn_length h]
    · intro i h1 h2
      simp [drawn]
  rw [e, List.map_ofFn, List.sum_ofFn]
  refine Finset.sum_congr rfl fun j _ => ?_
  simp [List.getD]

/-! ### C254 -/

/-- C254 for `target_mode="mean"`: whatever the size of the subset, on average the target is the mean of the whole ensemble (minus the
entropy term). -/
theorem C254_mean (alpha : K) {n m : ℕ} (hm : 0 < m) (hn : m ≤ n) (q : Fin n → K) (logProb : K) :
    averageTarget false alpha q m logProb = (∑ j, q j) / n - alpha * logProb := by
  have hmK : (m : K) ≠ 0 := by exact_mod_cast hm.ne'
  have key : ∀ s : Perm (Fin n), redqTarget false alpha (List.ofFn q) (drawn m s) logProb =
      (∑ j : Fin m, q (s (Fin.castLE hn j))) / m - alpha * logProb := by
    intro s
    have h := (C102_redq alpha (List.ofFn q) (drawn m s) (by
      intro h0; have := drawn_length hn s; rw [h0] at this; simp at this; omega)
      (by intro i hi; simpa using drawn_lt s i hi) logProb).2.2
    rw [drawn_length hn, drawn_sum hn] at h
    rw [← h]
    field_simp
    ring
  rw [averageTarget, Finset.sum_congr rfl fun s _ => key s, Finset.sum_sub_distrib, ← Finset.sum_div, Finset.sum_comm,
    Finset.sum_congr rfl fun j _ => place_sum q (Fin.castLE hn j)]
  have := fact_ne (K := K) n
  simp only [Finset.sum_const, Finset.card_univ, Fintype.card_fin, nsmul_eq_mul, Fintype.card_perm]
  field_simp

/-- C254 for `target_mode="min"` and subsets of one member: the mean of the ensemble. -/
theorem C254_one (alpha : K) {n : ℕ} (hn : 0 < n) (q : Fin n → K) (logProb : K) :
    averageTarget true alpha q 1 logProb = (∑ j, q j) / n - alpha * logProb := by
  rw [← C254_mean alpha one_pos hn q logProb]
  unfold averageTarget
  congr 1
  refine Finset.sum_congr rfl fun s _ => ?_
  have hne : drawn 1 s ≠ [] := by intro h0; have := drawn_length hn s; rw [h0] at this; simp at this
  have hlt : ∀ i ∈ drawn 1 s, i < (List.ofFn q).length := by intro i hi; simpa using drawn_lt s i hi
  obtain ⟨⟨i, hi, v, hv, ht⟩, -, h3⟩ := C102_redq alpha (List.ofFn q) (drawn 1 s) hne hlt logProb
  obtain ⟨k, hk⟩ : ∃ k, drawn 1 s = [k] := List.length_eq_one_iff.1 (drawn_length hn s)
  rw [ht]
  rw [hk] at hi h3 ⊢
  simp only [List.mem_singleton] at hi
  subst hi
  simp only [List.length_singleton, Nat.cast_one, mul_one, List.map_cons, List.map_nil, List.sum_cons, List.sum_nil, add_zero,
    List.getD, hv, Option.getD_some] at h3
  linear_combination -h3

/-- C254 for `target_mode="min"`: with larger subsets the target is on average not higher. -/
theorem C254_monotone (alpha : K) {n m m' : ℕ} (hm : 0 < m) (hmm : m ≤ m') (hn : m' ≤ n) (q : Fin n → K) (logProb : K) :
    averageTarget true alpha q m' logProb ≤ averageTarget true alpha q m logProb := by
  unfold averageTarget
  refine div_le_div_of_nonneg_right (Finset.sum_le_sum fun s _ => ?_) (by positivity)
  have hlt : ∀ m, ∀ i ∈ drawn m s, i < (List.ofFn q).length := by intro m i hi; simpa using drawn_lt s i hi
  have hne : ∀ m, 0 < m → m ≤ n → drawn m s ≠ [] := by
    intro m h1 h2 h0; have := drawn_length h2 s; rw [h0] at this; simp at this; omega
  obtain ⟨⟨i, hi, v, hv, ht⟩, -, -⟩ := C102_redq alpha (List.ofFn q) (drawn m s) (hne m hm (by omega)) (hlt m) logProb
  obtain ⟨-, h2, -⟩ := C102_redq alpha (List.ofFn q) (drawn m' s) (hne m' (by omega) hn) (hlt m') logProb
  rw [ht]
  exact h2 i ((List.take_subset_take_left _ hmm) hi) v hv

/-- C254 for `target_mode="min"` and the whole ensemble: the smallest value, in every draw. -/
theorem C254_whole (alpha : K) {n : ℕ} (hn : 0 < n) (q : Fin n → K) (logProb : K) :
    (∀ j, averageTarget true alpha q n logProb ≤ q j - alpha * logProb) ∧ ∃ j, averageTarget true alpha q n logProb = q j - alpha * logProb := by
  have hmem : ∀ (s : Perm (Fin n)) (j : Fin n), (j : ℕ) ∈ drawn n s := by
    intro s j
    rw [drawn, List.take_of_length_le (by simp)]
    exact (List.mem_ofFn' _ _).2 ⟨s.symm j, by simp⟩
  have hlt : ∀ s : Perm (Fin n), ∀ i ∈ drawn n s, i < (List.ofFn q).length := by intro s i hi; simpa using drawn_lt s i hi
  have hne : ∀ s : Perm (Fin n), drawn n s ≠ [] := by
    intro s h0; have := drawn_length (le_refl n) s; rw [h0] at this; simp at this; omega
  have hget : ∀ j : Fin n, (List.ofFn q)[(j : ℕ)]? = some (q j) := by intro j; simp
  have key : ∀ s : Perm (Fin n), (∀ j, redqTarget true alpha (List.ofFn q) (drawn n s) logProb ≤ q j - alpha * logProb) ∧
      ∃ j, redqTarget true alpha (List.ofFn q) (drawn n s) logProb = q j - alpha * logProb := by
    intro s
    obtain ⟨⟨i, hi, v, hv, ht⟩, h2, -⟩ := C102_redq alpha (List.ofFn q) (drawn n s) (hne s) (hlt s) logProb
    refine ⟨fun j => h2 j (hmem s j) _ (hget j), ⟨⟨i, drawn_lt s i hi⟩, ?_⟩⟩
    rw [ht]
    have := hget ⟨i, drawn_lt s i hi⟩
    rw [hv] at this
    injection this with this
    rw [this]
  obtain ⟨h1, j, hj⟩ := key 1
  have const : averageTarget true alpha q n logProb = q j - alpha * logProb := by
    have e : ∀ s : Perm (Fin n), redqTarget true alpha (List.ofFn q) (drawn n s) logProb = q j - alpha * logProb := by
      intro s
      obtain ⟨g1, i, hi⟩ := key s
      refine le_antisymm (g1 j) ?_
      rw [hi, ← hj]
      exact h1 i
    rw [averageTarget, Finset.sum_congr rfl fun s _ => e s]
    have := fact_ne (K := K) n
    simp only [Finset.sum_const, Finset.card_univ, Fintype.card_perm, Fintype.card_fin, nsmul_eq_mul]
    field_simp
  exact ⟨fun i => by rw [const, ← hj]; exact h1 i, j, const⟩

/-- Three critics with the values 5, 1 and 3: subsets of two give (1 + 3 + 1) / 3 on average, between the mean and the minimum. -/
example : averageTarget true (1 / 2 : ℚ) ![5, 1, 3] 2 (-4) = 5 / 3 + 2 ∧ averageTarget false (1 / 2 : ℚ) ![5, 1, 3] 2 (-4) = 3 + 2 := by
  decide +kernel

end Verif.ActorCritic
