import Verif.Model.Fraction
import Verif.Model.QTarget
import Verif.Props.NetOut
import Verif.Props.QLearning
import Mathlib.MeasureTheory.Integral.IntervalIntegral.FundThmCalculus
import Mathlib.Analysis.SpecialFunctions.ExpDeriv
import Mathlib.Analysis.SpecialFunctions.Log.Deriv

/-! C256: what the fraction proposal network of FQF learns. -/

namespace Verif.Fraction

open Filter Topology MeasureTheory NetOut
open scoped Interval

/-! ### Specification -/

/-- The 1-Wasserstein distance between the law with the quantile function `q` and the law that FQF represents with the fractions
`taus`: the quantile function of the latter is constant between two fractions, with the value of `q` half way. -/
noncomputable def distance (q : ℝ → ℝ) (taus : List ℝ) : ℝ :=
  ∑ i ∈ Finset.range (taus.length - 1), ∫ x in taus.getD i 0..taus.getD (i + 1) 0, |q x - q ((taus.getD i 0 + taus.getD (i + 1) 0) / 2)|

/-- The entropy of the masses between the fractions. -/
noncomputable def spread (taus : List ℝ) : ℝ :=
  -∑ i ∈ Finset.range (taus.length - 1), (taus.getD (i + 1) 0 - taus.getD i 0) * Real.log (taus.getD (i + 1) 0 - taus.getD i 0)

/-- The points half way between fractions. -/
noncomputable def halves (taus : List ℝ) : List ℝ := List.zipWith (fun a b => (a + b) / 2) taus.dropLast taus.tail

/-- Fractions from 0 to 1, in order. -/
def Fractions (taus : List ℝ) : Prop := taus.head? = some 0 ∧ taus.getLast? = some 1 ∧ taus.IsChain (· < ·)

/-- A quantile function. -/
def Quantile (q : ℝ → ℝ) : Prop := Continuous q ∧ MonotoneOn q (Set.Icc 0 1)

/-! ### Lemmas -/

/-- Distance on one piece. -/
theorem piece {q : ℝ → ℝ} (hq : Quantile q) {a b : ℝ} (h0 : 0 ≤ a) (hab : a ≤ b) (h1 : b ≤ 1) :
    ∫ x in a..b, |q x - q ((a + b) / 2)| =
      (∫ x in (0 : ℝ)..b, q x) + (∫ x in (0 : ℝ)..a, q x) - 2 * ∫ x in (0 : ℝ)..((a + b) / 2), q x := by
  obtain ⟨hc, hm⟩ := hq
  set m := (a + b) / 2 with hmdef
  have ham : a ≤ m := by rw [hmdef]; linarith
  have hmb : m ≤ b := by rw [hmdef]; linarith
  have ii : ∀ x y, IntervalIntegrable q volume x y := fun x y => hc.intervalIntegrable x y
  have ia : ∀ x y, IntervalIntegrable (fun x => |q x - q m|) volume x y := fun x y => (hc.sub continuous_const).abs.intervalIntegrable x y
  rw [← intervalIntegral.integral_add_adjacent_intervals (ia a m) (ia m b)]
  have e1 : ∫ x in a..m, |q x - q m| = ∫ x in a..m, (q m - q x) := by
    refine intervalIntegral.integral_congr fun x hx => ?_
    rw [Set.uIcc_of_le ham] at hx
    have := hm ⟨h0.trans hx.1, (hx.2.trans hmb).trans h1⟩ ⟨h0.trans ham, hmb.trans h1⟩ hx.2
    show |q x - q m| = q m - q x
    rw [abs_of_nonpos (by linarith)]; ring
  have e2 : ∫ x in m..b, |q x - q m| = ∫ x in m..b, (q x - q m) := by
    refine intervalIntegral.integral_congr fun x hx => ?_
    rw [Set.uIcc_of_le hmb] at hx
    have := hm ⟨h0.trans ham, hmb.trans h1⟩ ⟨(h0.trans ham).trans hx.1, hx.2.trans h1⟩ hx.1
    show |q x - q m| = q x - q m
    rw [abs_of_nonneg (by linarith)]
  rw [e1, e2, intervalIntegral.integral_sub (by simp) (ii _ _), intervalIntegral.integral_sub (ii _ _) (by simp),
    intervalIntegral.integral_const, intervalIntegral.integral_const]
  have s1 := intervalIntegral.integral_add_adjacent_intervals (ii 0 a) (ii a m)
  have s2 := intervalIntegral.integral_add_adjacent_intervals (ii 0 m) (ii m b)
  rw [← s2, ← s1]
  simp only [smul_eq_mul]
  have : m - a = b - m := by rw [hmdef]; ring
  rw [this]
  ring

theorem getD_map_range {α : Type} (f : ℕ → α) (d : α) {n i : ℕ} (h : i < n) : ((List.range n).map f).getD i d = f i := by
  simp [List.getD_eq_getElem?_getD, h]

theorem list_range (l : List ℝ) : l = (List.range l.length).map fun i => l.getD i 0 := by
  apply List.ext_getElem
  · simp
  · intro i h1 h2
    simp [List.getD_eq_getElem?_getD, h1]

/-- What the code computes for the fractions `T 0, ..., T (M + 1)`. -/
theorem grad_eq {q : ℝ → ℝ} (hm : MonotoneOn q (Set.Icc 0 1)) (M : ℕ) (T : ℕ → ℝ) (h0 : T 0 = 0) (h1 : T (M + 1) = 1)
    (hT : ∀ i ≤ M, T i < T (i + 1)) :
    fractionGrad (((List.range (M + 2)).map T).tail.dropLast.map q) ((halves ((List.range (M + 2)).map T)).map q) =
      (List.range M).map fun j => 2 * q (T (j + 1)) - q ((T j + T (j + 1)) / 2) - q ((T (j + 1) + T (j + 2)) / 2) := by
  have hmono : ∀ i j, i ≤ j → j ≤ M + 1 → T i ≤ T j := by
    intro i j hij
    induction j, hij using Nat.le_induction with
    | base => intro _; exact le_rfl
    | succ k _ ih => intro hk; exact (ih (by omega)).trans (hT k (by omega)).le
  have hin : ∀ i ≤ M + 1, T i ∈ Set.Icc (0 : ℝ) 1 := fun i hi => ⟨h0 ▸ hmono 0 i (Nat.zero_le _) hi, h1 ▸ hmono i (M + 1) hi le_rfl⟩
  have hmid : ∀ i ≤ M, (T i + T (i + 1)) / 2 ∈ Set.Icc (0 : ℝ) 1 ∧ T i ≤ (T i + T (i + 1)) / 2 ∧ (T i + T (i + 1)) / 2 ≤ T (i + 1) := by
    intro i hi
    obtain ⟨a1, a2⟩ := hin i (by omega)
    obtain ⟨b1, b2⟩ := hin (i + 1) (by omega)
    have := hT i hi
    refine ⟨⟨by linarith, by linarith⟩, by linarith, by linarith⟩
  have e1 : ((List.range (M + 2)).map T).tail.dropLast.map q = (List.range M).map fun j => q (T (j + 1)) := by
    apply List.ext_getElem
    · simp
    · intro i _ _; simp
  have e2 : (halves ((List.range (M + 2)).map T)).map q = (List.range (M + 1)).map fun j => q ((T j + T (j + 1)) / 2) := by
    apply List.ext_getElem
    · simp [halves]
    · intro i _ _; simp [halves]
  rw [e1, e2]
  apply List.ext_getElem
  · simp [fractionGrad, signed]
    omega
  · intro j hj1 hj2
    simp only [List.length_map, List.length_range] at hj2
    obtain ⟨m1, m2, m3⟩ := hmid j (by omega)
    obtain ⟨n1, n2, n3⟩ := hmid (j + 1) (by omega)
    have k1 : q ((T j + T (j + 1)) / 2) ≤ q (T (j + 1)) := hm m1 (hin _ (by omega)) m3
    have k2 : q (T (j + 1)) ≤ q ((T (j + 1) + T (j + 1 + 1)) / 2) := hm (hin _ (by omega)) n1 n2
    have hX : ∀ h, (List.take 1 ((List.range (M + 1)).map fun j => q ((T j + T (j + 1)) / 2)) ++
        ((List.range M).map fun j => q (T (j + 1))).dropLast)[j]'h ≤ q ((T j + T (j + 1)) / 2) := by
      intro h
      cases j with
      | zero => simp
      | succ j =>
        rw [List.getElem_append_right (by simp)]
        simp only [List.length_take, List.length_map, List.length_range, List.getElem_dropLast, List.getElem_map, List.getElem_range]
        rw [show j + 1 - min 1 (M + 1) + 1 = j + 1 by omega]
        exact hm (hin _ (by omega)) m1 m2
    have hY : ∀ h, q ((T (j + 1) + T (j + 1 + 1)) / 2) ≤ (((List.range M).map fun j => q (T (j + 1))).tail ++
        List.drop M ((List.range (M + 1)).map fun j => q ((T j + T (j + 1)) / 2)))[j]'h := by
      intro h
      by_cases hlast : j + 1 = M
      · rw [List.getElem_append_right (by simp; omega)]
        simp only [List.length_tail, List.length_map, List.length_range, List.getElem_drop, List.getElem_map, List.getElem_range]
        rw [show M + (j - (M - 1)) = j + 1 by omega]
      · rw [List.getElem_append_left (by simp; omega)]
        simp only [List.getElem_tail, List.getElem_map, List.getElem_range]
        exact hm n1 (hin _ (by omega)) n3
    simp only [fractionGrad, signed, List.getElem_zipWith, List.getElem_map, List.getElem_range, List.getElem_dropLast, List.getElem_tail,
      List.length_map, List.length_range, Nat.add_sub_cancel, gt_iff_lt, decide_eq_true_eq]
    have x1 := hX (by simp; omega)
    have y1 := hY (by simp; omega)
    rw [show j + 2 = j + 1 + 1 from rfl]
    split <;> split <;> linarith

/-- The derivative of the distance along a curve of fractions. -/
theorem distance_deriv {q : ℝ → ℝ} (hq : Quantile q) (M : ℕ) (T : ℝ → ℕ → ℝ) (T' : ℕ → ℝ) (t0 : ℝ) (h0 : ∀ᶠ t in 𝓝 t0, T t 0 = 0)
    (h1 : ∀ᶠ t in 𝓝 t0, T t (M + 1) = 1) (hT : ∀ᶠ t in 𝓝 t0, ∀ i ≤ M, T t i < T t (i + 1))
    (hd : ∀ i ≤ M + 1, HasDerivAt (fun t => T t i) (T' i) t0) :
    HasDerivAt (fun t => distance q ((List.range (M + 2)).map (T t)))
      (∑ j ∈ Finset.range M, (2 * q (T t0 (j + 1)) - q ((T t0 j + T t0 (j + 1)) / 2) - q ((T t0 (j + 1) + T t0 (j + 2)) / 2)) * T' (j + 1)) t0 := by
  have z0 : T' 0 = 0 := (hd 0 (by omega)).unique ((hasDerivAt_const t0 (0 : ℝ)).congr_of_eventuallyEq h0)
  have z1 : T' (M + 1) = 0 := (hd (M + 1) le_rfl).unique ((hasDerivAt_const t0 (1 : ℝ)).congr_of_eventuallyEq h1)
  have hG : ∀ x, HasDerivAt (fun y => ∫ u in (0 : ℝ)..y, q u) (q x) x := fun x =>
    intervalIntegral.integral_hasDerivAt_right (hq.1.intervalIntegrable _ _) (hq.1.stronglyMeasurableAtFilter _ _) hq.1.continuousAt
  have heq : (fun t => distance q ((List.range (M + 2)).map (T t))) =ᶠ[𝓝 t0] fun t => ∑ i ∈ Finset.range (M + 1),
      ((∫ x in (0 : ℝ)..T t (i + 1), q x) + (∫ x in (0 : ℝ)..T t i, q x) - 2 * ∫ x in (0 : ℝ)..((T t i + T t (i + 1)) / 2), q x) := by
    filter_upwards [h0, h1, hT] with t a0 a1 aT
    have hmono : ∀ i j, i ≤ j → j ≤ M + 1 → T t i ≤ T t j := by
      intro i j hij
      induction j, hij using Nat.le_induction with
      | base => intro _; exact le_rfl
      | succ k _ ih => intro hk; exact (ih (by omega)).trans (aT k (by omega)).le
    rw [distance]
    simp only [List.length_map, List.length_range, Nat.add_one_sub_one]
    refine Finset.sum_congr rfl fun i hi => ?_
    rw [Finset.mem_range] at hi
    rw [getD_map_range _ _ (by omega), getD_map_range _ _ (by omega)]
    exact piece hq (a0 ▸ hmono 0 i (Nat.zero_le _) (by omega)) (aT i (by omega)).le (a1 ▸ hmono (i + 1) (M + 1) (by omega) le_rfl)
  refine HasDerivAt.congr_of_eventuallyEq ?_ heq
  have key : HasDerivAt (fun t => ∑ i ∈ Finset.range (M + 1),
      ((∫ x in (0 : ℝ)..T t (i + 1), q x) + (∫ x in (0 : ℝ)..T t i, q x) - 2 * ∫ x in (0 : ℝ)..((T t i + T t (i + 1)) / 2), q x))
      (∑ i ∈ Finset.range (M + 1), (q (T t0 (i + 1)) * T' (i + 1) + q (T t0 i) * T' i -
        2 * (q ((T t0 i + T t0 (i + 1)) / 2) * ((T' i + T' (i + 1)) / 2)))) t0 := by
    refine HasDerivAt.fun_sum fun i hi => ?_
    rw [Finset.mem_range] at hi
    have d1 := (hG (T t0 (i + 1))).comp t0 (hd (i + 1) (by omega))
    have d2 := (hG (T t0 i)).comp t0 (hd i (by omega))
    have d3 := (hG ((T t0 i + T t0 (i + 1)) / 2)).comp t0 (((hd i (by omega)).add (hd (i + 1) (by omega))).div_const 2)
    exact (d1.add d2).sub (d3.const_mul 2)
  refine key.congr_deriv ?_
  have e : ∀ i, q (T t0 (i + 1)) * T' (i + 1) + q (T t0 i) * T' i - 2 * (q ((T t0 i + T t0 (i + 1)) / 2) * ((T' i + T' (i + 1)) / 2)) =
      (q (T t0 (i + 1)) - q ((T t0 i + T t0 (i + 1)) / 2)) * T' (i + 1) + (q (T t0 i) - q ((T t0 i + T t0 (i + 1)) / 2)) * T' i := fun i => by ring
  simp only [e]
  rw [Finset.sum_add_distrib, Finset.sum_range_succ, Finset.sum_range_succ' (fun i => (q (T t0 i) - q ((T t0 i + T t0 (i + 1)) / 2)) * T' i),
    z0, z1, mul_zero, mul_zero, add_zero, add_zero, ← Finset.sum_add_distrib]
  exact Finset.sum_congr rfl fun i _ => by ring

theorem sum_zip_range (f g : ℕ → ℝ) (n : ℕ) :
    (List.zipWith (· * ·) ((List.range n).map f) ((List.range n).map g)).sum = ∑ i ∈ Finset.range n, f i * g i := by
  rw [List.zipWith_map, Finset.sum_range]
  have : List.zipWith (fun a b => f a * g b) (List.range n) (List.range n) = List.ofFn fun i : Fin n => f i * g i := by
    apply List.ext_getElem
    · simp
    · intro i _ _; simp
  rw [this, List.sum_ofFn]

/-- Fractions as a function of their position. -/
theorem fractions_range {taus : List ℝ} (h : Fractions taus) : ∃ M, taus.length = M + 2 ∧ taus.getD 0 0 = 0 ∧ taus.getD (M + 1) 0 = 1 ∧
    (∀ i ≤ M, taus.getD i 0 < taus.getD (i + 1) 0) := by
  obtain ⟨h0, h1, h2⟩ := h
  match taus, h0, h1, h2 with
  | [a], h0, h1, _ => simp at h0 h1; subst h0; simp at h1
  | a :: b :: l, h0, h1, h2 =>
    refine ⟨l.length, by simp, by simpa using h0, ?_, ?_⟩
    · rw [List.getLast?_eq_getElem?] at h1
      rw [List.getD_eq_getElem?_getD]
      simpa using congrArg (fun o => o.getD 0) h1
    · intro i hi
      have := List.isChain_iff_getElem.1 h2 i (by simp; omega)
      rw [List.getD_eq_getElem?_getD, List.getD_eq_getElem?_getD, List.getElem?_eq_getElem (by simp; omega),
        List.getElem?_eq_getElem (by simp; omega)]
      exact this

theorem softmax_range (z : ℕ → ℝ) (N : ℕ) : softmax ((List.range N).map z) =
    (List.range N).map fun i => Real.exp (z i) / ∑ j ∈ Finset.range N, Real.exp (z j) := by
  have : (((List.range N).map z).map Real.exp).sum = ∑ j ∈ Finset.range N, Real.exp (z j) := by
    rw [List.map_map, Finset.sum_range, ← List.sum_ofFn]
    congr 1
    apply List.ext_getElem
    · simp
    · intro i _ _; simp
  rw [softmax, this, List.map_map]
  rfl

theorem cumsum_range (s : ℝ) (l : List ℝ) : s :: cumsum s l = (List.range (l.length + 1)).map fun i => s + (l.take i).sum := by
  induction l generalizing s with
  | nil => simp [cumsum]
  | cons x l ih =>
    rw [cumsum, ih (s + x), List.length_cons, List.range_succ_eq_map (n := l.length + 1), List.map_cons, List.map_map]
    simp [Function.comp_def, add_assoc]

theorem taus_range (z : ℕ → ℝ) (N : ℕ) : (propose id ((List.range N).map z)).1 = (List.range (N + 1)).map fun i =>
    ∑ j ∈ Finset.range i, Real.exp (z j) / ∑ k ∈ Finset.range N, Real.exp (z k) := by
  show 0 :: cumsum 0 (softmax ((List.range N).map z)) = _
  rw [cumsum_range, softmax_range, List.length_map, List.length_range]
  refine List.map_congr_left fun i hi => ?_
  rw [List.mem_range] at hi
  rw [zero_add, ← List.map_take, List.take_range, min_eq_left (by omega), Finset.sum_range, ← List.sum_ofFn]
  congr 1

/-! ### C256 -/

/-- C256: `gradient_of_taus` is the gradient of the distance between the two laws, for every quantile function and all fractions. -/
theorem C256_gradient {q : ℝ → ℝ} (hq : Quantile q) {taus : List ℝ} (hf : Fractions taus) (j : ℕ) (hj : j + 2 < taus.length) :
    HasDerivAt (fun x => distance q (taus.set (j + 1) x))
      ((fractionGrad (taus.tail.dropLast.map q) ((halves taus).map q)).getD j 0) (taus.getD (j + 1) 0) := by
  obtain ⟨M, hlen, h0, h1, hT⟩ := fractions_range hf
  have hjM : j < M := by omega
  have htaus : taus = (List.range (M + 2)).map fun i => taus.getD i 0 := by
    conv_lhs => rw [list_range taus, hlen]
  have hg := grad_eq hq.2 M (fun i => taus.getD i 0) h0 h1 hT
  rw [← htaus] at hg
  rw [hg, getD_map_range _ _ hjM]
  have hset : ∀ x, taus.set (j + 1) x = (List.range (M + 2)).map fun i => if i = j + 1 then x else taus.getD i 0 := by
    intro x
    apply List.ext_getElem
    · simp [hlen]
    · intro i hi _
      have hi' : i < taus.length := by simpa using hi
      rw [List.getElem_set]
      by_cases e : j + 1 = i
      · simp [e]
      · simp [e, Ne.symm e, List.getD_eq_getElem?_getD, hi']
  simp only [hset]
  have hlo := hT j (by omega)
  have hhi := hT (j + 1) (by omega)
  have key := distance_deriv hq M (fun x i => if i = j + 1 then x else taus.getD i 0) (fun i => if i = j + 1 then 1 else 0)
    (taus.getD (j + 1) 0) (Eventually.of_forall fun t => by simpa using h0)
    (Eventually.of_forall fun t => by
      show (if M + 1 = j + 1 then t else taus.getD (M + 1) 0) = 1
      rw [if_neg (by omega)]; exact h1) ?_ ?_
  · refine key.congr_deriv ?_
    rw [Finset.sum_eq_single j]
    · simp
    · intro i _ hij; simp [hij]
    · intro hn; simp at hn; omega
  · filter_upwards [Ioo_mem_nhds hlo hhi] with t ht i hi
    have := hT i hi
    by_cases e1 : i = j + 1
    · subst e1
      simpa using ht.2
    · by_cases e2 : i = j
      · subst e2
        simpa using ht.1
      · simpa [e1, e2] using this
  · intro i _
    by_cases e : i = j + 1
    · simp only [e, if_true]; exact hasDerivAt_id _
    · simp only [e, if_false]; exact hasDerivAt_const _ _

/-- C256: the Q-value of FQF differs from the mean of the law at most by this distance. -/
theorem C256_value {q : ℝ → ℝ} (hq : Quantile q) {taus : List ℝ} (hf : Fractions taus) :
    |QTarget.fqfValue taus ((halves taus).map q) - ∫ x in (0 : ℝ)..1, q x| ≤ distance q taus := by
  obtain ⟨M, hlen, h0, h1, hT⟩ := fractions_range hf
  have ii : ∀ x y, IntervalIntegrable q volume x y := fun x y => hq.1.intervalIntegrable x y
  have hsum := intervalIntegral.sum_integral_adjacent_intervals (μ := volume) (f := q) (a := fun i => taus.getD i 0) (n := M + 1)
    fun k _ => ii _ _
  rw [h0, h1] at hsum
  have hv : QTarget.fqfValue taus ((halves taus).map q) =
      ∑ i ∈ Finset.range (M + 1), (taus.getD (i + 1) 0 - taus.getD i 0) * q ((taus.getD i 0 + taus.getD (i + 1) 0) / 2) := by
    unfold QTarget.fqfValue
    rw [← sum_zip_range]
    congr 2
    · apply List.ext_getElem
      · simp [hlen]
      · intro i h1 h2
        simp at h2
        simp [List.getD_eq_getElem?_getD, hlen, h2, show i < M + 2 by omega]
    · apply List.ext_getElem
      · simp [hlen, halves]
      · intro i h1 h2
        simp at h2
        simp [halves, List.getD_eq_getElem?_getD, hlen, h2, show i < M + 2 by omega]
  rw [hv, ← hsum, ← Finset.sum_sub_distrib, distance, hlen]
  refine (Finset.abs_sum_le_sum_abs _ _).trans (Finset.sum_le_sum fun i hi => ?_)
  have hi' : i ≤ M := by simpa [Nat.lt_succ_iff] using hi
  generalize hc : q ((taus.getD i 0 + taus.getD (i + 1) 0) / 2) = c
  have e : (taus.getD (i + 1) 0 - taus.getD i 0) * c - ∫ x in taus.getD i 0..taus.getD (i + 1) 0, q x =
      -∫ x in taus.getD i 0..taus.getD (i + 1) 0, (q x - c) := by
    rw [intervalIntegral.integral_sub (ii _ _) (by simp), intervalIntegral.integral_const, smul_eq_mul]
    ring
  rw [e, abs_neg]
  exact intervalIntegral.abs_integral_le_integral_abs (hT i hi').le

/-- C256: the optimizer of the fraction proposal network follows the gradient of the mean distance minus `ent_coef` times the mean
entropy. The logits of the network for the rows of the minibatch change along any curve `z`, with their present values at `0`. -/
theorem C256_loss {B N : ℕ} (entCoef : ℝ) (q : Fin B → ℝ → ℝ) (hq : ∀ b, Quantile (q b)) (z : Fin B → ℝ → List ℝ)
    (hN : 0 < N) (hz : ∀ b t, (z b t).length = N) (hd : ∀ b i, DifferentiableAt ℝ (fun t => (z b t).getD i 0) 0) :
    ∃ D, HasDerivAt (fun t => fractionEntropyLoss entCoef
        (List.ofFn fun b => fractionGrad ((propose id (z b 0)).1.tail.dropLast.map (q b)) ((propose id (z b 0)).2.map (q b)))
        (List.ofFn fun b => (propose id (z b t)).1) (List.ofFn fun b => entropy (z b t))) D 0 ∧
      HasDerivAt (fun t => (∑ b, distance (q b) (propose id (z b t)).1) / B - entCoef * ((∑ b, spread (propose id (z b t)).1) / B)) D 0 := by
  obtain ⟨M, rfl⟩ : ∃ M, N = M + 1 := ⟨N - 1, by omega⟩
  set S : Fin B → ℝ → ℝ := fun b t => ∑ k ∈ Finset.range (M + 1), Real.exp ((z b t).getD k 0) with hS
  set T : Fin B → ℝ → ℕ → ℝ := fun b t i => ∑ j ∈ Finset.range i, Real.exp ((z b t).getD j 0) / S b t with hTdef
  have hzr : ∀ b t, z b t = (List.range (M + 1)).map fun i => (z b t).getD i 0 := fun b t => by
    conv_lhs => rw [list_range (z b t), hz]
  have hSpos : ∀ b t, 0 < S b t := fun b t => Finset.sum_pos (fun k _ => Real.exp_pos _) ⟨0, by simp⟩
  have htaus : ∀ b t, (propose id (z b t)).1 = (List.range (M + 2)).map (T b t) := by
    intro b t
    conv_lhs => rw [hzr b t, taus_range]
  have hhats : ∀ b t, (propose id (z b t)).2 = halves ((List.range (M + 2)).map (T b t)) := by
    intro b t
    rw [← htaus]
    rfl
  have hSd : ∀ b, DifferentiableAt ℝ (S b) 0 := fun b => DifferentiableAt.fun_sum fun k _ => (hd b k).exp
  have hpd : ∀ b i, DifferentiableAt ℝ (fun t => Real.exp ((z b t).getD i 0) / S b t) 0 := fun b i =>
    (hd b i).exp.div (hSd b) (hSpos b 0).ne'
  have hTd : ∀ b i, HasDerivAt (fun t => T b t i) (deriv (fun t => T b t i) 0) 0 := fun b i =>
    (DifferentiableAt.fun_sum fun j _ => hpd b j).hasDerivAt
  have hT0 : ∀ b t, T b t 0 = 0 := fun b t => by simp [hTdef]
  have hT1 : ∀ b t, T b t (M + 1) = 1 := fun b t => by
    simp only [hTdef]
    rw [← Finset.sum_div]
    exact div_self (hSpos b t).ne'
  have hTs : ∀ b t i, T b t (i + 1) = T b t i + Real.exp ((z b t).getD i 0) / S b t := fun b t i => by
    simp only [hTdef]
    rw [Finset.sum_range_succ]
  have hTlt : ∀ b t, ∀ i ≤ M, T b t i < T b t (i + 1) := fun b t i _ => by
    rw [hTs]
    have := div_pos (Real.exp_pos ((z b t).getD i 0)) (hSpos b t)
    linarith
  have hdist := fun b => distance_deriv (hq b) M (T b) (fun i => deriv (fun t => T b t i) 0) 0 (Eventually.of_forall (hT0 b))
    (Eventually.of_forall (hT1 b)) (Eventually.of_forall (hTlt b)) fun i _ => hTd b i
  have hent : ∀ b t, entropy (z b t) = spread (propose id (z b t)).1 := by
    intro b t
    rw [htaus, spread, entropy]
    congr 1
    have e1 : ((z b t).map fun y => y - Real.log ((z b t).map Real.exp).sum) =
        (List.range (M + 1)).map fun i => (z b t).getD i 0 - Real.log (S b t) := by
      have : ((z b t).map Real.exp).sum = S b t := by
        conv_lhs => rw [hzr b t]
        show _ = ∑ k ∈ Finset.range (M + 1), Real.exp ((z b t).getD k 0)
        rw [List.map_map, Finset.sum_range, ← List.sum_ofFn]
        congr 1
        apply List.ext_getElem
        · simp
        · intro i _ _; simp only [List.getElem_map, List.getElem_range, List.getElem_ofFn, Function.comp]
      rw [this]
      conv_lhs => rw [hzr b t]
      rw [List.map_map]
      rfl
    have e2 : softmax (z b t) = (List.range (M + 1)).map fun i => Real.exp ((z b t).getD i 0) / S b t := by
      conv_lhs => rw [hzr b t, softmax_range]
    rw [e1, e2, sum_zip_range]
    simp only [List.length_map, List.length_range, Nat.add_one_sub_one]
    refine Finset.sum_congr rfl fun i hi => ?_
    rw [Finset.mem_range] at hi
    rw [getD_map_range _ _ (by omega), getD_map_range _ _ (by omega), hTs, add_sub_cancel_left,
      Real.log_div (Real.exp_ne_zero _) (hSpos b t).ne', Real.log_exp, mul_comm]
  have hspd : ∀ b, DifferentiableAt ℝ (fun t => spread (propose id (z b t)).1) 0 := by
    intro b
    have e : (fun t => spread (propose id (z b t)).1) = fun t => -∑ i ∈ Finset.range (M + 1),
        (Real.exp ((z b t).getD i 0) / S b t) * Real.log (Real.exp ((z b t).getD i 0) / S b t) := by
      funext t
      rw [htaus, spread]
      simp only [List.length_map, List.length_range, Nat.add_one_sub_one]
      congr 1
      refine Finset.sum_congr rfl fun i hi => ?_
      rw [Finset.mem_range] at hi
      rw [getD_map_range _ _ (by omega), getD_map_range _ _ (by omega), hTs, add_sub_cancel_left]
    rw [e]
    exact (DifferentiableAt.fun_sum fun i _ => (hpd b i).mul ((hpd b i).log (div_pos (Real.exp_pos _) (hSpos b 0)).ne')).neg
  refine ⟨(∑ b, ∑ j ∈ Finset.range M, (2 * q b (T b 0 (j + 1)) - q b ((T b 0 j + T b 0 (j + 1)) / 2) -
      q b ((T b 0 (j + 1) + T b 0 (j + 2)) / 2)) * deriv (fun t => T b t (j + 1)) 0) / B -
      entCoef * ((∑ b, deriv (fun t => spread (propose id (z b t)).1) 0) / B), ?_, ?_⟩
  · have e : (fun t => fractionEntropyLoss entCoef
        (List.ofFn fun b => fractionGrad ((propose id (z b 0)).1.tail.dropLast.map (q b)) ((propose id (z b 0)).2.map (q b)))
        (List.ofFn fun b => (propose id (z b t)).1) (List.ofFn fun b => entropy (z b t))) = fun t =>
        (∑ b, ∑ j ∈ Finset.range M, (2 * q b (T b 0 (j + 1)) - q b ((T b 0 j + T b 0 (j + 1)) / 2) -
          q b ((T b 0 (j + 1) + T b 0 (j + 2)) / 2)) * T b t (j + 1)) / B -
        entCoef * ((∑ b, spread (propose id (z b t)).1) / B) := by
      funext t
      rw [fractionEntropyLoss, fractionLoss, QLearning.zipWith_ofFn, QLearning.mean_ofFn, QLearning.mean_ofFn]
      simp only [hent]
      congr 2
      refine Finset.sum_congr rfl fun b _ => ?_
      rw [htaus, htaus, hhats, grad_eq (hq b).2 M (T b 0) (hT0 b 0) (hT1 b 0) (hTlt b 0), ← sum_zip_range]
      congr 2
      apply List.ext_getElem
      · simp
      · intro i _ _; simp
    rw [e]
    exact ((HasDerivAt.fun_sum fun b _ => HasDerivAt.fun_sum fun j _ => (hTd b (j + 1)).const_mul _).div_const _).sub
      (((HasDerivAt.fun_sum fun b _ => (hspd b).hasDerivAt).div_const _).const_mul _)
  · have e : (fun t => (∑ b, distance (q b) (propose id (z b t)).1) / (B : ℝ)) = fun t =>
        (∑ b, distance (q b) ((List.range (M + 2)).map (T b t))) / B := by
      funext t
      simp only [htaus]
    refine HasDerivAt.sub (f := fun t => (∑ b, distance (q b) (propose id (z b t)).1) / (B : ℝ)) ?_
      (((HasDerivAt.fun_sum fun b _ => (hspd b).hasDerivAt).div_const _).const_mul _)
    rw [e]
    exact (HasDerivAt.fun_sum fun b _ => hdist b).div_const _

/-! ### Examples -/

/-- The quantile function of the uniform law on [0, 1]. -/
theorem quantile_id : Quantile id := ⟨continuous_id, monotone_id.monotoneOn _⟩

theorem fractions_ex : Fractions [0, 1 / 4, 1] := ⟨rfl, rfl, by simp; norm_num⟩

/-- The gradient at 0, 1/4, 1 for the uniform law is -1/4: the inner fraction should grow, towards 1/2. -/
example : fractionGrad [(1 / 4 : ℚ)] [1 / 8, 5 / 8] = [-1 / 4] := by decide +kernel

example : fractionGrad ([0, 1 / 4, 1].tail.dropLast.map (id : ℝ → ℝ)) ((halves [0, 1 / 4, 1]).map id) = [-1 / 4] := by
  have := grad_eq quantile_id.2 1 (fun i => if i = 0 then 0 else if i = 1 then 1 / 4 else 1) rfl rfl
    (by intro i hi; interval_cases i <;> norm_num)
  simp [List.range_succ] at this
  norm_num at this ⊢
  exact this

example : ∀ (_ : Fin 2) (i : ℕ), DifferentiableAt ℝ (fun t : ℝ => ([t, 2 * t, 1] : List ℝ).getD i 0) 0 := by
  intro _ i
  match i with
  | 0 => exact differentiableAt_id
  | 1 => exact differentiableAt_id.const_mul 2
  | 2 => exact differentiableAt_const _
  | i + 3 => exact differentiableAt_const _

end Verif.Fraction
