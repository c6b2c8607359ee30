import Verif.Props.ActorCritic
import Mathlib.Probability.Distributions.Gaussian.Real
import Mathlib.Probability.Moments.Covariance
import Mathlib.Probability.HasLaw
import Mathlib.Probability.Independence.InfinitePi
import Mathlib.Analysis.SpecificLimits.Basic
import Mathlib.Tactic.FieldSimp

/-!
C260: the law of the exploration noise.
-/

namespace Verif.ActorCritic

open MeasureTheory ProbabilityTheory Filter Topology

variable {Ω : Type} [MeasurableSpace Ω] {P : Measure Ω} [IsProbabilityMeasure P]

/-! ### Specification -/

/-- Standard normal random numbers, independent for all calls and all components. -/
structure Normals {sz : Nat} (P : Measure Ω) (Z : ℕ → Fin sz → Ω → ℝ) : Prop where
  measurable : ∀ i j, Measurable (Z i j)
  law : ∀ i j, HasLaw (Z i j) (gaussianReal 0 1) P
  indep : iIndepFun (fun (p : ℕ × Fin sz) => Z p.1 p.2) P

/-- What `N` calls of a new `OUNoise` return: the component `j` of the result of the call number `n`. -/
noncomputable def ouNoise {sz : Nat} (mu sigma theta dt : ℝ) (x0 : Option ℝ) (dims : List Nat) (Z : ℕ → Fin sz → Ω → ℝ) (N n : ℕ)
    (j : Fin sz) (ω : Ω) : ℝ :=
  (((OU.new mu sigma theta dt (Real.sqrt dt) (match x0 with
    | none => .none
    | some x => .num x)).run (.tuple dims) ((List.range N).map fun i => List.ofFn fun k => Z i k ω)).2.getD n []).getD j 0

/-! ### The noise as a sum -/

theorem run_length {K : Type} [Field K] (size : Size) (rs : List (List K)) (o : OU K) : (o.run size rs).2.length = rs.length := by
  induction rs generalizing o with
  | nil => rfl
  | cons r rs ih => simp [OU.run, ih]

theorem ouValue_range (mu alpha beta x : ℝ) (f : ℕ → ℝ) (n : ℕ) :
    ouValue mu alpha beta x ((List.range n).map f) =
      (mu + (1 - alpha) ^ n * (x - mu)) + ∑ i ∈ Finset.range n, (1 - alpha) ^ (n - 1 - i) * (beta * f i) := by
  rw [ouValue, List.length_map, List.length_range]
  congr 1
  rw [List.zipIdx_map, List.map_map, Finset.sum_range, ← List.sum_ofFn]
  congr 1
  apply List.ext_getElem
  · simp
  · intro i h1 h2
    simp

theorem ouNoise_eq {sz : Nat} (mu sigma theta dt : ℝ) (x0 : Option ℝ) (dims : List Nat) (Z : ℕ → Fin sz → Ω → ℝ) (N n : ℕ) (hn : n < N)
    (j : Fin sz) (ω : Ω) :
    ouNoise mu sigma theta dt x0 dims Z N n j ω = (mu + (1 - theta * dt) ^ (n + 1) * (x0.getD 0 - mu)) +
      ∑ i ∈ Finset.range (n + 1), (1 - theta * dt) ^ (n - i) * (sigma * Real.sqrt dt) * Z i j ω := by
  have hlen : ∀ o : OU ℝ, n < (o.run (.tuple dims) ((List.range N).map fun i => List.ofFn fun k => Z i k ω)).2.length := by
    intro o
    rw [run_length]; simpa using hn
  have h := fun out hout => C105_process_partial mu sigma theta dt (Real.sqrt dt) x0 dims sz
    ((List.range N).map fun i => List.ofFn fun k => Z i k ω)
    (by
      intro r hr
      obtain ⟨i, _, rfl⟩ := List.mem_map.1 hr
      simp) n out hout j j.2
  have h := h _ (List.getElem?_eq_getElem (hlen _))
  unfold ouNoise
  rw [List.getD_eq_getElem?_getD (l := Prod.snd _), List.getElem?_eq_getElem (hlen _), Option.getD_some, List.getD_eq_getElem?_getD]
  refine Eq.trans (b := ouValue mu (theta * dt) (sigma * Real.sqrt dt) (x0.getD 0)
    ((((List.range N).map fun i => List.ofFn fun k => Z i k ω).take (n + 1)).map fun r => r.getD (j : ℕ) 0)) ?_ ?_
  · cases x0 with
    | none => exact congrArg (fun z : Option ℝ => z.getD 0) h
    | some x => exact congrArg (fun z : Option ℝ => z.getD 0) h
  have e : ((((List.range N).map fun i => List.ofFn fun k => Z i k ω).take (n + 1)).map fun r => r.getD (j : ℕ) 0) =
      (List.range (n + 1)).map fun i => Z i j ω := by
    rw [← List.map_take, List.map_map, List.take_range, min_eq_left hn]
    apply List.map_congr_left
    intro i _
    simp [List.getD]
  rw [e, ouValue_range]
  congr 1
  apply Finset.sum_congr rfl
  intro i _
  rw [Nat.add_sub_cancel]; ring

/-- A sum of independent normal numbers. -/
theorem sum_law (z : ℕ → Ω → ℝ) (hm : ∀ i, Measurable (z i)) (hl : ∀ i, HasLaw (z i) (gaussianReal 0 1) P) (hi : iIndepFun z P)
    (c : ℕ → ℝ) (n : ℕ) :
    HasLaw (fun ω => ∑ i ∈ Finset.range n, c i * z i ω) (gaussianReal 0 (∑ i ∈ Finset.range n, c i ^ 2).toNNReal) P := by
  have hm' : ∀ i, Measurable fun ω => c i * z i ω := fun i => (hm i).const_mul _
  have hi' : iIndepFun (fun i ω => c i * z i ω) P := hi.comp (fun i x => c i * x) fun i => measurable_const_mul _
  induction n with
  | zero =>
    simp only [Finset.range_zero, Finset.sum_empty, Real.toNNReal_zero, gaussianReal_zero_var]
    exact ⟨by fun_prop, by simp⟩
  | succ n ih =>
    have hind : IndepFun (fun ω => ∑ i ∈ Finset.range n, c i * z i ω) (fun ω => c n * z n ω) P := by
      have := hi'.indepFun_finsetSum_of_notMem hm' (s := Finset.range n) (i := n) (by simp)
      convert this using 1
      ext ω
      simp
    have h1 := gaussianReal_const_mul (hl n) (c n)
    have h2 := gaussianReal_add_gaussianReal_of_indepFun hind ih.map_eq h1.map_eq
    refine ⟨(Finset.measurable_sum _ fun i _ => hm' i).aemeasurable, ?_⟩
    have e : (fun ω => ∑ i ∈ Finset.range (n + 1), c i * z i ω) =
        (fun ω => ∑ i ∈ Finset.range n, c i * z i ω) + fun ω => c n * z n ω := by
      ext ω
      simp [Finset.sum_range_succ]
    rw [e, h2]
    congr 1
    · simp
    · rw [Finset.sum_range_succ, Real.toNNReal_add (Finset.sum_nonneg fun i _ => sq_nonneg _) (sq_nonneg _), mul_one]
      congr 1
      exact (Real.toNNReal_of_nonneg (sq_nonneg (c n))).symm

omit [IsProbabilityMeasure P] in
theorem column {sz : Nat} {Z : ℕ → Fin sz → Ω → ℝ} (hZ : Normals P Z) (j : Fin sz) : iIndepFun (fun i => Z i j) P :=
  hZ.indep.precomp (g := fun i => (i, j)) fun _ _ h => (Prod.mk.inj h).1

/-! ### C260 -/

/-- The variance of the noise after `n` steps. -/
noncomputable def ouVar (sigma theta dt : ℝ) (n : ℕ) : ℝ := sigma ^ 2 * dt * ∑ i ∈ Finset.range n, ((1 - theta * dt) ^ 2) ^ i

/-- C260, the law: the noise of the call number `n` of an OUNoise (counted from 0) is normal, with the mean
`mu + (1 - theta dt) ^ (n + 1) (x0 - mu)` and the variance `sigma² dt (1 + q + ... + q ^ n)` where `q = (1 - theta dt)²`. -/
theorem C260_law {sz : Nat} (mu sigma theta dt : ℝ) (hdt : 0 ≤ dt) (x0 : Option ℝ) (dims : List Nat) (Z : ℕ → Fin sz → Ω → ℝ)
    (hZ : Normals P Z) (N n : ℕ) (hn : n < N) (j : Fin sz) :
    HasLaw (ouNoise mu sigma theta dt x0 dims Z N n j)
      (gaussianReal (mu + (1 - theta * dt) ^ (n + 1) * (x0.getD 0 - mu)) (ouVar sigma theta dt (n + 1)).toNNReal) P := by
  have h := gaussianReal_const_add (sum_law (fun i => Z i j) (fun i => hZ.measurable i j) (fun i => hZ.law i j) (column hZ j)
    (fun i => (1 - theta * dt) ^ (n - i) * (sigma * Real.sqrt dt)) (n + 1)) (mu + (1 - theta * dt) ^ (n + 1) * (x0.getD 0 - mu))
  have e : ouNoise mu sigma theta dt x0 dims Z N n j = fun ω => (mu + (1 - theta * dt) ^ (n + 1) * (x0.getD 0 - mu)) +
      ∑ i ∈ Finset.range (n + 1), (1 - theta * dt) ^ (n - i) * (sigma * Real.sqrt dt) * Z i j ω := by
    ext ω
    exact ouNoise_eq mu sigma theta dt x0 dims Z N n hn j ω
  have ev : ∑ i ∈ Finset.range (n + 1), ((1 - theta * dt) ^ (n - i) * (sigma * Real.sqrt dt)) ^ 2 = ouVar sigma theta dt (n + 1) := by
    rw [ouVar, Finset.mul_sum, ← Finset.sum_range_reflect fun i => sigma ^ 2 * dt * ((1 - theta * dt) ^ 2) ^ i]
    apply Finset.sum_congr rfl
    intro i _
    rw [mul_pow, mul_pow, Real.sq_sqrt hdt, ← pow_mul, ← pow_mul, Nat.add_sub_cancel, Nat.mul_comm]
    ring
  rw [e]
  rw [ev, zero_add] at h
  exact h

omit [IsProbabilityMeasure P] in
theorem normals_memLp {sz : Nat} {Z : ℕ → Fin sz → Ω → ℝ} (hZ : Normals P Z) (i : ℕ) (j : Fin sz) : MemLp (Z i j) 2 P := by
  have h := memLp_id_gaussianReal (μ := 0) (v := 1) 2
  rw [← (hZ.law i j).map_eq, memLp_map_measure_iff (by fun_prop) (hZ.measurable i j).aemeasurable] at h
  exact h

omit [IsProbabilityMeasure P] in
theorem normals_var {sz : Nat} {Z : ℕ → Fin sz → Ω → ℝ} (hZ : Normals P Z) (i : ℕ) (j : Fin sz) : cov[Z i j, Z i j; P] = 1 := by
  rw [covariance_self (hZ.measurable i j).aemeasurable, (hZ.law i j).variance_eq, variance_id_gaussianReal]
  rfl

omit [IsProbabilityMeasure P] in
theorem normals_cov {sz : Nat} {Z : ℕ → Fin sz → Ω → ℝ} (hZ : Normals P Z) (i k : ℕ) (j : Fin sz) :
    cov[Z i j, Z k j; P] = if i = k then 1 else 0 := by
  by_cases h : i = k
  · subst h; rw [normals_var hZ]; simp
  · rw [if_neg h]
    exact ((column hZ j).indepFun h).covariance_eq_zero (normals_memLp hZ i j) (normals_memLp hZ k j)

/-- C260, the memory: the covariance of the noise of two calls is the variance at the earlier one, times `(1 - theta dt)` to the power of the
number of calls between them. -/
theorem C260_covariance {sz : Nat} (mu sigma theta dt : ℝ) (hdt : 0 ≤ dt) (x0 : Option ℝ) (dims : List Nat) (Z : ℕ → Fin sz → Ω → ℝ)
    (hZ : Normals P Z) (N m k : ℕ) (hn : m + k < N) (j : Fin sz) :
    cov[ouNoise mu sigma theta dt x0 dims Z N m j, ouNoise mu sigma theta dt x0 dims Z N (m + k) j; P] =
      (1 - theta * dt) ^ k * ouVar sigma theta dt (m + 1) := by
  have e : ∀ n, n < N → ouNoise mu sigma theta dt x0 dims Z N n j = fun ω => (mu + (1 - theta * dt) ^ (n + 1) * (x0.getD 0 - mu)) +
      ∑ i ∈ Finset.range (n + 1), (1 - theta * dt) ^ (n - i) * (sigma * Real.sqrt dt) * Z i j ω := by
    intro n hn
    ext ω
    exact ouNoise_eq mu sigma theta dt x0 dims Z N n hn j ω
  have hL : ∀ n, ∀ i ∈ Finset.range (n + 1), MemLp (fun ω => (1 - theta * dt) ^ (n - i) * (sigma * Real.sqrt dt) * Z i j ω) 2 P :=
    fun n i _ => (normals_memLp hZ i j).const_mul _
  have hS : ∀ n, Integrable (fun ω => ∑ i ∈ Finset.range (n + 1), (1 - theta * dt) ^ (n - i) * (sigma * Real.sqrt dt) * Z i j ω) P :=
    fun n => integrable_finsetSum _ fun i hi => (hL n i hi).integrable (by norm_num)
  rw [e m (by omega), e (m + k) hn, covariance_const_add_left (hS m), covariance_const_add_right (hS (m + k)),
    covariance_fun_sum_fun_sum' (hL m) (hL (m + k))]
  have hin : ∀ i ∈ Finset.range (m + 1), ∑ l ∈ Finset.range (m + k + 1),
      cov[fun ω => (1 - theta * dt) ^ (m - i) * (sigma * Real.sqrt dt) * Z i j ω,
        fun ω => (1 - theta * dt) ^ (m + k - l) * (sigma * Real.sqrt dt) * Z l j ω; P] =
      (1 - theta * dt) ^ k * (sigma ^ 2 * dt * ((1 - theta * dt) ^ 2) ^ (m - i)) := by
    intro i hi
    have hi' : i < m + 1 := Finset.mem_range.1 hi
    rw [Finset.sum_eq_single i]
    · rw [covariance_const_mul_left, covariance_const_mul_right, normals_var hZ, mul_one]
      rw [show m + k - i = (m - i) + k by omega, pow_add, ← pow_mul]
      have : Real.sqrt dt * Real.sqrt dt = dt := Real.mul_self_sqrt hdt
      linear_combination (1 - theta * dt) ^ (m - i) * (1 - theta * dt) ^ (m - i) * (1 - theta * dt) ^ k * sigma ^ 2 * this +
        0 * this
    · intro l _ hl
      rw [covariance_const_mul_left, covariance_const_mul_right, normals_cov hZ, if_neg (Ne.symm hl), mul_zero, mul_zero]
    · intro h
      exact absurd (Finset.mem_range.2 (by omega)) h
  rw [Finset.sum_congr rfl hin, ouVar, Finset.mul_sum, Finset.mul_sum,
    ← Finset.sum_range_reflect fun i => (1 - theta * dt) ^ k * (sigma ^ 2 * dt * ((1 - theta * dt) ^ 2) ^ i)]
  simp only [Nat.add_sub_cancel]

/-- C260, the components: the noises of two components are independent, even over all calls together. -/
theorem C260_components {sz : Nat} (mu sigma theta dt : ℝ) (x0 : Option ℝ) (dims : List Nat) (Z : ℕ → Fin sz → Ω → ℝ)
    (hZ : Normals P Z) (N : ℕ) (j k : Fin sz) (hjk : j ≠ k) :
    IndepFun (fun (ω : Ω) (n : Fin N) => ouNoise mu sigma theta dt x0 dims Z N n j ω)
      (fun (ω : Ω) (n : Fin N) => ouNoise mu sigma theta dt x0 dims Z N n k ω) P := by
  classical
  let T : Fin sz → Finset (ℕ × Fin sz) := fun j => (Finset.range N) ×ˢ {j}
  have hd : Disjoint (T j) (T k) := by
    rw [Finset.disjoint_left]
    rintro ⟨i, l⟩ h1 h2
    simp only [T, Finset.mem_product, Finset.mem_singleton] at h1 h2
    exact hjk (h1.2.symm.trans h2.2)
  let g : ∀ j : Fin sz, (T j → ℝ) → Fin N → ℝ := fun j z n =>
    (mu + (1 - theta * dt) ^ (n.1 + 1) * (x0.getD 0 - mu)) + ∑ i : Fin (n.1 + 1), (1 - theta * dt) ^ (n.1 - i.1) * (sigma * Real.sqrt dt) *
      z ⟨(i.1, j), by simp only [T, Finset.mem_product, Finset.mem_range, Finset.mem_singleton, and_true]; omega⟩
  have hg : ∀ j, Measurable (g j) := by
    intro j
    refine measurable_pi_lambda _ fun n => ?_
    dsimp only [g]
    fun_prop
  have h := (hZ.indep.indepFun_finset (T j) (T k) hd fun p => hZ.measurable p.1 p.2).comp (hg j) (hg k)
  have e : ∀ j, (fun (ω : Ω) (n : Fin N) => ouNoise mu sigma theta dt x0 dims Z N n j ω) =
      g j ∘ fun ω (p : T j) => Z p.1.1 p.1.2 ω := by
    intro j
    ext ω n
    rw [ouNoise_eq mu sigma theta dt x0 dims Z N n n.2 j ω, Finset.sum_range]
    rfl
  rw [e j, e k]
  exact h

/-- C260, in the long run: if `0 < theta dt < 2` the mean of the noise tends to `mu` and the variance to
`sigma² / (theta (2 - theta dt))`, whatever `x0`; for small `dt` this is close to the variance `sigma² / (2 theta)` of the process in continuous
time. -/
theorem C260_limit (mu sigma theta dt : ℝ) (h0 : 0 < theta * dt) (h2 : theta * dt < 2) (x : ℝ) :
    Tendsto (fun n : ℕ => mu + (1 - theta * dt) ^ (n + 1) * (x - mu)) atTop (𝓝 mu) ∧
    Tendsto (fun n : ℕ => ouVar sigma theta dt (n + 1)) atTop (𝓝 (sigma ^ 2 / (theta * (2 - theta * dt)))) ∧
    Tendsto (fun d : ℝ => sigma ^ 2 / (theta * (2 - theta * d))) (𝓝 0) (𝓝 (sigma ^ 2 / (2 * theta))) := by
  have hth : theta ≠ 0 := fun h => by rw [h, zero_mul] at h0; exact lt_irrefl _ h0
  have hdt : dt ≠ 0 := fun h => by rw [h, mul_zero] at h0; exact lt_irrefl _ h0
  have habs : |1 - theta * dt| < 1 := by rw [abs_lt]; constructor <;> linarith
  refine ⟨?_, ?_, ?_⟩
  · have h := ((tendsto_pow_atTop_nhds_zero_of_abs_lt_one habs).comp (tendsto_add_atTop_nat 1)).mul_const (x - mu)
    have h' := h.const_add mu
    simpa using h'
  · have hq : |(1 - theta * dt) ^ 2| < 1 := by
      rw [abs_pow]; exact pow_lt_one₀ (abs_nonneg _) habs two_ne_zero
    have hs := (hasSum_geometric_of_abs_lt_one hq).tendsto_sum_nat.comp (tendsto_add_atTop_nat 1)
    have := hs.const_mul (sigma ^ 2 * dt)
    have hne : (2 - theta * dt) ≠ 0 := by linarith
    have e : sigma ^ 2 * dt * (1 - (1 - theta * dt) ^ 2)⁻¹ = sigma ^ 2 / (theta * (2 - theta * dt)) := by
      rw [show 1 - (1 - theta * dt) ^ 2 = theta * dt * (2 - theta * dt) by ring]
      field_simp
    rw [e] at this
    exact this
  · have hc : ContinuousAt (fun d : ℝ => sigma ^ 2 / (theta * (2 - theta * d))) 0 := by
      apply ContinuousAt.div (by fun_prop) (by fun_prop)
      simpa using hth
    have := hc.tendsto
    simpa [mul_comm] using this

/-- Such random numbers exist, and so the theorems speak about something. -/
example : ∃ (Ω : Type) (_ : MeasurableSpace Ω) (P : Measure Ω) (Z : ℕ → Fin 2 → Ω → ℝ), IsProbabilityMeasure P ∧ Normals P Z := by
  refine ⟨ℕ × Fin 2 → ℝ, inferInstance, Measure.infinitePi fun _ => gaussianReal 0 1, fun i j ω => ω (i, j), inferInstance, ?_, ?_, ?_⟩
  · exact fun i j => measurable_pi_apply _
  · exact fun i j => ⟨(measurable_pi_apply _).aemeasurable, (measurePreserving_eval_infinitePi (fun _ => gaussianReal 0 1) (i, j)).map_eq⟩
  · exact iIndepFun_infinitePi (X := fun _ x => x) (fun _ => measurable_id)

/-- With the default parameters the standard deviation grows from 0.03 per step towards about 0.55, not 0.3. -/
example : ouVar 0.3 0.15 0.01 1 = 0.0009 ∧ (0.3 : ℝ) ^ 2 / (0.15 * (2 - 0.15 * 0.01)) > 0.54 ^ 2 := by
  constructor
  · norm_num [ouVar]
  · norm_num

end Verif.ActorCritic
