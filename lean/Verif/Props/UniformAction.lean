import Verif.Model.UniformAction
import Mathlib.MeasureTheory.Measure.Lebesgue.Basic
import Mathlib.MeasureTheory.Constructions.Pi
import Mathlib.Probability.ConditionalProbability

/-!
C268: `create_uniform_action_dist` is uniform on the action space.
-/

namespace Verif.UniformAction

open MeasureTheory ProbabilityTheory

/-! ### Specification -/

/-- `batchSize` times `m` independent random numbers between 0 and 1. -/
noncomputable def unitNumbers (b m : Nat) : Measure (Fin b → Fin m → ℝ) := Measure.pi fun _ => Measure.pi fun _ => volume[|Set.Icc 0 1]

/-- Independent rows of independent entries, each uniformly distributed between its bounds. -/
noncomputable def uniformRows (b : Nat) {m : Nat} (low high : Fin m → ℝ) : Measure (Fin b → Fin m → ℝ) :=
  Measure.pi fun _ => Measure.pi fun j => volume[|Set.Icc (low j) (high j)]

/-- A matrix as a list of rows. -/
def rows {X : Type} {b m : Nat} (x : Fin b → Fin m → X) : List (List X) := List.ofFn fun i => List.ofFn (x i)

/-- The elements of `Discrete(n, start=start)`. -/
def elements (n : Nat) (start : Int) : Set Int := {k | start ≤ k ∧ k < start + n}

/-! ### Box -/

theorem uniform_prob (a b : ℝ) (h : a < b) : IsProbabilityMeasure (volume[|Set.Icc a b]) := by
  refine cond_isProbabilityMeasure_of_finite ?_ ?_
  · rw [Real.volume_Icc]
    simpa using h
  · rw [Real.volume_Icc]
    exact ENNReal.ofReal_ne_top

/-- Scaling a uniform number. -/
theorem map_uniform (a b : ℝ) (h : a < b) : Measure.map (fun u => a + u * (b - a)) (volume[|Set.Icc 0 1]) = volume[|Set.Icc a b] := by
  have hc : 0 < b - a := sub_pos.mpr h
  have hm : Measurable fun u : ℝ => a + u * (b - a) := by fun_prop
  ext t ht
  rw [Measure.map_apply hm ht, cond_apply measurableSet_Icc, cond_apply measurableSet_Icc, Real.volume_Icc, Real.volume_Icc, sub_zero, ENNReal.ofReal_one, inv_one, one_mul]
  have hpre : Set.Icc (0 : ℝ) 1 ∩ (fun u => a + u * (b - a)) ⁻¹' t = (fun u => u * (b - a)) ⁻¹' ((fun u => a + u) ⁻¹' (Set.Icc a b ∩ t)) := by
    ext u
    simp only [Set.mem_inter_iff, Set.mem_Icc, Set.mem_preimage]
    constructor
    · rintro ⟨⟨h0, h1⟩, h2⟩
      exact ⟨⟨by nlinarith, by nlinarith⟩, h2⟩
    · rintro ⟨⟨h0, h1⟩, h2⟩
      refine ⟨⟨?_, ?_⟩, h2⟩
      · by_contra hn
        nlinarith [not_le.mp hn]
      · by_contra hn
        nlinarith [not_le.mp hn]
  rw [hpre, Real.volume_preimage_mul_right hc.ne', measure_preimage_add, abs_of_pos (inv_pos.mpr hc), ENNReal.ofReal_inv_of_pos hc]

theorem zipWith_ofFn {X Y Z : Type} (f : X → Y → Z) {n : Nat} (a : Fin n → X) (b : Fin n → Y) :
    List.zipWith f (List.ofFn a) (List.ofFn b) = List.ofFn fun i => f (a i) (b i) := by
  apply List.ext_getElem <;> simp

/-- **C268, partial** (a `Box` with one dimension and finite bounds in order): samples of any size are distributed like independent uniform actions. -/
theorem C268_box_partial (b m : Nat) (low high : Fin m → ℝ) (h : ∀ j, low j < high j) :
    ∃ (lows highs : List (List EReal)) (act : (Fin b → Fin m → ℝ) → Fin b → Fin m → ℝ),
      createUniform (.box [m] (List.ofFn fun j => (low j : EReal)) (List.ofFn fun j => (high j : EReal))) b = .ok (.uniform lows highs) ∧
      (∀ u, sampleUniform lows highs (rows u) = rows fun i j => some (act u i j)) ∧ Measure.map act (unitNumbers b m) = uniformRows b low high := by
  refine ⟨List.replicate b (List.ofFn fun j => (low j : EReal)), List.replicate b (List.ofFn fun j => (high j : EReal)), fun u i j => low j + u i j * (high j - low j), ?_, ?_, ?_⟩
  · have h1 : ∀ p ∈ List.zip (List.ofFn fun j => (low j : EReal)) (List.ofFn fun j => (high j : EReal)), p.1 < p.2 := by
      intro p hp
      rw [List.zip, zipWith_ofFn, List.mem_ofFn] at hp
      obtain ⟨j, rfl⟩ := hp
      exact EReal.coe_lt_coe_iff.mpr (h j)
    simp only [createUniform, List.length_singleton]
    rw [if_neg (by norm_num), if_pos (.inr h1)]
  · intro u
    unfold sampleUniform rows
    simp only [← List.ofFn_const, List.zip, zipWith_ofFn]
    simp [entry]
  · unfold unitNumbers uniformRows
    have h0 : ∀ j, IsProbabilityMeasure (volume[|Set.Icc (low j) (high j)]) := fun j => uniform_prob _ _ (h j)
    have h01 : IsProbabilityMeasure (volume[|Set.Icc (0 : ℝ) 1]) := uniform_prob 0 1 one_pos
    have hrow : Measure.map (fun (u : Fin m → ℝ) j => low j + u j * (high j - low j)) (Measure.pi fun _ => volume[|Set.Icc (0 : ℝ) 1]) =
        Measure.pi fun j => volume[|Set.Icc (low j) (high j)] := by
      have := Measure.pi_map_pi (μ := fun _ : Fin m => volume[|Set.Icc (0 : ℝ) 1]) (f := fun j (x : ℝ) => low j + x * (high j - low j)) (hμ := fun j => by
        rw [map_uniform _ _ (h j)]; infer_instance) (fun j => by fun_prop)
      simp only [map_uniform _ _ (h _)] at this
      exact this
    have := Measure.pi_map_pi (μ := fun _ : Fin b => Measure.pi fun _ : Fin m => volume[|Set.Icc (0 : ℝ) 1])
      (f := fun _ (u : Fin m → ℝ) j => low j + u j * (high j - low j)) (hμ := fun i => by
        rw [hrow]; infer_instance) (fun i => Measurable.aemeasurable (measurable_pi_lambda _ fun j => by fun_prop))
    simp only [hrow] at this
    exact this

/-! ### Discrete -/

/-- **C268, partial** (`start = 0`): every row of a `Discrete` is each element of the space with the same probability. -/
theorem C268_discrete_partial (b n : Nat) :
    ∃ weights, createUniform (.discrete n 0) b = .ok (.categorical weights) ∧ weights.length = b ∧
      ∀ w ∈ weights, ∀ k, (k ∈ elements n 0 → chance w k = 1 / n) ∧ (k ∉ elements n 0 → chance w k = 0) := by
  refine ⟨_, rfl, by simp, fun w hw k => ?_⟩
  have hw := List.eq_of_mem_replicate hw
  subst hw
  have hs : (List.replicate n (1 : ℝ)).sum = n := by simp
  constructor
  · rintro ⟨h0, h1⟩
    have : k.toNat < n := by omega
    rw [chance, if_pos h0, hs]
    simp [List.getD_eq_getElem?_getD, this]
  · intro hk
    unfold chance
    split
    · rename_i h0
      have : ¬ k.toNat < n := fun h => hk ⟨h0, by omega⟩
      simp [List.getD_eq_getElem?_getD, this]
    · rfl

/-- **C268** other spaces are refused. -/
theorem C268_other (b : Nat) : createUniform .other b = .error .value := rfl

/-! ### Where it is not true -/

/-- **C268, violated** for a `Discrete` that does not start with 0: numbers outside of the space are drawn, and elements of the space are not. -/
theorem C268_violated_start (b n : Nat) (hn : 0 < n) (start : Int) (hs : start ≠ 0) :
    ∃ weights, createUniform (.discrete n start) b = .ok (.categorical weights) ∧ weights.length = b ∧
      ∀ w ∈ weights, (∃ k ∉ elements n start, 0 < chance w k) ∧ ∃ k ∈ elements n start, chance w k = 0 := by
  obtain ⟨weights, h1, h2, h3⟩ := C268_discrete_partial b n
  refine ⟨weights, h1, h2, fun w hw => ?_⟩
  have hpos : (0 : ℝ) < 1 / n := by positivity
  have hin : ∀ k, k ∈ elements n 0 → 0 < chance w k := fun k hk => by rw [(h3 w hw k).1 hk]; exact hpos
  rcases lt_or_gt_of_ne hs with h | h
  · refine ⟨⟨n - 1, ?_, hin _ ⟨by omega, by omega⟩⟩, start, ⟨le_rfl, by omega⟩, (h3 w hw start).2 ?_⟩
    · rintro ⟨_, h5⟩
      omega
    · rintro ⟨h4, _⟩
      omega
  · refine ⟨⟨0, ?_, hin _ ⟨by omega, by omega⟩⟩, start + n - 1, ⟨by omega, by omega⟩, (h3 w hw _).2 ?_⟩
    · rintro ⟨h4, _⟩
      omega
    · rintro ⟨_, h5⟩
      omega

/-- **C268, violated** for a `Box` with two or more dimensions: refused. -/
theorem C268_violated_shape (shape : List Nat) (hshape : 2 ≤ shape.length) (low high : List EReal) (b : Nat) :
    createUniform (.box shape low high) b = .error .runtime := by
  simp only [createUniform]
  rw [if_pos (by omega)]

/-- **C268, violated** for a `Box` in which some entry can take one value only: refused. -/
theorem C268_violated_point (b m : Nat) (hb : 0 < b) (low high : Fin m → ℝ) (j : Fin m) (hj : low j = high j) :
    createUniform (.box [m] (List.ofFn fun j => (low j : EReal)) (List.ofFn fun j => (high j : EReal))) b = .error .value := by
  simp only [createUniform, List.length_singleton]
  rw [if_neg (by norm_num), if_neg ?_]
  rintro (h | h)
  · omega
  · have := h ((low j : EReal), (high j : EReal)) (by
      rw [List.zip, zipWith_ofFn, List.mem_ofFn]
      exact ⟨j, rfl⟩)
    simp [hj] at this

/-- **C268, violated** for a `Box` without bounds, which is accepted: none of the samples is a number. -/
theorem C268_violated_unbounded (b m : Nat) : ∃ lows highs,
    createUniform (.box [m] (List.replicate m ⊥) (List.replicate m ⊤)) b = .ok (.uniform lows highs) ∧
      ∀ u : Fin b → Fin m → ℝ, sampleUniform lows highs (rows u) = rows fun (_ : Fin b) (_ : Fin m) => none := by
  refine ⟨List.replicate b (List.replicate m ⊥), List.replicate b (List.replicate m ⊤), ?_, ?_⟩
  · have h : ∀ p ∈ List.zip (List.replicate m (⊥ : EReal)) (List.replicate m ⊤), p.1 < p.2 := by
      intro p hp
      rw [List.zip_replicate', List.mem_replicate] at hp
      rw [hp.2]
      exact bot_lt_top
    simp only [createUniform, List.length_singleton]
    rw [if_neg (by norm_num), if_pos (.inr h)]
  · intro u
    unfold sampleUniform rows
    simp only [← List.ofFn_const, List.zip, zipWith_ofFn]
    simp [entry]

/-- Two rows of three entries between different bounds meet the hypothesis of `C268_box_partial`. -/
example : ∀ j : Fin 3, (![-1, 0, 2] : Fin 3 → ℝ) j < (![1, 5, 3] : Fin 3 → ℝ) j := by
  intro j
  fin_cases j <;> norm_num

/-- `Discrete(5)`: a fifth for 3. -/
example : chance (List.replicate 5 1) 3 = 1 / 5 := by norm_num [chance]

/-- `Discrete(3, start=-1)` as a case of `C268_violated_start`: 2 is drawn, which is not among -1, 0, 1. -/
example : (2 : Int) ∉ elements 3 (-1) ∧ 0 < chance (List.replicate 3 1) 2 := by
  constructor
  · rintro ⟨_, h⟩
    omega
  · norm_num [chance]

end Verif.UniformAction
