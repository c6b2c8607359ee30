import Verif.Props.Explore
import Mathlib.Probability.Martingale.BorelCantelli
import Mathlib.Probability.ConditionalExpectation
import Mathlib.MeasureTheory.Function.ConditionalExpectation.Indicator
import Mathlib.Probability.Independence.InfinitePi
import Mathlib.Probability.ProductMeasure

/-! Property C249: exploration goes on. -/

set_option linter.unusedSectionVars false

namespace Verif.Policy

open Verif Verif.Spec MeasureTheory ProbabilityTheory Filter

variable {Ω : Type} [m0 : MeasurableSpace Ω] {P : Measure Ω} [IsProbabilityMeasure P]

/-- The random numbers which decide that row `i` explores with action `a`, whatever the mask. -/
def Chance (n : ℕ) (eps : ℝ) (a : Fin n) : Set (ℝ × (Fin n → ℝ)) :=
  {p | p.1 < eps ∧ p.2 ∈ Wins Finset.univ a ∧ ∀ j, 0 ≤ p.2 j ∧ p.2 j < 1}

theorem measurable_chance (n : ℕ) (eps : ℝ) (a : Fin n) : MeasurableSet (Chance n eps a) := by
  have h3 : MeasurableSet {r : Fin n → ℝ | ∀ j, 0 ≤ r j ∧ r j < 1} := by
    have : {r : Fin n → ℝ | ∀ j, 0 ≤ r j ∧ r j < 1} = Set.univ.pi fun _ => Set.Ico (0 : ℝ) 1 := by
      ext r; simp [Set.mem_pi]
    rw [this]
    exact MeasurableSet.univ_pi fun _ => measurableSet_Ico
  have : Chance n eps a = Set.Iio eps ×ˢ (Wins Finset.univ a ∩ {r : Fin n → ℝ | ∀ j, 0 ≤ r j ∧ r j < 1}) := by
    ext p; rfl
  rw [this]
  exact measurableSet_Iio.prod ((measurable_wins _ _).inter h3)

theorem chance_prob (n : ℕ) (eps : ℝ) (h1 : eps ≤ 1) (a : Fin n) :
    (unit.prod (units n)) (Chance n eps a) = ENNReal.ofReal eps * (1 / (n : ENNReal)) := by
  have hset : Chance n eps a =ᵐ[unit.prod (units n)] Set.Iio eps ×ˢ Wins Finset.univ a := by
    rw [eventuallyEq_set]
    have h3 : ∀ᵐ p ∂(unit.prod (units n)), ∀ j, 0 ≤ p.2 j ∧ p.2 j < 1 :=
      Measure.quasiMeasurePreserving_snd.ae units_mem
    filter_upwards [h3] with p hp
    constructor
    · intro h; exact ⟨h.1, h.2.1⟩
    · intro h; exact ⟨h.1, h.2, hp⟩
  rw [measure_congr hset, Measure.prod_prod, unit_below h1, wins_prob _ _ (Finset.mem_univ a)]
  simp

/-- With such numbers row `i` takes action `a`, if that is allowed. -/
theorem chance_act {n : ℕ} (eps : ℝ) (mask : Option (List (List Bool))) (act : List ℕ) (i : ℕ) (hi : i < act.length)
    (hrow : ∀ m, mask = some m → ∃ row, m[i]? = some row ∧ row.length = n) (a : Fin n) (ha : Allowed mask i a)
    (u : ℕ → ℝ) (rand : ℕ → ℕ → ℝ) (hc : (u i, fun j : Fin n => rand i j) ∈ Chance n eps a) :
    ∃ l, explorationNoise eps false (some n) u rand mask act = .ok l ∧ l[i]? = some (a : ℕ) := by
  classical
  obtain ⟨h1, h2, h3⟩ := hc
  have hw := randAct_wins mask i hrow (Finset.univ.filter fun j : Fin n => Allowed mask i j) (by intro j; simp)
    (rand i) h3 a (by simp [ha]) (fun b _ hb => h2 b (Finset.mem_univ b) hb)
  unfold explorationNoise
  simp only [Bool.false_eq_true, if_false, Except.ok.injEq, exists_eq_left']
  rw [List.getElem?_map, List.getElem?_zipIdx, List.getElem?_eq_getElem hi]
  simp only [Option.map_some, Nat.zero_add, Option.some.injEq]
  rw [if_pos h1, hw]

/-- Calls of `exploration_noise`, number `k = 0, 1, 2, ...`, each with any parameter `eps k` in `[0, 1]`. `ℱ k` is what has happened
before call `k`; the weights of the network, the observations and masks of call `k` are determined by it in any way whatever. In call
`k` we look at row `i k`. Of the random numbers `u` and `rand` of the call we know that they are uniform, and independent of what has
happened before. -/
structure Calls (P : Measure Ω) (n : ℕ) (ℱ : Filtration ℕ m0) (i : ℕ → ℕ) (u : ℕ → ℕ → Ω → ℝ) (rand : ℕ → ℕ → ℕ → Ω → ℝ) : Prop where
  meas : ∀ k, Measurable[ℱ (k + 1)] fun ω => (u k (i k) ω, fun j : Fin n => rand k (i k) j ω)
  law : ∀ k, P.map (fun ω => (u k (i k) ω, fun j : Fin n => rand k (i k) j ω)) = unit.prod (units n)
  indep : ∀ k, Indep (MeasurableSpace.comap (fun ω => (u k (i k) ω, fun j : Fin n => rand k (i k) j ω)) inferInstance) (ℱ k) P

/-- **C249** consider the calls of `exploration_noise` in which some observation is seen - `visit k` says that in call `k` it is -
and an action `a` which is allowed with that observation. If the values of `eps` in these calls add up to infinity, the action is
taken infinitely often, with probability one; this for values of `eps` which change from call to call (but do not count as zero). -/
theorem C249_sum {n : ℕ} (ℱ : Filtration ℕ m0) (i : ℕ → ℕ) (u : ℕ → ℕ → Ω → ℝ) (rand : ℕ → ℕ → ℕ → Ω → ℝ)
    (hcalls : Calls P n ℱ i u rand) (eps : ℕ → ℝ) (h0 : ∀ k, 0 ≤ eps k) (h1 : ∀ k, eps k ≤ 1)
    (mask : ℕ → Ω → Option (List (List Bool))) (act : ℕ → Ω → List ℕ) (a : Fin n)
    (visit : ℕ → Set Ω) (hvisit : ∀ k, MeasurableSet[ℱ k] (visit k))
    (hrow : ∀ k, ∀ ω ∈ visit k, i k < (act k ω).length ∧
      (∀ m, mask k ω = some m → ∃ row, m[i k]? = some row ∧ row.length = n) ∧ Allowed (mask k ω) (i k) a) :
    ∀ᵐ ω ∂P, Tendsto (fun N => ∑ k ∈ Finset.range N, (visit k).indicator (fun _ => eps k) ω) atTop atTop →
      ∃ᶠ k in atTop, ω ∈ visit k ∧ ∃ l, explorationNoise (eps k) false (some n) (fun r => u k r ω) (fun r j => rand k r j ω)
        (mask k ω) (act k ω) = .ok l ∧ l[i k]? = some (a : ℕ) := by
  classical
  have hn : 0 < n := a.pos
  let f : ℕ → Ω → ℝ × (Fin n → ℝ) := fun k ω => (u k (i k) ω, fun j : Fin n => rand k (i k) j ω)
  let E : ℕ → Set Ω := fun k => f k ⁻¹' Chance n (eps k) a
  let S : ℕ → Set Ω := fun k => match k with
    | 0 => ∅
    | k + 1 => visit k ∩ E k
  have hle : ∀ k, ℱ k ≤ m0 := ℱ.le
  have hfm : ∀ k, Measurable (f k) := fun k => (hcalls.meas k).mono (hle _) le_rfl
  have hEc : ∀ k, MeasurableSet[MeasurableSpace.comap (f k) inferInstance] (E k) :=
    fun k => ⟨_, measurable_chance n (eps k) a, rfl⟩
  have hEm : ∀ k, MeasurableSet (E k) := fun k => hfm k (measurable_chance n (eps k) a)
  have hS : ∀ k, MeasurableSet[ℱ k] (S k) := by
    intro k
    cases k with
    | zero => exact @MeasurableSet.empty _ (ℱ 0)
    | succ k =>
      exact @MeasurableSet.inter _ (ℱ (k + 1)) _ _ (ℱ.mono (Nat.le_succ k) _ (hvisit k)) (hcalls.meas k (measurable_chance n (eps k) a))
  have hP : ∀ k, P.real (E k) = eps k / n := by
    intro k
    have : P (E k) = ENNReal.ofReal (eps k) * (1 / (n : ENNReal)) := by
      rw [← chance_prob n (eps k) (h1 k) a, ← hcalls.law k, Measure.map_apply (hfm k) (measurable_chance n (eps k) a)]
    rw [Measure.real, this, ENNReal.toReal_mul, ENNReal.toReal_ofReal (h0 k)]
    simp [div_eq_mul_inv]
  have hcond : ∀ k, P[(S (k + 1)).indicator (1 : Ω → ℝ) | ℱ k] =ᵐ[P] (visit k).indicator fun _ => eps k / n := by
    intro k
    have hS1 : (S (k + 1)).indicator (1 : Ω → ℝ) = (visit k).indicator ((E k).indicator (1 : Ω → ℝ)) := by
      rw [Set.indicator_indicator]
    rw [hS1]
    have hint : Integrable ((E k).indicator (1 : Ω → ℝ)) P :=
      (integrable_const (1 : ℝ)).indicator (hEm k)
    refine (condExp_indicator hint (hvisit k)).trans ?_
    have hind : P[(E k).indicator (1 : Ω → ℝ) | ℱ k] =ᵐ[P] fun _ => P[(E k).indicator (1 : Ω → ℝ)] := by
      refine condExp_indep_eq (m₁ := MeasurableSpace.comap (f k) inferInstance) ?_ (hle k) ?_ (hcalls.indep k)
      · exact (hfm k).comap_le
      · exact (stronglyMeasurable_const (β := ℝ) (b := 1)).indicator (hEc k)
    filter_upwards [hind] with ω hω
    by_cases hv : ω ∈ visit k
    · rw [Set.indicator_of_mem hv, Set.indicator_of_mem hv, hω, integral_indicator_one (hEm k), hP]
    · rw [Set.indicator_of_notMem hv, Set.indicator_of_notMem hv]
  have hall : ∀ᵐ ω ∂P, ∀ k, (P[(S (k + 1)).indicator (1 : Ω → ℝ) | ℱ k]) ω = (visit k).indicator (fun _ => eps k / n) ω :=
    ae_all_iff.mpr hcond
  filter_upwards [ae_mem_limsup_atTop_iff P hS, hall] with ω hω hk hdiv
  have hlim : ω ∈ limsup S atTop := by
    rw [hω]
    have : (fun N => ∑ k ∈ Finset.range N, (P[(S (k + 1)).indicator (1 : Ω → ℝ) | ℱ k]) ω) =
        fun N => (∑ k ∈ Finset.range N, (visit k).indicator (fun _ => eps k) ω) / n := by
      funext N
      rw [Finset.sum_div]
      refine Finset.sum_congr rfl fun k _ => ?_
      rw [hk k]
      by_cases hv : ω ∈ visit k
      · rw [Set.indicator_of_mem hv, Set.indicator_of_mem hv]
      · rw [Set.indicator_of_notMem hv, Set.indicator_of_notMem hv, zero_div]
    rw [this]
    exact hdiv.atTop_div_const (by exact_mod_cast hn)
  rw [mem_limsup_iff_frequently_mem] at hlim
  rw [frequently_atTop] at hlim ⊢
  intro N
  obtain ⟨k, hkN, hkS⟩ := hlim (N + 1)
  cases k with
  | zero => omega
  | succ k =>
    obtain ⟨hv, hE⟩ := hkS
    obtain ⟨hi, hm, ha⟩ := hrow k ω hv
    exact ⟨k, by omega, hv, chance_act (eps k) (mask k ω) (act k ω) (i k) hi hm a ha (fun r => u k r ω)
      (fun r j => rand k r j ω) hE⟩

/-- **C249** as long as `eps` stays above some `c > 0`, every action that is allowed with an observation is, with probability one,
taken infinitely often if the observation is seen infinitely often. -/
theorem C249_often {n : ℕ} (ℱ : Filtration ℕ m0) (i : ℕ → ℕ) (u : ℕ → ℕ → Ω → ℝ) (rand : ℕ → ℕ → ℕ → Ω → ℝ)
    (hcalls : Calls P n ℱ i u rand) (eps : ℕ → ℝ) (c : ℝ) (hc : 0 < c) (h0 : ∀ k, c ≤ eps k) (h1 : ∀ k, eps k ≤ 1)
    (mask : ℕ → Ω → Option (List (List Bool))) (act : ℕ → Ω → List ℕ) (a : Fin n)
    (visit : ℕ → Set Ω) (hvisit : ∀ k, MeasurableSet[ℱ k] (visit k))
    (hrow : ∀ k, ∀ ω ∈ visit k, i k < (act k ω).length ∧
      (∀ m, mask k ω = some m → ∃ row, m[i k]? = some row ∧ row.length = n) ∧ Allowed (mask k ω) (i k) a) :
    ∀ᵐ ω ∂P, (∃ᶠ k in atTop, ω ∈ visit k) →
      ∃ᶠ k in atTop, ω ∈ visit k ∧ ∃ l, explorationNoise (eps k) false (some n) (fun r => u k r ω) (fun r j => rand k r j ω)
        (mask k ω) (act k ω) = .ok l ∧ l[i k]? = some (a : ℕ) := by
  classical
  filter_upwards [C249_sum ℱ i u rand hcalls eps (fun k => hc.le.trans (h0 k)) h1 mask act a visit hvisit hrow] with ω hω hfreq
  apply hω
  have h2 : Tendsto (fun N => ∑ k ∈ Finset.range N, (visit k).indicator (fun _ => c) ω) atTop atTop := by
    have := (Set.limsup_eq_tendsto_sum_indicator_atTop hc visit).subset (mem_limsup_iff_frequently_mem.mpr hfreq)
    exact this
  refine tendsto_atTop_mono (fun N => ?_) h2
  refine Finset.sum_le_sum fun k _ => ?_
  by_cases hv : ω ∈ visit k
  · rw [Set.indicator_of_mem hv, Set.indicator_of_mem hv]; exact h0 k
  · rw [Set.indicator_of_notMem hv, Set.indicator_of_notMem hv]

/-- **C249** if the values of `eps` have a finite sum, then with probability one all but finitely many calls leave the action of the
network as it is. -/
theorem C249_greedy {n : ℕ} (ℱ : Filtration ℕ m0) (i : ℕ → ℕ) (u : ℕ → ℕ → Ω → ℝ) (rand : ℕ → ℕ → ℕ → Ω → ℝ)
    (hcalls : Calls P n ℱ i u rand) (eps : ℕ → ℝ) (h0 : ∀ k, 0 ≤ eps k) (h1 : ∀ k, eps k ≤ 1) (hsum : Summable eps)
    (mask : ℕ → Ω → Option (List (List Bool))) (act : ℕ → Ω → List ℕ) (hi : ∀ k ω, i k < (act k ω).length) :
    ∀ᵐ ω ∂P, ∀ᶠ k in atTop, ∃ l, explorationNoise (eps k) false (some n) (fun r => u k r ω) (fun r j => rand k r j ω)
        (mask k ω) (act k ω) = .ok l ∧ l[i k]? = (act k ω)[i k]? := by
  have hset : ∀ k, P {ω | u k (i k) ω < eps k} = ENNReal.ofReal (eps k) := by
    intro k
    have hm : Measurable fun ω => (u k (i k) ω, fun j : Fin n => rand k (i k) j ω) := (hcalls.meas k).mono (ℱ.le _) le_rfl
    have hmeas : MeasurableSet ((Set.Iio (eps k)) ×ˢ (Set.univ : Set (Fin n → ℝ))) := measurableSet_Iio.prod MeasurableSet.univ
    have h2 : P.map (fun ω => (u k (i k) ω, fun j : Fin n => rand k (i k) j ω)) (Set.Iio (eps k) ×ˢ Set.univ) =
        ENNReal.ofReal (eps k) := by
      rw [hcalls.law k, Measure.prod_prod, unit_below (h1 k), measure_univ, mul_one]
    rw [Measure.map_apply hm hmeas] at h2
    rw [← h2]
    congr 1
    ext ω
    simp
  have hfin : ∑' k, P {ω | u k (i k) ω < eps k} ≠ ⊤ := by
    simp only [hset]
    rw [← ENNReal.ofReal_tsum_of_nonneg h0 hsum]
    exact ENNReal.ofReal_ne_top
  filter_upwards [ae_eventually_notMem hfin] with ω hω
  filter_upwards [hω] with k hk
  have hk' : ¬ u k (i k) ω < eps k := hk
  unfold explorationNoise
  simp only [Bool.false_eq_true, if_false, Except.ok.injEq, exists_eq_left']
  rw [List.getElem?_map, List.getElem?_zipIdx, List.getElem?_eq_getElem (hi k ω)]
  simp [hk']

/-- An endless run in an environment with finitely many states: in call `k` the state is `X k`, the action taken is `A k`, and then
the environment goes to state `y` with probability `p x a y`. What a reset after an episode does is part of `p`. `𝒢 k` is what has
happened when the action of call `k` has been chosen. In state `x` the actions with `legal x a` are allowed; row `i k` of the batch of
call `k` belongs to this environment. -/
structure Endless (P : Measure Ω) {X : Type} {n : ℕ} (p : X → Fin n → X → ℝ) (legal : X → Fin n → Prop) (ℱ 𝒢 : Filtration ℕ m0)
    (i : ℕ → ℕ) (u : ℕ → ℕ → Ω → ℝ) (rand : ℕ → ℕ → ℕ → Ω → ℝ) (eps : ℕ → ℝ) (mask : ℕ → Ω → Option (List (List Bool)))
    (act : ℕ → Ω → List ℕ) (state : ℕ → Ω → X) (A : ℕ → Ω → Fin n) : Prop where
  calls : Calls P n ℱ i u rand
  before : ∀ k, ℱ k ≤ 𝒢 k
  measState : ∀ k x, MeasurableSet[ℱ k] {ω | state k ω = x}
  measA : ∀ k a, MeasurableSet[𝒢 k] {ω | A k ω = a}
  row : ∀ k ω, i k < (act k ω).length ∧
    (∀ m, mask k ω = some m → ∃ row, m[i k]? = some row ∧ row.length = n) ∧
    ∀ a, legal (state k ω) a → Allowed (mask k ω) (i k) a
  action : ∀ k ω l, explorationNoise (eps k) false (some n) (fun r => u k r ω) (fun r j => rand k r j ω) (mask k ω) (act k ω) = .ok l →
    l[i k]? = some (A k ω : ℕ)
  step : ∀ k y, P[{ω | state (k + 1) ω = y}.indicator (1 : Ω → ℝ) | 𝒢 k] =ᵐ[P] fun ω => p (state k ω) (A k ω) y

/-- **C249** an environment with finitely many states, in which every state can be reached from every other one by allowed actions: with
`eps` above some `c > 0` every allowed action is taken in every state infinitely often, with probability one - whatever the network
says. -/
theorem C249_everywhere {X : Type} [Finite X] {n : ℕ} (p : X → Fin n → X → ℝ) (legal : X → Fin n → Prop)
    (hreach : ∀ x y, Relation.ReflTransGen (fun x y => ∃ a, legal x a ∧ 0 < p x a y) x y)
    (ℱ 𝒢 : Filtration ℕ m0) (i : ℕ → ℕ) (u : ℕ → ℕ → Ω → ℝ) (rand : ℕ → ℕ → ℕ → Ω → ℝ) (eps : ℕ → ℝ) (c : ℝ) (hc : 0 < c)
    (h0 : ∀ k, c ≤ eps k) (h1 : ∀ k, eps k ≤ 1) (mask : ℕ → Ω → Option (List (List Bool))) (act : ℕ → Ω → List ℕ)
    (state : ℕ → Ω → X) (A : ℕ → Ω → Fin n) (hrun : Endless P p legal ℱ 𝒢 i u rand eps mask act state A) :
    ∀ᵐ ω ∂P, ∀ x a, legal x a → ∃ᶠ k in atTop, state k ω = x ∧ A k ω = a := by
  classical
  have hact : ∀ᵐ ω ∂P, ∀ x a, legal x a → (∃ᶠ k in atTop, state k ω = x) → ∃ᶠ k in atTop, state k ω = x ∧ A k ω = a := by
    rw [ae_all_iff]; intro x
    rw [ae_all_iff]; intro a
    refine eventually_imp_distrib_left.mpr fun ha => ?_
    filter_upwards [C249_often ℱ i u rand hrun.calls eps c hc h0 h1 mask act a (fun k => {ω | state k ω = x}) (fun k => hrun.measState k x)
      (by
        intro k ω hω
        obtain ⟨r1, r2, r3⟩ := hrun.row k ω
        exact ⟨r1, r2, r3 a (by rw [show state k ω = x from hω]; exact ha)⟩)] with ω hω hfreq
    refine (hω hfreq).mono ?_
    rintro k ⟨hk, l, hl, hla⟩
    refine ⟨hk, ?_⟩
    have := hrun.action k ω l hl
    rw [hla, Option.some.injEq] at this
    exact (Fin.ext this).symm
  have hstep : ∀ᵐ ω ∂P, ∀ x a y, 0 < p x a y → (∃ᶠ k in atTop, state k ω = x ∧ A k ω = a) → ∃ᶠ k in atTop, state k ω = y := by
    rw [ae_all_iff]; intro x
    rw [ae_all_iff]; intro a
    rw [ae_all_iff]; intro y
    refine eventually_imp_distrib_left.mpr fun hp => ?_
    let V : ℕ → Set Ω := fun k => {ω | state k ω = x ∧ A k ω = a}
    have hV : ∀ k, MeasurableSet[𝒢 k] (V k) := fun k =>
      @MeasurableSet.inter _ (𝒢 k) _ _ (hrun.before k _ (hrun.measState k x)) (hrun.measA k a)
    let S : ℕ → Set Ω := fun k => match k with
      | 0 => ∅
      | k + 1 => V k ∩ {ω | state (k + 1) ω = y}
    have hS : ∀ k, MeasurableSet[𝒢 k] (S k) := by
      intro k
      cases k with
      | zero => exact @MeasurableSet.empty _ (𝒢 0)
      | succ k =>
        exact @MeasurableSet.inter _ (𝒢 (k + 1)) _ _ (𝒢.mono (Nat.le_succ k) _ (hV k))
          (hrun.before (k + 1) _ (hrun.measState (k + 1) y))
    have hcond : ∀ k, P[(S (k + 1)).indicator (1 : Ω → ℝ) | 𝒢 k] =ᵐ[P] (V k).indicator fun _ => p x a y := by
      intro k
      have hm : MeasurableSet {ω | state (k + 1) ω = y} := ℱ.le (k + 1) _ (hrun.measState (k + 1) y)
      have hS1 : (S (k + 1)).indicator (1 : Ω → ℝ) = (V k).indicator ({ω | state (k + 1) ω = y}.indicator (1 : Ω → ℝ)) := by
        rw [Set.indicator_indicator]
      rw [hS1]
      have hint : Integrable ({ω | state (k + 1) ω = y}.indicator (1 : Ω → ℝ)) P := (integrable_const (1 : ℝ)).indicator hm
      refine (condExp_indicator hint (hV k)).trans ?_
      filter_upwards [hrun.step k y] with ω hω
      by_cases hv : ω ∈ V k
      · rw [Set.indicator_of_mem hv, Set.indicator_of_mem hv, hω, hv.1, hv.2]
      · rw [Set.indicator_of_notMem hv, Set.indicator_of_notMem hv]
    have hall : ∀ᵐ ω ∂P, ∀ k, (P[(S (k + 1)).indicator (1 : Ω → ℝ) | 𝒢 k]) ω = (V k).indicator (fun _ => p x a y) ω :=
      ae_all_iff.mpr hcond
    filter_upwards [ae_mem_limsup_atTop_iff P hS, hall] with ω hω hk hfreq
    have hlim : ω ∈ limsup S atTop := by
      rw [hω]
      simp only [hk]
      exact (Set.limsup_eq_tendsto_sum_indicator_atTop hp V).subset (mem_limsup_iff_frequently_mem.mpr hfreq)
    rw [mem_limsup_iff_frequently_mem] at hlim
    refine hlim.mono ?_
    intro k hk
    cases k with
    | zero => exact hk.elim
    | succ k => exact hk.2
  filter_upwards [hact, hstep] with ω h2 h3
  have hall : ∀ x, ∃ᶠ k in atTop, state k ω = x := by
    obtain ⟨x, hx⟩ : ∃ x, ∃ᶠ k in atTop, state k ω = x := by
      by_contra hno
      have hev : ∀ x, ∀ᶠ k in atTop, ¬ state k ω = x := fun x => not_frequently.mp fun h => hno ⟨x, h⟩
      obtain ⟨k, hk⟩ := (eventually_all.mpr hev).exists
      exact hk _ rfl
    intro y
    induction hreach x y with
    | refl => exact hx
    | tail _ hyz ih =>
      obtain ⟨a, ha, hp⟩ := hyz
      exact h3 _ a _ hp (h2 _ a ha ih)
  intro x a ha
  exact h2 x a ha (hall x)

/-! The hypotheses can be met: independent draws of random numbers. -/

/-- What the first `k` draws determine. -/
def past (B : Type) [MeasurableSpace B] : Filtration ℕ (inferInstance : MeasurableSpace (ℕ → B)) where
  seq k := ⨆ j ∈ Set.Iio k, MeasurableSpace.comap (fun ω : ℕ → B => ω j) inferInstance
  mono' := by
    intro k l hkl
    exact biSup_mono fun j hj => lt_of_lt_of_le hj hkl
  le' := by
    intro k
    exact iSup₂_le fun j _ => (measurable_pi_apply j).comap_le

theorem past_meas {B : Type} [MeasurableSpace B] (j k : ℕ) (h : j < k) : Measurable[past B k] fun ω : ℕ → B => ω j := by
  rw [measurable_iff_comap_le]
  exact le_biSup (fun j => MeasurableSpace.comap (fun ω : ℕ → B => ω j) inferInstance) h

theorem past_indep {B : Type} [MeasurableSpace B] (μ : Measure B) [IsProbabilityMeasure μ] (k : ℕ) :
    Indep (MeasurableSpace.comap (fun ω : ℕ → B => ω k) inferInstance) (past B k) (Measure.infinitePi fun _ => μ) := by
  have h := iIndepFun_infinitePi (P := fun _ : ℕ => μ) (X := fun _ x => x) fun _ => measurable_id
  have h2 := indep_iSup_of_disjoint (S := {k}) (T := Set.Iio k) (fun j => (measurable_pi_apply j).comap_le) h (by simp)
  simpa [past] using h2

/-- Draws of the numbers for a single row and `n` actions. -/
theorem calls_pi (n : ℕ) : Calls (Measure.infinitePi fun _ : ℕ => unit.prod (units n)) n (past (ℝ × (Fin n → ℝ))) (fun _ => 0)
    (fun k _ ω => (ω k).1) (fun k _ j ω => if h : j < n then (ω k).2 ⟨j, h⟩ else 0) := by
  have hf : ∀ k, (fun ω : ℕ → ℝ × (Fin n → ℝ) => ((ω k).1, fun j : Fin n => if h : (j : ℕ) < n then (ω k).2 ⟨j, h⟩ else 0)) =
      fun ω => ω k := by
    intro k; funext ω; simp
  refine ⟨?_, ?_, ?_⟩
  · intro k
    rw [hf]
    exact past_meas k (k + 1) (Nat.lt_succ_self k)
  · intro k
    rw [hf]
    exact Measure.infinitePi_map_eval _ k
  · intro k
    rw [hf]
    exact past_indep _ k

/-- Three actions, of which the second is masked, and a network which always prefers the first: the third is taken infinitely often in
the even calls. -/
example : ∀ᵐ ω ∂(Measure.infinitePi fun _ : ℕ => unit.prod (units 3)), ∃ᶠ k in atTop, k % 2 = 0 ∧
    ∃ l, explorationNoise (1 / 10) false (some 3) (fun _ => (ω k).1) (fun _ j => if h : j < 3 then (ω k).2 ⟨j, h⟩ else 0)
      (some [[true, false, true]]) [0] = .ok l ∧ l[0]? = some 2 := by
  have h := C249_often (past _) (fun _ => 0) _ _ (calls_pi 3) (fun _ => 1 / 10) (1 / 10) (by norm_num) (fun _ => le_refl _)
    (fun _ => by norm_num) (fun _ _ => some [[true, false, true]]) (fun _ _ => [0]) 2 (fun k => {_ω | k % 2 = 0})
    (fun k => by
      by_cases hk : k % 2 = 0
      · simp [hk]
      · simp [hk])
    (by
      intro k ω _
      refine ⟨by simp, ?_, ?_⟩
      · intro m hm; cases hm; exact ⟨_, rfl, rfl⟩
      · intro m hm; cases hm; exact ⟨_, rfl, rfl⟩)
  filter_upwards [h] with ω hω
  exact hω (Nat.frequently_even.mono fun k hk => Nat.even_iff.mp hk)

/-- The action of row 0 in call `k`, without a mask. -/
noncomputable def pick (x : ℝ × (Fin 2 → ℝ)) : Fin 2 :=
  if x.1 < 1 / 10 then (if x.2 0 < x.2 1 then 1 else 0) else 0

/-- Two states, of which the environment enters the one named by the action; the network always says 0. Still both actions are taken in
both states infinitely often. -/
example : ∀ᵐ ω ∂(Measure.infinitePi fun _ : ℕ => unit.prod (units 2)), ∀ x a : Fin 2,
    ∃ᶠ k in atTop, (match k with | 0 => 0 | k + 1 => pick (ω k)) = x ∧ pick (ω k) = a := by
  have hp : Measurable pick := by
    unfold pick
    refine Measurable.ite (measurableSet_lt measurable_fst measurable_const) (Measurable.ite ?_ measurable_const measurable_const)
      measurable_const
    exact measurableSet_lt ((measurable_pi_apply 0).comp measurable_snd) ((measurable_pi_apply 1).comp measurable_snd)
  have hpk : ∀ j k, j < k → ∀ a : Fin 2, MeasurableSet[past (ℝ × (Fin 2 → ℝ)) k] {ω | pick (ω j) = a} := by
    intro j k hjk a
    exact past_meas j k hjk (hp (measurableSet_singleton a))
  let 𝒢 : Filtration ℕ (inferInstance : MeasurableSpace (ℕ → ℝ × (Fin 2 → ℝ))) :=
    ⟨fun k => past (ℝ × (Fin 2 → ℝ)) (k + 1), fun k l h => (past (ℝ × (Fin 2 → ℝ))).mono (Nat.succ_le_succ h),
      fun k => (past (ℝ × (Fin 2 → ℝ))).le _⟩
  have h := C249_everywhere (P := Measure.infinitePi fun _ : ℕ => unit.prod (units 2)) (X := Fin 2) (n := 2)
    (fun _ a y => if y = a then 1 else 0) (fun _ _ => True)
    (fun x y => Relation.ReflTransGen.single ⟨y, trivial, by simp⟩)
    (past (ℝ × (Fin 2 → ℝ))) 𝒢 (fun _ => 0) _ _ (fun _ => 1 / 10) (1 / 10) (by norm_num) (fun _ => le_refl _)
    (fun _ => by norm_num) (fun _ _ => none) (fun _ _ => [0]) (fun k ω => match k with | 0 => 0 | k + 1 => pick (ω k))
    (fun k ω => pick (ω k))
    { calls := calls_pi 2
      before := fun k => (past (ℝ × (Fin 2 → ℝ))).mono (Nat.le_succ k)
      measState := by
        intro k x
        cases k with
        | zero => exact @MeasurableSet.const _ (past (ℝ × (Fin 2 → ℝ)) 0) ((0 : Fin 2) = x)
        | succ k => exact hpk k (k + 1) (Nat.lt_succ_self k) x
      measA := fun k a => hpk k (k + 1) (Nat.lt_succ_self k) a
      row := by
        intro k ω
        refine ⟨by simp, ?_, ?_⟩
        · intro m hm; cases hm
        · intro a _ m hm; cases hm
      action := by
        intro k ω l hl
        simp [explorationNoise] at hl
        subst hl
        by_cases h1 : (ω k).1 < 10⁻¹
        · by_cases h2 : (ω k).2 0 < (ω k).2 1
          · simp [pick, List.range_succ, randAct, argmax, h1, h2]
          · simp [pick, List.range_succ, randAct, argmax, h1, h2]
        · simp [pick, h1]
      step := by
        intro k y
        have hm : StronglyMeasurable[𝒢 k] ({ω : ℕ → ℝ × (Fin 2 → ℝ) | pick (ω k) = y}.indicator (1 : (ℕ → ℝ × (Fin 2 → ℝ)) → ℝ)) :=
          (stronglyMeasurable_const (β := ℝ) (b := 1)).indicator (hpk k (k + 1) (Nat.lt_succ_self k) y)
        show (Measure.infinitePi fun _ : ℕ => unit.prod (units 2))[{ω : ℕ → ℝ × (Fin 2 → ℝ) | pick (ω k) = y}.indicator 1 | 𝒢 k] =ᵐ[_] _
        rw [condExp_of_stronglyMeasurable (𝒢.le k) hm]
        · refine Eventually.of_forall fun ω => ?_
          by_cases hy : pick (ω k) = y
          · rw [Set.indicator_of_mem (by exact hy)]; simp [hy]
          · rw [Set.indicator_of_notMem (by exact hy)]; simp [Ne.symm hy]
        · exact (integrable_const (1 : ℝ)).indicator (𝒢.le k _ (hpk k (k + 1) (Nat.lt_succ_self k) y)) }
  filter_upwards [h] with ω hω x a
  exact hω x a trivial

end Verif.Policy
