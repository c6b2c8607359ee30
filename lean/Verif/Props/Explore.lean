import Verif.Lemmas.Explore
import Verif.Model.Policy
import Verif.Model.Offline
import Verif.Lemmas.Policy
import Verif.Props.Offline
import Mathlib.MeasureTheory.Measure.Prod

/-! Property C229: probabilities of exploring actions. -/

set_option linter.unusedSectionVars false

namespace Verif.Policy

open Verif Verif.Spec MeasureTheory

theorem argmax_unique {K : Type} [Field K] [LinearOrder K] [IsStrictOrderedRing K] (l : List K) (a : Nat) (x : K) (ha : l[a]? = some x)
    (hlt : ∀ (b : Nat) (y : K), b ≠ a → l[b]? = some y → y < x) : argmax l = a := by
  obtain ⟨z, h1, h2, _⟩ := argmax_spec l (by rintro rfl; simp at ha)
  by_contra hne
  exact absurd (h2 a x ha) (not_le.mpr (hlt _ z hne h1))

theorem unit_below {eps : ℝ} (h1 : eps ≤ 1) : unit (Set.Iio eps) = ENNReal.ofReal eps := by
  unfold unit
  rw [Measure.restrict_apply measurableSet_Iio]
  have : Set.Iio eps ∩ Set.Ico 0 1 = Set.Ico 0 eps := by
    ext x
    simp only [Set.mem_inter_iff, Set.mem_Iio, Set.mem_Ico]
    constructor
    · rintro ⟨a, b, c⟩; exact ⟨b, a⟩
    · rintro ⟨a, b⟩; exact ⟨b, a, by linarith⟩
  rw [this, Real.volume_Ico, sub_zero]

theorem unit_above {eps : ℝ} (h0 : 0 ≤ eps) : unit (Set.Ici eps) = ENNReal.ofReal (1 - eps) := by
  unfold unit
  rw [Measure.restrict_apply measurableSet_Ici]
  have : Set.Ici eps ∩ Set.Ico 0 1 = Set.Ico eps 1 := by
    ext x
    simp only [Set.mem_inter_iff, Set.mem_Ici, Set.mem_Ico]
    constructor
    · rintro ⟨a, b, c⟩; exact ⟨a, c⟩
    · rintro ⟨a, b⟩; exact ⟨a, by linarith, b⟩
  rw [this, Real.volume_Ico]

variable {Ω : Type} [MeasurableSpace Ω] {P : Measure Ω} [IsProbabilityMeasure P]

/-- The random action is the allowed one with the largest random number. -/
theorem randAct_wins {n : ℕ} (mask : Option (List (List Bool))) (i : ℕ)
    (hrow : ∀ m, mask = some m → ∃ row, m[i]? = some row ∧ row.length = n) (legal : Finset (Fin n))
    (hlegal : ∀ j : Fin n, j ∈ legal ↔ Allowed mask i j) (rand : ℕ → ℝ) (hr : ∀ j : Fin n, 0 ≤ rand j ∧ rand j < 1)
    (a : Fin n) (ha : a ∈ legal) (hw : (fun j : Fin n => rand j) ∈ Wins legal a) :
    randAct ((List.range n).map rand) (mask.map fun m => m.getD i []) = a := by
  cases mask with
  | none =>
    simp only [randAct, Option.map_none]
    apply argmax_unique _ _ (rand a)
    · simp
    · intro b y hb hy
      rw [List.getElem?_map, Option.map_eq_some_iff] at hy
      obtain ⟨b', hb', rfl⟩ := hy
      obtain ⟨hlt, rfl⟩ := List.getElem?_eq_some_iff.mp hb'
      simp only [List.length_range] at hlt
      simp only [List.getElem_range]
      exact hw ⟨b, hlt⟩ ((hlegal _).mpr (by intro m hm; cases hm)) (by intro h; apply hb; rw [← h])
  | some m =>
    obtain ⟨row, hm, hlen⟩ := hrow m rfl
    have hD : m.getD i [] = row := by simp [List.getD_eq_getElem?_getD, hm]
    have hal : ∀ j : Fin n, j ∈ legal ↔ row[(j : ℕ)]? = some true := by
      intro j
      rw [hlegal]
      constructor
      · intro h
        obtain ⟨row', h1, h2⟩ := h m rfl
        rw [hm] at h1
        cases h1
        exact h2
      · intro h m' hm'
        cases hm'
        exact ⟨row, hm, h⟩
    simp only [randAct, Option.map_some, hD]
    have hget : ∀ j : Fin n, (List.zipWith (fun x (b : Bool) => x + if b then 1 else 0) ((List.range n).map rand) row)[(j : ℕ)]? =
        some (rand j + if j ∈ legal then 1 else 0) := by
      intro j
      have hj : (j : ℕ) < row.length := by rw [hlen]; exact j.2
      rw [List.getElem?_zipWith, List.getElem?_eq_getElem hj]
      have h2 := hal j
      rw [List.getElem?_eq_getElem hj, Option.some.injEq] at h2
      cases hv : row[(j : ℕ)] <;> simp_all
    apply argmax_unique _ _ (rand a + 1)
    · rw [hget a, if_pos ha]
    · intro b y hb hy
      have hblt : b < n := by
        have := (List.getElem?_eq_some_iff.mp hy).1
        simp at this
        omega
      have hgb := hget ⟨b, hblt⟩
      simp only at hgb
      rw [hgb, Option.some.injEq] at hy
      rw [← hy]
      by_cases hbl : (⟨b, hblt⟩ : Fin n) ∈ legal
      · rw [if_pos hbl]
        have := hw ⟨b, hblt⟩ hbl (by intro h; apply hb; rw [← h])
        simp only at this
        linarith
      · rw [if_neg hbl]
        have h1 := (hr ⟨b, hblt⟩).2
        have h2 := (hr a).1
        simp only at h1
        linarith

/-- **C229** after `exploration_noise` of a DQN policy the action in row `i` is each allowed action with probability
`eps / k` (`k` the number of allowed actions), the action chosen before with an additional probability `1 - eps`, and
nothing else. The hypothesis `hlaw` says that the random numbers used for row `i` are independent and uniform. -/
theorem C229_dqn (eps : ℝ) (h0 : 0 ≤ eps) (h1 : eps ≤ 1) (n : ℕ) (mask : Option (List (List Bool))) (act : List ℕ)
    (i g : ℕ) (hg : act[i]? = some g) (hrow : ∀ m, mask = some m → ∃ row, m[i]? = some row ∧ row.length = n)
    (legal : Finset (Fin n)) (hlegal : ∀ j : Fin n, j ∈ legal ↔ Allowed mask i j) (hne : legal.Nonempty)
    (u : ℕ → Ω → ℝ) (rand : ℕ → ℕ → Ω → ℝ) (hmeas : Measurable fun ω => (u i ω, fun j : Fin n => rand i j ω))
    (hlaw : P.map (fun ω => (u i ω, fun j : Fin n => rand i j ω)) = unit.prod (units n)) (a : Fin n) :
    P {ω | ∃ l, explorationNoise eps false (some n) (fun i => u i ω) (fun i j => rand i j ω) mask act = .ok l ∧
        l[i]? = some (a : ℕ)} =
      ENNReal.ofReal ((if a ∈ legal then eps / legal.card else 0) + if g = a then 1 - eps else 0) := by
  classical
  obtain ⟨W, hW⟩ : ∃ W : Set (Fin n → ℝ), W = if a ∈ legal then Wins legal a else ∅ := ⟨_, rfl⟩
  have hWm : MeasurableSet W := by
    rw [hW]; split
    · exact measurable_wins legal a
    · exact MeasurableSet.empty
  obtain ⟨G, hG⟩ : ∃ G : Set (Fin n → ℝ), G = if g = a then Set.univ else ∅ := ⟨_, rfl⟩
  have hGm : MeasurableSet G := by
    rw [hG]; split
    · exact MeasurableSet.univ
    · exact MeasurableSet.empty
  -- the random action of row `i`
  let f : (Fin n → ℝ) → ℕ := fun r =>
    randAct ((List.range n).map fun j => if h : j < n then r ⟨j, h⟩ else 0) (mask.map fun m => m.getD i [])
  have hfr : ∀ ω, f (fun j => rand i j ω) =
      randAct ((List.range n).map fun j => rand i j ω) (mask.map fun m => m.getD i []) := by
    intro ω
    have : ((List.range n).map fun j => if h : j < n then (fun j : Fin n => rand i j ω) ⟨j, h⟩ else 0) =
        (List.range n).map fun j => rand i j ω := by
      apply List.map_congr_left
      intro j hj
      rw [dif_pos (List.mem_range.mp hj)]
    simp only [f, this]
  have hf : ∀ r : Fin n → ℝ, (∀ j, 0 ≤ r j ∧ r j < 1) → ∀ a ∈ legal, r ∈ Wins legal a → f r = a := by
    intro r hr a ha hw
    apply randAct_wins mask i hrow legal hlegal
    · intro j; simpa using hr j
    · exact ha
    · simpa using hw
  have hae : ∀ᵐ ω ∂P, (f (fun j => rand i j ω) = a ↔ (fun j : Fin n => rand i j ω) ∈ W) := by
    have h2 : ∀ᵐ r ∂(units n), (f r = a ↔ r ∈ W) := by
      rw [hW]
      exact Filter.eventuallyEq_set.mp (wins_choice legal hne f hf a)
    have h3 : ∀ᵐ p ∂(unit.prod (units n)), (f p.2 = a ↔ p.2 ∈ W) := Measure.quasiMeasurePreserving_snd.ae h2
    rw [← hlaw] at h3
    exact ae_of_ae_map hmeas.aemeasurable h3
  have hset : {ω | ∃ l, explorationNoise eps false (some n) (fun i => u i ω) (fun i j => rand i j ω) mask act = .ok l ∧
        l[i]? = some (a : ℕ)} =ᵐ[P]
      (fun ω => (u i ω, fun j : Fin n => rand i j ω)) ⁻¹' (Set.Iio eps ×ˢ W ∪ Set.Ici eps ×ˢ G) := by
    rw [Filter.eventuallyEq_set]
    filter_upwards [hae] with ω hω
    rw [hfr] at hω
    have hrow : (∃ l, explorationNoise eps false (some n) (fun i => u i ω) (fun i j => rand i j ω) mask act = .ok l ∧
        l[i]? = some (a : ℕ)) ↔ (if u i ω < eps then
          randAct ((List.range n).map fun j => rand i j ω) (mask.map fun m => m.getD i []) else g) = a := by
      unfold explorationNoise
      simp only [Bool.false_eq_true, if_false, Except.ok.injEq, exists_eq_left']
      rw [List.getElem?_map, List.getElem?_zipIdx, hg]
      simp
    change (∃ l, _ ∧ _) ↔ _
    rw [hrow]
    simp only [Set.mem_preimage, Set.mem_union, Set.mem_prod, Set.mem_Iio, Set.mem_Ici]
    by_cases hu : u i ω < eps
    · rw [if_pos hu, hω]
      simp [hu, not_le.mpr hu]
    · rw [if_neg hu, hG]
      by_cases hga : g = a <;> simp [hu, not_lt.mp hu, hga]
  rw [measure_congr hset, ← Measure.map_apply hmeas
    ((measurableSet_Iio.prod hWm).union (measurableSet_Ici.prod hGm)), hlaw, measure_union _ (measurableSet_Ici.prod hGm),
    Measure.prod_prod, Measure.prod_prod, unit_below h1, unit_above h0]
  · have hWp : ENNReal.ofReal eps * units n W = ENNReal.ofReal (if a ∈ legal then eps / legal.card else 0) := by
      rw [hW]
      by_cases ha : a ∈ legal
      · have hc : (0 : ℝ) < legal.card := by exact_mod_cast Finset.card_pos.mpr hne
        rw [if_pos ha, if_pos ha, wins_prob legal a ha, ENNReal.ofReal_div_of_pos hc, ENNReal.ofReal_natCast, mul_one_div]
      · rw [if_neg ha, if_neg ha]; simp
    have hGp : ENNReal.ofReal (1 - eps) * units n G = ENNReal.ofReal (if g = a then 1 - eps else 0) := by
      rw [hG]
      by_cases ha : g = a
      · rw [if_pos ha, if_pos ha, measure_univ, mul_one]
      · rw [if_neg ha, if_neg ha]; simp
    rw [hWp, hGp, ← ENNReal.ofReal_add]
    · split
      · positivity
      · exact le_refl _
    · split
      · linarith
      · exact le_refl _
  · rw [Set.disjoint_left]
    rintro ⟨x, r⟩ hx hy
    have h1 : x < eps := hx.1
    have h2 : eps ≤ x := hy.1
    linarith

/-- **C229** `MARLRandomPolicy` takes each allowed action with the same probability. -/
theorem C229_random (mask : List Bool) (legal : Finset (Fin mask.length))
    (hlegal : ∀ j : Fin mask.length, j ∈ legal ↔ mask[j] = true) (hne : legal.Nonempty)
    (rand : ℕ → Ω → ℝ) (hmeas : Measurable fun ω => fun j : Fin mask.length => rand j ω)
    (hlaw : P.map (fun ω => fun j : Fin mask.length => rand j ω) = units mask.length) (a : Fin mask.length) :
    P {ω | Offline.randomAct mask ((List.range mask.length).map fun j => rand j ω) = a} =
      if a ∈ legal then 1 / (legal.card : ENNReal) else 0 := by
  classical
  let f : (Fin mask.length → ℝ) → ℕ := fun r =>
    Offline.randomAct mask ((List.range mask.length).map fun j => if h : j < mask.length then r ⟨j, h⟩ else 0)
  have hfr : ∀ ω, f (fun j => rand j ω) = Offline.randomAct mask ((List.range mask.length).map fun j => rand j ω) := by
    intro ω
    have : ((List.range mask.length).map fun j => if h : j < mask.length then (fun j : Fin mask.length => rand j ω) ⟨j, h⟩ else 0) =
        (List.range mask.length).map fun j => rand j ω := by
      apply List.map_congr_left
      intro j hj
      rw [dif_pos (List.mem_range.mp hj)]
    simp only [f, this]
  have hf : ∀ r : Fin mask.length → ℝ, (∀ j, 0 ≤ r j ∧ r j < 1) → ∀ a ∈ legal, r ∈ Wins legal a → f r = a := by
    intro r hr a ha hw
    have hget : ∀ j : Fin mask.length, (List.zipWith (fun m x => if m then (x : WithBot ℝ) else ⊥) mask
        ((List.range mask.length).map fun j => if h : j < mask.length then r ⟨j, h⟩ else 0))[(j : ℕ)]? =
        some (if j ∈ legal then ((r j : ℝ) : WithBot ℝ) else ⊥) := by
      intro j
      have h2 := hlegal j
      rw [List.getElem?_zipWith, List.getElem?_eq_getElem j.2]
      simp only [Fin.getElem_fin] at h2
      cases hv : mask[(j : ℕ)] <;> simp_all
    apply Offline.argmaxBot_unique _ _ ((r a : ℝ) : WithBot ℝ)
    · rw [hget a, if_pos ha]
    · intro b y hb hy
      have hblt : b < mask.length := by
        have := (List.getElem?_eq_some_iff.mp hy).1
        simp at this
        omega
      have hgb := hget ⟨b, hblt⟩
      simp only at hgb
      rw [hgb, Option.some.injEq] at hy
      rw [← hy]
      by_cases hbl : (⟨b, hblt⟩ : Fin mask.length) ∈ legal
      · rw [if_pos hbl]
        exact_mod_cast hw ⟨b, hblt⟩ hbl (by intro h; apply hb; rw [← h])
      · rw [if_neg hbl]
        exact WithBot.bot_lt_coe _
  have hae : ∀ᵐ ω ∂P, (f (fun j => rand j ω) = a ↔
      (fun j : Fin mask.length => rand j ω) ∈ (if a ∈ legal then Wins legal a else ∅ : Set (Fin mask.length → ℝ))) := by
    have h2 := Filter.eventuallyEq_set.mp (wins_choice legal hne f hf a)
    rw [← hlaw] at h2
    exact ae_of_ae_map hmeas.aemeasurable h2
  have hset : {ω | Offline.randomAct mask ((List.range mask.length).map fun j => rand j ω) = a} =ᵐ[P]
      (fun ω => fun j : Fin mask.length => rand j ω) ⁻¹' (if a ∈ legal then Wins legal a else ∅ : Set (Fin mask.length → ℝ)) := by
    rw [Filter.eventuallyEq_set]
    filter_upwards [hae] with ω hω
    rw [hfr] at hω
    exact hω
  rw [measure_congr hset]
  by_cases ha : a ∈ legal
  · rw [if_pos ha, if_pos ha, ← Measure.map_apply hmeas (measurable_wins legal a), hlaw, wins_prob legal a ha]
  · rw [if_neg ha, if_neg ha]
    simp

/-- The hypotheses can be met: three actions, the second not allowed, the third chosen before, `eps = 1/10`. -/
example : ∃ (Ω : Type) (_ : MeasurableSpace Ω) (P : Measure Ω) (u : ℕ → Ω → ℝ) (rand : ℕ → ℕ → Ω → ℝ),
    P {ω | ∃ l, explorationNoise (1 / 10) false (some 3) (fun i => u i ω) (fun i j => rand i j ω)
        (some [[true, false, true]]) [2] = .ok l ∧ l[0]? = some 2} = ENNReal.ofReal (19 / 20) := by
  refine ⟨ℝ × (Fin 3 → ℝ), inferInstance, unit.prod (units 3), fun _ ω => ω.1,
    fun _ j ω => if h : j < 3 then ω.2 ⟨j, h⟩ else 0, ?_⟩
  have hid : (fun ω : ℝ × (Fin 3 → ℝ) => (ω.1, fun j : Fin 3 => if h : (j : ℕ) < 3 then ω.2 ⟨j, h⟩ else 0)) = id := by
    funext ω
    simp
  have := C229_dqn (P := unit.prod (units 3)) (1 / 10) (by norm_num) (by norm_num) 3 (some [[true, false, true]]) [2] 0 2 rfl
    (by intro m hm; cases hm; exact ⟨_, rfl, rfl⟩) {0, 2} (by
      intro j
      unfold Allowed
      constructor
      · intro hj m hm
        cases hm
        refine ⟨_, rfl, ?_⟩
        fin_cases j <;> simp_all
      · intro h
        obtain ⟨row, h1, h2⟩ := h _ rfl
        cases h1
        fin_cases j <;> simp_all) ⟨0, by simp⟩
    (fun _ ω => ω.1) (fun _ j ω => if h : j < 3 then ω.2 ⟨j, h⟩ else 0) (by rw [hid]; exact measurable_id)
    (by rw [hid]; exact Measure.map_id) 2
  have hc : ({0, 2} : Finset (Fin 3)).card = 2 := by decide
  rw [hc] at this
  norm_num at this ⊢
  exact this

/-- Three actions, two of them allowed: each with probability 1/2. -/
example : units 3 {r | Offline.randomAct [true, false, true] ((List.range 3).map fun j => if h : j < 3 then r ⟨j, h⟩ else 0) = 2} =
    1 / 2 := by
  have hid : (fun r : Fin 3 → ℝ => fun j : Fin 3 => if h : (j : ℕ) < 3 then r ⟨j, h⟩ else 0) = id := by
    funext r
    simp
  have := C229_random (P := units 3) [true, false, true] {0, 2} (by intro j; fin_cases j <;> simp) ⟨0, by simp⟩
    (fun j r => if h : j < 3 then r ⟨j, h⟩ else 0) (by simp only [List.length_cons, List.length_nil]; rw [hid]; exact measurable_id)
    (by simp only [List.length_cons, List.length_nil]; rw [hid]; exact Measure.map_id) 2
  rw [if_pos (by decide)] at this
  have hc : ({0, 2} : Finset (Fin 3)).card = 2 := by decide
  simp only [List.length_cons, List.length_nil] at this
  erw [hc] at this
  exact_mod_cast this

end Verif.Policy
