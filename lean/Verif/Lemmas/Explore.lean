import Verif.Spec.SampleDist
import Mathlib.MeasureTheory.Measure.Lebesgue.EqHaar
import Mathlib.Tactic.Linarith

/-! The largest of independent uniform random numbers is equally likely at every position. -/

namespace Verif.Spec

open MeasureTheory

variable {n : ℕ}

theorem units_eq : units n = volume.restrict (Set.univ.pi fun _ => Set.Ico (0 : ℝ) 1) := by
  unfold units unit
  rw [← Measure.restrict_pi_pi]
  rfl

theorem units_mem : ∀ᵐ r ∂(units n), ∀ j, 0 ≤ r j ∧ r j < 1 := by
  rw [units_eq]
  filter_upwards [ae_restrict_mem (MeasurableSet.univ_pi fun _ => measurableSet_Ico)] with r hr
  intro j
  exact hr j (Set.mem_univ j)

theorem units_ne (b c : Fin n) (h : b ≠ c) : units n {r | r b = r c} = 0 := by
  let S : Submodule ℝ (Fin n → ℝ) :=
    { carrier := {r | r b = r c}
      add_mem' := by intro x y hx hy; simp only [Set.mem_ofPred_eq, Pi.add_apply] at *; rw [hx, hy]
      zero_mem' := rfl
      smul_mem' := by intro k x hx; simp only [Set.mem_ofPred_eq, Pi.smul_apply] at *; rw [hx] }
  have hS : S ≠ ⊤ := by
    intro htop
    have : (Pi.single b 1 : Fin n → ℝ) ∈ S := by rw [htop]; trivial
    have h1 : (Pi.single b (1 : ℝ) : Fin n → ℝ) b = (Pi.single b (1 : ℝ) : Fin n → ℝ) c := this
    rw [Pi.single_eq_same, Pi.single_eq_of_ne (Ne.symm h)] at h1
    exact one_ne_zero h1
  have h0 : volume {r : Fin n → ℝ | r b = r c} = 0 := Measure.addHaar_submodule volume S hS
  rw [units_eq]
  exact le_antisymm ((Measure.restrict_apply_le _ _).trans h0.le) bot_le

theorem units_inj : ∀ᵐ r ∂(units n), ∀ b c, b ≠ c → r b ≠ r c := by
  rw [ae_all_iff]; intro b
  rw [ae_all_iff]; intro c
  by_cases h : b = c
  · exact Filter.Eventually.of_forall fun r hne => absurd h hne
  · have : ∀ᵐ r ∂(units n), r b ≠ r c := by
      rw [ae_iff]
      simpa using units_ne b c h
    filter_upwards [this] with r hr _
    exact hr

/-- The number at `a` is the largest of those in `L`. -/
def Wins (L : Finset (Fin n)) (a : Fin n) : Set (Fin n → ℝ) := {r | ∀ b ∈ L, b ≠ a → r b < r a}

theorem measurable_wins (L : Finset (Fin n)) (a : Fin n) : MeasurableSet (Wins L a) := by
  have : Wins L a = ⋂ b ∈ L, {r | b ≠ a → r b < r a} := by
    ext r; simp [Wins]
  rw [this]
  refine Finset.measurableSet_biInter L fun b _ => ?_
  by_cases h : b = a
  · simp [h]
  · simp only [ne_eq, h, not_false_eq_true, forall_const]
    exact measurableSet_lt (measurable_pi_apply b) (measurable_pi_apply a)

theorem wins_swap (L : Finset (Fin n)) (a b : Fin n) (ha : a ∈ L) (hb : b ∈ L) :
    units n (Wins L a) = units n (Wins L b) := by
  have hp := measurePreserving_piCongrLeft (fun _ : Fin n => unit) (Equiv.swap a b)
  have hpre : (MeasurableEquiv.piCongrLeft (fun _ : Fin n => ℝ) (Equiv.swap a b)) ⁻¹' (Wins L b) = Wins L a := by
    ext r
    have hval : ∀ j, (MeasurableEquiv.piCongrLeft (fun _ : Fin n => ℝ) (Equiv.swap a b)) r j = r (Equiv.swap a b j) := by
      intro j
      have := Equiv.piCongrLeft_apply_apply (fun _ : Fin n => ℝ) (Equiv.swap a b) r (Equiv.swap a b j)
      rw [Equiv.swap_apply_self] at this
      exact this
    simp only [Set.mem_preimage, Wins, Set.mem_ofPred_eq, hval, Equiv.swap_apply_right]
    constructor
    · intro h c hc hne
      have hmem : Equiv.swap a b c ∈ L := by
        rcases eq_or_ne c b with rfl | hcb
        · rwa [Equiv.swap_apply_right]
        · rwa [Equiv.swap_apply_of_ne_of_ne hne hcb]
      have := h (Equiv.swap a b c) hmem (by
        intro he
        apply hne
        have := congrArg (Equiv.swap a b) he
        rwa [Equiv.swap_apply_self, Equiv.swap_apply_right] at this)
      rwa [Equiv.swap_apply_self] at this
    · intro h c hc hne
      apply h
      · rcases eq_or_ne c a with rfl | hca
        · rwa [Equiv.swap_apply_left]
        · rwa [Equiv.swap_apply_of_ne_of_ne hca hne]
      · intro he
        apply hne
        have := congrArg (Equiv.swap a b) he
        rwa [Equiv.swap_apply_self, Equiv.swap_apply_left] at this
  have := hp.measure_preimage (measurable_wins L b).nullMeasurableSet
  rw [hpre] at this
  exact this

theorem wins_prob (L : Finset (Fin n)) (a : Fin n) (ha : a ∈ L) : units n (Wins L a) = 1 / (L.card : ENNReal) := by
  have hdisj : (L : Set (Fin n)).PairwiseDisjoint (Wins L) := by
    intro b hb c hc hne
    rw [Function.onFun, Set.disjoint_left]
    intro r h1 h2
    exact absurd ((h1 c hc (Ne.symm hne)).trans (h2 b hb hne)) (lt_irrefl _)
  have hsum : ∑ b ∈ L, units n (Wins L b) = 1 := by
    rw [← measure_biUnion_finset hdisj (fun b _ => measurable_wins L b)]
    have : ∀ᵐ r ∂(units n), r ∈ ⋃ b ∈ L, Wins L b := by
      filter_upwards [units_inj] with r hr
      obtain ⟨b, hb, hmax⟩ := L.exists_max_image (fun j => r j) ⟨a, ha⟩
      simp only [Set.mem_iUnion]
      exact ⟨b, hb, fun c hc hne => lt_of_le_of_ne (hmax c hc) (hr c b hne)⟩
    rw [measure_congr (t := Set.univ) (Filter.eventuallyEq_set.mpr (this.mono fun r hr => by simp [hr])), measure_univ]
  have hall : ∀ b ∈ L, units n (Wins L b) = units n (Wins L a) := fun b hb => wins_swap L b a hb ha
  rw [Finset.sum_congr rfl hall, Finset.sum_const, nsmul_eq_mul] at hsum
  have hc : (L.card : ENNReal) ≠ 0 := by
    have := Finset.card_pos.mpr ⟨a, ha⟩
    exact_mod_cast this.ne'
  rw [ENNReal.eq_div_iff hc (ENNReal.natCast_ne_top _)]
  exact hsum

/-- A choice that takes the winner whenever there is a clear one. -/
theorem wins_choice (L : Finset (Fin n)) (hne : L.Nonempty) (f : (Fin n → ℝ) → ℕ)
    (hf : ∀ r, (∀ j, 0 ≤ r j ∧ r j < 1) → ∀ a ∈ L, r ∈ Wins L a → f r = a) (a : Fin n) :
    {r | f r = a} =ᵐ[units n] (if a ∈ L then Wins L a else ∅ : Set (Fin n → ℝ)) := by
  rw [Filter.eventuallyEq_set]
  filter_upwards [units_inj, units_mem] with r hr hm
  obtain ⟨b, hb, hmax⟩ := L.exists_max_image (fun j => r j) hne
  have hw : r ∈ Wins L b := fun c hc hne => lt_of_le_of_ne (hmax c hc) (hr c b hne)
  have hfb := hf r hm b hb hw
  by_cases ha : a ∈ L
  · rw [if_pos ha, hfb]
    constructor
    · intro h
      have : b = a := Fin.ext h
      rwa [← this]
    · intro h
      rw [← hfb]
      exact hf r hm a ha h
  · rw [if_neg ha, hfb]
    simp only [Set.mem_empty_iff_false, iff_false]
    intro h
    have : b = a := Fin.ext h
    exact ha (this ▸ hb)

end Verif.Spec
