import Verif.Model.Rainbow
import Verif.Spec.SampleDist
import Mathlib.Probability.Independence.Basic
import Mathlib.Probability.Independence.InfinitePi
import Mathlib.Tactic.Ring
import Mathlib.Tactic.NormNum

/-! Property C231: independent noise for the online and the target network of Rainbow. -/

namespace Verif.Rainbow

open MeasureTheory ProbabilityTheory

section exact

variable {P E : Type} {m : Nat}

/-- Constants of a run: `freq` never changes, the counters count. -/
theorem after_counts (params : P) (noise : Fin m → E) (freq : Nat) (hf : 0 < freq) (eps : Nat → E)
    (step : Nat → Pol P E m → P) (t : Nat) :
    ((Pol.new params noise freq).after eps step t).freq = freq ∧ ((Pol.new params noise freq).after eps step t).iter = t ∧
      ((Pol.new params noise freq).after eps step t).drawn = 2 * m * t := by
  induction t with
  | zero => exact ⟨rfl, rfl, rfl⟩
  | succ t ih =>
    obtain ⟨h1, h2, h3⟩ := ih
    generalize hq : (Pol.new params noise freq).after eps step t = q at h1 h2 h3
    have hqf : 0 < q.freq := h1 ▸ hf
    simp only [Pol.after, hq, Pol.learn, Pol.prepare, hqf, if_true, true_and]
    split <;> refine ⟨h1, by rw [h2], ?_⟩ <;> simp only [h3] <;> ring

/-- **C231**, which draws are used: in update `t` the online network uses draws that were not used before, `2 m t, …, 2 m t + m - 1`;
the target network uses the following `m` draws, except if `t` is a multiple of `target_update_freq`: then those of the online network. -/
theorem C231_draws (params : P) (noise : Fin m → E) (freq : Nat) (hf : 0 < freq) (eps : Nat → E)
    (step : Nat → Pol P E m → P) (t : Nat) :
    (((Pol.new params noise freq).after eps step t).prepare eps).online.noise = (fun j : Fin m => eps (2 * m * t + j)) ∧
      (((Pol.new params noise freq).after eps step t).prepare eps).old.noise =
        fun j : Fin m => eps (2 * m * t + (if t % freq = 0 then 0 else m) + j) := by
  obtain ⟨h1, h2, h3⟩ := after_counts params noise freq hf eps step t
  generalize (Pol.new params noise freq).after eps step t = q at h1 h2 h3
  have hqf : 0 < q.freq := h1 ▸ hf
  rw [← h3, ← h1]
  rw [← h2]
  simp only [Pol.prepare, hqf, if_true, true_and]
  by_cases hs : q.iter % q.freq = 0
  · rw [if_pos hs, if_pos hs]
    exact ⟨rfl, rfl⟩
  · rw [if_neg hs, if_neg hs]
    refine ⟨rfl, ?_⟩
    simp only
    split
    · rfl
    · rename_i hm
      funext j
      exact absurd j.2 (by omega)

/-- **C231**, that the noise is used: in every update both networks are in training mode, in which noisy layers add their noise, if the policy is in training mode and there are
noisy layers; without noisy layers the target network stays in evaluation mode. -/
theorem C231_mode (params : P) (noise : Fin m → E) (freq : Nat) (hf : 0 < freq) (eps : Nat → E) (step : Nat → Pol P E m → P) (t : Nat) :
    (((Pol.new params noise freq).after eps step t).prepare eps).online.training = true ∧
      (((Pol.new params noise freq).after eps step t).prepare eps).old.training = Decidable.decide (0 < m) := by
  have key : ∀ q : Pol P E m, 0 < q.freq → q.online.training = true → (m = 0 → q.old.training = false) →
      (q.prepare eps).online.training = true ∧ (q.prepare eps).old.training = Decidable.decide (0 < m) := by
    intro q hq h1 h2
    simp only [Pol.prepare, hq, if_true, true_and]
    by_cases hm : 0 < m
    · simp only [hm, if_true, decide_true]
      split <;> exact ⟨h1, rfl⟩
    · have h3 := h2 (by omega)
      simp only [hm, if_false, decide_false]
      split <;> exact ⟨h1, h3⟩
  have inv : ∀ t, ((Pol.new params noise freq).after eps step t).online.training = true ∧
      (m = 0 → ((Pol.new params noise freq).after eps step t).old.training = false) := by
    intro t
    induction t with
    | zero => exact ⟨rfl, fun _ => rfl⟩
    | succ t ih =>
      have h := key _ (by rw [(after_counts params noise freq hf eps step t).1]; exact hf) ih.1 ih.2
      refine ⟨h.1, fun hm => ?_⟩
      have h2 := h.2
      simp only [hm, Nat.lt_irrefl, decide_false] at h2
      exact h2
  exact key _ (by rw [(after_counts params noise freq hf eps step t).1]; exact hf) (inv t).1 (inv t).2

/-- **C231**, the weights: drawing noise changes no weights; in update `t` the target network has the weights that the online network had at the last update that was a multiple of
`target_update_freq`. -/
theorem C231_weights (params : P) (noise : Fin m → E) (freq : Nat) (hf : 0 < freq) (eps : Nat → E) (step : Nat → Pol P E m → P) (t : Nat) :
    (((Pol.new params noise freq).after eps step t).prepare eps).online.params = ((Pol.new params noise freq).after eps step t).online.params ∧
      (((Pol.new params noise freq).after eps step t).prepare eps).old.params =
        ((Pol.new params noise freq).after eps step (t - t % freq)).online.params := by
  have key : ∀ q : Pol P E m, 0 < q.freq → (q.prepare eps).online.params = q.online.params ∧
      (q.prepare eps).old.params = if q.iter % q.freq = 0 then q.online.params else q.old.params := by
    intro q hq
    simp only [Pol.prepare, hq, if_true, true_and]
    by_cases hs : q.iter % q.freq = 0
    · rw [if_pos hs, if_pos hs]
      exact ⟨rfl, rfl⟩
    · rw [if_neg hs, if_neg hs]
      refine ⟨rfl, ?_⟩
      simp only
      split <;> rfl
  have hfr := fun t => (after_counts params noise freq hf eps step t).1
  have hit := fun t => (after_counts params noise freq hf eps step t).2.1
  have hk := fun t => key _ (by rw [hfr t]; exact hf : 0 < ((Pol.new params noise freq).after eps step t).freq)
  refine ⟨(hk t).1, ?_⟩
  induction t with
  | zero =>
    rw [(hk 0).2, hit, if_pos (Nat.zero_mod _), Nat.zero_sub]
  | succ t ih =>
    rw [(hk (t + 1)).2, hit, hfr]
    by_cases hs : (t + 1) % freq = 0
    · rw [if_pos hs, hs, Nat.sub_zero]
    · rw [if_neg hs]
      have h1 : ((Pol.new params noise freq).after eps step (t + 1)).old.params = (((Pol.new params noise freq).after eps step t).prepare eps).old.params := rfl
      have h2 : t + 1 - (t + 1) % freq = t - t % freq := by
        have h3 := Nat.div_add_mod t freq
        have h4 := Nat.div_add_mod (t + 1) freq
        have h5 : (t + 1) / freq = t / freq := by
          rw [Nat.succ_div, if_neg (fun h => hs (Nat.mod_eq_zero_of_dvd h)), Nat.add_zero]
        rw [h5] at h4
        omega
      rw [h1, ih, h2]

/-- In update 3, with a synchronisation in every second update, the target network has the weights of update 2: the result of the gradient step of update 1. -/
example : (((Pol.new 5 (fun _ : Fin 1 => 9) 2).after id (fun t _ => 10 * t) 3).prepare id).old.params = 10 := by decide +kernel

/-- One noisy layer and none, after three updates. -/
example : ((((Pol.new 5 (fun _ : Fin 1 => 9) 2).after id (fun t _ => t) 3).prepare id).old.training,
    (((Pol.new 5 (fun _ : Fin 0 => 9) 2).after id (fun t _ => t) 3).prepare id).old.training) = (true, false) := by decide +kernel

end exact

variable {Ω : Type} [MeasurableSpace Ω] {μ : Measure Ω} {P E : Type} [MeasurableSpace E] {m : Nat}

/-- Blocks of independent draws that do not overlap are independent. -/
theorem blocks_indep {eps : Nat → Ω → E} (hi : iIndepFun eps μ) (hm : ∀ k, Measurable (eps k)) {a b : Nat} (hab : a + m ≤ b) :
    IndepFun (fun ω (j : Fin m) => eps (a + j) ω) (fun ω (j : Fin m) => eps (b + j) ω) μ := by
  have h := iIndepFun.indepFun_finset (Finset.Ico a (a + m)) (Finset.Ico b (b + m)) (by
    rw [Finset.disjoint_left]
    intro x hx hy
    rw [Finset.mem_Ico] at hx hy
    omega) hi hm
  have h2 := h.comp (φ := fun (v : (Finset.Ico a (a + m)) → E) (j : Fin m) => v ⟨a + j, by rw [Finset.mem_Ico]; omega⟩)
    (ψ := fun (v : (Finset.Ico b (b + m)) → E) (j : Fin m) => v ⟨b + j, by rw [Finset.mem_Ico]; omega⟩)
    (measurable_pi_lambda _ fun j => measurable_pi_apply _) (measurable_pi_lambda _ fun j => measurable_pi_apply _)
  exact h2

/-- **C231** (missing: the updates that are a multiple of `target_update_freq`, see `C231_violated`) in every other update the noise of the target network is
independent of that of the online network. -/
theorem C231_independent_partial (params : P) (noise : Fin m → E) (freq : Nat) (hf : 0 < freq) {eps : Nat → Ω → E} (hi : iIndepFun eps μ)
    (hm : ∀ k, Measurable (eps k)) (step : Nat → Pol P E m → P) (t : Nat) (ht : t % freq ≠ 0) :
    IndepFun (fun ω => (((Pol.new params noise freq).after (fun k => eps k ω) step t).prepare fun k => eps k ω).online.noise)
      (fun ω => (((Pol.new params noise freq).after (fun k => eps k ω) step t).prepare fun k => eps k ω).old.noise) μ := by
  have h := fun ω => C231_draws params noise freq hf (fun k => eps k ω) step t
  simp only [h, if_neg ht]
  exact blocks_indep hi hm (le_refl _)

/-- **C231** the noise of the online network in different updates is independent. -/
theorem C231_fresh (params : P) (noise : Fin m → E) (freq : Nat) (hf : 0 < freq) {eps : Nat → Ω → E} (hi : iIndepFun eps μ)
    (hm : ∀ k, Measurable (eps k)) (step : Nat → Pol P E m → P) (t t' : Nat) (ht : t < t') :
    IndepFun (fun ω => (((Pol.new params noise freq).after (fun k => eps k ω) step t).prepare fun k => eps k ω).online.noise)
      (fun ω => (((Pol.new params noise freq).after (fun k => eps k ω) step t').prepare fun k => eps k ω).online.noise) μ := by
  have h := fun ω => (C231_draws params noise freq hf (fun k => eps k ω) step t).1
  have h' := fun ω => (C231_draws params noise freq hf (fun k => eps k ω) step t').1
  simp only [h, h']
  apply blocks_indep hi hm
  have h1 : 2 * m * (t + 1) ≤ 2 * m * t' := Nat.mul_le_mul_left _ ht
  have h2 : 2 * m * (t + 1) = 2 * m * t + m + m := by ring
  omega

/-- **C231** fails in every update that is a multiple of `target_update_freq`, in particular the first: the target network has the noise of the online network, and the two are not
independent (for networks with a noisy layer, and noise that is not constant: `A` is hit with a probability strictly between 0 and 1). -/
theorem C231_violated [IsProbabilityMeasure μ] (params : P) (noise : Fin m → E) (freq : Nat) (hf : 0 < freq) {eps : Nat → Ω → E}
    (step : Nat → Pol P E m → P) (t : Nat) (ht : t % freq = 0) (hlay : 0 < m) (A : Set E)
    (hA : MeasurableSet A) (h0 : ∀ k, μ (eps k ⁻¹' A) ≠ 0) (h1 : ∀ k, μ (eps k ⁻¹' A) ≠ 1) :
    (∀ ω, (((Pol.new params noise freq).after (fun k => eps k ω) step t).prepare fun k => eps k ω).old.noise =
      (((Pol.new params noise freq).after (fun k => eps k ω) step t).prepare fun k => eps k ω).online.noise) ∧
    ¬ IndepFun (fun ω => (((Pol.new params noise freq).after (fun k => eps k ω) step t).prepare fun k => eps k ω).online.noise)
      (fun ω => (((Pol.new params noise freq).after (fun k => eps k ω) step t).prepare fun k => eps k ω).old.noise) μ := by
  have h := fun ω => C231_draws params noise freq hf (fun k => eps k ω) step t
  simp only [h, if_pos ht, Nat.add_zero, implies_true, true_and]
  intro hind
  have hB : MeasurableSet {v : Fin m → E | v ⟨0, hlay⟩ ∈ A} := hA.preimage (measurable_pi_apply _)
  have := hind.measure_inter_preimage_eq_mul _ _ hB hB
  rw [Set.inter_self] at this
  have hpre : (fun ω (j : Fin m) => eps (2 * m * t + j) ω) ⁻¹' {v : Fin m → E | v ⟨0, hlay⟩ ∈ A} = eps (2 * m * t) ⁻¹' A := by
    ext ω
    simp
  rw [hpre] at this
  have hfin : μ (eps (2 * m * t) ⁻¹' A) ≠ ⊤ := measure_ne_top _ _
  have h2 := (ENNReal.mul_eq_left (h0 _) hfin).mp this.symm
  exact h1 _ h2

/-- Such noise exists: independent uniform numbers, `A` those below one half. -/
example : ∃ (Ω : Type) (_ : MeasurableSpace Ω) (μ : Measure Ω) (eps : Nat → Ω → ℝ), IsProbabilityMeasure μ ∧ iIndepFun eps μ ∧
    (∀ k, Measurable (eps k)) ∧ (∀ k, μ (eps k ⁻¹' Set.Iio (1 / 2)) ≠ 0) ∧ ∀ k, μ (eps k ⁻¹' Set.Iio (1 / 2)) ≠ 1 := by
  have hh : Verif.Spec.unit (Set.Iio (1 / 2 : ℝ)) = ENNReal.ofReal (1 / 2) := by
    unfold Verif.Spec.unit
    rw [Measure.restrict_apply measurableSet_Iio]
    have : Set.Iio (1 / 2 : ℝ) ∩ Set.Ico 0 1 = Set.Ico 0 (1 / 2) := by
      ext x
      simp only [Set.mem_inter_iff, Set.mem_Iio, Set.mem_Ico]
      constructor
      · rintro ⟨a, b, c⟩; exact ⟨b, a⟩
      · rintro ⟨a, b⟩; exact ⟨b, a, b.trans (by norm_num)⟩
    rw [this, Real.volume_Ico, sub_zero]
  refine ⟨ℕ → ℝ, inferInstance, Measure.infinitePi fun _ => Verif.Spec.unit, fun k ω => ω k, inferInstance, ?_, fun k => measurable_pi_apply k, ?_, ?_⟩
  · exact iIndepFun_infinitePi (X := fun _ x => x) fun _ => measurable_id
  all_goals
    intro k
    rw [(measurePreserving_eval_infinitePi (fun _ => Verif.Spec.unit) k).measure_preimage measurableSet_Iio.nullMeasurableSet, hh]
    simp

end Verif.Rainbow
