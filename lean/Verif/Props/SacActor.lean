import Verif.Model.SacLoss
import Verif.Props.Squash
import Mathlib.InformationTheory.KullbackLeibler.Basic
import Mathlib.MeasureTheory.Measure.Lebesgue.EqHaar
import Mathlib.Tactic.FinCases

/-!
C264: what the actor of SAC (and CQL, REDQ) aims at, and that a step in this direction improves the policy.
-/

namespace Verif.SacLoss

open Verif.Squash MeasureTheory InformationTheory

set_option linter.unusedSectionVars false

variable {X Ω : Type} [MeasurableSpace Ω] {d n : Nat}

/-! ### Specification -/

/-- Lebesgue measure on the cube in which squashed actions lie. -/
noncomputable def cube (d : Nat) : Measure (Fin d → ℝ) := volume.restrict {y | ∀ j, -1 < y j ∧ y j < 1}

/-- The law on the cube with the given logarithm of the density. -/
noncomputable def lawOf (l : (Fin d → ℝ) → ℝ) : Measure (Fin d → ℝ) := (cube d).withDensity fun y => ENNReal.ofReal (Real.exp (l y))

/-- What `exp (q / alpha)` has to be divided by to be a density. -/
noncomputable def normaliser (alpha : ℝ) (q : (Fin d → ℝ) → ℝ) : ℝ := ∫ y, Real.exp (q y / alpha) ∂cube d

/-- The law with density proportional to `exp (q / alpha)`. -/
noncomputable def boltzmann (alpha : ℝ) (q : (Fin d → ℝ) → ℝ) : Measure (Fin d → ℝ) :=
  lawOf fun y => q y / alpha - Real.log (normaliser alpha q)

/-- The smaller one of two critics, as a function of the action. -/
noncomputable def smaller (critic1 critic2 : X → List ℝ → ℝ) (d : Nat) (x : X) (y : Fin d → ℝ) : ℝ := min (critic1 x (List.ofFn y)) (critic2 x (List.ofFn y))

/-- The mean of several critics. -/
noncomputable def average {k : Nat} (critics : Fin k → X → List ℝ → ℝ) (d : Nat) (x : X) (y : Fin d → ℝ) : ℝ :=
  (∑ j, critics j x (List.ofFn y)) / k

/-- The actions `act i` and the log-probabilities of a batch. -/
def outsOf (act : Fin n → Fin d → ℝ) (logp : Fin n → (Fin d → ℝ) → ℝ) : List Out :=
  List.ofFn fun i => ⟨List.ofFn (act i), logp i (act i)⟩

/-- Random actions whose laws have the log-densities `logp`; they need not be independent. -/
structure Drawn (P : Measure Ω) (act : Fin n → Ω → Fin d → ℝ) (logp : Fin n → (Fin d → ℝ) → ℝ) : Prop where
  measurable : ∀ i, Measurable (act i)
  measurable_logp : ∀ i, Measurable (logp i)
  law : ∀ i, P.map (act i) = lawOf (logp i)
  integrable : ∀ i, Integrable (logp i) (lawOf (logp i))

/-- A value of actions to which expectations and the law above apply. -/
structure Tame (alpha : ℝ) (q : (Fin d → ℝ) → ℝ) (l : (Fin d → ℝ) → ℝ) : Prop where
  measurable : Measurable q
  exp : Integrable (fun y => Real.exp (q y / alpha)) (cube d)
  integrable : Integrable q (lawOf l)

/-! ### Helpers -/

instance : SFinite (cube d) := by unfold cube; infer_instance
instance : SigmaFinite (cube d) := by unfold cube; infer_instance

theorem lawOf_ac (l : (Fin d → ℝ) → ℝ) : lawOf l ≪ cube d := withDensity_absolutelyContinuous _ _

theorem ac_lawOf (l : (Fin d → ℝ) → ℝ) (hl : Measurable l) : cube d ≪ lawOf l := by
  refine withDensity_absolutelyContinuous' (by fun_prop) (Filter.Eventually.of_forall fun y => ?_)
  simp [Real.exp_pos]

theorem cube_ne_zero : cube d ≠ 0 := by
  unfold cube
  rw [Ne, Measure.restrict_eq_zero]
  have h : {y : Fin d → ℝ | ∀ j, -1 < y j ∧ y j < 1} = Set.univ.pi fun _ => Set.Ioo (-1 : ℝ) 1 := by
    ext y
    simp
  rw [h, Real.volume_pi_Ioo]
  simp

theorem normaliser_pos (alpha : ℝ) (q : (Fin d → ℝ) → ℝ) (h : Integrable (fun y => Real.exp (q y / alpha)) (cube d)) : 0 < normaliser alpha q := by
  have : NeZero (cube d) := ⟨cube_ne_zero⟩
  exact integral_exp_pos h

theorem isProbabilityMeasure_boltzmann (alpha : ℝ) (q : (Fin d → ℝ) → ℝ) (h : Integrable (fun y => Real.exp (q y / alpha)) (cube d)) :
    IsProbabilityMeasure (boltzmann alpha q) := by
  constructor
  unfold boltzmann lawOf
  have hz := normaliser_pos alpha q h
  rw [withDensity_apply _ MeasurableSet.univ, Measure.restrict_univ]
  have e : ∀ y, Real.exp (q y / alpha - Real.log (normaliser alpha q)) = Real.exp (q y / alpha) / normaliser alpha q := by
    intro y
    rw [Real.exp_sub, Real.exp_log hz]
  simp_rw [e]
  rw [← ofReal_integral_eq_lintegral_ofReal (h.div_const _) (Filter.Eventually.of_forall fun y => by positivity), integral_div]
  change ENNReal.ofReal (normaliser alpha q / normaliser alpha q) = 1
  rw [div_self hz.ne', ENNReal.ofReal_one]

theorem llr_lawOf (l m : (Fin d → ℝ) → ℝ) (hl : Measurable l) (hm : Measurable m) [IsFiniteMeasure (lawOf l)] [IsFiniteMeasure (lawOf m)] :
    llr (lawOf l) (lawOf m) =ᵐ[lawOf l] fun y => l y - m y := by
  refine (lawOf_ac l).ae_le ?_
  have r1 : (lawOf l).rnDeriv (lawOf m) =ᵐ[cube d] fun y => (ENNReal.ofReal (Real.exp (m y)))⁻¹ * (lawOf l).rnDeriv (cube d) y :=
    Measure.rnDeriv_withDensity_right (lawOf l) (cube d) (by fun_prop) (Filter.Eventually.of_forall fun y => by simp [Real.exp_pos])
      (Filter.Eventually.of_forall fun y => ENNReal.ofReal_ne_top)
  have r2 : (lawOf l).rnDeriv (cube d) =ᵐ[cube d] fun y => ENNReal.ofReal (Real.exp (l y)) := Measure.rnDeriv_withDensity _ (by fun_prop)
  filter_upwards [r1, r2] with y h2 h3
  rw [llr, h2, h3, ENNReal.toReal_mul, ENNReal.toReal_inv, ENNReal.toReal_ofReal (Real.exp_pos _).le, ENNReal.toReal_ofReal (Real.exp_pos _).le,
    ← Real.exp_neg, ← Real.exp_add, Real.log_exp]
  ring

theorem klDiv_boltzmann (alpha : ℝ) (q l : (Fin d → ℝ) → ℝ) (hl : Measurable l) (hq : Tame alpha q l) (hp : IsProbabilityMeasure (lawOf l))
    (hi : Integrable l (lawOf l)) :
    (klDiv (lawOf l) (boltzmann alpha q)).toReal = ∫ y, l y ∂lawOf l - (∫ y, q y ∂lawOf l) / alpha + Real.log (normaliser alpha q) ∧
      klDiv (lawOf l) (boltzmann alpha q) ≠ ⊤ := by
  have := isProbabilityMeasure_boltzmann alpha q hq.exp
  have : IsProbabilityMeasure (lawOf fun y => q y / alpha - Real.log (normaliser alpha q)) := this
  have hqm := hq.measurable
  have hi2 : Integrable (fun y => q y / alpha - Real.log (normaliser alpha q)) (lawOf l) := (hq.integrable.div_const _).sub (integrable_const _)
  have hllr := llr_lawOf l (fun y => q y / alpha - Real.log (normaliser alpha q)) hl (by fun_prop)
  have hac : lawOf l ≪ lawOf fun y => q y / alpha - Real.log (normaliser alpha q) := (lawOf_ac l).trans (ac_lawOf _ (by fun_prop))
  unfold boltzmann
  refine ⟨?_, klDiv_ne_top hac ((integrable_congr hllr).mpr (hi.sub hi2))⟩
  rw [toReal_klDiv_of_measure_eq hac (by rw [measure_univ, measure_univ]), integral_congr_ae hllr, integral_sub hi hi2,
    integral_sub (hq.integrable.div_const _) (integrable_const _), integral_div, integral_const]
  simp
  ring

theorem mean_ofFn (f : Fin n → ℝ) : Ppo.mean (List.ofFn f) = (∑ i, f i) / n := by
  simp [Ppo.mean, List.sum_ofFn]

theorem zipWith_ofFn {A B C : Type} (g : A → B → C) (a : Fin n → A) (b : Fin n → B) :
    List.zipWith g (List.ofFn a) (List.ofFn b) = List.ofFn fun i => g (a i) (b i) := by
  apply List.ext_getElem <;> simp

theorem expect_rows (P : Measure Ω) [IsProbabilityMeasure P] (act : Fin n → Ω → Fin d → ℝ) (logp q : Fin n → (Fin d → ℝ) → ℝ) (h : Drawn P act logp)
    (alpha : ℝ) (ha : 0 < alpha) (hq : ∀ i, Tame alpha (q i) (logp i)) :
    ∫ ω, (∑ i, (alpha * logp i (act i ω) - q i (act i ω))) / n ∂P =
      (∑ i, (alpha * (klDiv (lawOf (logp i)) (boltzmann alpha (q i))).toReal - alpha * Real.log (normaliser alpha (q i)))) / n := by
  have hp : ∀ i, IsProbabilityMeasure (lawOf (logp i)) := fun i => by
    rw [← h.law i]
    exact Measure.isProbabilityMeasure_map (h.measurable i).aemeasurable
  have i1 : ∀ i, Integrable (fun ω => logp i (act i ω)) P := fun i => by
    have := h.integrable i
    rw [← h.law i] at this
    exact this.comp_measurable (h.measurable i)
  have i2 : ∀ i, Integrable (fun ω => q i (act i ω)) P := fun i => by
    have := (hq i).integrable
    rw [← h.law i] at this
    exact this.comp_measurable (h.measurable i)
  rw [integral_div, integral_finsetSum _ fun i _ => show Integrable (fun ω => alpha * logp i (act i ω) - q i (act i ω)) P from
    ((i1 i).const_mul alpha).sub (i2 i)]
  congr 1
  refine Finset.sum_congr rfl fun i _ => ?_
  rw [(klDiv_boltzmann alpha (q i) (logp i) (h.measurable_logp i) (hq i) (hp i) (h.integrable i)).1, integral_sub ((i1 i).const_mul alpha) (i2 i),
    integral_const_mul]
  have e1 : ∫ ω, logp i (act i ω) ∂P = ∫ y, logp i y ∂lawOf (logp i) := by
    rw [← h.law i, integral_map (h.measurable i).aemeasurable (h.measurable_logp i).aestronglyMeasurable]
  have e2 : ∫ ω, q i (act i ω) ∂P = ∫ y, q i y ∂lawOf (logp i) := by
    rw [← h.law i, integral_map (h.measurable i).aemeasurable (hq i).measurable.aestronglyMeasurable]
  rw [e1, e2]
  field_simp
  ring

/-! ### C264 -/

/-- **C264** the expected `actor_loss` of SAC and CQL is, up to a number that does not depend on the actor, `alpha` times the mean over the batch of the
divergence of the law of the action from the law proportional to `exp (min (q1, q2) / alpha)`, provided `log_prob` is the log-density of the action. -/
theorem C264_loss_partial (P : Measure Ω) [IsProbabilityMeasure P] (act : Fin n → Ω → Fin d → ℝ) (logp : Fin n → (Fin d → ℝ) → ℝ)
    (h : Drawn P act logp) (alpha : ℝ) (ha : 0 < alpha) (critic1 critic2 : X → List ℝ → ℝ) (obs : Fin n → X)
    (hq : ∀ i, Tame alpha (smaller critic1 critic2 d (obs i)) (logp i)) :
    ∫ ω, sacActorLoss critic1 critic2 alpha (List.ofFn obs) (outsOf (fun i => act i ω) logp) ∂P =
      (∑ i, (alpha * (klDiv (lawOf (logp i)) (boltzmann alpha (smaller critic1 critic2 d (obs i)))).toReal -
        alpha * Real.log (normaliser alpha (smaller critic1 critic2 d (obs i))))) / n := by
  rw [← expect_rows P act logp _ h alpha ha hq]
  simp only [sacActorLoss, outsOf, zipWith_ofFn, mean_ofFn]
  rfl

/-- **C264** the same for REDQ, with the mean of the ensemble. -/
theorem C264_redq_partial (P : Measure Ω) [IsProbabilityMeasure P] (act : Fin n → Ω → Fin d → ℝ) (logp : Fin n → (Fin d → ℝ) → ℝ)
    (h : Drawn P act logp) (alpha : ℝ) (ha : 0 < alpha) {k : Nat} (critics : Fin k → X → List ℝ → ℝ) (obs : Fin n → X)
    (hq : ∀ i, Tame alpha (average critics d (obs i)) (logp i)) :
    ∫ ω, redqActorLoss (List.ofFn critics) alpha (List.ofFn obs) (outsOf (fun i => act i ω) logp) ∂P =
      (∑ i, (alpha * (klDiv (lawOf (logp i)) (boltzmann alpha (average critics d (obs i)))).toReal -
        alpha * Real.log (normaliser alpha (average critics d (obs i))))) / n := by
  rw [← expect_rows P act logp _ h alpha ha hq]
  simp only [redqActorLoss, outsOf, zipWith_ofFn, mean_ofFn, List.map_ofFn, Function.comp_def]
  rfl

/-- **C264** hence no actor has a smaller expected loss than one whose actions have, for every observation of the batch, the law proportional to
`exp (min (q1, q2) / alpha)`, and only such actors reach the bound. -/
theorem C264_best_partial (hn : 0 < n) (P : Measure Ω) [IsProbabilityMeasure P] (act : Fin n → Ω → Fin d → ℝ) (logp : Fin n → (Fin d → ℝ) → ℝ)
    (h : Drawn P act logp) (alpha : ℝ) (ha : 0 < alpha) (critic1 critic2 : X → List ℝ → ℝ) (obs : Fin n → X)
    (hq : ∀ i, Tame alpha (smaller critic1 critic2 d (obs i)) (logp i)) :
    -alpha * ((∑ i, Real.log (normaliser alpha (smaller critic1 critic2 d (obs i)))) / n) ≤
      ∫ ω, sacActorLoss critic1 critic2 alpha (List.ofFn obs) (outsOf (fun i => act i ω) logp) ∂P ∧
    (∫ ω, sacActorLoss critic1 critic2 alpha (List.ofFn obs) (outsOf (fun i => act i ω) logp) ∂P =
        -alpha * ((∑ i, Real.log (normaliser alpha (smaller critic1 critic2 d (obs i)))) / n) ↔
      ∀ i, P.map (act i) = boltzmann alpha (smaller critic1 critic2 d (obs i))) := by
  rw [C264_loss_partial P act logp h alpha ha critic1 critic2 obs hq]
  set K : Fin n → ℝ := fun i => (klDiv (lawOf (logp i)) (boltzmann alpha (smaller critic1 critic2 d (obs i)))).toReal
    with hK
  set Z : Fin n → ℝ := fun i => Real.log (normaliser alpha (smaller critic1 critic2 d (obs i))) with hZ
  have hn' : (0 : ℝ) < n := by exact_mod_cast hn
  have e : (∑ i, (alpha * K i - alpha * Z i)) / n = alpha * (∑ i, K i) / n + -alpha * ((∑ i, Z i) / n) := by
    rw [Finset.sum_sub_distrib, ← Finset.mul_sum, ← Finset.mul_sum]
    ring
  have hK0 : ∀ i, 0 ≤ K i := fun i => ENNReal.toReal_nonneg
  have hs : 0 ≤ ∑ i, K i := Finset.sum_nonneg fun i _ => hK0 i
  rw [e]
  refine ⟨by have : 0 ≤ alpha * (∑ i, K i) / n := by positivity
             linarith, ?_⟩
  have hiff : (∀ i, K i = 0) ↔ ∀ i, P.map (act i) = boltzmann alpha (smaller critic1 critic2 d (obs i)) := by
    refine forall_congr' fun i => ?_
    have hp : IsProbabilityMeasure (lawOf (logp i)) := by
      rw [← h.law i]
      exact Measure.isProbabilityMeasure_map (h.measurable i).aemeasurable
    have hb := isProbabilityMeasure_boltzmann alpha _ (hq i).exp
    have hfin : klDiv (lawOf (logp i)) (boltzmann alpha (smaller critic1 critic2 d (obs i))) ≠ ⊤ :=
      (klDiv_boltzmann alpha _ (logp i) (h.measurable_logp i) (hq i) hp (h.integrable i)).2
    rw [h.law i, ← klDiv_eq_zero_iff, hK]
    simp [ENNReal.toReal_eq_zero_iff, hfin]
  rw [← hiff]
  constructor
  · intro h2
    have h3 : alpha * (∑ i, K i) / n = 0 := by linarith
    have h4 : ∑ i, K i = 0 := by
      rcases div_eq_zero_iff.mp h3 with h5 | h5
      · rcases mul_eq_zero.mp h5 with h6 | h6
        · exact absurd h6 ha.ne'
        · exact h6
      · exact absurd h5 hn'.ne'
    exact fun i => (Finset.sum_eq_zero_iff_of_nonneg fun i _ => hK0 i).mp h4 i (Finset.mem_univ i)
  · intro h2
    simp [h2]

/-- **C264** what `forward` returns in training meets the hypotheses above if the small constant in `log_prob` is taken to be 0: if the number drawn for row `i` has the
log-density that `dist` states, the law of the action has the log-density that is returned. -/
theorem C264_forward_partial (P : Measure Ω) [IsProbabilityMeasure P] (raw : Fin n → Ω → Fin d → ℝ) (p : Fin n → (Fin d → ℝ) → ℝ)
    (hp : ∀ i x, 0 < p i x) (hpm : ∀ i, Measurable (p i)) (hraw : ∀ i, Measurable (raw i))
    (hlaw : ∀ i, P.map (raw i) = volume.withDensity fun x => ENNReal.ofReal (p i x)) (dists : Fin n → Dist)
    (hd : ∀ i x, (dists i).logProb (List.ofFn x) = Real.log (p i x)) (det : Bool) :
    ∃ logp : Fin n → (Fin d → ℝ) → ℝ, (∀ i, P.map (fun ω j => Real.tanh (raw i ω j)) = lawOf (logp i)) ∧
      ∀ ω (draw : Nat → List ℝ), (∀ i : Fin n, draw i = List.ofFn (raw i ω)) →
        forward 0 det true (List.ofFn dists) draw = outsOf (fun i j => Real.tanh (raw i ω j)) logp := by
  refine ⟨fun i y => correct 0 (Real.log (p i fun j => Real.artanh (y j))) (List.ofFn y), fun i => ?_, fun ω draw hdraw => ?_⟩
  · have ht1 : Measurable Real.tanh := by
      have : Real.tanh = fun x => Real.sinh x / Real.cosh x := funext Real.tanh_eq_sinh_div_cosh
      rw [this]
      exact Real.measurable_sinh.div Real.measurable_cosh
    have ht : Measurable fun (x : Fin d → ℝ) j => Real.tanh (x j) := measurable_pi_lambda _ fun j => ht1.comp (measurable_pi_apply j)
    have e : (fun ω j => Real.tanh (raw i ω j)) = (fun (x : Fin d → ℝ) j => Real.tanh (x j)) ∘ raw i := rfl
    rw [e, ← Measure.map_map ht (hraw i), hlaw i]
    refine Measure.ext fun S hS => ?_
    rw [Measure.map_apply ht hS, withDensity_apply _ (ht hS), lawOf, withDensity_apply _ hS, cube, Measure.restrict_restrict hS]
    exact C186_density d (p i) (hp i) S hS
  · apply List.ext_getElem
    · simp [forward, outsOf]
    · intro i h1 h2
      have hi : i < n := by simpa [outsOf] using h2
      have e1 := hdraw ⟨i, hi⟩
      have e2 := hd ⟨i, hi⟩ (raw ⟨i, hi⟩ ω)
      simp only [forward, outsOf, List.getElem_map, List.getElem_zipIdx, List.getElem_ofFn, Bool.not_true, Bool.and_false, Bool.false_eq_true,
        if_false, zero_add]
      rw [e1, e2]
      simp [List.map_ofFn, Function.comp_def, Real.artanh_tanh]

/-! ### Improvement -/

/-- A finite set of states with actions in the cube: expected rewards and probabilities of the next states; if the latter do not add up to 1 the episode may end. -/
structure Mdp (S : Type) (d : Nat) where
  rew : S → (Fin d → ℝ) → ℝ
  next : S → (Fin d → ℝ) → S → ℝ

/-- The soft value of an action: reward plus discounted value of the next state. -/
def Mdp.soft {S : Type} [Fintype S] (e : Mdp S d) (gamma : ℝ) (v : S → ℝ) (s : S) (y : Fin d → ℝ) : ℝ :=
  e.rew s y + gamma * ∑ s', e.next s y s' * v s'

/-- `v` are the soft values of the policy that in state `s` draws actions with log-density `l s`: expected rewards plus `alpha` times the entropy, now and later. -/
def Mdp.SoftValues {S : Type} [Fintype S] (e : Mdp S d) (gamma alpha : ℝ) (l : S → (Fin d → ℝ) → ℝ) (v : S → ℝ) : Prop :=
  ∀ s, v s = ∫ y, (e.soft gamma v s y - alpha * l s y) ∂lawOf (l s)

/-- A policy: probabilities with finite entropy and finite expected rewards. -/
structure Mdp.Policy {S : Type} (e : Mdp S d) (l : S → (Fin d → ℝ) → ℝ) : Prop where
  prob : ∀ s, IsProbabilityMeasure (lawOf (l s))
  entropy : ∀ s, Integrable (l s) (lawOf (l s))
  rew : ∀ s, Integrable (e.rew s) (lawOf (l s))
  next : ∀ s s', Integrable (fun y => e.next s y s') (lawOf (l s))

/-- The expected `actor_loss` for a batch with the single observation `s`. -/
noncomputable def lossAt {S : Type} (critic1 critic2 : S → List ℝ → ℝ) (alpha : ℝ) (l : S → (Fin d → ℝ) → ℝ) (s : S) : ℝ :=
  ∫ y, sacActorLoss critic1 critic2 alpha [s] [⟨List.ofFn y, l s y⟩] ∂lawOf (l s)

/-- **C264** an actor step improves the policy: if the critics are the soft values of the actions under the old policy and the new actor has in no state a larger
expected loss than the old one, the soft values of the new policy are in no state smaller. -/
theorem C264_improves {S : Type} [Fintype S] (e : Mdp S d) (hnext : ∀ s y s', 0 ≤ e.next s y s') (hsum : ∀ s y, ∑ s', e.next s y s' ≤ 1)
    (gamma alpha : ℝ) (hg0 : 0 ≤ gamma) (hg1 : gamma < 1) (l l' : S → (Fin d → ℝ) → ℝ) (hl : e.Policy l) (hl' : e.Policy l')
    (v v' : S → ℝ) (hv : e.SoftValues gamma alpha l v) (hv' : e.SoftValues gamma alpha l' v')
    (critic1 critic2 : S → List ℝ → ℝ) (h1 : ∀ s y, critic1 s (List.ofFn y) = e.soft gamma v s y)
    (h2 : ∀ s y, critic2 s (List.ofFn y) = e.soft gamma v s y)
    (hloss : ∀ s, lossAt critic1 critic2 alpha l' s ≤ lossAt critic1 critic2 alpha l s) (s : S) : v s ≤ v' s := by
  have hsoft : ∀ (l : S → (Fin d → ℝ) → ℝ), e.Policy l → ∀ w s, Integrable (e.soft gamma w s) (lawOf (l s)) := fun l hl w s =>
    (hl.rew s).add ((integrable_finsetSum _ fun s' _ => (hl.next s s').mul_const (w s')).const_mul gamma)
  have eloss : ∀ l : S → (Fin d → ℝ) → ℝ, e.Policy l → ∀ s, lossAt critic1 critic2 alpha l s =
      -∫ y, (e.soft gamma v s y - alpha * l s y) ∂lawOf (l s) := by
    intro l hl s
    unfold lossAt
    rw [← integral_neg]
    congr 1
    funext y
    simp [sacActorLoss, Ppo.mean, h1, h2]
  have hdiff : ∀ s, ∑ s', gamma * ((∫ y, e.next s y s' ∂lawOf (l' s)) * (v' s' - v s')) ≤ v' s - v s := by
    intro s
    have h3 := hloss s
    rw [eloss l hl, eloss l' hl', ← hv s] at h3
    have h4 : ∫ y, (e.soft gamma v' s y - alpha * l' s y) ∂lawOf (l' s) - ∫ y, (e.soft gamma v s y - alpha * l' s y) ∂lawOf (l' s) =
        ∑ s', gamma * ((∫ y, e.next s y s' ∂lawOf (l' s)) * (v' s' - v s')) := by
      have i1 : ∀ w, Integrable (fun y => e.soft gamma w s y - alpha * l' s y) (lawOf (l' s)) := fun w =>
        (hsoft l' hl' w s).sub ((hl'.entropy s).const_mul alpha)
      rw [← integral_sub (i1 v') (i1 v)]
      have h5 : ∀ y, e.soft gamma v' s y - alpha * l' s y - (e.soft gamma v s y - alpha * l' s y) =
          ∑ s', gamma * (e.next s y s' * (v' s' - v s')) := by
        intro y
        unfold Mdp.soft
        rw [← Finset.mul_sum]
        simp only [mul_sub, Finset.sum_sub_distrib]
        ring
      simp only [h5]
      rw [integral_finsetSum _ fun s' _ => ((hl'.next s s').mul_const _).const_mul gamma]
      exact Finset.sum_congr rfl fun s' _ => by rw [integral_const_mul, integral_mul_const]
    rw [← h4, ← hv' s]
    linarith
  obtain ⟨s0, -, hs0⟩ := Finset.exists_min_image Finset.univ (fun s => v' s - v s) ⟨s, Finset.mem_univ s⟩
  have hm : 0 ≤ v' s0 - v s0 := by
    by_contra hneg
    have hneg : v' s0 - v s0 < 0 := not_le.mp hneg
    have h6 := hdiff s0
    have hp := hl'.prob s0
    have hw0 : ∀ s', 0 ≤ ∫ y, e.next s0 y s' ∂lawOf (l' s0) := fun s' => integral_nonneg fun y => hnext s0 y s'
    have hw1 : ∑ s', ∫ y, e.next s0 y s' ∂lawOf (l' s0) ≤ 1 := by
      rw [← integral_finsetSum _ fun s' _ => hl'.next s0 s']
      calc ∫ y, ∑ s', e.next s0 y s' ∂lawOf (l' s0) ≤ ∫ _, (1 : ℝ) ∂lawOf (l' s0) :=
            integral_mono (integrable_finsetSum _ fun s' _ => hl'.next s0 s') (integrable_const _) fun y => hsum s0 y
        _ = 1 := by simp
    have h7 : ∑ s', gamma * ((∫ y, e.next s0 y s' ∂lawOf (l' s0)) * (v' s0 - v s0)) ≤
        ∑ s', gamma * ((∫ y, e.next s0 y s' ∂lawOf (l' s0)) * (v' s' - v s')) :=
      Finset.sum_le_sum fun s' _ => mul_le_mul_of_nonneg_left (mul_le_mul_of_nonneg_left (hs0 s' (Finset.mem_univ s')) (hw0 s')) hg0
    rw [← Finset.mul_sum, ← Finset.sum_mul] at h7
    have h8 : gamma * (v' s0 - v s0) ≤ gamma * ((∑ s', ∫ y, e.next s0 y s' ∂lawOf (l' s0)) * (v' s0 - v s0)) := by
      refine mul_le_mul_of_nonneg_left ?_ hg0
      nlinarith
    nlinarith
  have := hs0 s (Finset.mem_univ s)
  linarith

/-! ### With the constant of the code -/

/-- **C264** fails with the constant that the code adds to `1 - act ** 2`: whatever the critics (as long as they are bounded from below) and the batch, normal actors with
a large `scale` have an `actor_loss` below any bound, whatever is drawn. So there is no best actor, and `-log_prob` exceeds the entropy of every law of actions. -/
theorem C264_violated (eps : ℝ) (he : 0 < eps) (alpha : ℝ) (ha : 0 < alpha) (critic1 critic2 : X → List ℝ → ℝ) (M : ℝ)
    (h1 : ∀ x y, -M ≤ critic1 x y) (h2 : ∀ x y, -M ≤ critic2 x y) (obs : List X) (hne : obs ≠ []) (d : Nat) (hd : 0 < d) (det : Bool) (B : ℝ) :
    ∃ sigma : ℝ, 0 < sigma ∧ ∀ (loc : X → List ℝ) (draw : Nat → List ℝ), (∀ x, (loc x).length = d) → (∀ i, (draw i).length = d) →
      sacActorLoss critic1 critic2 alpha obs (forward eps det true (obs.map fun x => normalDist (loc x) (List.replicate d sigma)) draw) < B := by
  have hd' : (0 : ℝ) < d := by exact_mod_cast hd
  set c : ℝ := Real.log (Real.sqrt (2 * Real.pi)) with hc
  -- the loss of every row is at most `alpha * (d * (-log sigma - c - log eps)) + M`
  set L : ℝ := (M - B + 1) / (alpha * d) - c - Real.log eps with hL
  refine ⟨Real.exp L, Real.exp_pos L, fun loc draw hloc hdraw => ?_⟩
  have hnormal : ∀ (k : Nat) (m x : List ℝ), m.length = k → x.length = k →
      (normalDist m (List.replicate k (Real.exp L))).logProb x ≤ k * (-L - c) := by
    intro k
    induction k with
    | zero =>
      intro m x hm hx
      simp [normalDist]
    | succ k ih =>
      intro m x hm hx
      cases m with
      | nil => simp at hm
      | cons a m =>
        cases x with
        | nil => simp at hx
        | cons b x =>
          have := ih m x (by simpa using hm) (by simpa using hx)
          simp only [normalDist] at this ⊢
          simp only [List.replicate_succ, List.zip_cons_cons, List.map_cons, List.sum_cons, Real.log_exp]
          have h3 : -((b - a) ^ 2) / (2 * Real.exp L ^ 2) ≤ 0 := div_nonpos_of_nonpos_of_nonneg (by nlinarith [sq_nonneg (b - a)]) (by positivity)
          push_cast
          linarith
  have hrow : ∀ (x : X) (i : Nat), alpha * correct eps ((normalDist (loc x) (List.replicate d (Real.exp L))).logProb (draw i)) ((draw i).map Real.tanh) -
      min (critic1 x ((draw i).map Real.tanh)) (critic2 x ((draw i).map Real.tanh)) ≤ B - 1 := by
    intro x i
    have h3 := hnormal d (loc x) (draw i) (hloc x) (hdraw i)
    have h4 := (C186_bounded eps he ((normalDist (loc x) (List.replicate d (Real.exp L))).logProb (draw i)) ((draw i).map Real.tanh) (by
      intro y hy
      obtain ⟨z, -, rfl⟩ := List.mem_map.mp hy
      exact ⟨(Real.neg_one_lt_tanh z).le, (Real.tanh_lt_one z).le⟩)).2
    rw [List.length_map, hdraw i] at h4
    have h5 : -M ≤ min (critic1 x ((draw i).map Real.tanh)) (critic2 x ((draw i).map Real.tanh)) := le_min (h1 _ _) (h2 _ _)
    have h6 : correct eps ((normalDist (loc x) (List.replicate d (Real.exp L))).logProb (draw i)) ((draw i).map Real.tanh) ≤
        d * (-L - c - Real.log eps) := by linarith
    have h7 := mul_le_mul_of_nonneg_left h6 ha.le
    have h8 : alpha * (d * (-L - c - Real.log eps)) = -(M - B + 1) := by
      rw [hL]
      field_simp
      ring
    linarith
  unfold sacActorLoss Ppo.mean
  have hlen : (List.zipWith (fun x o => alpha * o.logProb - min (critic1 x o.act) (critic2 x o.act)) obs
      (forward eps det true (obs.map fun x => normalDist (loc x) (List.replicate d (Real.exp L))) draw)).length = obs.length := by
    simp [forward]
  have hall : ∀ z ∈ List.zipWith (fun x o => alpha * o.logProb - min (critic1 x o.act) (critic2 x o.act)) obs
      (forward eps det true (obs.map fun x => normalDist (loc x) (List.replicate d (Real.exp L))) draw), z ≤ B - 1 := by
    intro z hz
    obtain ⟨i, hi, rfl⟩ := List.getElem_of_mem hz
    simp only [forward, List.getElem_zipWith, List.getElem_map, List.getElem_zipIdx, Bool.not_true, Bool.and_false, Bool.false_eq_true, if_false,
      zero_add]
    exact hrow _ _
  have hsum := List.sum_le_card_nsmul _ _ hall
  rw [hlen] at hsum ⊢
  have hpos : (0 : ℝ) < obs.length := by exact_mod_cast List.length_pos_iff.mpr hne
  rw [div_lt_iff₀ hpos]
  rw [nsmul_eq_mul] at hsum
  nlinarith

/-! ### Examples -/

instance : IsFiniteMeasure (cube d) := by
  constructor
  unfold cube
  have h : {y : Fin d → ℝ | ∀ j, -1 < y j ∧ y j < 1} = Set.univ.pi fun _ => Set.Ioo (-1 : ℝ) 1 := by
    ext y
    simp
  rw [Measure.restrict_apply_univ, h, Real.volume_pi_Ioo]
  simp

theorem integrable_bounded (mu : Measure (Fin d → ℝ)) [IsFiniteMeasure mu] (f : (Fin d → ℝ) → ℝ) (hf : Measurable f) (C : ℝ) (h : ∀ y, |f y| ≤ C) :
    Integrable f mu :=
  Integrable.of_bound hf.aestronglyMeasurable C (Filter.Eventually.of_forall fun y => by simpa using h y)

/-- Two critics of two-dimensional actions. -/
noncomputable def exampleCritic1 (_ : Unit) (a : List ℝ) : ℝ := Real.sin a.sum
noncomputable def exampleCritic2 (_ : Unit) (a : List ℝ) : ℝ := Real.cos a.sum

theorem exampleTame (mu : Measure (Fin 2 → ℝ)) [IsFiniteMeasure mu] :
    Measurable (smaller exampleCritic1 exampleCritic2 2 ()) ∧ Integrable (smaller exampleCritic1 exampleCritic2 2 ()) mu ∧
      Integrable (fun y => Real.exp (smaller exampleCritic1 exampleCritic2 2 () y / 1)) mu := by
  have hm : Measurable (smaller exampleCritic1 exampleCritic2 2 ()) := by
    unfold smaller exampleCritic1 exampleCritic2
    simp only [List.sum_ofFn]
    fun_prop
  have hb : ∀ y, |smaller exampleCritic1 exampleCritic2 2 () y| ≤ 1 := by
    intro y
    unfold smaller exampleCritic1 exampleCritic2
    rcases min_choice (Real.sin (List.ofFn y).sum) (Real.cos (List.ofFn y).sum) with h | h <;> rw [h]
    · exact Real.abs_sin_le_one _
    · exact Real.abs_cos_le_one _
  refine ⟨hm, integrable_bounded mu _ hm 1 hb, integrable_bounded mu _ (by fun_prop) (Real.exp 1) fun y => ?_⟩
  rw [abs_of_pos (Real.exp_pos _)]
  exact Real.exp_le_exp.mpr (by rw [div_one]; exact (abs_le.mp (hb y)).2)

/-- The uniform law on the square. -/
noncomputable def exampleFlat (y : Fin 2 → ℝ) : ℝ := (fun _ => 0 : (Fin 2 → ℝ) → ℝ) y / 1 - Real.log (normaliser 1 (fun _ => 0 : (Fin 2 → ℝ) → ℝ))

instance : IsProbabilityMeasure (lawOf exampleFlat) := isProbabilityMeasure_boltzmann 1 (fun _ => 0) (integrable_const _)

/-- Uniform actions for three observations meet the hypotheses of `C264_loss_partial` and `C264_best_partial`. -/
example : ∃ act : Fin 3 → (Fin 2 → ℝ) → Fin 2 → ℝ, Drawn (lawOf exampleFlat) act (fun _ => exampleFlat) ∧
    ∀ i : Fin 3, Tame 1 (smaller exampleCritic1 exampleCritic2 2 ((fun _ => ()) i)) exampleFlat := by
  refine ⟨fun _ y => y, ⟨fun _ => measurable_id, fun _ => measurable_const, fun _ => Measure.map_id, fun _ => integrable_const _⟩, fun _ => ?_⟩
  exact ⟨(exampleTame (cube 2)).1, (exampleTame (cube 2)).2.2, (exampleTame (lawOf exampleFlat)).2.1⟩

/-- One state from which the episode goes on with probability 1/2. -/
noncomputable def exampleMdp : Mdp Unit 2 where
  rew s y := smaller exampleCritic1 exampleCritic2 2 s y
  next _ _ _ := 1 / 2

/-- A critic for it that only looks at two components of the action. -/
noncomputable def exampleSoft (w : ℝ) (_ : Unit) (a : List ℝ) : ℝ := smaller exampleCritic1 exampleCritic2 2 () (fun j => a.getD j 0) + 1 / 4 * w

theorem exampleSoft_ofFn (w : ℝ) (s : Unit) (y : Fin 2 → ℝ) : exampleSoft w s (List.ofFn y) = smaller exampleCritic1 exampleCritic2 2 () y + 1 / 4 * w := by
  have : (fun j : Fin 2 => (List.ofFn y).getD j 0) = y := by
    funext j
    fin_cases j <;> rfl
  rw [exampleSoft, this]

/-- The hypotheses of `C264_improves` are met by the uniform policy and the one proportional to the exponential of its soft values, so the latter has the larger values. -/
example : ∃ (l l' : Unit → (Fin 2 → ℝ) → ℝ) (v v' : Unit → ℝ) (critic : Unit → List ℝ → ℝ), l ≠ l' ∧ exampleMdp.Policy l ∧ exampleMdp.Policy l' ∧
    exampleMdp.SoftValues (1 / 2) 1 l v ∧ exampleMdp.SoftValues (1 / 2) 1 l' v' ∧ (∀ s y, critic s (List.ofFn y) = exampleMdp.soft (1 / 2) v s y) ∧
    ∀ s, lossAt critic critic 1 l' s ≤ lossAt critic critic 1 l s := by
  -- the value of a policy in an environment with one state
  have hval : ∀ l : Unit → (Fin 2 → ℝ) → ℝ, exampleMdp.Policy l →
      ∃ v : Unit → ℝ, exampleMdp.SoftValues (1 / 2) 1 l v := by
    intro l hl
    have := hl.prob ()
    refine ⟨fun _ => (∫ y, (exampleMdp.rew () y - l () y) ∂lawOf (l ())) / (3 / 4), fun s => ?_⟩
    set I := ∫ y, (exampleMdp.rew () y - l () y) ∂lawOf (l ()) with hI
    have e : ∀ y, exampleMdp.soft (1 / 2) (fun _ => I / (3 / 4)) s y - 1 * l s y = (exampleMdp.rew () y - l () y) + I / 3 := by
      intro y
      simp [Mdp.soft, exampleMdp]
      ring
    simp only [e]
    have i1 : Integrable (fun y => exampleMdp.rew () y - l () y) (lawOf (l ())) := (hl.rew ()).sub (hl.entropy ())
    rw [show l s = l () from rfl, integral_add i1 (integrable_const _), ← hI]
    simp
    ring
  have hflat : exampleMdp.Policy fun _ => exampleFlat :=
    ⟨fun _ => inferInstance, fun _ => integrable_const _, fun _ => (exampleTame (lawOf exampleFlat)).2.1, fun _ _ => integrable_const _⟩
  obtain ⟨v, hv⟩ := hval _ hflat
  set q : (Fin 2 → ℝ) → ℝ := exampleMdp.soft (1 / 2) v () with hq
  have hqe : ∀ y, q y = smaller exampleCritic1 exampleCritic2 2 () y + 1 / 4 * v () := by
    intro y
    simp [hq, Mdp.soft, exampleMdp]
    ring
  have hqf : q = fun y => smaller exampleCritic1 exampleCritic2 2 () y + 1 / 4 * v () := funext hqe
  have hqm : Measurable q := by
    rw [hqf]
    exact (exampleTame (cube 2)).1.add_const _
  have hexp : Integrable (fun y => Real.exp (q y / 1)) (cube 2) := by
    have e : (fun y => Real.exp (q y / 1)) = fun y => Real.exp (smaller exampleCritic1 exampleCritic2 2 () y / 1) * Real.exp (1 / 4 * v ()) := by
      funext y
      rw [hqe, ← Real.exp_add]
      congr 1
      ring
    rw [e]
    exact (exampleTame (cube 2)).2.2.mul_const _
  have hqi : ∀ mu : Measure (Fin 2 → ℝ), IsFiniteMeasure mu → Integrable q mu := by
    intro mu _
    rw [hqf]
    exact (exampleTame mu).2.1.add (integrable_const _)
  set l' : (Fin 2 → ℝ) → ℝ := fun y => q y / 1 - Real.log (normaliser 1 q) with hl'
  have hp' : IsProbabilityMeasure (lawOf l') := isProbabilityMeasure_boltzmann 1 q hexp
  have hl'm : Measurable l' := (hqm.div_const _).sub_const _
  have hl'i : Integrable l' (lawOf l') := ((hqi _ inferInstance).div_const _).sub (integrable_const _)
  have hpol : exampleMdp.Policy fun _ => l' :=
    ⟨fun _ => hp', fun _ => hl'i, fun _ => (exampleTame (lawOf l')).2.1, fun _ _ => integrable_const _⟩
  obtain ⟨v', hv'⟩ := hval _ hpol
  refine ⟨fun _ => exampleFlat, fun _ => l', v, v', exampleSoft (v ()), ?_,
    hflat, hpol, hv, hv', ?_, ?_⟩
  · intro h
    have h0 := congrFun (congrFun h ()) (fun _ => 0)
    have h1 := congrFun (congrFun h ()) (fun _ => Real.pi / 2)
    simp only [exampleFlat, hl', hqe, smaller, exampleCritic1, exampleCritic2, List.sum_ofFn, Fin.sum_univ_two] at h0 h1
    rw [add_halves, Real.sin_pi, Real.cos_pi] at h1
    rw [add_zero, Real.sin_zero, Real.cos_zero] at h0
    norm_num at h0 h1
    linarith
  · intro s y
    change _ = q y
    rw [hqe, exampleSoft_ofFn]
  · intro s
    have hloss : ∀ l : (Fin 2 → ℝ) → ℝ, Measurable l → IsProbabilityMeasure (lawOf l) → Integrable l (lawOf l) →
        lossAt (exampleSoft (v ()))
          (exampleSoft (v ())) 1 (fun _ => l) s =
        (klDiv (lawOf l) (boltzmann 1 q)).toReal - Real.log (normaliser 1 q) := by
      intro l hlm hp hi
      rw [(klDiv_boltzmann 1 q l hlm ⟨hqm, hexp, hqi _ inferInstance⟩ hp hi).1]
      unfold lossAt
      have e : ∀ y : Fin 2 → ℝ, sacActorLoss (exampleSoft (v ()))
          (exampleSoft (v ())) 1 [s] [⟨List.ofFn y, l y⟩] = l y - q y := by
        intro y
        simp only [sacActorLoss, Ppo.mean, List.zipWith_cons_cons, List.zipWith_nil_left, exampleSoft_ofFn, min_self, hqe, List.sum_cons, List.sum_nil,
          List.length_cons, List.length_nil]
        simp
      simp only [e]
      rw [integral_sub hi (hqi _ inferInstance)]
      ring
    rw [hloss exampleFlat measurable_const inferInstance (integrable_const _), hloss _ hl'm hp' hl'i]
    have hz : klDiv (lawOf l') (boltzmann 1 q) = 0 := klDiv_self _
    rw [hz]
    simp

end Verif.SacLoss
