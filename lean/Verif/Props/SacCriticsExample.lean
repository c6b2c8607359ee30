import Verif.Props.SacCritics
import Mathlib.Probability.Distributions.Gaussian.Real
import Mathlib.MeasureTheory.Integral.Prod

/-!
A case that meets all hypotheses of C265: two states that alternate, rewards that depend on the action in one of them, an actor that draws standard normal numbers, and
batches collected with it.
-/

namespace Verif.SacLoss

open Verif.Squash Verif.ActorCritic Verif.Critics Verif.Returns Verif.PolicyGradient MeasureTheory ProbabilityTheory

/-- The states alternate; in state `true` the reward is the action. -/
noncomputable def turns : Env Bool (Fin 1 → ℝ) where
  init _ := 1 / 2
  next s _ s' := if s' = !s then 1 else 0
  rew s y _ := if s then y 0 else 0
  ends _ _ _ := false

theorem turns_proper : Proper turns where
  nonneg s y s' := by
    unfold turns
    dsimp only
    split <;> norm_num
  sum s y := by simp [turns]
  next s s' := measurable_const
  rew s s' := by
    unfold turns
    cases s
    · exact measurable_const
    · exact measurable_pi_apply 0
  ends s s' := measurable_const
  bounded := ⟨1, fun s y s' hy => by
    unfold turns
    cases s
    · simp
    · simpa using hy 0⟩

theorem turns_lookahead (gamma : ℝ) (v : Bool → ℝ) (s : Bool) (y : Fin 1 → ℝ) :
    lookahead turns gamma v s y = (if s then y 0 else 0) + gamma * v (!s) := by
  cases s <;> simp [lookahead, turns]

/-- An actor with `loc = 0` and `scale = 1`. -/
noncomputable def normalActor (eps : ℝ) : Actor Bool 1 where
  law _ := Measure.pi fun _ => gaussianReal 0 1
  logp _ ξ := (normalDist [0] [1]).logProb (List.ofFn ξ) - ∑ j, Real.log (1 - Real.tanh (ξ j) ^ 2 + eps)

theorem normalActor_logp (eps : ℝ) (s : Bool) (ξ : Fin 1 → ℝ) :
    (normalActor eps).logp s ξ = -(ξ 0) ^ 2 / 2 - Real.log (Real.sqrt (2 * Real.pi)) - Real.log (1 - Real.tanh (ξ 0) ^ 2 + eps) := by
  simp [normalActor, normalDist]

theorem measurable_logp (eps : ℝ) (s : Bool) : Measurable ((normalActor eps).logp s) := by
  have ht1 : Measurable Real.tanh := by
    have : Real.tanh = fun x => Real.sinh x / Real.cosh x := funext Real.tanh_eq_sinh_div_cosh
    rw [this]
    exact Real.measurable_sinh.div Real.measurable_cosh
  have h0 : Measurable fun ξ : Fin 1 → ℝ => ξ 0 := measurable_pi_apply 0
  have : (normalActor eps).logp s = fun ξ => -(ξ 0) ^ 2 / 2 - Real.log (Real.sqrt (2 * Real.pi)) - Real.log (1 - Real.tanh (ξ 0) ^ 2 + eps) :=
    funext (normalActor_logp eps s)
  rw [this]
  exact (((h0.pow_const 2).neg.div_const 2).sub_const _).sub (Real.measurable_log.comp ((((ht1.comp h0).pow_const 2).const_sub 1).add_const eps))

theorem memLp_logp (eps : ℝ) (he : 0 < eps) (s : Bool) : MemLp ((normalActor eps).logp s) 2 (Measure.pi fun _ : Fin 1 => gaussianReal 0 1) := by
  have h1 : MemLp (fun ξ : Fin 1 → ℝ => (ξ 0) ^ 2) 2 (Measure.pi fun _ : Fin 1 => gaussianReal 0 1) := by
    have h2 : MemLp (fun x : ℝ => x ^ 2) 2 (gaussianReal 0 1) := by
      rw [memLp_two_iff_integrable_sq (by fun_prop)]
      have := (memLp_id_gaussianReal (μ := 0) (v := 1) 4).integrable_norm_pow (by norm_num)
      refine this.congr (Filter.Eventually.of_forall fun x => ?_)
      simp only [id, Real.norm_eq_abs, ← pow_mul]
      exact Even.pow_abs (by decide) x
    exact h2.comp_measurePreserving (measurePreserving_eval (fun _ : Fin 1 => gaussianReal 0 1) 0)
  have hdom : MemLp (fun ξ : Fin 1 → ℝ => (ξ 0) ^ 2 + (|Real.log (Real.sqrt (2 * Real.pi))| + (|Real.log eps| + |Real.log (1 + eps)|))) 2
      (Measure.pi fun _ : Fin 1 => gaussianReal 0 1) := h1.add (memLp_const _)
  refine hdom.of_le (measurable_logp eps s).aestronglyMeasurable (Filter.Eventually.of_forall fun ξ => ?_)
  rw [Real.norm_eq_abs, Real.norm_eq_abs, normalActor_logp]
  refine le_trans ?_ (le_abs_self _)
  have t0 : 0 ≤ Real.tanh (ξ 0) ^ 2 := sq_nonneg _
  have t1 : Real.tanh (ξ 0) ^ 2 ≤ 1 := by
    have := Real.neg_one_lt_tanh (ξ 0)
    have := Real.tanh_lt_one (ξ 0)
    nlinarith
  have l1 : Real.log eps ≤ Real.log (1 - Real.tanh (ξ 0) ^ 2 + eps) := Real.log_le_log he (by linarith)
  have l2 : Real.log (1 - Real.tanh (ξ 0) ^ 2 + eps) ≤ Real.log (1 + eps) := Real.log_le_log (by linarith) (by linarith)
  have a1 := neg_abs_le (Real.log eps)
  have a2 := le_abs_self (Real.log (1 + eps))
  have a3 := neg_abs_le (Real.log (Real.sqrt (2 * Real.pi)))
  have a4 := le_abs_self (Real.log (Real.sqrt (2 * Real.pi)))
  have a5 := abs_nonneg (Real.log eps)
  have a6 := abs_nonneg (Real.log (1 + eps))
  have a7 := sq_nonneg (ξ 0)
  rw [abs_le]
  constructor <;> linarith

theorem normalActor_proper (eps : ℝ) (he : 0 < eps) : (normalActor eps).Proper where
  prob s := by
    change IsProbabilityMeasure (Measure.pi fun _ : Fin 1 => gaussianReal 0 1)
    infer_instance
  measurable := measurable_logp eps
  integrable s := (memLp_logp eps he s).integrable (by norm_num)

/-- Critics that are linear in the action, with different coefficients in the two states. -/
def lines (w : Weights) (s : Bool) (y : List ℝ) : ℝ := (w.getD s.toNat []).getD 0 0 + (w.getD s.toNat []).getD 1 0 * y.headD 0

/-- Their parameters. -/
def Coefficients (w : Weights) : Prop := ∃ a b a' b', w = [[a, b], [a', b']]

theorem lines_family (gamma tau : ℝ) : Family turns gamma tau lines Coefficients where
  closed := by
    rintro w w' ⟨a, b, a', b', rfl⟩ ⟨c, d, c', d', rfl⟩
    exact ⟨_, _, _, _, rfl⟩
  mixes := by
    rintro w w' s y ⟨a, b, a', b', rfl⟩ ⟨c, d, c', d', rfl⟩
    cases s <;> simp [lines, soft, Policy.softUpdate, Policy.softUpdate1] <;> ring
  measurable w s := by
    unfold lines
    have : ∀ y : Fin 1 → ℝ, (List.ofFn y).headD 0 = y 0 := fun y => by simp
    simp only [this]
    exact ((measurable_pi_apply 0).const_mul _).const_add _
  bounded w := by
    refine ⟨∑ s : Bool, (|(w.getD s.toNat []).getD 0 0| + |(w.getD s.toNat []).getD 1 0|), fun s y hy => ?_⟩
    have h1 : |lines w s (List.ofFn y)| ≤ |(w.getD s.toNat []).getD 0 0| + |(w.getD s.toNat []).getD 1 0| := by
      unfold lines
      refine (abs_add_le _ _).trans (add_le_add le_rfl ?_)
      rw [abs_mul]
      have : (List.ofFn y).headD 0 = y 0 := by simp
      rw [this]
      exact mul_le_of_le_one_right (abs_nonneg _) (hy 0)
    exact h1.trans (Finset.single_le_sum (f := fun s : Bool => |(w.getD s.toNat []).getD 0 0| + |(w.getD s.toNat []).getD 1 0|)
      (fun s _ => by positivity) (Finset.mem_univ s))
  represents v := by
    refine ⟨[[gamma * v true, 0], [gamma * v false, 1]], ⟨_, _, _, _, rfl⟩, fun s y _ => ?_⟩
    rw [turns_lookahead]
    cases s <;> simp [lines]
    ring

/-- Batches of two transitions, one for each state, with actions taken by the actor. -/
noncomputable def turnsBatches (eps : ℝ) (he : 0 < eps) :
    SacBatches turns (normalActor eps) ((Measure.pi fun _ : Fin 1 => gaussianReal 0 1).prod (Measure.pi fun _ : Fin 1 => gaussianReal 0 1)) 2 where
  state _ p := decide (p = 1)
  act ω _ := squash ω.1
  nexts _ p := !decide (p = 1)
  raw ω _ := ω.2
  index _ p := p
  view ω := ⟨fun i => if i = 1 then squash ω.1 0 else 0, fun _ => false, fun _ => false, [], fun i => i⟩
  inputs _ i := !decide (i = 1)
  measurable_state _ := measurable_const
  measurable_act _ := measurable_squash.comp measurable_fst
  measurable_nexts _ := measurable_const
  measurable_raw _ := measurable_snd
  inside ω _ := inside_squash ω.1
  drawn p f hf hi := by
    rw [integral_prod _ hi]
    have e1 : ∀ ω : (Fin 1 → ℝ) × (Fin 1 → ℝ), ∑ s', turns.next (decide (p = 1)) (squash ω.1) s' *
        ∫ ξ, f (decide (p = 1)) s' (squash ω.1, ξ) ∂(normalActor eps).law s' =
        ∫ ξ, f (decide (p = 1)) (!decide (p = 1)) (squash ω.1, ξ) ∂Measure.pi fun _ : Fin 1 => gaussianReal 0 1 := by
      intro ω
      simp [turns, normalActor]
    simp only [e1]
    have hi2 : Integrable (fun z : Fin 1 → ℝ => ∫ ξ, f (decide (p = 1)) (!decide (p = 1)) (squash z, ξ) ∂Measure.pi fun _ : Fin 1 => gaussianReal 0 1)
        (Measure.pi fun _ : Fin 1 => gaussianReal 0 1) := hi.integral_prod_left
    rw [integral_prod _ (hi2.comp_fst _)]
    simp
  square p := ((memLp_logp eps he (!decide (p = 1))).integrable_sq).comp_snd _
  rew ω p := by
    fin_cases p <;> simp [turns]
  terminated _ _ := rfl
  next _ p := by
    fin_cases p <;> rfl

theorem turnsBatches_covers (eps : ℝ) (he : 0 < eps) : Covers (turnsBatches eps he) fun _ => 1 := by
  intro B hB h s
  have h2 : ∀ᵐ ω : (Fin 1 → ℝ) × (Fin 1 → ℝ) ∂(Measure.pi fun _ : Fin 1 => gaussianReal 0 1).prod (Measure.pi fun _ : Fin 1 => gaussianReal 0 1),
      squash ω.1 ∉ B s := by
    filter_upwards [h] with ω hω
    cases s
    · exact hω 0 one_pos
    · exact hω 1 one_pos
  have h3 := Measure.ae_ae_of_ae_prod h2
  filter_upwards [h3] with ξ hξ
  obtain ⟨_, h4⟩ := hξ.exists
  exact h4

/-- All hypotheses of `C265_round` can be met in this case: the optimisers exist, and so do the values. -/
example (eps gamma alpha tau : ℝ) (he : 0 < eps) (hg : 0 ≤ gamma) (hg1 : gamma < 1) (actor w1 w2 : Weights) :
    Proper turns ∧ (normalActor eps).Proper ∧ Family turns gamma tau lines Coefficients ∧ (normalActor eps).Computed (fun _ => normalDist [0] [1]) eps ∧
    Covers (turnsBatches eps he) (fun _ => 1) ∧ (∃ v, (normalActor eps).Values turns gamma alpha v) ∧
    ∃ (o : Nat → Opt Weights) (st : Nat → ActorCritic.Nets Weights), st 0 = Nets.new actor w1 w2 ∧ (∀ k, st (k + 1) = sacLearn (soft tau) (o k) (st k)) ∧
      (∀ k, Fit (sacLoss (turnsBatches eps he) lines (fun _ => normalDist [0] [1]) eps true gamma alpha (fun _ => 1) (st k)) Coefficients (st (k + 1)).critic) ∧
      ∀ k, Fit (sacLoss (turnsBatches eps he) lines (fun _ => normalDist [0] [1]) eps true gamma alpha (fun _ => 1) (st k)) Coefficients (st (k + 1)).critic2 := by
  have hc : (normalActor eps).Computed (fun _ => normalDist [0] [1]) eps := fun s ξ => rfl
  refine ⟨turns_proper, normalActor_proper eps he, lines_family gamma tau, hc, turnsBatches_covers eps he,
    (C265_values turns turns_proper (normalActor eps) (normalActor_proper eps he) gamma alpha hg hg1).exists, ?_⟩
  choose best hbest using C265_exists turns turns_proper (normalActor eps) (normalActor_proper eps he) gamma alpha tau lines Coefficients (lines_family gamma tau)
    (fun _ => normalDist [0] [1]) eps hc true (turnsBatches eps he) (fun _ => 1) fun _ => zero_le_one
  let o : Opt Weights := ⟨best, best, fun s => s.actor⟩
  let st : Nat → ActorCritic.Nets Weights := fun k => Nat.rec (Nets.new actor w1 w2) (fun _ s => sacLearn (soft tau) o s) k
  -- the second critic is fitted to the same targets as the first
  have hsame : ∀ (s s' : ActorCritic.Nets Weights), s.criticOld = s'.criticOld → s.critic2Old = s'.critic2Old →
      sacLoss (turnsBatches eps he) lines (fun _ => normalDist [0] [1]) eps true gamma alpha (fun _ => 1) s =
      sacLoss (turnsBatches eps he) lines (fun _ => normalDist [0] [1]) eps true gamma alpha (fun _ => 1) s' := by
    intro s s' h1 h2
    funext w
    unfold sacLoss
    rw [h1, h2]
  refine ⟨fun _ => o, st, rfl, fun k => rfl, fun k => hbest (st k), fun k => ?_⟩
  have := hbest { st k with critic := best (st k) }
  have e := hsame { st k with critic := best (st k) } (st k) rfl rfl
  exact e ▸ this

end Verif.SacLoss
