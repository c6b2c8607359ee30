import Verif.Props.Critics
import Verif.Props.SacActor
import Mathlib.MeasureTheory.Function.L2Space
import Mathlib.Topology.MetricSpace.Contracting

/-!
C265: the critics of SAC learn the soft values of the actor.
-/

namespace Verif.SacLoss

open Verif.Squash Verif.ActorCritic Verif.Critics Verif.Returns Verif.PolicyGradient MeasureTheory

set_option linter.unusedSectionVars false

/-! ### Specification -/

variable {S Ω W : Type} [Fintype S] [MeasurableSpace S] [MeasurableSingletonClass S] [MeasurableSpace Ω] {d n : Nat}

/-- An action that an actor can take (before it is scaled to the environment's range). -/
def Inside (y : Fin d → ℝ) : Prop := ∀ j, |y j| ≤ 1

/-- The action for the number that was drawn. -/
noncomputable def squash (ξ : Fin d → ℝ) (j : Fin d) : ℝ := Real.tanh (ξ j)

/-- An environment with finitely many states and actions in a box: probabilities, bounded rewards, and everything depends measurably on the action. -/
structure Proper (e : Env S (Fin d → ℝ)) : Prop where
  nonneg : ∀ s y s', 0 ≤ e.next s y s'
  sum : ∀ s y, ∑ s', e.next s y s' = 1
  next : ∀ s s', Measurable fun y => e.next s y s'
  rew : ∀ s s', Measurable fun y => e.rew s y s'
  ends : ∀ s s', Measurable fun y => e.ends s y s'
  bounded : ∃ R, ∀ s y s', Inside y → |e.rew s y s'| ≤ R

/-- The expected reward of an action plus the discounted value of the next state, which is 0 at the end of an episode. -/
noncomputable def lookahead (e : Env S (Fin d → ℝ)) (gamma : ℝ) (v : S → ℝ) (s : S) (y : Fin d → ℝ) : ℝ :=
  ∑ s', e.next s y s' * (e.rew s y s' + gamma * if e.ends s y s' then 0 else v s')

/-- What an actor does: in state `s` it draws numbers from `law s`, and the policy computes the log-probability `logp s` for them. -/
structure Actor (S : Type) (d : Nat) where
  law : S → Measure (Fin d → ℝ)
  logp : S → (Fin d → ℝ) → ℝ

/-- The log-probabilities have finite expectation. -/
structure Actor.Proper (a : Actor S d) : Prop where
  prob : ∀ s, IsProbabilityMeasure (a.law s)
  measurable : ∀ s, Measurable (a.logp s)
  integrable : ∀ s, Integrable (a.logp s) (a.law s)

/-- `v` are the soft values of the actor: Bellman's equation with the reward `-alpha * log_prob` for each action taken. (If `log_prob` is the log-density of the
action, see C264, its expectation is the entropy.) -/
def Actor.Values (a : Actor S d) (e : Env S (Fin d → ℝ)) (gamma alpha : ℝ) (v : S → ℝ) : Prop :=
  ∀ s, v s = ∫ ξ, (lookahead e gamma v s (squash ξ) - alpha * a.logp s ξ) ∂a.law s

/-- A random batch of `n` transitions from a buffer with what is drawn for the next states: the next states are drawn as the environment says, and the numbers for them
as the actor says, whatever the states and actions in the batch are. -/
structure SacBatches (e : Env S (Fin d → ℝ)) (a : Actor S d) (P : Measure Ω) (n : Nat) where
  state : Ω → Fin n → S
  act : Ω → Fin n → Fin d → ℝ
  nexts : Ω → Fin n → S
  raw : Ω → Fin n → Fin d → ℝ
  index : Ω → Fin n → Nat
  view : Ω → View ℝ
  inputs : Ω → Nat → S
  measurable_state : ∀ p, Measurable fun ω => state ω p
  measurable_act : ∀ p, Measurable fun ω => act ω p
  measurable_nexts : ∀ p, Measurable fun ω => nexts ω p
  measurable_raw : ∀ p, Measurable fun ω => raw ω p
  inside : ∀ ω p, Inside (act ω p)
  drawn : ∀ p (f : S → S → (Fin d → ℝ) × (Fin d → ℝ) → ℝ), (∀ s s', Measurable (f s s')) →
    Integrable (fun ω => f (state ω p) (nexts ω p) (act ω p, raw ω p)) P →
    ∫ ω, f (state ω p) (nexts ω p) (act ω p, raw ω p) ∂P =
      ∫ ω, ∑ s', e.next (state ω p) (act ω p) s' * ∫ ξ, f (state ω p) s' (act ω p, ξ) ∂a.law s' ∂P
  square : ∀ p, Integrable (fun ω => a.logp (nexts ω p) (raw ω p) ^ 2) P
  rew : ∀ ω p, (view ω).rew (index ω p) = e.rew (state ω p) (act ω p) (nexts ω p)
  terminated : ∀ ω p, (view ω).terminated (index ω p) = e.ends (state ω p) (act ω p) (nexts ω p)
  next : ∀ ω p, inputs ω (index ω p) = nexts ω p

/-- Critics: networks `net w` with parameters `w` (those with `ok w`) that are linear in the parameters, so that `soft_update` mixes their values, and that can represent
the reward plus discounted value, whatever the values are. -/
structure Family (e : Env S (Fin d → ℝ)) (gamma tau : ℝ) (net : Weights → S → List ℝ → ℝ) (ok : Weights → Prop) : Prop where
  closed : ∀ w w', ok w → ok w' → ok (soft tau w w')
  mixes : ∀ w w' s y, ok w → ok w' → net (soft tau w w') s y = tau * net w' s y + (1 - tau) * net w s y
  measurable : ∀ w s, Measurable fun y : Fin d → ℝ => net w s (List.ofFn y)
  bounded : ∀ w, ∃ C, ∀ s (y : Fin d → ℝ), Inside y → |net w s (List.ofFn y)| ≤ C
  represents : ∀ v, ∃ w, ok w ∧ ∀ s (y : Fin d → ℝ), Inside y → net w s (List.ofFn y) = lookahead e gamma v s y

/-- The expected loss of a critic with parameters `w` if the targets are computed from the target networks of `s`; `dist` are the distributions of the actor. -/
noncomputable def sacLoss {e : Env S (Fin d → ℝ)} {a : Actor S d} {P : Measure Ω} (b : SacBatches e a P n) (net : Weights → S → List ℝ → ℝ) (dist : S → Dist)
    (eps : ℝ) (det : Bool) (gamma alpha : ℝ) (weight : Fin n → ℝ) (s : ActorCritic.Nets Weights) (w : Weights) : ℝ :=
  ∫ ω, (loss (sacTargetQ eps det dist (net s.criticOld) (net s.critic2Old) alpha fun q => if h : q < n then List.ofFn (b.raw ω ⟨q, h⟩) else [])
    (net w) (b.view ω) (b.inputs ω) (List.ofFn (b.state ω)) (List.ofFn fun p => List.ofFn (b.act ω p)) (List.ofFn (b.index ω)) gamma 1
    (List.ofFn weight)).getD 0 ∂P

/-- `w` has the smallest loss. -/
def Fit (L : Weights → ℝ) (ok : Weights → Prop) (w : Weights) : Prop := ok w ∧ ∀ w', ok w' → L w ≤ L w'

/-- `logp` is what the policy computes from the distributions: the log-density of the number drawn, corrected for the squashing. -/
def Actor.Computed (a : Actor S d) (dist : S → Dist) (eps : ℝ) : Prop :=
  ∀ s ξ, a.logp s ξ = (dist s).logProb (List.ofFn ξ) - ∑ j, Real.log (1 - Real.tanh (ξ j) ^ 2 + eps)

/-- The actor does only what occurs in the batches: a set of states and actions that (almost) never occurs in rows with positive weight is one that the actor (almost)
never visits. -/
def Covers {e : Env S (Fin d → ℝ)} {a : Actor S d} {P : Measure Ω} (b : SacBatches e a P n) (weight : Fin n → ℝ) : Prop :=
  ∀ B : S → Set (Fin d → ℝ), (∀ s, MeasurableSet (B s)) → (∀ᵐ ω ∂P, ∀ p, 0 < weight p → b.act ω p ∉ B (b.state ω p)) →
    ∀ s, ∀ᵐ ξ ∂a.law s, squash ξ ∉ B s

/-! ### Helpers -/

theorem measurable_squash : Measurable (squash (d := d)) := by
  have ht1 : Measurable Real.tanh := by
    have : Real.tanh = fun x => Real.sinh x / Real.cosh x := funext Real.tanh_eq_sinh_div_cosh
    rw [this]
    exact Real.measurable_sinh.div Real.measurable_cosh
  exact measurable_pi_lambda _ fun j => ht1.comp (measurable_pi_apply j)

theorem inside_squash (ξ : Fin d → ℝ) : Inside (squash ξ) := fun j => abs_le.mpr ⟨(Real.neg_one_lt_tanh _).le, (Real.tanh_lt_one _).le⟩

theorem measurable_lookahead (e : Env S (Fin d → ℝ)) (he : Proper e) (gamma : ℝ) (v : S → ℝ) (s : S) : Measurable (lookahead e gamma v s) := by
  unfold lookahead
  refine Finset.measurable_sum _ fun s' _ => (he.next s s').mul ((he.rew s s').add (Measurable.const_mul ?_ gamma))
  exact Measurable.ite (measurableSet_eq_fun (he.ends s s') measurable_const) measurable_const measurable_const

theorem lookahead_bounded (e : Env S (Fin d → ℝ)) (he : Proper e) (gamma : ℝ) (v : S → ℝ) : ∃ C, ∀ s y, Inside y → |lookahead e gamma v s y| ≤ C := by
  obtain ⟨R, hR⟩ := he.bounded
  refine ⟨|R| + |gamma| * ∑ s', |v s'|, fun s y hy => ?_⟩
  have h1 : ∀ s', |e.next s y s' * (e.rew s y s' + gamma * if e.ends s y s' then 0 else v s')| ≤ e.next s y s' * (|R| + |gamma| * ∑ s', |v s'|) := by
    intro s'
    rw [abs_mul, abs_of_nonneg (he.nonneg s y s')]
    refine mul_le_mul_of_nonneg_left ((abs_add_le _ _).trans (add_le_add ((hR s y s' hy).trans (le_abs_self R)) ?_)) (he.nonneg s y s')
    rw [abs_mul]
    refine mul_le_mul_of_nonneg_left ?_ (abs_nonneg gamma)
    have h2 : |v s'| ≤ ∑ s', |v s'| := Finset.single_le_sum (f := fun s' => |v s'|) (fun s' _ => abs_nonneg _) (Finset.mem_univ s')
    split
    · rw [abs_zero]
      exact (abs_nonneg _).trans h2
    · exact h2
  refine (Finset.abs_sum_le_sum_abs _ _).trans ((Finset.sum_le_sum fun s' _ => h1 s').trans ?_)
  rw [← Finset.sum_mul, he.sum, one_mul]

theorem lookahead_dist (e : Env S (Fin d → ℝ)) (he : Proper e) (gamma : ℝ) (hg : 0 ≤ gamma) (v v' : S → ℝ) (D : ℝ) (hD : 0 ≤ D) (h : ∀ s, |v s - v' s| ≤ D)
    (s : S) (y : Fin d → ℝ) : |lookahead e gamma v s y - lookahead e gamma v' s y| ≤ gamma * D := by
  unfold lookahead
  rw [← Finset.sum_sub_distrib]
  have h1 : ∀ s', |e.next s y s' * (e.rew s y s' + gamma * if e.ends s y s' then 0 else v s') -
      e.next s y s' * (e.rew s y s' + gamma * if e.ends s y s' then 0 else v' s')| ≤ e.next s y s' * (gamma * D) := by
    intro s'
    rw [← mul_sub, abs_mul, abs_of_nonneg (he.nonneg s y s')]
    refine mul_le_mul_of_nonneg_left ?_ (he.nonneg s y s')
    cases e.ends s y s'
    · simp only [Bool.false_eq_true, if_false, add_sub_add_left_eq_sub, ← mul_sub, abs_mul, abs_of_nonneg hg]
      exact mul_le_mul_of_nonneg_left (h s') hg
    · simp only [if_true, sub_self, abs_zero]
      exact mul_nonneg hg hD
  refine (Finset.abs_sum_le_sum_abs _ _).trans ((Finset.sum_le_sum fun s' _ => h1 s').trans ?_)
  rw [← Finset.sum_mul, he.sum, one_mul]

theorem measurable_rows (g : S → S → (Fin d → ℝ) × (Fin d → ℝ) → ℝ) (hg : ∀ s s', Measurable (g s s')) (s s' : Ω → S) (y z : Ω → Fin d → ℝ)
    (hs : Measurable s) (hs' : Measurable s') (hy : Measurable y) (hz : Measurable z) : Measurable fun ω => g (s ω) (s' ω) (y ω, z ω) := by
  have h : Measurable fun x : ((Fin d → ℝ) × (Fin d → ℝ)) × (S × S) => g x.2.1 x.2.2 x.1 := measurable_from_prod_countable_left fun p => hg p.1 p.2
  exact h.comp ((hy.prodMk hz).prodMk (hs.prodMk hs'))

/-- The mean square error compared with that of the conditional expectations. -/
theorem regression_integral (P : Measure Ω) [IsProbabilityMeasure P] (q B T : Ω → Fin n → ℝ) (weight : Fin n → ℝ) (hq : ∀ p, MemLp (fun ω => q ω p) 2 P)
    (hB : ∀ p, MemLp (fun ω => B ω p) 2 P) (hT : ∀ p, MemLp (fun ω => T ω p) 2 P) (h : ∀ p, ∫ ω, (T ω p - B ω p) * (q ω p - B ω p) ∂P = 0) :
    ∫ ω, (∑ p, (q ω p - T ω p) ^ 2 * weight p) / n ∂P =
      ∫ ω, (∑ p, (B ω p - T ω p) ^ 2 * weight p) / n ∂P + ∫ ω, (∑ p, (q ω p - B ω p) ^ 2 * weight p) / n ∂P := by
  have i1 : ∀ p, Integrable (fun ω => (q ω p - T ω p) ^ 2) P := fun p => ((hq p).sub (hT p)).integrable_sq
  have i2 : ∀ p, Integrable (fun ω => (B ω p - T ω p) ^ 2) P := fun p => ((hB p).sub (hT p)).integrable_sq
  have i3 : ∀ p, Integrable (fun ω => (q ω p - B ω p) ^ 2) P := fun p => ((hq p).sub (hB p)).integrable_sq
  have i4 : ∀ p, Integrable (fun ω => (T ω p - B ω p) * (q ω p - B ω p)) P := fun p => ((hT p).sub (hB p)).integrable_mul ((hq p).sub (hB p))
  rw [integral_div, integral_div, integral_div, integral_finsetSum _ fun p _ => (i1 p).mul_const _, integral_finsetSum _ fun p _ => (i2 p).mul_const _,
    integral_finsetSum _ fun p _ => (i3 p).mul_const _, ← add_div, ← Finset.sum_add_distrib]
  congr 1
  refine Finset.sum_congr rfl fun p _ => ?_
  rw [integral_mul_const, integral_mul_const, integral_mul_const, ← add_mul]
  congr 1
  have e : ∀ ω, (q ω p - T ω p) ^ 2 = (B ω p - T ω p) ^ 2 + ((q ω p - B ω p) ^ 2 + -2 * ((T ω p - B ω p) * (q ω p - B ω p))) := fun ω => by ring
  have i5 : Integrable (fun ω => (q ω p - B ω p) ^ 2 + -2 * ((T ω p - B ω p) * (q ω p - B ω p))) P := (i3 p).add ((i4 p).const_mul _)
  simp only [e]
  rw [integral_add (i2 p) i5, integral_add (i3 p) ((i4 p).const_mul _), integral_const_mul, h p]
  ring

section
variable {e : Env S (Fin d → ℝ)} {a : Actor S d} {P : Measure Ω} [IsProbabilityMeasure P] (b : SacBatches e a P n)

/-- The target of a row. -/
noncomputable def target (gamma alpha : ℝ) (q1 q2 : S → (Fin d → ℝ) → ℝ) (ω : Ω) (p : Fin n) : ℝ :=
  e.rew (b.state ω p) (b.act ω p) (b.nexts ω p) + gamma * if e.ends (b.state ω p) (b.act ω p) (b.nexts ω p) then 0 else
    min (q1 (b.nexts ω p) (squash (b.raw ω p))) (q2 (b.nexts ω p) (squash (b.raw ω p))) - alpha * a.logp (b.nexts ω p) (b.raw ω p)

theorem sacTargetQ_rows (a : Actor S d) (dist : S → Dist) (eps : ℝ) (ha : a.Computed dist eps) (det : Bool) (alpha : ℝ) (c1 c2 : S → List ℝ → ℝ) (xs : Fin n → S)
    (raw : Fin n → Fin d → ℝ) :
    sacTargetQ eps det dist c1 c2 alpha (fun q => if h : q < n then List.ofFn (raw ⟨q, h⟩) else []) (List.ofFn xs) =
      List.ofFn fun p => min (c1 (xs p) (List.ofFn (squash (raw p)))) (c2 (xs p) (List.ofFn (squash (raw p)))) - alpha * a.logp (xs p) (raw p) := by
  apply List.ext_getElem
  · simp [sacTargetQ, forward]
  · intro i h1 h2
    have hi : i < n := by simpa using h2
    simp only [sacTargetQ, forward, sacTarget, correct, List.getElem_zipWith, List.getElem_map, List.getElem_zipIdx, List.getElem_ofFn, Bool.not_true, Bool.and_false,
      Bool.false_eq_true, if_false, zero_add, hi, dif_pos, List.map_ofFn, List.sum_ofFn, Function.comp_def]
    rw [ha]
    rfl

theorem sacLoss_eq (net : Weights → S → List ℝ → ℝ) (dist : S → Dist) (eps : ℝ) (ha : a.Computed dist eps) (det : Bool) (gamma alpha : ℝ) (weight : Fin n → ℝ)
    (s : ActorCritic.Nets Weights) (w : Weights) :
    sacLoss b net dist eps det gamma alpha weight s w = ∫ ω, (∑ p, (net w (b.state ω p) (List.ofFn (b.act ω p)) -
      target b gamma alpha (fun s' y => net s.criticOld s' (List.ofFn y)) (fun s' y => net s.critic2Old s' (List.ofFn y)) ω p) ^ 2 * weight p) / n ∂P := by
  unfold sacLoss
  congr 1
  funext ω
  unfold loss Critics.returns
  rw [returns_rows _ _ _ (fun p => min (net s.criticOld (b.nexts ω p) (List.ofFn (squash (b.raw ω p)))) (net s.critic2Old (b.nexts ω p) (List.ofFn (squash (b.raw ω p)))) -
    alpha * a.logp (b.nexts ω p) (b.raw ω p)) (by
      rw [List.map_ofFn]
      have : b.inputs ω ∘ b.index ω = b.nexts ω := funext (b.next ω)
      rw [this, sacTargetQ_rows a dist eps ha, List.map_ofFn]
      rfl)]
  simp only [Option.map_some, Option.getD_some, flatten_ofFn]
  unfold QTarget.criticLoss List.zip
  rw [QLearning.zipWith_ofFn, QLearning.zipWith_ofFn, QLearning.zipWith_ofFn, QLearning.mean_ofFn]
  congr 1
  refine Finset.sum_congr rfl fun p _ => ?_
  simp only [b.rew, b.terminated]
  rfl

/-- The expectations of the targets. -/
noncomputable def expected (a : Actor S d) (alpha : ℝ) (q1 q2 : S → (Fin d → ℝ) → ℝ) (s : S) : ℝ :=
  ∫ ξ, (min (q1 s (squash ξ)) (q2 s (squash ξ)) - alpha * a.logp s ξ) ∂a.law s

structure Nice (q : S → (Fin d → ℝ) → ℝ) : Prop where
  measurable : ∀ s, Measurable (q s)
  bounded : ∃ C, ∀ s y, Inside y → |q s y| ≤ C

theorem Nice.integrable {q : S → (Fin d → ℝ) → ℝ} (hq : Nice q) (ha : a.Proper) (s : S) : Integrable (fun ξ => q s (squash ξ)) (a.law s) := by
  obtain ⟨C, hC⟩ := hq.bounded
  have := ha.prob s
  exact integrable_bounded _ _ ((hq.measurable s).comp measurable_squash) C fun ξ => hC s _ (inside_squash ξ)

theorem Nice.min {q q' : S → (Fin d → ℝ) → ℝ} (h : Nice q) (h' : Nice q') : Nice fun s y => min (q s y) (q' s y) := by
  obtain ⟨C, hC⟩ := h.bounded
  obtain ⟨C', hC'⟩ := h'.bounded
  refine ⟨fun s => (h.measurable s).min (h'.measurable s), Max.max C C', fun s y hy => ?_⟩
  rcases min_choice (q s y) (q' s y) with h | h <;> simp only [h]
  · exact (hC s y hy).trans (le_max_left _ _)
  · exact (hC' s y hy).trans (le_max_right _ _)

theorem Nice.memLp {q : S → (Fin d → ℝ) → ℝ} (hq : Nice q) (p : Fin n) : MemLp (fun ω => q (b.state ω p) (b.act ω p)) 2 P := by
  obtain ⟨C, hC⟩ := hq.bounded
  have hm : Measurable fun ω => q (b.state ω p) (b.act ω p) :=
    measurable_rows (fun s _ z => q s z.1) (fun s _ => (hq.measurable s).comp measurable_fst) _ _ _ _ (b.measurable_state p) (b.measurable_nexts p) (b.measurable_act p)
      (b.measurable_raw p)
  exact MemLp.of_bound hm.aestronglyMeasurable C (Filter.Eventually.of_forall fun ω => by simpa using hC _ _ (b.inside ω p))

theorem target_meas (he : Proper e) (ha : a.Proper) (gamma alpha : ℝ) {q1 q2 : S → (Fin d → ℝ) → ℝ} (h1 : Nice q1) (h2 : Nice q2) (s s' : S) :
    Measurable fun z : (Fin d → ℝ) × (Fin d → ℝ) => e.rew s z.1 s' + gamma * if e.ends s z.1 s' then 0 else
      min (q1 s' (squash z.2)) (q2 s' (squash z.2)) - alpha * a.logp s' z.2 := by
  refine ((he.rew s s').comp measurable_fst).add (Measurable.const_mul ?_ gamma)
  refine Measurable.ite (measurableSet_eq_fun ((he.ends s s').comp measurable_fst) measurable_const) measurable_const ?_
  exact (((h1.measurable s').comp (measurable_squash.comp measurable_snd)).min ((h2.measurable s').comp (measurable_squash.comp measurable_snd))).sub
    (((ha.measurable s').comp measurable_snd).const_mul alpha)

theorem target_abs (r gamma alpha m l R C : ℝ) (t : Bool) (hr : |r| ≤ R) (hm : |m| ≤ C) :
    |r + gamma * if t then 0 else m - alpha * l| ≤ (R + |gamma| * C) + |gamma| * |alpha| * |l| := by
  have h0 : 0 ≤ C := (abs_nonneg m).trans hm
  have h1 : |if t then 0 else m - alpha * l| ≤ C + |alpha| * |l| := by
    split
    · rw [abs_zero]
      positivity
    · refine (abs_sub _ _).trans ?_
      rw [abs_mul]
      exact add_le_add hm le_rfl
  have h2 := mul_le_mul_of_nonneg_left h1 (abs_nonneg gamma)
  have h3 := abs_add_le r (gamma * if t then 0 else m - alpha * l)
  rw [abs_mul] at h3
  nlinarith

theorem target_memLp (he : Proper e) (ha : a.Proper) (gamma alpha : ℝ) {q1 q2 : S → (Fin d → ℝ) → ℝ} (h1 : Nice q1) (h2 : Nice q2) (p : Fin n) :
    MemLp (fun ω => target b gamma alpha q1 q2 ω p) 2 P := by
  obtain ⟨R, hR⟩ := he.bounded
  obtain ⟨C, hC⟩ := (h1.min h2).bounded
  have hl : MemLp (fun ω => a.logp (b.nexts ω p) (b.raw ω p)) 2 P := by
    have hlm : Measurable fun ω => a.logp (b.nexts ω p) (b.raw ω p) :=
      measurable_rows (fun _ s' z => a.logp s' z.2) (fun _ s' => (ha.measurable s').comp measurable_snd) _ _ _ _ (b.measurable_state p) (b.measurable_nexts p)
        (b.measurable_act p) (b.measurable_raw p)
    exact (memLp_two_iff_integrable_sq hlm.aestronglyMeasurable).mpr (b.square p)
  have hm : Measurable fun ω => target b gamma alpha q1 q2 ω p :=
    measurable_rows (fun s s' z => e.rew s z.1 s' + gamma * if e.ends s z.1 s' then 0 else
      min (q1 s' (squash z.2)) (q2 s' (squash z.2)) - alpha * a.logp s' z.2) (fun s s' => target_meas he ha gamma alpha h1 h2 s s') _ _ _ _
      (b.measurable_state p) (b.measurable_nexts p) (b.measurable_act p) (b.measurable_raw p)
  have hdom : MemLp (fun ω => (R + |gamma| * C) + |gamma| * |alpha| * |a.logp (b.nexts ω p) (b.raw ω p)|) 2 P :=
    (memLp_const (R + |gamma| * C)).add (hl.abs.const_mul (|gamma| * |alpha|))
  refine hdom.of_le hm.aestronglyMeasurable (Filter.Eventually.of_forall fun ω => ?_)
  rw [Real.norm_eq_abs, Real.norm_eq_abs]
  exact (target_abs _ gamma alpha _ _ R C _ (hR _ _ _ (b.inside ω p)) (hC _ _ (inside_squash _))).trans (le_abs_self _)

/-- What the batches say about the targets. -/
theorem orthogonal (he : Proper e) (ha : a.Proper) (gamma alpha : ℝ) {q1 q2 g : S → (Fin d → ℝ) → ℝ} (h1 : Nice q1) (h2 : Nice q2) (hg : Nice g) (p : Fin n) :
    ∫ ω, (target b gamma alpha q1 q2 ω p - lookahead e gamma (expected a alpha q1 q2) (b.state ω p) (b.act ω p)) * g (b.state ω p) (b.act ω p) ∂P = 0 := by
  set u := expected a alpha q1 q2 with hu
  have hB : Nice (lookahead e gamma u) := ⟨measurable_lookahead e he gamma u, lookahead_bounded e he gamma u⟩
  refine (b.drawn p (fun s s' z => (e.rew s z.1 s' + gamma * (if e.ends s z.1 s' then 0 else
      min (q1 s' (squash z.2)) (q2 s' (squash z.2)) - alpha * a.logp s' z.2) - lookahead e gamma u s z.1) * g s z.1) (fun s s' => ?_) ?_).trans ?_
  · exact ((target_meas he ha gamma alpha h1 h2 s s').sub ((hB.measurable s).comp measurable_fst)).mul ((hg.measurable s).comp measurable_fst)
  · exact ((target_memLp b he ha gamma alpha h1 h2 p).sub (hB.memLp b p)).integrable_mul (hg.memLp b p)
  · refine (integral_congr_ae (Filter.Eventually.of_forall fun ω => ?_)).trans (integral_zero Ω ℝ)
    simp only []
    generalize b.state ω p = s
    generalize b.act ω p = y
    have hi : ∀ s', ∫ ξ, (e.rew s y s' + gamma * (if e.ends s y s' then 0 else
        min (q1 s' (squash ξ)) (q2 s' (squash ξ)) - alpha * a.logp s' ξ) - lookahead e gamma u s y) * g s y ∂a.law s' =
        (e.rew s y s' + gamma * (if e.ends s y s' then 0 else u s') - lookahead e gamma u s y) * g s y := by
      intro s'
      have := ha.prob s'
      rw [integral_mul_const]
      congr 1
      cases e.ends s y s'
      · simp only [Bool.false_eq_true, if_false]
        have i1 : Integrable (fun ξ => min (q1 s' (squash ξ)) (q2 s' (squash ξ)) - alpha * a.logp s' ξ) (a.law s') :=
          ((h1.min h2).integrable ha s').sub ((ha.integrable s').const_mul alpha)
        have e0 : ∀ ξ, e.rew s y s' + gamma * (min (q1 s' (squash ξ)) (q2 s' (squash ξ)) - alpha * a.logp s' ξ) - lookahead e gamma u s y =
            gamma * (min (q1 s' (squash ξ)) (q2 s' (squash ξ)) - alpha * a.logp s' ξ) + (e.rew s y s' - lookahead e gamma u s y) := fun ξ => by ring
        simp only [e0]
        rw [integral_add (i1.const_mul gamma) (integrable_const _), integral_const_mul, integral_const]
        simp only [hu, expected, probReal_univ, one_smul]
        ring
      · simp
    simp only [hi]
    have e1 : ∑ s', e.next s y s' * ((e.rew s y s' + gamma * (if e.ends s y s' then 0 else u s') - lookahead e gamma u s y) * g s y) =
        (∑ s', e.next s y s' * (e.rew s y s' + gamma * (if e.ends s y s' then 0 else u s')) - (∑ s', e.next s y s') * lookahead e gamma u s y) * g s y := by
      rw [Finset.sum_mul, ← Finset.sum_sub_distrib, Finset.sum_mul]
      exact Finset.sum_congr rfl fun s' _ => by ring
    rw [e1, he.sum, one_mul]
    unfold lookahead
    rw [sub_self, zero_mul]

/-- What a critic learns. -/
theorem fit_loss (he : Proper e) (ha : a.Proper) (gamma alpha tau : ℝ) (net : Weights → S → List ℝ → ℝ) (ok : Weights → Prop) (hf : Family e gamma tau net ok)
    (dist : S → Dist) (eps : ℝ) (hc : a.Computed dist eps) (det : Bool) (weight : Fin n → ℝ) (s : ActorCritic.Nets Weights) (w w0 : Weights)
    (hw0 : ∀ x (y : Fin d → ℝ), Inside y → net w0 x (List.ofFn y) = lookahead e gamma (expected a alpha (fun s' y => net s.criticOld s' (List.ofFn y))
      fun s' y => net s.critic2Old s' (List.ofFn y)) x y) :
    sacLoss b net dist eps det gamma alpha weight s w = sacLoss b net dist eps det gamma alpha weight s w0 +
      ∫ ω, (∑ p, (net w (b.state ω p) (List.ofFn (b.act ω p)) - net w0 (b.state ω p) (List.ofFn (b.act ω p))) ^ 2 * weight p) / n ∂P := by
  have hnice : ∀ w, Nice fun s' (y : Fin d → ℝ) => net w s' (List.ofFn y) := fun w => ⟨hf.measurable w, hf.bounded w⟩
  rw [sacLoss_eq b net dist eps hc, sacLoss_eq b net dist eps hc]
  refine regression_integral P (fun ω p => net w (b.state ω p) (List.ofFn (b.act ω p))) (fun ω p => net w0 (b.state ω p) (List.ofFn (b.act ω p))) _ weight
    (fun p => (hnice w).memLp b p) (fun p => (hnice w0).memLp b p) (fun p => target_memLp b he ha gamma alpha (hnice _) (hnice _) p) fun p => ?_
  have hg : Nice fun s' (y : Fin d → ℝ) => net w s' (List.ofFn y) - net w0 s' (List.ofFn y) := by
    obtain ⟨C, hC⟩ := hf.bounded w
    obtain ⟨C', hC'⟩ := hf.bounded w0
    exact ⟨fun s' => (hf.measurable w s').sub (hf.measurable w0 s'), C + C', fun s' y hy => (abs_sub _ _).trans (add_le_add (hC s' y hy) (hC' s' y hy))⟩
  rw [← orthogonal b he ha gamma alpha (hnice s.criticOld) (hnice s.critic2Old) hg p]
  congr 1
  funext ω
  rw [← hw0 _ _ (b.inside ω p)]

theorem fit_ae (he : Proper e) (ha : a.Proper) (gamma alpha tau : ℝ) (net : Weights → S → List ℝ → ℝ) (ok : Weights → Prop) (hf : Family e gamma tau net ok)
    (dist : S → Dist) (eps : ℝ) (hc : a.Computed dist eps) (det : Bool) (weight : Fin n → ℝ) (hw : ∀ p, 0 ≤ weight p) (s : ActorCritic.Nets Weights) (w : Weights)
    (hfit : Fit (sacLoss b net dist eps det gamma alpha weight s) ok w) :
    ∀ᵐ ω ∂P, ∀ p, 0 < weight p → net w (b.state ω p) (List.ofFn (b.act ω p)) =
      lookahead e gamma (expected a alpha (fun s' y => net s.criticOld s' (List.ofFn y)) fun s' y => net s.critic2Old s' (List.ofFn y)) (b.state ω p) (b.act ω p) := by
  obtain ⟨w0, hok, hw0⟩ := hf.represents (expected a alpha (fun s' y => net s.criticOld s' (List.ofFn y)) fun s' y => net s.critic2Old s' (List.ofFn y))
  have h1 := hfit.2 w0 hok
  rw [fit_loss b he ha gamma alpha tau net ok hf dist eps hc det weight s w w0 hw0] at h1
  have hnice : ∀ w, Nice fun s' (y : Fin d → ℝ) => net w s' (List.ofFn y) := fun w => ⟨hf.measurable w, hf.bounded w⟩
  have hint : Integrable (fun ω => (∑ p, (net w (b.state ω p) (List.ofFn (b.act ω p)) - net w0 (b.state ω p) (List.ofFn (b.act ω p))) ^ 2 * weight p) / n) P :=
    (integrable_finsetSum _ fun p _ => (((hnice w).memLp b p).sub ((hnice w0).memLp b p)).integrable_sq.mul_const _).div_const _
  have hnn : ∀ ω, 0 ≤ (∑ p, (net w (b.state ω p) (List.ofFn (b.act ω p)) - net w0 (b.state ω p) (List.ofFn (b.act ω p))) ^ 2 * weight p) / n := fun ω =>
    div_nonneg (Finset.sum_nonneg fun p _ => mul_nonneg (sq_nonneg _) (hw p)) (Nat.cast_nonneg n)
  have h2 := (integral_eq_zero_iff_of_nonneg hnn hint).mp (le_antisymm (by linarith) (integral_nonneg hnn))
  filter_upwards [h2] with ω hω p hp
  have hn : (n : ℝ) ≠ 0 := by
    have : 0 < n := Fin.pos p
    exact_mod_cast this.ne'
  have h3 : ∑ p, (net w (b.state ω p) (List.ofFn (b.act ω p)) - net w0 (b.state ω p) (List.ofFn (b.act ω p))) ^ 2 * weight p = 0 := by
    rcases div_eq_zero_iff.mp hω with h | h
    · exact h
    · exact absurd h hn
  have h4 := (Finset.sum_eq_zero_iff_of_nonneg fun p _ => mul_nonneg (sq_nonneg _) (hw p)).mp h3 p (Finset.mem_univ p)
  rw [← hw0 _ _ (b.inside ω p)]
  rcases mul_eq_zero.mp h4 with h | h
  · exact sub_eq_zero.mp (pow_eq_zero_iff two_ne_zero |>.mp h)
  · exact absurd h hp.ne'

end

theorem expected_dist (e : Env S (Fin d → ℝ)) (he : Proper e) (a : Actor S d) (ha : a.Proper) (gamma alpha : ℝ) (v : S → ℝ) (hv : a.Values e gamma alpha v)
    {q1 q2 : S → (Fin d → ℝ) → ℝ} (h1 : Nice q1) (h2 : Nice q2) (D : ℝ) (hD1 : ∀ s, ∀ᵐ ξ ∂a.law s, |q1 s (squash ξ) - lookahead e gamma v s (squash ξ)| ≤ D)
    (hD2 : ∀ s, ∀ᵐ ξ ∂a.law s, |q2 s (squash ξ) - lookahead e gamma v s (squash ξ)| ≤ D) (s : S) : |expected a alpha q1 q2 s - v s| ≤ D := by
  have := ha.prob s
  have hB : Nice (lookahead e gamma v) := ⟨measurable_lookahead e he gamma v, lookahead_bounded e he gamma v⟩
  have i1 : Integrable (fun ξ => min (q1 s (squash ξ)) (q2 s (squash ξ)) - alpha * a.logp s ξ) (a.law s) :=
    ((h1.min h2).integrable ha s).sub ((ha.integrable s).const_mul alpha)
  have i2 : Integrable (fun ξ => lookahead e gamma v s (squash ξ) - alpha * a.logp s ξ) (a.law s) := (hB.integrable ha s).sub ((ha.integrable s).const_mul alpha)
  rw [hv s, expected, ← integral_sub i1 i2, ← Real.norm_eq_abs]
  refine (norm_integral_le_of_norm_le_const (C := D) ?_).trans (by simp)
  filter_upwards [hD1 s, hD2 s] with ξ g1 g2
  rw [Real.norm_eq_abs, sub_sub_sub_cancel_right]
  rcases min_choice (q1 s (squash ξ)) (q2 s (squash ξ)) with h | h <;> rw [h] <;> assumption

/-! ### C265 -/

/-- **C265** an actor has exactly one system of soft values. -/
theorem C265_values (e : Env S (Fin d → ℝ)) (he : Proper e) (a : Actor S d) (ha : a.Proper) (gamma alpha : ℝ) (hg : 0 ≤ gamma) (hg1 : gamma < 1) :
    ∃! v, a.Values e gamma alpha v := by
  have hB : ∀ v, Nice (lookahead e gamma v) := fun v => ⟨measurable_lookahead e he gamma v, lookahead_bounded e he gamma v⟩
  have i2 : ∀ v s, Integrable (fun ξ => lookahead e gamma v s (squash ξ) - alpha * a.logp s ξ) (a.law s) := fun v s =>
    ((hB v).integrable ha s).sub ((ha.integrable s).const_mul alpha)
  let F : (S → ℝ) → S → ℝ := fun v s => ∫ ξ, (lookahead e gamma v s (squash ξ) - alpha * a.logp s ξ) ∂a.law s
  have hF : ContractingWith ⟨gamma, hg⟩ F := by
    refine ⟨by exact_mod_cast hg1, LipschitzWith.of_dist_le_mul fun v v' => ?_⟩
    refine (dist_pi_le_iff (mul_nonneg hg dist_nonneg)).mpr fun s => ?_
    have := ha.prob s
    rw [Real.dist_eq, ← integral_sub (i2 v s) (i2 v' s), ← Real.norm_eq_abs]
    refine (norm_integral_le_of_norm_le_const (C := gamma * dist v v') (Filter.Eventually.of_forall fun ξ => ?_)).trans (by simp)
    rw [Real.norm_eq_abs, sub_sub_sub_cancel_right]
    refine lookahead_dist e he gamma hg v v' _ dist_nonneg (fun s => ?_) s _
    rw [← Real.dist_eq]
    exact dist_le_pi_dist v v' s
  refine ⟨hF.fixedPoint, fun s => (congrFun hF.fixedPoint_isFixedPt s).symm, fun v hv => ?_⟩
  exact hF.fixedPoint_unique (funext fun s => (hv s).symm)

/-- **C265** let `v` be the soft values of the actor. If in each call of `learn` the optimisers find critics with the smallest expected loss and leave the actor alone, and
the actor does only what occurs in the batches, then in all batches the distance of the target critics from the soft values of the actions is multiplied by at most
`1 - tau * (1 - gamma)` in each call, and that of the critics is smaller than that of the target critics in the call before. The same is true for the actions
that the actor takes. -/
theorem C265_round (e : Env S (Fin d → ℝ)) (he : Proper e) (a : Actor S d) (ha : a.Proper) (gamma alpha tau : ℝ) (hg : 0 ≤ gamma) (hg1 : gamma ≤ 1) (ht : 0 ≤ tau)
    (ht1 : tau ≤ 1) (net : Weights → S → List ℝ → ℝ) (ok : Weights → Prop) (hf : Family e gamma tau net ok) (dist : S → Dist) (eps : ℝ) (hc : a.Computed dist eps)
    (det : Bool) {P : Measure Ω} [IsProbabilityMeasure P] (b : SacBatches e a P n) (weight : Fin n → ℝ) (hw : ∀ p, 0 ≤ weight p) (hcov : Covers b weight)
    (o : Nat → Opt Weights) (st : Nat → ActorCritic.Nets Weights) (actor w1 w2 : Weights) (hok1 : ok w1) (hok2 : ok w2) (h0 : st 0 = Nets.new actor w1 w2)
    (hst : ∀ k, st (k + 1) = sacLearn (soft tau) (o k) (st k))
    (hfit1 : ∀ k, Fit (sacLoss b net dist eps det gamma alpha weight (st k)) ok (st (k + 1)).critic)
    (hfit2 : ∀ k, Fit (sacLoss b net dist eps det gamma alpha weight (st k)) ok (st (k + 1)).critic2)
    (v : S → ℝ) (hv : a.Values e gamma alpha v) (D : ℝ)
    (hD : ∀ w, w = w1 ∨ w = w2 → ∀ s (y : Fin d → ℝ), Inside y → |net w s (List.ofFn y) - lookahead e gamma v s y| ≤ D) (k : Nat) :
    (∀ w, w = (st k).criticOld ∨ w = (st k).critic2Old →
      (∀ᵐ ω ∂P, ∀ p, 0 < weight p → |net w (b.state ω p) (List.ofFn (b.act ω p)) - lookahead e gamma v (b.state ω p) (b.act ω p)| ≤ (1 - tau * (1 - gamma)) ^ k * D) ∧
      ∀ s, ∀ᵐ ξ ∂a.law s, |net w s (List.ofFn (squash ξ)) - lookahead e gamma v s (squash ξ)| ≤ (1 - tau * (1 - gamma)) ^ k * D) ∧
    ∀ w, w = (st (k + 1)).critic ∨ w = (st (k + 1)).critic2 →
      (∀ᵐ ω ∂P, ∀ p, 0 < weight p → |net w (b.state ω p) (List.ofFn (b.act ω p)) - lookahead e gamma v (b.state ω p) (b.act ω p)| ≤
        gamma * ((1 - tau * (1 - gamma)) ^ k * D)) ∧
      ∀ s, ∀ᵐ ξ ∂a.law s, |net w s (List.ofFn (squash ξ)) - lookahead e gamma v s (squash ξ)| ≤ gamma * ((1 - tau * (1 - gamma)) ^ k * D) := by
  have hfac : 0 ≤ 1 - tau * (1 - gamma) := by nlinarith
  have hS : Nonempty S → 0 ≤ D := fun ⟨s⟩ => (abs_nonneg _).trans (hD w1 (.inl rfl) s (fun _ => 0) fun _ => by simp)
  have hnice : ∀ w, Nice fun s' (y : Fin d → ℝ) => net w s' (List.ofFn y) := fun w => ⟨hf.measurable w, hf.bounded w⟩
  -- from batches to the actor
  have hact : ∀ w C, (∀ᵐ ω ∂P, ∀ p, 0 < weight p → |net w (b.state ω p) (List.ofFn (b.act ω p)) - lookahead e gamma v (b.state ω p) (b.act ω p)| ≤ C) →
      ∀ s, ∀ᵐ ξ ∂a.law s, |net w s (List.ofFn (squash ξ)) - lookahead e gamma v s (squash ξ)| ≤ C := by
    intro w C h s
    have := hcov (fun s => {y | C < |net w s (List.ofFn y) - lookahead e gamma v s y|})
      (fun s => measurableSet_lt measurable_const (continuous_abs.measurable.comp ((hf.measurable w s).sub (measurable_lookahead e he gamma v s)))) (by
        filter_upwards [h] with ω hω p hp
        simpa using hω p hp) s
    filter_upwards [this] with ξ hξ
    simpa using hξ
  -- what a call of `learn` does
  have hlearn : ∀ k C, 0 ≤ C → (∀ w, w = (st k).criticOld ∨ w = (st k).critic2Old → ∀ s, ∀ᵐ ξ ∂a.law s,
      |net w s (List.ofFn (squash ξ)) - lookahead e gamma v s (squash ξ)| ≤ C) →
      ∀ w, w = (st (k + 1)).critic ∨ w = (st (k + 1)).critic2 →
      (∀ᵐ ω ∂P, ∀ p, 0 < weight p → |net w (b.state ω p) (List.ofFn (b.act ω p)) - lookahead e gamma v (b.state ω p) (b.act ω p)| ≤ gamma * C) ∧
      ∀ s, ∀ᵐ ξ ∂a.law s, |net w s (List.ofFn (squash ξ)) - lookahead e gamma v s (squash ξ)| ≤ gamma * C := by
    intro k C hC hold w hw'
    have hfit : Fit (sacLoss b net dist eps det gamma alpha weight (st k)) ok w := by
      rcases hw' with rfl | rfl
      · exact hfit1 k
      · exact hfit2 k
    have h1 : ∀ᵐ ω ∂P, ∀ p, 0 < weight p → |net w (b.state ω p) (List.ofFn (b.act ω p)) - lookahead e gamma v (b.state ω p) (b.act ω p)| ≤ gamma * C := by
      filter_upwards [fit_ae b he ha gamma alpha tau net ok hf dist eps hc det weight hw (st k) w hfit] with ω hω p hp
      rw [hω p hp]
      exact lookahead_dist e he gamma hg _ _ C hC
        (expected_dist e he a ha gamma alpha v hv (hnice _) (hnice _) C (hold _ (.inl rfl)) (hold _ (.inr rfl))) _ _
    exact ⟨h1, hact w _ h1⟩
  rcases isEmpty_or_nonempty S with hE | hN
  · refine ⟨fun w _ => ⟨Filter.Eventually.of_forall fun ω p => (hE.false (b.state ω p)).elim, fun s => (hE.false s).elim⟩,
      fun w _ => ⟨Filter.Eventually.of_forall fun ω p => (hE.false (b.state ω p)).elim, fun s => (hE.false s).elim⟩⟩
  have hD0 := hS hN
  -- the target critics
  have hold : ∀ k, ok (st k).criticOld ∧ ok (st k).critic2Old ∧ ∀ w, w = (st k).criticOld ∨ w = (st k).critic2Old →
      ∀ᵐ ω ∂P, ∀ p, 0 < weight p → |net w (b.state ω p) (List.ofFn (b.act ω p)) - lookahead e gamma v (b.state ω p) (b.act ω p)| ≤ (1 - tau * (1 - gamma)) ^ k * D := by
    intro k
    induction k with
    | zero =>
      rw [h0]
      refine ⟨hok1, hok2, fun w hw' => Filter.Eventually.of_forall fun ω p _ => ?_⟩
      rw [pow_zero, one_mul]
      exact hD w hw' _ _ (b.inside ω p)
    | succ k ih =>
      obtain ⟨k1, k2, k3⟩ := ih
      have e1 : (st (k + 1)).criticOld = soft tau (st k).criticOld (st (k + 1)).critic := by
        rw [hst k]
        rfl
      have e2 : (st (k + 1)).critic2Old = soft tau (st k).critic2Old (st (k + 1)).critic2 := by
        rw [hst k]
        rfl
      have hn := hlearn k _ (mul_nonneg (pow_nonneg hfac k) hD0) fun w hw' => hact w _ (k3 w hw')
      have hmix : ∀ w w', ok w → ok w' → (∀ᵐ ω ∂P, ∀ p, 0 < weight p →
          |net w (b.state ω p) (List.ofFn (b.act ω p)) - lookahead e gamma v (b.state ω p) (b.act ω p)| ≤ (1 - tau * (1 - gamma)) ^ k * D) →
          (∀ᵐ ω ∂P, ∀ p, 0 < weight p →
          |net w' (b.state ω p) (List.ofFn (b.act ω p)) - lookahead e gamma v (b.state ω p) (b.act ω p)| ≤ gamma * ((1 - tau * (1 - gamma)) ^ k * D)) →
          ∀ᵐ ω ∂P, ∀ p, 0 < weight p →
          |net (soft tau w w') (b.state ω p) (List.ofFn (b.act ω p)) - lookahead e gamma v (b.state ω p) (b.act ω p)| ≤ (1 - tau * (1 - gamma)) ^ (k + 1) * D := by
        intro w w' o1 o2 g1 g2
        filter_upwards [g1, g2] with ω g1 g2 p hp
        rw [hf.mixes w w' _ _ o1 o2]
        have l1 := g1 p hp
        have l2 := g2 p hp
        rw [abs_le] at l1 l2 ⊢
        have l3 : (1 - tau * (1 - gamma)) ^ (k + 1) * D = tau * (gamma * ((1 - tau * (1 - gamma)) ^ k * D)) + (1 - tau) * ((1 - tau * (1 - gamma)) ^ k * D) := by ring
        rw [l3]
        have m1 := mul_le_mul_of_nonneg_left l1.1 (sub_nonneg.mpr ht1)
        have m2 := mul_le_mul_of_nonneg_left l1.2 (sub_nonneg.mpr ht1)
        have m3 := mul_le_mul_of_nonneg_left l2.1 ht
        have m4 := mul_le_mul_of_nonneg_left l2.2 ht
        constructor <;> nlinarith
      rw [e1, e2]
      refine ⟨hf.closed _ _ k1 (hfit1 k).1, hf.closed _ _ k2 (hfit2 k).1, fun w hw' => ?_⟩
      rcases hw' with rfl | rfl
      · exact hmix _ _ k1 (hfit1 k).1 (k3 _ (.inl rfl)) (hn _ (.inl rfl)).1
      · exact hmix _ _ k2 (hfit2 k).1 (k3 _ (.inr rfl)) (hn _ (.inr rfl)).1
  have h1 := (hold k).2.2
  refine ⟨fun w hw' => ⟨h1 w hw', hact w _ (h1 w hw')⟩, ?_⟩
  exact hlearn k _ (mul_nonneg (pow_nonneg hfac k) hD0) fun w hw' => hact w _ (h1 w hw')

/-- **C265** critics with the smallest expected loss exist. -/
theorem C265_exists (e : Env S (Fin d → ℝ)) (he : Proper e) (a : Actor S d) (ha : a.Proper) (gamma alpha tau : ℝ) (net : Weights → S → List ℝ → ℝ)
    (ok : Weights → Prop) (hf : Family e gamma tau net ok) (dist : S → Dist) (eps : ℝ) (hc : a.Computed dist eps) (det : Bool) {P : Measure Ω} [IsProbabilityMeasure P]
    (b : SacBatches e a P n) (weight : Fin n → ℝ) (hw : ∀ p, 0 ≤ weight p) (s : ActorCritic.Nets Weights) :
    ∃ w, Fit (sacLoss b net dist eps det gamma alpha weight s) ok w := by
  obtain ⟨w0, hok, hw0⟩ := hf.represents (expected a alpha (fun s' y => net s.criticOld s' (List.ofFn y)) fun s' y => net s.critic2Old s' (List.ofFn y))
  refine ⟨w0, hok, fun w _ => ?_⟩
  rw [fit_loss b he ha gamma alpha tau net ok hf dist eps hc det weight s w w0 hw0]
  refine le_add_of_nonneg_right (integral_nonneg fun ω => ?_)
  exact div_nonneg (Finset.sum_nonneg fun p _ => mul_nonneg (sq_nonneg _) (hw p)) (Nat.cast_nonneg n)

end Verif.SacLoss
