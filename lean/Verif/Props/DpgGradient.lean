import Verif.Props.PolicyIteration
import Mathlib.Analysis.Calculus.Deriv.Mul
import Mathlib.Analysis.Calculus.Deriv.Add
import Mathlib.Analysis.Calculus.Deriv.Comp

/-!
C267: the gradient of the actor's loss of DDPG and TD3 is the gradient of the expected return.
-/

namespace Verif.SacLoss

open Verif.Squash Verif.Critics Verif.PolicyGradient

set_option linter.unusedSectionVars false

variable {S : Type} [Fintype S] {d : Nat}

/-! ### Specification -/

/-- The probability that the episode is not over after `k` steps and is in state `s` then, if action `mu s` is taken in state `s`. -/
noncomputable def occupied (e : Env S (Fin d → ℝ)) (mu : S → Fin d → ℝ) : Nat → S → ℝ
  | 0, s => e.init s
  | k + 1, s' => ∑ s, occupied e mu k s * if e.ends s (mu s) s' then 0 else e.next s (mu s) s'

/-- The discounted number of visits of a state in an episode. -/
noncomputable def visits (e : Env S (Fin d → ℝ)) (gamma : ℝ) (mu : S → Fin d → ℝ) (s : S) : ℝ := ∑' k, gamma ^ k * occupied e mu k s

/-- Along the path `mu` of actors rewards and probabilities have derivatives at `θ`, and what ends an episode does not change. -/
structure Smooth (e : Env S (Fin d → ℝ)) (mu : ℝ → S → Fin d → ℝ) (θ : ℝ) : Prop where
  next : ∀ s s', DifferentiableAt ℝ (fun t => e.next s (mu t s) s') θ
  rew : ∀ s s', DifferentiableAt ℝ (fun t => e.rew s (mu t s) s') θ
  ends : ∀ s s', ∀ᶠ t in nhds θ, e.ends s (mu t s) s' = e.ends s (mu θ s) s'

/-- Random batches of `n` observations, each row of which is distributed like the discounted visits of the actor. -/
structure OnPolicy (e : Env S (Fin d → ℝ)) (gamma : ℝ) (mu : S → Fin d → ℝ) {Ω : Type} [Fintype Ω] (P : Ω → ℝ) {n : Nat} (obs : Ω → Fin n → S) : Prop where
  sum : ∑ ω, P ω = 1
  rows : ∀ i (f : S → ℝ), ∑ ω, P ω * f (obs ω i) = (∑ s, visits e gamma mu s * f s) / ∑ s, visits e gamma mu s

/-! ### Visits -/

theorem occupied_succ (e : Env S (Fin d → ℝ)) (mu : S → Fin d → ℝ) (k : Nat) (s' : S) :
    occupied e mu (k + 1) s' = ∑ s, occupied e mu k s * goesOn e s (mu s) s' := rfl

theorem occupied_nonneg (e : Env S (Fin d → ℝ)) (hi : ∀ s, 0 ≤ e.init s) (hn : ∀ s y s', 0 ≤ e.next s y s') (mu : S → Fin d → ℝ) (k : Nat) (s : S) :
    0 ≤ occupied e mu k s := by
  induction k generalizing s with
  | zero => exact hi s
  | succ k ih =>
    rw [occupied_succ]
    exact Finset.sum_nonneg fun s' _ => mul_nonneg (ih s') (goesOn_nonneg e hn _ _ _)

theorem occupied_sum (e : Env S (Fin d → ℝ)) (hi : ∀ s, 0 ≤ e.init s) (hi1 : ∑ s, e.init s = 1) (hn : ∀ s y s', 0 ≤ e.next s y s')
    (h1 : ∀ s y, ∑ s', e.next s y s' = 1) (mu : S → Fin d → ℝ) (k : Nat) : ∑ s, occupied e mu k s ≤ 1 := by
  induction k with
  | zero => exact hi1.le
  | succ k ih =>
    simp only [occupied_succ]
    rw [Finset.sum_comm]
    refine (Finset.sum_le_sum fun s _ => ?_).trans ih
    rw [← Finset.mul_sum]
    exact mul_le_of_le_one_right (occupied_nonneg e hi hn mu k s) (goesOn_sum e hn h1 s (mu s))

section visits

variable (e : Env S (Fin d → ℝ)) (hi : ∀ s, 0 ≤ e.init s) (hi1 : ∑ s, e.init s = 1) (hn : ∀ s y s', 0 ≤ e.next s y s')
  (h1 : ∀ s y, ∑ s', e.next s y s' = 1) (gamma : ℝ) (hg : 0 ≤ gamma) (hg1 : gamma < 1) (mu : S → Fin d → ℝ)

include hi hi1 hn h1 hg hg1

theorem summable_visits (s : S) : Summable fun k => gamma ^ k * occupied e mu k s := by
  refine Summable.of_nonneg_of_le (fun k => mul_nonneg (pow_nonneg hg k) (occupied_nonneg e hi hn mu k s)) (fun k => ?_) (summable_geometric_of_lt_one hg hg1)
  refine mul_le_of_le_one_right (pow_nonneg hg k) ?_
  exact (Finset.single_le_sum (fun s _ => occupied_nonneg e hi hn mu k s) (Finset.mem_univ s)).trans (occupied_sum e hi hi1 hn h1 mu k)

theorem visits_eq (s' : S) : visits e gamma mu s' = e.init s' + gamma * ∑ s, visits e gamma mu s * goesOn e s (mu s) s' := by
  have hs := summable_visits e hi hi1 hn h1 gamma hg hg1 mu
  rw [visits, (hs s').tsum_eq_zero_add]
  congr 1
  · simp [occupied]
  · simp only [visits, ← tsum_mul_right]
    rw [← Summable.tsum_finsetSum fun s _ => (hs s).mul_right _, ← tsum_mul_left]
    refine tsum_congr fun k => ?_
    rw [occupied_succ, Finset.mul_sum, Finset.mul_sum]
    exact Finset.sum_congr rfl fun s _ => by ring

theorem visits_pos : 0 < ∑ s, visits e gamma mu s := by
  have hs := summable_visits e hi hi1 hn h1 gamma hg hg1 mu
  have h : ∀ s, e.init s ≤ visits e gamma mu s := fun s => by
    have := (hs s).le_tsum 0 fun k _ => mul_nonneg (pow_nonneg hg k) (occupied_nonneg e hi hn mu k s)
    simpa [occupied, visits] using this
  have := Finset.sum_le_sum fun s (_ : s ∈ Finset.univ) => h s
  linarith

end visits

/-! ### The gradient -/

theorem sup_bound [Nonempty S] (gamma : ℝ) (hg : 0 ≤ gamma) (hg1 : gamma < 1) (w g : S → ℝ) (p : S → S → ℝ) (hp : ∀ s s', 0 ≤ p s s') (hs : ∀ s, ∑ s', p s s' ≤ 1)
    (h : ∀ s, w s = g s + gamma * ∑ s', p s s' * w s') (s : S) : |w s| ≤ (∑ s, |g s|) / (1 - gamma) := by
  obtain ⟨s0, -, hs0⟩ := Finset.exists_max_image Finset.univ (fun s => |w s|) ⟨s, Finset.mem_univ s⟩
  refine (hs0 s (Finset.mem_univ s)).trans ?_
  rw [le_div_iff₀ (by linarith)]
  have h2 : |∑ s', p s0 s' * w s'| ≤ |w s0| := by
    refine (Finset.abs_sum_le_sum_abs _ _).trans ?_
    refine (Finset.sum_le_sum (g := fun s' => p s0 s' * |w s0|) fun s' _ => ?_).trans ?_
    · rw [abs_mul, abs_of_nonneg (hp s0 s')]
      exact mul_le_mul_of_nonneg_left (hs0 s' (Finset.mem_univ s')) (hp s0 s')
    · rw [← Finset.sum_mul]
      exact mul_le_of_le_one_left (abs_nonneg _) (hs s0)
  have h3 : |w s0| ≤ |g s0| + gamma * |w s0| := by
    calc |w s0| = |g s0 + gamma * ∑ s', p s0 s' * w s'| := by rw [← h s0]
      _ ≤ |g s0| + |gamma * ∑ s', p s0 s' * w s'| := abs_add_le _ _
      _ ≤ _ := by
        rw [abs_mul, abs_of_nonneg hg]
        exact add_le_add le_rfl (mul_le_mul_of_nonneg_left h2 hg)
  have h4 : |g s0| ≤ ∑ s, |g s| := Finset.single_le_sum (fun s _ => abs_nonneg (g s)) (Finset.mem_univ s0)
  nlinarith

theorem smooth_goesOn (e : Env S (Fin d → ℝ)) (mu : ℝ → S → Fin d → ℝ) (θ : ℝ) (hs : Smooth e mu θ) (s s' : S) :
    DifferentiableAt ℝ (fun t => goesOn e s (mu t s) s') θ := by
  have : (fun t => goesOn e s (mu t s) s') =ᶠ[nhds θ] fun t => if e.ends s (mu θ s) s' then 0 else e.next s (mu t s) s' := by
    filter_upwards [hs.ends s s'] with t ht
    simp only [goesOn, ht]
  refine DifferentiableAt.congr_of_eventuallyEq ?_ this
  cases e.ends s (mu θ s) s'
  · simpa using hs.next s s'
  · simp

theorem lookahead_eq (e : Env S (Fin d → ℝ)) (gamma : ℝ) (v : S → ℝ) (s : S) (y : Fin d → ℝ) :
    lookahead e gamma v s y = ∑ s', (e.next s y s' * e.rew s y s' + gamma * (goesOn e s y s' * v s')) := by
  unfold lookahead goesOn
  refine Finset.sum_congr rfl fun s' _ => ?_
  cases e.ends s y s'
  · simp
    ring
  · simp

theorem smooth_lookahead (e : Env S (Fin d → ℝ)) (gamma : ℝ) (v : S → ℝ) (mu : ℝ → S → Fin d → ℝ) (θ : ℝ) (hs : Smooth e mu θ) (s : S) :
    DifferentiableAt ℝ (fun t => lookahead e gamma v s (mu t s)) θ := by
  simp only [lookahead_eq]
  refine DifferentiableAt.fun_sum fun s' _ => ?_
  exact ((hs.next s s').mul (hs.rew s s')).add (((smooth_goesOn e mu θ hs s s').mul_const _).const_mul _)

/-- The deterministic policy gradient theorem. -/
theorem policy_gradient [Nonempty S] (e : Env S (Fin d → ℝ)) (hi : ∀ s, 0 ≤ e.init s) (hi1 : ∑ s, e.init s = 1) (hn : ∀ s y s', 0 ≤ e.next s y s')
    (h1 : ∀ s y, ∑ s', e.next s y s' = 1) (gamma : ℝ) (hg : 0 ≤ gamma) (hg1 : gamma < 1) (mu : ℝ → S → Fin d → ℝ) (θ : ℝ) (hs : Smooth e mu θ)
    (v : ℝ → S → ℝ) (hv : ∀ t, ActorValues e gamma (mu t) (v t)) :
    HasDerivAt (fun t => ∑ s, e.init s * v t s) (∑ s, visits e gamma (mu θ) s * deriv (fun t => lookahead e gamma (v θ) s (mu t s)) θ) θ := by
  set D := visits e gamma (mu θ) with hD
  have hvis := visits_eq e hi hi1 hn h1 gamma hg hg1 (mu θ)
  rw [← hD] at hvis
  set g : ℝ → S → ℝ := fun t s => lookahead e gamma (v θ) s (mu t s) - v θ s with hgdef
  set w : ℝ → S → ℝ := fun t s => v t s - v θ s with hw
  have hgd : ∀ s, HasDerivAt (fun t => g t s) (deriv (fun t => lookahead e gamma (v θ) s (mu t s)) θ) θ := fun s =>
    (smooth_lookahead e gamma (v θ) mu θ hs s).hasDerivAt.sub_const _
  have hwg : ∀ t s, w t s = g t s + gamma * ∑ s', goesOn e s (mu t s) s' * w t s' := by
    intro t s
    have := lookahead_sub e gamma (v t) (v θ) s (mu t s)
    rw [← hv t s] at this
    simp only [hw, hgdef]
    linarith
  -- the remainder
  set B : ℝ → ℝ := fun t => gamma * ∑ s, D s * ∑ s', (goesOn e s (mu t s) s' - goesOn e s (mu θ s) s') * w t s' with hB
  have hJ : ∀ t, ∑ s, e.init s * v t s = ∑ s, e.init s * v θ s + (∑ s, D s * g t s + B t) := by
    intro t
    have e1 : ∑ s, D s * w t s = ∑ s, e.init s * w t s + gamma * ∑ s, D s * ∑ s', goesOn e s (mu θ s) s' * w t s' := by
      calc ∑ s, D s * w t s = ∑ s', (e.init s' + gamma * ∑ s, D s * goesOn e s (mu θ s) s') * w t s' := Finset.sum_congr rfl fun s _ => by rw [← hvis s]
        _ = _ := by
          simp only [add_mul, Finset.sum_add_distrib, Finset.mul_sum, Finset.sum_mul]
          rw [Finset.sum_comm (γ := S)]
          congr 1
          exact Finset.sum_congr rfl fun s _ => Finset.sum_congr rfl fun s' _ => by ring
    have e2 : ∑ s, D s * w t s = ∑ s, D s * g t s + gamma * ∑ s, D s * ∑ s', goesOn e s (mu t s) s' * w t s' := by
      rw [Finset.mul_sum, ← Finset.sum_add_distrib]
      refine Finset.sum_congr rfl fun s _ => ?_
      rw [hwg t s]
      ring
    have e3 : ∑ s, e.init s * w t s = ∑ s, e.init s * v t s - ∑ s, e.init s * v θ s := by
      rw [← Finset.sum_sub_distrib]
      exact Finset.sum_congr rfl fun s _ => by rw [← mul_sub]
    have e4 : B t = gamma * ∑ s, D s * ∑ s', goesOn e s (mu t s) s' * w t s' - gamma * ∑ s, D s * ∑ s', goesOn e s (mu θ s) s' * w t s' := by
      simp only [hB]
      rw [← mul_sub, ← Finset.sum_sub_distrib]
      congr 1
      refine Finset.sum_congr rfl fun s _ => ?_
      rw [← mul_sub, ← Finset.sum_sub_distrib]
      congr 1
      exact Finset.sum_congr rfl fun s' _ => by ring
    linarith
  have hg0 : ∀ s, g θ s = 0 := fun s => by
    simp only [hgdef]
    rw [← hv θ s, sub_self]
  have hwO : ∀ s, (fun t => w t s) =O[nhds θ] fun t => t - θ := by
    intro s
    have h2 : (fun t => ∑ s, |g t s|) =O[nhds θ] fun t => t - θ := by
      have h3 : ∀ s, (fun t => |g t s|) =O[nhds θ] fun t => t - θ := fun s => by
        have := (hgd s).isBigO_sub
        simp only [hg0, sub_zero] at this
        exact this.abs_left
      exact Asymptotics.IsBigO.fun_sum fun s _ => h3 s
    refine Asymptotics.IsBigO.trans (Asymptotics.IsBigO.of_bound (1 / (1 - gamma)) (Filter.Eventually.of_forall fun t => ?_)) h2
    have := sup_bound gamma hg hg1 (w t) (g t) (fun s => goesOn e s (mu t s)) (fun s s' => goesOn_nonneg e hn s _ s') (fun s => goesOn_sum e hn h1 s _) (hwg t) s
    rw [Real.norm_eq_abs, Real.norm_eq_abs, abs_of_nonneg (show 0 ≤ ∑ s, |g t s| from Finset.sum_nonneg fun s _ => abs_nonneg _)]
    rw [div_mul_eq_mul_div, one_mul]
    exact this
  have hBd : HasDerivAt B 0 θ := by
    have hterm : ∀ s s', HasDerivAt (fun t => (goesOn e s (mu t s) s' - goesOn e s (mu θ s) s') * w t s') 0 θ := by
      intro s s'
      rw [hasDerivAt_iff_isLittleO]
      have c : (fun t => goesOn e s (mu t s) s' - goesOn e s (mu θ s) s') =o[nhds θ] fun _ => (1 : ℝ) := by
        rw [Asymptotics.isLittleO_one_iff]
        have := (smooth_goesOn e mu θ hs s s').continuousAt.sub_const (goesOn e s (mu θ s) s')
        simpa [ContinuousAt] using this
      have := c.mul_isBigO (hwO s')
      simpa using this
    have := (HasDerivAt.fun_sum (u := Finset.univ) fun s _ => (HasDerivAt.fun_sum (u := Finset.univ) fun s' _ => hterm s s').const_mul (D s)).const_mul gamma
    simpa using this
  have hA : HasDerivAt (fun t => ∑ s, D s * g t s) (∑ s, D s * deriv (fun t => lookahead e gamma (v θ) s (mu t s)) θ) θ :=
    HasDerivAt.fun_sum fun s _ => (hgd s).const_mul (D s)
  have h3 := (hA.add hBd).const_add (∑ s, e.init s * v θ s)
  rw [add_zero] at h3
  refine h3.congr_of_eventuallyEq (Filter.Eventually.of_forall fun t => ?_)
  exact hJ t

/-- **C267, partial** (the code draws the rows of a batch from a buffer in which a state occurs as often as it was visited, without discount). Let the critic be the values of the actions under the actor `mu θ`, and let the rows of the batches be distributed like its discounted visits. Then the expected
return has a derivative along every smooth path of actors, and the expected `actor_loss` has, up to a negative factor that does not depend on the path, the same. -/
theorem C267_gradient_partial (e : Env S (Fin d → ℝ)) (hi : ∀ s, 0 ≤ e.init s) (hi1 : ∑ s, e.init s = 1) (hn : ∀ s y s', 0 ≤ e.next s y s')
    (h1 : ∀ s y, ∑ s', e.next s y s' = 1) (gamma : ℝ) (hg : 0 ≤ gamma) (hg1 : gamma < 1) (mu0 : S → Fin d → ℝ) (critic : S → List ℝ → ℝ)
    {Ω : Type} [Fintype Ω] (P : Ω → ℝ) {n : Nat} (hpos : 0 < n) (obs : Ω → Fin n → S) (hobs : OnPolicy e gamma mu0 P obs) :
    ∃ c, c < 0 ∧ ∀ (mu : ℝ → S → Fin d → ℝ) (θ : ℝ), Smooth e mu θ → mu θ = mu0 → ∀ (v : ℝ → S → ℝ), (∀ t, ActorValues e gamma (mu t) (v t)) →
      (∀ t s, critic s (List.ofFn (mu t s)) = lookahead e gamma (v θ) s (mu t s)) →
      ∃ J', HasDerivAt (fun t => ∑ s, e.init s * v t s) J' θ ∧
        HasDerivAt (fun t => ∑ ω, P ω * ddpgActorLoss critic (fun s => List.ofFn (mu t s)) (List.ofFn (obs ω))) (c * J') θ := by
  have hne : Nonempty S := by
    by_contra h
    rw [not_nonempty_iff] at h
    simp at hi1
  have hvp := visits_pos e hi hi1 hn h1 gamma hg hg1 mu0
  refine ⟨-1 / ∑ s, visits e gamma mu0 s, div_neg_of_neg_of_pos (by norm_num) hvp, fun mu θ hs hmu v hv hcritic => ?_⟩
  refine ⟨_, policy_gradient e hi hi1 hn h1 gamma hg hg1 mu θ hs v hv, ?_⟩
  have hloss : ∀ t, ∑ ω, P ω * ddpgActorLoss critic (fun s => List.ofFn (mu t s)) (List.ofFn (obs ω)) =
      -1 / (∑ s, visits e gamma mu0 s) * ∑ s, visits e gamma mu0 s * lookahead e gamma (v θ) s (mu t s) := by
    intro t
    have h2 : ∀ ω, ddpgActorLoss critic (fun s => List.ofFn (mu t s)) (List.ofFn (obs ω)) = -(∑ i, lookahead e gamma (v θ) (obs ω i) (mu t (obs ω i))) / n := by
      intro ω
      unfold ddpgActorLoss Ppo.mean
      rw [List.zipWith_map_right, List.zipWith_self, List.length_map, List.length_ofFn, List.map_ofFn, List.sum_ofFn, ← neg_div]
      simp only [Function.comp, hcritic]
    simp only [h2]
    have h3 : ∀ ω, P ω * (-(∑ i, lookahead e gamma (v θ) (obs ω i) (mu t (obs ω i))) / n) =
        (-1 / n) * ∑ i, P ω * lookahead e gamma (v θ) (obs ω i) (mu t (obs ω i)) := by
      intro ω
      rw [← Finset.mul_sum]
      ring
    simp only [h3]
    rw [← Finset.mul_sum, Finset.sum_comm]
    have h4 : ∀ i, ∑ ω, P ω * lookahead e gamma (v θ) (obs ω i) (mu t (obs ω i)) = (∑ s, visits e gamma mu0 s * lookahead e gamma (v θ) s (mu t s)) / ∑ s, visits e gamma mu0 s :=
      fun i => hobs.rows i fun s => lookahead e gamma (v θ) s (mu t s)
    simp only [h4, Finset.sum_const, Finset.card_univ, Fintype.card_fin, nsmul_eq_mul]
    have : (n : ℝ) ≠ 0 := by exact_mod_cast hpos.ne'
    field_simp
  simp only [hloss]
  rw [hmu]
  refine HasDerivAt.const_mul _ (HasDerivAt.fun_sum fun s _ => HasDerivAt.const_mul _ ?_)
  exact (smooth_lookahead e gamma (v θ) mu θ hs s).hasDerivAt

/-! ### Two steps -/

/-- An episode of two steps. It starts in `true` with reward 3 times the action and ends after `false` with reward -4 times the action. -/
noncomputable def twoSteps : Env Bool (Fin 1 → ℝ) where
  init s := if s then 1 else 0
  next _ _ s' := if s' then 0 else 1
  rew s y _ := if s then 3 * y 0 else -4 * y 0
  ends s _ _ := !s

/-- Actors with one parameter, which is the action in both states. -/
def oneParameter (t : ℝ) (_ : Bool) (_ : Fin 1) : ℝ := t

/-- Their values for discount 1/2. -/
noncomputable def twoValues (t : ℝ) (s : Bool) : ℝ := if s then t else -4 * t

/-- The values of actions under the actor with parameter 0. -/
noncomputable def twoCritic (s : Bool) (a : List ℝ) : ℝ := if s then 3 * a.getD 0 0 else -4 * a.getD 0 0

theorem twoSteps_values (t : ℝ) : ActorValues twoSteps (1 / 2) (oneParameter t) (twoValues t) := by
  intro s
  cases s
  · simp [lookahead, twoSteps, twoValues, oneParameter]
  · simp [lookahead, twoSteps, twoValues, oneParameter]
    ring

theorem twoCritic_eq (s : Bool) (y : Fin 1 → ℝ) : twoCritic s (List.ofFn y) = lookahead twoSteps (1 / 2) (twoValues 0) s y := by
  cases s <;> simp [twoCritic, lookahead, twoSteps, twoValues]

/-- **C267, violated** for a buffer that consists of an episode of the actor itself, and the batch with all its rows: the expected return grows with the parameter, yet so does the
loss, so that the optimiser makes the parameter smaller. -/
theorem C267_violated : ∃ (e : Env Bool (Fin 1 → ℝ)) (mu : ℝ → Bool → Fin 1 → ℝ) (v : ℝ → Bool → ℝ) (critic : Bool → List ℝ → ℝ),
    (∀ t, ActorValues e (1 / 2) (mu t) (v t)) ∧ (∀ s y, critic s (List.ofFn y) = lookahead e (1 / 2) (v 0) s y) ∧
    (∀ y, e.init true = 1 ∧ e.next true y false = 1 ∧ e.ends true y false = false ∧ ∀ s', e.ends false y s' = true) ∧
    HasDerivAt (fun t => ∑ s, e.init s * v t s) 1 0 ∧ HasDerivAt (fun t => ddpgActorLoss critic (fun s => List.ofFn (mu t s)) [true, false]) (1 / 2) 0 := by
  refine ⟨twoSteps, oneParameter, twoValues, twoCritic, twoSteps_values, twoCritic_eq, fun y => by simp [twoSteps], ?_, ?_⟩
  · have : (fun t => ∑ s, twoSteps.init s * twoValues t s) = fun t => t := by
      funext t
      simp [twoSteps, twoValues]
    rw [this]
    exact hasDerivAt_id 0
  · have : (fun t => ddpgActorLoss twoCritic (fun s => List.ofFn (oneParameter t s)) [true, false]) = fun t => (1 / 2) * t := by
      funext t
      simp [ddpgActorLoss, Ppo.mean, twoCritic, oneParameter]
      ring
    rw [this]
    have h := (hasDerivAt_id (0 : ℝ)).const_mul (1 / 2)
    rwa [mul_one] at h

theorem twoSteps_visits (mu : Bool → Fin 1 → ℝ) : visits twoSteps (1 / 2) mu true = 1 ∧ visits twoSteps (1 / 2) mu false = 1 / 2 := by
  have h := visits_eq twoSteps (fun s => by cases s <;> simp [twoSteps]) (by simp [twoSteps]) (fun s y s' => by cases s' <;> simp [twoSteps]) (fun s y => by simp [twoSteps]) (1 / 2)
    (by norm_num) (by norm_num) mu
  have g1 : ∀ s, goesOn twoSteps s (mu s) true = 0 := fun s => by cases s <;> simp [goesOn, twoSteps]
  have g2 : goesOn twoSteps false (mu false) false = 0 := by simp [goesOn, twoSteps]
  have g3 : goesOn twoSteps true (mu true) false = 1 := by simp [goesOn, twoSteps]
  have i1 : twoSteps.init true = 1 := by simp [twoSteps]
  have i2 : twoSteps.init false = 0 := by simp [twoSteps]
  have h1 := h true
  have h2 := h false
  rw [Fintype.sum_bool, g1, g1, i1] at h1
  rw [Fintype.sum_bool, g2, g3, i2] at h2
  have h3 : visits twoSteps (1 / 2) mu true = 1 := by linarith
  exact ⟨h3, by linarith⟩

/-- Batches of one row, `true` twice as often as `false`, and the paths above meet the hypotheses of `C267_gradient_partial`. -/
example : OnPolicy twoSteps (1 / 2) (oneParameter 0) (fun _ : Fin 3 => 1 / 3) (fun ω (_ : Fin 1) => decide (ω.val < 2)) ∧ Smooth twoSteps oneParameter 0 := by
  obtain ⟨h1, h2⟩ := twoSteps_visits (oneParameter 0)
  refine ⟨⟨by simp, fun i f => ?_⟩, ⟨fun s s' => ?_, fun s s' => ?_, fun s s' => ?_⟩⟩
  · rw [Fintype.sum_bool, Fintype.sum_bool, h1, h2, Fin.sum_univ_three]
    simp
    ring
  · simp [twoSteps]
  · cases s
    · exact (differentiableAt_id (𝕜 := ℝ) (x := (0 : ℝ))).const_mul (-4)
    · exact (differentiableAt_id (𝕜 := ℝ) (x := (0 : ℝ))).const_mul 3
  · simp [twoSteps]

end Verif.SacLoss
