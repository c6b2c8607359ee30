import Verif.Props.SacCritics

/-!
C266: alternating between exact critics and best actors leads to the optimum, for DDPG and TD3 and for SAC.
-/

namespace Verif.SacLoss

open Verif.Squash Verif.Critics Verif.PolicyGradient MeasureTheory InformationTheory

set_option linter.unusedSectionVars false

variable {S : Type} [Fintype S] {d : Nat}

/-! ### Specification -/

/-- `v` are the values of the deterministic policy that takes action `mu s` in state `s`. -/
def ActorValues (e : Env S (Fin d → ℝ)) (gamma : ℝ) (mu : S → Fin d → ℝ) (v : S → ℝ) : Prop := ∀ s, v s = lookahead e gamma v s (mu s)

/-- The optimal values: Bellman's optimality equation. -/
def OptimalValues (e : Env S (Fin d → ℝ)) (gamma : ℝ) (v : S → ℝ) : Prop := ∀ s, IsLUB (lookahead e gamma v s '' {y | Inside y}) (v s)

/-- No actor has a smaller loss. -/
def BestActor (critic : S → List ℝ → ℝ) (obs : List S) (mu : S → Fin d → ℝ) : Prop :=
  (∀ s, Inside (mu s)) ∧ ∀ mu' : S → Fin d → ℝ, (∀ s, Inside (mu' s)) →
    ddpgActorLoss critic (fun s => List.ofFn (mu s)) obs ≤ ddpgActorLoss critic (fun s => List.ofFn (mu' s)) obs

/-- An environment with bounded rewards in which everything depends measurably on the action. -/
structure Mdp.Bounded (e : Mdp S d) : Prop where
  nonneg : ∀ s y s', 0 ≤ e.next s y s'
  sum : ∀ s y, ∑ s', e.next s y s' ≤ 1
  next : ∀ s s', Measurable fun y => e.next s y s'
  rew : ∀ s, Measurable (e.rew s)
  bounded : ∃ R, ∀ s y, |e.rew s y| ≤ R

/-- The soft optimal values: the soft maximum over the actions in place of the maximum. -/
def Mdp.SoftOptimal (e : Mdp S d) (gamma alpha : ℝ) (v : S → ℝ) : Prop := ∀ s, v s = alpha * Real.log (normaliser alpha (e.soft gamma v s))

/-- In no state an actor has a smaller expected loss. -/
def Mdp.BestSac (e : Mdp S d) (critic1 critic2 : S → List ℝ → ℝ) (alpha : ℝ) (l : S → (Fin d → ℝ) → ℝ) : Prop :=
  ∀ l', (∀ s, Measurable (l' s)) → e.Policy l' → ∀ s, lossAt critic1 critic2 alpha l s ≤ lossAt critic1 critic2 alpha l' s

/-! ### DDPG and TD3 -/

theorem sum_update (q : S → (Fin d → ℝ) → ℝ) (mu : S → Fin d → ℝ) (s : S) (y : Fin d → ℝ) [DecidableEq S] (obs : List S) :
    (obs.map fun x => q x (Function.update mu s y x)).sum = (obs.map fun x => q x (mu x)).sum + (obs.count s : ℝ) * (q s y - q s (mu s)) := by
  induction obs with
  | nil => simp
  | cons x obs ih =>
    simp only [List.map_cons, List.sum_cons, ih, List.count_cons]
    by_cases h : x = s
    · subst h
      simp
      ring
    · simp [h]
      ring

theorem best_action (critic : S → List ℝ → ℝ) (obs : List S) (mu : S → Fin d → ℝ) (h : BestActor critic obs mu) (s : S) (hs : s ∈ obs) (y : Fin d → ℝ)
    (hy : Inside y) : critic s (List.ofFn y) ≤ critic s (List.ofFn (mu s)) := by
  classical
  have h1 := h.2 (Function.update mu s y) (fun x => by
    by_cases hx : x = s
    · subst hx
      simpa using hy
    · simpa [hx] using h.1 x)
  have hz : ∀ mu : S → Fin d → ℝ, List.zipWith critic obs (obs.map fun s => List.ofFn (mu s)) = obs.map fun x => critic x (List.ofFn (mu x)) := fun mu => by
    rw [List.zipWith_map_right, List.zipWith_self]
  unfold ddpgActorLoss Ppo.mean at h1
  rw [hz, hz, sum_update (fun x y => critic x (List.ofFn y)), List.length_map, List.length_map] at h1
  have hlen : (0 : ℝ) < obs.length := by exact_mod_cast List.length_pos_of_mem hs
  have hcount : (0 : ℝ) < obs.count s := by exact_mod_cast List.count_pos_iff.mpr hs
  have h2 := (div_le_div_iff_of_pos_right hlen).mp (neg_le_neg_iff.mp h1)
  by_contra hneg
  have : 0 < (obs.count s : ℝ) * (critic s (List.ofFn y) - critic s (List.ofFn (mu s))) := mul_pos hcount (by linarith [not_le.mp hneg])
  linarith

/-- If at the state with the least difference it is at least `gamma` times an average of the differences, all differences are nonnegative. -/
theorem nonneg_of_average (gamma : ℝ) (hg : 0 ≤ gamma) (hg1 : gamma < 1) (w : S → ℝ) (p : S → S → ℝ) (hp : ∀ s s', 0 ≤ p s s') (hs : ∀ s, ∑ s', p s s' ≤ 1)
    (h : ∀ s, gamma * ∑ s', p s s' * w s' ≤ w s) (s : S) : 0 ≤ w s := by
  obtain ⟨s0, -, hs0⟩ := Finset.exists_min_image Finset.univ w ⟨s, Finset.mem_univ s⟩
  refine le_trans ?_ (hs0 s (Finset.mem_univ s))
  by_contra hneg
  have hneg : w s0 < 0 := not_le.mp hneg
  have h1 : (∑ s', p s0 s') * w s0 ≤ ∑ s', p s0 s' * w s' := by
    rw [Finset.sum_mul]
    exact Finset.sum_le_sum fun s' _ => mul_le_mul_of_nonneg_left (hs0 s' (Finset.mem_univ s')) (hp s0 s')
  have h2 : w s0 ≤ (∑ s', p s0 s') * w s0 := by nlinarith [hs s0]
  have h3 := h s0
  nlinarith [mul_le_mul_of_nonneg_left (h2.trans h1) hg]

theorem tendsto_of_bound (gamma D : ℝ) (hg : 0 ≤ gamma) (hg1 : gamma < 1) (v : Nat → ℝ) (x : ℝ) (h : ∀ k, v k ≤ x ∧ x - v k ≤ gamma ^ k * D) :
    Filter.Tendsto v Filter.atTop (nhds x) := by
  have h0 : Filter.Tendsto (fun k => gamma ^ k * D) Filter.atTop (nhds 0) := by
    have := (tendsto_pow_atTop_nhds_zero_of_lt_one hg hg1).mul_const D
    rwa [zero_mul] at this
  refine tendsto_of_tendsto_of_tendsto_of_le_of_le (g := fun k => x - gamma ^ k * D) (h := fun _ => x) ?_ tendsto_const_nhds (fun k => ?_) fun k => (h k).1
  · simpa using tendsto_const_nhds.sub h0
  · have := (h k).2
    simp only []
    linarith

/-- The probability that the episode goes on in state `s'`. -/
noncomputable def goesOn (e : Env S (Fin d → ℝ)) (s : S) (y : Fin d → ℝ) (s' : S) : ℝ := if e.ends s y s' then 0 else e.next s y s'

theorem lookahead_sub (e : Env S (Fin d → ℝ)) (gamma : ℝ) (v v' : S → ℝ) (s : S) (y : Fin d → ℝ) :
    lookahead e gamma v s y - lookahead e gamma v' s y = gamma * ∑ s', goesOn e s y s' * (v s' - v' s') := by
  unfold lookahead goesOn
  rw [← Finset.sum_sub_distrib, Finset.mul_sum]
  refine Finset.sum_congr rfl fun s' _ => ?_
  cases e.ends s y s'
  · simp
    ring
  · simp

theorem goesOn_nonneg (e : Env S (Fin d → ℝ)) (hn : ∀ s y s', 0 ≤ e.next s y s') (s : S) (y : Fin d → ℝ) (s' : S) : 0 ≤ goesOn e s y s' := by
  unfold goesOn
  split
  · exact le_rfl
  · exact hn s y s'

theorem goesOn_sum (e : Env S (Fin d → ℝ)) (hn : ∀ s y s', 0 ≤ e.next s y s') (h1 : ∀ s y, ∑ s', e.next s y s' = 1) (s : S) (y : Fin d → ℝ) :
    ∑ s', goesOn e s y s' ≤ 1 := by
  rw [← h1 s y]
  refine Finset.sum_le_sum fun s' _ => ?_
  unfold goesOn
  split
  · exact hn s y s'
  · exact le_rfl

theorem ddpg_round (e : Env S (Fin d → ℝ)) (hn : ∀ s y s', 0 ≤ e.next s y s') (h1 : ∀ s y, ∑ s', e.next s y s' = 1) (gamma : ℝ) (hg : 0 ≤ gamma) (hg1 : gamma < 1)
    (obs : List S) (hobs : ∀ s, s ∈ obs) (mu : Nat → S → Fin d → ℝ) (v : Nat → S → ℝ) (critic : Nat → S → List ℝ → ℝ) (hin : ∀ s, Inside (mu 0 s))
    (hv : ∀ k, ActorValues e gamma (mu k) (v k)) (hcritic : ∀ k s (y : Fin d → ℝ), Inside y → critic k s (List.ofFn y) = lookahead e gamma (v k) s y)
    (hmu : ∀ k, BestActor (critic k) obs (mu (k + 1))) (vstar : S → ℝ) (hstar : OptimalValues e gamma vstar) (D : ℝ) (hD : ∀ s, vstar s - v 0 s ≤ D) (k : Nat)
    (s : S) : v k s ≤ v (k + 1) s ∧ v k s ≤ vstar s ∧ vstar s - v k s ≤ gamma ^ k * D := by
  have hinside : ∀ k s, Inside (mu k s) := fun k => by
    cases k with
    | zero => exact hin
    | succ k => exact (hmu k).1
  have hbest : ∀ k s (y : Fin d → ℝ), Inside y → lookahead e gamma (v k) s y ≤ lookahead e gamma (v k) s (mu (k + 1) s) := by
    intro k s y hy
    rw [← hcritic k s y hy, ← hcritic k s _ (hinside (k + 1) s)]
    exact best_action (critic k) obs (mu (k + 1)) (hmu k) s (hobs s) y hy
  have hup : ∀ k s, v k s ≤ v (k + 1) s := by
    intro k s
    refine sub_nonneg.mp (nonneg_of_average gamma hg hg1 (fun s => v (k + 1) s - v k s) (fun s => goesOn e s (mu (k + 1) s)) (fun s s' => goesOn_nonneg e hn s _ s')
      (fun s => goesOn_sum e hn h1 s _) (fun s => ?_) s)
    rw [← lookahead_sub, ← hv (k + 1) s]
    have := hbest k s _ (hinside k s)
    rw [← hv k s] at this
    linarith
  have htop : ∀ k s, v k s ≤ vstar s := by
    intro k s
    refine sub_nonneg.mp (nonneg_of_average gamma hg hg1 (fun s => vstar s - v k s) (fun s => goesOn e s (mu k s)) (fun s s' => goesOn_nonneg e hn s _ s')
      (fun s => goesOn_sum e hn h1 s _) (fun s => ?_) s)
    rw [← lookahead_sub, ← hv k s]
    have := (hstar s).1 ⟨mu k s, hinside k s, rfl⟩
    linarith
  refine ⟨hup k s, htop k s, ?_⟩
  induction k generalizing s with
  | zero => simpa using hD s
  | succ k ih =>
    have hnn : 0 ≤ gamma ^ k * D := (sub_nonneg.mpr (htop k s)).trans (ih s)
    have : vstar s ≤ v (k + 1) s + gamma ^ (k + 1) * D := by
      refine (hstar s).2 ?_
      rintro _ ⟨y, hy, rfl⟩
      have g1 := lookahead_sub e gamma vstar (v k) s y
      have g2 : ∑ s', goesOn e s y s' * (vstar s' - v k s') ≤ gamma ^ k * D := by
        refine (Finset.sum_le_sum fun s' _ => mul_le_mul_of_nonneg_left (ih s') (goesOn_nonneg e hn s y s')).trans ?_
        rw [← Finset.sum_mul]
        exact mul_le_of_le_one_left hnn (goesOn_sum e hn h1 s y)
      have g3 := hbest k s y hy
      have g4 := lookahead_sub e gamma (v (k + 1)) (v k) s (mu (k + 1) s)
      have g5 : 0 ≤ ∑ s', goesOn e s (mu (k + 1) s) s' * (v (k + 1) s' - v k s') :=
        Finset.sum_nonneg fun s' _ => mul_nonneg (goesOn_nonneg e hn s _ s') (sub_nonneg.mpr (hup k s'))
      rw [hv (k + 1) s]
      have g6 := mul_le_mul_of_nonneg_left g2 hg
      have g7 := mul_nonneg hg g5
      rw [pow_succ']
      linarith
    linarith

/-- **C266: DDPG and TD3.** If the critics are alternately the values of the actions under the actor, and the actor the one with the smallest loss on a batch that contains
all states, then the values of the actors never fall, and their distance to the optimal values shrinks by the factor `gamma` each time. -/
theorem C266_ddpg (e : Env S (Fin d → ℝ)) (hn : ∀ s y s', 0 ≤ e.next s y s') (h1 : ∀ s y, ∑ s', e.next s y s' = 1) (gamma : ℝ) (hg : 0 ≤ gamma) (hg1 : gamma < 1)
    (obs : List S) (hobs : ∀ s, s ∈ obs) (mu : Nat → S → Fin d → ℝ) (v : Nat → S → ℝ) (critic : Nat → S → List ℝ → ℝ) (hin : ∀ s, Inside (mu 0 s))
    (hv : ∀ k, ActorValues e gamma (mu k) (v k)) (hcritic : ∀ k s (y : Fin d → ℝ), Inside y → critic k s (List.ofFn y) = lookahead e gamma (v k) s y)
    (hmu : ∀ k, BestActor (critic k) obs (mu (k + 1))) (vstar : S → ℝ) (hstar : OptimalValues e gamma vstar) (D : ℝ) (hD : ∀ s, vstar s - v 0 s ≤ D) (s : S) :
    (∀ k, v k s ≤ v (k + 1) s ∧ v k s ≤ vstar s ∧ vstar s - v k s ≤ gamma ^ k * D) ∧
      Filter.Tendsto (fun k => v k s) Filter.atTop (nhds (vstar s)) := by
  have h := fun k => ddpg_round e hn h1 gamma hg hg1 obs hobs mu v critic hin hv hcritic hmu vstar hstar D hD k s
  exact ⟨h, tendsto_of_bound gamma D hg hg1 _ _ fun k => (h k).2⟩

/-! ### SAC -/

section sac

variable (e : Mdp S d) (he : e.Bounded) (gamma alpha : ℝ) (v : S → ℝ)

include he in
theorem Mdp.Bounded.measurable_soft (s : S) : Measurable (e.soft gamma v s) := by
  unfold Mdp.soft
  exact (he.rew s).add ((Finset.measurable_sum _ fun s' _ => (he.next s s').mul_const _).const_mul gamma)

include he in
theorem Mdp.Bounded.soft_bounded : ∃ C, ∀ s y, |e.soft gamma v s y| ≤ C := by
  obtain ⟨R, hR⟩ := he.bounded
  refine ⟨R + |gamma| * ∑ s', |v s'|, fun s y => ?_⟩
  unfold Mdp.soft
  refine (abs_add_le _ _).trans (add_le_add (hR s y) ?_)
  rw [abs_mul]
  refine mul_le_mul_of_nonneg_left ((Finset.abs_sum_le_sum_abs _ _).trans (Finset.sum_le_sum fun s' _ => ?_)) (abs_nonneg gamma)
  rw [abs_mul, abs_of_nonneg (he.nonneg s y s')]
  exact mul_le_of_le_one_left (abs_nonneg _) ((Finset.single_le_sum (fun s' _ => he.nonneg s y s') (Finset.mem_univ s')).trans (he.sum s y))

include he in
theorem Mdp.Bounded.exp_integrable (s : S) : Integrable (fun y => Real.exp (e.soft gamma v s y / alpha)) (cube d) := by
  obtain ⟨C, hC⟩ := he.soft_bounded e gamma v
  have hm := he.measurable_soft e gamma v s
  refine integrable_bounded _ _ (by fun_prop) (Real.exp (C / |alpha|)) fun y => ?_
  rw [abs_of_pos (Real.exp_pos _)]
  refine Real.exp_le_exp.mpr ((le_abs_self _).trans ?_)
  rw [abs_div]
  exact div_le_div_of_nonneg_right (hC s y) (abs_nonneg alpha)

include he in
theorem Mdp.Bounded.soft_integrable (mu : Measure (Fin d → ℝ)) [IsFiniteMeasure mu] (s : S) : Integrable (e.soft gamma v s) mu := by
  obtain ⟨C, hC⟩ := he.soft_bounded e gamma v
  exact integrable_bounded _ _ (he.measurable_soft e gamma v s) C (hC s)

theorem Mdp.soft_sub (v' : S → ℝ) (s : S) (y : Fin d → ℝ) : e.soft gamma v s y - e.soft gamma v' s y = gamma * ∑ s', e.next s y s' * (v s' - v' s') := by
  unfold Mdp.soft
  simp only [mul_sub, Finset.sum_sub_distrib]
  ring

include he in
/-- The policy proportional to the exponential of the values. -/
theorem Mdp.Bounded.boltzmann_policy : e.Policy fun s y => e.soft gamma v s y / alpha - Real.log (normaliser alpha (e.soft gamma v s)) := by
  have hp : ∀ s, IsProbabilityMeasure (lawOf fun y => e.soft gamma v s y / alpha - Real.log (normaliser alpha (e.soft gamma v s))) := fun s =>
    isProbabilityMeasure_boltzmann alpha _ (he.exp_integrable e gamma alpha v s)
  obtain ⟨R, hR⟩ := he.bounded
  refine ⟨hp, fun s => ?_, fun s => ?_, fun s s' => ?_⟩
  · have := hp s
    exact ((he.soft_integrable e gamma v _ s).div_const _).sub (integrable_const _)
  · have := hp s
    exact integrable_bounded _ _ (he.rew s) R (hR s)
  · have := hp s
    refine integrable_bounded _ _ (he.next s s') 1 fun y => ?_
    rw [abs_of_nonneg (he.nonneg s y s')]
    exact (Finset.single_le_sum (fun s' _ => he.nonneg s y s') (Finset.mem_univ s')).trans (he.sum s y)

include he in
/-- Gibbs: expected values plus entropy are at most the soft maximum. -/
theorem Mdp.Bounded.gibbs (ha : 0 < alpha) (l : S → (Fin d → ℝ) → ℝ) (hm : ∀ s, Measurable (l s)) (hl : e.Policy l) (s : S) :
    ∫ y, (e.soft gamma v s y - alpha * l s y) ∂lawOf (l s) = alpha * Real.log (normaliser alpha (e.soft gamma v s)) -
      alpha * (klDiv (lawOf (l s)) (boltzmann alpha (e.soft gamma v s))).toReal := by
  have hp := hl.prob s
  rw [(klDiv_boltzmann alpha (e.soft gamma v s) (l s) (hm s) ⟨he.measurable_soft e gamma v s, he.exp_integrable e gamma alpha v s,
    he.soft_integrable e gamma v _ s⟩ hp (hl.entropy s)).1, integral_sub (he.soft_integrable e gamma v _ s) ((hl.entropy s).const_mul alpha), integral_const_mul]
  field_simp
  ring

include he in
/-- Larger values by at most `c` make the soft maximum larger by at most `c`. -/
theorem Mdp.Bounded.normaliser_le (ha : 0 < alpha) (v' : S → ℝ) (s : S) (c : ℝ) (h : ∀ y, e.soft gamma v s y ≤ e.soft gamma v' s y + c) :
    alpha * Real.log (normaliser alpha (e.soft gamma v s)) ≤ alpha * Real.log (normaliser alpha (e.soft gamma v' s)) + c := by
  have h0 := normaliser_pos alpha _ (he.exp_integrable e gamma alpha v s)
  have h1 := normaliser_pos alpha _ (he.exp_integrable e gamma alpha v' s)
  have h2 : normaliser alpha (e.soft gamma v s) ≤ normaliser alpha (e.soft gamma v' s) * Real.exp (c / alpha) := by
    unfold normaliser
    rw [← integral_mul_const]
    refine integral_mono (he.exp_integrable e gamma alpha v s) ((he.exp_integrable e gamma alpha v' s).mul_const _) fun y => ?_
    simp only []
    rw [← Real.exp_add, ← add_div]
    exact Real.exp_le_exp.mpr (div_le_div_of_nonneg_right (h y) ha.le)
  have h3 := Real.log_le_log h0 h2
  rw [Real.log_mul h1.ne' (Real.exp_pos _).ne', Real.log_exp] at h3
  have h4 := mul_le_mul_of_nonneg_left h3 ha.le
  rw [mul_add, mul_div_cancel₀ _ ha.ne'] at h4
  exact h4

end sac

theorem sac_round (e : Mdp S d) (he : e.Bounded) (gamma alpha : ℝ) (hg : 0 ≤ gamma) (hg1 : gamma < 1) (ha : 0 < alpha)
    (l : Nat → S → (Fin d → ℝ) → ℝ) (hm : ∀ k s, Measurable (l k s)) (hl : ∀ k, e.Policy (l k)) (v : Nat → S → ℝ) (hv : ∀ k, e.SoftValues gamma alpha (l k) (v k))
    (critic1 critic2 : Nat → S → List ℝ → ℝ) (h1 : ∀ k s y, critic1 k s (List.ofFn y) = e.soft gamma (v k) s y)
    (h2 : ∀ k s y, critic2 k s (List.ofFn y) = e.soft gamma (v k) s y) (hbest : ∀ k, e.BestSac (critic1 k) (critic2 k) alpha (l (k + 1)))
    (vstar : S → ℝ) (hstar : e.SoftOptimal gamma alpha vstar) (D : ℝ) (hD : ∀ s, vstar s - v 0 s ≤ D) (k : Nat) (s : S) :
    v k s ≤ v (k + 1) s ∧ v k s ≤ vstar s ∧ vstar s - v k s ≤ gamma ^ k * D := by
  have hup : ∀ k s, v k s ≤ v (k + 1) s := fun k s =>
    C264_improves e he.nonneg he.sum gamma alpha hg hg1 (l k) (l (k + 1)) (hl k) (hl (k + 1)) (v k) (v (k + 1)) (hv k) (hv (k + 1)) (critic1 k) (critic2 k) (h1 k) (h2 k)
      (hbest k (l k) (hm k) (hl k)) s
  -- the loss
  have eloss : ∀ k (l' : S → (Fin d → ℝ) → ℝ) s, lossAt (critic1 k) (critic2 k) alpha l' s = -∫ y, (e.soft gamma (v k) s y - alpha * l' s y) ∂lawOf (l' s) := by
    intro k l' s
    unfold lossAt
    rw [← integral_neg]
    congr 1
    funext y
    simp [sacActorLoss, Ppo.mean, h1, h2]
  -- the new actor is at least as good as the Boltzmann policy
  have hnew : ∀ k s, alpha * Real.log (normaliser alpha (e.soft gamma (v k) s)) ≤ ∫ y, (e.soft gamma (v k) s y - alpha * l (k + 1) s y) ∂lawOf (l (k + 1) s) := by
    intro k s
    have hb := he.boltzmann_policy e gamma alpha (v k)
    have g1 := hbest k _ (fun s => ((he.measurable_soft e gamma (v k) s).div_const alpha).sub_const _) hb s
    rw [eloss, eloss] at g1
    have g2 := he.gibbs e gamma alpha (v k) ha _ (fun s => ((he.measurable_soft e gamma (v k) s).div_const alpha).sub_const _) hb s
    have g3 : klDiv (lawOf fun y => e.soft gamma (v k) s y / alpha - Real.log (normaliser alpha (e.soft gamma (v k) s))) (boltzmann alpha (e.soft gamma (v k) s)) = 0 := by
      have := hb.prob s
      exact klDiv_self _
    rw [g3] at g2
    simp only [ENNReal.toReal_zero, mul_zero, sub_zero] at g2
    linarith
  have htop : ∀ k s, v k s ≤ vstar s := by
    intro k s
    -- look at the state with the largest excess
    obtain ⟨s0, -, hs0⟩ := Finset.exists_max_image Finset.univ (fun s => v k s - vstar s) ⟨s, Finset.mem_univ s⟩
    refine sub_nonpos.mp ((hs0 s (Finset.mem_univ s)).trans ?_)
    by_contra hpos
    have hpos : 0 < v k s0 - vstar s0 := not_le.mp hpos
    have g1 := he.gibbs e gamma alpha (v k) ha (l k) (hm k) (hl k) s0
    rw [← hv k s0] at g1
    have g2 : 0 ≤ alpha * (klDiv (lawOf (l k s0)) (boltzmann alpha (e.soft gamma (v k) s0))).toReal := mul_nonneg ha.le ENNReal.toReal_nonneg
    have g3 := he.normaliser_le e gamma alpha (v k) ha vstar s0 (gamma * (v k s0 - vstar s0)) (fun y => by
      have g4 := e.soft_sub gamma (v k) vstar s0 y
      have g5 : ∑ s', e.next s0 y s' * (v k s' - vstar s') ≤ v k s0 - vstar s0 := by
        refine (Finset.sum_le_sum fun s' _ => mul_le_mul_of_nonneg_left (hs0 s' (Finset.mem_univ s')) (he.nonneg s0 y s')).trans ?_
        rw [← Finset.sum_mul]
        exact mul_le_of_le_one_left hpos.le (he.sum s0 y)
      have g6 := mul_le_mul_of_nonneg_left g5 hg
      linarith)
    rw [← hstar s0] at g3
    nlinarith
  refine ⟨hup k s, htop k s, ?_⟩
  induction k generalizing s with
  | zero => simpa using hD s
  | succ k ih =>
    have hnn : 0 ≤ gamma ^ k * D := (sub_nonneg.mpr (htop k s)).trans (ih s)
    have g3 := he.normaliser_le e gamma alpha vstar ha (v k) s (gamma ^ (k + 1) * D) (fun y => by
      have g4 := e.soft_sub gamma vstar (v k) s y
      have g5 : ∑ s', e.next s y s' * (vstar s' - v k s') ≤ gamma ^ k * D := by
        refine (Finset.sum_le_sum fun s' _ => mul_le_mul_of_nonneg_left (ih s') (he.nonneg s y s')).trans ?_
        rw [← Finset.sum_mul]
        exact mul_le_of_le_one_left hnn (he.sum s y)
      have g6 := mul_le_mul_of_nonneg_left g5 hg
      rw [pow_succ']
      linarith)
    rw [← hstar s] at g3
    have g7 := hnew k s
    have hp := (hl (k + 1)).prob s
    have g8 : ∫ y, (e.soft gamma (v k) s y - alpha * l (k + 1) s y) ∂lawOf (l (k + 1) s) ≤ v (k + 1) s := by
      rw [hv (k + 1) s]
      refine integral_mono ((he.soft_integrable e gamma _ _ s).sub (((hl (k + 1)).entropy s).const_mul alpha))
        ((he.soft_integrable e gamma _ _ s).sub (((hl (k + 1)).entropy s).const_mul alpha)) fun y => ?_
      have g9 := e.soft_sub gamma (v (k + 1)) (v k) s y
      have g10 : 0 ≤ ∑ s', e.next s y s' * (v (k + 1) s' - v k s') :=
        Finset.sum_nonneg fun s' _ => mul_nonneg (he.nonneg s y s') (sub_nonneg.mpr (hup k s'))
      have := mul_nonneg hg g10
      simp only []
      linarith
    linarith

/-- **C266: SAC.** If both critics are alternately the soft values of the actions under the actor, and the actor the one with the smallest expected loss in every state, then the soft
values of the actors never fall, and their distance to the soft optimal values shrinks by the factor `gamma` each time. (`log_prob` is the log-density of the action, see C264.) -/
theorem C266_sac_partial (e : Mdp S d) (he : e.Bounded) (gamma alpha : ℝ) (hg : 0 ≤ gamma) (hg1 : gamma < 1) (ha : 0 < alpha)
    (l : Nat → S → (Fin d → ℝ) → ℝ) (hm : ∀ k s, Measurable (l k s)) (hl : ∀ k, e.Policy (l k)) (v : Nat → S → ℝ) (hv : ∀ k, e.SoftValues gamma alpha (l k) (v k))
    (critic1 critic2 : Nat → S → List ℝ → ℝ) (h1 : ∀ k s y, critic1 k s (List.ofFn y) = e.soft gamma (v k) s y)
    (h2 : ∀ k s y, critic2 k s (List.ofFn y) = e.soft gamma (v k) s y) (hbest : ∀ k, e.BestSac (critic1 k) (critic2 k) alpha (l (k + 1)))
    (vstar : S → ℝ) (hstar : e.SoftOptimal gamma alpha vstar) (D : ℝ) (hD : ∀ s, vstar s - v 0 s ≤ D) (s : S) :
    (∀ k, v k s ≤ v (k + 1) s ∧ v k s ≤ vstar s ∧ vstar s - v k s ≤ gamma ^ k * D) ∧
      Filter.Tendsto (fun k => v k s) Filter.atTop (nhds (vstar s)) := by
  have h := fun k => sac_round e he gamma alpha hg hg1 ha l hm hl v hv critic1 critic2 h1 h2 hbest vstar hstar D hD k s
  exact ⟨h, tendsto_of_bound gamma D hg hg1 _ _ fun k => (h k).2⟩

/-! ### Existence -/

/-- A map that moves differences of at most `D` to at most `gamma * D` has a fixed point. -/
theorem exists_fixed (F : (S → ℝ) → S → ℝ) (gamma : ℝ) (hg : 0 ≤ gamma) (hg1 : gamma < 1)
    (hF : ∀ v v' D, 0 ≤ D → (∀ s, |v s - v' s| ≤ D) → ∀ s, F v s ≤ F v' s + gamma * D) : ∃ v, ∀ s, v s = F v s := by
  have hc : ContractingWith ⟨gamma, hg⟩ F := by
    refine ⟨by exact_mod_cast hg1, LipschitzWith.of_dist_le_mul fun v v' => ?_⟩
    refine (dist_pi_le_iff (mul_nonneg hg dist_nonneg)).mpr fun s => ?_
    have h : ∀ s, |v s - v' s| ≤ dist v v' := fun s => by
      rw [← Real.dist_eq]
      exact dist_le_pi_dist v v' s
    have h' : ∀ s, |v' s - v s| ≤ dist v v' := fun s => by
      rw [abs_sub_comm]
      exact h s
    rw [Real.dist_eq, abs_le]
    have h1 := hF v v' _ dist_nonneg h s
    have h2 := hF v' v _ dist_nonneg h' s
    change -(gamma * dist v v') ≤ _ ∧ _ ≤ gamma * dist v v'
    constructor <;> linarith
  exact ⟨ContractingWith.fixedPoint F hc, fun s => (congrFun hc.fixedPoint_isFixedPt s).symm⟩

theorem lookahead_le (e : Env S (Fin d → ℝ)) (hn : ∀ s y s', 0 ≤ e.next s y s') (h1 : ∀ s y, ∑ s', e.next s y s' = 1) (gamma : ℝ) (hg : 0 ≤ gamma) (v v' : S → ℝ)
    (D : ℝ) (hD : 0 ≤ D) (h : ∀ s, |v s - v' s| ≤ D) (s : S) (y : Fin d → ℝ) : lookahead e gamma v s y ≤ lookahead e gamma v' s y + gamma * D := by
  have g1 := lookahead_sub e gamma v v' s y
  have g2 : ∑ s', goesOn e s y s' * (v s' - v' s') ≤ D := by
    refine (Finset.sum_le_sum fun s' _ => mul_le_mul_of_nonneg_left ((le_abs_self _).trans (h s')) (goesOn_nonneg e hn s y s')).trans ?_
    rw [← Finset.sum_mul]
    exact mul_le_of_le_one_left hD (goesOn_sum e hn h1 s y)
  have g3 := mul_le_mul_of_nonneg_left g2 hg
  linarith

theorem compact_inside : IsCompact {y : Fin d → ℝ | Inside y} := by
  have : {y : Fin d → ℝ | Inside y} = Set.univ.pi fun _ => Set.Icc (-1) 1 := by
    ext y
    simp only [Inside, abs_le, Set.mem_pi, Set.mem_Icc, Set.mem_univ, true_implies, Set.mem_setOf_eq]
  rw [this]
  exact isCompact_univ_pi fun _ => isCompact_Icc

/-- **C266** the hypotheses of `C266_ddpg` can be met, for every first actor and every environment that depends continuously on the action. -/
theorem C266_ddpg_exists (e : Env S (Fin d → ℝ)) (hn : ∀ s y s', 0 ≤ e.next s y s') (h1 : ∀ s y, ∑ s', e.next s y s' = 1)
    (hnext : ∀ s s', Continuous fun y => e.next s y s') (hrew : ∀ s s', Continuous fun y => e.rew s y s') (hends : ∀ s s', Continuous fun y => e.ends s y s')
    (gamma : ℝ) (hg : 0 ≤ gamma) (hg1 : gamma < 1) (obs : List S) (mu0 : S → Fin d → ℝ) (hmu0 : ∀ s, Inside (mu0 s)) :
    ∃ (mu : Nat → S → Fin d → ℝ) (v : Nat → S → ℝ) (critic : Nat → S → List ℝ → ℝ) (vstar : S → ℝ), mu 0 = mu0 ∧ (∀ s, Inside (mu 0 s)) ∧ (∀ k, ActorValues e gamma (mu k) (v k)) ∧
      (∀ k s (y : Fin d → ℝ), critic k s (List.ofFn y) = lookahead e gamma (v k) s y) ∧ (∀ k, BestActor (critic k) obs (mu (k + 1))) ∧ OptimalValues e gamma vstar := by
  have hcont : ∀ v s, Continuous (lookahead e gamma v s) := by
    intro v s
    unfold lookahead
    refine continuous_finsetSum _ fun s' _ => (hnext s s').mul ((hrew s s').add (continuous_const.mul ?_))
    exact (continuous_of_discreteTopology (f := fun b : Bool => if b then (0 : ℝ) else v s')).comp (hends s s')
  have hmax : ∀ v s, ∃ y, Inside y ∧ ∀ y', Inside y' → lookahead e gamma v s y' ≤ lookahead e gamma v s y := by
    intro v s
    obtain ⟨y, hy, hy'⟩ := compact_inside.exists_isMaxOn ⟨(0 : Fin d → ℝ), fun j => by simp⟩ (hcont v s).continuousOn
    exact ⟨y, hy, fun y' h => hy' h⟩
  choose best hbest hbest' using hmax
  have hval : ∀ mu : S → Fin d → ℝ, ∃ v, ActorValues e gamma mu v := fun mu =>
    exists_fixed (fun v s => lookahead e gamma v s (mu s)) gamma hg hg1 fun v v' D hD h s => lookahead_le e hn h1 gamma hg v v' D hD h s (mu s)
  choose value hvalue using hval
  obtain ⟨vstar, hstar⟩ := exists_fixed (fun v s => lookahead e gamma v s (best v s)) gamma hg hg1 fun v v' D hD h s =>
    (lookahead_le e hn h1 gamma hg v v' D hD h s (best v s)).trans (by have := hbest' v' s _ (hbest v s); linarith)
  let mu : Nat → S → Fin d → ℝ := fun k => Nat.rec mu0 (fun _ m => best (value m)) k
  let act : List ℝ → Fin d → ℝ := fun a j => a.getD j 0
  have hact : ∀ y : Fin d → ℝ, act (List.ofFn y) = y := fun y => by
    funext j
    simp [act]
  refine ⟨mu, fun k => value (mu k), fun k s a => lookahead e gamma (value (mu k)) s (act a), vstar, rfl, hmu0, fun k => hvalue (mu k), fun k s y => by simp only [hact], fun k => ?_,
    fun s => ⟨?_, ?_⟩⟩
  · refine ⟨fun s => hbest _ s, fun mu' hmu' => ?_⟩
    unfold ddpgActorLoss Ppo.mean
    simp only [List.zipWith_map_right, List.zipWith_self, List.length_map, hact]
    refine neg_le_neg (div_le_div_of_nonneg_right (List.sum_le_sum fun s _ => ?_) (Nat.cast_nonneg _))
    exact hbest' (value (mu k)) s _ (hmu' s)
  · rintro _ ⟨y, hy, rfl⟩
    rw [hstar s]
    exact hbest' vstar s y hy
  · intro b hb
    rw [hstar s]
    exact hb ⟨best vstar s, hbest vstar s, rfl⟩

theorem Mdp.Bounded.soft_le (e : Mdp S d) (he : e.Bounded) (gamma : ℝ) (hg : 0 ≤ gamma) (v v' : S → ℝ) (D : ℝ) (hD : 0 ≤ D) (h : ∀ s, |v s - v' s| ≤ D) (s : S)
    (y : Fin d → ℝ) : e.soft gamma v s y ≤ e.soft gamma v' s y + gamma * D := by
  have g1 := e.soft_sub gamma v v' s y
  have g2 : ∑ s', e.next s y s' * (v s' - v' s') ≤ D := by
    refine (Finset.sum_le_sum fun s' _ => mul_le_mul_of_nonneg_left ((le_abs_self _).trans (h s')) (he.nonneg s y s')).trans ?_
    rw [← Finset.sum_mul]
    exact mul_le_of_le_one_left hD (he.sum s y)
  have g3 := mul_le_mul_of_nonneg_left g2 hg
  linarith

/-- **C266** the hypotheses of `C266_sac_partial` can be met, for every first actor and every environment with bounded rewards. -/
theorem C266_sac_exists (e : Mdp S d) (he : e.Bounded) (gamma alpha : ℝ) (hg : 0 ≤ gamma) (hg1 : gamma < 1) (ha : 0 < alpha)
    (l0 : S → (Fin d → ℝ) → ℝ) (hm0 : ∀ s, Measurable (l0 s)) (hl0 : e.Policy l0) :
    ∃ (l : Nat → S → (Fin d → ℝ) → ℝ) (v : Nat → S → ℝ) (critic : Nat → S → List ℝ → ℝ) (vstar : S → ℝ), l 0 = l0 ∧ (∀ k s, Measurable (l k s)) ∧ (∀ k, e.Policy (l k)) ∧
      (∀ k, e.SoftValues gamma alpha (l k) (v k)) ∧ (∀ k s y, critic k s (List.ofFn y) = e.soft gamma (v k) s y) ∧
      (∀ k, e.BestSac (critic k) (critic k) alpha (l (k + 1))) ∧
      e.SoftOptimal gamma alpha vstar := by
  have hval : ∀ l : S → (Fin d → ℝ) → ℝ, ∃ v, e.Policy l → e.SoftValues gamma alpha l v := by
    intro l
    by_cases hl : e.Policy l
    · obtain ⟨v, hv⟩ := exists_fixed (fun v s => ∫ y, (e.soft gamma v s y - alpha * l s y) ∂lawOf (l s)) gamma hg hg1 (fun v v' D hD h s => by
        have := hl.prob s
        have i1 : ∀ v, Integrable (fun y => e.soft gamma v s y - alpha * l s y) (lawOf (l s)) := fun v =>
          (he.soft_integrable e gamma v _ s).sub ((hl.entropy s).const_mul alpha)
        have : ∫ y, (e.soft gamma v' s y - alpha * l s y) ∂lawOf (l s) + gamma * D = ∫ y, ((e.soft gamma v' s y - alpha * l s y) + gamma * D) ∂lawOf (l s) := by
          rw [integral_add (i1 v') (integrable_const _)]
          simp
        rw [this]
        refine integral_mono (i1 v) ((i1 v').add (integrable_const _)) fun y => ?_
        have := he.soft_le e gamma hg v v' D hD h s y
        simp only []
        linarith)
      exact ⟨v, fun _ => hv⟩
    · exact ⟨0, fun h => absurd h hl⟩
  choose value hvalue using hval
  obtain ⟨vstar, hstar⟩ := exists_fixed (fun v s => alpha * Real.log (normaliser alpha (e.soft gamma v s))) gamma hg hg1 fun v v' D hD h s =>
    he.normaliser_le e gamma alpha v ha v' s (gamma * D) (he.soft_le e gamma hg v v' D hD h s)
  let next : (S → (Fin d → ℝ) → ℝ) → S → (Fin d → ℝ) → ℝ := fun l s y => e.soft gamma (value l) s y / alpha - Real.log (normaliser alpha (e.soft gamma (value l) s))
  let l : Nat → S → (Fin d → ℝ) → ℝ := fun k => Nat.rec l0 (fun _ m => next m) k
  have hl : ∀ k, (∀ s, Measurable (l k s)) ∧ e.Policy (l k) := by
    intro k
    cases k with
    | zero => exact ⟨hm0, hl0⟩
    | succ k => exact ⟨fun s => ((he.measurable_soft e gamma _ s).div_const alpha).sub_const _, he.boltzmann_policy e gamma alpha _⟩
  let act : List ℝ → Fin d → ℝ := fun a j => a.getD j 0
  have hact : ∀ y : Fin d → ℝ, act (List.ofFn y) = y := fun y => by
    funext j
    simp [act]
  refine ⟨l, fun k => value (l k), fun k s a => e.soft gamma (value (l k)) s (act a), vstar, rfl, fun k => (hl k).1, fun k => (hl k).2, fun k => hvalue _ (hl k).2,
    fun k s y => by simp only [hact], fun k l' hm' hl' s => ?_, hstar⟩
  have eloss : ∀ (l' : S → (Fin d → ℝ) → ℝ), lossAt (fun s a => e.soft gamma (value (l k)) s (act a)) (fun s a => e.soft gamma (value (l k)) s (act a)) alpha l' s =
      -∫ y, (e.soft gamma (value (l k)) s y - alpha * l' s y) ∂lawOf (l' s) := by
    intro l'
    unfold lossAt
    rw [← integral_neg]
    congr 1
    funext y
    simp [sacActorLoss, Ppo.mean, hact]
  rw [eloss, eloss, he.gibbs e gamma alpha _ ha l' hm' hl' s, he.gibbs e gamma alpha _ ha (l (k + 1)) (hl (k + 1)).1 (hl (k + 1)).2 s]
  have g3 : klDiv (lawOf (l (k + 1) s)) (boltzmann alpha (e.soft gamma (value (l k)) s)) = 0 := by
    have := (hl (k + 1)).2.prob s
    exact klDiv_self _
  rw [g3]
  have : 0 ≤ alpha * (klDiv (lawOf (l' s)) (boltzmann alpha (e.soft gamma (value (l k)) s))).toReal := mul_nonneg ha.le ENNReal.toReal_nonneg
  simp only [ENNReal.toReal_zero, mul_zero, sub_zero]
  linarith

end Verif.SacLoss
