import Verif.Props.PolicyIteration

/-!
C266 with critics that are right up to an error only.
-/

namespace Verif.SacLoss

open Verif.Squash Verif.Critics Verif.PolicyGradient MeasureTheory InformationTheory

set_option linter.unusedSectionVars false

variable {S : Type} [Fintype S] {d : Nat}

/-! ### Proofs -/

/-- If every difference is at least `-c` plus `gamma` times an average of the differences, it is at least `-c / (1 - gamma)`. -/
theorem ge_of_average (gamma c : ℝ) (hg : 0 ≤ gamma) (hg1 : gamma < 1) (hc : 0 ≤ c) (w : S → ℝ) (p : S → S → ℝ) (hp : ∀ s s', 0 ≤ p s s') (hs : ∀ s, ∑ s', p s s' ≤ 1)
    (h : ∀ s, gamma * ∑ s', p s s' * w s' - c ≤ w s) (s : S) : -(c / (1 - gamma)) ≤ w s := by
  have h1 : 0 < 1 - gamma := sub_pos.mpr hg1
  have hc' : 0 ≤ c / (1 - gamma) := div_nonneg hc h1.le
  have h2 := nonneg_of_average gamma hg hg1 (fun s => w s + c / (1 - gamma)) p hp hs (fun s => by
    have h3 := h s
    have h4 : ∑ s', p s s' * (w s' + c / (1 - gamma)) ≤ ∑ s', p s s' * w s' + c / (1 - gamma) := by
      simp only [mul_add, Finset.sum_add_distrib, ← Finset.sum_mul]
      have := mul_le_of_le_one_left hc' (hs s)
      linarith
    have h5 := mul_le_mul_of_nonneg_left h4 hg
    have h6 : gamma * (c / (1 - gamma)) + c = c / (1 - gamma) := by
      field_simp
      ring
    linarith) s
  linarith

theorem geometric_bound (gamma c D : ℝ) (hg : 0 ≤ gamma) (hg1 : gamma < 1) (hc : 0 ≤ c) (x : Nat → S → ℝ) (h0 : ∀ s, x 0 s ≤ D) (hD : 0 ≤ D)
    (h : ∀ k B, 0 ≤ B → (∀ s, x k s ≤ B) → ∀ s, x (k + 1) s ≤ gamma * B + c) (k : Nat) (s : S) : x k s ≤ gamma ^ k * D + c / (1 - gamma) := by
  have h1 : 0 < 1 - gamma := sub_pos.mpr hg1
  have hc' : 0 ≤ c / (1 - gamma) := div_nonneg hc h1.le
  induction k generalizing s with
  | zero =>
    have := h0 s
    simp only [pow_zero, one_mul]
    linarith
  | succ k ih =>
    refine (h k _ (add_nonneg (mul_nonneg (pow_nonneg hg k) hD) hc') ih s).trans_eq ?_
    rw [pow_succ']
    field_simp
    ring

/-- **C266: DDPG and TD3, critics with errors.** If the critics differ by at most `eps` from the values of the actions, the values of the actors fall by at most
`2 eps / (1 - gamma)`, and they come as close to the optimal values as `2 eps / (1 - gamma) ^ 2`. -/
theorem C266_ddpg_errors (e : Env S (Fin d → ℝ)) (hn : ∀ s y s', 0 ≤ e.next s y s') (h1 : ∀ s y, ∑ s', e.next s y s' = 1) (gamma : ℝ) (hg : 0 ≤ gamma) (hg1 : gamma < 1)
    (obs : List S) (hobs : ∀ s, s ∈ obs) (mu : Nat → S → Fin d → ℝ) (v : Nat → S → ℝ) (critic : Nat → S → List ℝ → ℝ) (hin : ∀ s, Inside (mu 0 s))
    (hv : ∀ k, ActorValues e gamma (mu k) (v k)) (eps : ℝ) (heps : 0 ≤ eps)
    (hcritic : ∀ k s (y : Fin d → ℝ), Inside y → |critic k s (List.ofFn y) - lookahead e gamma (v k) s y| ≤ eps)
    (hmu : ∀ k, BestActor (critic k) obs (mu (k + 1))) (vstar : S → ℝ) (hstar : OptimalValues e gamma vstar) (D : ℝ) (hD : ∀ s, vstar s - v 0 s ≤ D) (k : Nat) (s : S) :
    v k s - 2 * eps / (1 - gamma) ≤ v (k + 1) s ∧ v k s ≤ vstar s ∧ vstar s - v k s ≤ gamma ^ k * D + 2 * eps / (1 - gamma) ^ 2 := by
  have hpos : 0 < 1 - gamma := sub_pos.mpr hg1
  have hinside : ∀ k s, Inside (mu k s) := fun k => by
    cases k with
    | zero => exact hin
    | succ k => exact (hmu k).1
  have hbest : ∀ k s (y : Fin d → ℝ), Inside y → lookahead e gamma (v k) s y ≤ lookahead e gamma (v k) s (mu (k + 1) s) + 2 * eps := by
    intro k s y hy
    have g1 := abs_le.mp (hcritic k s y hy)
    have g2 := abs_le.mp (hcritic k s _ (hinside (k + 1) s))
    have g3 := best_action (critic k) obs (mu (k + 1)) (hmu k) s (hobs s) y hy
    linarith [g1.1, g2.2]
  have hup : ∀ k s, -(2 * eps / (1 - gamma)) ≤ v (k + 1) s - v k s := by
    intro k s
    refine ge_of_average gamma (2 * eps) hg hg1 (by linarith) (fun s => v (k + 1) s - v k s) (fun s => goesOn e s (mu (k + 1) s)) (fun s s' => goesOn_nonneg e hn s _ s')
      (fun s => goesOn_sum e hn h1 s _) (fun s => ?_) s
    rw [← lookahead_sub, ← hv (k + 1) s]
    have := hbest k s _ (hinside k s)
    rw [← hv k s] at this
    linarith
  have htop : ∀ k s, v k s ≤ vstar s := by
    intro k s
    refine sub_nonneg.mp (nonneg_of_average gamma hg hg1 (fun s => vstar s - v k s) (fun s => goesOn e s (mu k s)) (fun s s' => goesOn_nonneg e hn s _ s')
      (fun s => goesOn_sum e hn h1 s _) (fun s => ?_) s)
    rw [← lookahead_sub, ← hv k s]
    have := (hstar s).1 ⟨mu k s, hinside k s, rfl⟩
    linarith
  refine ⟨by linarith [hup k s], htop k s, ?_⟩
  have hc : 0 ≤ 2 * eps / (1 - gamma) := div_nonneg (by linarith) hpos.le
  have hD0 : 0 ≤ D := (sub_nonneg.mpr (htop 0 s)).trans (hD s)
  have := geometric_bound gamma (2 * eps / (1 - gamma)) D hg hg1 hc (fun k s => vstar s - v k s) hD hD0 (fun k B hB hk s => ?_) k s
  · refine this.trans_eq ?_
    rw [div_div, ← pow_two]
  have : vstar s ≤ v (k + 1) s + gamma * B + 2 * eps / (1 - gamma) := by
    refine (hstar s).2 ?_
    rintro _ ⟨y, hy, rfl⟩
    have g1 := lookahead_sub e gamma vstar (v k) s y
    have g2 : ∑ s', goesOn e s y s' * (vstar s' - v k s') ≤ B := by
      refine (Finset.sum_le_sum fun s' _ => mul_le_mul_of_nonneg_left (hk s') (goesOn_nonneg e hn s y s')).trans ?_
      rw [← Finset.sum_mul]
      exact mul_le_of_le_one_left hB (goesOn_sum e hn h1 s y)
    have g3 := hbest k s y hy
    have g4 := lookahead_sub e gamma (v (k + 1)) (v k) s (mu (k + 1) s)
    have g5 : -(2 * eps / (1 - gamma)) ≤ ∑ s', goesOn e s (mu (k + 1) s) s' * (v (k + 1) s' - v k s') := by
      have i1 : ∑ s', goesOn e s (mu (k + 1) s) s' * -(2 * eps / (1 - gamma)) ≤ ∑ s', goesOn e s (mu (k + 1) s) s' * (v (k + 1) s' - v k s') :=
        Finset.sum_le_sum fun s' _ => mul_le_mul_of_nonneg_left (hup k s') (goesOn_nonneg e hn s _ s')
      rw [← Finset.sum_mul] at i1
      have i2 := mul_le_of_le_one_left hc (goesOn_sum e hn h1 s (mu (k + 1) s))
      linarith
    rw [hv (k + 1) s]
    have g6 := mul_le_mul_of_nonneg_left g2 hg
    have g7 := mul_le_mul_of_nonneg_left g5 hg
    have g8 : gamma * (2 * eps / (1 - gamma)) + 2 * eps = 2 * eps / (1 - gamma) := by
      field_simp
      ring
    linarith
  linarith

/-- **C266: SAC, critics with errors**, where `log_prob` is the log-density of the action. -/
theorem C266_sac_errors_partial (e : Mdp S d) (he : e.Bounded) (gamma alpha : ℝ) (hg : 0 ≤ gamma) (hg1 : gamma < 1) (ha : 0 < alpha)
    (l : Nat → S → (Fin d → ℝ) → ℝ) (hm : ∀ k s, Measurable (l k s)) (hl : ∀ k, e.Policy (l k)) (v : Nat → S → ℝ) (hv : ∀ k, e.SoftValues gamma alpha (l k) (v k))
    (critic1 critic2 : Nat → S → List ℝ → ℝ) (hm1 : ∀ k s, Measurable fun y : Fin d → ℝ => critic1 k s (List.ofFn y))
    (hm2 : ∀ k s, Measurable fun y : Fin d → ℝ => critic2 k s (List.ofFn y)) (eps : ℝ) (heps : 0 ≤ eps)
    (h1 : ∀ k s (y : Fin d → ℝ), |critic1 k s (List.ofFn y) - e.soft gamma (v k) s y| ≤ eps) (h2 : ∀ k s (y : Fin d → ℝ), |critic2 k s (List.ofFn y) - e.soft gamma (v k) s y| ≤ eps)
    (hbest : ∀ k, e.BestSac (critic1 k) (critic2 k) alpha (l (k + 1))) (vstar : S → ℝ) (hstar : e.SoftOptimal gamma alpha vstar) (D : ℝ) (hD : ∀ s, vstar s - v 0 s ≤ D)
    (k : Nat) (s : S) :
    v k s - 2 * eps / (1 - gamma) ≤ v (k + 1) s ∧ v k s ≤ vstar s ∧ vstar s - v k s ≤ gamma ^ k * D + 2 * eps / (1 - gamma) ^ 2 := by
  have hpos : 0 < 1 - gamma := sub_pos.mpr hg1
  -- the loss is right up to `eps`
  have eloss : ∀ k (l' : S → (Fin d → ℝ) → ℝ), e.Policy l' → ∀ s,
      |lossAt (critic1 k) (critic2 k) alpha l' s + ∫ y, (e.soft gamma (v k) s y - alpha * l' s y) ∂lawOf (l' s)| ≤ eps := by
    intro k l' hl' s
    have hp := hl'.prob s
    have hq : ∀ y : Fin d → ℝ, sacActorLoss (critic1 k) (critic2 k) alpha [s] [⟨List.ofFn y, l' s y⟩] = alpha * l' s y - smaller (critic1 k) (critic2 k) d s y := fun y => by
      simp [sacActorLoss, Ppo.mean, smaller]
    have hdiff : ∀ y : Fin d → ℝ, |smaller (critic1 k) (critic2 k) d s y - e.soft gamma (v k) s y| ≤ eps := fun y => by
      unfold smaller
      rcases min_choice (critic1 k s (List.ofFn y)) (critic2 k s (List.ofFn y)) with h | h <;> rw [h]
      · exact h1 k s y
      · exact h2 k s y
    have hms : Measurable (smaller (critic1 k) (critic2 k) d s) := (hm1 k s).min (hm2 k s)
    have i1 : Integrable (fun y => e.soft gamma (v k) s y - alpha * l' s y) (lawOf (l' s)) :=
      (he.soft_integrable e gamma (v k) _ s).sub ((hl'.entropy s).const_mul alpha)
    have i0 : Integrable (fun y => smaller (critic1 k) (critic2 k) d s y - e.soft gamma (v k) s y) (lawOf (l' s)) :=
      integrable_bounded _ _ (hms.sub (he.measurable_soft e gamma (v k) s)) eps hdiff
    have i2 : Integrable (fun y => alpha * l' s y - smaller (critic1 k) (critic2 k) d s y) (lawOf (l' s)) := by
      have := (i1.add i0).neg
      refine this.congr (Filter.Eventually.of_forall fun y => ?_)
      simp only [Pi.neg_apply, Pi.add_apply]
      ring
    unfold lossAt
    simp only [hq]
    rw [← integral_add i2 i1, ← Real.norm_eq_abs]
    refine (norm_integral_le_of_norm_le_const (C := eps) (Filter.Eventually.of_forall fun y => ?_)).trans (by simp)
    rw [Real.norm_eq_abs]
    have := hdiff y
    rw [abs_sub_comm] at this
    rwa [show alpha * l' s y - smaller (critic1 k) (critic2 k) d s y + (e.soft gamma (v k) s y - alpha * l' s y) =
      e.soft gamma (v k) s y - smaller (critic1 k) (critic2 k) d s y by ring]
  have hcompare : ∀ k (l' : S → (Fin d → ℝ) → ℝ), (∀ s, Measurable (l' s)) → e.Policy l' → ∀ s,
      ∫ y, (e.soft gamma (v k) s y - alpha * l' s y) ∂lawOf (l' s) ≤ ∫ y, (e.soft gamma (v k) s y - alpha * l (k + 1) s y) ∂lawOf (l (k + 1) s) + 2 * eps := by
    intro k l' hm' hl' s
    have g1 := abs_le.mp (eloss k l' hl' s)
    have g2 := abs_le.mp (eloss k (l (k + 1)) (hl (k + 1)) s)
    have g3 := hbest k l' hm' hl' s
    linarith [g1.2, g2.1]
  have hnew : ∀ k s, alpha * Real.log (normaliser alpha (e.soft gamma (v k) s)) ≤ ∫ y, (e.soft gamma (v k) s y - alpha * l (k + 1) s y) ∂lawOf (l (k + 1) s) + 2 * eps := by
    intro k s
    have hb := he.boltzmann_policy e gamma alpha (v k)
    have hbm : ∀ s, Measurable fun y => e.soft gamma (v k) s y / alpha - Real.log (normaliser alpha (e.soft gamma (v k) s)) := fun s =>
      ((he.measurable_soft e gamma (v k) s).div_const alpha).sub_const _
    have g1 := hcompare k _ hbm hb s
    have g2 := he.gibbs e gamma alpha (v k) ha _ hbm hb s
    have g3 : klDiv (lawOf fun y => e.soft gamma (v k) s y / alpha - Real.log (normaliser alpha (e.soft gamma (v k) s))) (boltzmann alpha (e.soft gamma (v k) s)) = 0 := by
      have := hb.prob s
      exact klDiv_self _
    rw [g3] at g2
    simp only [ENNReal.toReal_zero, mul_zero, sub_zero] at g2
    linarith
  -- the values of the new policy in terms of the old ones
  have hgain : ∀ k s, v (k + 1) s = ∫ y, (e.soft gamma (v k) s y - alpha * l (k + 1) s y) ∂lawOf (l (k + 1) s) +
      gamma * ∑ s', (∫ y, e.next s y s' ∂lawOf (l (k + 1) s)) * (v (k + 1) s' - v k s') := by
    intro k s
    have hp := (hl (k + 1)).prob s
    have i1 : ∀ w, Integrable (fun y => e.soft gamma w s y - alpha * l (k + 1) s y) (lawOf (l (k + 1) s)) := fun w =>
      (he.soft_integrable e gamma w _ s).sub (((hl (k + 1)).entropy s).const_mul alpha)
    have i2 : ∀ s', Integrable (fun y => e.next s y s' * (v (k + 1) s' - v k s')) (lawOf (l (k + 1) s)) := fun s' => ((hl (k + 1)).next s s').mul_const _
    have g1 : ∫ y, (gamma * ∑ s', e.next s y s' * (v (k + 1) s' - v k s')) ∂lawOf (l (k + 1) s) =
        gamma * ∑ s', (∫ y, e.next s y s' ∂lawOf (l (k + 1) s)) * (v (k + 1) s' - v k s') := by
      rw [integral_const_mul, integral_finsetSum _ fun s' _ => i2 s']
      simp only [integral_mul_const]
    rw [← g1, ← integral_add (i1 (v k)) ((integrable_finsetSum _ fun s' _ => i2 s').const_mul gamma), hv (k + 1) s]
    refine integral_congr_ae (Filter.Eventually.of_forall fun y => ?_)
    have := e.soft_sub gamma (v (k + 1)) (v k) s y
    simp only []
    linarith
  have hpn : ∀ k s s', 0 ≤ ∫ y, e.next s y s' ∂lawOf (l k s) := fun k s s' => integral_nonneg fun y => he.nonneg s y s'
  have hps : ∀ k s, ∑ s', ∫ y, e.next s y s' ∂lawOf (l k s) ≤ 1 := by
    intro k s
    have hp := (hl k).prob s
    rw [← integral_finsetSum _ fun s' _ => (hl k).next s s']
    refine (integral_mono (integrable_finsetSum _ fun s' _ => (hl k).next s s') (integrable_const 1) fun y => he.sum s y).trans ?_
    simp
  have hup : ∀ k s, -(2 * eps / (1 - gamma)) ≤ v (k + 1) s - v k s := by
    intro k s
    refine ge_of_average gamma (2 * eps) hg hg1 (by linarith) (fun s => v (k + 1) s - v k s) (fun s s' => ∫ y, e.next s y s' ∂lawOf (l (k + 1) s)) (hpn (k + 1)) (hps (k + 1))
      (fun s => ?_) s
    have g1 := hcompare k (l k) (hm k) (hl k) s
    rw [← hv k s] at g1
    have g2 := hgain k s
    linarith
  have htop : ∀ k s, v k s ≤ vstar s := by
    intro k s
    obtain ⟨s0, -, hs0⟩ := Finset.exists_max_image Finset.univ (fun s => v k s - vstar s) ⟨s, Finset.mem_univ s⟩
    refine sub_nonpos.mp ((hs0 s (Finset.mem_univ s)).trans ?_)
    by_contra hneg
    have hneg : 0 < v k s0 - vstar s0 := not_le.mp hneg
    have g1 := he.gibbs e gamma alpha (v k) ha (l k) (hm k) (hl k) s0
    rw [← hv k s0] at g1
    have g2 : 0 ≤ alpha * (klDiv (lawOf (l k s0)) (boltzmann alpha (e.soft gamma (v k) s0))).toReal := mul_nonneg ha.le ENNReal.toReal_nonneg
    have g3 := he.normaliser_le e gamma alpha (v k) ha vstar s0 (gamma * (v k s0 - vstar s0)) (fun y => by
      have g4 := e.soft_sub gamma (v k) vstar s0 y
      have g5 : ∑ s', e.next s0 y s' * (v k s' - vstar s') ≤ v k s0 - vstar s0 := by
        refine (Finset.sum_le_sum fun s' _ => mul_le_mul_of_nonneg_left (hs0 s' (Finset.mem_univ s')) (he.nonneg s0 y s')).trans ?_
        rw [← Finset.sum_mul]
        exact mul_le_of_le_one_left hneg.le (he.sum s0 y)
      have g6 := mul_le_mul_of_nonneg_left g5 hg
      linarith)
    rw [← hstar s0] at g3
    nlinarith
  refine ⟨by linarith [hup k s], htop k s, ?_⟩
  have hc : 0 ≤ 2 * eps / (1 - gamma) := div_nonneg (by linarith) hpos.le
  have hD0 : 0 ≤ D := (sub_nonneg.mpr (htop 0 s)).trans (hD s)
  have := geometric_bound gamma (2 * eps / (1 - gamma)) D hg hg1 hc (fun k s => vstar s - v k s) hD hD0 (fun k B hB hk s => ?_) k s
  · refine this.trans_eq ?_
    rw [div_div, ← pow_two]
  have g3 := he.normaliser_le e gamma alpha vstar ha (v k) s (gamma * B) (fun y => by
    have g4 := e.soft_sub gamma vstar (v k) s y
    have g5 : ∑ s', e.next s y s' * (vstar s' - v k s') ≤ B := by
      refine (Finset.sum_le_sum fun s' _ => mul_le_mul_of_nonneg_left (hk s') (he.nonneg s y s')).trans ?_
      rw [← Finset.sum_mul]
      exact mul_le_of_le_one_left hB (he.sum s y)
    have g6 := mul_le_mul_of_nonneg_left g5 hg
    linarith)
  rw [← hstar s] at g3
  have g7 := hnew k s
  have g8 := hgain k s
  have g9 : -(2 * eps / (1 - gamma)) ≤ ∑ s', (∫ y, e.next s y s' ∂lawOf (l (k + 1) s)) * (v (k + 1) s' - v k s') := by
    have i1 : ∑ s', (∫ y, e.next s y s' ∂lawOf (l (k + 1) s)) * -(2 * eps / (1 - gamma)) ≤ ∑ s', (∫ y, e.next s y s' ∂lawOf (l (k + 1) s)) * (v (k + 1) s' - v k s') :=
      Finset.sum_le_sum fun s' _ => mul_le_mul_of_nonneg_left (hup k s') (hpn (k + 1) s s')
    rw [← Finset.sum_mul] at i1
    have i2 := mul_le_of_le_one_left hc (hps (k + 1) s)
    linarith
  have g10 := mul_le_mul_of_nonneg_left g9 hg
  have g11 : gamma * (2 * eps / (1 - gamma)) + 2 * eps = 2 * eps / (1 - gamma) := by
    field_simp
    ring
  linarith

/-- Exact critics are a case with `eps = 0`, others differ: a critic of `exampleSoft` that is 1/10 too large everywhere is within 1/10 of the soft values. -/
example (w : ℝ) (s : Unit) (y : Fin 2 → ℝ) : |(exampleSoft w s (List.ofFn y) + 1 / 10) - exampleMdp.soft (1 / 2) (fun _ => w) s y| ≤ 1 / 10 := by
  rw [exampleSoft_ofFn]
  simp only [Mdp.soft, exampleMdp, Finset.univ_unique, Finset.sum_const, Finset.card_singleton, one_smul]
  rw [show smaller exampleCritic1 exampleCritic2 2 () y + 1 / 4 * w + 1 / 10 - (smaller exampleCritic1 exampleCritic2 2 s y + 1 / 2 * (1 / 2 * w)) = 1 / 10 by ring]
  norm_num

end Verif.SacLoss
