import Verif.Props.Offline
import Verif.Props.Fitting

/-! C278: what the actor of discrete CRR learns from a dataset. -/

namespace Verif.CrrActor

open Verif.Offline Verif.Ppo
open Verif.QLearning (mean_ofFn)

set_option linter.unusedSectionVars false

variable {X : Type} [DecidableEq X] {A B : ℕ}

/-! ### Specification -/

/-- A batch: observations and actions; `rest` has the rewards, ends of episodes and what belongs to the next observations. -/
structure Data (X : Type) (A B : ℕ) where
  obs : Fin B → X
  act : Fin B → Fin A
  rest : Fin B → CrrRow ℝ

/-- A policy: positive probabilities. -/
structure Policy (pi : X → Fin A → ℝ) : Prop where
  pos : ∀ x a, 0 < pi x a
  sum : ∀ x, ∑ a, pi x a = 1

/-- The expected value of the action of a policy. -/
def expected (Q : X → Fin A → ℝ) (p : Fin A → ℝ) (x : X) : ℝ := ∑ a, p a * Q x a

/-- How often the action `a` was taken in `x`. -/
def Data.times (d : Data X A B) (x : X) (a : Fin A) : ℕ := (Finset.univ.filter fun k => d.obs k = x ∧ d.act k = a).card

/-- How often `x` occurs. -/
def Data.visits (d : Data X A B) (x : X) : ℕ := (Finset.univ.filter fun k => d.obs k = x).card

/-- The frequency of `a` among the actions in `x`. -/
noncomputable def Data.freq (d : Data X A B) (x : X) (a : Fin A) : ℝ := d.times x a / d.visits x

/-- Every action was taken in every observation of the data. -/
def Data.All (d : Data X A B) : Prop := ∀ k a, ∃ k', d.obs k' = d.obs k ∧ d.act k' = a

/-- The actor's loss for a critic `Q`: the advantages are those of the policy `pi`, the probabilities of the actions those of `pi'`. -/
noncomputable def Data.loss (d : Data X A B) (mode : CrrMode) (beta bound : ℝ) (Q pi pi' : X → Fin A → ℝ) : ℝ :=
  crrActorLoss Real.exp mode beta bound (List.ofFn fun k => { d.rest k with
    q := List.ofFn (Q (d.obs k)), act := d.act k, probs := List.ofFn (pi (d.obs k)), logp := Real.log (pi' (d.obs k) (d.act k)) })

/-- No policy has a smaller loss. In mode "exp" the loss of a policy has the advantages of this policy (the gradient goes through them, C258); in mode "binary"
no gradient goes through the comparison of the advantages with 0. -/
def Data.Settled (d : Data X A B) (mode : CrrMode) (beta bound : ℝ) (Q pi : X → Fin A → ℝ) : Prop :=
  Policy pi ∧ ∀ pi', Policy pi' → d.loss mode beta bound Q pi pi ≤ d.loss mode beta bound Q (match mode with | .exp => pi' | _ => pi) pi'

/-! ### The loss as a product -/

/-- The sum of the log-probabilities. -/
noncomputable def Data.ce (d : Data X A B) (pi : X → Fin A → ℝ) : ℝ := ∑ k, -Real.log (pi (d.obs k) (d.act k))

/-- The sum of the weights. -/
noncomputable def Data.coef (d : Data X A B) (mode : CrrMode) (beta bound : ℝ) (Q pi : X → Fin A → ℝ) : ℝ :=
  ∑ k, crrCoef Real.exp mode beta bound (Q (d.obs k) (d.act k) - expected Q (pi (d.obs k)) (d.obs k))

theorem Data.loss_eq (d : Data X A B) (hB : 0 < B) (mode : CrrMode) (beta bound : ℝ) (Q pi pi' : X → Fin A → ℝ) :
    d.loss mode beta bound Q pi pi' = d.ce pi' / B * (d.coef mode beta bound Q pi / B) := by
  unfold Data.loss
  rw [(C114_actor_partial Real.exp mode beta bound _ (by
    intro h
    have := congrArg List.length h
    simp at this
    omega)).1, List.map_ofFn, List.map_ofFn, mean_ofFn, mean_ofFn]
  unfold Data.ce Data.coef
  congr 3
  funext k
  simp only [Function.comp_def, CrrRow.advantage, CrrRow.qa, dot, QLearning.zipWith_ofFn, List.sum_ofFn, expected]
  simp [mul_comm]

theorem Data.sum_obs (d : Data X A B) (x : X) (f : Fin A → ℝ) : (∑ k, if d.obs k = x then f (d.act k) else 0) = ∑ a, d.times x a * f a := by
  have e : ∀ a, (d.times x a : ℝ) * f a = ∑ k, if d.obs k = x ∧ d.act k = a then f a else 0 := by
    intro a
    unfold Data.times
    rw [← Finset.sum_filter, Finset.sum_const, nsmul_eq_mul]
  simp only [e]
  rw [Finset.sum_comm]
  refine Finset.sum_congr rfl fun k _ => ?_
  by_cases hx : d.obs k = x
  · simp [hx]
  · simp [hx]

theorem Data.ce_update (d : Data X A B) (pi : X → Fin A → ℝ) (x : X) (p : Fin A → ℝ) :
    d.ce (Function.update pi x p) = d.ce pi + ∑ a, d.times x a * (Real.log (pi x a) - Real.log (p a)) := by
  rw [← d.sum_obs x fun a => Real.log (pi x a) - Real.log (p a)]
  unfold Data.ce
  rw [← Finset.sum_add_distrib]
  refine Finset.sum_congr rfl fun k _ => ?_
  by_cases hx : d.obs k = x
  · rw [if_pos hx, hx, Function.update_self]
    ring
  · rw [if_neg hx, Function.update_of_ne hx]
    ring

theorem Data.visits_pos (d : Data X A B) (k : Fin B) : (0 : ℝ) < d.visits (d.obs k) := by
  have : 0 < d.visits (d.obs k) := Finset.card_pos.mpr ⟨k, by simp⟩
  exact_mod_cast this

theorem Data.times_pos (d : Data X A B) (hall : d.All) (k : Fin B) (a : Fin A) : (0 : ℝ) < d.times (d.obs k) a := by
  obtain ⟨k', h⟩ := hall k a
  have : 0 < d.times (d.obs k) a := Finset.card_pos.mpr ⟨k', by simp [h]⟩
  exact_mod_cast this

theorem Data.freq_pos (d : Data X A B) (hall : d.All) (k : Fin B) (a : Fin A) : 0 < d.freq (d.obs k) a :=
  div_pos (d.times_pos hall k a) (d.visits_pos k)

theorem Data.times_sum (d : Data X A B) (x : X) : ∑ a, (d.times x a : ℝ) = d.visits x := by
  have := d.sum_obs x fun _ => 1
  simp only [mul_one] at this
  rw [← this]
  unfold Data.visits
  rw [Finset.sum_boole]

theorem Data.freq_sum (d : Data X A B) (k : Fin B) : ∑ a, d.freq (d.obs k) a = 1 := by
  unfold Data.freq
  rw [← Finset.sum_div, d.times_sum, div_self (d.visits_pos k).ne']

theorem Policy.update {pi : X → Fin A → ℝ} (hpi : Policy pi) (d : Data X A B) (hall : d.All) (k : Fin B) :
    Policy (Function.update pi (d.obs k) (d.freq (d.obs k))) := by
  constructor
  · intro x a
    by_cases hx : x = d.obs k
    · subst hx
      rw [Function.update_self]
      exact d.freq_pos hall k a
    · rw [Function.update_of_ne hx]
      exact hpi.pos x a
  · intro x
    by_cases hx : x = d.obs k
    · subst hx
      rw [Function.update_self]
      exact d.freq_sum k
    · rw [Function.update_of_ne hx]
      exact hpi.sum x

/-- The frequencies fit best. -/
theorem Data.ce_freq (d : Data X A B) {pi : X → Fin A → ℝ} (hpi : Policy pi) (k : Fin B) :
    d.ce (Function.update pi (d.obs k) (d.freq (d.obs k))) ≤ d.ce pi ∧
      (d.ce pi ≤ d.ce (Function.update pi (d.obs k) (d.freq (d.obs k))) → pi (d.obs k) = d.freq (d.obs k)) := by
  have hv := d.visits_pos k
  have hg := Fitting.gibbs (d.freq (d.obs k)) (pi (d.obs k)) (fun a => div_nonneg (Nat.cast_nonneg _) hv.le) (hpi.pos _) (by rw [d.freq_sum, hpi.sum])
  have e : ∑ a, (d.times (d.obs k) a : ℝ) * (Real.log (pi (d.obs k) a) - Real.log (d.freq (d.obs k) a)) =
      d.visits (d.obs k) * (∑ a, d.freq (d.obs k) a * Real.log (pi (d.obs k) a) - ∑ a, d.freq (d.obs k) a * Real.log (d.freq (d.obs k) a)) := by
    rw [← Finset.sum_sub_distrib, Finset.mul_sum]
    refine Finset.sum_congr rfl fun a _ => ?_
    have : (d.times (d.obs k) a : ℝ) = d.visits (d.obs k) * d.freq (d.obs k) a := by
      unfold Data.freq
      field_simp
    rw [this]
    ring
  rw [d.ce_update, e]
  constructor
  · nlinarith [hg.1]
  · intro h
    exact hg.2.mp (le_antisymm hg.1 (by nlinarith))

theorem Data.ce_nonneg (d : Data X A B) {pi : X → Fin A → ℝ} (hpi : Policy pi) : 0 ≤ d.ce pi := by
  refine Finset.sum_nonneg fun k _ => neg_nonneg.mpr (Real.log_nonpos (hpi.pos _ _).le ?_)
  rw [← hpi.sum (d.obs k)]
  exact Finset.single_le_sum (f := pi (d.obs k)) (fun a _ => (hpi.pos _ a).le) (Finset.mem_univ _)

theorem Data.ce_congr (d : Data X A B) {pi pi' : X → Fin A → ℝ} (h : ∀ k, pi (d.obs k) = pi' (d.obs k)) : d.ce pi = d.ce pi' := by
  unfold Data.ce
  simp only [h]

/-- A policy with the frequencies as probabilities fits the data best. -/
theorem Data.ce_min (d : Data X A B) {pi pi' : X → Fin A → ℝ} (hpi : ∀ k, pi (d.obs k) = d.freq (d.obs k)) (hpi' : Policy pi') : d.ce pi ≤ d.ce pi' := by
  have e : ∀ r : X → Fin A → ℝ, d.ce r = -∑ k, Real.log (r (d.obs k) (d.act k)) := fun r => by
    unfold Data.ce
    rw [Finset.sum_neg_distrib]
  have hsum : ∀ r : X → Fin A → ℝ, ∑ k, Real.log (r (d.obs k) (d.act k)) =
      ∑ x ∈ Finset.univ.image d.obs, ∑ a, (d.times x a : ℝ) * Real.log (r x a) := by
    intro r
    simp only [← d.sum_obs]
    rw [Finset.sum_comm]
    refine Finset.sum_congr rfl fun k _ => ?_
    rw [Finset.sum_ite_eq, if_pos (Finset.mem_image_of_mem _ (Finset.mem_univ k))]
  rw [e, e, neg_le_neg_iff, hsum, hsum]
  refine Finset.sum_le_sum fun x hx => ?_
  obtain ⟨k, -, rfl⟩ := Finset.mem_image.mp hx
  have h1 := (d.ce_freq hpi' k).1
  rw [d.ce_update, add_le_iff_nonpos_right] at h1
  rw [hpi k]
  simp only [mul_sub, Finset.sum_sub_distrib] at h1
  linarith

theorem Data.coef_nonneg (d : Data X A B) {mode : CrrMode} {beta bound : ℝ} (hbound : 0 < bound) (Q pi : X → Fin A → ℝ) :
    ∀ k, 0 ≤ crrCoef Real.exp mode beta bound (Q (d.obs k) (d.act k) - expected Q (pi (d.obs k)) (d.obs k)) := by
  intro k
  cases mode <;> unfold crrCoef <;> dsimp only
  · exact le_min (le_max_right _ _) hbound.le
  · split <;> norm_num
  · norm_num

theorem expected_const (p : Fin A → ℝ) (hp : ∑ a, p a = 1) (c : ℝ) : ∑ a, p a * c = c := by
  rw [← Finset.sum_mul, hp, one_mul]

/-! ### C278 -/

/-- **C278, mode "all"**: the policy learned has the frequencies of the actions in the data as probabilities. -/
theorem C278_all (d : Data X A B) (hall : d.All) (beta bound : ℝ) (Q pi : X → Fin A → ℝ) (hpi : Policy pi) (hB : 0 < B) :
    d.Settled .all beta bound Q pi ↔ ∀ k a, pi (d.obs k) a = d.freq (d.obs k) a := by
  have hB' : (0 : ℝ) < B := by exact_mod_cast hB
  have hc : d.coef .all beta bound Q pi = B := by
    unfold Data.coef crrCoef
    simp
  have hl : ∀ pi', d.loss .all beta bound Q pi pi' = d.ce pi' / B := by
    intro pi'
    rw [d.loss_eq hB, hc, div_self hB'.ne', mul_one]
  constructor
  · intro h k a
    have h1 := h.2 _ (hpi.update d hall k)
    dsimp only at h1
    rw [hl, hl, div_le_div_iff_of_pos_right hB'] at h1
    exact congrFun ((d.ce_freq hpi k).2 h1) a
  · intro h
    refine ⟨hpi, fun pi' hpi' => ?_⟩
    dsimp only
    rw [hl, hl, div_le_div_iff_of_pos_right hB']
    exact d.ce_min (fun k => funext (h k)) hpi'

/-- **C278, mode "binary"**: a policy is learned if and only if either no action of the data is better than what the policy itself expects, or it has the
frequencies of the actions in the data as probabilities, whatever their values are. -/
theorem C278_binary (d : Data X A B) (hall : d.All) (beta bound : ℝ) (hbound : 0 < bound) (Q pi : X → Fin A → ℝ) (hpi : Policy pi) (hB : 0 < B) :
    d.Settled .binary beta bound Q pi ↔
      (∀ k, Q (d.obs k) (d.act k) ≤ ∑ a, pi (d.obs k) a * Q (d.obs k) a) ∨ ∀ k a, pi (d.obs k) a = d.freq (d.obs k) a := by
  have hB' : (0 : ℝ) < B := by exact_mod_cast hB
  have hnn := d.coef_nonneg (mode := .binary) (beta := beta) hbound Q pi
  constructor
  · intro h
    by_cases hbetter : ∀ k, Q (d.obs k) (d.act k) ≤ ∑ a, pi (d.obs k) a * Q (d.obs k) a
    · exact Or.inl hbetter
    · right
      push Not at hbetter
      obtain ⟨k0, hk0⟩ := hbetter
      have hc : 0 < d.coef .binary beta bound Q pi := by
        refine Finset.sum_pos' (fun k _ => hnn k) ⟨k0, Finset.mem_univ _, ?_⟩
        unfold crrCoef
        dsimp only
        rw [if_pos (show 0 < _ - expected Q _ _ from sub_pos.mpr hk0)]
        exact one_pos
      intro k a
      have h1 := h.2 _ (hpi.update d hall k)
      dsimp only at h1
      rw [d.loss_eq hB, d.loss_eq hB, mul_le_mul_iff_of_pos_right (div_pos hc hB'), div_le_div_iff_of_pos_right hB'] at h1
      exact congrFun ((d.ce_freq hpi k).2 h1) a
  · intro h
    refine ⟨hpi, fun pi' hpi' => ?_⟩
    dsimp only
    rw [d.loss_eq hB, d.loss_eq hB]
    rcases h with h | h
    · have hc : d.coef .binary beta bound Q pi = 0 := by
        refine Finset.sum_eq_zero fun k _ => ?_
        unfold crrCoef
        dsimp only
        rw [if_neg (not_lt.mpr (show _ - expected Q _ _ ≤ 0 from sub_nonpos.mpr (h k)))]
      rw [hc]
      simp
    · refine mul_le_mul_of_nonneg_right ?_ (div_nonneg (Finset.sum_nonneg fun k _ => hnn k) hB'.le)
      rw [div_le_div_iff_of_pos_right hB']
      exact d.ce_min (fun k => funext (h k)) hpi'

theorem crrCoef_exp (beta bound adv : ℝ) : crrCoef Real.exp .exp beta bound adv = min (Real.exp (adv / beta)) bound := by
  unfold crrCoef
  dsimp only
  rw [max_eq_left (Real.exp_pos _).le]

/-- **C278: at least as good as the data.** In all modes the policy learned has, in every observation, an expected value (as the critic sees it) that is not
lower than the mean value of the actions that were taken there. -/
theorem C278_improves (d : Data X A B) (hall : d.All) (mode : CrrMode) (beta bound : ℝ) (hbeta : 0 < beta) (hbound : 1 < bound) (Q pi : X → Fin A → ℝ)
    (hpi : d.Settled mode beta bound Q pi) (k : Fin B) :
    ∑ a, d.freq (d.obs k) a * Q (d.obs k) a ≤ ∑ a, pi (d.obs k) a * Q (d.obs k) a := by
  have hB : 0 < B := Fin.pos k
  have hB' : (0 : ℝ) < B := by exact_mod_cast hB
  have hp := hpi.1
  cases mode with
  | all =>
    have h := (C278_all d hall beta bound Q pi hp hB).mp hpi
    simp only [h, le_refl]
  | binary =>
    rcases (C278_binary d hall beta bound (by linarith) Q pi hp hB).mp hpi with h | h
    · have : ∀ a, d.freq (d.obs k) a * Q (d.obs k) a ≤ d.freq (d.obs k) a * ∑ a, pi (d.obs k) a * Q (d.obs k) a := by
        intro a
        obtain ⟨k', h1, h2⟩ := hall k a
        have h3 := h k'
        rw [h1, h2] at h3
        exact mul_le_mul_of_nonneg_left h3 (d.freq_pos hall k a).le
      refine (Finset.sum_le_sum fun a _ => this a).trans (le_of_eq ?_)
      exact expected_const _ (d.freq_sum k) _
    · simp only [h, le_refl]
  | exp =>
    by_contra hlt
    have hlt := not_lt.mp (fun hc => hlt (le_of_lt hc)) |>.lt_of_ne (fun he => hlt he.ge)
    set pi' := Function.update pi (d.obs k) (d.freq (d.obs k)) with hpi'
    have h1 := hpi.2 _ (hp.update d hall k)
    dsimp only at h1
    rw [d.loss_eq hB, d.loss_eq hB, div_mul_div_comm, div_mul_div_comm, div_le_div_iff_of_pos_right (mul_pos hB' hB'), ← hpi'] at h1
    obtain ⟨h2, h3⟩ := d.ce_freq hp k
    rw [← hpi'] at h2 h3
    have hpos : ∀ r : X → Fin A → ℝ, 0 < d.coef .exp beta bound Q r := by
      intro r
      refine Finset.sum_pos (fun k _ => ?_) ⟨k, Finset.mem_univ k⟩
      rw [crrCoef_exp]
      exact lt_min (Real.exp_pos _) (by linarith)
    -- the weights of the other policy are smaller
    have hterm : ∀ k', d.obs k' = d.obs k → expected Q (pi (d.obs k')) (d.obs k') < expected Q (pi' (d.obs k')) (d.obs k') := by
      intro k' hk'
      rw [hk', hpi', Function.update_self]
      exact hlt
    have hcoef : d.coef .exp beta bound Q pi' < d.coef .exp beta bound Q pi := by
      obtain ⟨a, ha⟩ : ∃ a, Q (d.obs k) a ≤ ∑ a, d.freq (d.obs k) a * Q (d.obs k) a := by
        by_contra hno
        push Not at hno
        have h4 : ∑ a, d.freq (d.obs k) a * ∑ a, d.freq (d.obs k) a * Q (d.obs k) a < ∑ a, d.freq (d.obs k) a * Q (d.obs k) a :=
          Finset.sum_lt_sum_of_nonempty ⟨d.act k, Finset.mem_univ _⟩ fun a _ => mul_lt_mul_of_pos_left (hno a) (d.freq_pos hall k a)
        rw [expected_const _ (d.freq_sum k)] at h4
        exact lt_irrefl _ h4
      obtain ⟨k', hx, hact⟩ := hall k a
      refine Finset.sum_lt_sum (fun j _ => ?_) ⟨k', Finset.mem_univ _, ?_⟩
      · rw [crrCoef_exp, crrCoef_exp]
        refine min_le_min_right _ (Real.exp_le_exp.mpr ?_)
        rw [div_le_div_iff_of_pos_right hbeta, sub_le_sub_iff_left]
        by_cases hj : d.obs j = d.obs k
        · exact (hterm j hj).le
        · rw [hpi', Function.update_of_ne hj]
      · rw [crrCoef_exp, crrCoef_exp]
        have h5 := hterm k' hx
        have h6 : Q (d.obs k') (d.act k') - expected Q (pi' (d.obs k')) (d.obs k') ≤ 0 := by
          rw [hx, hact, hpi', Function.update_self]
          exact sub_nonpos.mpr ha
        have h7 : Real.exp ((Q (d.obs k') (d.act k') - expected Q (pi' (d.obs k')) (d.obs k')) / beta) ≤ 1 :=
          Real.exp_le_one_iff.mpr (div_nonpos_of_nonpos_of_nonneg h6 hbeta.le)
        refine lt_of_le_of_lt (min_le_left _ _) (lt_min (Real.exp_lt_exp.mpr ?_) (by linarith))
        rw [div_lt_div_iff_of_pos_right hbeta]
        linarith
    have hn := d.ce_nonneg (hp.update d hall k)
    rw [← hpi'] at hn
    have hcp := hpos pi'
    have h8 : d.ce pi ≤ d.ce pi' := by
      rcases hn.eq_or_lt with h0 | h0
      · rw [← h0, zero_mul] at h1
        rw [← h0]
        by_contra hc
        exact absurd h1 (not_le.mpr (mul_pos (not_le.mp hc) (hpos pi)))
      · exfalso
        nlinarith
    have h9 := h3 h8
    rw [h9] at hlt
    exact lt_irrefl _ hlt

/-! ### Violation -/

/-- One observation; action 0 was taken three times and action 1 once. -/
def biased (rest : Fin 4 → CrrRow ℝ) : Data Unit 2 4 := ⟨fun _ => (), ![0, 0, 0, 1], rest⟩

theorem biased_freq (rest : Fin 4 → CrrRow ℝ) (x : Unit) : (biased rest).freq x 0 = 3 / 4 ∧ (biased rest).freq x 1 = 1 / 4 := by
  have h0 : (biased rest).times x 0 = 3 := by
    have e : (Finset.univ.filter fun k : Fin 4 => () = x ∧ (![0, 0, 0, 1] : Fin 4 → Fin 2) k = 0).card = 3 := by
      clear * -
      decide +kernel +revert
    exact e
  have h1 : (biased rest).times x 1 = 1 := by
    have e : (Finset.univ.filter fun k : Fin 4 => () = x ∧ (![0, 0, 0, 1] : Fin 4 → Fin 2) k = 1).card = 1 := by
      clear * -
      decide +kernel +revert
    exact e
  have h2 : (biased rest).visits x = 4 := by
    have e : (Finset.univ.filter fun _k : Fin 4 => () = x).card = 4 := by
      clear * -
      decide +kernel +revert
    exact e
  unfold Data.freq
  rw [h0, h1, h2]
  norm_num

theorem biased_all (rest : Fin 4 → CrrRow ℝ) : (biased rest).All := by
  intro k a
  fin_cases a
  · exact ⟨0, rfl, rfl⟩
  · exact ⟨3, rfl, rfl⟩

/-- **C278 violated**: the policy learned need not prefer better actions. In mode "binary" a policy that takes an action of value 0 with probability 3/4 and
one of value 1 with probability 1/4 has settled, because the data have these frequencies. With the loss as documented, where every action has the weight of its own
advantage, it would not have: the policy with equal probabilities has a smaller loss. -/
theorem C278_violated (rest : Fin 4 → CrrRow ℝ) : ∃ Q pi pi' : Unit → Fin 2 → ℝ, Q () 0 < Q () 1 ∧ pi () 0 = 3 / 4 ∧ pi () 1 = 1 / 4 ∧ Policy pi' ∧
    (biased rest).Settled .binary 1 20 Q pi ∧
    ∑ k, (if ∑ a, pi () a * Q () a < Q () ((biased rest).act k) then 1 else 0) * -Real.log (pi' () ((biased rest).act k)) <
      ∑ k, (if ∑ a, pi () a * Q () a < Q () ((biased rest).act k) then 1 else 0) * -Real.log (pi () ((biased rest).act k)) := by
  have hpi : Policy fun _ : Unit => (![3 / 4, 1 / 4] : Fin 2 → ℝ) := by
    constructor
    · intro x a
      fin_cases a <;> norm_num
    · intro x
      rw [Fin.sum_univ_two]
      norm_num
  refine ⟨fun _ => ![0, 1], fun _ => ![3 / 4, 1 / 4], fun _ => ![1 / 2, 1 / 2], by norm_num, rfl, rfl, ?_, ?_, ?_⟩
  · constructor
    · intro x a
      fin_cases a <;> norm_num
    · intro x
      rw [Fin.sum_univ_two]
      norm_num
  · refine (C278_binary _ (biased_all rest) 1 20 (by norm_num) _ _ hpi (by norm_num)).mpr (Or.inr fun k a => ?_)
    obtain ⟨h0, h1⟩ := biased_freq rest ((biased rest).obs k)
    fin_cases a
    · exact h0.symm
    · exact h1.symm
  · have hlog : Real.log (1 / 4) < Real.log (1 / 2) := Real.log_lt_log (by norm_num) (by norm_num)
    simp only [Fin.sum_univ_four, Fin.sum_univ_two, biased, Matrix.cons_val_zero, Matrix.cons_val_one, Matrix.cons_val]
    norm_num at hlog ⊢
    linarith

/-- The hypotheses of `C278_improves` are met, here by the policy of the violation. -/
example (rest : Fin 4 → CrrRow ℝ) : ∃ Q pi : Unit → Fin 2 → ℝ, (biased rest).Settled .binary 1 20 Q pi ∧ 1 / 4 ≤ ∑ a, pi () a * Q () a := by
  obtain ⟨Q, pi, _, _, h0, h1, _, hs, _⟩ := C278_violated rest
  have hb : (biased rest).Settled .binary 1 20 (fun _ => ![0, 1]) pi := by
    refine (C278_binary _ (biased_all rest) 1 20 (by norm_num) _ _ hs.1 (by norm_num)).mpr (Or.inr fun k a => ?_)
    obtain ⟨e0, e1⟩ := biased_freq rest ((biased rest).obs k)
    fin_cases a
    · exact h0.trans e0.symm
    · exact h1.trans e1.symm
  refine ⟨fun _ => ![0, 1], pi, hb, ?_⟩
  have := C278_improves _ (biased_all rest) .binary 1 20 (by norm_num) (by norm_num) _ _ hb 0
  rw [Fin.sum_univ_two] at this
  simpa [(biased_freq rest _).1, (biased_freq rest _).2] using this

end Verif.CrrActor
