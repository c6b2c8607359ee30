import Verif.Model.SoftQ
import Verif.Props.QLearning

/-!
C242: discrete SAC learns the soft optimal values and the policy that belongs to them.
-/

namespace Verif.SoftQ

open Verif.QTarget Verif.Returns Verif.NetOut Verif.PolicyGradient
open Verif.QLearning (Batches tableNet table_getD best raise zipWith_ofFn mean_ofFn returns_one flatten_singles)

set_option linter.unusedSectionVars false

/-! ### Specification -/

variable {S : Type} [Fintype S] {m : Nat} {Ω : Type} [Fintype Ω]

/-- The largest expected value plus `alpha` times the entropy, over all distributions of actions (see `C242_best`): a soft maximum. -/
noncomputable def softBest (alpha : ℝ) (q : Fin (m + 1) → ℝ) : ℝ := alpha * Real.log (∑ a, Real.exp (q a / alpha))

/-- The probabilities of the actions proportional to `exp (q / alpha)`. -/
noncomputable def boltzmann (alpha : ℝ) (q : Fin (m + 1) → ℝ) (a : Fin (m + 1)) : ℝ :=
  Real.exp (q a / alpha) / ∑ b, Real.exp (q b / alpha)

/-- The reward of a transition plus the discounted soft value of the next state, unless the episode has ended. -/
noncomputable def softStep (e : Env S (Fin (m + 1))) (gamma alpha : ℝ) (Q : S → Fin (m + 1) → ℝ) (x : S × Fin (m + 1)) (s' : S) : ℝ :=
  e.rew x.1 x.2 s' + gamma * if e.ends x.1 x.2 s' then 0 else softBest alpha (Q s')

/-- Its expectation. -/
noncomputable def softBackup (e : Env S (Fin (m + 1))) (gamma alpha : ℝ) (Q : S → Fin (m + 1) → ℝ) (s : S) (a : Fin (m + 1)) : ℝ :=
  ∑ s', e.next s a s' * softStep e gamma alpha Q (s, a) s'

/-- Bellman's equation for the soft optimal values. -/
def SoftOptimal (e : Env S (Fin (m + 1))) (gamma alpha : ℝ) (Q : S → Fin (m + 1) → ℝ) : Prop := ∀ s a, Q s a = softBackup e gamma alpha Q s a

/-- The smaller of the values in two tables. -/
noncomputable def lower (Q₁ Q₂ : S → Fin (m + 1) → ℝ) (s : S) (a : Fin (m + 1)) : ℝ := min (Q₁ s a) (Q₂ s a)

/-- The loss of a critic for a batch (one-step returns). -/
noncomputable def loss {e : Env S (Fin (m + 1))} {n : Nat} (b : Batches e Ω n) (nets : Nets S) (gamma alpha : ℝ)
    (weight : Fin n → ℝ) (critic : S → List ℝ) (ω : Ω) : ℝ :=
  (criticLoss nets alpha critic (b.view ω) (b.inputs ω) (List.ofFn fun p => (b.pair ω p).1)
    (List.ofFn fun p => ((b.pair ω p).2 : Nat)) (List.ofFn (b.index ω)) gamma 1 (List.ofFn weight)).getD 0

/-- The expectation of its derivative. -/
noncomputable def gradient {e : Env S (Fin (m + 1))} {n : Nat} (b : Batches e Ω n) (nets : Nets S) (gamma alpha : ℝ)
    (weight : Fin n → ℝ) (critic : ℝ → S → List ℝ) (θ : ℝ) : ℝ :=
  ∑ ω, b.P ω * deriv (fun t => loss b nets gamma alpha weight (critic t) ω) θ

/-- The expectation of the loss. -/
noncomputable def expectedLoss {e : Env S (Fin (m + 1))} {n : Nat} (b : Batches e Ω n) (nets : Nets S) (gamma alpha : ℝ)
    (weight : Fin n → ℝ) (critic : S → List ℝ) : ℝ :=
  ∑ ω, b.P ω * loss b nets gamma alpha weight critic ω

/-- The actor outputs logits for `m + 1` actions and its probabilities are those of the Boltzmann distribution, in every state. -/
def Boltzmann (alpha : ℝ) (Q : S → Fin (m + 1) → ℝ) (actor : S → List ℝ) : Prop :=
  ∀ s, softmax (actor s) = List.ofFn (boltzmann alpha (Q s))

/-! ### The best distribution -/

theorem sum_exp_pos (alpha : ℝ) (q : Fin (m + 1) → ℝ) : 0 < ∑ a, Real.exp (q a / alpha) :=
  Finset.sum_pos (fun a _ => Real.exp_pos _) ⟨0, Finset.mem_univ _⟩

theorem gibbs (alpha : ℝ) (ha : 0 < alpha) (q p : Fin (m + 1) → ℝ) (hp : ∀ a, 0 < p a) (hs : ∑ a, p a = 1) :
    softBest alpha q - (∑ a, p a * q a + alpha * -∑ a, Real.log (p a) * p a) =
      alpha * ∑ a, p a * (boltzmann alpha q a / p a - 1 - Real.log (boltzmann alpha q a / p a)) := by
  have hZ := sum_exp_pos alpha q
  have hw : ∑ a, boltzmann alpha q a = 1 := by
    unfold boltzmann
    rw [← Finset.sum_div]
    exact div_self hZ.ne'
  have h1 : ∑ a, p a * (boltzmann alpha q a / p a - 1) = 0 := by
    have : ∀ a, p a * (boltzmann alpha q a / p a - 1) = boltzmann alpha q a - p a := by
      intro a
      have := (hp a).ne'
      field_simp
    simp_rw [this]
    rw [Finset.sum_sub_distrib, hw, hs, sub_self]
  have h2 : ∀ a, Real.log (boltzmann alpha q a / p a) = q a / alpha - Real.log (∑ b, Real.exp (q b / alpha)) - Real.log (p a) := by
    intro a
    unfold boltzmann
    rw [Real.log_div (div_pos (Real.exp_pos _) hZ).ne' (hp a).ne', Real.log_div (Real.exp_pos _).ne' hZ.ne', Real.log_exp]
  have h3 : ∑ a, p a * (boltzmann alpha q a / p a - 1 - Real.log (boltzmann alpha q a / p a)) =
      -∑ a, p a * Real.log (boltzmann alpha q a / p a) := by
    simp_rw [mul_sub (p _) (_ - 1)]
    rw [Finset.sum_sub_distrib, h1, zero_sub]
  rw [h3]
  simp_rw [h2]
  unfold softBest
  generalize Real.log (∑ b, Real.exp (q b / alpha)) = z
  have h4 : ∀ a, p a * (q a / alpha - z - Real.log (p a)) = p a * q a / alpha - z * p a - Real.log (p a) * p a := by
    intro a; ring
  simp_rw [h4]
  rw [Finset.sum_sub_distrib, Finset.sum_sub_distrib, ← Finset.sum_div, ← Finset.mul_sum, hs]
  field_simp
  ring

theorem gibbs_term (w p : ℝ) (hw : 0 < w) (hp : 0 < p) :
    0 ≤ p * (w / p - 1 - Real.log (w / p)) ∧ (p * (w / p - 1 - Real.log (w / p)) = 0 → w = p) := by
  have h : 0 < w / p := div_pos hw hp
  constructor
  · have := Real.log_le_sub_one_of_pos h
    exact mul_nonneg hp.le (by linarith)
  · intro h0
    by_contra hne
    have : w / p ≠ 1 := by
      intro h1
      exact hne ((div_eq_one_iff_eq hp.ne').mp h1)
    have := Real.log_lt_sub_one_of_pos h this
    rcases mul_eq_zero.mp h0 with h | h
    · exact hp.ne' h
    · linarith

theorem boltzmann_pos (alpha : ℝ) (q : Fin (m + 1) → ℝ) (a : Fin (m + 1)) : 0 < boltzmann alpha q a :=
  div_pos (Real.exp_pos _) (sum_exp_pos alpha q)

theorem boltzmann_sum (alpha : ℝ) (q : Fin (m + 1) → ℝ) : ∑ a, boltzmann alpha q a = 1 := by
  unfold boltzmann
  rw [← Finset.sum_div]
  exact div_self (sum_exp_pos alpha q).ne'

/-- `softBest` is what its description says: no distribution has a larger sum of expected value and entropy times `alpha`, and exactly the Boltzmann
distribution attains it. -/
theorem C242_best (alpha : ℝ) (ha : 0 < alpha) (q p : Fin (m + 1) → ℝ) (hp : ∀ a, 0 < p a) (hs : ∑ a, p a = 1) :
    ∑ a, p a * q a + alpha * -(∑ a, Real.log (p a) * p a) ≤ softBest alpha q ∧
      (∑ a, p a * q a + alpha * -(∑ a, Real.log (p a) * p a) = softBest alpha q ↔ p = boltzmann alpha q) := by
  have hg := gibbs alpha ha q p hp hs
  have ht : ∀ a ∈ Finset.univ, 0 ≤ p a * (boltzmann alpha q a / p a - 1 - Real.log (boltzmann alpha q a / p a)) := fun a _ =>
    (gibbs_term _ _ (boltzmann_pos alpha q a) (hp a)).1
  have hn := mul_nonneg ha.le (Finset.sum_nonneg ht)
  refine ⟨by linarith, fun h => ?_, ?_⟩
  · rw [h, sub_self] at hg
    rcases mul_eq_zero.mp hg.symm with h0 | h0
    · exact absurd h0 ha.ne'
    · funext a
      exact ((gibbs_term _ _ (boltzmann_pos alpha q a) (hp a)).2
        ((Finset.sum_eq_zero_iff_of_nonneg ht).mp h0 a (Finset.mem_univ a))).symm
  · rintro rfl
    have : ∀ a, boltzmann alpha q a / boltzmann alpha q a = 1 := fun a => div_self (hp a).ne'
    simp only [this, Real.log_one, sub_self, mul_zero, Finset.sum_const_zero] at hg
    linarith

/-! ### The actor -/

/-- The probabilities of an actor with `m + 1` logits. -/
theorem softmax_ofFn (l : Fin (m + 1) → ℝ) : softmax (List.ofFn l) = List.ofFn (boltzmann 1 l) := by
  unfold softmax
  rw [List.map_ofFn, List.map_ofFn, List.sum_ofFn]
  congr 1
  funext a
  simp [boltzmann]

theorem entropy_ofFn (p : Fin (m + 1) → ℝ) : entropy (List.ofFn p) = -∑ a, Real.log (p a) * p a := by
  unfold entropy
  rw [List.map_ofFn, List.sum_ofFn]
  rfl

theorem value_ofFn (p q₁ q₂ : Fin (m + 1) → ℝ) :
    (List.zipWith (· * ·) (List.ofFn p) (List.zipWith min (List.ofFn q₁) (List.ofFn q₂))).sum = ∑ a, p a * min (q₁ a) (q₂ a) := by
  rw [zipWith_ofFn, zipWith_ofFn, List.sum_ofFn]

theorem actorLoss_eq (nets : Nets S) (Q₁ Q₂ : S → Fin (m + 1) → ℝ) (h₁ : nets.critic = tableNet Q₁) (h₂ : nets.critic2 = tableNet Q₂)
    (alpha : ℝ) (p : S → Fin (m + 1) → ℝ) (actor : S → List ℝ) (hactor : ∀ s, softmax (actor s) = List.ofFn (p s)) (obs : List S) :
    actorLoss nets alpha actor obs =
      -((obs.map fun s => ∑ a, p s a * lower Q₁ Q₂ s a + alpha * -∑ a, Real.log (p s a) * p s a).sum / obs.length) := by
  unfold actorLoss Ppo.mean
  rw [List.length_map, h₁, h₂]
  congr 3
  refine List.map_congr_left fun s _ => ?_
  unfold tableNet
  rw [hactor, entropy_ofFn, value_ofFn]
  unfold lower
  ring

/-- The logits `q / alpha` give the Boltzmann distribution. -/
theorem boltzmann_logits (alpha : ℝ) (Q : S → Fin (m + 1) → ℝ) : Boltzmann alpha Q (tableNet fun s a => Q s a / alpha) := by
  intro s
  unfold tableNet
  rw [softmax_ofFn]
  congr 1
  funext a
  simp [boltzmann]

/-- **C242: the actor.** For every batch of observations and all values of the critics, the loss of the actor is least for the Boltzmann distribution of the
smaller values, and for actors with these probabilities in all observations of the batch only. -/
theorem C242_actor (nets : Nets S) (Q₁ Q₂ : S → Fin (m + 1) → ℝ) (h₁ : nets.critic = tableNet Q₁) (h₂ : nets.critic2 = tableNet Q₂)
    (alpha : ℝ) (ha : 0 < alpha) (best actor : S → List ℝ) (hb : Boltzmann alpha (lower Q₁ Q₂) best)
    (hl : ∀ s, (actor s).length = m + 1) (obs : List S) :
    actorLoss nets alpha best obs ≤ actorLoss nets alpha actor obs ∧
      (actorLoss nets alpha actor obs = actorLoss nets alpha best obs ↔ ∀ s ∈ obs, softmax (actor s) = softmax (best s)) := by
  have hact : ∀ s, ∃ l : Fin (m + 1) → ℝ, actor s = List.ofFn l := fun s =>
    ⟨fun a => (actor s)[(a : Nat)]'(by rw [hl]; exact a.2), by
      refine List.ext_getElem (by simp [hl]) fun i h₁ h₂ => ?_
      rw [List.getElem_ofFn]⟩
  choose l hl' using hact
  have hs : ∀ s, softmax (actor s) = List.ofFn (boltzmann 1 (l s)) := fun s => by rw [hl', softmax_ofFn]
  rw [actorLoss_eq nets Q₁ Q₂ h₁ h₂ alpha _ best hb, actorLoss_eq nets Q₁ Q₂ h₁ h₂ alpha _ actor hs]
  have hbest : ∀ s, ∑ a, boltzmann alpha (lower Q₁ Q₂ s) a * lower Q₁ Q₂ s a +
      alpha * -∑ a, Real.log (boltzmann alpha (lower Q₁ Q₂ s) a) * boltzmann alpha (lower Q₁ Q₂ s) a = softBest alpha (lower Q₁ Q₂ s) := fun s =>
    (C242_best alpha ha (lower Q₁ Q₂ s) _ (boltzmann_pos _ _) (boltzmann_sum _ _)).2.2 rfl
  have hle := fun s => C242_best alpha ha (lower Q₁ Q₂ s) _ (boltzmann_pos 1 (l s)) (boltzmann_sum 1 (l s))
  simp_rw [hbest]
  have hsum : ∀ obs : List S, (obs.map fun s => ∑ a, boltzmann 1 (l s) a * lower Q₁ Q₂ s a +
      alpha * -∑ a, Real.log (boltzmann 1 (l s) a) * boltzmann 1 (l s) a).sum ≤ (obs.map fun s => softBest alpha (lower Q₁ Q₂ s)).sum := by
    intro obs
    induction obs with
    | nil => simp
    | cons s obs ih =>
      simp only [List.map_cons, List.sum_cons]
      exact add_le_add (hle s).1 ih
  refine ⟨neg_le_neg (div_le_div_of_nonneg_right (hsum obs) (Nat.cast_nonneg _)), ?_⟩
  by_cases hne : obs = []
  · subst hne; simp
  · have h0 : (obs.length : ℝ) ≠ 0 := by simpa using hne
    rw [neg_inj, div_left_inj' h0]
    clear hne h0
    induction obs with
    | nil => simp
    | cons s obs ih =>
      simp only [List.map_cons, List.sum_cons, List.forall_mem_cons]
      have h3 : softmax (actor s) = softmax (best s) ↔ boltzmann 1 (l s) = boltzmann alpha (lower Q₁ Q₂ s) := by
        rw [hs, hb]
        exact List.ofFn_inj
      refine Iff.trans ?_ (and_congr ((hle s).2.trans h3.symm) ih)
      have := (hle s).1
      have := hsum obs
      constructor
      · intro h; constructor <;> linarith
      · rintro ⟨h, h'⟩; rw [h, h']

/-! ### The critics -/

theorem target_eq (nets : Nets S) (Q₁ Q₂ : S → Fin (m + 1) → ℝ) (h₁ : nets.criticOld = tableNet Q₁) (h₂ : nets.critic2Old = tableNet Q₂)
    (alpha : ℝ) (ha : 0 < alpha) (hb : Boltzmann alpha (lower Q₁ Q₂) nets.actor) (xs : List S) :
    targetQ nets alpha xs = xs.map fun s => softBest alpha (lower Q₁ Q₂ s) := by
  refine List.map_congr_left fun s _ => ?_
  unfold ActorCritic.discreteSacTarget
  rw [h₁, h₂, hb, entropy_ofFn]
  unfold tableNet
  rw [value_ofFn]
  exact (C242_best alpha ha (lower Q₁ Q₂ s) _ (boltzmann_pos _ _) (boltzmann_sum _ _)).2.2 rfl

theorem loss_eq {e : Env S (Fin (m + 1))} {n : Nat} (b : Batches e Ω n) (nets : Nets S) (Q₁ Q₂ : S → Fin (m + 1) → ℝ)
    (h₁ : nets.criticOld = tableNet Q₁) (h₂ : nets.critic2Old = tableNet Q₂) (gamma alpha : ℝ) (ha : 0 < alpha)
    (hb : Boltzmann alpha (lower Q₁ Q₂) nets.actor) (weight : Fin n → ℝ) (critic : S → List ℝ) (ω : Ω) :
    loss b nets gamma alpha weight critic ω = (∑ p, ((critic (b.pair ω p).1).getD (b.pair ω p).2 0 -
      softStep e gamma alpha (lower Q₁ Q₂) (b.pair ω p) (b.nexts ω p)) ^ 2 * weight p) / n := by
  unfold loss criticLoss returns
  rw [returns_one _ (fun i => softBest alpha (lower Q₁ Q₂ (b.inputs ω i))) (fun l => by
    rw [target_eq nets Q₁ Q₂ h₁ h₂ alpha ha hb, List.map_map, List.map_map]
    rfl)]
  simp only [Option.map_some, Option.getD_some, flatten_singles]
  unfold pick List.zip
  rw [List.map_ofFn, List.map_ofFn, zipWith_ofFn, zipWith_ofFn, zipWith_ofFn, mean_ofFn]
  congr 1
  refine Finset.sum_congr rfl fun p _ => ?_
  simp only [Function.comp_apply, b.rew, b.terminated, b.next]
  rfl

theorem expected_zero (e : Env S (Fin (m + 1))) (he : e.Ok) {n : Nat} (b : Batches e Ω n) (gamma alpha : ℝ) (Q : S → Fin (m + 1) → ℝ) (p : Fin n)
    (g : S × Fin (m + 1) → ℝ) :
    ∑ ω, b.P ω * ((softStep e gamma alpha Q (b.pair ω p) (b.nexts ω p) - softBackup e gamma alpha Q (b.pair ω p).1 (b.pair ω p).2) * g (b.pair ω p)) = 0 := by
  rw [b.drawn p fun x s' => (softStep e gamma alpha Q x s' - softBackup e gamma alpha Q x.1 x.2) * g x]
  refine Finset.sum_eq_zero fun ω _ => ?_
  have : ∑ s', e.next (b.pair ω p).1 (b.pair ω p).2 s' *
      ((softStep e gamma alpha Q (b.pair ω p) s' - softBackup e gamma alpha Q (b.pair ω p).1 (b.pair ω p).2) * g (b.pair ω p)) =
      (∑ s', e.next (b.pair ω p).1 (b.pair ω p).2 s' * softStep e gamma alpha Q (b.pair ω p) s' -
        (∑ s', e.next (b.pair ω p).1 (b.pair ω p).2 s') * softBackup e gamma alpha Q (b.pair ω p).1 (b.pair ω p).2) * g (b.pair ω p) := by
    rw [Finset.sum_mul, ← Finset.sum_sub_distrib, Finset.sum_mul]
    refine Finset.sum_congr rfl fun s' _ => ?_
    ring
  rw [this, he.next, one_mul]
  have : ∑ s', e.next (b.pair ω p).1 (b.pair ω p).2 s' * softStep e gamma alpha Q (b.pair ω p) s' =
    softBackup e gamma alpha Q (b.pair ω p).1 (b.pair ω p).2 := rfl
  rw [this, sub_self, zero_mul, mul_zero]

theorem gradient_eq (e : Env S (Fin (m + 1))) (he : e.Ok) {n : Nat} (b : Batches e Ω n) (nets : Nets S) (Q₁ Q₂ : S → Fin (m + 1) → ℝ)
    (h₁ : nets.criticOld = tableNet Q₁) (h₂ : nets.critic2Old = tableNet Q₂) (gamma alpha : ℝ) (ha : 0 < alpha)
    (hb : Boltzmann alpha (lower Q₁ Q₂) nets.actor) (weight : Fin n → ℝ) (critic : ℝ → S → List ℝ) (θ : ℝ)
    (hd : ∀ s (a : Fin (m + 1)), DifferentiableAt ℝ (fun t => (critic t s).getD a 0) θ) :
    gradient b nets gamma alpha weight critic θ =
      (∑ p, ∑ ω, b.P ω * (((critic θ (b.pair ω p).1).getD (b.pair ω p).2 0 -
        softBackup e gamma alpha (lower Q₁ Q₂) (b.pair ω p).1 (b.pair ω p).2) *
        (2 * deriv (fun t => (critic t (b.pair ω p).1).getD (b.pair ω p).2 0) θ * weight p))) / n := by
  unfold gradient
  have hl : ∀ ω, HasDerivAt (fun t => loss b nets gamma alpha weight (critic t) ω)
      ((∑ p, (((critic θ (b.pair ω p).1).getD (b.pair ω p).2 0 - softStep e gamma alpha (lower Q₁ Q₂) (b.pair ω p) (b.nexts ω p)) *
        (2 * deriv (fun t => (critic t (b.pair ω p).1).getD (b.pair ω p).2 0) θ * weight p))) / n) θ := by
    intro ω
    simp_rw [loss_eq b nets Q₁ Q₂ h₁ h₂ gamma alpha ha hb]
    refine HasDerivAt.div_const ?_ _
    refine HasDerivAt.fun_sum fun p _ => ?_
    have h1 := ((((hd (b.pair ω p).1 (b.pair ω p).2).hasDerivAt).sub_const
      (softStep e gamma alpha (lower Q₁ Q₂) (b.pair ω p) (b.nexts ω p))).fun_pow 2).mul_const (weight p)
    refine h1.congr_deriv ?_
    push_cast
    ring
  simp only [fun ω => (hl ω).deriv]
  simp only [mul_div_assoc', Finset.mul_sum]
  rw [← Finset.sum_div, Finset.sum_comm]
  congr 1
  refine Finset.sum_congr rfl fun p _ => ?_
  have := expected_zero e he b gamma alpha (lower Q₁ Q₂) p fun x => 2 * deriv (fun t => (critic t x.1).getD x.2 0) θ * weight p
  rw [← sub_eq_zero, ← Finset.sum_sub_distrib, ← neg_eq_zero, ← Finset.sum_neg_distrib]
  refine Eq.trans ?_ this
  refine Finset.sum_congr rfl fun ω _ => ?_
  ring

theorem lower_self (Q : S → Fin (m + 1) → ℝ) : lower Q Q = Q := by
  funext s a
  exact min_self _

/-- **C242: the soft optimal values are stationary.** If both critics and their targets give the soft optimal values and the actor has the Boltzmann
probabilities, the expected gradient of the loss of a critic is zero, however the critic is parametrised. -/
theorem C242_stationary (e : Env S (Fin (m + 1))) (he : e.Ok) {n : Nat} (b : Batches e Ω n) (nets : Nets S) (Q : S → Fin (m + 1) → ℝ)
    (h₁ : nets.criticOld = tableNet Q) (h₂ : nets.critic2Old = tableNet Q) (gamma alpha : ℝ) (ha : 0 < alpha)
    (hQ : SoftOptimal e gamma alpha Q) (hb : Boltzmann alpha Q nets.actor) (weight : Fin n → ℝ) (critic : ℝ → S → List ℝ) (θ : ℝ)
    (hθ : critic θ = tableNet Q) (hd : ∀ s (a : Fin (m + 1)), DifferentiableAt ℝ (fun t => (critic t s).getD a 0) θ) :
    gradient b nets gamma alpha weight critic θ = 0 := by
  rw [gradient_eq e he b nets Q Q h₁ h₂ gamma alpha ha (by rw [lower_self]; exact hb) weight critic θ hd, hθ, lower_self]
  simp only [table_getD, fun ω p => sub_eq_zero.mpr (hQ (b.pair ω p).1 (b.pair ω p).2)]
  simp

/-- **C242: nothing else is.** Let both critics be tables, synchronised with their targets, and let the actor minimise its loss for observations
among which all states occur. Both tables are left alone by the updates of all their entries (in expectation) if and only if they agree and are the
soft optimal values. -/
theorem C242_only (e : Env S (Fin (m + 1))) (he : e.Ok) (b : S × Fin (m + 1) → Batches e Ω 1) (hb : ∀ x ω p, (b x).pair ω p = x)
    (hP : ∀ x, ∑ ω, (b x).P ω = 1) (gamma alpha : ℝ) (ha : 0 < alpha) (nets : Nets S) (Q₁ Q₂ : S → Fin (m + 1) → ℝ)
    (h₁ : nets.critic = tableNet Q₁) (h₂ : nets.critic2 = tableNet Q₂) (h₁' : nets.criticOld = tableNet Q₁) (h₂' : nets.critic2Old = tableNet Q₂)
    (obs : List S) (hobs : ∀ s, s ∈ obs) (hlen : ∀ s, (nets.actor s).length = m + 1)
    (hactor : ∀ actor : S → List ℝ, (∀ s, (actor s).length = m + 1) → actorLoss nets alpha nets.actor obs ≤ actorLoss nets alpha actor obs) :
    (∀ x, gradient (b x) nets gamma alpha (fun _ => 1) (fun t => tableNet (raise Q₁ x t)) 0 = 0 ∧
      gradient (b x) nets gamma alpha (fun _ => 1) (fun t => tableNet (raise Q₂ x t)) 0 = 0) ↔ Q₁ = Q₂ ∧ SoftOptimal e gamma alpha Q₁ := by
  have hB : Boltzmann alpha (lower Q₁ Q₂) nets.actor := by
    have h0 := boltzmann_logits alpha (lower Q₁ Q₂)
    have h3 := C242_actor nets Q₁ Q₂ h₁ h₂ alpha ha _ nets.actor h0 hlen obs
    have h4 := hactor (tableNet fun s a => lower Q₁ Q₂ s a / alpha) (by simp [tableNet])
    have h5 := h3.2.mp (le_antisymm h4 h3.1)
    intro s
    rw [h5 s (hobs s), h0 s]
  have hdiff : ∀ (Q : S → Fin (m + 1) → ℝ) x s (a : Fin (m + 1)),
      HasDerivAt (fun t => (tableNet (raise Q x t) s).getD a 0) (open Classical in if (s, a) = x then 1 else 0) 0 := by
    intro Q x s a
    have : (fun t => (tableNet (raise Q x t) s).getD a 0) = fun t => Q s a + (open Classical in if (s, a) = x then t else 0) := by
      funext t
      simp only [table_getD, raise]
    rw [this]
    by_cases h : (s, a) = x
    · simp only [if_pos h]
      exact (hasDerivAt_id' (0 : ℝ)).const_add _
    · simp only [if_neg h]
      exact hasDerivAt_const _ _
  have key : ∀ (Q : S → Fin (m + 1) → ℝ) x, gradient (b x) nets gamma alpha (fun _ => 1) (fun t => tableNet (raise Q x t)) 0 =
      (Q x.1 x.2 - softBackup e gamma alpha (lower Q₁ Q₂) x.1 x.2) * 2 := by
    intro Q x
    rw [gradient_eq e he (b x) nets Q₁ Q₂ h₁' h₂' gamma alpha ha hB (fun _ => 1) (fun t => tableNet (raise Q x t)) 0
      fun s a => (hdiff Q x s a).differentiableAt]
    simp only [hb, table_getD]
    rw [Finset.univ_unique, Finset.sum_singleton, ← Finset.sum_mul, hP]
    simp [raise]
  constructor
  · intro h
    have e₁ : ∀ s a, Q₁ s a = softBackup e gamma alpha (lower Q₁ Q₂) s a := by
      intro s a
      have := (key Q₁ (s, a)).symm.trans (h (s, a)).1
      linarith
    have e₂ : ∀ s a, Q₂ s a = softBackup e gamma alpha (lower Q₁ Q₂) s a := by
      intro s a
      have := (key Q₂ (s, a)).symm.trans (h (s, a)).2
      linarith
    have h12 : Q₁ = Q₂ := by
      funext s a
      rw [e₁, e₂]
    refine ⟨h12, ?_⟩
    subst h12
    rw [lower_self] at e₁
    exact e₁
  · rintro ⟨rfl, h⟩ x
    rw [key, lower_self, ← h x.1 x.2]
    simp

/-! ### Contraction -/

theorem softBest_le (alpha : ℝ) (ha : 0 < alpha) (q q' : Fin (m + 1) → ℝ) (d : ℝ) (h : ∀ a, q a ≤ q' a + d) :
    softBest alpha q ≤ softBest alpha q' + d := by
  have hZ := sum_exp_pos alpha q
  have hZ' := sum_exp_pos alpha q'
  have h1 : ∑ a, Real.exp (q a / alpha) ≤ Real.exp (d / alpha) * ∑ a, Real.exp (q' a / alpha) := by
    rw [Finset.mul_sum]
    refine Finset.sum_le_sum fun a _ => ?_
    rw [← Real.exp_add]
    refine Real.exp_le_exp.mpr ?_
    rw [← add_div]
    exact div_le_div_of_nonneg_right (by linarith [h a]) ha.le
  have h2 := Real.log_le_log hZ h1
  rw [Real.log_mul (Real.exp_pos _).ne' hZ'.ne', Real.log_exp] at h2
  unfold softBest
  have h3 := mul_le_mul_of_nonneg_left h2 ha.le
  rw [mul_add, mul_div_cancel₀ _ ha.ne'] at h3
  linarith

theorem softBest_dist (alpha : ℝ) (ha : 0 < alpha) (Q Q' : S → Fin (m + 1) → ℝ) (s : S) :
    |softBest alpha (Q s) - softBest alpha (Q' s)| ≤ dist Q Q' := by
  have key : ∀ Q Q' : S → Fin (m + 1) → ℝ, softBest alpha (Q s) ≤ softBest alpha (Q' s) + dist Q Q' := by
    intro Q Q'
    refine softBest_le alpha ha _ _ _ fun a => ?_
    have h := (dist_le_pi_dist (Q s) (Q' s) a).trans (dist_le_pi_dist Q Q' s)
    rw [Real.dist_eq] at h
    have := (abs_le.mp h).2
    linarith
  rw [abs_le]
  have h1 := key Q Q'
  have h2 := key Q' Q
  rw [dist_comm] at h2
  constructor <;> linarith

/-- The difference of the expectations of two targets, if the values of the next states differ by at most `d`. -/
theorem expect_dist (e : Env S (Fin (m + 1))) (he : e.Ok) (hp : ∀ s a s', 0 ≤ e.next s a s') (gamma : ℝ) (hg : 0 ≤ gamma)
    (v v' : S → ℝ) (d : ℝ) (hd : 0 ≤ d) (hv : ∀ s, |v s - v' s| ≤ d) (s : S) (a : Fin (m + 1)) :
    |∑ s', e.next s a s' * (e.rew s a s' + gamma * if e.ends s a s' then 0 else v s') -
      ∑ s', e.next s a s' * (e.rew s a s' + gamma * if e.ends s a s' then 0 else v' s')| ≤ gamma * d := by
  rw [← Finset.sum_sub_distrib]
  refine (Finset.abs_sum_le_sum_abs _ _).trans ?_
  have : gamma * d = ∑ s', e.next s a s' * (gamma * d) := by rw [← Finset.sum_mul, he.next, one_mul]
  rw [this]
  refine Finset.sum_le_sum fun s' _ => ?_
  rw [← mul_sub, abs_mul, abs_of_nonneg (hp s a s')]
  refine mul_le_mul_of_nonneg_left ?_ (hp s a s')
  rw [add_sub_add_left_eq_sub, ← mul_sub, abs_mul, abs_of_nonneg hg]
  refine mul_le_mul_of_nonneg_left ?_ hg
  by_cases h : e.ends s a s' = true
  · simp only [if_pos h, sub_self, abs_zero]
    exact hd
  · simp only [if_neg h]
    exact hv s'

theorem softBackup_dist (e : Env S (Fin (m + 1))) (he : e.Ok) (hp : ∀ s a s', 0 ≤ e.next s a s') (gamma alpha : ℝ) (hg : 0 ≤ gamma) (ha : 0 < alpha)
    (Q Q' : S → Fin (m + 1) → ℝ) : dist (softBackup e gamma alpha Q) (softBackup e gamma alpha Q') ≤ gamma * dist Q Q' := by
  have h0 : 0 ≤ gamma * dist Q Q' := mul_nonneg hg dist_nonneg
  refine (dist_pi_le_iff h0).mpr fun s => (dist_pi_le_iff h0).mpr fun a => ?_
  rw [Real.dist_eq]
  exact expect_dist e he hp gamma hg _ _ _ dist_nonneg (softBest_dist alpha ha Q Q') s a

/-- **C242: the soft optimal values exist and are unique**, for discount factors below 1. -/
theorem C242_unique (e : Env S (Fin (m + 1))) (he : e.Ok) (hp : ∀ s a s', 0 ≤ e.next s a s') (gamma alpha : ℝ) (hg : 0 ≤ gamma) (hg1 : gamma < 1)
    (ha : 0 < alpha) : ∃! Q, SoftOptimal e gamma alpha Q := by
  have hc : ContractingWith ⟨gamma, hg⟩ (softBackup e gamma alpha) :=
    ⟨by exact_mod_cast hg1, LipschitzWith.of_dist_le_mul fun Q Q' => softBackup_dist e he hp gamma alpha hg ha Q Q'⟩
  refine ⟨ContractingWith.fixedPoint _ hc, fun s a => ?_, ?_⟩
  · have := hc.fixedPoint_isFixedPt
    exact (congrFun (congrFun this.symm s) a)
  · intro Q hQ
    refine hc.fixedPoint_unique ?_
    funext s a
    exact (hQ s a).symm

theorem expect_le (e : Env S (Fin (m + 1))) (he : e.Ok) (hp : ∀ s a s', 0 ≤ e.next s a s') (gamma : ℝ) (hg : 0 ≤ gamma)
    (v v' : S → ℝ) (d : ℝ) (hd : 0 ≤ d) (hv : ∀ s, v s ≤ v' s + d) (s : S) (a : Fin (m + 1)) :
    ∑ s', e.next s a s' * (e.rew s a s' + gamma * if e.ends s a s' then 0 else v s') ≤
      ∑ s', e.next s a s' * (e.rew s a s' + gamma * if e.ends s a s' then 0 else v' s') + gamma * d := by
  have : gamma * d = ∑ s', e.next s a s' * (gamma * d) := by rw [← Finset.sum_mul, he.next, one_mul]
  rw [this, ← Finset.sum_add_distrib]
  refine Finset.sum_le_sum fun s' _ => ?_
  rw [← mul_add]
  refine mul_le_mul_of_nonneg_left ?_ (hp s a s')
  rw [add_assoc, ← mul_add]
  refine add_le_add_right (mul_le_mul_of_nonneg_left ?_ hg) _
  by_cases h : e.ends s a s' = true
  · simp only [if_pos h]; linarith
  · simp only [if_neg h]; exact hv s'

theorem bound_of_step (gamma c : ℝ) (hg : 0 ≤ gamma) (hg1 : gamma < 1) (hc : 0 ≤ c) (F : S × Fin (m + 1) → ℝ)
    (h : ∀ d, 0 ≤ d → (∀ x, F x ≤ d) → ∀ x, F x ≤ gamma * d + c) (x : S × Fin (m + 1)) : F x ≤ c / (1 - gamma) := by
  have hne : (Finset.univ : Finset (S × Fin (m + 1))).Nonempty := ⟨x, Finset.mem_univ x⟩
  let D := max 0 (Finset.univ.sup' hne F)
  have hD : 0 ≤ D := le_max_left _ _
  have h1 : ∀ x, F x ≤ D := fun x => (Finset.le_sup' F (Finset.mem_univ x)).trans (le_max_right _ _)
  have h2 := h D hD h1
  have h3 : D ≤ gamma * D + c := max_le (add_nonneg (mul_nonneg hg hD) hc) (Finset.sup'_le _ _ fun x _ => h2 x)
  have h4 : D ≤ c / (1 - gamma) := by
    rw [le_div_iff₀ (by linarith)]
    linarith
  exact (h1 x).trans h4

theorem best_le_softBest (alpha : ℝ) (ha : 0 < alpha) (Q : S → Fin (m + 1) → ℝ) (s : S) : best Q s ≤ softBest alpha (Q s) := by
  refine Finset.sup'_le _ _ fun a _ => ?_
  have h1 : Real.exp (Q s a / alpha) ≤ ∑ b, Real.exp (Q s b / alpha) :=
    Finset.single_le_sum (f := fun b => Real.exp (Q s b / alpha)) (fun b _ => (Real.exp_pos _).le) (Finset.mem_univ a)
  have h2 := Real.log_le_log (Real.exp_pos _) h1
  rw [Real.log_exp, div_le_iff₀ ha] at h2
  unfold softBest
  linarith

theorem softBest_le_best (alpha : ℝ) (ha : 0 < alpha) (Q : S → Fin (m + 1) → ℝ) (s : S) :
    softBest alpha (Q s) ≤ best Q s + alpha * Real.log (m + 1) := by
  have h1 : softBest alpha (Q s) ≤ softBest alpha (fun _ : Fin (m + 1) => (0 : ℝ)) + best Q s :=
    softBest_le alpha ha _ _ _ fun a => by
      have : Q s a ≤ best Q s := Finset.le_sup' (Q s) (Finset.mem_univ a)
      linarith
  have h2 : softBest alpha (fun _ : Fin (m + 1) => (0 : ℝ)) = alpha * Real.log (m + 1) := by
    simp [softBest]
  linarith

/-- **C242: the temperature.** The soft optimal values are at least the optimal ones and exceed them by at most
`gamma * alpha * log (number of actions) / (1 - gamma)`, which tends to 0 with `alpha`. -/
theorem C242_temperature (e : Env S (Fin (m + 1))) (he : e.Ok) (hp : ∀ s a s', 0 ≤ e.next s a s') (gamma alpha : ℝ) (hg : 0 ≤ gamma) (hg1 : gamma < 1)
    (ha : 0 < alpha) (Q O : S → Fin (m + 1) → ℝ) (hQ : SoftOptimal e gamma alpha Q) (hO : QLearning.Optimal e gamma O) (s : S) (a : Fin (m + 1)) :
    O s a ≤ Q s a ∧ Q s a ≤ O s a + gamma * (alpha * Real.log (m + 1)) / (1 - gamma) := by
  have hL : 0 ≤ alpha * Real.log (m + 1) := mul_nonneg ha.le (Real.log_nonneg (by linarith [Nat.cast_nonneg (α := ℝ) m]))
  constructor
  · have := bound_of_step gamma 0 hg hg1 le_rfl (fun x : S × Fin (m + 1) => O x.1 x.2 - Q x.1 x.2) (by
      intro d hd h x
      have hv : ∀ s, best O s ≤ softBest alpha (Q s) + d := by
        intro s
        have h1 : best O s ≤ best Q s + d := Finset.sup'_le _ _ fun a _ => by
          have h2 : Q s a ≤ best Q s := Finset.le_sup' (Q s) (Finset.mem_univ a)
          have h3 := h (s, a)
          simp only at h3
          linarith
        linarith [best_le_softBest alpha ha Q s]
      have h4 := expect_le e he hp gamma hg (best O) (fun s => softBest alpha (Q s)) d hd hv x.1 x.2
      have h5 := hO x.1 x.2
      have h6 := hQ x.1 x.2
      unfold QLearning.backup QLearning.oneStep at h5
      unfold softBackup softStep at h6
      simp only at h5 h6 ⊢
      rw [h5, h6]
      linarith) (s, a)
    simp only [zero_div] at this
    linarith
  · have := bound_of_step gamma (gamma * (alpha * Real.log (m + 1))) hg hg1 (mul_nonneg hg hL)
      (fun x : S × Fin (m + 1) => Q x.1 x.2 - O x.1 x.2) (by
      intro d hd h x
      have hv : ∀ s, softBest alpha (Q s) ≤ best O s + (d + alpha * Real.log (m + 1)) := by
        intro s
        have h1 := softBest_le alpha ha (Q s) (O s) d fun a => by
          have h3 := h (s, a)
          simp only at h3
          linarith
        linarith [softBest_le_best alpha ha O s]
      have h4 := expect_le e he hp gamma hg (fun s => softBest alpha (Q s)) (best O) _ (add_nonneg hd hL) hv x.1 x.2
      have h5 := hO x.1 x.2
      have h6 := hQ x.1 x.2
      unfold QLearning.backup QLearning.oneStep at h5
      unfold softBackup softStep at h6
      simp only at h5 h6 ⊢
      rw [mul_add] at h4
      rw [h5, h6]
      linarith) (s, a)
    simp only at this
    linarith

/-! ### Convergence -/

theorem expectedLoss_sub (e : Env S (Fin (m + 1))) (he : e.Ok) {n : Nat} (b : Batches e Ω n) (nets : Nets S) (Q₁ Q₂ : S → Fin (m + 1) → ℝ)
    (h₁ : nets.criticOld = tableNet Q₁) (h₂ : nets.critic2Old = tableNet Q₂) (gamma alpha : ℝ) (ha : 0 < alpha)
    (hb : Boltzmann alpha (lower Q₁ Q₂) nets.actor) (weight : Fin n → ℝ) (Q' : S → Fin (m + 1) → ℝ) :
    expectedLoss b nets gamma alpha weight (tableNet Q') -
        expectedLoss b nets gamma alpha weight (tableNet (softBackup e gamma alpha (lower Q₁ Q₂))) =
      ∑ ω, b.P ω * ((∑ p, (Q' (b.pair ω p).1 (b.pair ω p).2 -
        softBackup e gamma alpha (lower Q₁ Q₂) (b.pair ω p).1 (b.pair ω p).2) ^ 2 * weight p) / n) := by
  unfold expectedLoss
  simp only [loss_eq b nets Q₁ Q₂ h₁ h₂ gamma alpha ha hb, table_getD]
  generalize lower Q₁ Q₂ = Q
  rw [← Finset.sum_sub_distrib, ← sub_eq_zero, ← Finset.sum_sub_distrib]
  have key : ∀ p, ∑ ω, b.P ω * ((softStep e gamma alpha Q (b.pair ω p) (b.nexts ω p) - softBackup e gamma alpha Q (b.pair ω p).1 (b.pair ω p).2) *
      (-2 * (Q' (b.pair ω p).1 (b.pair ω p).2 - softBackup e gamma alpha Q (b.pair ω p).1 (b.pair ω p).2) * weight p)) = 0 := fun p =>
    expected_zero e he b gamma alpha Q p fun x => -2 * (Q' x.1 x.2 - softBackup e gamma alpha Q x.1 x.2) * weight p
  have : (∑ p, ∑ ω, b.P ω * ((softStep e gamma alpha Q (b.pair ω p) (b.nexts ω p) - softBackup e gamma alpha Q (b.pair ω p).1 (b.pair ω p).2) *
      (-2 * (Q' (b.pair ω p).1 (b.pair ω p).2 - softBackup e gamma alpha Q (b.pair ω p).1 (b.pair ω p).2) * weight p))) / n = 0 := by
    rw [Finset.sum_eq_zero fun p _ => key p, zero_div]
  rw [← this, Finset.sum_comm, Finset.sum_div]
  refine Finset.sum_congr rfl fun ω _ => ?_
  rw [← Finset.mul_sum, ← mul_sub, ← mul_sub, mul_div_assoc, ← sub_div, ← sub_div, ← Finset.sum_sub_distrib, ← Finset.sum_sub_distrib]
  congr 2
  refine Finset.sum_congr rfl fun p _ => ?_
  ring

/-- A critic that minimises the expected loss. -/
theorem minimiser (e : Env S (Fin (m + 1))) (he : e.Ok) {n : Nat} (b : Batches e Ω n) (hP : ∀ ω, 0 ≤ b.P ω) (weight : Fin n → ℝ)
    (hw : ∀ p, 0 ≤ weight p) (hc : ∀ x, ∃ ω p, 0 < b.P ω ∧ 0 < weight p ∧ b.pair ω p = x) (nets : Nets S) (Q₁ Q₂ : S → Fin (m + 1) → ℝ)
    (h₁ : nets.criticOld = tableNet Q₁) (h₂ : nets.critic2Old = tableNet Q₂) (gamma alpha : ℝ) (ha : 0 < alpha)
    (hb : Boltzmann alpha (lower Q₁ Q₂) nets.actor) (Q' : S → Fin (m + 1) → ℝ)
    (hmin : ∀ T : S → Fin (m + 1) → ℝ, expectedLoss b nets gamma alpha weight (tableNet Q') ≤ expectedLoss b nets gamma alpha weight (tableNet T)) :
    Q' = softBackup e gamma alpha (lower Q₁ Q₂) := by
  have h1 := expectedLoss_sub e he b nets Q₁ Q₂ h₁ h₂ gamma alpha ha hb weight Q'
  have h2 := hmin (softBackup e gamma alpha (lower Q₁ Q₂))
  have hnn : ∀ ω p, 0 ≤ (Q' (b.pair ω p).1 (b.pair ω p).2 -
      softBackup e gamma alpha (lower Q₁ Q₂) (b.pair ω p).1 (b.pair ω p).2) ^ 2 * weight p := fun ω p => mul_nonneg (sq_nonneg _) (hw p)
  have hnn2 : ∀ ω ∈ Finset.univ, 0 ≤ b.P ω * ((∑ p, (Q' (b.pair ω p).1 (b.pair ω p).2 -
      softBackup e gamma alpha (lower Q₁ Q₂) (b.pair ω p).1 (b.pair ω p).2) ^ 2 * weight p) / n) :=
    fun ω _ => mul_nonneg (hP ω) (div_nonneg (Finset.sum_nonneg fun p _ => hnn ω p) (Nat.cast_nonneg n))
  have h3 := (Finset.sum_eq_zero_iff_of_nonneg hnn2).mp (le_antisymm (by rw [← h1]; linarith) (Finset.sum_nonneg hnn2))
  funext s a
  obtain ⟨ω, p, hω, hwp, hx⟩ := hc (s, a)
  have h4 := h3 ω (Finset.mem_univ ω)
  have hn : (n : ℝ) ≠ 0 := by
    have : 0 < n := Fin.pos p
    exact_mod_cast this.ne'
  have h5 : ∑ p, (Q' (b.pair ω p).1 (b.pair ω p).2 -
      softBackup e gamma alpha (lower Q₁ Q₂) (b.pair ω p).1 (b.pair ω p).2) ^ 2 * weight p = 0 := by
    rcases mul_eq_zero.mp h4 with h | h
    · exact absurd h hω.ne'
    · rcases div_eq_zero_iff.mp h with h | h
      · exact h
      · exact absurd h hn
  have h6 := (Finset.sum_eq_zero_iff_of_nonneg fun p _ => hnn ω p).mp h5 p (Finset.mem_univ p)
  rcases mul_eq_zero.mp h6 with h | h
  · have := pow_eq_zero_iff (two_ne_zero) |>.mp h
    rw [hx] at this
    exact sub_eq_zero.mp this
  · exact absurd h hwp.ne'

theorem lower_dist (Q₁ Q₂ O : S → Fin (m + 1) → ℝ) : dist (lower Q₁ Q₂) O ≤ max (dist Q₁ O) (dist Q₂ O) := by
  have h0 : 0 ≤ max (dist Q₁ O) (dist Q₂ O) := dist_nonneg.trans (le_max_left _ _)
  refine (dist_pi_le_iff h0).mpr fun s => (dist_pi_le_iff h0).mpr fun a => ?_
  have e₁ := (dist_le_pi_dist (Q₁ s) (O s) a).trans (dist_le_pi_dist Q₁ O s)
  have e₂ := (dist_le_pi_dist (Q₂ s) (O s) a).trans (dist_le_pi_dist Q₂ O s)
  unfold lower
  rcases min_choice (Q₁ s a) (Q₂ s a) with h | h
  · rw [h]; exact e₁.trans (le_max_left _ _)
  · rw [h]; exact e₂.trans (le_max_right _ _)

/-- **C242: convergence.** Let the critics be tables. In each round the actor is trained until it minimises its loss for observations among which all states
occur, then both critics are trained until they minimise their expected losses, and then the targets are synchronised; every pair of state and action
occurs in the batches with positive probability and weight. Then the distance of both critics from the soft optimal values is multiplied by at most the discount
factor in each round, so that it tends to 0. -/
theorem C242_converges (e : Env S (Fin (m + 1))) (he : e.Ok) (hp : ∀ s a s', 0 ≤ e.next s a s') (gamma alpha : ℝ) (hg : 0 ≤ gamma) (ha : 0 < alpha)
    {n : Nat} (b : Batches e Ω n) (hP : ∀ ω, 0 ≤ b.P ω) (weight : Fin n → ℝ) (hw : ∀ p, 0 ≤ weight p)
    (hc : ∀ x, ∃ ω p, 0 < b.P ω ∧ 0 < weight p ∧ b.pair ω p = x) (Q₁ Q₂ : Nat → S → Fin (m + 1) → ℝ) (nets : Nat → Nets S)
    (h₁ : ∀ k, (nets k).critic = tableNet (Q₁ k) ∧ (nets k).criticOld = tableNet (Q₁ k))
    (h₂ : ∀ k, (nets k).critic2 = tableNet (Q₂ k) ∧ (nets k).critic2Old = tableNet (Q₂ k))
    (obs : List S) (hobs : ∀ s, s ∈ obs) (hlen : ∀ k s, ((nets k).actor s).length = m + 1)
    (hactor : ∀ k (actor : S → List ℝ), (∀ s, (actor s).length = m + 1) →
      actorLoss (nets k) alpha (nets k).actor obs ≤ actorLoss (nets k) alpha actor obs)
    (hmin₁ : ∀ k (T : S → Fin (m + 1) → ℝ), expectedLoss b (nets k) gamma alpha weight (tableNet (Q₁ (k + 1))) ≤
      expectedLoss b (nets k) gamma alpha weight (tableNet T))
    (hmin₂ : ∀ k (T : S → Fin (m + 1) → ℝ), expectedLoss b (nets k) gamma alpha weight (tableNet (Q₂ (k + 1))) ≤
      expectedLoss b (nets k) gamma alpha weight (tableNet T))
    (O : S → Fin (m + 1) → ℝ) (hO : SoftOptimal e gamma alpha O) (k : Nat) :
    ∀ s a, |Q₁ k s a - O s a| ≤ gamma ^ k * max (dist (Q₁ 0) O) (dist (Q₂ 0) O) ∧
      |Q₂ k s a - O s a| ≤ gamma ^ k * max (dist (Q₁ 0) O) (dist (Q₂ 0) O) := by
  have hB : ∀ k, Boltzmann alpha (lower (Q₁ k) (Q₂ k)) (nets k).actor := by
    intro k
    have h0 := boltzmann_logits alpha (lower (Q₁ k) (Q₂ k))
    have h3 := C242_actor (nets k) (Q₁ k) (Q₂ k) (h₁ k).1 (h₂ k).1 alpha ha _ (nets k).actor h0 (hlen k) obs
    have h4 := hactor k (tableNet fun s a => lower (Q₁ k) (Q₂ k) s a / alpha) (by simp [tableNet])
    have h5 := h3.2.mp (le_antisymm h4 h3.1)
    intro s
    rw [h5 s (hobs s), h0 s]
  have s₁ : ∀ k, Q₁ (k + 1) = softBackup e gamma alpha (lower (Q₁ k) (Q₂ k)) := fun k =>
    minimiser e he b hP weight hw hc (nets k) (Q₁ k) (Q₂ k) (h₁ k).2 (h₂ k).2 gamma alpha ha (hB k) _ (hmin₁ k)
  have s₂ : ∀ k, Q₂ (k + 1) = softBackup e gamma alpha (lower (Q₁ k) (Q₂ k)) := fun k =>
    minimiser e he b hP weight hw hc (nets k) (Q₁ k) (Q₂ k) (h₁ k).2 (h₂ k).2 gamma alpha ha (hB k) _ (hmin₂ k)
  have hOb : softBackup e gamma alpha O = O := by
    funext s a
    exact (hO s a).symm
  have hd : max (dist (Q₁ k) O) (dist (Q₂ k) O) ≤ gamma ^ k * max (dist (Q₁ 0) O) (dist (Q₂ 0) O) := by
    induction k with
    | zero => simp
    | succ k ih =>
      rw [s₁ k, s₂ k, max_self]
      nth_rewrite 1 [← hOb]
      calc dist (softBackup e gamma alpha (lower (Q₁ k) (Q₂ k))) (softBackup e gamma alpha O)
          ≤ gamma * dist (lower (Q₁ k) (Q₂ k)) O := softBackup_dist e he hp gamma alpha hg ha _ _
        _ ≤ gamma * max (dist (Q₁ k) O) (dist (Q₂ k) O) := mul_le_mul_of_nonneg_left (lower_dist _ _ _) hg
        _ ≤ gamma * (gamma ^ k * max (dist (Q₁ 0) O) (dist (Q₂ 0) O)) := mul_le_mul_of_nonneg_left ih hg
        _ = gamma ^ (k + 1) * max (dist (Q₁ 0) O) (dist (Q₂ 0) O) := by ring
  intro s a
  have e₁ := (dist_le_pi_dist (Q₁ k s) (O s) a).trans (dist_le_pi_dist (Q₁ k) O s)
  have e₂ := (dist_le_pi_dist (Q₂ k s) (O s) a).trans (dist_le_pi_dist (Q₂ k) O s)
  rw [Real.dist_eq] at e₁ e₂
  exact ⟨e₁.trans ((le_max_left _ _).trans hd), e₂.trans ((le_max_right _ _).trans hd)⟩

/-! ### Cases -/

/-- Two critics that differ in three states; the smaller values are 0, 1; 1, 0 and 0, 0. -/
def exQ₁ (s : Fin 3) (a : Fin 2) : ℝ := if s = 0 then (if a = 0 then 0 else 4) else if s = 1 then 1 else 0
def exQ₂ (s : Fin 3) (a : Fin 2) : ℝ := if s = 0 then 1 else if s = 1 then (if a = 0 then 7 else 0) else 0

/-- The best actor for these critics at the temperature 2 is strictly better than the uniform one on a batch with the first state, and as good on one without the first
two. -/
example (actor old : Fin 3 → List ℝ) :
    actorLoss ⟨actor, tableNet exQ₁, tableNet exQ₂, old, old⟩ 2 (tableNet fun s a => lower exQ₁ exQ₂ s a / 2) [2, 0] <
        actorLoss ⟨actor, tableNet exQ₁, tableNet exQ₂, old, old⟩ 2 (fun _ => [0, 0]) [2, 0] ∧
      actorLoss ⟨actor, tableNet exQ₁, tableNet exQ₂, old, old⟩ 2 (fun _ => [0, 0]) [2] =
        actorLoss ⟨actor, tableNet exQ₁, tableNet exQ₂, old, old⟩ 2 (tableNet fun s a => lower exQ₁ exQ₂ s a / 2) [2] := by
  have h := C242_actor ⟨actor, tableNet exQ₁, tableNet exQ₂, old, old⟩ exQ₁ exQ₂ rfl rfl 2 two_pos _ (fun _ => [0, 0])
    (boltzmann_logits 2 (lower exQ₁ exQ₂)) (fun _ => rfl)
  constructor
  · refine lt_of_le_of_ne (h [2, 0]).1 fun heq => ?_
    have h0 := (h [2, 0]).2.mp heq.symm 0 (by simp)
    simp only [tableNet, List.ofFn_succ, List.ofFn_zero, lower, exQ₁, exQ₂, softmax] at h0
    norm_num at h0
    have h1 : Real.exp (1 / 2) ≠ 1 := by
      rw [Ne, Real.exp_eq_one_iff]
      norm_num
    have h2 : (0 : ℝ) < 1 + Real.exp (1 / 2) := by positivity
    have h3 := h0.1
    field_simp at h3
    apply h1
    linarith
  · refine (h [2]).2.mpr fun s hs => ?_
    rw [List.mem_singleton] at hs
    subst hs
    simp [tableNet, List.ofFn_succ, lower, exQ₁, exQ₂, softmax]

/-- The soft optimal values of the environment `delayed` for the discount factor 1/2: in the first step they are larger than the optimal ones, for the entropy of the
second. -/
noncomputable def delayedSoft (alpha : ℝ) (s : Bool) (a : Fin 2) : ℝ :=
  if s then (if a = 1 then 1 else 0) else 1 / 2 * (alpha * Real.log (1 + Real.exp (1 / alpha)))

theorem delayed_soft (alpha : ℝ) : SoftOptimal QLearning.delayed (1 / 2) alpha (delayedSoft alpha) := by
  intro s a
  cases s <;> simp [softBackup, softStep, softBest, QLearning.delayed, delayedSoft]

example (alpha : ℝ) (ha : 0 < alpha) :
    1 / 2 ≤ 1 / 2 * (alpha * Real.log (1 + Real.exp (1 / alpha))) ∧
      1 / 2 * (alpha * Real.log (1 + Real.exp (1 / alpha))) ≤ 1 / 2 + 1 / 2 * (alpha * Real.log ((1 : ℕ) + 1)) / (1 - 1 / 2) := by
  have h := C242_temperature QLearning.delayed QLearning.delayed_ok (fun _ _ s' => by cases s' <;> simp [QLearning.delayed]) (1 / 2) alpha (by norm_num)
    (by norm_num) ha _ _ (delayed_soft alpha) QLearning.delayed_optimal false 0
  simpa [delayedSoft, QLearning.delayedValue] using h

/-- The hypotheses of `C242_only` hold for single transitions and the best actor. -/
example (e : Env S (Fin (m + 1))) (he : e.Ok) (gamma alpha : ℝ) (ha : 0 < alpha) (Q₁ Q₂ : S → Fin (m + 1) → ℝ) :
    (∀ x, gradient (QLearning.single e he x) ⟨tableNet fun s a => lower Q₁ Q₂ s a / alpha, tableNet Q₁, tableNet Q₂, tableNet Q₁, tableNet Q₂⟩ gamma alpha (fun _ => 1)
        (fun t => tableNet (raise Q₁ x t)) 0 = 0 ∧
      gradient (QLearning.single e he x) ⟨tableNet fun s a => lower Q₁ Q₂ s a / alpha, tableNet Q₁, tableNet Q₂, tableNet Q₁, tableNet Q₂⟩ gamma alpha (fun _ => 1)
        (fun t => tableNet (raise Q₂ x t)) 0 = 0) ↔ Q₁ = Q₂ ∧ SoftOptimal e gamma alpha Q₁ :=
  C242_only e he (QLearning.single e he) (fun _ _ _ => rfl) (fun x => he.next x.1 x.2) gamma alpha ha _ Q₁ Q₂ rfl rfl rfl rfl Finset.univ.toList (by simp)
    (fun _ => by simp [tableNet])
    (fun actor hl => (C242_actor _ Q₁ Q₂ rfl rfl alpha ha _ actor (boltzmann_logits alpha (lower Q₁ Q₂)) hl _).1)

/-- The tables of the rounds of `C242_converges` for the lottery, started from two different tables. -/
noncomputable def rounds (Q₁ Q₂ : Bool → Fin 1 → ℝ) : Nat → (Bool → Fin 1 → ℝ) × (Bool → Fin 1 → ℝ)
  | 0 => (Q₁, Q₂)
  | k + 1 => (softBackup QLearning.lottery (1 / 2) 3 (lower (rounds Q₁ Q₂ k).1 (rounds Q₁ Q₂ k).2),
      softBackup QLearning.lottery (1 / 2) 3 (lower (rounds Q₁ Q₂ k).1 (rounds Q₁ Q₂ k).2))

example (Q₁ Q₂ : Bool → Fin 1 → ℝ) (k : Nat) :
    ∀ s a, |(rounds Q₁ Q₂ k).1 s a - 2| ≤ (1 / 2) ^ k * max (dist Q₁ QLearning.two) (dist Q₂ QLearning.two) ∧
      |(rounds Q₁ Q₂ k).2 s a - 2| ≤ (1 / 2) ^ k * max (dist Q₁ QLearning.two) (dist Q₂ QLearning.two) := by
  have hP : ∀ ω, 0 ≤ QLearning.lotteryBatches.P ω := by
    rintro ⟨a, b⟩
    cases b <;> norm_num [QLearning.lotteryBatches, QLearning.lottery]
  have hmin : ∀ k (T : Bool → Fin 1 → ℝ), expectedLoss QLearning.lotteryBatches ⟨tableNet fun s a => lower (rounds Q₁ Q₂ k).1 (rounds Q₁ Q₂ k).2 s a / 3,
      tableNet (rounds Q₁ Q₂ k).1, tableNet (rounds Q₁ Q₂ k).2, tableNet (rounds Q₁ Q₂ k).1, tableNet (rounds Q₁ Q₂ k).2⟩ (1 / 2) 3 (fun _ => 1)
        (tableNet (softBackup QLearning.lottery (1 / 2) 3 (lower (rounds Q₁ Q₂ k).1 (rounds Q₁ Q₂ k).2))) ≤
      expectedLoss QLearning.lotteryBatches ⟨tableNet fun s a => lower (rounds Q₁ Q₂ k).1 (rounds Q₁ Q₂ k).2 s a / 3,
      tableNet (rounds Q₁ Q₂ k).1, tableNet (rounds Q₁ Q₂ k).2, tableNet (rounds Q₁ Q₂ k).1, tableNet (rounds Q₁ Q₂ k).2⟩ (1 / 2) 3 (fun _ => 1) (tableNet T) := by
    intro k T
    rw [← sub_nonneg, expectedLoss_sub QLearning.lottery QLearning.lottery_ok QLearning.lotteryBatches _ (rounds Q₁ Q₂ k).1 (rounds Q₁ Q₂ k).2 rfl rfl (1 / 2) 3
      (by norm_num) (boltzmann_logits 3 _)]
    exact Finset.sum_nonneg fun ω _ => mul_nonneg (hP ω) (div_nonneg (Finset.sum_nonneg fun p _ => mul_nonneg (sq_nonneg _) zero_le_one) (Nat.cast_nonneg _))
  exact C242_converges QLearning.lottery QLearning.lottery_ok (fun _ _ s' => by cases s' <;> norm_num [QLearning.lottery]) (1 / 2) 3 (by norm_num)
    (by norm_num) QLearning.lotteryBatches hP (fun _ => 1) (fun _ => zero_le_one)
    (by
      rintro ⟨s, a⟩
      refine ⟨(s, true), 0, ?_, one_pos, ?_⟩
      · simp [QLearning.lotteryBatches, QLearning.lottery]
      · simp only [QLearning.lotteryBatches, Prod.mk.injEq, true_and]
        exact (Fin.fin_one_eq_zero a).symm)
    (fun k => (rounds Q₁ Q₂ k).1) (fun k => (rounds Q₁ Q₂ k).2)
    (fun k => ⟨tableNet fun s a => lower (rounds Q₁ Q₂ k).1 (rounds Q₁ Q₂ k).2 s a / 3, tableNet (rounds Q₁ Q₂ k).1, tableNet (rounds Q₁ Q₂ k).2,
      tableNet (rounds Q₁ Q₂ k).1, tableNet (rounds Q₁ Q₂ k).2⟩)
    (fun _ => ⟨rfl, rfl⟩) (fun _ => ⟨rfl, rfl⟩) [true, false] (by decide) (fun _ _ => by simp [tableNet])
    (fun k actor hl => (C242_actor _ _ _ rfl rfl 3 (by norm_num) _ actor (boltzmann_logits 3 _) hl _).1)
    (fun k T => hmin k T) (fun k T => hmin k T) QLearning.two
    (fun s a => by simp [softBackup, softStep, QLearning.lottery, QLearning.two]; norm_num) k

end Verif.SoftQ
