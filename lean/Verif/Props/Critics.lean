import Verif.Model.Critics
import Verif.Props.SoftQ
import Verif.Props.Advantage

/-!
C248: the critics of DDPG and TD3 learn the values of the policy.
-/

namespace Verif.Critics

open Verif.QTarget Verif.Returns Verif.ActorCritic Verif.PolicyGradient Verif.QLearning Verif.Policy

set_option linter.unusedSectionVars false

variable {N m : Nat} {Ω Ξ : Type} [Fintype Ω] [Fintype Ξ]

/-! ### Specification -/

/-- The parameters of a network: a list of rows. -/
abbrev Weights := List (List ℝ)

/-- The parameters of a critic that has one for each state and action. -/
def table (T : Fin N → Fin (m + 1) → ℝ) : Weights := List.ofFn fun s => List.ofFn (T s)

open Classical in
/-- This critic, if `act` are the actions. -/
noncomputable def criticOf (act : Fin (m + 1) → List ℝ) (w : Weights) (s : Fin N) (a : List ℝ) : ℝ :=
  if h : ∃ i, act i = a then (w.getD s []).getD h.choose 0 else 0

/-- An actor whose parameters are the actions. -/
def actorOf (w : Weights) (s : Fin N) : List ℝ := w.getD s []

/-- `soft_update` of a network by another. -/
noncomputable def soft (tau : ℝ) (old new : Weights) : Weights := (softUpdate tau old new).1

/-- A random batch for TD3: besides the next states, for each row some noise is drawn, `ξ` with probability `prob ξ` whatever else is in the batch. -/
structure Noisy (e : Env (Fin N) (Fin (m + 1))) (Ω : Type) [Fintype Ω] (Ξ : Type) [Fintype Ξ] (prob : Ξ → ℝ) (n : Nat) extends Batches e Ω n where
  noise : Ω → Fin n → Ξ
  independent : ∀ (p : Fin n) (f : Fin N × Fin (m + 1) → Fin N → Ξ → ℝ), ∑ ω, P ω * f (pair ω p) (nexts ω p) (noise ω p) =
    ∑ ω, P ω * ∑ s', e.next (pair ω p).1 (pair ω p).2 s' * ∑ ξ, prob ξ * f (pair ω p) s' ξ

/-- The expected loss of a critic (one-step returns), if the targets are computed from the networks of `s`: DDPG. -/
noncomputable def ddpgLoss {e : Env (Fin N) (Fin (m + 1))} {n : Nat} (b : Batches e Ω n) (act : Fin (m + 1) → List ℝ) (gamma : ℝ) (weight : Fin n → ℝ)
    (s : ActorCritic.Nets Weights) (critic : Weights) : ℝ :=
  ∑ ω, b.P ω * (loss (ddpgTargetQ (actorOf (N := N) s.actorOld) (criticOf act s.criticOld)) (criticOf act critic) (b.view ω) (b.inputs ω)
    (List.ofFn fun p => (b.pair ω p).1) (List.ofFn fun p => act (b.pair ω p).2) (List.ofFn (b.index ω)) gamma 1 (List.ofFn weight)).getD 0

/-- TD3. `rand ξ` are the standard normal numbers that make the noise `ξ`. -/
noncomputable def td3Loss {e : Env (Fin N) (Fin (m + 1))} {prob : Ξ → ℝ} {n : Nat} (b : Noisy e Ω Ξ prob n) (rand : Ξ → List ℝ) (policyNoise noiseClip : ℝ)
    (act : Fin (m + 1) → List ℝ) (gamma : ℝ) (weight : Fin n → ℝ) (s : ActorCritic.Nets Weights) (critic : Weights) : ℝ :=
  ∑ ω, b.P ω * (loss (td3TargetQ (actorOf (N := N) s.actorOld) (criticOf act s.criticOld) (criticOf act s.critic2Old) policyNoise noiseClip
      (List.ofFn fun p => rand (b.noise ω p))) (criticOf act critic) (b.view ω) (b.inputs ω)
    (List.ofFn fun p => (b.pair ω p).1) (List.ofFn fun p => act (b.pair ω p).2) (List.ofFn (b.index ω)) gamma 1 (List.ofFn weight)).getD 0

/-- The critic with parameters `w` has the smallest loss among all tables. -/
def Fits (L : Weights → ℝ) (N m : Nat) (w : Weights) : Prop :=
  ∃ T : Fin N → Fin (m + 1) → ℝ, w = table T ∧ ∀ T' : Fin N → Fin (m + 1) → ℝ, L (table T) ≤ L (table T')

/-- The value that a critic gives to an action. -/
noncomputable def valueOf (w : Weights) (s : Fin N) (a : Fin (m + 1)) : ℝ := (w.getD s []).getD a 0

/-- The policy that takes action `choice s` in state `s`. -/
def acts (choice : Fin N → Fin (m + 1)) (s : Fin N) (a : Fin (m + 1)) : ℝ := if choice s = a then 1 else 0

/-- The policy that takes action `moved s ξ` with the probability of `ξ`. -/
def smoothed (prob : Ξ → ℝ) (moved : Fin N → Ξ → Fin (m + 1)) (s : Fin N) (a : Fin (m + 1)) : ℝ := ∑ ξ, if moved s ξ = a then prob ξ else 0

/-! ### Tables -/

theorem table_row (T : Fin N → Fin (m + 1) → ℝ) (s : Fin N) : (table T).getD s [] = List.ofFn (T s) := by
  unfold table
  rw [List.getD_eq_getElem?_getD, List.getElem?_eq_getElem (by simp)]
  simp

theorem valueOf_table (T : Fin N → Fin (m + 1) → ℝ) (s : Fin N) (a : Fin (m + 1)) : valueOf (table T) s a = T s a := by
  unfold valueOf
  rw [table_row]
  exact table_getD T s a

theorem criticOf_table (act : Fin (m + 1) → List ℝ) (ha : Function.Injective act) (T : Fin N → Fin (m + 1) → ℝ) (s : Fin N) (a : Fin (m + 1)) :
    criticOf act (table T) s (act a) = T s a := by
  have h : ∃ i, act i = act a := ⟨a, rfl⟩
  unfold criticOf
  rw [dif_pos h, ha h.choose_spec]
  exact valueOf_table T s a

theorem table_inj {T T' : Fin N → Fin (m + 1) → ℝ} (h : table T = table T') : T = T' := by
  funext s a
  rw [← valueOf_table T, h, valueOf_table]

theorem softUpdate_zip (tau : ℝ) (ts ss : Weights) (h : ts.length = ss.length) : (softUpdate tau ts ss).1 = List.zipWith (softUpdate1 tau) ts ss := by
  induction ts generalizing ss with
  | nil =>
    cases ss with
    | nil => rfl
    | cons a l => cases h
  | cons a l ih =>
    cases ss with
    | nil => cases h
    | cons b ss =>
      simp only [softUpdate, List.zipWith_cons_cons]
      rw [ih ss (by simpa using h)]

theorem soft_table (tau : ℝ) (T T' : Fin N → Fin (m + 1) → ℝ) : soft tau (table T) (table T') = table fun s a => tau * T' s a + (1 - tau) * T s a := by
  unfold soft
  rw [softUpdate_zip _ _ _ (by simp [table])]
  unfold table
  rw [zipWith_ofFn]
  congr 1
  funext s
  unfold softUpdate1
  rw [zipWith_ofFn]

theorem soft_self (tau : ℝ) (w : Weights) : soft tau w w = w := by
  unfold soft
  rw [softUpdate_zip _ _ _ rfl, List.zipWith_self]
  have : (fun a => softUpdate1 tau a a) = fun a => a := by
    funext l
    unfold softUpdate1
    rw [List.zipWith_self]
    have : (fun a : ℝ => tau * a + (1 - tau) * a) = fun a => a := by
      funext a
      ring
    rw [this, List.map_id']
  rw [this, List.map_id']

/-! ### Regression -/

/-- The mean square error compared with that of the conditional expectations. -/
theorem regression_sub {I : Type} {n : Nat} (P : Ω → ℝ) (pair : Ω → Fin n → I) (y : Ω → Fin n → ℝ) (weight : Fin n → ℝ) (T : I → ℝ)
    (hT : ∀ p (g : I → ℝ), ∑ ω, P ω * ((y ω p - T (pair ω p)) * g (pair ω p)) = 0) (Q : I → ℝ) :
    ∑ ω, P ω * ((∑ p, (Q (pair ω p) - y ω p) ^ 2 * weight p) / n) - ∑ ω, P ω * ((∑ p, (T (pair ω p) - y ω p) ^ 2 * weight p) / n) =
      ∑ ω, P ω * ((∑ p, (Q (pair ω p) - T (pair ω p)) ^ 2 * weight p) / n) := by
  rw [← Finset.sum_sub_distrib, ← sub_eq_zero, ← Finset.sum_sub_distrib]
  have : (∑ p, ∑ ω, P ω * ((y ω p - T (pair ω p)) * (-2 * (Q (pair ω p) - T (pair ω p)) * weight p))) / n = 0 := by
    rw [Finset.sum_eq_zero fun p _ => hT p fun x => -2 * (Q x - T x) * weight p, zero_div]
  rw [← this, Finset.sum_comm, Finset.sum_div]
  refine Finset.sum_congr rfl fun ω _ => ?_
  rw [← Finset.mul_sum, ← mul_sub, ← mul_sub, mul_div_assoc, ← sub_div, ← sub_div, ← Finset.sum_sub_distrib, ← Finset.sum_sub_distrib]
  congr 2
  refine Finset.sum_congr rfl fun p _ => ?_
  ring

/-- It is smallest there, and nowhere else. -/
theorem regression {I : Type} {n : Nat} (P : Ω → ℝ) (hP : ∀ ω, 0 ≤ P ω) (pair : Ω → Fin n → I) (y : Ω → Fin n → ℝ) (weight : Fin n → ℝ)
    (hw : ∀ p, 0 ≤ weight p) (T : I → ℝ) (hT : ∀ p (g : I → ℝ), ∑ ω, P ω * ((y ω p - T (pair ω p)) * g (pair ω p)) = 0) (Q : I → ℝ) :
    ∑ ω, P ω * ((∑ p, (T (pair ω p) - y ω p) ^ 2 * weight p) / n) ≤ ∑ ω, P ω * ((∑ p, (Q (pair ω p) - y ω p) ^ 2 * weight p) / n) ∧
    ((∀ x, ∃ ω p, 0 < P ω ∧ 0 < weight p ∧ pair ω p = x) →
      ∑ ω, P ω * ((∑ p, (Q (pair ω p) - y ω p) ^ 2 * weight p) / n) ≤ ∑ ω, P ω * ((∑ p, (T (pair ω p) - y ω p) ^ 2 * weight p) / n) → Q = T) := by
  have h1 := regression_sub P pair y weight T hT Q
  have hnn : ∀ ω p, 0 ≤ (Q (pair ω p) - T (pair ω p)) ^ 2 * weight p := fun ω p => mul_nonneg (sq_nonneg _) (hw p)
  have hnn2 : ∀ ω ∈ Finset.univ, 0 ≤ P ω * ((∑ p, (Q (pair ω p) - T (pair ω p)) ^ 2 * weight p) / n) :=
    fun ω _ => mul_nonneg (hP ω) (div_nonneg (Finset.sum_nonneg fun p _ => hnn ω p) (Nat.cast_nonneg n))
  refine ⟨by linarith [Finset.sum_nonneg hnn2], fun hc hmin => ?_⟩
  have h3 := (Finset.sum_eq_zero_iff_of_nonneg hnn2).mp (le_antisymm (by rw [← h1]; linarith) (Finset.sum_nonneg hnn2))
  funext x
  obtain ⟨ω, p, hω, hwp, hx⟩ := hc x
  have h4 := h3 ω (Finset.mem_univ ω)
  have hn : (n : ℝ) ≠ 0 := by
    have : 0 < n := Fin.pos p
    exact_mod_cast this.ne'
  have h5 : ∑ p, (Q (pair ω p) - T (pair ω p)) ^ 2 * weight p = 0 := by
    rcases mul_eq_zero.mp h4 with h | h
    · exact absurd h hω.ne'
    · rcases div_eq_zero_iff.mp h with h | h
      · exact h
      · exact absurd h hn
  have h6 := (Finset.sum_eq_zero_iff_of_nonneg fun p _ => hnn ω p).mp h5 p (Finset.mem_univ p)
  rcases mul_eq_zero.mp h6 with h | h
  · have := pow_eq_zero_iff (two_ne_zero) |>.mp h
    rw [hx] at this
    exact sub_eq_zero.mp this
  · exact absurd h hwp.ne'

/-! ### Targets -/

theorem returns_rows (targetQ : List Nat → List (List ℝ)) (w : View ℝ) {n : Nat} (index : Fin n → Nat) (v : Fin n → ℝ)
    (h : targetQ (List.ofFn index) = List.ofFn fun p => [v p]) (gamma : ℝ) :
    computeNstepReturn w (List.ofFn index).length (List.ofFn index) targetQ gamma 1 =
      some (List.ofFn fun p => [w.rew (index p) + gamma * if w.terminated (index p) then 0 else v p]) := by
  unfold computeNstepReturn
  rw [if_neg (by simp)]
  have hcol : ∀ i, (stackedColumn w.next i (1 - 1)) = [i] := fun i => rfl
  have hafter : (((List.ofFn index).map fun i => stackedColumn w.next i (1 - 1)).map fun col => col.getLastD 0) = List.ofFn index := by
    rw [List.map_map]
    simp only [hcol]
    exact List.map_id' _
  simp only [hafter, h, valueMask]
  rw [List.map_ofFn, List.map_ofFn, zipWith_ofFn, zipWith_ofFn]
  congr 2
  funext p
  simp only [Function.comp_apply, hcol, List.map_cons, List.map_nil, List.length_cons, List.length_nil, List.take_succ_cons, List.take_zero, nstepLoop]
  cases w.terminated (index p) <;> cases w.done (index p) || w.unfinished.contains (index p) <;> simp [mask, gammaBuffer] <;> ring

theorem flatten_ofFn {n : Nat} (f : Fin n → ℝ) : (List.ofFn fun p => [f p]).flatten = List.ofFn f := by
  have : (List.ofFn fun p => [f p]) = (List.ofFn f).map fun x => [x] := by
    rw [List.map_ofFn]
    rfl
  rw [this]
  have := flatten_singles (List.ofFn f) (fun x => x)
  rw [this, List.map_id']

theorem loss_rows {e : Env (Fin N) (Fin (m + 1))} {n : Nat} (b : Batches e Ω n) (act : Fin (m + 1) → List ℝ) (ha : Function.Injective act)
    (gamma : ℝ) (weight : Fin n → ℝ) (ω : Ω) (targetQ : List (Fin N) → List ℝ) (v : Fin n → ℝ)
    (h : targetQ (List.ofFn (b.nexts ω)) = List.ofFn v) (T : Fin N → Fin (m + 1) → ℝ) :
    (loss targetQ (criticOf act (table T)) (b.view ω) (b.inputs ω) (List.ofFn fun p => (b.pair ω p).1) (List.ofFn fun p => act (b.pair ω p).2)
      (List.ofFn (b.index ω)) gamma 1 (List.ofFn weight)).getD 0 =
    (∑ p, (T (b.pair ω p).1 (b.pair ω p).2 - (e.rew (b.pair ω p).1 (b.pair ω p).2 (b.nexts ω p) +
      gamma * if e.ends (b.pair ω p).1 (b.pair ω p).2 (b.nexts ω p) then 0 else v p)) ^ 2 * weight p) / n := by
  unfold loss returns
  rw [returns_rows _ _ _ v (by
    rw [List.map_ofFn]
    have : b.inputs ω ∘ b.index ω = b.nexts ω := funext (b.next ω)
    rw [this, h, List.map_ofFn]
    rfl)]
  simp only [Option.map_some, Option.getD_some, flatten_ofFn]
  unfold criticLoss List.zip
  rw [zipWith_ofFn, zipWith_ofFn, zipWith_ofFn, mean_ofFn]
  congr 1
  refine Finset.sum_congr rfl fun p _ => ?_
  simp only [criticOf_table act ha, b.rew, b.terminated]

/-- What a critic learns that is trained with the values `V` of the next states. -/
theorem noisy_fits (e : Env (Fin N) (Fin (m + 1))) (he : e.Ok) {prob : Ξ → ℝ} (hprob : ∑ ξ, prob ξ = 1) {n : Nat} (b : Noisy e Ω Ξ prob n)
    (hP : ∀ ω, 0 ≤ b.P ω) (gamma : ℝ) (weight : Fin n → ℝ) (hw : ∀ p, 0 ≤ weight p)
    (V : Fin N → Ξ → ℝ) (L : Weights → ℝ)
    (hL : ∀ T : Fin N → Fin (m + 1) → ℝ, L (table T) = ∑ ω, b.P ω * ((∑ p,
      (T (b.pair ω p).1 (b.pair ω p).2 - (e.rew (b.pair ω p).1 (b.pair ω p).2 (b.nexts ω p) + gamma *
        if e.ends (b.pair ω p).1 (b.pair ω p).2 (b.nexts ω p) then 0 else V (b.nexts ω p) (b.noise ω p))) ^ 2 * weight p) / n))
    : Fits L N m (table (actionValue e gamma fun x => ∑ ξ, prob ξ * V x ξ)) ∧ ((∀ x, ∃ ω p, 0 < b.P ω ∧ 0 < weight p ∧ b.pair ω p = x) → ∀ w, Fits L N m w →
      w = table (actionValue e gamma fun x => ∑ ξ, prob ξ * V x ξ)) := by
  generalize hA : actionValue e gamma (fun x => ∑ ξ, prob ξ * V x ξ) = A
  have key := regression b.P hP b.pair (fun ω p => e.rew (b.pair ω p).1 (b.pair ω p).2 (b.nexts ω p) + gamma *
        if e.ends (b.pair ω p).1 (b.pair ω p).2 (b.nexts ω p) then 0 else V (b.nexts ω p) (b.noise ω p)) weight hw (fun x => A x.1 x.2) (fun p g => by
      have h3 := b.independent p fun x s' ξ => (e.rew x.1 x.2 s' + gamma * (if e.ends x.1 x.2 s' then 0 else V s' ξ) - A x.1 x.2) * g x
      refine h3.trans (Finset.sum_eq_zero fun ω _ => ?_)
      generalize b.pair ω p = x
      have h4 : ∀ s', ∑ ξ, prob ξ * ((e.rew x.1 x.2 s' + gamma * (if e.ends x.1 x.2 s' then 0 else V s' ξ) - A x.1 x.2) * g x) =
          (e.rew x.1 x.2 s' + gamma * (if e.ends x.1 x.2 s' then 0 else ∑ ξ, prob ξ * V s' ξ) - A x.1 x.2) * g x := by
        intro s'
        by_cases h : e.ends x.1 x.2 s' = true
        · simp only [if_pos h, ← Finset.sum_mul, hprob, one_mul]
        · simp only [if_neg h]
          have h5 : ∀ ξ, prob ξ * ((e.rew x.1 x.2 s' + gamma * V s' ξ - A x.1 x.2) * g x) =
              prob ξ * ((e.rew x.1 x.2 s' - A x.1 x.2) * g x) + (gamma * g x) * (prob ξ * V s' ξ) := fun ξ => by ring
          rw [Finset.sum_congr rfl fun ξ _ => h5 ξ, Finset.sum_add_distrib, ← Finset.sum_mul, ← Finset.mul_sum, hprob]
          ring
      simp only [h4]
      have h7 : ∑ s', e.next x.1 x.2 s' * ((e.rew x.1 x.2 s' + gamma * (if e.ends x.1 x.2 s' then 0 else ∑ ξ, prob ξ * V s' ξ) - A x.1 x.2) * g x) =
          (∑ s', e.next x.1 x.2 s' * (e.rew x.1 x.2 s' + gamma * (if e.ends x.1 x.2 s' then 0 else ∑ ξ, prob ξ * V s' ξ)) -
          (∑ s', e.next x.1 x.2 s') * A x.1 x.2) * g x := by
        rw [Finset.sum_mul, ← Finset.sum_sub_distrib, Finset.sum_mul]
        exact Finset.sum_congr rfl fun s' _ => by ring
      rw [h7, he.next, one_mul, ← hA]
      unfold actionValue
      rw [sub_self, zero_mul, mul_zero])
  refine ⟨⟨A, rfl, fun T' => ?_⟩, ?_⟩
  · rw [hL, hL]
    exact (key fun x => T' x.1 x.2).1
  · rintro hc w ⟨T, rfl, hT⟩
    congr 1
    have := (key fun x => T x.1 x.2).2 hc (by
      have h8 := hT A
      rw [hL, hL] at h8
      exact h8)
    funext s a
    exact congrFun this (s, a)

/-- Twin critics. -/
theorem td3_fits (e : Env (Fin N) (Fin (m + 1))) (he : e.Ok) {prob : Ξ → ℝ} (hprob : ∑ ξ, prob ξ = 1) {n : Nat} (b : Noisy e Ω Ξ prob n)
    (hP : ∀ ω, 0 ≤ b.P ω) (rand : Ξ → List ℝ) (pn nc : ℝ) (act : Fin (m + 1) → List ℝ) (ha : Function.Injective act) (gamma : ℝ) (weight : Fin n → ℝ)
    (hw : ∀ p, 0 ≤ weight p) (s : ActorCritic.Nets Weights) (moved : Fin N → Ξ → Fin (m + 1))
    (hm : ∀ x ξ, td3Act pn nc (actorOf s.actorOld x) (rand ξ) = act (moved x ξ)) (Q₁ Q₂ : Fin N → Fin (m + 1) → ℝ) (h₁ : s.criticOld = table Q₁)
    (h₂ : s.critic2Old = table Q₂) :
    Fits (td3Loss b rand pn nc act gamma weight s) N m
      (table (actionValue e gamma fun x => ∑ ξ, prob ξ * min (Q₁ x (moved x ξ)) (Q₂ x (moved x ξ)))) ∧
    ((∀ x, ∃ ω p, 0 < b.P ω ∧ 0 < weight p ∧ b.pair ω p = x) → ∀ w, Fits (td3Loss b rand pn nc act gamma weight s) N m w →
      w = table (actionValue e gamma fun x => ∑ ξ, prob ξ * min (Q₁ x (moved x ξ)) (Q₂ x (moved x ξ)))) := by
  refine noisy_fits e he hprob b hP gamma weight hw (fun x ξ => min (Q₁ x (moved x ξ)) (Q₂ x (moved x ξ))) _ (fun T => ?_)
  unfold td3Loss
  refine Finset.sum_congr rfl fun ω _ => ?_
  rw [loss_rows b.toBatches act ha gamma weight ω _ (fun p =>
    min (Q₁ (b.nexts ω p) (moved (b.nexts ω p) (b.noise ω p))) (Q₂ (b.nexts ω p) (moved (b.nexts ω p) (b.noise ω p)))) (by
      unfold td3TargetQ
      rw [zipWith_ofFn]
      congr 1
      funext p
      unfold td3Target
      simp only [hm, h₁, h₂, criticOf_table act ha])]

/-- A single critic. -/
theorem ddpg_fits (e : Env (Fin N) (Fin (m + 1))) (he : e.Ok) {n : Nat} (b : Batches e Ω n) (hP : ∀ ω, 0 ≤ b.P ω)
    (act : Fin (m + 1) → List ℝ) (ha : Function.Injective act) (gamma : ℝ) (weight : Fin n → ℝ)
    (hw : ∀ p, 0 ≤ weight p) (s : ActorCritic.Nets Weights) (choice : Fin N → Fin (m + 1))
    (hm : ∀ x, actorOf s.actorOld x = act (choice x)) (Q : Fin N → Fin (m + 1) → ℝ) (h : s.criticOld = table Q) :
    Fits (ddpgLoss b act gamma weight s) N m (table (actionValue e gamma fun x => Q x (choice x))) ∧
    ((∀ x, ∃ ω p, 0 < b.P ω ∧ 0 < weight p ∧ b.pair ω p = x) → ∀ w, Fits (ddpgLoss b act gamma weight s) N m w →
      w = table (actionValue e gamma fun x => Q x (choice x))) := by
  have := noisy_fits e he (prob := fun _ : Unit => 1) (by simp) ⟨b, fun _ _ => (), fun p f => by
    have := b.drawn p fun x s' => f x s' ()
    simpa using this⟩ hP gamma weight hw (fun x _ => Q x (choice x)) (ddpgLoss b act gamma weight s) (fun T => by
      unfold ddpgLoss
      refine Finset.sum_congr rfl fun ω _ => ?_
      rw [loss_rows b act ha gamma weight ω _ (fun p => Q (b.nexts ω p) (choice (b.nexts ω p))) (by
        unfold ddpgTargetQ
        rw [List.map_ofFn]
        congr 1
        funext p
        simp only [Function.comp_apply, hm, h, criticOf_table act ha])])
  simpa using this

/-! ### Contraction -/

theorem actionValue_dist (e : Env (Fin N) (Fin (m + 1))) (he : e.Ok) (hp : ∀ s a s', 0 ≤ e.next s a s') (gamma : ℝ) (hg : 0 ≤ gamma)
    (v v' : Fin N → ℝ) (d : ℝ) (hd : 0 ≤ d) (hv : ∀ s, |v s - v' s| ≤ d) : dist (actionValue e gamma v) (actionValue e gamma v') ≤ gamma * d := by
  have h0 : 0 ≤ gamma * d := mul_nonneg hg hd
  refine (dist_pi_le_iff h0).mpr fun s => (dist_pi_le_iff h0).mpr fun a => ?_
  rw [Real.dist_eq]
  exact SoftQ.expect_dist e he hp gamma hg v v' d hd hv s a

theorem entry_dist (Q O : Fin N → Fin (m + 1) → ℝ) (s : Fin N) (a : Fin (m + 1)) : |Q s a - O s a| ≤ dist Q O := by
  have := (dist_le_pi_dist (Q s) (O s) a).trans (dist_le_pi_dist Q O s)
  rwa [Real.dist_eq] at this

/-- The mixture is closer to `O` if the new values are. -/
theorem soft_dist (tau gamma D : ℝ) (ht : 0 ≤ tau) (ht1 : tau ≤ 1) (hD : 0 ≤ D) (hg : 0 ≤ gamma) (T Told O : Fin N → Fin (m + 1) → ℝ) (h1 : dist T O ≤ gamma * D)
    (h2 : dist Told O ≤ D) : dist (fun s a => tau * T s a + (1 - tau) * Told s a) O ≤ (1 - tau * (1 - gamma)) * D := by
  have h0 : 0 ≤ (1 - tau * (1 - gamma)) * D := by
    refine mul_nonneg ?_ hD
    nlinarith
  refine (dist_pi_le_iff h0).mpr fun s => (dist_pi_le_iff h0).mpr fun a => ?_
  rw [Real.dist_eq]
  have e1 := (entry_dist T O s a).trans h1
  have e2 := (entry_dist Told O s a).trans h2
  have : tau * T s a + (1 - tau) * Told s a - O s a = tau * (T s a - O s a) + (1 - tau) * (Told s a - O s a) := by ring
  rw [this]
  refine (abs_add_le _ _).trans ?_
  rw [abs_mul, abs_mul, abs_of_nonneg ht, abs_of_nonneg (by linarith : 0 ≤ 1 - tau)]
  have e3 := mul_le_mul_of_nonneg_left e1 ht
  have e4 := mul_le_mul_of_nonneg_left e2 (by linarith : 0 ≤ 1 - tau)
  linarith

/-! ### C248 -/

/-- **C248: DDPG.** Let `v` be the values of the actor's policy in an environment with finitely many states, and let the critic be a table of values of finitely many
actions, among them those of the actor. If in each call of `learn` the optimiser finds the critic with the smallest expected loss (the batches contain every
state and action with positive probability and weight) and leaves the actor alone, then the distance of the target critic from the values of the actions is
multiplied by at most 1 - tau (1 - gamma) in each call, and that of the critic is smaller than that of the target critic in the call before. -/
theorem C248_ddpg (e : Env (Fin N) (Fin (m + 1))) (he : e.Ok) (hp : ∀ s a s', 0 ≤ e.next s a s') (gamma tau : ℝ) (hg : 0 ≤ gamma) (ht : 0 ≤ tau) (ht1 : tau ≤ 1) {n : Nat} (b : Batches e Ω n) (hP : ∀ ω, 0 ≤ b.P ω) (weight : Fin n → ℝ) (hw : ∀ p, 0 ≤ weight p)
    (hc : ∀ x, ∃ ω p, 0 < b.P ω ∧ 0 < weight p ∧ b.pair ω p = x) (act : Fin (m + 1) → List ℝ) (ha : Function.Injective act)
    (actor critic2 : Weights) (Q : Fin N → Fin (m + 1) → ℝ) (choice : Fin N → Fin (m + 1)) (hactor : ∀ x, actorOf actor x = act (choice x))
    (o : Nat → Opt Weights) (st : Nat → ActorCritic.Nets Weights) (h0 : st 0 = Nets.new actor (table Q) critic2)
    (hst : ∀ k, st (k + 1) = ddpgLearn (soft tau) (o k) (st k)) (ho : ∀ k, (st k).actor = actor)
    (hfit : ∀ k, Fits (ddpgLoss b act gamma weight (st k)) N m (st (k + 1)).critic)
    (v : Fin N → ℝ) (hv : Values e (acts choice) gamma v) (k : Nat) (x : Fin N) (a : Fin (m + 1)) :
    |valueOf (st k).criticOld x a - actionValue e gamma v x a| ≤ (1 - tau * (1 - gamma)) ^ k * dist Q (actionValue e gamma v) ∧
    |valueOf (st (k + 1)).critic x a - actionValue e gamma v x a| ≤ gamma * ((1 - tau * (1 - gamma)) ^ k * dist Q (actionValue e gamma v)) := by
  have hv' : ∀ s, v s = actionValue e gamma v s (choice s) := by
    intro s
    rw [hv s]
    simp [acts]
  have hfac : 0 ≤ 1 - tau * (1 - gamma) := by nlinarith
  generalize hO : actionValue e gamma v = O at *
  have key : ∀ k, (st k).actorOld = actor ∧ ∃ T, (st k).criticOld = table T ∧
      dist T O ≤ (1 - tau * (1 - gamma)) ^ k * dist Q O ∧ (st (k + 1)).critic = table (actionValue e gamma fun x => T x (choice x)) ∧
      dist (actionValue e gamma fun x => T x (choice x)) O ≤ gamma * ((1 - tau * (1 - gamma)) ^ k * dist Q O) := by
    have step : ∀ k T, (st k).actorOld = actor → (st k).criticOld = table T → dist T O ≤ (1 - tau * (1 - gamma)) ^ k * dist Q O →
        (st (k + 1)).critic = table (actionValue e gamma fun x => T x (choice x)) ∧
        dist (actionValue e gamma fun x => T x (choice x)) O ≤ gamma * ((1 - tau * (1 - gamma)) ^ k * dist Q O) := by
      intro k T h1 h2 h3
      refine ⟨?_, ?_⟩
      · exact (ddpg_fits e he b hP act ha gamma weight hw (st k) choice (fun x => by rw [h1, hactor]) T h2).2 hc _ (hfit k)
      · have := actionValue_dist e he hp gamma hg (fun x => T x (choice x)) v _ dist_nonneg fun s => by
          rw [hv' s]
          exact entry_dist T O s (choice s)
        rw [hO] at this
        exact this.trans (mul_le_mul_of_nonneg_left h3 hg)
    intro k
    induction k with
    | zero =>
      refine ⟨by rw [h0]; rfl, Q, by rw [h0]; rfl, by simp, ?_⟩
      exact step 0 Q (by rw [h0]; rfl) (by rw [h0]; rfl) (by simp)
    | succ k ih =>
      obtain ⟨i2, T, i3, i4, i5, i6⟩ := ih
      have j2 : (st (k + 1)).actorOld = actor := by
        have j1 : (st (k + 1)).actorOld = soft tau (st k).actorOld (st (k + 1)).actor := by
          rw [hst k]
          rfl
        rw [j1, ho, i2, soft_self]
      have j3 : (st (k + 1)).criticOld = soft tau (st k).criticOld (st (k + 1)).critic := by
        rw [hst k]
        rfl
      rw [i3, i5, soft_table] at j3
      have j4 := soft_dist tau gamma _ ht ht1 (mul_nonneg (pow_nonneg hfac k) dist_nonneg) hg _ T O i6 i4
      have j5 : (1 - tau * (1 - gamma)) * ((1 - tau * (1 - gamma)) ^ k * dist Q O) = (1 - tau * (1 - gamma)) ^ (k + 1) * dist Q O := by ring
      rw [j5] at j4
      exact ⟨j2, _, j3, j4, step (k + 1) _ j2 j3 j4⟩
  obtain ⟨-, T, h1, h2, h3, h4⟩ := key k
  rw [h1, h3, valueOf_table, valueOf_table]
  exact ⟨(entry_dist _ _ x a).trans h2, (entry_dist _ _ x a).trans h4⟩

/-- TD3's calls of `learn` and of `sync_weight`: the first call synchronises, then every `freq`-th. -/
theorem sync_count (freq : Nat) (hf : 0 < freq) (k : Nat) :
    (k + 1 + (freq - 1)) / freq = (k + (freq - 1)) / freq + if k % freq = 0 then 1 else 0 := by
  have e1 : k + 1 + (freq - 1) = k + freq := by omega
  rw [e1, Nat.add_div_right _ hf]
  have h := Nat.div_add_mod k freq
  have hlt := Nat.mod_lt k hf
  by_cases hk : k % freq = 0
  · rw [if_pos hk]
    congr 1
    refine (Nat.div_eq_of_lt_le ?_ ?_).symm
    · rw [mul_comm]
      omega
    · rw [mul_comm, mul_add]
      omega
  · rw [if_neg hk, add_zero]
    refine (Nat.div_eq_of_lt_le ?_ ?_).symm
    · rw [mul_comm, mul_add]
      omega
    · rw [mul_comm, mul_add, mul_add]
      omega

/-- **C248: TD3.** Likewise for twin critics and an actor whose action, perturbed by the noise `ξ` as in TD3's targets, is the action `moved s ξ`: both critics
approach the values of the policy that perturbs the actor's actions. The targets are synchronised in the first call of `learn` and then in every
`update_actor_freq`-th, so that after `k` calls this has happened `k / update_actor_freq` times, rounded up. -/
theorem C248_td3 (e : Env (Fin N) (Fin (m + 1))) (he : e.Ok) (hp : ∀ s a s', 0 ≤ e.next s a s') (gamma tau : ℝ) (hg : 0 ≤ gamma) (ht : 0 ≤ tau) (ht1 : tau ≤ 1) (prob : Ξ → ℝ) (hprob : ∑ ξ, prob ξ = 1) (hprob0 : ∀ ξ, 0 ≤ prob ξ) {n : Nat} (b : Noisy e Ω Ξ prob n) (hP : ∀ ω, 0 ≤ b.P ω)
    (weight : Fin n → ℝ) (hw : ∀ p, 0 ≤ weight p) (hc : ∀ x, ∃ ω p, 0 < b.P ω ∧ 0 < weight p ∧ b.pair ω p = x) (rand : Ξ → List ℝ) (policyNoise noiseClip : ℝ)
    (act : Fin (m + 1) → List ℝ) (ha : Function.Injective act) (actor : Weights) (Q₁ Q₂ : Fin N → Fin (m + 1) → ℝ) (moved : Fin N → Ξ → Fin (m + 1))
    (hactor : ∀ x ξ, td3Act policyNoise noiseClip (actorOf actor x) (rand ξ) = act (moved x ξ)) (freq : Nat) (hf : 0 < freq)
    (o : Nat → Opt Weights) (st : Nat → ActorCritic.Nets Weights) (h0 : st 0 = Nets.new actor (table Q₁) (table Q₂))
    (hst : ∀ k, st (k + 1) = td3Learn (soft tau) freq (o k) (st k)) (ho : ∀ k, (st k).actor = actor)
    (hfit₁ : ∀ k, Fits (td3Loss b rand policyNoise noiseClip act gamma weight (st k)) N m (st (k + 1)).critic)
    (hfit₂ : ∀ k, Fits (td3Loss b rand policyNoise noiseClip act gamma weight (st k)) N m (st (k + 1)).critic2)
    (v : Fin N → ℝ) (hv : Values e (smoothed prob moved) gamma v) (k : Nat) (x : Fin N) (a : Fin (m + 1)) (D : ℝ)
    (hD : D = max (dist Q₁ (actionValue e gamma v)) (dist Q₂ (actionValue e gamma v))) :
    (|valueOf (st k).criticOld x a - actionValue e gamma v x a| ≤ (1 - tau * (1 - gamma)) ^ ((k + (freq - 1)) / freq) * D ∧
      |valueOf (st k).critic2Old x a - actionValue e gamma v x a| ≤ (1 - tau * (1 - gamma)) ^ ((k + (freq - 1)) / freq) * D) ∧
    (|valueOf (st (k + 1)).critic x a - actionValue e gamma v x a| ≤ gamma * ((1 - tau * (1 - gamma)) ^ ((k + (freq - 1)) / freq) * D) ∧
      |valueOf (st (k + 1)).critic2 x a - actionValue e gamma v x a| ≤ gamma * ((1 - tau * (1 - gamma)) ^ ((k + (freq - 1)) / freq) * D)) := by
  have hv' : ∀ s, v s = ∑ ξ, prob ξ * actionValue e gamma v s (moved s ξ) := by
    intro s
    rw [hv s]
    simp only [smoothed, Finset.sum_mul]
    rw [Finset.sum_comm]
    refine Finset.sum_congr rfl fun ξ _ => ?_
    simp
  have hfac : 0 ≤ 1 - tau * (1 - gamma) := by nlinarith
  generalize hO : actionValue e gamma v = O at *
  have hD0 : 0 ≤ D := by
    rw [hD]
    exact dist_nonneg.trans (le_max_left _ _)
  let A (T₁ T₂ : Fin N → Fin (m + 1) → ℝ) := actionValue e gamma fun x => ∑ ξ, prob ξ * min (T₁ x (moved x ξ)) (T₂ x (moved x ξ))
  have hA : ∀ T₁ T₂ C, dist T₁ O ≤ C → dist T₂ O ≤ C → dist (A T₁ T₂) O ≤ gamma * C := by
    intro T₁ T₂ C h1 h2
    have hC : 0 ≤ C := dist_nonneg.trans h1
    have := actionValue_dist e he hp gamma hg (fun x => ∑ ξ, prob ξ * min (T₁ x (moved x ξ)) (T₂ x (moved x ξ))) v C hC fun s => by
      rw [hv' s, ← Finset.sum_sub_distrib]
      refine (Finset.abs_sum_le_sum_abs _ _).trans ?_
      have : C = ∑ ξ, prob ξ * C := by rw [← Finset.sum_mul, hprob, one_mul]
      rw [this]
      refine Finset.sum_le_sum fun ξ _ => ?_
      rw [← mul_sub, abs_mul, abs_of_nonneg (hprob0 ξ)]
      refine mul_le_mul_of_nonneg_left ?_ (hprob0 ξ)
      have e1 := (entry_dist T₁ O s (moved s ξ)).trans h1
      have e2 := (entry_dist T₂ O s (moved s ξ)).trans h2
      rcases min_choice (T₁ s (moved s ξ)) (T₂ s (moved s ξ)) with h | h <;> rw [h] <;> assumption
    rw [hO] at this
    exact this
  have step : ∀ k T₁ T₂, (st k).actorOld = actor → (st k).criticOld = table T₁ → (st k).critic2Old = table T₂ →
      (st (k + 1)).critic = table (A T₁ T₂) ∧ (st (k + 1)).critic2 = table (A T₁ T₂) := by
    intro k T₁ T₂ h1 h2 h3
    have := (td3_fits e he hprob b hP rand policyNoise noiseClip act ha gamma weight hw (st k) moved (fun x ξ => by rw [h1, hactor]) T₁ T₂ h2 h3).2 hc
    exact ⟨this _ (hfit₁ k), this _ (hfit₂ k)⟩
  have key : ∀ k, (st k).cnt = k ∧ (st k).actorOld = actor ∧ ∃ T₁ T₂, (st k).criticOld = table T₁ ∧ (st k).critic2Old = table T₂ ∧
      dist T₁ O ≤ (1 - tau * (1 - gamma)) ^ ((k + (freq - 1)) / freq) * D ∧ dist T₂ O ≤ (1 - tau * (1 - gamma)) ^ ((k + (freq - 1)) / freq) * D := by
    intro k
    induction k with
    | zero =>
      refine ⟨by rw [h0]; rfl, by rw [h0]; rfl, Q₁, Q₂, by rw [h0]; rfl, by rw [h0]; rfl, ?_⟩
      rw [Nat.div_eq_of_lt (by omega : 0 + (freq - 1) < freq), pow_zero, one_mul, hD]
      exact ⟨le_max_left _ _, le_max_right _ _⟩
    | succ k ih =>
      obtain ⟨i0, i2, T₁, T₂, i3, i4, i5, i6⟩ := ih
      have hs := step k T₁ T₂ i2 i3 i4
      have hcnt : (st (k + 1)).cnt = k + 1 := by
        rw [hst k]
        simp only [td3Learn, i0]
        split <;> simp [td3Sync]
      rw [sync_count freq hf k]
      by_cases hk : k % freq = 0
      · have j1 : (st (k + 1)).actorOld = soft tau (st k).actorOld (st (k + 1)).actor ∧ (st (k + 1)).criticOld = soft tau (st k).criticOld (st (k + 1)).critic ∧
            (st (k + 1)).critic2Old = soft tau (st k).critic2Old (st (k + 1)).critic2 := by
          rw [hst k]
          simp only [td3Learn, i0, if_pos hk, td3Sync]
          trivial
        obtain ⟨j1, j2, j3⟩ := j1
        rw [ho, i2, soft_self] at j1
        rw [i3, hs.1, soft_table] at j2
        rw [i4, hs.2, soft_table] at j3
        have hC := mul_nonneg (pow_nonneg hfac ((k + (freq - 1)) / freq)) hD0
        have d1 := soft_dist tau gamma _ ht ht1 hC hg _ T₁ O (hA T₁ T₂ _ i5 i6) i5
        have d2 := soft_dist tau gamma _ ht ht1 hC hg _ T₂ O (hA T₁ T₂ _ i5 i6) i6
        refine ⟨hcnt, j1, _, _, j2, j3, ?_⟩
        rw [if_pos hk, pow_succ', mul_assoc]
        exact ⟨d1, d2⟩
      · have j1 : (st (k + 1)).actorOld = (st k).actorOld ∧ (st (k + 1)).criticOld = (st k).criticOld ∧
            (st (k + 1)).critic2Old = (st k).critic2Old := by
          rw [hst k]
          simp only [td3Learn, i0, if_neg hk]
          trivial
        refine ⟨hcnt, j1.1.trans i2, T₁, T₂, j1.2.1.trans i3, j1.2.2.trans i4, ?_⟩
        rw [if_neg hk, add_zero]
        exact ⟨i5, i6⟩
  obtain ⟨-, h1, T₁, T₂, h2, h3, h4, h5⟩ := key k
  obtain ⟨s1, s2⟩ := step k T₁ T₂ h1 h2 h3
  rw [h2, h3, s1, s2, valueOf_table, valueOf_table, valueOf_table]
  have hd := hA T₁ T₂ _ h4 h5
  exact ⟨⟨(entry_dist _ _ x a).trans h4, (entry_dist _ _ x a).trans h5⟩, (entry_dist _ _ x a).trans hd, (entry_dist _ _ x a).trans hd⟩

/-- The bounds of `C248_ddpg` and `C248_td3` tend to 0 if `tau` is positive and the discount factor below 1. -/
theorem C248_rate (gamma tau D : ℝ) (hg : 0 ≤ gamma) (hg1 : gamma < 1) (ht : 0 < tau) (ht1 : tau ≤ 1) (freq : Nat) (hf : 0 < freq) :
    Filter.Tendsto (fun k => (1 - tau * (1 - gamma)) ^ k * D) Filter.atTop (nhds 0) ∧
    Filter.Tendsto (fun k => (1 - tau * (1 - gamma)) ^ ((k + (freq - 1)) / freq) * D) Filter.atTop (nhds 0) := by
  have h1 := tendsto_pow_atTop_nhds_zero_of_lt_one (r := 1 - tau * (1 - gamma)) (by nlinarith) (by nlinarith)
  have h2 := h1.mul_const D
  rw [zero_mul] at h2
  refine ⟨h2, h2.comp (Filter.tendsto_atTop.mpr fun c => ?_)⟩
  filter_upwards [Filter.eventually_ge_atTop (c * freq)] with k hk
  exact (Nat.le_div_iff_mul_le hf).mpr (by omega)

/-- **C248: the values.** The values of a policy are its expected discounted returns: for episodes with at most `n` steps they differ by at most
`gamma ^ n` times the largest value. -/
theorem C248_value {S A : Type} [Fintype S] [Fintype A] (e : Env S A) (he : e.Ok) (hp : ∀ s a s', 0 ≤ e.next s a s') (π : S → A → ℝ)
    (hπ : ∀ s, ∑ a, π s a = 1) (hπ0 : ∀ s a, 0 ≤ π s a) (gamma : ℝ) (hg : 0 ≤ gamma) (v : S → ℝ) (hv : Values e π gamma v) (C : ℝ) (hC : ∀ s, |v s| ≤ C)
    (n : Nat) (s : S) : |v s - expectFrom e π n s (total e.rew gamma)| ≤ gamma ^ n * C := by
  induction n generalizing s with
  | zero => simpa [expectFrom, total] using hC s
  | succ n ih =>
    have hC0 : 0 ≤ C := (abs_nonneg _).trans (hC s)
    have h1 : expectFrom e π (n + 1) s (total e.rew gamma) = ∑ a, π s a * ∑ s', e.next s a s' *
        (e.rew s a s' + gamma * if e.ends s a s' then 0 else expectFrom e π n s' (total e.rew gamma)) := by
      rw [expectFrom]
      refine Finset.sum_congr rfl fun a _ => ?_
      congr 1
      refine Finset.sum_congr rfl fun s' _ => ?_
      congr 1
      by_cases h : e.ends s a s' = true
      · simp [h, total]
      · simp only [h, if_false, Bool.false_eq_true]
        have : (fun τ : List (Step S A) => total e.rew gamma ((s, a, s') :: τ)) = fun τ => e.rew s a s' + gamma * total e.rew gamma τ := rfl
        rw [this, expectFrom_add, expectFrom_const e he π hπ, expectFrom_mul]
    rw [h1, hv s, ← Finset.sum_sub_distrib]
    refine (Finset.abs_sum_le_sum_abs _ _).trans ?_
    have h2 : gamma ^ (n + 1) * C = ∑ a, π s a * (gamma ^ (n + 1) * C) := by rw [← Finset.sum_mul, hπ, one_mul]
    rw [h2]
    refine Finset.sum_le_sum fun a _ => ?_
    rw [← mul_sub, abs_mul, abs_of_nonneg (hπ0 s a)]
    refine mul_le_mul_of_nonneg_left ?_ (hπ0 s a)
    unfold actionValue
    rw [← Finset.sum_sub_distrib]
    refine (Finset.abs_sum_le_sum_abs _ _).trans ?_
    have h3 : gamma ^ (n + 1) * C = ∑ s', e.next s a s' * (gamma ^ (n + 1) * C) := by rw [← Finset.sum_mul, he.next, one_mul]
    rw [h3]
    refine Finset.sum_le_sum fun s' _ => ?_
    rw [← mul_sub, abs_mul, abs_of_nonneg (hp s a s')]
    refine mul_le_mul_of_nonneg_left ?_ (hp s a s')
    rw [add_sub_add_left_eq_sub, ← mul_sub, abs_mul, abs_of_nonneg hg, pow_succ', mul_assoc]
    refine mul_le_mul_of_nonneg_left ?_ hg
    by_cases h : e.ends s a s' = true
    · simp only [h, if_true, sub_self, abs_zero]
      exact mul_nonneg (pow_nonneg hg n) hC0
    · simp only [h, if_false, Bool.false_eq_true]
      exact ih s'

/-! ### Cases -/

/-- Batches of one transition with random state and action `x` (with probability `c x`) and noise, for any environment. -/
noncomputable def anyBatches (e : Env (Fin N) (Fin (m + 1))) (he : e.Ok) (prob : Ξ → ℝ) (hprob : ∑ ξ, prob ξ = 1) (c : Fin N × Fin (m + 1) → ℝ) :
    Noisy e ((Fin N × Fin (m + 1)) × Fin N × Ξ) Ξ prob 1 where
  P ω := c ω.1 * (e.next ω.1.1 ω.1.2 ω.2.1 * prob ω.2.2)
  pair ω _ := ω.1
  nexts ω _ := ω.2.1
  index _ _ := 0
  view ω := ⟨fun _ => e.rew ω.1.1 ω.1.2 ω.2.1, fun _ => e.ends ω.1.1 ω.1.2 ω.2.1, fun _ => true, [], id⟩
  inputs ω _ := ω.2.1
  drawn p f := by
    simp only [Fintype.sum_prod_type (f := fun ω : (Fin N × Fin (m + 1)) × Fin N × Ξ => _), Fintype.sum_prod_type (f := fun ω : Fin N × Ξ => _)]
    refine Finset.sum_congr rfl fun x _ => ?_
    have h1 : ∀ s', ∑ ξ, c x * (e.next x.1 x.2 s' * prob ξ) * f x s' = c x * (e.next x.1 x.2 s' * f x s') := fun s' => by
      have : ∀ ξ, c x * (e.next x.1 x.2 s' * prob ξ) * f x s' = prob ξ * (c x * (e.next x.1 x.2 s' * f x s')) := fun ξ => by ring
      rw [Finset.sum_congr rfl fun ξ _ => this ξ, ← Finset.sum_mul, hprob, one_mul]
    have h2 : ∀ s', ∑ ξ, c x * (e.next x.1 x.2 s' * prob ξ) * ∑ s'', e.next x.1 x.2 s'' * f x s'' =
        e.next x.1 x.2 s' * (c x * ∑ s'', e.next x.1 x.2 s'' * f x s'') := fun s' => by
      have : ∀ ξ, c x * (e.next x.1 x.2 s' * prob ξ) * ∑ s'', e.next x.1 x.2 s'' * f x s'' =
        prob ξ * (e.next x.1 x.2 s' * (c x * ∑ s'', e.next x.1 x.2 s'' * f x s'')) := fun ξ => by ring
      rw [Finset.sum_congr rfl fun ξ _ => this ξ, ← Finset.sum_mul, hprob, one_mul]
    simp only [h1, h2]
    rw [← Finset.mul_sum, ← Finset.sum_mul, he.next, one_mul]
  rew _ _ := rfl
  terminated _ _ := rfl
  next _ _ := rfl
  noise ω _ := ω.2.2
  independent p f := by
    simp only [Fintype.sum_prod_type (f := fun ω : (Fin N × Fin (m + 1)) × Fin N × Ξ => _), Fintype.sum_prod_type (f := fun ω : Fin N × Ξ => _)]
    refine Finset.sum_congr rfl fun x _ => ?_
    have h1 : ∀ s', ∑ ξ, c x * (e.next x.1 x.2 s' * prob ξ) * f x s' ξ = c x * (e.next x.1 x.2 s' * ∑ ξ, prob ξ * f x s' ξ) := fun s' => by
      rw [Finset.mul_sum, Finset.mul_sum]
      exact Finset.sum_congr rfl fun ξ _ => by ring
    have h2 : ∀ s' (z : ℝ), ∑ ξ, c x * (e.next x.1 x.2 s' * prob ξ) * z = e.next x.1 x.2 s' * (c x * z) := fun s' z => by
      have : ∀ ξ, c x * (e.next x.1 x.2 s' * prob ξ) * z = prob ξ * (e.next x.1 x.2 s' * (c x * z)) := fun ξ => by ring
      rw [Finset.sum_congr rfl fun ξ _ => this ξ, ← Finset.sum_mul, hprob, one_mul]
    simp only [h1, h2]
    rw [← Finset.mul_sum, ← Finset.sum_mul, he.next, one_mul]

/-- All pairs of state and action occur in these batches. -/
theorem anyBatches_all (e : Env (Fin N) (Fin (m + 1))) (he : e.Ok) (hp : ∀ s a s', 0 ≤ e.next s a s') (prob : Ξ → ℝ) (hprob : ∑ ξ, prob ξ = 1)
    (hprob0 : ∀ ξ, 0 ≤ prob ξ) (c : Fin N × Fin (m + 1) → ℝ) (hc : ∀ x, 0 < c x) :
    (∀ ω, 0 ≤ (anyBatches e he prob hprob c).P ω) ∧
    ∀ x, ∃ ω p, 0 < (anyBatches e he prob hprob c).P ω ∧ 0 < (fun _ : Fin 1 => (1 : ℝ)) p ∧ (anyBatches e he prob hprob c).pair ω p = x := by
  refine ⟨fun ω => mul_nonneg (hc _).le (mul_nonneg (hp _ _ _) (hprob0 _)), fun x => ?_⟩
  obtain ⟨s', -, hs⟩ := Finset.exists_lt_of_sum_lt (s := Finset.univ) (f := fun _ : Fin N => (0 : ℝ)) (g := fun s' => e.next x.1 x.2 s') (by
    rw [he.next]
    simp)
  obtain ⟨ξ, -, hξ⟩ := Finset.exists_lt_of_sum_lt (s := Finset.univ) (f := fun _ : Ξ => (0 : ℝ)) (g := prob) (by
    rw [hprob]
    simp)
  exact ⟨(x, s', ξ), 0, mul_pos (hc x) (mul_pos hs hξ), one_pos, rfl⟩

/-- An optimiser that finds the best critics of DDPG. -/
noncomputable def ddpgOpt (e : Env (Fin N) (Fin (m + 1))) (gamma : ℝ) (choice : Fin N → Fin (m + 1)) : Opt Weights where
  critic s := table (actionValue e gamma fun x => valueOf s.criticOld x (choice x))
  critic2 s := s.critic2
  actor s := s.actor

/-- The hypotheses of `C248_ddpg` hold for these batches and this optimiser, whatever the environment is. -/
theorem C248_ddpg_exists (e : Env (Fin N) (Fin (m + 1))) (he : e.Ok) (gamma tau : ℝ) {n : Nat} (b : Batches e Ω n) (hP : ∀ ω, 0 ≤ b.P ω)
    (weight : Fin n → ℝ) (hw : ∀ p, 0 ≤ weight p) (act : Fin (m + 1) → List ℝ) (ha : Function.Injective act) (actor critic2 : Weights)
    (Q : Fin N → Fin (m + 1) → ℝ) (choice : Fin N → Fin (m + 1)) (hactor : ∀ x, actorOf actor x = act (choice x)) :
    ∃ (o : Nat → Opt Weights) (st : Nat → ActorCritic.Nets Weights), st 0 = Nets.new actor (table Q) critic2 ∧
      (∀ k, st (k + 1) = ddpgLearn (soft tau) (o k) (st k)) ∧ (∀ k, (st k).actor = actor) ∧
      ∀ k, Fits (ddpgLoss b act gamma weight (st k)) N m (st (k + 1)).critic := by
  let st : Nat → ActorCritic.Nets Weights := fun k =>
    Nat.rec (Nets.new actor (table Q) critic2) (fun _ s => ddpgLearn (soft tau) (ddpgOpt e gamma choice) s) k
  have hst : ∀ k, st (k + 1) = ddpgLearn (soft tau) (ddpgOpt e gamma choice) (st k) := fun _ => rfl
  have inv : ∀ k, (st k).actor = actor ∧ (st k).actorOld = actor ∧ ∃ T : Fin N → Fin (m + 1) → ℝ, (st k).criticOld = table T := by
    intro k
    induction k with
    | zero => exact ⟨rfl, rfl, Q, rfl⟩
    | succ k ih =>
      obtain ⟨h1, h2, T, h3⟩ := ih
      rw [hst k]
      refine ⟨h1, ?_, ?_⟩
      · show soft tau (st k).actorOld (st k).actor = actor
        rw [h1, h2, soft_self]
      · have : (ddpgLearn (soft tau) (ddpgOpt e gamma choice) (st k)).criticOld =
            soft tau (st k).criticOld (table (actionValue e gamma fun x => valueOf (st k).criticOld x (choice x))) := rfl
        rw [this, h3, soft_table]
        exact ⟨_, rfl⟩
  refine ⟨fun _ => ddpgOpt e gamma choice, st, rfl, hst, fun k => (inv k).1, fun k => ?_⟩
  obtain ⟨h1, h2, T, h3⟩ := inv k
  have := (ddpg_fits e he b hP act ha gamma weight hw (st k) choice (fun x => by rw [h2, hactor]) T h3).1
  have h4 : (st (k + 1)).critic = table (actionValue e gamma fun x => T x (choice x)) := by
    show table (actionValue e gamma fun x => valueOf (st k).criticOld x (choice x)) = _
    simp only [h3, valueOf_table]
  rw [h4]
  exact this

/-- An optimiser that finds the best critics of TD3. -/
noncomputable def td3Opt (e : Env (Fin N) (Fin (m + 1))) (gamma : ℝ) (prob : Ξ → ℝ) (moved : Fin N → Ξ → Fin (m + 1)) : Opt Weights where
  critic s := table (actionValue e gamma fun x => ∑ ξ, prob ξ * min (valueOf s.criticOld x (moved x ξ)) (valueOf s.critic2Old x (moved x ξ)))
  critic2 s := table (actionValue e gamma fun x => ∑ ξ, prob ξ * min (valueOf s.criticOld x (moved x ξ)) (valueOf s.critic2Old x (moved x ξ)))
  actor s := s.actor

/-- The hypotheses of `C248_td3` hold for these batches and this optimiser, whatever the environment is. -/
theorem C248_td3_exists (e : Env (Fin N) (Fin (m + 1))) (he : e.Ok) (gamma tau : ℝ) (prob : Ξ → ℝ) (hprob : ∑ ξ, prob ξ = 1) {n : Nat}
    (b : Noisy e Ω Ξ prob n) (hP : ∀ ω, 0 ≤ b.P ω) (weight : Fin n → ℝ) (hw : ∀ p, 0 ≤ weight p) (rand : Ξ → List ℝ) (policyNoise noiseClip : ℝ)
    (act : Fin (m + 1) → List ℝ) (ha : Function.Injective act) (actor : Weights) (Q₁ Q₂ : Fin N → Fin (m + 1) → ℝ) (moved : Fin N → Ξ → Fin (m + 1))
    (hactor : ∀ x ξ, td3Act policyNoise noiseClip (actorOf actor x) (rand ξ) = act (moved x ξ)) (freq : Nat) :
    ∃ (o : Nat → Opt Weights) (st : Nat → ActorCritic.Nets Weights), st 0 = Nets.new actor (table Q₁) (table Q₂) ∧
      (∀ k, st (k + 1) = td3Learn (soft tau) freq (o k) (st k)) ∧ (∀ k, (st k).actor = actor) ∧
      (∀ k, Fits (td3Loss b rand policyNoise noiseClip act gamma weight (st k)) N m (st (k + 1)).critic) ∧
      ∀ k, Fits (td3Loss b rand policyNoise noiseClip act gamma weight (st k)) N m (st (k + 1)).critic2 := by
  let st : Nat → ActorCritic.Nets Weights := fun k =>
    Nat.rec (Nets.new actor (table Q₁) (table Q₂)) (fun _ s => td3Learn (soft tau) freq (td3Opt e gamma prob moved) s) k
  have hst : ∀ k, st (k + 1) = td3Learn (soft tau) freq (td3Opt e gamma prob moved) (st k) := fun _ => rfl
  have hcrit : ∀ k, (st (k + 1)).critic = (td3Opt e gamma prob moved).critic (st k) ∧ (st (k + 1)).critic2 = (td3Opt e gamma prob moved).critic (st k) := by
    intro k
    rw [hst k]
    simp only [td3Learn, td3Sync, td3Opt]
    split <;> exact ⟨rfl, rfl⟩
  have inv : ∀ k, (st k).actor = actor ∧ (st k).actorOld = actor ∧ (∃ T : Fin N → Fin (m + 1) → ℝ, (st k).criticOld = table T) ∧
      ∃ T : Fin N → Fin (m + 1) → ℝ, (st k).critic2Old = table T := by
    intro k
    induction k with
    | zero => exact ⟨rfl, rfl, ⟨Q₁, rfl⟩, Q₂, rfl⟩
    | succ k ih =>
      obtain ⟨h1, h2, ⟨T₁, h3⟩, T₂, h4⟩ := ih
      rw [hst k]
      simp only [td3Learn, td3Sync, td3Opt]
      split
      · refine ⟨h1, by simp only [h1, h2, soft_self], ?_, ?_⟩
        · simp only [h3, soft_table]
          exact ⟨_, rfl⟩
        · simp only [h4, soft_table]
          exact ⟨_, rfl⟩
      · exact ⟨h1, h2, ⟨T₁, h3⟩, T₂, h4⟩
  have hfit : ∀ k, Fits (td3Loss b rand policyNoise noiseClip act gamma weight (st k)) N m ((td3Opt e gamma prob moved).critic (st k)) := by
    intro k
    obtain ⟨h1, h2, ⟨T₁, h3⟩, T₂, h4⟩ := inv k
    have := (td3_fits e he hprob b hP rand policyNoise noiseClip act ha gamma weight hw (st k) moved (fun x ξ => by rw [h2, hactor]) T₁ T₂ h3 h4).1
    have h5 : (td3Opt e gamma prob moved).critic (st k) =
        table (actionValue e gamma fun x => ∑ ξ, prob ξ * min (T₁ x (moved x ξ)) (T₂ x (moved x ξ))) := by
      simp only [td3Opt, h3, h4, valueOf_table]
    rw [h5]
    exact this
  exact ⟨fun _ => td3Opt e gamma prob moved, st, rfl, hst, fun k => (inv k).1, fun k => (hcrit k).1 ▸ hfit k, fun k => (hcrit k).2 ▸ hfit k⟩

/-- Two states, three actions -1/2, 0 and 1/2. The state does not change; the reward is the square of the action in state 1, and the episode ends in state 0. -/
noncomputable def still : Env (Fin 2) (Fin 3) where
  init _ := 1 / 2
  next s _ s' := if s = s' then 1 else 0
  rew s a _ := if s = 1 ∧ a ≠ 1 then 1 / 4 else 0
  ends s _ _ := s = 0

theorem still_ok : still.Ok := ⟨by simp [still], fun _ _ => by simp [still]⟩

noncomputable def stillAct (a : Fin 3) : List ℝ := if a = 0 then [-1 / 2] else if a = 1 then [0] else [1 / 2]

theorem stillAct_inj : Function.Injective stillAct := by
  intro a b h
  fin_cases a <;> fin_cases b <;> simp [stillAct] at h <;> first | rfl | (exfalso; norm_num at h)

/-- The actor does nothing, but the noise (standard normal numbers rounded to -3, 0 and 3, times 1/5, clipped to 1/2) moves the action. -/
noncomputable def stillProb (x : Fin 3) : ℝ := if x = 1 then 1 / 2 else 1 / 4

theorem stillProb_sum : ∑ x, stillProb x = 1 := by
  rw [Fin.sum_univ_three]
  norm_num [stillProb, show (2 : Fin 3) ≠ 1 by decide]

noncomputable def stillRand (x : Fin 3) : List ℝ := if x = 0 then [-3] else if x = 1 then [0] else [3]

theorem stillRand_act (s : Fin 2) (x : Fin 3) : td3Act (1 / 5) (1 / 2) (actorOf [[0], [0]] s) (stillRand x) = stillAct x := by
  fin_cases s <;> fin_cases x <;>
    simp [td3Act, actorOf, stillRand, stillAct, Ppo.clamp] <;> norm_num

/-- The values of doing nothing are 0 for the actor alone; with the noise, state 1 is worth 1/8 per step. -/
theorem still_values : Values still (acts fun _ => 1) (1 / 2) (fun _ => 0) ∧
    Values still (smoothed stillProb fun _ x => x) (1 / 2) (fun s => if s = 1 then 1 / 4 else 0) := by
  constructor
  · intro s
    fin_cases s <;> simp [acts, actionValue, still, Fin.sum_univ_three]
  · intro s
    fin_cases s <;> simp [smoothed, actionValue, still, Fin.sum_univ_three, stillProb, show (2 : Fin 3) ≠ 1 by decide] <;> norm_num

/-- So the critics of DDPG learn that doing nothing in state 1 is worth 0, and those of TD3 that it is worth 1/8. -/
example : actionValue still (1 / 2) (fun _ => 0) 1 1 = 0 ∧ actionValue still (1 / 2) (fun s => if s = 1 then 1 / 4 else 0) 1 1 = 1 / 8 := by
  constructor <;> simp [actionValue, still] <;> norm_num

/-- All hypotheses of `C248_td3` hold in this case. -/
example (Q₁ Q₂ : Fin 2 → Fin 3 → ℝ) (tau : ℝ) (ht : 0 ≤ tau) (ht1 : tau ≤ 1) : ∃ (o : Nat → Opt Weights) (st : Nat → ActorCritic.Nets Weights),
    (∀ k, st (k + 1) = td3Learn (soft tau) 2 (o k) (st k)) ∧ ∀ k, |valueOf (st (k + 1)).critic (1 : Fin 2) (1 : Fin 3) - 1 / 8| ≤
      1 / 2 * ((1 - tau * (1 - 1 / 2)) ^ ((k + (2 - 1)) / 2) * max (dist Q₁ (actionValue still (1 / 2) fun s => if s = 1 then 1 / 4 else 0))
        (dist Q₂ (actionValue still (1 / 2) fun s => if s = 1 then 1 / 4 else 0))) := by
  have hp : ∀ s a s', 0 ≤ still.next s a s' := by
    intro s a s'
    simp only [still]
    split <;> norm_num
  have hprob0 : ∀ x, 0 ≤ stillProb x := by
    intro x
    unfold stillProb
    split <;> norm_num
  have hall := anyBatches_all still still_ok hp stillProb stillProb_sum hprob0 (fun _ => 1 / 6) (fun _ => by norm_num)
  obtain ⟨o, st, h0, h1, h2, h3, h4⟩ := C248_td3_exists still still_ok (1 / 2) tau stillProb stillProb_sum
    (anyBatches still still_ok stillProb stillProb_sum fun _ => 1 / 6) hall.1 (fun _ => 1) (fun _ => zero_le_one) stillRand (1 / 5) (1 / 2) stillAct stillAct_inj
    [[0], [0]] Q₁ Q₂ (fun _ x => x) stillRand_act 2
  refine ⟨o, st, h1, fun k => ?_⟩
  have := (C248_td3 still still_ok hp (1 / 2) tau (by norm_num) ht ht1 stillProb stillProb_sum hprob0
    (anyBatches still still_ok stillProb stillProb_sum fun _ => 1 / 6) hall.1 (fun _ => 1) (fun _ => zero_le_one) hall.2 stillRand (1 / 5) (1 / 2)
    stillAct stillAct_inj [[0], [0]] Q₁ Q₂ (fun _ x => x) stillRand_act 2 (by norm_num) o st h0 h1 h2 h3 h4 _ still_values.2 k 1 1 _ rfl).2.1
  have h5 : actionValue still (1 / 2) (fun s => if s = 1 then 1 / 4 else 0) 1 1 = 1 / 8 := by
    simp [actionValue, still]
    norm_num
  rwa [h5] at this

end Verif.Critics
