import Verif.Model.QLearning
import Verif.Lemmas.QTarget
import Verif.Lemmas.Policy
import Verif.Props.PolicyGradient
import Mathlib.Topology.MetricSpace.Contracting
import Mathlib.Analysis.Calculus.Deriv.Pow
import Mathlib.Algebra.BigOperators.Field

/-!
C237: the optimal action values are the fixed point of Q-learning. C238: repeated fitting converges to them.
-/

namespace Verif.QLearning

open Verif.QTarget Verif.Returns Verif.Policy Verif.PolicyGradient

set_option linter.unusedSectionVars false

/-! ### Specification -/

variable {S : Type} [Fintype S] {m : Nat} {Ω : Type} [Fintype Ω]

/-- The value of the best of the actions 0, ..., m in state `s`. -/
noncomputable def best (Q : S → Fin (m + 1) → ℝ) (s : S) : ℝ := Finset.univ.sup' ⟨0, Finset.mem_univ _⟩ (Q s)

/-- The reward of a transition plus the discounted value of the best action in the next state, unless the episode has ended. -/
noncomputable def oneStep (e : Env S (Fin (m + 1))) (gamma : ℝ) (Q : S → Fin (m + 1) → ℝ) (x : S × Fin (m + 1)) (s' : S) : ℝ :=
  e.rew x.1 x.2 s' + gamma * if e.ends x.1 x.2 s' then 0 else best Q s'

/-- Its expectation. -/
noncomputable def backup (e : Env S (Fin (m + 1))) (gamma : ℝ) (Q : S → Fin (m + 1) → ℝ) (s : S) (a : Fin (m + 1)) : ℝ :=
  ∑ s', e.next s a s' * oneStep e gamma Q (s, a) s'

/-- Bellman's optimality equation. -/
def Optimal (e : Env S (Fin (m + 1))) (gamma : ℝ) (Q : S → Fin (m + 1) → ℝ) : Prop := ∀ s a, Q s a = backup e gamma Q s a

/-- A random batch of `n` transitions in a buffer: `P ω` are the probabilities, `pair` the states and actions, `nexts` the next states, drawn as the
environment says whatever the state and the action are; and the buffer holds rewards, flags and next observations accordingly. (The same transition may be
drawn several times; whether the flag `truncated` is set, and in what order transitions are stored, does not matter.) -/
structure Batches (e : Env S (Fin (m + 1))) (Ω : Type) [Fintype Ω] (n : Nat) where
  P : Ω → ℝ
  pair : Ω → Fin n → S × Fin (m + 1)
  nexts : Ω → Fin n → S
  index : Ω → Fin n → Nat
  view : Ω → View ℝ
  inputs : Ω → Nat → S
  drawn : ∀ (p : Fin n) (f : S × Fin (m + 1) → S → ℝ), ∑ ω, P ω * f (pair ω p) (nexts ω p) =
    ∑ ω, P ω * ∑ s', e.next (pair ω p).1 (pair ω p).2 s' * f (pair ω p) s'
  rew : ∀ ω p, (view ω).rew (index ω p) = e.rew (pair ω p).1 (pair ω p).2 (nexts ω p)
  terminated : ∀ ω p, (view ω).terminated (index ω p) = e.ends (pair ω p).1 (pair ω p).2 (nexts ω p)
  next : ∀ ω p, inputs ω (index ω p) = nexts ω p

/-- A network that outputs the values in a table. -/
def tableNet (Q : S → Fin (m + 1) → ℝ) (s : S) : List ℝ := List.ofFn (Q s)

/-- The loss for a batch (one-step returns), as a function of the network that is trained. -/
noncomputable def Batches.loss {e : Env S (Fin (m + 1))} {n : Nat} (b : Batches e Ω n) (clip isDouble : Bool) (nets : Nets S ℝ) (gamma : ℝ)
    (weight : Fin n → ℝ) (net : S → List ℝ) (ω : Ω) : ℝ :=
  (learnLoss clip isDouble nets net (b.view ω) (b.inputs ω) none (List.ofFn fun p => (b.pair ω p).1)
    (List.ofFn fun p => ((b.pair ω p).2 : Nat)) (List.ofFn (b.index ω)) gamma 1 (List.ofFn weight)).getD 0

/-- The expectation over the batches of the derivative of the loss. -/
noncomputable def Batches.gradient {e : Env S (Fin (m + 1))} {n : Nat} (b : Batches e Ω n) (clip isDouble : Bool) (nets : Nets S ℝ) (gamma : ℝ)
    (weight : Fin n → ℝ) (net : ℝ → S → List ℝ) (θ : ℝ) : ℝ :=
  ∑ ω, b.P ω * deriv (fun t => b.loss clip isDouble nets gamma weight (net t) ω) θ

/-- The expected loss. -/
noncomputable def Batches.expectedLoss {e : Env S (Fin (m + 1))} {n : Nat} (b : Batches e Ω n) (clip isDouble : Bool) (nets : Nets S ℝ)
    (gamma : ℝ) (weight : Fin n → ℝ) (net : S → List ℝ) : ℝ :=
  ∑ ω, b.P ω * b.loss clip isDouble nets gamma weight net ω

/-! ### Targets -/

theorem table_get (Q : S → Fin (m + 1) → ℝ) (s : S) (a : Fin (m + 1)) : (tableNet Q s)[(a : Nat)]? = some (Q s a) := by
  unfold tableNet
  rw [List.getElem?_eq_getElem (by simpa using a.is_le)]
  simp only [List.getElem_ofFn]

theorem table_getD (Q : S → Fin (m + 1) → ℝ) (s : S) (a : Fin (m + 1)) : (tableNet Q s).getD a 0 = Q s a := by
  rw [List.getD_eq_getElem?_getD, table_get, Option.getD_some]

theorem maxOf_table (Q : S → Fin (m + 1) → ℝ) (s : S) : maxOf (tableNet Q s) = best Q s := by
  apply le_antisymm
  · have := maxOf_mem (tableNet Q s) (by simp [tableNet])
    obtain ⟨a, ha⟩ := (List.mem_ofFn' _ _).mp this
    rw [← ha]
    exact Finset.le_sup' (Q s) (Finset.mem_univ a)
  · refine Finset.sup'_le _ _ fun a _ => le_maxOf _ _ ?_
    exact (List.mem_ofFn' _ _).mpr ⟨a, rfl⟩

theorem argmax_table (Q : S → Fin (m + 1) → ℝ) (s : S) : (tableNet Q s).getD (argmax (tableNet Q s)) 0 = best Q s := by
  obtain ⟨q, h1, h2, -⟩ := argmax_spec (tableNet Q s) (by simp [tableNet])
  rw [List.getD_eq_getElem?_getD, h1, Option.getD_some]
  apply le_antisymm
  · obtain ⟨a, ha⟩ := (List.mem_ofFn' _ _).mp (List.mem_of_getElem? h1)
    rw [← ha]
    exact Finset.le_sup' (Q s) (Finset.mem_univ a)
  · refine Finset.sup'_le _ _ fun a _ => h2 a _ (table_get Q s a)

theorem dqnTarget_table (isDouble : Bool) (nets : Nets S ℝ) (Q : S → Fin (m + 1) → ℝ)
    (h1 : nets.hasTarget = true → nets.old = tableNet Q) (h2 : (isDouble = true ∨ nets.hasTarget = false) → nets.online = tableNet Q)
    (xs : List S) : dqnTarget isDouble nets xs none = xs.map (best Q) := by
  have h3 : (if nets.hasTarget then xs.map nets.old else xs.map nets.online) = xs.map (tableNet Q) := by
    by_cases h : nets.hasTarget = true
    · rw [if_pos h, h1 h]
    · rw [if_neg h, h2 (.inr (by simpa using h))]
  unfold dqnTarget
  simp only [h3]
  cases isDouble with
  | true =>
    rw [h2 (.inl rfl), if_pos rfl]
    unfold pick dqnAct computeQ
    simp only [List.map_map]
    induction xs with
    | nil => rfl
    | cons x xs ih =>
      simp only [List.map_cons, List.zipWith_cons_cons, Function.comp_apply, argmax_table]
      congr 1
      refine ih ?_
      by_cases h : nets.hasTarget = true
      · rw [if_pos h, h1 h]
      · rw [if_neg h, h2 (.inl rfl)]
  | false =>
    rw [if_neg (by simp), List.map_map]
    congr 1
    funext x
    exact maxOf_table Q x

theorem zipWith_ofFn {α β γ : Type} (f : α → β → γ) {n : Nat} (a : Fin n → α) (b : Fin n → β) :
    List.zipWith f (List.ofFn a) (List.ofFn b) = List.ofFn fun p => f (a p) (b p) := by
  apply List.ext_getElem <;> simp

theorem mean_ofFn {n : Nat} (f : Fin n → ℝ) : Ppo.mean (List.ofFn f) = (∑ p, f p) / n := by
  unfold Ppo.mean
  rw [List.sum_ofFn, List.length_ofFn]

theorem returns_one (targetQ : List Nat → List (List ℝ)) (v : Nat → ℝ) (h : ∀ l, targetQ l = l.map fun i => [v i]) (w : View ℝ)
    (indices : List Nat) (gamma : ℝ) : computeNstepReturn w indices.length indices targetQ gamma 1 =
      some (indices.map fun i => [w.rew i + gamma * if w.terminated i then 0 else v i]) := by
  unfold computeNstepReturn
  rw [if_neg (by simp)]
  simp only [h, stackedColumn, List.map_map, valueMask, Nat.sub_self]
  congr 1
  induction indices with
  | nil => rfl
  | cons i l ih =>
    simp only [List.map_cons, List.zipWith_cons_cons, Function.comp_apply]
    congr 1
    simp only [List.getLastD_cons, List.getLastD_nil, List.map_cons, List.map_nil, List.length_cons, List.length_nil, List.take_succ_cons, List.take_zero,
      nstepLoop]
    cases w.terminated i <;> cases w.done i || w.unfinished.contains i <;> simp [mask, gammaBuffer] <;> ring

theorem flatten_singles {α β : Type} (l : List α) (f : α → β) : (l.map fun i => [f i]).flatten = l.map f := by
  induction l with
  | nil => rfl
  | cons a l ih => simpa using ih

theorem loss_eq {e : Env S (Fin (m + 1))} {n : Nat} (b : Batches e Ω n) (isDouble : Bool) (nets : Nets S ℝ) (gamma : ℝ)
    (weight : Fin n → ℝ) (Q : S → Fin (m + 1) → ℝ) (h1 : nets.hasTarget = true → nets.old = tableNet Q)
    (h2 : (isDouble = true ∨ nets.hasTarget = false) → nets.online = tableNet Q) (clip : Bool) (net : S → List ℝ) (ω : Ω) :
    b.loss clip isDouble nets gamma weight net ω = dqnLoss clip (List.ofFn fun p =>
      ((net (b.pair ω p).1).getD (b.pair ω p).2 0, oneStep e gamma Q (b.pair ω p) (b.nexts ω p))) (List.ofFn weight) := by
  unfold Batches.loss learnLoss dqnReturns
  rw [returns_one _ (fun i => best Q (b.inputs ω i)) (fun l => by
    rw [Option.map_none, dqnTarget_table isDouble nets Q h1 h2, List.map_map, List.map_map]
    rfl)]
  simp only [Option.map_some, Option.getD_some, flatten_singles]
  congr 1
  unfold pick List.zip
  rw [List.map_ofFn, List.map_ofFn, zipWith_ofFn, zipWith_ofFn]
  congr 1
  funext p
  simp only [Function.comp_apply, b.rew, b.terminated, b.next]
  rfl

theorem squared_eq {n : Nat} (q r : Fin n → ℝ) (weight : Fin n → ℝ) :
    dqnLoss false (List.ofFn fun p => (q p, r p)) (List.ofFn weight) = (∑ p, (r p - q p) ^ 2 * weight p) / n := by
  unfold dqnLoss
  rw [if_neg (by simp), zipWith_ofFn, mean_ofFn]

theorem expected_zero (e : Env S (Fin (m + 1))) (he : e.Ok) {n : Nat} (b : Batches e Ω n) (gamma : ℝ) (Q : S → Fin (m + 1) → ℝ) (p : Fin n)
    (g : S × Fin (m + 1) → ℝ) :
    ∑ ω, b.P ω * ((oneStep e gamma Q (b.pair ω p) (b.nexts ω p) - backup e gamma Q (b.pair ω p).1 (b.pair ω p).2) * g (b.pair ω p)) = 0 := by
  rw [b.drawn p fun x s' => (oneStep e gamma Q x s' - backup e gamma Q x.1 x.2) * g x]
  refine Finset.sum_eq_zero fun ω _ => ?_
  have : ∑ s', e.next (b.pair ω p).1 (b.pair ω p).2 s' *
      ((oneStep e gamma Q (b.pair ω p) s' - backup e gamma Q (b.pair ω p).1 (b.pair ω p).2) * g (b.pair ω p)) =
      (∑ s', e.next (b.pair ω p).1 (b.pair ω p).2 s' * oneStep e gamma Q (b.pair ω p) s' -
        (∑ s', e.next (b.pair ω p).1 (b.pair ω p).2 s') * backup e gamma Q (b.pair ω p).1 (b.pair ω p).2) * g (b.pair ω p) := by
    rw [Finset.sum_mul, ← Finset.sum_sub_distrib, Finset.sum_mul]
    refine Finset.sum_congr rfl fun s' _ => ?_
    ring
  rw [this, he.next, one_mul]
  have : ∑ s', e.next (b.pair ω p).1 (b.pair ω p).2 s' * oneStep e gamma Q (b.pair ω p) s' =
    backup e gamma Q (b.pair ω p).1 (b.pair ω p).2 := rfl
  rw [this, sub_self, zero_mul, mul_zero]

/-! ### C237 -/

theorem gradient_eq (e : Env S (Fin (m + 1))) (he : e.Ok) {n : Nat} (b : Batches e Ω n) (gamma : ℝ) (Q : S → Fin (m + 1) → ℝ) (isDouble hasTarget : Bool)
    (weight : Fin n → ℝ) (net : ℝ → S → List ℝ) (θ : ℝ) (hnet : net θ = tableNet Q)
    (hd : ∀ s (a : Fin (m + 1)), DifferentiableAt ℝ (fun t => (net t s).getD a 0) θ) :
    b.gradient false isDouble ⟨net θ, tableNet Q, hasTarget⟩ gamma weight net θ =
      (∑ p, ∑ ω, b.P ω * ((Q (b.pair ω p).1 (b.pair ω p).2 - backup e gamma Q (b.pair ω p).1 (b.pair ω p).2) *
        (2 * deriv (fun t => (net t (b.pair ω p).1).getD (b.pair ω p).2 0) θ * weight p))) / n := by
  unfold Batches.gradient
  have hl : ∀ ω, HasDerivAt (fun t => b.loss false isDouble ⟨net θ, tableNet Q, hasTarget⟩ gamma weight (net t) ω)
      ((∑ p, ((oneStep e gamma Q (b.pair ω p) (b.nexts ω p) - Q (b.pair ω p).1 (b.pair ω p).2) *
        -(2 * deriv (fun t => (net t (b.pair ω p).1).getD (b.pair ω p).2 0) θ * weight p))) / n) θ := by
    intro ω
    have : (fun t => b.loss false isDouble ⟨net θ, tableNet Q, hasTarget⟩ gamma weight (net t) ω) = fun t =>
        (∑ p, (oneStep e gamma Q (b.pair ω p) (b.nexts ω p) - (net t (b.pair ω p).1).getD (b.pair ω p).2 0) ^ 2 * weight p) / n := by
      funext t
      rw [loss_eq b isDouble _ gamma weight Q (fun _ => rfl) (fun _ => hnet), squared_eq]
    rw [this]
    refine HasDerivAt.div_const ?_ _
    refine HasDerivAt.fun_sum fun p _ => ?_
    have h1 := ((((hd (b.pair ω p).1 (b.pair ω p).2).hasDerivAt).const_sub (oneStep e gamma Q (b.pair ω p) (b.nexts ω p))).fun_pow 2).mul_const (weight p)
    refine h1.congr_deriv ?_
    simp only [hnet, table_getD]
    push_cast
    ring
  simp only [fun ω => (hl ω).deriv]
  simp only [mul_div_assoc', Finset.mul_sum]
  rw [← Finset.sum_div, Finset.sum_comm]
  congr 1
  refine Finset.sum_congr rfl fun p _ => ?_
  have := expected_zero e he b gamma Q p fun x => 2 * deriv (fun t => (net t x.1).getD x.2 0) θ * weight p
  rw [← sub_eq_zero, ← Finset.sum_sub_distrib, ← neg_eq_zero, ← Finset.sum_neg_distrib]
  refine Eq.trans ?_ this
  refine Finset.sum_congr rfl fun ω _ => ?_
  ring

/-- **C237 (partial): the optimal values are stationary.** For every finite environment, discount factor, random batch of transitions, weights, with or without
`is_double` and target network: if the network, however it is parametrised, and the target network give the optimal values, then the expectation of the gradient
of the loss is zero. Missing: `clip_loss_grad` (`C237_clip_violated`) and several steps (`C237_nstep_violated`). -/
theorem C237_partial (e : Env S (Fin (m + 1))) (he : e.Ok) {n : Nat} (b : Batches e Ω n) (gamma : ℝ) (Q : S → Fin (m + 1) → ℝ)
    (hQ : Optimal e gamma Q) (isDouble hasTarget : Bool) (weight : Fin n → ℝ) (net : ℝ → S → List ℝ) (θ : ℝ) (hnet : net θ = tableNet Q)
    (hd : ∀ s (a : Fin (m + 1)), DifferentiableAt ℝ (fun t => (net t s).getD a 0) θ) :
    b.gradient false isDouble ⟨net θ, tableNet Q, hasTarget⟩ gamma weight net θ = 0 := by
  rw [gradient_eq e he b gamma Q isDouble hasTarget weight net θ hnet hd]
  simp only [fun ω p => sub_eq_zero.mpr (hQ (b.pair ω p).1 (b.pair ω p).2)]
  simp

open Classical in
/-- The table in which the value of one pair of state and action is raised by `t`. -/
noncomputable def raise (Q : S → Fin (m + 1) → ℝ) (x : S × Fin (m + 1)) (t : ℝ) (s : S) (a : Fin (m + 1)) : ℝ :=
  Q s a + if (s, a) = x then t else 0

/-- **C237 (partial): nothing else is.** A table of values is left alone by the updates of all its entries (in expectation) if and only if it satisfies Bellman's
equation. -/
theorem C237_only_partial (e : Env S (Fin (m + 1))) (he : e.Ok) (b : S × Fin (m + 1) → Batches e Ω 1) (hb : ∀ x ω p, (b x).pair ω p = x)
    (hP : ∀ x, ∑ ω, (b x).P ω = 1) (gamma : ℝ) (Q : S → Fin (m + 1) → ℝ) (isDouble hasTarget : Bool) :
    (∀ x, (b x).gradient false isDouble ⟨tableNet Q, tableNet Q, hasTarget⟩ gamma (fun _ => 1) (fun t => tableNet (raise Q x t)) 0 = 0) ↔
      Optimal e gamma Q := by
  have h0 : ∀ x, tableNet (raise Q x 0) = tableNet Q := by
    intro x
    have : raise Q x 0 = Q := by
      funext s a
      simp [raise]
    rw [this]
  have hdiff : ∀ x s (a : Fin (m + 1)), HasDerivAt (fun t => (tableNet (raise Q x t) s).getD a 0) (open Classical in if (s, a) = x then 1 else 0) 0 := by
    intro x s a
    have : (fun t => (tableNet (raise Q x t) s).getD a 0) = fun t => Q s a + (open Classical in if (s, a) = x then t else 0) := by
      funext t
      simp only [table_getD, raise]
    rw [this]
    by_cases h : (s, a) = x
    · simp only [if_pos h]
      exact (hasDerivAt_id' (0 : ℝ)).const_add _
    · simp only [if_neg h]
      exact hasDerivAt_const _ _
  have key : ∀ x, (b x).gradient false isDouble ⟨tableNet Q, tableNet Q, hasTarget⟩ gamma (fun _ => 1) (fun t => tableNet (raise Q x t)) 0 =
      (Q x.1 x.2 - backup e gamma Q x.1 x.2) * 2 := by
    intro x
    have := gradient_eq e he (b x) gamma Q isDouble hasTarget (fun _ => 1) (fun t => tableNet (raise Q x t)) 0 (h0 x)
      fun s a => (hdiff x s a).differentiableAt
    simp only [h0] at this
    rw [this]
    simp only [hb, (hdiff x x.1 x.2).deriv, if_true]
    rw [Finset.univ_unique, Finset.sum_singleton, ← Finset.sum_mul, hP]
    norm_num
  constructor
  · intro h s a
    have := (key (s, a)).symm.trans (h (s, a))
    linarith
  · intro h x
    rw [key x, h x.1 x.2]
    ring

/-! ### Losses and returns for which it fails -/

/-- One transition from a given state with a given action. -/
noncomputable def single (e : Env S (Fin (m + 1))) (he : e.Ok) (x : S × Fin (m + 1)) : Batches e S 1 where
  P s' := e.next x.1 x.2 s'
  pair _ _ := x
  nexts s' _ := s'
  index _ _ := 0
  view s' := ⟨fun _ => e.rew x.1 x.2 s', fun _ => e.ends x.1 x.2 s', fun _ => true, [], id⟩
  inputs s' _ := s'
  drawn p f := by rw [← Finset.sum_mul, he.next, one_mul]
  rew _ _ := rfl
  terminated _ _ := rfl
  next _ _ := rfl

/-- The hypotheses of `C237_only_partial` hold for these batches. -/
example (e : Env S (Fin (m + 1))) (he : e.Ok) (gamma : ℝ) (Q : S → Fin (m + 1) → ℝ) (isDouble hasTarget : Bool) :
    (∀ x, (single e he x).gradient false isDouble ⟨tableNet Q, tableNet Q, hasTarget⟩ gamma (fun _ => 1) (fun t => tableNet (raise Q x t)) 0 = 0) ↔
      Optimal e gamma Q :=
  C237_only_partial e he (single e he) (fun _ _ _ => rfl) (fun x => he.next x.1 x.2) gamma Q isDouble hasTarget

/-- One step, one action; the reward is 8 with probability 1/4, else 0. -/
noncomputable def lottery : Env Bool (Fin 1) where
  init _ := 1 / 2
  next _ _ s' := if s' then 1 / 4 else 3 / 4
  rew _ _ s' := if s' then 8 else 0
  ends _ _ _ := true

theorem lottery_ok : lottery.Ok := ⟨by simp [lottery], fun _ _ => by simp [lottery]; norm_num⟩

/-- Its value. -/
def two (_ : Bool) (_ : Fin 1) : ℝ := 2

theorem lottery_optimal (gamma : ℝ) : Optimal lottery gamma two := by
  intro s a
  simp [two, backup, oneStep, lottery]
  norm_num

theorem huber_right (c : ℝ) (h : 1 < c) : HasDerivAt (fun t => huber (c + t)) 1 0 := by
  have hev : (fun t => huber (c + t)) =ᶠ[nhds 0] fun t => c + t - 1 / 2 := by
    filter_upwards [lt_mem_nhds (show (1 - c : ℝ) < 0 by linarith)] with t ht
    have : 1 ≤ |c + t| := by
      rw [abs_of_pos (by linarith)]
      linarith
    rw [huber, if_neg (not_lt.mpr this), abs_of_pos (by linarith)]
  exact (((hasDerivAt_id' (0 : ℝ)).const_add c).sub_const (1 / 2)).congr_of_eventuallyEq hev

theorem huber_left (c : ℝ) (h : c < -1) : HasDerivAt (fun t => huber (c + t)) (-1) 0 := by
  have hev : (fun t => huber (c + t)) =ᶠ[nhds 0] fun t => -(c + t) - 1 / 2 := by
    filter_upwards [gt_mem_nhds (show 0 < (-1 - c : ℝ) by linarith)] with t ht
    have : 1 ≤ |c + t| := by
      rw [abs_of_neg (by linarith)]
      linarith
    rw [huber, if_neg (not_lt.mpr this), abs_of_neg (by linarith)]
  exact (((hasDerivAt_id' (0 : ℝ)).const_add c).neg.sub_const (1 / 2)).congr_of_eventuallyEq hev

/-- **C237 is violated with `clip_loss_grad=True`**: there are an environment and the optimal values of which one is lowered, in expectation, by the update. -/
theorem C237_clip_violated (gamma : ℝ) (isDouble hasTarget : Bool) (weight : Fin 1 → ℝ) :
    lottery.Ok ∧ Optimal lottery gamma two ∧
    (single lottery lottery_ok (true, 0)).gradient true isDouble ⟨tableNet two, tableNet two, hasTarget⟩ gamma weight
      (fun t => tableNet (raise two (true, 0) t)) 0 = 1 / 2 := by
  refine ⟨lottery_ok, lottery_optimal gamma, ?_⟩
  have hl : ∀ (ω : Bool) (t : ℝ), (single lottery lottery_ok (true, 0)).loss true isDouble ⟨tableNet two, tableNet two, hasTarget⟩ gamma weight
      (tableNet (raise two (true, 0) t)) ω = huber ((if ω then -6 else 2) + t) := by
    intro ω t
    rw [loss_eq _ isDouble _ gamma weight two (fun _ => rfl) (fun _ => rfl)]
    unfold dqnLoss
    rw [if_pos rfl, List.map_ofFn, mean_ofFn]
    simp only [Finset.univ_unique, Finset.sum_singleton, Function.comp_apply, table_getD, raise, two, single, oneStep, lottery]
    cases ω <;> simp <;> congr 1 <;> ring
  unfold Batches.gradient
  simp only [hl]
  rw [Fintype.sum_bool]
  have h1 := (huber_left (-6) (by norm_num)).deriv
  have h2 := (huber_right 2 (by norm_num)).deriv
  simp only [if_true, Bool.false_eq_true, if_false, h1, h2]
  simp [single, lottery]
  norm_num

/-- Two steps; in the second one action 1 gives the reward 1. -/
noncomputable def delayed : Env Bool (Fin 2) where
  init s := if s then 0 else 1
  next _ _ s' := if s' then 1 else 0
  rew s a _ := if s = true ∧ a = 1 then 1 else 0
  ends s _ _ := s

/-- Its optimal values, for the discount factor 1/2. -/
noncomputable def delayedValue (s : Bool) (a : Fin 2) : ℝ := if s then (if a = 1 then 1 else 0) else 1 / 2

theorem delayed_ok : delayed.Ok := ⟨by simp [delayed], fun _ _ => by simp [delayed]⟩

theorem delayed_optimal : Optimal delayed (1 / 2) delayedValue := by
  have hb : best delayedValue true = 1 := by
    apply le_antisymm
    · refine Finset.sup'_le _ _ fun a _ => ?_
      simp only [delayedValue, if_true]
      split <;> norm_num
    · exact Finset.le_sup' (delayedValue true) (Finset.mem_univ 1)
  intro s a
  cases s <;> simp [backup, oneStep, delayed, hb, delayedValue]

/-- **C237 is violated with several steps**: in this environment the buffer holds an episode in which the worse action was chosen in the second step. With `n_step = 2` the
update lowers the optimal value of the first step: what others did later counts as if it had to be done. -/
theorem C237_nstep_violated (isDouble hasTarget : Bool) :
    delayed.Ok ∧ Optimal delayed (1 / 2) delayedValue ∧
    deriv (fun t => (learnLoss false isDouble ⟨tableNet delayedValue, tableNet delayedValue, hasTarget⟩ (tableNet (raise delayedValue (false, 0) t))
      (view (recordAll delayed [[(false, 0, true), (true, 0, true)]])) (fun _ => true) none [false] [0] [0] (1 / 2) 2 [1]).getD 0) 0 = 1 := by
  refine ⟨delayed_ok, delayed_optimal, ?_⟩
  have hr : dqnReturns isDouble ⟨tableNet delayedValue, tableNet delayedValue, hasTarget⟩
      (view (recordAll delayed [[(false, 0, true), (true, 0, true)]])) (fun _ => true) none [0] (1 / 2) 2 = some [[0]] := by
    unfold dqnReturns computeNstepReturn
    simp only [Option.map_none, dqnTarget_table isDouble ⟨tableNet delayedValue, tableNet delayedValue, hasTarget⟩ delayedValue (fun _ => rfl) (fun _ => rfl)]
    simp [stackedColumn, valueMask, nstepLoop, view, recordAll, record, delayed, Returns.mask]
  have hl : (fun t => (learnLoss false isDouble ⟨tableNet delayedValue, tableNet delayedValue, hasTarget⟩ (tableNet (raise delayedValue (false, 0) t))
      (view (recordAll delayed [[(false, 0, true), (true, 0, true)]])) (fun _ => true) none [false] [0] [0] (1 / 2) 2 [1]).getD 0) =
      fun t => (1 / 2 + t) ^ 2 := by
    funext t
    unfold learnLoss
    rw [hr]
    have : (tableNet (raise delayedValue (false, 0) t) false).getD 0 0 = 1 / 2 + t := by
      have := table_getD (raise delayedValue (false, 0) t) false 0
      simpa [raise, delayedValue] using this
    simp only [Option.map_some, Option.getD_some, dqnLoss, pick, List.map_cons, List.map_nil, List.zipWith_cons_cons, List.zipWith_nil_left, this]
    simp [Ppo.mean]
    ring
  rw [hl, (((hasDerivAt_id' (0 : ℝ)).const_add (1 / 2)).fun_pow 2).deriv]
  norm_num

/-- The hypotheses of `C237_partial` hold: for the lottery, a network with the parameter `t` squared. -/
example (isDouble hasTarget : Bool) : (single lottery lottery_ok (true, 0)).gradient false isDouble ⟨tableNet fun s a => 1 ^ 2 * two s a, tableNet two, hasTarget⟩
    (9 / 10) (fun _ => 1) (fun t => tableNet fun s a => t ^ 2 * two s a) 1 = 0 :=
  C237_partial lottery lottery_ok (single lottery lottery_ok (true, 0)) (9 / 10) two (lottery_optimal _) isDouble hasTarget (fun _ => 1)
    (fun t => tableNet fun s a => t ^ 2 * two s a) 1 (by norm_num) fun s a => by
      simp only [table_getD]
      fun_prop

/-! ### Contraction -/

theorem best_dist (Q Q' : S → Fin (m + 1) → ℝ) (s : S) : |best Q s - best Q' s| ≤ dist Q Q' := by
  have key : ∀ Q Q' : S → Fin (m + 1) → ℝ, best Q s ≤ best Q' s + dist Q Q' := by
    intro Q Q'
    refine Finset.sup'_le _ _ fun a _ => ?_
    have h1 : Q s a ≤ Q' s a + dist Q Q' := by
      have h := (dist_le_pi_dist (Q s) (Q' s) a).trans (dist_le_pi_dist Q Q' s)
      rw [Real.dist_eq] at h
      have := (abs_le.mp h).2
      linarith
    have h2 : Q' s a ≤ best Q' s := Finset.le_sup' (Q' s) (Finset.mem_univ a)
    linarith
  rw [abs_le]
  have h1 := key Q Q'
  have h2 := key Q' Q
  rw [dist_comm] at h2
  constructor <;> linarith

theorem backup_dist (e : Env S (Fin (m + 1))) (he : e.Ok) (hp : ∀ s a s', 0 ≤ e.next s a s') (gamma : ℝ) (hg : 0 ≤ gamma)
    (Q Q' : S → Fin (m + 1) → ℝ) : dist (backup e gamma Q) (backup e gamma Q') ≤ gamma * dist Q Q' := by
  have h0 : 0 ≤ gamma * dist Q Q' := mul_nonneg hg dist_nonneg
  refine (dist_pi_le_iff h0).mpr fun s => (dist_pi_le_iff h0).mpr fun a => ?_
  rw [Real.dist_eq]
  unfold backup
  rw [← Finset.sum_sub_distrib]
  refine (Finset.abs_sum_le_sum_abs _ _).trans ?_
  have : gamma * dist Q Q' = ∑ s', e.next s a s' * (gamma * dist Q Q') := by rw [← Finset.sum_mul, he.next, one_mul]
  rw [this]
  refine Finset.sum_le_sum fun s' _ => ?_
  rw [← mul_sub, abs_mul, abs_of_nonneg (hp s a s')]
  refine mul_le_mul_of_nonneg_left ?_ (hp s a s')
  unfold oneStep
  rw [add_sub_add_left_eq_sub, ← mul_sub, abs_mul, abs_of_nonneg hg]
  refine mul_le_mul_of_nonneg_left ?_ hg
  by_cases h : e.ends s a s' = true
  · simp only [if_pos h, sub_self, abs_zero]
    exact dist_nonneg
  · simp only [if_neg h]
    exact best_dist Q Q' s'

/-- **C237: the optimal values exist and are unique**, for discount factors below 1. -/
theorem C237_unique (e : Env S (Fin (m + 1))) (he : e.Ok) (hp : ∀ s a s', 0 ≤ e.next s a s') (gamma : ℝ) (hg : 0 ≤ gamma) (hg1 : gamma < 1) :
    ∃! Q, Optimal e gamma Q := by
  have hc : ContractingWith ⟨gamma, hg⟩ (backup e gamma) :=
    ⟨by exact_mod_cast hg1, LipschitzWith.of_dist_le_mul fun Q Q' => backup_dist e he hp gamma hg Q Q'⟩
  refine ⟨ContractingWith.fixedPoint _ hc, fun s a => ?_, ?_⟩
  · have := hc.fixedPoint_isFixedPt
    exact (congrFun (congrFun this.symm s) a)
  · intro Q hQ
    refine hc.fixedPoint_unique ?_
    funext s a
    exact (hQ s a).symm

/-! ### C238 -/

/-- The expected loss exceeds its least value by the mean squared distance from the expected targets. -/
theorem expectedLoss_sub (e : Env S (Fin (m + 1))) (he : e.Ok) {n : Nat} (b : Batches e Ω n) (gamma : ℝ) (weight : Fin n → ℝ) (nets : Nets S ℝ)
    (ht : nets.hasTarget = true) (Q : S → Fin (m + 1) → ℝ) (ho : nets.old = tableNet Q) (Q' : S → Fin (m + 1) → ℝ) :
    b.expectedLoss false false nets gamma weight (tableNet Q') - b.expectedLoss false false nets gamma weight (tableNet (backup e gamma Q)) =
      ∑ ω, b.P ω * ((∑ p, (Q' (b.pair ω p).1 (b.pair ω p).2 - backup e gamma Q (b.pair ω p).1 (b.pair ω p).2) ^ 2 * weight p) / n) := by
  have hl : ∀ (T : S → Fin (m + 1) → ℝ) ω, b.loss false false nets gamma weight (tableNet T) ω =
      (∑ p, (oneStep e gamma Q (b.pair ω p) (b.nexts ω p) - T (b.pair ω p).1 (b.pair ω p).2) ^ 2 * weight p) / n := by
    intro T ω
    rw [loss_eq b false nets gamma weight Q (fun _ => ho) (fun h => by simp [ht] at h), squared_eq]
    simp only [table_getD]
  unfold Batches.expectedLoss
  simp only [hl]
  rw [← Finset.sum_sub_distrib, ← sub_eq_zero, ← Finset.sum_sub_distrib]
  have key : ∀ p, ∑ ω, b.P ω * ((oneStep e gamma Q (b.pair ω p) (b.nexts ω p) - backup e gamma Q (b.pair ω p).1 (b.pair ω p).2) *
      (-2 * (Q' (b.pair ω p).1 (b.pair ω p).2 - backup e gamma Q (b.pair ω p).1 (b.pair ω p).2) * weight p)) = 0 := fun p =>
    expected_zero e he b gamma Q p fun x => -2 * (Q' x.1 x.2 - backup e gamma Q x.1 x.2) * weight p
  have : (∑ p, ∑ ω, b.P ω * ((oneStep e gamma Q (b.pair ω p) (b.nexts ω p) - backup e gamma Q (b.pair ω p).1 (b.pair ω p).2) *
      (-2 * (Q' (b.pair ω p).1 (b.pair ω p).2 - backup e gamma Q (b.pair ω p).1 (b.pair ω p).2) * weight p))) / n = 0 := by
    rw [Finset.sum_eq_zero fun p _ => key p, zero_div]
  rw [← this, Finset.sum_comm, Finset.sum_div]
  refine Finset.sum_congr rfl fun ω _ => ?_
  rw [← Finset.mul_sum, ← mul_sub, ← mul_sub, mul_div_assoc, ← sub_div, ← sub_div, ← Finset.sum_sub_distrib, ← Finset.sum_sub_distrib]
  congr 2
  refine Finset.sum_congr rfl fun p _ => ?_
  ring

/-- **C238: convergence of fitted Q-learning.** Let the target network be a table, and after each synchronisation let the network be trained until its table
minimises the expected loss; every pair of state and action occurs in the batches with positive probability and weight. Then the distance from the optimal
values is multiplied by at most the discount factor each time, so it tends to 0. -/
theorem C238_converges (e : Env S (Fin (m + 1))) (he : e.Ok) (hp : ∀ s a s', 0 ≤ e.next s a s') (gamma : ℝ) (hg : 0 ≤ gamma)
    {n : Nat} (b : Batches e Ω n) (hP : ∀ ω, 0 ≤ b.P ω) (weight : Fin n → ℝ) (hw : ∀ p, 0 ≤ weight p)
    (hc : ∀ x, ∃ ω p, 0 < b.P ω ∧ 0 < weight p ∧ b.pair ω p = x) (Q : Nat → S → Fin (m + 1) → ℝ) (online : S → List ℝ)
    (hmin : ∀ (k : Nat) (T : S → Fin (m + 1) → ℝ), b.expectedLoss false false ⟨online, tableNet (Q k), true⟩ gamma weight (tableNet (Q (k + 1))) ≤
      b.expectedLoss false false ⟨online, tableNet (Q k), true⟩ gamma weight (tableNet T))
    (O : S → Fin (m + 1) → ℝ) (hO : Optimal e gamma O) (k : Nat) : ∀ s a, |Q k s a - O s a| ≤ gamma ^ k * dist (Q 0) O := by
  have step : ∀ k, Q (k + 1) = backup e gamma (Q k) := by
    intro k
    have h1 := expectedLoss_sub e he b gamma weight ⟨online, tableNet (Q k), true⟩ rfl (Q k) rfl (Q (k + 1))
    have h2 := hmin k (backup e gamma (Q k))
    have hnn : ∀ ω p, 0 ≤ (Q (k + 1) (b.pair ω p).1 (b.pair ω p).2 - backup e gamma (Q k) (b.pair ω p).1 (b.pair ω p).2) ^ 2 * weight p :=
      fun ω p => mul_nonneg (sq_nonneg _) (hw p)
    have hnn2 : ∀ ω ∈ Finset.univ, 0 ≤ b.P ω * ((∑ p, (Q (k + 1) (b.pair ω p).1 (b.pair ω p).2 -
        backup e gamma (Q k) (b.pair ω p).1 (b.pair ω p).2) ^ 2 * weight p) / n) :=
      fun ω _ => mul_nonneg (hP ω) (div_nonneg (Finset.sum_nonneg fun p _ => hnn ω p) (Nat.cast_nonneg n))
    have h3 := (Finset.sum_eq_zero_iff_of_nonneg hnn2).mp (le_antisymm (by rw [← h1]; linarith) (Finset.sum_nonneg hnn2))
    funext s a
    obtain ⟨ω, p, hω, hwp, hx⟩ := hc (s, a)
    have h4 := h3 ω (Finset.mem_univ ω)
    have hn : (n : ℝ) ≠ 0 := by
      have : 0 < n := Fin.pos p
      exact_mod_cast this.ne'
    have h5 : ∑ p, (Q (k + 1) (b.pair ω p).1 (b.pair ω p).2 - backup e gamma (Q k) (b.pair ω p).1 (b.pair ω p).2) ^ 2 * weight p = 0 := by
      rcases mul_eq_zero.mp h4 with h | h
      · exact absurd h hω.ne'
      · rcases div_eq_zero_iff.mp h with h | h
        · exact h
        · exact absurd h hn
    have h6 := (Finset.sum_eq_zero_iff_of_nonneg fun p _ => hnn ω p).mp h5 p (Finset.mem_univ p)
    rcases mul_eq_zero.mp h6 with h | h
    · have := pow_eq_zero_iff (two_ne_zero) |>.mp h
      rw [hx] at this
      exact sub_eq_zero.mp this
    · exact absurd h hwp.ne'
  have hOb : backup e gamma O = O := by
    funext s a
    exact (hO s a).symm
  have hd : dist (Q k) O ≤ gamma ^ k * dist (Q 0) O := by
    induction k with
    | zero => simp
    | succ k ih =>
      rw [step k, ← hOb]
      calc dist (backup e gamma (Q k)) (backup e gamma O) ≤ gamma * dist (Q k) O := backup_dist e he hp gamma hg _ _
        _ ≤ gamma * (gamma ^ k * dist (Q 0) O) := mul_le_mul_of_nonneg_left ih hg
        _ = gamma ^ (k + 1) * dist (Q 0) (backup e gamma O) := by rw [hOb]; ring
  intro s a
  have := (dist_le_pi_dist (Q k s) (O s) a).trans (dist_le_pi_dist (Q k) O s)
  rw [Real.dist_eq] at this
  exact this.trans hd

/-- **C238: the actions.** Once the bound is less than half of the advantage `d` of the best action `a` in a state, the policy chooses `a` there. -/
theorem C238_greedy (Q O : S → Fin (m + 1) → ℝ) (s : S) (eps : ℝ) (h : ∀ a, |Q s a - O s a| ≤ eps) (a : Fin (m + 1)) (d : ℝ) (hd : 2 * eps < d)
    (ha : ∀ a', a' ≠ a → O s a' + d ≤ O s a) : dqnAct [tableNet Q s] none = [(a : Nat)] := by
  obtain ⟨q, h1, h2, -⟩ := argmax_spec (tableNet Q s) (by simp [tableNet])
  obtain ⟨hl, hq⟩ := List.getElem?_eq_some_iff.mp h1
  have hl' : argmax (tableNet Q s) < m + 1 := by simpa [tableNet] using hl
  have h3 := table_get Q s ⟨argmax (tableNet Q s), hl'⟩
  rw [h1] at h3
  have h4 := h2 a _ (table_get Q s a)
  by_cases hne : (⟨argmax (tableNet Q s), hl'⟩ : Fin (m + 1)) = a
  · simp only [dqnAct, computeQ, List.map_cons, List.map_nil]
    rw [← hne]
  · have h5 := ha _ hne
    have h6 := (abs_le.mp (h ⟨argmax (tableNet Q s), hl'⟩)).2
    have h7 := (abs_le.mp (h a)).1
    cases h3
    linarith

/-- The hypotheses hold for the lottery, both of its states equally likely: the first table that is fitted is already the optimal one. -/
noncomputable def lotteryBatches : Batches lottery (Bool × Bool) 1 where
  P ω := 1 / 2 * lottery.next ω.1 0 ω.2
  pair ω _ := (ω.1, 0)
  nexts ω _ := ω.2
  index _ _ := 5
  view ω := ⟨fun _ => lottery.rew ω.1 0 ω.2, fun _ => true, fun _ => true, [], id⟩
  inputs ω _ := ω.2
  drawn p f := by
    simp only [Fintype.sum_prod_type, Fintype.sum_bool, lottery]
    norm_num
    ring
  rew _ _ := rfl
  terminated _ _ := rfl
  next _ _ := rfl

example : (∀ ω, 0 ≤ lotteryBatches.P ω) ∧ (∀ x, ∃ ω p, 0 < lotteryBatches.P ω ∧ 0 < (1 : ℝ) ∧ lotteryBatches.pair ω p = x) ∧
    ∀ (online : Bool → List ℝ) (Q0 T : Bool → Fin 1 → ℝ), lotteryBatches.expectedLoss false false ⟨online, tableNet Q0, true⟩ (1 / 2) (fun _ => 1)
      (tableNet (backup lottery (1 / 2) Q0)) ≤ lotteryBatches.expectedLoss false false ⟨online, tableNet Q0, true⟩ (1 / 2) (fun _ => 1) (tableNet T) := by
  refine ⟨?_, ?_, ?_⟩
  · rintro ⟨a, b⟩
    cases b <;> norm_num [lotteryBatches, lottery]
  · rintro ⟨s, a⟩
    refine ⟨(s, true), 0, ?_, one_pos, ?_⟩
    · simp [lotteryBatches, lottery]
    · simp only [lotteryBatches, Prod.mk.injEq, true_and]
      exact (Fin.fin_one_eq_zero a).symm
  · intro online Q0 T
    have := expectedLoss_sub lottery lottery_ok lotteryBatches (1 / 2) (fun _ => 1) ⟨online, tableNet Q0, true⟩ rfl Q0 rfl T
    have h2 : 0 ≤ ∑ ω, lotteryBatches.P ω * ((∑ p, (T (lotteryBatches.pair ω p).1 (lotteryBatches.pair ω p).2 -
        backup lottery (1 / 2) Q0 (lotteryBatches.pair ω p).1 (lotteryBatches.pair ω p).2) ^ 2 * 1) / (1 : Nat)) := by
      refine Finset.sum_nonneg fun ω _ => mul_nonneg ?_ (div_nonneg (Finset.sum_nonneg fun p _ => by positivity) (by norm_num))
      obtain ⟨a, b⟩ := ω
      cases b <;> norm_num [lotteryBatches, lottery]
    linarith

end Verif.QLearning
