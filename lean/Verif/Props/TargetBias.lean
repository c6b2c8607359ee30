import Verif.Props.Nstep
import Verif.Props.Critics

/-!
C275: how errors of the networks bias the targets.
-/

namespace Verif.TargetBias

open Verif.QTarget Verif.Returns Verif.QLearning Verif.Policy

set_option linter.unusedSectionVars false

variable {S : Type} [Fintype S] {m n : ℕ} {Ω Ω' : Type} [Fintype Ω] [Fintype Ω']

/-! ### Specification -/

/-- Values of actions. -/
abbrev Table (S : Type) (m : ℕ) := S → Fin (m + 1) → ℝ

/-- Probabilities of finitely many outcomes of training. -/
structure Law (Ω : Type) [Fintype Ω] where
  prob : Ω → ℝ
  nonneg : ∀ ω, 0 ≤ prob ω
  sum : ∑ ω, prob ω = 1

/-- Expectations. -/
def Law.mean (P : Law Ω) (f : Ω → ℝ) : ℝ := ∑ ω, P.prob ω * f ω

/-- The targets of a batch of `n` rows are the numbers `y`. -/
def Gives (x : Option (List (List ℝ))) (y : Fin n → ℝ) : Prop := x = some (List.ofFn fun p => [y p])

/-! ### Lemmas -/

theorem Law.mean_mono (P : Law Ω) {f g : Ω → ℝ} (h : ∀ ω, f ω ≤ g ω) : P.mean f ≤ P.mean g :=
  Finset.sum_le_sum fun ω _ => mul_le_mul_of_nonneg_left (h ω) (P.nonneg ω)

theorem Law.mean_const (P : Law Ω) (c : ℝ) : (P.mean fun _ => c) = c := by
  unfold Law.mean
  rw [← Finset.sum_mul, P.sum, one_mul]

theorem Law.mean_affine (P : Law Ω) (f : Ω → ℝ) (c d : ℝ) : (P.mean fun ω => c + d * f ω) = c + d * P.mean f := by
  unfold Law.mean
  simp only [mul_add, Finset.sum_add_distrib]
  rw [← Finset.sum_mul, P.sum, one_mul, Finset.mul_sum]
  congr 1
  exact Finset.sum_congr rfl fun ω _ => by ring

/-- Targets are affine functions of the values, with non-negative factors that depend on the buffer only. -/
theorem affine (w : View ℝ) (index : Fin n → ℕ) (gamma : ℝ) (hg : 0 ≤ gamma) (N : ℕ) : ∃ (c d : Fin n → ℝ) (after : Fin n → ℕ), (∀ p, 0 ≤ d p) ∧
    ∀ (targetQ : List ℕ → List (List ℝ)) (v : Fin n → ℝ), (targetQ (List.ofFn after) = List.ofFn fun p => [v p]) →
      Gives (computeNstepReturn w (List.ofFn index).length (List.ofFn index) targetQ gamma N) fun p => c p + d p * v p := by
  have hloop : ∀ p : Fin n, ∃ g mc, nstepLoop w.rew (fun i => w.done i || w.unfinished.contains i) gamma N 1 0 ((stackedColumn w.next (index p) (N - 1)).take N) = (g, [mc]) := by
    intro p
    have := Nstep.loop_length w.rew (fun i => w.done i || w.unfinished.contains i) gamma N 1 ((stackedColumn w.next (index p) (N - 1)).take N) 0
    obtain ⟨x, hx⟩ := List.length_eq_one_iff.mp this
    exact ⟨_, x, Prod.ext rfl hx⟩
  choose g mc hgm using hloop
  refine ⟨mc, fun p => if w.terminated ((stackedColumn w.next (index p) (N - 1)).getLastD 0) then 0 else gamma ^ g p,
    fun p => (stackedColumn w.next (index p) (N - 1)).getLastD 0, fun p => ?_, fun targetQ v h => ?_⟩
  · dsimp only
    split
    · exact le_rfl
    · exact pow_nonneg hg _
  · unfold Gives computeNstepReturn
    rw [if_neg (by simp)]
    simp only [List.map_ofFn, Function.comp_def]
    rw [h]
    simp only [List.map_ofFn, valueMask, zipWith_ofFn, Option.some.injEq]
    congr 1
    funext p
    simp only [Function.comp_apply, List.map_cons, List.map_nil, List.length_cons, List.length_nil, zero_add, hgm, Nstep.gammaBuffer_pow,
      List.zipWith_cons_cons, List.zipWith_nil_left, mask]
    cases w.terminated ((stackedColumn w.next (index p) (N - 1)).getLastD 0) <;> simp [add_comm, mul_comm]

theorem Gives.unique {x : Option (List (List ℝ))} {y z : Fin n → ℝ} (h : Gives x y) (h' : Gives x z) : y = z := by
  unfold Gives at h h'
  rw [h, Option.some.injEq, List.ofFn_inj] at h'
  funext p
  simpa using congrFun h' p

/-- The action that is chosen. -/
noncomputable def chosen (Q : Table S m) (s : S) : Fin (m + 1) := ⟨Verif.Policy.argmax (tableNet Q s), by
  obtain ⟨q, h1, -, -⟩ := Verif.Policy.argmax_spec (tableNet Q s) (by simp [tableNet])
  have := (List.getElem?_eq_some_iff.mp h1).1
  simpa [tableNet] using this⟩

theorem doubleTarget (O Q : Table S m) (xs : List S) : dqnTarget true ⟨tableNet O, tableNet Q, true⟩ xs none = xs.map fun s => Q s (chosen O s) := by
  unfold dqnTarget pick dqnAct computeQ
  simp only [if_true, List.map_map]
  induction xs with
  | nil => rfl
  | cons x xs ih =>
    simp only [List.map_cons, List.zipWith_cons_cons, Function.comp_apply]
    rw [← ih]
    congr 1
    exact table_getD Q x (chosen O x)

/-! ### C275 -/

/-- **C275, without double Q-learning** (or without a target network, or when the target network has just been copied): errors of the values whose expectation is zero make
the targets too large. Their expectation is at least the target that is computed with the expected values. -/
theorem C275_over (P : Law Ω) (Q : Ω → Table S m) (nets : Ω → Nets S ℝ) (isDouble : Bool) (h1 : ∀ ω, (nets ω).hasTarget = true → (nets ω).old = tableNet (Q ω))
    (h2 : ∀ ω, (isDouble = true ∨ (nets ω).hasTarget = false) → (nets ω).online = tableNet (Q ω))
    (w : View ℝ) (inputs : ℕ → S) (index : Fin n → ℕ) (gamma : ℝ) (hg : 0 ≤ gamma) (N : ℕ) (isDouble' hasTarget' : Bool) :
    ∃ (y : Ω → Fin n → ℝ) (x : Fin n → ℝ), (∀ ω, Gives (dqnReturns isDouble (nets ω) w inputs none (List.ofFn index) gamma N) (y ω)) ∧
      Gives (dqnReturns isDouble' ⟨tableNet fun s a => P.mean fun ω => Q ω s a, tableNet fun s a => P.mean fun ω => Q ω s a, hasTarget'⟩ w inputs none (List.ofFn index) gamma N) x ∧
      ∀ p, x p ≤ P.mean fun ω => y ω p := by
  obtain ⟨c, d, after, hd, h⟩ := affine w index gamma hg N
  refine ⟨fun ω p => c p + d p * best (Q ω) (inputs (after p)), fun p => c p + d p * best (fun s a => P.mean fun ω => Q ω s a) (inputs (after p)), fun ω => ?_, ?_, fun p => ?_⟩
  · refine h _ (fun p => best (Q ω) (inputs (after p))) ?_
    rw [Option.map_none, dqnTarget_table isDouble (nets ω) (Q ω) (h1 ω) (h2 ω), List.map_map, List.map_map, List.map_ofFn]
    rfl
  · refine h _ (fun p => best (fun s a => P.mean fun ω => Q ω s a) (inputs (after p))) ?_
    rw [Option.map_none, dqnTarget_table isDouble' _ (fun s a => P.mean fun ω => Q ω s a) (fun _ => rfl) (fun _ => rfl), List.map_map, List.map_map, List.map_ofFn]
    rfl
  · rw [P.mean_affine]
    refine add_le_add le_rfl (mul_le_mul_of_nonneg_left ?_ (hd p))
    exact Finset.sup'_le _ _ fun a _ => P.mean_mono fun ω => Finset.le_sup' (Q ω (inputs (after p))) (Finset.mem_univ a)

/-- **C275, with double Q-learning** and a target network whose errors are independent of those of the network: the expectation of the targets is at most the
target that is computed with the expected values of the target network. -/
theorem C275_double (P : Law Ω) (P' : Law Ω') (O : Ω → Table S m) (Q : Ω' → Table S m)
    (w : View ℝ) (inputs : ℕ → S) (index : Fin n → ℕ) (gamma : ℝ) (hg : 0 ≤ gamma) (N : ℕ) (isDouble' hasTarget' : Bool) :
    ∃ (y : Ω → Ω' → Fin n → ℝ) (x : Fin n → ℝ), (∀ ω ω', Gives (dqnReturns true ⟨tableNet (O ω), tableNet (Q ω'), true⟩ w inputs none (List.ofFn index) gamma N) (y ω ω')) ∧
      Gives (dqnReturns isDouble' ⟨tableNet fun s a => P'.mean fun ω => Q ω s a, tableNet fun s a => P'.mean fun ω => Q ω s a, hasTarget'⟩ w inputs none (List.ofFn index) gamma N) x ∧
      ∀ p, (P.mean fun ω => P'.mean fun ω' => y ω ω' p) ≤ x p := by
  obtain ⟨c, d, after, hd, h⟩ := affine w index gamma hg N
  refine ⟨fun ω ω' p => c p + d p * Q ω' (inputs (after p)) (chosen (O ω) (inputs (after p))),
    fun p => c p + d p * best (fun s a => P'.mean fun ω => Q ω s a) (inputs (after p)), fun ω ω' => ?_, ?_, fun p => ?_⟩
  · refine h _ (fun p => Q ω' (inputs (after p)) (chosen (O ω) (inputs (after p)))) ?_
    rw [Option.map_none, doubleTarget, List.map_map, List.map_map, List.map_ofFn]
    rfl
  · refine h _ (fun p => best (fun s a => P'.mean fun ω => Q ω s a) (inputs (after p))) ?_
    rw [Option.map_none, dqnTarget_table isDouble' _ (fun s a => P'.mean fun ω => Q ω s a) (fun _ => rfl) (fun _ => rfl), List.map_map, List.map_map, List.map_ofFn]
    rfl
  · have h1 : (fun ω => P'.mean fun ω' => c p + d p * Q ω' (inputs (after p)) (chosen (O ω) (inputs (after p)))) =
        fun ω => c p + d p * P'.mean fun ω' => Q ω' (inputs (after p)) (chosen (O ω) (inputs (after p))) := by
      funext ω
      rw [P'.mean_affine]
    rw [h1, P.mean_affine]
    refine add_le_add le_rfl (mul_le_mul_of_nonneg_left ?_ (hd p))
    refine (P.mean_mono fun ω => ?_).trans (P.mean_const _).le
    exact Finset.le_sup' (fun a => P'.mean fun ω' => Q ω' (inputs (after p)) a) (Finset.mem_univ _)

/-- **C275, partial: no bias** if in each state it is certain which action is the best. -/
theorem C275_certain_partial (P : Law Ω) (Q : Ω → Table S m) (hc : ∀ s, ∃ a, ∀ ω b, Q ω s b ≤ Q ω s a) (nets : Ω → Nets S ℝ) (isDouble : Bool)
    (h1 : ∀ ω, (nets ω).hasTarget = true → (nets ω).old = tableNet (Q ω))
    (h2 : ∀ ω, (isDouble = true ∨ (nets ω).hasTarget = false) → (nets ω).online = tableNet (Q ω))
    (w : View ℝ) (inputs : ℕ → S) (index : Fin n → ℕ) (gamma : ℝ) (hg : 0 ≤ gamma) (N : ℕ) (isDouble' hasTarget' : Bool) :
    ∃ (y : Ω → Fin n → ℝ) (x : Fin n → ℝ), (∀ ω, Gives (dqnReturns isDouble (nets ω) w inputs none (List.ofFn index) gamma N) (y ω)) ∧
      Gives (dqnReturns isDouble' ⟨tableNet fun s a => P.mean fun ω => Q ω s a, tableNet fun s a => P.mean fun ω => Q ω s a, hasTarget'⟩ w inputs none (List.ofFn index) gamma N) x ∧
      ∀ p, x p = P.mean fun ω => y ω p := by
  obtain ⟨c, d, after, hd, h⟩ := affine w index gamma hg N
  refine ⟨fun ω p => c p + d p * best (Q ω) (inputs (after p)), fun p => c p + d p * best (fun s a => P.mean fun ω => Q ω s a) (inputs (after p)), fun ω => ?_, ?_, fun p => ?_⟩
  · refine h _ (fun p => best (Q ω) (inputs (after p))) ?_
    rw [Option.map_none, dqnTarget_table isDouble (nets ω) (Q ω) (h1 ω) (h2 ω), List.map_map, List.map_map, List.map_ofFn]
    rfl
  · refine h _ (fun p => best (fun s a => P.mean fun ω => Q ω s a) (inputs (after p))) ?_
    rw [Option.map_none, dqnTarget_table isDouble' _ (fun s a => P.mean fun ω => Q ω s a) (fun _ => rfl) (fun _ => rfl), List.map_map, List.map_map, List.map_ofFn]
    rfl
  · rw [P.mean_affine]
    obtain ⟨a, ha⟩ := hc (inputs (after p))
    have e1 : ∀ ω, best (Q ω) (inputs (after p)) = Q ω (inputs (after p)) a := fun ω =>
      le_antisymm (Finset.sup'_le _ _ fun b _ => ha ω b) (Finset.le_sup' (Q ω (inputs (after p))) (Finset.mem_univ a))
    have e2 : best (fun s a => P.mean fun ω => Q ω s a) (inputs (after p)) = P.mean fun ω => Q ω (inputs (after p)) a :=
      le_antisymm (Finset.sup'_le _ _ fun b _ => P.mean_mono fun ω => ha ω b)
        (Finset.le_sup' (fun b => P.mean fun ω => Q ω (inputs (after p)) b) (Finset.mem_univ a))
    simp only [e1, e2]

/-- **C275, twin critics** (TD3): the expectation of the targets is at most the target that is computed with the expected values of any one of the critics. -/
theorem C275_twin {X : Type} (P : Law Ω) (critic : Bool → Ω → X → List ℝ → ℝ) (actor : X → List ℝ) (noise clip : ℝ) (rand : Fin n → List ℝ)
    (w : View ℝ) (inputs : ℕ → X) (index : Fin n → ℕ) (gamma : ℝ) (hg : 0 ≤ gamma) (N : ℕ) :
    ∃ (y : Ω → Fin n → ℝ) (x : Bool → Fin n → ℝ),
      (∀ ω, Gives (Critics.returns (Critics.td3TargetQ actor (critic false ω) (critic true ω) noise clip (List.ofFn rand)) w inputs (List.ofFn index) gamma N) (y ω)) ∧
      (∀ j, Gives (Critics.returns (Critics.td3TargetQ actor (fun s a => P.mean fun ω => critic j ω s a) (fun s a => P.mean fun ω => critic j ω s a) noise clip (List.ofFn rand))
        w inputs (List.ofFn index) gamma N) (x j)) ∧
      ∀ j p, (P.mean fun ω => y ω p) ≤ x j p := by
  obtain ⟨c, d, after, hd, h⟩ := affine w index gamma hg N
  have hq : ∀ q1 q2 : X → List ℝ → ℝ, Gives (Critics.returns (Critics.td3TargetQ actor q1 q2 noise clip (List.ofFn rand)) w inputs (List.ofFn index) gamma N)
      fun p => c p + d p * ActorCritic.td3Target q1 q2 actor noise clip (rand p) (inputs (after p)) := by
    intro q1 q2
    refine h _ (fun p => ActorCritic.td3Target q1 q2 actor noise clip (rand p) (inputs (after p))) ?_
    unfold Critics.td3TargetQ
    rw [List.map_ofFn, zipWith_ofFn, List.map_ofFn]
    rfl
  refine ⟨_, fun j => _, fun ω => hq _ _, fun j => hq _ _, fun j p => ?_⟩
  rw [P.mean_affine]
  refine add_le_add le_rfl (mul_le_mul_of_nonneg_left ?_ (hd p))
  unfold ActorCritic.td3Target
  simp only [min_self]
  refine P.mean_mono fun ω => ?_
  cases j
  · exact min_le_left _ _
  · exact min_le_right _ _

/-! ### Violations -/

/-- A fair coin. -/
noncomputable def coin : Law Bool := ⟨fun _ => 1 / 2, fun _ => by norm_num, by simp⟩

/-- One row whose episode goes on, with the reward 0. -/
def oneRow : View ℝ := { rew := fun _ => 0, terminated := fun _ => false, done := fun _ => false, unfinished := [], next := fun i => i }

/-- Values with errors: 1 or -1 for the first action, 0 for the second. -/
def noisy (b : Bool) : Table Unit 1 := fun _ a => if a = 0 then (if b then 1 else -1) else 0

/-- Values without errors: 0 and 1. -/
def exact01 : Table Unit 1 := fun _ a => if a = 0 then 0 else 1

/-- A network with errors: which action it prefers is random. -/
def unsure (b : Bool) : Table Unit 1 := fun _ a => if a = 0 then (if b then 1 else -1) else 0

theorem oneRow_returns (isDouble : Bool) (nets : Nets Unit ℝ) (v : ℝ) (h : dqnTarget isDouble nets [()] none = [v]) :
    Gives (n := 1) (dqnReturns isDouble nets oneRow (fun _ => ()) none (List.ofFn fun _ : Fin 1 => 0) (1 / 2) 1) fun _ => v / 2 := by
  unfold Gives dqnReturns computeNstepReturn
  simp [stackedColumn, h, valueMask, oneRow, nstepLoop, mask, gammaBuffer]
  ring

/-- **C275 is violated**: values whose expectation is 0 for both actions give targets whose expectation is 1/4. -/
theorem C275_violated (hasTarget : Bool) : (∀ s a, (coin.mean fun ω => noisy ω s a) = 0) ∧
    ∃ y : Bool → Fin 1 → ℝ, (∀ ω, Gives (dqnReturns false ⟨tableNet (noisy ω), tableNet (noisy ω), hasTarget⟩ oneRow (fun _ => ()) none
      (List.ofFn fun _ : Fin 1 => 0) (1 / 2) 1) (y ω)) ∧ (coin.mean fun ω => y ω 0) = 1 / 4 := by
  constructor
  · intro s a
    fin_cases a <;> simp [Law.mean, coin, noisy]
  · refine ⟨fun ω _ => (if ω then 1 else 0) / 2, fun ω => oneRow_returns _ _ _ ?_, ?_⟩
    · rw [dqnTarget_table false _ (noisy ω) (fun _ => rfl) (fun _ => rfl), List.map_cons, List.map_nil]
      congr 1
      unfold best
      refine le_antisymm (Finset.sup'_le _ _ fun a _ => ?_) ?_
      · fin_cases a <;> cases ω <;> simp [noisy]
      · cases ω
        · exact (le_of_eq (by simp [noisy])).trans (Finset.le_sup' (noisy false ()) (Finset.mem_univ 1))
        · exact (le_of_eq (by simp [noisy])).trans (Finset.le_sup' (noisy true ()) (Finset.mem_univ 0))
    · simp [Law.mean, coin]; norm_num

/-- **C275 is violated with double Q-learning**: if the target network has no errors, but the network does not know which action is better, the expectation of the targets
is 1/4 instead of 1/2. -/
theorem C275_violated_double :
    ∃ y : Bool → Fin 1 → ℝ, (∀ ω, Gives (dqnReturns true ⟨tableNet (unsure ω), tableNet exact01, true⟩ oneRow (fun _ => ()) none
      (List.ofFn fun _ : Fin 1 => 0) (1 / 2) 1) (y ω)) ∧ (coin.mean fun ω => y ω 0) = 1 / 4 ∧
      Gives (n := 1) (dqnReturns true ⟨tableNet exact01, tableNet exact01, true⟩ oneRow (fun _ => ()) none (List.ofFn fun _ : Fin 1 => 0) (1 / 2) 1) fun _ => 1 / 2 := by
  have ha : ∀ (O Q : Table Unit 1) (a : Fin 2), (∀ b, b ≠ a → O () b < O () a) → dqnTarget true ⟨tableNet O, tableNet Q, true⟩ [()] none = [Q () a] := by
    intro O Q a h
    rw [doubleTarget, List.map_cons, List.map_nil]
    congr 2
    by_contra hne
    have h1 := h _ hne
    obtain ⟨q, e1, e2, -⟩ := argmax_spec (tableNet O ()) (by simp [tableNet])
    have e3 := table_get O () (chosen O ())
    have e4 := e2 a _ (table_get O () a)
    change (tableNet O ())[argmax (tableNet O ())]? = _ at e3
    rw [e1, Option.some.injEq] at e3
    linarith
  refine ⟨fun ω _ => (if ω then 0 else 1) / 2, fun ω => oneRow_returns _ _ _ ?_, by simp [Law.mean, coin]; norm_num, oneRow_returns _ _ _ ?_⟩
  · cases ω
    · rw [ha _ _ 1 (by intro b hb; fin_cases b <;> simp_all [unsure])]
      simp [exact01]
    · rw [ha _ _ 0 (by intro b hb; fin_cases b <;> simp_all [unsure])]
      simp [exact01]
  · rw [ha _ _ 1 (by intro b hb; fin_cases b <;> simp_all [exact01])]
    simp [exact01]

/-! ### Examples -/

/-- The hypothesis of `C275_certain_partial`, with values that are not certain. -/
example : ∀ s : Unit, ∃ a, ∀ (ω : Bool) b, (fun (ω : Bool) (_ : Unit) (a : Fin 2) => if a = 0 then (0 : ℝ) else if ω then 1 else 2) ω s b ≤
    (fun (ω : Bool) (_ : Unit) (a : Fin 2) => if a = 0 then (0 : ℝ) else if ω then 1 else 2) ω s a := by
  intro s
  refine ⟨1, fun ω b => ?_⟩
  cases ω <;> fin_cases b <;> simp

end Verif.TargetBias
