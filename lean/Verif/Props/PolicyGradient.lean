import Verif.Model.PolicyGradient
import Verif.Props.OnPolicy
import Mathlib.Analysis.SpecialFunctions.Log.Deriv
import Mathlib.Analysis.SpecialFunctions.ExpDeriv
import Mathlib.Tactic.FieldSimp

/-!
C235: the expected gradient of the loss of `PGPolicy` is the gradient of the expected return. C236: the same for `A2CPolicy`, and the first
gradients of PPO and TRPO.
-/

namespace Verif.PolicyGradient

open Verif.OnPolicy Verif.Returns Verif.Stats

set_option linter.unusedSectionVars false

/-! ### Specification: environments and what happens in them -/

/-- A finite environment: probabilities of the first state and of the next states, rewards, and which transitions end the episode. -/
structure Env (S A : Type) where
  init : S → ℝ
  next : S → A → S → ℝ
  rew : S → A → S → ℝ
  ends : S → A → S → Bool

/-- A step: state, action, next state. -/
abbrev Step (S A : Type) := S × A × S

variable {S A : Type} [Fintype S] [Fintype A]

/-- Probabilities add up to one. -/
structure Env.Ok (e : Env S A) : Prop where
  init : ∑ s, e.init s = 1
  next : ∀ s a, ∑ s', e.next s a s' = 1

/-- The expectation of `F` of the steps of an episode from state `s` on, with at most `n` more steps, if actions are chosen with
probabilities `π`. -/
noncomputable def expectFrom (e : Env S A) (π : S → A → ℝ) : Nat → S → (List (Step S A) → ℝ) → ℝ
  | 0, _, F => F []
  | n + 1, s, F => ∑ a, π s a * ∑ s', e.next s a s' *
      (if e.ends s a s' then F [(s, a, s')] else expectFrom e π n s' fun τ => F ((s, a, s') :: τ))

/-- The expectation of `F` of an episode; `n` is the time limit. -/
noncomputable def expectEpisode (e : Env S A) (π : S → A → ℝ) (n : Nat) (F : List (Step S A) → ℝ) : ℝ :=
  ∑ s, e.init s * expectFrom e π n s F

/-- The expectation of `F` of `N` independent episodes. -/
noncomputable def expectBatch (e : Env S A) (π : S → A → ℝ) (n : Nat) : Nat → (List (List (Step S A)) → ℝ) → ℝ
  | 0, F => F []
  | N + 1, F => expectEpisode e π n fun τ => expectBatch e π n N fun τs => F (τ :: τs)

/-- The discounted sum of rewards. -/
def total (rew : S → A → S → ℝ) (gamma : ℝ) : List (Step S A) → ℝ
  | [] => 0
  | x :: l => rew x.1 x.2.1 x.2.2 + gamma * total rew gamma l

/-- The transitions of an episode as they are recorded: the last one is terminated or, at the time limit, truncated. -/
def record (e : Env S A) : List (Step S A) → List (Row S A)
  | [] => []
  | x :: l => ⟨⟨e.rew x.1 x.2.1 x.2.2, e.ends x.1 x.2.1 x.2.2, l.isEmpty && !e.ends x.1 x.2.1 x.2.2⟩, x.1, x.2.2, x.2.1⟩ :: record e l

/-- The transitions of several episodes. -/
def recordAll (e : Env S A) (τs : List (List (Step S A))) : List (Row S A) := (τs.map (record e)).flatten

/-- What is read from a buffer with these transitions, one after the other from position 0 on; there are no unfinished episodes. -/
def view (rows : List (Row S A)) : View ℝ where
  rew i := (rows[i]?.map fun r => r.step.rew).getD 0
  terminated i := (rows[i]?.map fun r => r.step.terminated).getD false
  done i := (rows[i]?.map fun r => r.step.terminated || r.step.truncated).getD false
  unfinished := []
  next i := i + 1

/-- The number of transitions. -/
def steps (τs : List (List (Step S A))) : Nat := (τs.map List.length).sum

/-- The derivative of the loss of `PGPolicy` for the recorded episodes. -/
noncomputable def pgGradient (e : Env S A) (c : Cfg) (rms : RMS Unit ℝ) (perm : Nat → List Nat) (π : ℝ → S → A → ℝ) (θ : ℝ)
    (τs : List (List (Step S A))) : ℝ :=
  deriv (fun θ' => (pgLoss c (view (recordAll e τs)) (recordAll e τs) (List.range (recordAll e τs).length) rms
    (perm (recordAll e τs).length) fun s a => Real.log (π θ' s a)).getD 0) θ

/-- The expected sum of rewards of an episode as a function of the parameter. -/
noncomputable def objective (e : Env S A) (π : ℝ → S → A → ℝ) (n : Nat) (gamma : ℝ) (θ : ℝ) : ℝ :=
  expectEpisode e (π θ) n (total e.rew gamma)

/-- A differentiable family of probability distributions that gives every action a positive probability at `θ`. -/
structure Family (π : ℝ → S → A → ℝ) (π' : S → A → ℝ) (θ : ℝ) : Prop where
  sum : ∀ θ s, ∑ a, π θ s a = 1
  pos : ∀ s a, 0 < π θ s a
  deriv : ∀ s a, HasDerivAt (fun t => π t s a) (π' s a) θ

/-! ### Expectations -/

/-- Steps before the last one do not end the episode. -/
def Proper (e : Env S A) : List (Step S A) → Prop
  | [] => True
  | x :: l => (l ≠ [] → e.ends x.1 x.2.1 x.2.2 = false) ∧ Proper e l

/-- Only lists that can occur matter. -/
theorem expectFrom_congr_of (e : Env S A) (π : S → A → ℝ) (Q : Nat → S → List (Step S A) → Prop) (h0 : ∀ s, Q 0 s [])
    (h1 : ∀ n s a s', e.ends s a s' = true → Q (n + 1) s [(s, a, s')])
    (h2 : ∀ n s a s' τ, e.ends s a s' = false → Q n s' τ → Q (n + 1) s ((s, a, s') :: τ))
    (n : Nat) (s : S) (F G : List (Step S A) → ℝ) (h : ∀ τ, Q n s τ → F τ = G τ) :
    expectFrom e π n s F = expectFrom e π n s G := by
  induction n generalizing s F G with
  | zero => exact h [] (h0 s)
  | succ n ih =>
    unfold expectFrom
    refine Finset.sum_congr rfl fun a _ => ?_
    congr 1
    refine Finset.sum_congr rfl fun s' _ => ?_
    congr 1
    by_cases he : e.ends s a s' = true
    · rw [if_pos he, if_pos he]
      exact h _ (h1 n s a s' he)
    · rw [if_neg he, if_neg he]
      exact ih s' _ _ fun τ hτ => h _ (h2 n s a s' τ (by simpa using he) hτ)

theorem expectFrom_congr (e : Env S A) (π : S → A → ℝ) (n : Nat) (s : S) (F G : List (Step S A) → ℝ)
    (h : ∀ τ, Proper e τ → F τ = G τ) : expectFrom e π n s F = expectFrom e π n s G :=
  expectFrom_congr_of e π (fun _ _ τ => Proper e τ) (fun _ => trivial) (fun _ _ _ _ _ => ⟨fun h => absurd rfl h, trivial⟩)
    (fun _ _ _ _ _ he hτ => ⟨fun _ => he, hτ⟩) n s F G h

/-- Without an end, episodes have the length of the time limit. -/
theorem expectFrom_congr_length (e : Env S A) (π : S → A → ℝ) (hn : ∀ s a s', e.ends s a s' = false) (n : Nat) (s : S)
    (F G : List (Step S A) → ℝ) (h : ∀ τ, Proper e τ → τ.length = n → F τ = G τ) :
    expectFrom e π n s F = expectFrom e π n s G :=
  expectFrom_congr_of e π (fun n _ τ => Proper e τ ∧ τ.length = n) (fun _ => ⟨trivial, rfl⟩)
    (fun _ s a s' he => absurd he (by rw [hn]; simp))
    (fun _ _ _ _ _ he hτ => ⟨⟨fun _ => he, hτ.1⟩, by simp [hτ.2]⟩) n s F G fun τ hτ => h τ hτ.1 hτ.2

theorem expectFrom_add (e : Env S A) (π : S → A → ℝ) (n : Nat) (s : S) (F G : List (Step S A) → ℝ) :
    expectFrom e π n s (fun τ => F τ + G τ) = expectFrom e π n s F + expectFrom e π n s G := by
  induction n generalizing s F G with
  | zero => rfl
  | succ n ih =>
    unfold expectFrom
    rw [← Finset.sum_add_distrib]
    refine Finset.sum_congr rfl fun a _ => ?_
    rw [← mul_add, ← Finset.sum_add_distrib]
    congr 1
    refine Finset.sum_congr rfl fun s' _ => ?_
    rw [← mul_add]
    congr 1
    split
    · rfl
    · exact ih s' _ _

theorem expectFrom_mul (e : Env S A) (π : S → A → ℝ) (n : Nat) (s : S) (k : ℝ) (F : List (Step S A) → ℝ) :
    expectFrom e π n s (fun τ => k * F τ) = k * expectFrom e π n s F := by
  induction n generalizing s F with
  | zero => rfl
  | succ n ih =>
    unfold expectFrom
    rw [Finset.mul_sum]
    refine Finset.sum_congr rfl fun a _ => ?_
    rw [mul_left_comm]
    congr 1
    rw [Finset.mul_sum]
    refine Finset.sum_congr rfl fun s' _ => ?_
    rw [mul_left_comm]
    congr 1
    split
    · rfl
    · exact ih s' _

theorem expectFrom_const (e : Env S A) (he : e.Ok) (π : S → A → ℝ) (hπ : ∀ s, ∑ a, π s a = 1) (n : Nat) (s : S) (k : ℝ) :
    expectFrom e π n s (fun _ => k) = k := by
  induction n generalizing s with
  | zero => rfl
  | succ n ih =>
    unfold expectFrom
    have : ∀ a s', (if e.ends s a s' = true then k else expectFrom e π n s' fun _ => k) = k := by
      intro a s'
      split
      · rfl
      · exact ih s'
    simp only [this]
    simp only [← Finset.sum_mul, he.next, one_mul, hπ]

theorem expectEpisode_congr (e : Env S A) (π : S → A → ℝ) (n : Nat) (F G : List (Step S A) → ℝ)
    (h : ∀ τ, Proper e τ → F τ = G τ) : expectEpisode e π n F = expectEpisode e π n G :=
  Finset.sum_congr rfl fun s _ => by rw [expectFrom_congr e π n s F G h]

theorem expectEpisode_add (e : Env S A) (π : S → A → ℝ) (n : Nat) (F G : List (Step S A) → ℝ) :
    expectEpisode e π n (fun τ => F τ + G τ) = expectEpisode e π n F + expectEpisode e π n G := by
  unfold expectEpisode
  simp only [expectFrom_add, mul_add, Finset.sum_add_distrib]

theorem expectEpisode_mul (e : Env S A) (π : S → A → ℝ) (n : Nat) (k : ℝ) (F : List (Step S A) → ℝ) :
    expectEpisode e π n (fun τ => k * F τ) = k * expectEpisode e π n F := by
  unfold expectEpisode
  rw [Finset.mul_sum]
  exact Finset.sum_congr rfl fun s _ => by rw [expectFrom_mul, mul_left_comm]

theorem expectEpisode_const (e : Env S A) (he : e.Ok) (π : S → A → ℝ) (hπ : ∀ s, ∑ a, π s a = 1) (n : Nat) (k : ℝ) :
    expectEpisode e π n (fun _ => k) = k := by
  unfold expectEpisode
  simp only [expectFrom_const e he π hπ, ← Finset.sum_mul, he.init, one_mul]

theorem expectBatch_congr (e : Env S A) (π : S → A → ℝ) (n N : Nat) (F G : List (List (Step S A)) → ℝ)
    (h : ∀ τs, (∀ τ ∈ τs, Proper e τ) → F τs = G τs) : expectBatch e π n N F = expectBatch e π n N G := by
  induction N generalizing F G with
  | zero => exact h [] (by simp)
  | succ N ih =>
    unfold expectBatch
    refine expectEpisode_congr e π n _ _ fun τ hτ => ih _ _ fun τs hτs => h _ ?_
    intro x hx
    rcases List.mem_cons.mp hx with rfl | hx
    · exact hτ
    · exact hτs x hx

/-- Sums over the episodes of a batch. -/
theorem expectBatch_sum (e : Env S A) (he : e.Ok) (π : S → A → ℝ) (hπ : ∀ s, ∑ a, π s a = 1) (n N : Nat) (k : ℝ)
    (F : List (Step S A) → ℝ) :
    expectBatch e π n N (fun τs => k + (τs.map F).sum) = k + N * expectEpisode e π n F := by
  induction N generalizing k with
  | zero => simp [expectBatch]
  | succ N ih =>
    unfold expectBatch
    have : ∀ τ : List (Step S A), (fun τs : List (List (Step S A)) => k + ((τ :: τs).map F).sum) = fun τs => (k + F τ) + (τs.map F).sum := by
      intro τ
      funext τs
      simp [add_assoc]
    simp only [this, ih]
    have h2 : (fun τ : List (Step S A) => k + F τ + N * expectEpisode e π n F) =
        fun τ => (k + N * expectEpisode e π n F) + F τ := by funext τ; ring
    rw [h2, expectEpisode_add, expectEpisode_const e he π hπ]
    push_cast
    ring

theorem expectBatch_congr_length (e : Env S A) (π : S → A → ℝ) (hn : ∀ s a s', e.ends s a s' = false) (n N : Nat)
    (F G : List (List (Step S A)) → ℝ)
    (h : ∀ τs, (∀ τ ∈ τs, Proper e τ ∧ τ.length = n) → τs.length = N → F τs = G τs) :
    expectBatch e π n N F = expectBatch e π n N G := by
  induction N generalizing F G with
  | zero => exact h [] (by simp) rfl
  | succ N ih =>
    unfold expectBatch
    unfold expectEpisode
    refine Finset.sum_congr rfl fun s _ => ?_
    congr 1
    refine expectFrom_congr_length e π hn n s _ _ fun τ hτ hl => ih _ _ fun τs hτs hN => h _ ?_ (by simp [hN])
    intro x hx
    rcases List.mem_cons.mp hx with rfl | hx
    · exact ⟨hτ, hl⟩
    · exact hτs x hx

theorem expectBatch_mul (e : Env S A) (π : S → A → ℝ) (n N : Nat) (k : ℝ) (F : List (List (Step S A)) → ℝ) :
    expectBatch e π n N (fun τs => k * F τs) = k * expectBatch e π n N F := by
  induction N generalizing F with
  | zero => rfl
  | succ N ih =>
    unfold expectBatch
    simp only [ih, expectEpisode_mul]

/-! ### The policy gradient -/

/-- The sum over the steps of the derivative of the log-probability times the discounted sum of rewards from there on. -/
noncomputable def score (π π' : S → A → ℝ) (rew : S → A → S → ℝ) (gamma : ℝ) : List (Step S A) → ℝ
  | [] => 0
  | x :: l => π' x.1 x.2.1 / π x.1 x.2.1 * total rew gamma (x :: l) + score π π' rew gamma l

theorem total_one (rew : S → A → S → ℝ) (x : Step S A) (l : List (Step S A)) :
    total rew 1 (x :: l) = rew x.1 x.2.1 x.2.2 + total rew 1 l := by simp [total]

/-- The derivative of the expected sum of rewards is the expectation of the scores. -/
theorem hasDerivAt_expectFrom (e : Env S A) (he : e.Ok) (π : ℝ → S → A → ℝ) (π' : S → A → ℝ) (θ : ℝ) (hπ : Family π π' θ)
    (rew : S → A → S → ℝ) (n : Nat) (s : S) :
    HasDerivAt (fun t => expectFrom e (π t) n s (total rew 1)) (expectFrom e (π θ) n s (score (π θ) π' rew 1)) θ := by
  induction n generalizing s with
  | zero => exact hasDerivAt_const θ _
  | succ n ih =>
    have h1 : ∀ t, expectFrom e (π t) (n + 1) s (total rew 1) = ∑ a, π t s a * ∑ s', e.next s a s' *
        (rew s a s' + if e.ends s a s' then 0 else expectFrom e (π t) n s' (total rew 1)) := by
      intro t
      rw [expectFrom]
      refine Finset.sum_congr rfl fun a _ => ?_
      congr 1
      refine Finset.sum_congr rfl fun s' _ => ?_
      congr 1
      split
      · simp [total]
      · have : (fun τ : List (Step S A) => total rew 1 ((s, a, s') :: τ)) = fun τ => rew s a s' + total rew 1 τ := by
          funext τ; exact total_one rew _ _
        rw [this, expectFrom_add, expectFrom_const e he (π t) (hπ.sum t)]
    have h2 : expectFrom e (π θ) (n + 1) s (score (π θ) π' rew 1) = ∑ a, (π' s a * ∑ s', e.next s a s' *
          (rew s a s' + if e.ends s a s' then 0 else expectFrom e (π θ) n s' (total rew 1)) +
        π θ s a * ∑ s', e.next s a s' *
          if e.ends s a s' then 0 else expectFrom e (π θ) n s' (score (π θ) π' rew 1)) := by
      rw [expectFrom]
      refine Finset.sum_congr rfl fun a _ => ?_
      have hp : π θ s a ≠ 0 := (hπ.pos s a).ne'
      rw [Finset.mul_sum, Finset.mul_sum, Finset.mul_sum, ← Finset.sum_add_distrib]
      refine Finset.sum_congr rfl fun s' _ => ?_
      split
      · simp only [score, total]
        field_simp
      · have : (fun τ : List (Step S A) => score (π θ) π' rew 1 ((s, a, s') :: τ)) =
            fun τ => (π' s a / π θ s a * rew s a s' + π' s a / π θ s a * total rew 1 τ) + score (π θ) π' rew 1 τ := by
          funext τ
          simp only [score, total]
          ring
        rw [this, expectFrom_add, expectFrom_add, expectFrom_const e he (π θ) (hπ.sum θ), expectFrom_mul]
        field_simp
    rw [h2]
    have h3 : (fun t => expectFrom e (π t) (n + 1) s (total rew 1)) = fun t => ∑ a, π t s a * ∑ s', e.next s a s' *
        (rew s a s' + if e.ends s a s' then 0 else expectFrom e (π t) n s' (total rew 1)) := funext h1
    rw [h3]
    refine HasDerivAt.fun_sum fun a _ => ?_
    refine (hπ.deriv s a).mul ?_
    refine HasDerivAt.fun_sum fun s' _ => ?_
    refine HasDerivAt.const_mul _ ?_
    split
    · simpa using hasDerivAt_const θ (rew s a s')
    · exact (ih s').const_add _

theorem hasDerivAt_expectEpisode (e : Env S A) (he : e.Ok) (π : ℝ → S → A → ℝ) (π' : S → A → ℝ) (θ : ℝ) (hπ : Family π π' θ)
    (rew : S → A → S → ℝ) (n : Nat) :
    HasDerivAt (fun t => expectEpisode e (π t) n (total rew 1)) (expectEpisode e (π θ) n (score (π θ) π' rew 1)) θ :=
  HasDerivAt.fun_sum fun s _ => (hasDerivAt_expectFrom e he π π' θ hπ rew n s).const_mul _

/-! ### The losses -/

theorem products_range (rows : List (Row S A)) (x : List ℝ) (hx : x.length = rows.length) (f : Row S A → ℝ → ℝ) :
    products rows x (List.range rows.length) f = List.zipWith f rows x := by
  induction rows generalizing x with
  | nil => simp [products]
  | cons r rows ih =>
    cases x with
    | nil => simp at hx
    | cons g x =>
      have hx' : x.length = rows.length := by simpa using hx
      have ih' := ih x hx'
      unfold products at ih' ⊢
      rw [List.length_cons, List.range_succ_eq_map, List.filterMap_cons]
      simp only [List.getElem?_cons_zero, List.filterMap_map, List.zipWith_cons_cons]
      congr 1

theorem products_perm (rows : List (Row S A)) (x : List ℝ) (perm : List Nat) (hp : perm.Perm (List.range rows.length))
    (hx : x.length = rows.length) (f : Row S A → ℝ → ℝ) :
    (products rows x perm f).Perm (List.zipWith f rows x) := by
  rw [← products_range rows x hx f]
  exact hp.filterMap _

theorem mean_products (rows : List (Row S A)) (x : List ℝ) (perm : List Nat) (hp : perm.Perm (List.range rows.length))
    (hx : x.length = rows.length) (f : Row S A → ℝ → ℝ) :
    Ppo.mean (products rows x perm f) = (List.zipWith f rows x).sum / rows.length := by
  have h := products_perm rows x perm hp hx f
  unfold Ppo.mean
  rw [h.sum_eq, h.length_eq, List.length_zipWith, hx, min_self]

theorem hasDerivAt_sum (rows : List (Row S A)) (x : List ℝ) (f : ℝ → Row S A → ℝ → ℝ) (f' : Row S A → ℝ → ℝ) (θ : ℝ)
    (h : ∀ r g, HasDerivAt (fun t => f t r g) (f' r g) θ) :
    HasDerivAt (fun t => (List.zipWith (f t) rows x).sum) (List.zipWith f' rows x).sum θ := by
  induction rows generalizing x with
  | nil => simpa using hasDerivAt_const θ (0 : ℝ)
  | cons r rows ih =>
    cases x with
    | nil => simpa using hasDerivAt_const θ (0 : ℝ)
    | cons g x =>
      simp only [List.zipWith_cons_cons, List.sum_cons]
      exact (h r g).add (ih x)

/-- The derivative of minus the mean. -/
theorem hasDerivAt_mean (rows : List (Row S A)) (x : List ℝ) (perm : List Nat) (hp : perm.Perm (List.range rows.length))
    (hx : x.length = rows.length) (f : ℝ → Row S A → ℝ → ℝ) (f' : Row S A → ℝ → ℝ) (θ : ℝ)
    (h : ∀ r g, HasDerivAt (fun t => f t r g) (f' r g) θ) :
    HasDerivAt (fun t => -(Ppo.mean (products rows x perm (f t)))) (-((List.zipWith f' rows x).sum / rows.length)) θ := by
  have : (fun t => -(Ppo.mean (products rows x perm (f t)))) = fun t => -((List.zipWith (f t) rows x).sum / rows.length) := by
    funext t
    rw [mean_products rows x perm hp hx]
  rw [this]
  exact ((hasDerivAt_sum rows x f f' θ h).div_const _).neg

theorem hasDerivAt_weightedLogLoss (rows : List (Row S A)) (x : List ℝ) (perm : List Nat) (hp : perm.Perm (List.range rows.length))
    (hx : x.length = rows.length) (π : ℝ → S → A → ℝ) (π' : S → A → ℝ) (θ : ℝ) (hπ : Family π π' θ) :
    HasDerivAt (fun t => weightedLogLoss rows x perm fun s a => Real.log (π t s a))
      (-((List.zipWith (fun r g => π' r.obs r.act / π θ r.obs r.act * g) rows x).sum / rows.length)) θ :=
  hasDerivAt_mean rows x perm hp hx _ _ θ fun r g => ((hπ.deriv r.obs r.act).log (hπ.pos _ _).ne').mul_const g

/-! ### Returns and advantages of recorded episodes -/

theorem gaeLoop_append (a b : List (ℝ × ℝ)) (h : ∀ x, a.getLast? = some x → x.2 = 0) :
    gaeLoop (a ++ b) = gaeLoop a ++ gaeLoop b := by
  induction a with
  | nil => rfl
  | cons x a ih =>
    cases a with
    | nil =>
      have h0 : x.2 = 0 := h x rfl
      obtain ⟨d, k⟩ := x
      simp only at h0
      subst h0
      simp [gaeLoop]
    | cons y a =>
      have ih' := ih fun z hz => h z (by rw [List.getLast?_cons_cons]; exact hz)
      obtain ⟨d, k⟩ := x
      obtain ⟨d', k'⟩ := y
      rw [List.cons_append, List.cons_append] at *
      simp only [gaeLoop] at ih' ⊢
      rw [ih']
      simp

theorem gaeLoop_flatten (l : List (List (ℝ × ℝ))) (h : ∀ a ∈ l, ∀ x, a.getLast? = some x → x.2 = 0) :
    gaeLoop l.flatten = (l.map gaeLoop).flatten := by
  induction l with
  | nil => rfl
  | cons a l ih =>
    rw [List.flatten_cons, gaeLoop_append a _ (h a (by simp)), ih fun b hb => h b (by simp [hb])]
    rfl

theorem gaeLoop_length (l : List (ℝ × ℝ)) : (gaeLoop l).length = l.length := by
  induction l with
  | nil => rfl
  | cons x l ih => obtain ⟨a, b⟩ := x; simp [gaeLoop, ih]

/-- What a row contributes: the temporal difference and the factor for the rest. -/
def delta (gamma lam : ℝ) (v v' : Row S A → ℝ) (r : Row S A) : ℝ × ℝ :=
  (r.step.rew + (if r.step.terminated then 0 else v' r) * gamma - v r,
    if r.step.terminated || r.step.truncated then 0 else gamma * lam)

theorem map_range_get {α : Type} (rows : List (Row S A)) (f : Nat → α) (g : Row S A → α)
    (h : ∀ i r, rows[i]? = some r → f i = g r) : (List.range rows.length).map f = rows.map g := by
  apply List.ext_getElem
  · simp
  · intro i h1 h2
    have hi : i < rows.length := by simpa using h1
    simp only [List.getElem_map, List.getElem_range]
    exact h i _ (List.getElem?_eq_getElem hi)

theorem zipWith_range_get {α : Type} (rows : List (Row S A)) (f : BRow ℝ → Nat → α) (g : Row S A → α)
    (h : ∀ i r, rows[i]? = some r → f r.step i = g r) :
    List.zipWith f (rows.map Row.step) (List.range rows.length) = rows.map g := by
  apply List.ext_getElem
  · simp
  · intro i h1 h2
    have hi : i < rows.length := by simpa using h2
    simp only [List.getElem_map, List.getElem_range, List.getElem_zipWith]
    exact h i _ (List.getElem?_eq_getElem hi)

theorem zipWith_map_map {α β γ δ : Type} (l : List α) (f : β → γ → δ) (g : α → β) (h : α → γ) :
    List.zipWith f (l.map g) (l.map h) = l.map fun x => f (g x) (h x) := by
  induction l with
  | nil => rfl
  | cons a l ih => simp [ih]

theorem advantage_eq (rows : List (Row S A)) (v v' : Row S A → ℝ) (gamma lam : ℝ) :
    gaeReturn (rows.map v) (rows.map fun r => if r.step.terminated then 0 else v' r) ((rows.map Row.step).map BRow.rew)
      (rows.map fun r => r.step.terminated || r.step.truncated) gamma lam = gaeLoop (rows.map (delta gamma lam v v')) := by
  unfold gaeReturn
  simp only
  rw [List.map_map, zipWith_map_map, zipWith_map_map, List.map_map, List.zip, zipWith_map_map]
  congr 1
  refine List.map_congr_left fun r _ => ?_
  unfold delta mask
  simp only [Function.comp]
  congr 1
  by_cases h : (r.step.terminated || r.step.truncated) = true <;> simp [h]

theorem endFlag_eq (rows : List (Row S A)) :
    List.zipWith (fun (r : BRow ℝ) i => (r.terminated || r.truncated) || (view rows).unfinished.contains i)
      (rows.map Row.step) (List.range rows.length) = rows.map fun r => r.step.terminated || r.step.truncated :=
  zipWith_range_get rows _ _ fun i r _ => by simp [view]

theorem nextValues_eq (rows : List (Row S A)) (rew : List ℝ) (v' : Row S A → ℝ) :
    nextValues (view rows) (List.range rows.length) rew (some (rows.map v')) =
      rows.map fun r => if r.step.terminated then 0 else v' r := by
  unfold nextValues valueMask
  simp only
  rw [map_range_get rows (fun i => !(view rows).terminated i) (fun r => !r.step.terminated)
    fun i r h => by simp [view, h], zipWith_map_map]
  refine List.map_congr_left fun r _ => ?_
  unfold mask
  cases r.step.terminated <;> rfl

/-- Advantages with a critic. -/
theorem gae_eq (rows : List (Row S A)) (v v' : Row S A → ℝ) (gamma lam : ℝ) (isClose : Bool) :
    ∃ ret, computeEpisodicReturn (view rows) (rows.map Row.step) (List.range rows.length) (some (rows.map v')) (some (rows.map v))
      gamma lam isClose = some (ret, gaeLoop (rows.map (delta gamma lam v v'))) := by
  unfold computeEpisodicReturn
  simp only [Option.isNone_some, Bool.false_eq_true, false_and, if_false]
  rw [nextValues_eq, endFlag_eq]
  unfold curValues
  simp only
  rw [advantage_eq]
  exact ⟨_, rfl⟩

theorem roll_zero {α : Type} (l : List α) : roll (l.map fun _ => (0 : ℝ)) = l.map fun _ => (0 : ℝ) := by
  cases l with
  | nil => rfl
  | cons a l =>
    have h : ∀ x ∈ (a :: l).map (fun _ => (0 : ℝ)), x = 0 := by
      intro x hx
      obtain ⟨_, _, rfl⟩ := List.mem_map.mp hx
      rfl
    apply List.ext_getElem
    · simp [roll]
    · intro i h1 h2
      have e1 : (roll ((a :: l).map fun _ => (0 : ℝ)))[i] = 0 := by
        have hm := List.getElem_mem h1
        unfold roll at hm
        simp only [List.map_cons] at hm
        rcases List.mem_cons.mp hm with h' | h'
        · exact (by
            have := List.getLast_mem (l := (a :: l).map fun _ => (0 : ℝ)) (by simp)
            have h3 := h _ this
            simpa [roll] using h'.trans h3)
        · exact h _ (List.dropLast_subset _ h')
      rw [e1]
      exact (h _ (List.getElem_mem h2)).symm

/-- Returns of `PGPolicy`. -/
theorem pgReturns_eq (rows : List (Row S A)) (c : Cfg) (hc : c.rewNorm = false) (rms : RMS Unit ℝ) (hr : rms.mean () = 0) :
    pgReturns c (view rows) (rows.map Row.step) (List.range rows.length) rms =
      some (gaeLoop (rows.map (delta c.gamma 1 (fun _ => 0) fun _ => 0)), rms) := by
  have h0 : (List.range rows.length).map (fun _ => rms.mean ()) = rows.map fun _ => (0 : ℝ) :=
    map_range_get rows _ _ fun _ _ _ => hr
  unfold pgReturns
  rw [h0]
  unfold computeEpisodicReturn
  simp only [Option.isNone_some, Bool.false_eq_true, false_and, if_false, hc]
  rw [nextValues_eq, endFlag_eq]
  unfold curValues
  simp only [ite_self]
  rw [roll_zero]
  have := advantage_eq rows (fun _ => 0) (fun _ => 0) c.gamma 1
  simp only [ite_self] at this
  rw [this]
  simp only [Option.map_some, Option.some.injEq, Prod.mk.injEq, and_true]
  apply List.ext_getElem
  · simp [gaeLoop_length]
  · intro i h1 h2
    simp

/-- The advantages (or returns) of the steps of an episode. -/
def advs (e : Env S A) (gamma lam : ℝ) (v v' : Row S A → ℝ) (τ : List (Step S A)) : List ℝ :=
  gaeLoop ((record e τ).map (delta gamma lam v v'))

theorem record_last (e : Env S A) (gamma lam : ℝ) (v v' : Row S A → ℝ) (τ : List (Step S A)) (x : ℝ × ℝ)
    (h : ((record e τ).map (delta gamma lam v v')).getLast? = some x) : x.2 = 0 := by
  induction τ with
  | nil => simp [record] at h
  | cons y τ ih =>
    cases τ with
    | nil =>
      simp only [record, List.map_cons, List.map_nil, List.getLast?_singleton, Option.some.injEq] at h
      subst h
      unfold delta
      simp
    | cons z τ =>
      apply ih
      rw [← h]
      simp [record, List.getLast?_cons_cons]

theorem record_length (e : Env S A) (τ : List (Step S A)) : (record e τ).length = τ.length := by
  induction τ with
  | nil => rfl
  | cons x τ ih => simp [record, ih]

theorem recordAll_length (e : Env S A) (τs : List (List (Step S A))) : (recordAll e τs).length = steps τs := by
  unfold recordAll steps
  rw [List.length_flatten, List.map_map]
  congr 1
  exact List.map_congr_left fun τ _ => record_length e τ

theorem gaeLoop_recordAll (e : Env S A) (gamma lam : ℝ) (v v' : Row S A → ℝ) (τs : List (List (Step S A))) :
    gaeLoop ((recordAll e τs).map (delta gamma lam v v')) = (τs.map (advs e gamma lam v v')).flatten := by
  unfold recordAll
  rw [List.map_flatten, gaeLoop_flatten]
  · rw [List.map_map, List.map_map]
    rfl
  · intro a ha x hx
    rw [List.map_map] at ha
    obtain ⟨τ, -, rfl⟩ := List.mem_map.mp ha
    exact record_last e gamma lam v v' τ x hx

theorem sum_recordAll (e : Env S A) (gamma lam : ℝ) (v v' : Row S A → ℝ) (f : Row S A → ℝ → ℝ) (τs : List (List (Step S A))) :
    (List.zipWith f (recordAll e τs) (τs.map (advs e gamma lam v v')).flatten).sum =
      (τs.map fun τ => (List.zipWith f (record e τ) (advs e gamma lam v v' τ)).sum).sum := by
  induction τs with
  | nil => simp [recordAll]
  | cons τ τs ih =>
    have hl : (record e τ).length = (advs e gamma lam v v' τ).length := by simp [advs, gaeLoop_length]
    have : recordAll e (τ :: τs) = record e τ ++ recordAll e τs := by simp [recordAll]
    rw [this, List.map_cons, List.flatten_cons, List.zipWith_append hl, List.sum_append, ih]
    simp

/-- The temporal difference of a step. -/
def stepDelta (e : Env S A) (gamma : ℝ) (v : S → ℝ) (s : S) (a : A) (s' : S) : ℝ :=
  e.rew s a s' + (if e.ends s a s' then 0 else v s') * gamma - v s

/-- With lambda 1, advantages are discounted sums of temporal differences. -/
theorem advs_head (e : Env S A) (gamma : ℝ) (v : S → ℝ) (τ : List (Step S A)) (h : Proper e τ) :
    (advs e gamma 1 (fun r => v r.obs) (fun r => v r.obsNext) τ).headD 0 = total (stepDelta e gamma v) gamma τ := by
  induction τ with
  | nil => rfl
  | cons x τ ih =>
    have ih' := ih h.2
    unfold advs at ih' ⊢
    simp only [record, List.map_cons, gaeLoop, delta, List.headD_cons, total]
    rw [ih']
    unfold stepDelta
    cases τ with
    | nil => simp [total]
    | cons y τ =>
      have := h.1 (by simp)
      simp [this]

theorem sum_advs (e : Env S A) (gamma : ℝ) (v : S → ℝ) (π π' : S → A → ℝ) (τ : List (Step S A)) (h : Proper e τ) :
    (List.zipWith (fun r g => π' r.obs r.act / π r.obs r.act * g) (record e τ)
      (advs e gamma 1 (fun r => v r.obs) (fun r => v r.obsNext) τ)).sum = score π π' (stepDelta e gamma v) gamma τ := by
  induction τ with
  | nil => simp [record, score]
  | cons x τ ih =>
    have hh := advs_head e gamma v (x :: τ) h
    have : advs e gamma 1 (fun r => v r.obs) (fun r => v r.obsNext) (x :: τ) =
        (advs e gamma 1 (fun r => v r.obs) (fun r => v r.obsNext) (x :: τ)).headD 0 ::
          advs e gamma 1 (fun r => v r.obs) (fun r => v r.obsNext) τ := by
      unfold advs
      simp [record, gaeLoop]
    rw [this, hh]
    simp only [record, List.zipWith_cons_cons, List.sum_cons, score]
    rw [ih h.2]

/-- The derivative of the loss for recorded episodes, times the number of transitions. -/
theorem steps_mul (e : Env S A) (gamma : ℝ) (v : S → ℝ) (perm : Nat → List Nat) (hperm : ∀ k, (perm k).Perm (List.range k))
    (π : ℝ → S → A → ℝ) (π' : S → A → ℝ) (θ : ℝ) (hπ : Family π π' θ) (τs : List (List (Step S A)))
    (h : ∀ τ ∈ τs, Proper e τ) :
    (steps τs : ℝ) * deriv (fun t => weightedLogLoss (recordAll e τs)
        (gaeLoop ((recordAll e τs).map (delta gamma 1 (fun r => v r.obs) fun r => v r.obsNext))) (perm (recordAll e τs).length)
        fun s a => Real.log (π t s a)) θ =
      0 + (τs.map fun τ => -1 * score (π θ) π' (stepDelta e gamma v) gamma τ).sum := by
  rw [(hasDerivAt_weightedLogLoss _ _ _ (hperm _) (by simp [gaeLoop_length]) π π' θ hπ).deriv, gaeLoop_recordAll, sum_recordAll,
    recordAll_length]
  have e1 : (τs.map fun τ => (List.zipWith (fun r g => π' r.obs r.act / π θ r.obs r.act * g) (record e τ)
      (advs e gamma 1 (fun r => v r.obs) (fun r => v r.obsNext) τ)).sum) =
      τs.map fun τ => score (π θ) π' (stepDelta e gamma v) gamma τ :=
    List.map_congr_left fun τ hτ => sum_advs e gamma v (π θ) π' τ (h τ hτ)
  rw [e1, List.sum_map_mul_left]
  by_cases h0 : steps τs = 0
  · have hz : (τs.map fun τ => score (π θ) π' (stepDelta e gamma v) gamma τ).sum = 0 := by
      apply List.sum_eq_zero
      intro x hx
      obtain ⟨τ, hτ, rfl⟩ := List.mem_map.mp hx
      have : τ.length = 0 := by
        unfold steps at h0
        exact List.sum_eq_zero_iff.mp h0 _ (List.mem_map.mpr ⟨τ, hτ, rfl⟩)
      rw [List.length_eq_zero_iff.mp this]
      rfl
    rw [hz, h0]
    simp
  · have : (steps τs : ℝ) ≠ 0 := by exact_mod_cast h0
    field_simp
    ring

/-! ### C235 -/

theorem stepDelta_zero (e : Env S A) (gamma : ℝ) : stepDelta e gamma (fun _ => 0) = e.rew := by
  funext s a s'
  simp [stepDelta]

/-- **C235 (partial).** For every finite environment, time limit, differentiable family of policies and number of episodes: with discount
factor 1 and without normalisation, the expectation of the number of transitions times the derivative of the loss of `PGPolicy`, over episodes
played with the policy, is minus the number of episodes times the derivative of the expected sum of rewards of an episode. Missing: discount
factors below 1 (`C235_discount_violated`), and the division by the number of transitions if it is not fixed (`C235_length_violated`). -/
theorem C235_partial (e : Env S A) (he : e.Ok) (c : Cfg) (hg : c.gamma = 1) (hc : c.rewNorm = false) (rms : RMS Unit ℝ)
    (hr : rms.mean () = 0) (perm : Nat → List Nat) (hperm : ∀ k, (perm k).Perm (List.range k))
    (π : ℝ → S → A → ℝ) (π' : S → A → ℝ) (θ : ℝ) (hπ : Family π π' θ) (n N : Nat) :
    expectBatch e (π θ) n N (fun τs => steps τs * pgGradient e c rms perm π θ τs) = -(N * deriv (objective e π n 1) θ) := by
  have h1 : ∀ τs : List (List (Step S A)), (∀ τ ∈ τs, Proper e τ) → (steps τs : ℝ) * pgGradient e c rms perm π θ τs =
      0 + (τs.map fun τ => -1 * score (π θ) π' e.rew 1 τ).sum := by
    intro τs h
    unfold pgGradient pgLoss
    rw [pgReturns_eq _ c hc rms hr]
    simp only [Option.map_some, Option.getD_some, hg]
    have := steps_mul e 1 (fun _ => 0) perm hperm π π' θ hπ τs h
    rw [stepDelta_zero] at this
    exact this
  rw [expectBatch_congr e (π θ) n N _ _ h1, expectBatch_sum e he (π θ) (hπ.sum θ), expectEpisode_mul]
  have h2 : deriv (objective e π n 1) θ = expectEpisode e (π θ) n (score (π θ) π' e.rew 1) :=
    (hasDerivAt_expectEpisode e he π π' θ hπ e.rew n).deriv
  rw [h2]
  ring

/-- No step is refused: the loss exists for all episodes. -/
theorem C235_defined (e : Env S A) (c : Cfg) (hc : c.rewNorm = false) (rms : RMS Unit ℝ)
    (hr : rms.mean () = 0) (perm : List Nat) (logp : S → A → ℝ) (τs : List (List (Step S A))) :
    (pgLoss c (view (recordAll e τs)) (recordAll e τs) (List.range (recordAll e τs).length) rms perm logp).isSome := by
  unfold pgLoss
  rw [pgReturns_eq _ c hc rms hr]
  rfl

/-- **C235 (partial)**, episodes of fixed length: the expected derivative of the loss is minus the derivative of the expected sum of rewards,
divided by the length. -/
theorem C235_fixed_partial (e : Env S A) (he : e.Ok) (hn : ∀ s a s', e.ends s a s' = false) (c : Cfg) (hg : c.gamma = 1)
    (hc : c.rewNorm = false) (rms : RMS Unit ℝ)
    (hr : rms.mean () = 0) (perm : Nat → List Nat) (hperm : ∀ k, (perm k).Perm (List.range k))
    (π : ℝ → S → A → ℝ) (π' : S → A → ℝ) (θ : ℝ) (hπ : Family π π' θ) (n N : Nat) (h1 : 1 ≤ n) (h2 : 1 ≤ N) :
    expectBatch e (π θ) n N (pgGradient e c rms perm π θ) = -(deriv (objective e π n 1) θ / n) := by
  have hs : ∀ τs : List (List (Step S A)), (∀ τ ∈ τs, Proper e τ ∧ τ.length = n) → τs.length = N → steps τs = N * n := by
    intro τs h hN
    unfold steps
    have : τs.map List.length = List.replicate N n := by
      rw [List.eq_replicate_iff]
      refine ⟨by simpa using hN, ?_⟩
      intro b hb
      obtain ⟨τ, hτ, rfl⟩ := List.mem_map.mp hb
      exact (h τ hτ).2
    rw [this]
    simp
  have key := C235_partial e he c hg hc rms hr perm hperm π π' θ hπ n N
  rw [expectBatch_congr_length e (π θ) hn n N (fun τs => (steps τs : ℝ) * pgGradient e c rms perm π θ τs)
    (fun τs => ((N * n : Nat) : ℝ) * pgGradient e c rms perm π θ τs) fun τs h hN => by rw [hs τs h hN], expectBatch_mul] at key
  have hN0 : (N : ℝ) ≠ 0 := by exact_mod_cast (by omega : N ≠ 0)
  have hn0 : (n : ℝ) ≠ 0 := by exact_mod_cast (by omega : n ≠ 0)
  push_cast at key
  have e1 : expectBatch e (π θ) n N (fun τs => pgGradient e c rms perm π θ τs) = -(deriv (objective e π n 1) θ / n) := by
    rw [eq_comm, neg_eq_iff_eq_neg, div_eq_iff hn0]
    have : (N : ℝ) * (deriv (objective e π n 1) θ) = N * (-(expectBatch e (π θ) n N fun τs => pgGradient e c rms perm π θ τs) * n) := by
      linarith
    exact mul_left_cancel₀ hN0 this
  exact e1

/-! ### Discounting and different lengths -/

theorem pgGradient_eq (e : Env S A) (c : Cfg) (hc : c.rewNorm = false) (rms : RMS Unit ℝ) (hr : rms.mean () = 0)
    (perm : Nat → List Nat) (hperm : ∀ k, (perm k).Perm (List.range k)) (π : ℝ → S → A → ℝ) (π' : S → A → ℝ) (θ : ℝ)
    (hπ : Family π π' θ) (τ : List (Step S A)) (h : Proper e τ) (hne : τ ≠ []) :
    pgGradient e c rms perm π θ [τ] = -(score (π θ) π' e.rew c.gamma τ / τ.length) := by
  have := steps_mul e c.gamma (fun _ => 0) perm hperm π π' θ hπ [τ] (by simpa using h)
  rw [stepDelta_zero] at this
  have hl : (τ.length : ℝ) ≠ 0 := by exact_mod_cast (by simpa using hne : τ.length ≠ 0)
  unfold pgGradient pgLoss
  rw [pgReturns_eq _ c hc rms hr]
  simp only [Option.map_some, Option.getD_some]
  simp only [steps, List.map_cons, List.map_nil, List.sum_cons, List.sum_nil, add_zero, zero_add, neg_one_mul] at this
  rw [← neg_div, eq_div_iff hl, mul_comm]
  exact this

/-- The two environments below have the states 0 (first) and 1, and two actions. -/
noncomputable def linear (slope : ℝ) (θ : ℝ) (_ : Fin 2) (a : Bool) : ℝ := if a then 1 / 2 + slope * θ else 1 / 2 - slope * θ

theorem linear_family (slope : ℝ) : Family (linear slope) (fun _ a => if a then slope else -slope) 0 where
  sum θ s := by
    simp [linear]
    norm_num
  pos s a := by cases a <;> simp [linear]
  deriv s a := by
    cases a
    · have := ((hasDerivAt_id' (0 : ℝ)).const_mul slope).const_sub (1 / 2)
      simpa only [linear, mul_one, Bool.false_eq_true, if_false] using this
    · have := ((hasDerivAt_id' (0 : ℝ)).const_mul slope).const_add (1 / 2)
      simpa only [linear, mul_one, if_true] using this

/-- Two steps. In the first, action `true` gives the reward 3; in the second, action `false` gives 4. -/
noncomputable def twoSteps : Env (Fin 2) Bool where
  init s := if s = 0 then 1 else 0
  next _ _ s' := if s' = 1 then 1 else 0
  rew s a _ := if s = 0 then (if a then 3 else 0) else if a then 0 else 4
  ends s _ _ := s = 1

/-- Action `true` ends the episode with reward 1; action `false` leads to a second step with reward 3/2. -/
noncomputable def oneOrTwo : Env (Fin 2) Bool where
  init s := if s = 0 then 1 else 0
  next _ _ s' := if s' = 1 then 1 else 0
  rew s a _ := if s = 0 then (if a then 1 else 0) else 3 / 2
  ends s a _ := s = 1 || a

theorem twoSteps_ok : twoSteps.Ok := ⟨by simp [twoSteps], by simp [twoSteps]⟩

theorem oneOrTwo_ok : oneOrTwo.Ok := ⟨by simp [oneOrTwo], by simp [oneOrTwo]⟩

/-- **C235 is violated for discount factors below 1**: there are an environment and policies (with a fixed number of steps) for which the
expected discounted return grows with the parameter, and yet the expected derivative of the loss is positive, so that descent makes the parameter
smaller. -/
theorem C235_discount_violated (c : Cfg) (hg : c.gamma = 1 / 2) (hc : c.rewNorm = false) (rms : RMS Unit ℝ)
    (hr : rms.mean () = 0) (perm : Nat → List Nat) (hperm : ∀ k, (perm k).Perm (List.range k)) :
    0 < deriv (objective twoSteps (linear 1) 2 c.gamma) 0 ∧
    0 < expectBatch twoSteps (linear 1 0) 2 1 (pgGradient twoSteps c rms perm (linear 1) 0) := by
  constructor
  · have : objective twoSteps (linear 1) 2 c.gamma = fun θ => 5 / 2 + 1 * θ := by
      funext θ
      simp [objective, expectEpisode, expectFrom, twoSteps, linear, total, hg]
      ring
    rw [this, (((hasDerivAt_id' (0 : ℝ)).const_mul 1).const_add (5 / 2)).deriv]
    norm_num
  · have h2 : ∀ a a' : Bool, pgGradient twoSteps c rms perm (linear 1) 0 [[(0, a, 1), (1, a', 1)]] =
        -(score (linear 1 0) (fun _ a => if a then 1 else -1) twoSteps.rew c.gamma [(0, a, 1), (1, a', 1)] / 2) := by
      intro a a'
      have := pgGradient_eq twoSteps c hc rms hr perm hperm (linear 1) _ 0 (linear_family 1) [(0, a, 1), (1, a', 1)]
        (by simp [Proper, twoSteps]) (by simp)
      simpa using this
    have h3 : expectBatch twoSteps (linear 1 0) 2 1 (pgGradient twoSteps c rms perm (linear 1) 0) = 1 / 2 := by
      have e1 : ∀ s a s', twoSteps.ends s a s' = decide (s = 1) := fun _ _ _ => rfl
      have e2 : ∀ s a s', twoSteps.next s a s' = if s' = 1 then 1 else 0 := fun _ _ _ => rfl
      have e3 : ∀ s, twoSteps.init s = if s = 0 then 1 else 0 := fun _ => rfl
      have e4 : ∀ s a s', twoSteps.rew s a s' = if s = 0 then (if a then 3 else 0) else if a then 0 else 4 := fun _ _ _ => rfl
      simp only [expectBatch, expectEpisode, expectFrom, Fin.sum_univ_two, Fintype.sum_bool, e1, e2, e3]
      simp [h2, score, total, e4, linear, hg]
      norm_num
    rw [h3]
    norm_num

/-- **C235 is violated for episodes of different lengths**: there are an environment and policies for which the expected sum of rewards grows
with the parameter, and yet the expected derivative of the loss for one episode is positive: the loss is a mean over the transitions, so that
short episodes count more. -/
theorem C235_length_violated (c : Cfg) (hg : c.gamma = 1) (hc : c.rewNorm = false) (rms : RMS Unit ℝ)
    (hr : rms.mean () = 0) (perm : Nat → List Nat) (hperm : ∀ k, (perm k).Perm (List.range k)) :
    0 < deriv (objective oneOrTwo (linear (-1)) 2 c.gamma) 0 ∧
    0 < expectBatch oneOrTwo (linear (-1) 0) 2 1 (pgGradient oneOrTwo c rms perm (linear (-1)) 0) := by
  constructor
  · have : objective oneOrTwo (linear (-1)) 2 c.gamma = fun θ => 5 / 4 + 1 / 2 * θ := by
      funext θ
      simp [objective, expectEpisode, expectFrom, oneOrTwo, linear, total, hg]
      ring
    rw [this, (((hasDerivAt_id' (0 : ℝ)).const_mul (1 / 2)).const_add (5 / 4)).deriv]
    norm_num
  · have h2 : ∀ a' : Bool, pgGradient oneOrTwo c rms perm (linear (-1)) 0 [[(0, false, 1), (1, a', 1)]] =
        -(score (linear (-1) 0) (fun _ a => if a then -1 else 1) oneOrTwo.rew c.gamma [(0, false, 1), (1, a', 1)] / 2) := by
      intro a'
      have := pgGradient_eq oneOrTwo c hc rms hr perm hperm (linear (-1)) _ 0 (linear_family (-1)) [(0, false, 1), (1, a', 1)]
        (by simp [Proper, oneOrTwo]) (by simp)
      simpa using this
    have h1 : pgGradient oneOrTwo c rms perm (linear (-1)) 0 [[(0, true, 1)]] =
        -(score (linear (-1) 0) (fun _ a => if a then -1 else 1) oneOrTwo.rew c.gamma [(0, true, 1)]) := by
      have := pgGradient_eq oneOrTwo c hc rms hr perm hperm (linear (-1)) _ 0 (linear_family (-1)) [(0, true, 1)]
        (by simp [Proper]) (by simp)
      simpa using this
    have h3 : expectBatch oneOrTwo (linear (-1) 0) 2 1 (pgGradient oneOrTwo c rms perm (linear (-1)) 0) = 1 / 4 := by
      have e1 : ∀ s a s', oneOrTwo.ends s a s' = (decide (s = 1) || a) := fun _ _ _ => rfl
      have e2 : ∀ s a s', oneOrTwo.next s a s' = if s' = 1 then 1 else 0 := fun _ _ _ => rfl
      have e3 : ∀ s, oneOrTwo.init s = if s = 0 then 1 else 0 := fun _ => rfl
      have e4 : ∀ s a s', oneOrTwo.rew s a s' = if s = 0 then (if a then 1 else 0) else 3 / 2 := fun _ _ _ => rfl
      simp only [expectBatch, expectEpisode, expectFrom, Fin.sum_univ_two, Fintype.sum_bool, e1, e2, e3]
      simp [h1, h2, score, total, e4, linear, hg]
      norm_num
    rw [h3]
    norm_num

noncomputable def exCfg : Cfg := ⟨1, 1, false, -1, 0, false⟩

/-- The hypotheses of C235 hold for the environment with two steps and three episodes; the derivative of the expected sum of rewards is -1. -/
example (rms : RMS Unit ℝ) (hr : rms.mean () = 0) : expectBatch twoSteps (linear 1 0) 2 3 (fun τs => steps τs *
    pgGradient twoSteps exCfg rms (fun k => (List.range k).reverse) (linear 1) 0 τs) = -(3 * -1) := by
  rw [C235_partial twoSteps twoSteps_ok exCfg rfl rfl rms hr _ (fun k => List.reverse_perm _) _ _ 0 (linear_family 1) 2 3]
  have : objective twoSteps (linear 1) 2 1 = fun θ => 7 / 2 + -1 * θ := by
    funext θ
    simp [objective, expectEpisode, expectFrom, twoSteps, linear, total]
    ring
  rw [this, (((hasDerivAt_id' (0 : ℝ)).const_mul (-1)).const_add (7 / 2)).deriv]
  norm_num

/-- An environment without an end. -/
noncomputable def endless : Env (Fin 2) Bool := { twoSteps with ends := fun _ _ _ => false }

theorem endless_ok : endless.Ok := ⟨twoSteps_ok.init, twoSteps_ok.next⟩

/-- It is broken off after four steps. -/
example (rms : RMS Unit ℝ) (hr : rms.mean () = 0) : expectBatch endless (linear 1 0) 4 3 (pgGradient endless exCfg rms List.range (linear 1) 0) =
    -(deriv (objective endless (linear 1) 4 1) 0 / (4 : Nat)) :=
  C235_fixed_partial endless endless_ok (fun _ _ _ => rfl) exCfg rfl rfl rms hr List.range (fun _ => .rfl) (linear 1) _ 0 (linear_family 1) 4 3
    (by norm_num) (by norm_num)

/-! ### C236 -/

/-- The derivative of `actor_loss` of `A2CPolicy` for the recorded episodes. -/
noncomputable def a2cGradient (e : Env S A) (c : Cfg) (critic : List S → List ℝ) (rms : RMS Unit ℝ) (perm : Nat → List Nat)
    (π : ℝ → S → A → ℝ) (θ : ℝ) (τs : List (List (Step S A))) : ℝ :=
  deriv (fun θ' => (a2cLoss c critic (view (recordAll e τs)) (recordAll e τs) (List.range (recordAll e τs).length) rms
    (perm (recordAll e τs).length) fun s a => Real.log (π θ' s a)).getD 0) θ

/-- The value of the state in which an episode was broken off; 0 if it came to its end. -/
def brokenOff (e : Env S A) (v : S → ℝ) : List (Step S A) → ℝ
  | [] => 0
  | [x] => if e.ends x.1 x.2.1 x.2.2 then 0 else v x.2.2
  | _ :: y :: l => brokenOff e v (y :: l)

/-- Steps follow each other, from the given state on, and only the last one may end the episode. -/
def Chain (e : Env S A) : S → List (Step S A) → Prop
  | _, [] => True
  | s, x :: l => x.1 = s ∧ (l ≠ [] → e.ends x.1 x.2.1 x.2.2 = false) ∧ Chain e x.2.2 l

theorem telescope (e : Env S A) (v : S → ℝ) (s : S) (τ : List (Step S A)) (h : Chain e s τ) (hne : τ ≠ []) :
    total (stepDelta e 1 v) 1 τ = total e.rew 1 τ + brokenOff e v τ - v s := by
  induction τ generalizing s with
  | nil => exact absurd rfl hne
  | cons x τ ih =>
    obtain ⟨rfl, h2, h3⟩ := h
    rw [total_one, total_one]
    cases τ with
    | nil =>
      simp only [stepDelta, brokenOff, total]
      ring
    | cons y τ =>
      rw [ih x.2.2 h3 (by simp)]
      have := h2 (by simp)
      simp only [stepDelta, this, brokenOff]
      simp only [Bool.false_eq_true, if_false]
      ring

theorem expect_telescope (e : Env S A) (he : e.Ok) (π : S → A → ℝ) (hπ : ∀ s, ∑ a, π s a = 1) (v : S → ℝ) (n : Nat) (hn : 1 ≤ n) (s : S) :
    expectFrom e π n s (total (stepDelta e 1 v) 1) =
      expectFrom e π n s (fun τ => total e.rew 1 τ + brokenOff e v τ) + -(v s) := by
  have h : expectFrom e π n s (total (stepDelta e 1 v) 1) =
      expectFrom e π n s (fun τ => (total e.rew 1 τ + brokenOff e v τ) + -(v s)) := by
    refine expectFrom_congr_of e π (fun n s τ => Chain e s τ ∧ (1 ≤ n → τ ≠ [])) (fun _ => ⟨trivial, by omega⟩)
      (fun n s a s' _ => ⟨⟨rfl, fun h => absurd rfl h, trivial⟩, by simp⟩)
      (fun n s a s' τ he hτ => ⟨⟨rfl, fun _ => he, hτ.1⟩, by simp⟩) n s _ _ ?_
    intro τ hτ
    rw [telescope e v s τ hτ.1 (hτ.2 hn)]
    ring
  rw [h, expectFrom_add e π n s (fun τ => total e.rew 1 τ + brokenOff e v τ), expectFrom_const e he π hπ]

/-- **C236, A2C.** With discount factor and lambda 1, without normalisation, and for any critic: the expectation of the number of
transitions times the derivative of `actor_loss` is minus the number of episodes times the derivative of the expected sum of rewards, where the
critic's value of the last state counts as a last reward if the episode was broken off at the time limit. -/
theorem C236_a2c (e : Env S A) (he : e.Ok) (c : Cfg) (hg : c.gamma = 1) (hl : c.lam = 1) (hc : c.rewNorm = false)
    (hm : SizeOk c.maxBatch) (critic : List S → List ℝ) (v : S → ℝ) (hv : Rowwise critic fun s => [v s]) (rms : RMS Unit ℝ)
    (perm : Nat → List Nat) (hperm : ∀ k, (perm k).Perm (List.range k))
    (π : ℝ → S → A → ℝ) (π' : S → A → ℝ) (θ : ℝ) (hπ : Family π π' θ) (n N : Nat) (hn : 1 ≤ n) :
    expectBatch e (π θ) n N (fun τs => steps τs * a2cGradient e c critic rms perm π θ τs) =
      -(N * deriv (fun t => expectEpisode e (π t) n fun τ => total e.rew 1 τ + brokenOff e v τ) θ) := by
  have h1 : ∀ τs : List (List (Step S A)), (∀ τ ∈ τs, Proper e τ) → (steps τs : ℝ) * a2cGradient e c critic rms perm π θ τs =
      0 + (τs.map fun τ => -1 * score (π θ) π' (stepDelta e 1 v) 1 τ).sum := by
    intro τs h
    have hk := steps_mul e 1 v perm hperm π π' θ hπ τs h
    by_cases hne : recordAll e τs = []
    · have h0 : steps τs = 0 := by rw [← recordAll_length e τs, hne]; rfl
      rw [h0] at hk ⊢
      rw [← hk]
      simp
    · rw [← hk]
      congr 1
      unfold a2cGradient a2cLoss
      congr 1
      funext t
      unfold computeReturns
      rw [inParts_rowwise hv _ (by simpa using hne) hm, inParts_rowwise hv _ (by simpa using hne) hm]
      have ev : ∀ l : List S, (l.map fun s => [v s]).flatten = l.map v := by
        intro l
        induction l with
        | nil => rfl
        | cons a l ih => simpa using ih
      obtain ⟨ret, hret⟩ := gae_eq (recordAll e τs) (fun r => v r.obs) (fun r => v r.obsNext) 1 1 c.isClose
      simp only [Option.bind_some, hc, Bool.false_eq_true, if_false, ev, hg, hl]
      simp only [List.map_map]
      have hret' : computeEpisodicReturn (view (recordAll e τs)) ((recordAll e τs).map Row.step) (List.range (recordAll e τs).length)
          (some ((recordAll e τs).map (v ∘ Row.obsNext))) (some ((recordAll e τs).map (v ∘ Row.obs))) 1 1 c.isClose = _ := hret
      rw [hret']
      rfl
  rw [expectBatch_congr e (π θ) n N _ _ h1, expectBatch_sum e he (π θ) (hπ.sum θ), expectEpisode_mul]
  have h2 := hasDerivAt_expectEpisode e he π π' θ hπ (stepDelta e 1 v) n
  have h3 : (fun t => expectEpisode e (π t) n (total (stepDelta e 1 v) 1)) =
      fun t => expectEpisode e (π t) n (fun τ => total e.rew 1 τ + brokenOff e v τ) + ∑ s, e.init s * -(v s) := by
    funext t
    unfold expectEpisode
    rw [← Finset.sum_add_distrib]
    refine Finset.sum_congr rfl fun s _ => ?_
    rw [expect_telescope e he (π t) (hπ.sum t) v n hn s]
    ring
  rw [h3] at h2
  have h4 := h2.sub_const (∑ s, e.init s * -(v s))
  simp only [add_sub_cancel_right] at h4
  rw [h4.deriv]
  ring

/-- The hypotheses hold, for a critic that says 10 in state 0 and 20 in state 1 and episodes broken off after one step: the value 20 counts as a
reward but does not depend on the action, so the derivative is 3, that of the first reward. -/
example (rms : RMS Unit ℝ) : expectBatch twoSteps (linear 1 0) 1 5 (fun τs => steps τs *
    a2cGradient twoSteps { exCfg with maxBatch := 2 } (fun l => l.map fun s => if s = 0 then 10 else 20) rms List.range (linear 1) 0 τs) =
      -(5 * 3) := by
  rw [C236_a2c twoSteps twoSteps_ok _ rfl rfl rfl (.inl (by norm_num [exCfg])) _ (fun s => if s = 0 then 10 else 20) (by
    intro l
    induction l with
    | nil => rfl
    | cons a l ih => simpa using ih) rms List.range (fun _ => .rfl)
    _ _ 0 (linear_family 1) 1 5 le_rfl]
  have : (fun t => expectEpisode twoSteps (linear 1 t) 1 fun τ => total twoSteps.rew 1 τ +
      brokenOff twoSteps (fun s => if s = 0 then 10 else 20) τ) = fun t => 43 / 2 + 3 * t := by
    funext t
    simp [expectEpisode, expectFrom, twoSteps, linear, total, brokenOff]
    ring
  rw [this, (((hasDerivAt_id' (0 : ℝ)).const_mul 3).const_add (43 / 2)).deriv]
  norm_num

theorem ratio_deriv (π : ℝ → S → A → ℝ) (π' : S → A → ℝ) (θ : ℝ) (hπ : Family π π' θ) (s : S) (a : A) :
    HasDerivAt (fun t => Real.exp (Real.log (π t s a) - Real.log (π θ s a))) (π' s a / π θ s a) θ := by
  have := (((hπ.deriv s a).log (hπ.pos s a).ne').sub_const (Real.log (π θ s a))).exp
  simpa using this

theorem surrogate_near (c : Ppo.Cfg ℝ) (hc : c.valid = true) (he : 0 < c.epsClip) (adv : ℝ) :
    ∀ᶠ r in nhds (1 : ℝ), Ppo.surrogate c r adv = r * adv := by
  have h1 : ∀ᶠ r in nhds (1 : ℝ), 1 - c.epsClip < r := lt_mem_nhds (by linarith)
  have h2 : ∀ᶠ r in nhds (1 : ℝ), r < 1 + c.epsClip := gt_mem_nhds (by linarith)
  have h3 : ∀ d, c.dualClip = some d → ∀ᶠ r in nhds (1 : ℝ), r < d := by
    intro d hd
    refine gt_mem_nhds ?_
    simpa [Ppo.Cfg.valid, hd] using hc
  have key : ∀ r, 1 - c.epsClip < r → r < 1 + c.epsClip → Ppo.clamp (1 - c.epsClip) (1 + c.epsClip) r = r := by
    intro r a b
    unfold Ppo.clamp
    rw [max_eq_left a.le, min_eq_left b.le]
  cases hd : c.dualClip with
  | none =>
    filter_upwards [h1, h2] with r a b
    unfold Ppo.surrogate
    simp only [hd, key r a b, min_self]
  | some d =>
    filter_upwards [h1, h2, h3 d hd] with r a b b'
    unfold Ppo.surrogate
    simp only [hd, key r a b, min_self]
    split
    · next hneg => exact max_eq_left (by nlinarith)
    · rfl

/-- **C236, PPO.** In the first step of an update (the policy is still the one that has collected the data) the derivative of the clipped objective of
PPO is that of `actor_loss` of A2C and NPG for the same advantages, for all clipping parameters. -/
theorem C236_ppo (c : Ppo.Cfg ℝ) (hc : c.valid = true) (he : 0 < c.epsClip) (rows : List (Row S A)) (adv : List ℝ)
    (hadv : adv.length = rows.length) (perm : List Nat) (hperm : perm.Perm (List.range rows.length))
    (π : ℝ → S → A → ℝ) (π' : S → A → ℝ) (θ : ℝ) (hπ : Family π π' θ) :
    deriv (fun t => ppoLoss c rows adv perm (fun s a => Real.log (π θ s a)) fun s a => Real.log (π t s a)) θ =
      deriv (fun t => weightedLogLoss rows adv perm fun s a => Real.log (π t s a)) θ := by
  rw [(hasDerivAt_weightedLogLoss rows adv perm hperm hadv π π' θ hπ).deriv]
  refine (hasDerivAt_mean rows adv perm hperm hadv _ _ θ fun r g => ?_).deriv
  have hr := ratio_deriv π π' θ hπ r.obs r.act
  have h1 : Real.exp (Real.log (π θ r.obs r.act) - Real.log (π θ r.obs r.act)) = 1 := by simp
  have hev : (fun t => Ppo.surrogate c (Real.exp (Real.log (π t r.obs r.act) - Real.log (π θ r.obs r.act))) g) =ᶠ[nhds θ]
      fun t => Real.exp (Real.log (π t r.obs r.act) - Real.log (π θ r.obs r.act)) * g := by
    have := hr.continuousAt.tendsto
    rw [h1] at this
    exact this.eventually (surrogate_near c hc he g)
  exact (hr.mul_const g).congr_of_eventuallyEq hev

/-- **C236, TRPO.** The derivative of the loss of the actor, from which TRPO computes its direction, is the same as well. -/
theorem C236_trpo (rows : List (Row S A)) (adv : List ℝ)
    (hadv : adv.length = rows.length) (perm : List Nat) (hperm : perm.Perm (List.range rows.length))
    (π : ℝ → S → A → ℝ) (π' : S → A → ℝ) (θ : ℝ) (hπ : Family π π' θ) :
    deriv (fun t => trpoLoss rows adv perm (fun s a => Real.log (π θ s a)) fun s a => Real.log (π t s a)) θ =
      deriv (fun t => weightedLogLoss rows adv perm fun s a => Real.log (π t s a)) θ := by
  rw [(hasDerivAt_weightedLogLoss rows adv perm hperm hadv π π' θ hπ).deriv]
  exact (hasDerivAt_mean rows adv perm hperm hadv _ _ θ fun r g => (ratio_deriv π π' θ hπ r.obs r.act).mul_const g).deriv

/-- Two transitions, clipping with 1/5 and dual clipping with 3. -/
example : deriv (fun t => ppoLoss ⟨1 / 5, some 3, false, 1, 0⟩ (recordAll twoSteps [[(0, true, 1), (1, false, 1)]]) [2, -1] [1, 0]
    (fun s a => Real.log (linear 1 0 s a)) fun s a => Real.log (linear 1 t s a)) 0 =
    deriv (fun t => weightedLogLoss (recordAll twoSteps [[(0, true, 1), (1, false, 1)]]) [2, -1] [1, 0] fun s a => Real.log (linear 1 t s a)) 0 :=
  C236_ppo _ (by norm_num [Ppo.Cfg.valid]) (by norm_num) _ _ rfl _ (by decide) _ _ 0 (linear_family 1)

end Verif.PolicyGradient
