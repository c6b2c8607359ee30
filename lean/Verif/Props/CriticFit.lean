import Verif.Props.Advantage
import Mathlib.Analysis.SpecificLimits.Basic

/-!
C263: the critic of A2C (and PPO, NPG, TRPO), fitted round after round to the returns that were computed with the previous critic, learns the
values of the policy.
-/

namespace Verif.PolicyGradient

open Verif.OnPolicy Verif.Returns Verif.Stats

set_option linter.unusedSectionVars false

variable {S A : Type} [Fintype S] [DecidableEq S] [Fintype A]

/-! ### Specification -/

/-- The expectation of `vf_loss` of `A2CPolicy` (times the number of rows) for `N` episodes, if the returns are computed with `critic` and the
loss is evaluated for a critic that says `W`. -/
noncomputable def expectedVfLoss (e : Env S A) (π : S → A → ℝ) (n N : Nat) (c : Cfg) (critic : List S → List ℝ) (rms : RMS Unit ℝ)
    (perm : Nat → List Nat) (W : S → ℝ) : ℝ :=
  expectBatch e π n N fun τs => steps τs * (a2cVfLoss c critic (view (recordAll e τs)) (recordAll e τs)
    (List.range (recordAll e τs).length) rms (perm (recordAll e τs).length) W).getD 0

/-- `W` is what the training of the critic aims at: no other critic has a smaller expected loss. -/
def Fitted (e : Env S A) (π : S → A → ℝ) (n N : Nat) (c : Cfg) (critic : List S → List ℝ) (rms : RMS Unit ℝ)
    (perm : Nat → List Nat) (W : S → ℝ) : Prop :=
  ∀ W', expectedVfLoss e π n N c critic rms perm W ≤ expectedVfLoss e π n N c critic rms perm W'

/-- The expected number of steps of an episode that are taken in state `s`. -/
noncomputable def visits (e : Env S A) (π : S → A → ℝ) (n : Nat) (s : S) : ℝ :=
  expectEpisode e π n fun τ => (τ.map fun x => if x.1 = s then (1 : ℝ) else 0).sum

/-- Probabilities are not negative. -/
structure Env.Nonneg (e : Env S A) (π : S → A → ℝ) : Prop where
  init : ∀ s, 0 ≤ e.init s
  next : ∀ s a s', 0 ≤ e.next s a s'
  act : ∀ s a, 0 ≤ π s a

/-- A critic that says `V` about every row. -/
def table (V : S → ℝ) (l : List S) : List ℝ := l.map V

/-! ### Helpers: expectations -/

/-- Every step begins where the previous one ended. -/
def Chained : S → List (Step S A) → Prop
  | _, [] => True
  | s, x :: l => x.1 = s ∧ Chained x.2.2 l

theorem expectFrom_le (e : Env S A) (π : S → A → ℝ) (hn : e.Nonneg π) (n : Nat) (s : S) (F G : List (Step S A) → ℝ)
    (h : ∀ τ, Chained s τ → F τ ≤ G τ) : expectFrom e π n s F ≤ expectFrom e π n s G := by
  induction n generalizing s F G with
  | zero => exact h [] trivial
  | succ n ih =>
    unfold expectFrom
    refine Finset.sum_le_sum fun a _ => mul_le_mul_of_nonneg_left ?_ (hn.act s a)
    refine Finset.sum_le_sum fun s' _ => mul_le_mul_of_nonneg_left ?_ (hn.next s a s')
    split
    · exact h _ ⟨rfl, trivial⟩
    · exact ih s' _ _ fun τ hτ => h _ ⟨rfl, hτ⟩

theorem expectEpisode_abs_le (e : Env S A) (π : S → A → ℝ) (hn : e.Nonneg π) (n : Nat) (F G : List (Step S A) → ℝ)
    (h : ∀ s τ, Chained s τ → |F τ| ≤ G τ) : |expectEpisode e π n F| ≤ expectEpisode e π n G := by
  rw [abs_le]
  constructor
  · rw [← neg_one_mul, ← expectEpisode_mul]
    exact Finset.sum_le_sum fun s _ => mul_le_mul_of_nonneg_left
      (expectFrom_le e π hn n s _ _ fun τ hτ => by linarith [(abs_le.mp (h s τ hτ)).1]) (hn.init s)
  · exact Finset.sum_le_sum fun s _ => mul_le_mul_of_nonneg_left
      (expectFrom_le e π hn n s _ _ fun τ hτ => (abs_le.mp (h s τ hτ)).2) (hn.init s)

theorem expectEpisode_sum {ι : Type} (e : Env S A) (he : e.Ok) (π : S → A → ℝ) (hπ : ∀ s, ∑ a, π s a = 1) (n : Nat) (t : Finset ι)
    (F : ι → List (Step S A) → ℝ) : expectEpisode e π n (fun τ => ∑ i ∈ t, F i τ) = ∑ i ∈ t, expectEpisode e π n (F i) := by
  classical
  induction t using Finset.induction_on with
  | empty => simpa using expectEpisode_const e he π hπ n 0
  | insert i t hi ih => simp only [Finset.sum_insert hi, expectEpisode_add, ih]

/-! ### Helpers: returns -/

/-- The sum over the steps of an episode of `h` times the return. -/
noncomputable def retSum (e : Env S A) (gamma lam : ℝ) (V h : S → ℝ) (τ : List (Step S A)) : ℝ :=
  (List.zipWith (fun r g => h r.obs * g) (record e τ) (advs e gamma lam (fun r => V r.obs) (fun r => V r.obsNext) τ)).sum +
    (τ.map fun x => h x.1 * V x.1).sum

theorem returns_eq (e : Env S A) (c : Cfg) (hm : SizeOk c.maxBatch) (critic : List S → List ℝ) (V : S → ℝ)
    (rms : RMS Unit ℝ) (hu : unitOf c rms ≠ 0) (hc : Rowwise critic fun s => [V s / unitOf c rms]) (h : S → ℝ)
    (τs : List (List (Step S A))) :
    weighted (fun s _ => h s) (recordAll e τs) (returnsOf e c critic rms τs) =
      (τs.map fun τ => (1 / unitOf c rms) * retSum e c.gamma c.lam V h τ).sum := by
  have hrec : ∀ τ : List (Step S A), ((record e τ).map fun r => h r.obs * V r.obs).sum = (τ.map fun x => h x.1 * V x.1).sum := by
    intro τ
    induction τ with
    | nil => rfl
    | cons x τ ih => simp [record, ih]
  have hall : ((recordAll e τs).map fun r => h r.obs * V r.obs).sum = (τs.map fun τ => (τ.map fun x => h x.1 * V x.1).sum).sum := by
    unfold recordAll
    rw [List.map_flatten, List.sum_flatten, List.map_map, List.map_map]
    congr 1
    exact List.map_congr_left fun τ _ => hrec τ
  have e1 : weighted (fun s _ => h s) (recordAll e τs) (returnsOf e c critic rms τs) =
      (1 / unitOf c rms) * (weighted (fun s _ => h s) (recordAll e τs) (advOf e c critic rms τs) +
        ((recordAll e τs).map fun r => h r.obs * V r.obs).sum) := by
    by_cases hne : recordAll e τs = []
    · rw [hne]; simp [weighted]
    · obtain ⟨p, q, h1, h2, h3⟩ := computeReturns_eq (recordAll e τs) hne c hm critic V rms hu hc
      unfold returnsOf advOf weighted
      rw [h1, Option.map_some, Option.map_some, Option.getD_some, Option.getD_some, h2, h3]
      have hlen : (gaeLoop ((recordAll e τs).map (delta c.gamma c.lam (fun r => V r.obs) fun r => V r.obsNext))).length =
          (recordAll e τs).length := by simp [gaeLoop_length]
      generalize gaeLoop ((recordAll e τs).map (delta c.gamma c.lam (fun r => V r.obs) fun r => V r.obsNext)) = g at hlen
      generalize recordAll e τs = rows at hlen
      clear h1 h2 h3 hne hall
      induction rows generalizing g with
      | nil => simp
      | cons r rows ih =>
        cases g with
        | nil => simp at hlen
        | cons y g =>
          have := ih g (by simpa using hlen)
          simp only [List.map_cons, List.zipWith_cons_cons, List.sum_cons, this]
          ring
  rw [e1, advOf_eq e c hm critic V rms hu hc, hall, List.sum_map_mul_left, ← List.sum_map_add]
  rfl

theorem expect_returns (e : Env S A) (he : e.Ok) (c : Cfg) (hm : SizeOk c.maxBatch) (critic : List S → List ℝ) (V : S → ℝ)
    (rms : RMS Unit ℝ) (hu : unitOf c rms ≠ 0) (hc : Rowwise critic fun s => [V s / unitOf c rms])
    (π : S → A → ℝ) (hπ : ∀ s, ∑ a, π s a = 1) (h : S → ℝ) (n N : Nat) :
    expectBatch e π n N (fun τs => weighted (fun s _ => h s) (recordAll e τs) (returnsOf e c critic rms τs)) =
      N * ((1 / unitOf c rms) * expectEpisode e π n (retSum e c.gamma c.lam V h)) := by
  have := expectBatch_sum e he π hπ n N 0 (fun τ => (1 / unitOf c rms) * retSum e c.gamma c.lam V h τ)
  simp only [zero_add] at this
  simp_rw [returns_eq e c hm critic V rms hu hc h, this, expectEpisode_mul]

/-- Returns computed with two critics that differ by at most `D` differ by at most `gamma * D`. -/
theorem head_close (e : Env S A) (gamma lam : ℝ) (hg0 : 0 ≤ gamma) (hg1 : gamma ≤ 1) (hl0 : 0 ≤ lam) (hl1 : lam ≤ 1) (V v : S → ℝ) (D : ℝ)
    (hD : ∀ s, |V s - v s| ≤ D) (s : S) (τ : List (Step S A)) (hτ : Chained s τ) :
    |(advs e gamma lam (fun r => V r.obs) (fun r => V r.obsNext) τ).headD 0 -
      (advs e gamma lam (fun r => v r.obs) (fun r => v r.obsNext) τ).headD 0 + (V s - v s)| ≤ (if τ = [] then D else gamma * D) := by
  have hD0 : 0 ≤ D := (abs_nonneg _).trans (hD s)
  induction τ generalizing s with
  | nil => simpa [advs, record, gaeLoop] using hD s
  | cons x τ ih =>
    obtain ⟨hx, hτ⟩ := hτ
    subst hx
    have h1 := ih x.2.2 hτ
    have h2 : (if τ = [] then D else gamma * D) ≤ D := by
      split
      · exact le_rfl
      · nlinarith
    have h3 := h1.trans h2
    rw [if_neg (by simp), advs_cons, advs_cons]
    simp only [List.headD_cons, stepDelta]
    generalize (advs e gamma lam (fun r => V r.obs) (fun r => V r.obsNext) τ).headD 0 = p at h3
    generalize (advs e gamma lam (fun r => v r.obs) (fun r => v r.obsNext) τ).headD 0 = q at h3
    by_cases hend : e.ends x.1 x.2.1 x.2.2 = true
    · simp only [hend, if_true]
      rw [show e.rew x.1 x.2.1 x.2.2 + 0 * gamma - V x.1 + 0 - (e.rew x.1 x.2.1 x.2.2 + 0 * gamma - v x.1 + 0) + (V x.1 - v x.1) = 0 by ring,
        abs_zero]
      positivity
    · simp only [hend, Bool.false_eq_true, if_false]
      rw [show e.rew x.1 x.2.1 x.2.2 + V x.2.2 * gamma - V x.1 + gamma * lam * p -
        (e.rew x.1 x.2.1 x.2.2 + v x.2.2 * gamma - v x.1 + gamma * lam * q) + (V x.1 - v x.1) =
        gamma * ((1 - lam) * (V x.2.2 - v x.2.2) + lam * (p - q + (V x.2.2 - v x.2.2))) by ring, abs_mul, abs_of_nonneg hg0]
      refine mul_le_mul_of_nonneg_left ?_ hg0
      refine (abs_add_le _ _).trans ?_
      rw [abs_mul, abs_mul, abs_of_nonneg hl0, abs_of_nonneg (by linarith : 0 ≤ 1 - lam)]
      have := mul_le_mul_of_nonneg_left (hD x.2.2) (by linarith : 0 ≤ 1 - lam)
      have := mul_le_mul_of_nonneg_left h3 hl0
      nlinarith

theorem retSum_close (e : Env S A) (gamma lam : ℝ) (hg0 : 0 ≤ gamma) (hg1 : gamma ≤ 1) (hl0 : 0 ≤ lam) (hl1 : lam ≤ 1) (V v h : S → ℝ)
    (hh : ∀ s, 0 ≤ h s) (D : ℝ) (hD : ∀ s, |V s - v s| ≤ D) (s : S) (τ : List (Step S A)) (hτ : Chained s τ) :
    |retSum e gamma lam V h τ - retSum e gamma lam v h τ| ≤ gamma * D * (τ.map fun x => h x.1).sum := by
  induction τ generalizing s with
  | nil => simp [retSum, record]
  | cons x τ ih =>
    have h1 := head_close e gamma lam hg0 hg1 hl0 hl1 V v D hD s (x :: τ) hτ
    obtain ⟨hx, hτ⟩ := hτ
    subst hx
    have h2 := ih x.2.2 hτ
    rw [if_neg (by simp)] at h1
    rw [advs_cons, advs_cons] at h1
    simp only [List.headD_cons] at h1
    unfold retSum at h2 ⊢
    rw [advs_cons, advs_cons]
    simp only [record, List.zipWith_cons_cons, List.sum_cons, List.map_cons]
    generalize stepDelta e gamma V x.1 x.2.1 x.2.2 + _ = p at h1 ⊢
    generalize stepDelta e gamma v x.1 x.2.1 x.2.2 + _ = q at h1 ⊢
    generalize (List.zipWith (fun r g => h r.obs * g) (record e τ) (advs e gamma lam (fun r => V r.obs) (fun r => V r.obsNext) τ)).sum = P at h2 ⊢
    generalize (List.zipWith (fun r g => h r.obs * g) (record e τ) (advs e gamma lam (fun r => v r.obs) (fun r => v r.obsNext) τ)).sum = Q at h2 ⊢
    generalize (τ.map fun x => h x.1 * V x.1).sum = P' at h2 ⊢
    generalize (τ.map fun x => h x.1 * v x.1).sum = Q' at h2 ⊢
    rw [show h x.1 * p + P + (h x.1 * V x.1 + P') - (h x.1 * q + Q + (h x.1 * v x.1 + Q')) =
      h x.1 * (p - q + (V x.1 - v x.1)) + (P + P' - (Q + Q')) by ring]
    refine (abs_add_le _ _).trans ?_
    rw [abs_mul, abs_of_nonneg (hh _)]
    have := mul_le_mul_of_nonneg_left h1 (hh x.1)
    linarith

/-! ### Helpers: the loss -/

theorem vfLoss_shift (e : Env S A) (c : Cfg) (hm : SizeOk c.maxBatch) (critic : List S → List ℝ) (V : S → ℝ)
    (rms : RMS Unit ℝ) (hu : unitOf c rms ≠ 0) (hc : Rowwise critic fun s => [V s / unitOf c rms])
    (perm : Nat → List Nat) (hperm : ∀ k, (perm k).Perm (List.range k)) (W d : S → ℝ) (τs : List (List (Step S A))) :
    (steps τs : ℝ) * (a2cVfLoss c critic (view (recordAll e τs)) (recordAll e τs) (List.range (recordAll e τs).length) rms
      (perm (recordAll e τs).length) (fun s => W s + d s)).getD 0 =
    (steps τs : ℝ) * (a2cVfLoss c critic (view (recordAll e τs)) (recordAll e τs) (List.range (recordAll e τs).length) rms
      (perm (recordAll e τs).length) W).getD 0 +
    (-2 * (weighted (fun s _ => d s) (recordAll e τs) (returnsOf e c critic rms τs)) +
      ((recordAll e τs).map fun r => 2 * (d r.obs * W r.obs) + d r.obs * d r.obs).sum) := by
  by_cases hne : recordAll e τs = []
  · have h0 : steps τs = 0 := by rw [← recordAll_length e τs, hne]; rfl
    rw [h0, hne]
    simp [weighted]
  · obtain ⟨p, q, h1, -, h3⟩ := computeReturns_eq (recordAll e τs) hne c hm critic V rms hu hc
    have hl : p.returns.length = (recordAll e τs).length := by rw [h3]; simp [gaeLoop_length]
    have h0 : (steps τs : ℝ) ≠ 0 := by
      rw [← recordAll_length e τs]
      simpa using hne
    unfold a2cVfLoss returnsOf weighted
    simp only [h1, Option.map_some, Option.getD_some]
    rw [mean_products _ _ _ (hperm _) hl, mean_products _ _ _ (hperm _) hl, recordAll_length, mul_div_cancel₀ _ h0, mul_div_cancel₀ _ h0]
    generalize p.returns = g at hl
    generalize recordAll e τs = rows at hl
    clear h1 h3 hne
    induction rows generalizing g with
    | nil => simp
    | cons r rows ih =>
      cases g with
      | nil => simp at hl
      | cons y g =>
        have := ih g (by simpa using hl)
        rw [List.zipWith_cons_cons, List.sum_cons, this, List.zipWith_cons_cons, List.zipWith_cons_cons, List.map_cons, List.sum_cons,
          List.sum_cons, List.sum_cons]
        ring

theorem expect_rows (e : Env S A) (he : e.Ok) (π : S → A → ℝ) (hπ : ∀ s, ∑ a, π s a = 1) (h : S → ℝ) (n N : Nat) :
    expectBatch e π n N (fun τs => ((recordAll e τs).map fun r => h r.obs).sum) = N * expectEpisode e π n fun τ => (τ.map fun x => h x.1).sum := by
  have hrec : ∀ τ : List (Step S A), ((record e τ).map fun r => h r.obs).sum = (τ.map fun x => h x.1).sum := by
    intro τ
    induction τ with
    | nil => rfl
    | cons x τ ih => simp [record, ih]
  have hall : ∀ τs : List (List (Step S A)), ((recordAll e τs).map fun r => h r.obs).sum = 0 + (τs.map fun τ => (τ.map fun x => h x.1).sum).sum := by
    intro τs
    unfold recordAll
    rw [List.map_flatten, List.sum_flatten, List.map_map, List.map_map, zero_add]
    congr 1
    exact List.map_congr_left fun τ _ => hrec τ
  simp_rw [hall]
  rw [expectBatch_sum e he π hπ, zero_add]

theorem expect_visits (e : Env S A) (he : e.Ok) (π : S → A → ℝ) (hπ : ∀ s, ∑ a, π s a = 1) (h : S → ℝ) (n : Nat) :
    expectEpisode e π n (fun τ => (τ.map fun x => h x.1).sum) = ∑ s, h s * visits e π n s := by
  have h1 : ∀ τ : List (Step S A), (τ.map fun x => h x.1).sum = ∑ s, h s * (τ.map fun x => if x.1 = s then (1 : ℝ) else 0).sum := by
    intro τ
    induction τ with
    | nil => simp
    | cons x τ ih => simp [ih, mul_add, Finset.sum_add_distrib]
  simp_rw [h1]
  rw [expectEpisode_sum e he π hπ]
  exact Finset.sum_congr rfl fun s _ => expectEpisode_mul e π n _ _

/-- The indicator of a state. -/
def single (s : S) (s' : S) : ℝ := if s' = s then 1 else 0

theorem expect_retSum (e : Env S A) (he : e.Ok) (π : S → A → ℝ) (hπ : ∀ s, ∑ a, π s a = 1) (gamma lam : ℝ) (V h : S → ℝ) (n : Nat) :
    expectEpisode e π n (retSum e gamma lam V h) = ∑ s, h s * expectEpisode e π n (retSum e gamma lam V (single s)) := by
  have h1 : ∀ τ : List (Step S A), retSum e gamma lam V h τ = ∑ s, h s * retSum e gamma lam V (single s) τ := by
    intro τ
    induction τ with
    | nil => simp [retSum, record]
    | cons x τ ih =>
      have h2 : ∀ h : S → ℝ, ∃ p, ∀ h : S → ℝ, retSum e gamma lam V h (x :: τ) = h x.1 * p + retSum e gamma lam V h τ := by
        intro h
        refine ⟨stepDelta e gamma V x.1 x.2.1 x.2.2 + (if e.ends x.1 x.2.1 x.2.2 then 0 else
          gamma * lam * (advs e gamma lam (fun r => V r.obs) (fun r => V r.obsNext) τ).headD 0) + V x.1, fun h => ?_⟩
        unfold retSum
        rw [advs_cons]
        simp only [record, List.zipWith_cons_cons, List.sum_cons, List.map_cons]
        ring
      obtain ⟨p, hp⟩ := h2 h
      simp only [hp, ih, mul_add, Finset.sum_add_distrib]
      congr 1
      simp [single]
  rw [show retSum e gamma lam V h = fun τ => ∑ s, h s * retSum e gamma lam V (single s) τ from funext h1, expectEpisode_sum e he π hπ]
  exact Finset.sum_congr rfl fun s _ => expectEpisode_mul e π n _ _

/-- The expected loss as a function of the critic. -/
theorem loss_shift (e : Env S A) (he : e.Ok) (c : Cfg) (hm : SizeOk c.maxBatch) (critic : List S → List ℝ) (V : S → ℝ)
    (rms : RMS Unit ℝ) (hu : unitOf c rms ≠ 0) (hc : Rowwise critic fun s => [V s / unitOf c rms])
    (perm : Nat → List Nat) (hperm : ∀ k, (perm k).Perm (List.range k)) (π : S → A → ℝ) (hπ : ∀ s, ∑ a, π s a = 1) (W d : S → ℝ)
    (n N : Nat) :
    expectedVfLoss e π n N c critic rms perm (fun s => W s + d s) = expectedVfLoss e π n N c critic rms perm W +
      N * ∑ s, (d s * d s * visits e π n s + 2 * d s * (W s * visits e π n s -
        1 / unitOf c rms * expectEpisode e π n (retSum e c.gamma c.lam V (single s)))) := by
  unfold expectedVfLoss
  simp_rw [vfLoss_shift e c hm critic V rms hu hc perm hperm W d]
  rw [expectBatch_add, expectBatch_add, expectBatch_mul, expect_returns e he c hm critic V rms hu hc π hπ d,
    expect_rows e he π hπ (fun s => 2 * (d s * W s) + d s * d s), expect_visits e he π hπ (fun s => 2 * (d s * W s) + d s * d s),
    expect_retSum e he π hπ]
  congr 1
  rw [Finset.mul_sum, Finset.mul_sum, Finset.mul_sum, Finset.mul_sum, Finset.mul_sum, ← Finset.sum_add_distrib]
  exact Finset.sum_congr rfl fun s _ => by ring

/-! ### C263 -/

/-- **C263** a critic that no other critic beats says about a state the average of the returns of the rows with this state: its output times the
expected number of these rows is the expected sum of their returns. -/
theorem C263_average (e : Env S A) (he : e.Ok) (c : Cfg) (hm : SizeOk c.maxBatch) (critic : List S → List ℝ) (V : S → ℝ)
    (rms : RMS Unit ℝ) (hu : unitOf c rms ≠ 0) (hc : Rowwise critic fun s => [V s / unitOf c rms])
    (perm : Nat → List Nat) (hperm : ∀ k, (perm k).Perm (List.range k)) (π : S → A → ℝ) (hπ : ∀ s, ∑ a, π s a = 1)
    (n N : Nat) (W : S → ℝ) (hW : Fitted e π n N c critic rms perm W) (s : S) (hs : 0 < visits e π n s) :
    W s * (N * visits e π n s) =
      expectBatch e π n N (fun τs => weighted (fun s' _ => if s' = s then 1 else 0) (recordAll e τs) (returnsOf e c critic rms τs)) := by
  rw [expect_returns e he c hm critic V rms hu hc π hπ (fun s' => if s' = s then 1 else 0)]
  have h1 : ∀ t : ℝ, 0 ≤ N * (t * t * visits e π n s + 2 * t * (W s * visits e π n s -
        1 / unitOf c rms * expectEpisode e π n (retSum e c.gamma c.lam V (single s)))) := by
    intro t
    have h2 := hW fun s' => W s' + t * single s s'
    rw [loss_shift e he c hm critic V rms hu hc perm hperm π hπ W] at h2
    have h3 : (∑ s', (t * single s s' * (t * single s s') * visits e π n s' + 2 * (t * single s s') * (W s' * visits e π n s' -
        1 / unitOf c rms * expectEpisode e π n (retSum e c.gamma c.lam V (single s'))))) =
        t * t * visits e π n s + 2 * t * (W s * visits e π n s -
        1 / unitOf c rms * expectEpisode e π n (retSum e c.gamma c.lam V (single s))) := by
      rw [Finset.sum_eq_single s]
      · simp [single]
      · intro b _ hb
        simp [single, hb]
      · simp
    rw [h3] at h2
    linarith
  rcases Nat.eq_zero_or_pos N with rfl | hN
  · simp
  have hN' : (0 : ℝ) < N := by exact_mod_cast hN
  set B := W s * visits e π n s - 1 / unitOf c rms * expectEpisode e π n (retSum e c.gamma c.lam V (single s)) with hB
  have h4 : B = 0 := by
    have h5 := nonneg_of_mul_nonneg_right (h1 (-B / visits e π n s)) hN'
    have h6 : -B / visits e π n s * (-B / visits e π n s) * visits e π n s + 2 * (-B / visits e π n s) * B =
        -(B * B / visits e π n s) := by
      field_simp
      ring
    rw [h6] at h5
    have h7 : 0 ≤ B * B / visits e π n s := div_nonneg (mul_self_nonneg B) hs.le
    have h8 : B * B / visits e π n s = 0 := le_antisymm (by linarith) h7
    rcases div_eq_zero_iff.mp h8 with h9 | h9
    · exact mul_self_eq_zero.mp h9
    · exact absurd h9 hs.ne'
  have h10 : (retSum e c.gamma c.lam V fun s' => if s' = s then (1 : ℝ) else 0) = retSum e c.gamma c.lam V (single s) := rfl
  rw [h10]
  linear_combination (N : ℝ) * h4

/-- **C263** if every state is visited there is such a critic. -/
theorem C263_exists (e : Env S A) (he : e.Ok) (c : Cfg) (hm : SizeOk c.maxBatch) (critic : List S → List ℝ) (V : S → ℝ)
    (rms : RMS Unit ℝ) (hu : unitOf c rms ≠ 0) (hc : Rowwise critic fun s => [V s / unitOf c rms])
    (perm : Nat → List Nat) (hperm : ∀ k, (perm k).Perm (List.range k)) (π : S → A → ℝ) (hπ : ∀ s, ∑ a, π s a = 1)
    (n N : Nat) (hs : ∀ s, 0 < visits e π n s) : ∃ W, Fitted e π n N c critic rms perm W := by
  refine ⟨fun s => 1 / unitOf c rms * expectEpisode e π n (retSum e c.gamma c.lam V (single s)) / visits e π n s, fun W' => ?_⟩
  have h := loss_shift e he c hm critic V rms hu hc perm hperm π hπ (fun s => 1 / unitOf c rms * expectEpisode e π n
    (retSum e c.gamma c.lam V (single s)) / visits e π n s) (fun s => W' s - 1 / unitOf c rms * expectEpisode e π n
    (retSum e c.gamma c.lam V (single s)) / visits e π n s) n N
  simp only [add_sub_cancel] at h
  rw [h]
  have : 0 ≤ (N : ℝ) * ∑ s, ((W' s - 1 / unitOf c rms * expectEpisode e π n (retSum e c.gamma c.lam V (single s)) / visits e π n s) *
      (W' s - 1 / unitOf c rms * expectEpisode e π n (retSum e c.gamma c.lam V (single s)) / visits e π n s) * visits e π n s +
      2 * (W' s - 1 / unitOf c rms * expectEpisode e π n (retSum e c.gamma c.lam V (single s)) / visits e π n s) *
      (1 / unitOf c rms * expectEpisode e π n (retSum e c.gamma c.lam V (single s)) / visits e π n s * visits e π n s -
        1 / unitOf c rms * expectEpisode e π n (retSum e c.gamma c.lam V (single s)))) := by
    refine mul_nonneg (Nat.cast_nonneg N) (Finset.sum_nonneg fun s _ => ?_)
    rw [div_mul_cancel₀ _ (hs s).ne', sub_self, mul_zero, add_zero]
    exact mul_nonneg (mul_self_nonneg _) (hs s).le
  linarith

/-- **C263** one round: if the critic with which the returns are computed is nowhere further than `D` from the values of the policy, the fitted
critic is not further than `gamma * D` from them in the states that are visited, whatever the lambda, the time limit, the number of
episodes and the order of the rows. With normalisation the outputs of both are meant times the standard deviation. -/
theorem C263_round (e : Env S A) (he : e.Ok) (c : Cfg) (hm : SizeOk c.maxBatch) (hg0 : 0 ≤ c.gamma) (hg1 : c.gamma ≤ 1)
    (hl0 : 0 ≤ c.lam) (hl1 : c.lam ≤ 1) (critic : List S → List ℝ) (V : S → ℝ)
    (rms : RMS Unit ℝ) (hu : 0 < unitOf c rms) (hc : Rowwise critic fun s => [V s / unitOf c rms])
    (perm : Nat → List Nat) (hperm : ∀ k, (perm k).Perm (List.range k)) (π : S → A → ℝ) (hπ : ∀ s, ∑ a, π s a = 1) (hn : e.Nonneg π)
    (v : S → ℝ) (hv : Values e π c.gamma v) (D : ℝ) (hD : ∀ s, |V s - v s| ≤ D)
    (n N : Nat) (hN : 0 < N) (W : S → ℝ) (hW : Fitted e π n N c critic rms perm W) (s : S) (hs : 0 < visits e π n s) :
    |W s * unitOf c rms - v s| ≤ c.gamma * D := by
  have hN' : (N : ℝ) ≠ 0 := by exact_mod_cast hN.ne'
  have h1 := C263_average e he c hm critic V rms hu.ne' hc perm hperm π hπ n N W hW s hs
  rw [expect_returns e he c hm critic V rms hu.ne' hc π hπ (fun s' => if s' = s then 1 else 0)] at h1
  have hcv : Rowwise (table fun s => v s / unitOf c rms) fun s => [v s / unitOf c rms] := by
    intro l
    induction l with
    | nil => rfl
    | cons a l ih => simpa [table] using ih
  have h2 := C241_returns e he c hm _ v rms hu.ne' hcv π hπ hv (fun s' => if s' = s then 1 else 0) n 1
  rw [expect_returns e he c hm _ v rms hu.ne' hcv π hπ (fun s' => if s' = s then 1 else 0),
    expect_visits e he π hπ (fun s' => (if s' = s then 1 else 0) * (v s' / unitOf c rms))] at h2
  have h3 : ∑ s', (if s' = s then (1 : ℝ) else 0) * (v s' / unitOf c rms) * visits e π n s' = v s / unitOf c rms * visits e π n s := by
    rw [Finset.sum_eq_single s]
    · simp
    · intro b _ hb
      simp [hb]
    · simp
  rw [h3] at h2
  have h4 := expectEpisode_abs_le e π hn n _ _ fun s' τ hτ => retSum_close e c.gamma c.lam hg0 hg1 hl0 hl1 V v
    (fun s' => if s' = s then 1 else 0) (fun _ => by split <;> norm_num) D hD s' τ hτ
  have h5 : (fun τ => retSum e c.gamma c.lam V (fun s' => if s' = s then 1 else 0) τ - retSum e c.gamma c.lam v
      (fun s' => if s' = s then 1 else 0) τ) = fun τ => retSum e c.gamma c.lam V (fun s' => if s' = s then 1 else 0) τ + -1 *
        retSum e c.gamma c.lam v (fun s' => if s' = s then 1 else 0) τ := by
    funext τ; ring
  rw [h5, expectEpisode_add, expectEpisode_mul, expectEpisode_mul] at h4
  have h6 : (expectEpisode e π n fun τ => (τ.map fun x => if x.1 = s then (1 : ℝ) else 0).sum) = visits e π n s := rfl
  have e1 : (expectEpisode e π n fun τ => retSum e c.gamma c.lam V (fun s' => if s' = s then 1 else 0) τ) =
      W s * unitOf c rms * visits e π n s := by
    have h7 : W s * visits e π n s = 1 / unitOf c rms * expectEpisode e π n (retSum e c.gamma c.lam V fun s' => if s' = s then 1 else 0) := by
      have : (N : ℝ) * (W s * visits e π n s) = N * (1 / unitOf c rms * expectEpisode e π n
        (retSum e c.gamma c.lam V fun s' => if s' = s then 1 else 0)) := by linear_combination h1
      exact mul_left_cancel₀ hN' this
    field_simp at h7
    linear_combination -h7
  have e2 : (expectEpisode e π n fun τ => retSum e c.gamma c.lam v (fun s' => if s' = s then 1 else 0) τ) = v s * visits e π n s := by
    simp only [Nat.cast_one, one_mul] at h2
    field_simp at h2
    linear_combination h2
  rw [e1, e2, h6, show W s * unitOf c rms * visits e π n s + -1 * (v s * visits e π n s) = (W s * unitOf c rms - v s) * visits e π n s by ring,
    abs_mul, abs_of_pos hs] at h4
  exact le_of_mul_le_mul_right h4 hs

/-- **C263** round after round: if every round fits the critic to the returns that were computed with the previous one, and every state is visited,
after `k` rounds the critic is within `gamma ^ k` times the first distance of the values of the policy. -/
theorem C263_rounds (e : Env S A) (he : e.Ok) (c : Cfg) (hm : SizeOk c.maxBatch) (hnorm : c.rewNorm = false)
    (hg0 : 0 ≤ c.gamma) (hg1 : c.gamma ≤ 1) (hl0 : 0 ≤ c.lam) (hl1 : c.lam ≤ 1) (rms : ℕ → RMS Unit ℝ)
    (perm : ℕ → Nat → List Nat) (hperm : ∀ i k, (perm i k).Perm (List.range k)) (π : S → A → ℝ) (hπ : ∀ s, ∑ a, π s a = 1) (hn : e.Nonneg π)
    (v : S → ℝ) (hv : Values e π c.gamma v) (n : Nat) (hs : ∀ s, 0 < visits e π n s) (N : ℕ → Nat) (hN : ∀ i, 0 < N i)
    (V : ℕ → S → ℝ) (hV : ∀ i, Fitted e π n (N i) c (table (V i)) (rms i) (perm i) (V (i + 1)))
    (D : ℝ) (hD : ∀ s, |V 0 s - v s| ≤ D) (k : ℕ) (s : S) : |V k s - v s| ≤ c.gamma ^ k * D := by
  induction k generalizing s with
  | zero => simpa using hD s
  | succ k ih =>
    have h1 : unitOf c (rms k) = 1 := by simp [unitOf, hnorm]
    have hc : Rowwise (table (V k)) fun s => [V k s / unitOf c (rms k)] := by
      rw [h1]
      intro l
      induction l with
      | nil => rfl
      | cons a l ih => simpa [table] using ih
    have h2 := C263_round e he c hm hg0 hg1 hl0 hl1 (table (V k)) (V k) (rms k) (by rw [h1]; norm_num) hc (perm k) (hperm k) π hπ hn v hv
      (c.gamma ^ k * D) ih n (N k) (hN k) (V (k + 1)) (hV k) s (hs s)
    rw [h1, mul_one] at h2
    rw [pow_succ']
    linarith

/-- **C263** hence the critics tend to the values of the policy if the discount factor is below 1. -/
theorem C263_converges (e : Env S A) (he : e.Ok) (c : Cfg) (hm : SizeOk c.maxBatch) (hnorm : c.rewNorm = false)
    (hg0 : 0 ≤ c.gamma) (hg1 : c.gamma < 1) (hl0 : 0 ≤ c.lam) (hl1 : c.lam ≤ 1) (rms : ℕ → RMS Unit ℝ)
    (perm : ℕ → Nat → List Nat) (hperm : ∀ i k, (perm i k).Perm (List.range k)) (π : S → A → ℝ) (hπ : ∀ s, ∑ a, π s a = 1) (hn : e.Nonneg π)
    (v : S → ℝ) (hv : Values e π c.gamma v) (n : Nat) (hs : ∀ s, 0 < visits e π n s) (N : ℕ → Nat) (hN : ∀ i, 0 < N i)
    (V : ℕ → S → ℝ) (hV : ∀ i, Fitted e π n (N i) c (table (V i)) (rms i) (perm i) (V (i + 1))) (s : S) :
    Filter.Tendsto (fun k => V k s) Filter.atTop (nhds (v s)) := by
  have hD : ∀ s, |V 0 s - v s| ≤ ∑ s, |V 0 s - v s| := fun s =>
    Finset.single_le_sum (f := fun s => |V 0 s - v s|) (fun _ _ => abs_nonneg _) (Finset.mem_univ s)
  have h1 := fun k => C263_rounds e he c hm hnorm hg0 hg1.le hl0 hl1 rms perm hperm π hπ hn v hv n hs N hN V hV _ hD k s
  have h2 : Filter.Tendsto (fun k => c.gamma ^ k * ∑ s, |V 0 s - v s|) Filter.atTop (nhds 0) := by
    simpa using (tendsto_pow_atTop_nhds_zero_of_lt_one hg0 hg1).mul_const (∑ s, |V 0 s - v s|)
  have h3 := squeeze_zero_norm (a := fun k => c.gamma ^ k * ∑ s, |V 0 s - v s|) (f := fun k => V k s - v s) h1 h2
  simpa using h3.add_const (v s)

/-! ### Non-vacuity -/

/-- No normalisation, in parts of two rows, lambda 0.9. -/
noncomputable def exPlain : Cfg := ⟨1 / 2, 9 / 10, false, 2, 0, false⟩

theorem twoSteps_nonneg : twoSteps.Nonneg (linear 1 0) where
  init s := by fin_cases s <;> simp [twoSteps]
  next s a s' := by
    fin_cases s <;> fin_cases s' <;> cases a <;> simp [twoSteps]
  act s a := ((linear_family 1).pos s a).le

theorem twoSteps_visits (s : Fin 2) : 0 < visits twoSteps (linear 1 0) 2 s := by
  fin_cases s <;> simp [visits, expectEpisode, expectFrom, twoSteps, linear]
  all_goals norm_num

/-- Critics, starting from 0 everywhere, that are fitted round after round to three episodes of at most two steps, tend to `5/2` in the first and
`2` in the second state. -/
example : ∃ V : ℕ → Fin 2 → ℝ, V 0 = (fun _ => 0) ∧
    (∀ i, Fitted twoSteps (linear 1 0) 2 3 exPlain (table (V i)) exRms List.range (V (i + 1))) ∧
    ∀ s, Filter.Tendsto (fun k => V k s) Filter.atTop (nhds (twoValues s)) := by
  have h1 : unitOf exPlain exRms = 1 := by simp [unitOf, exPlain]
  have hm : SizeOk exPlain.maxBatch := .inl (by norm_num [exPlain])
  have hc : ∀ V : Fin 2 → ℝ, Rowwise (table V) fun s => [V s / unitOf exPlain exRms] := by
    intro V
    rw [h1]
    intro l
    induction l with
    | nil => rfl
    | cons a l ih => simpa [table] using ih
  have hex := fun V : Fin 2 → ℝ => C263_exists twoSteps twoSteps_ok exPlain hm (table V) V exRms (by rw [h1]; norm_num) (hc V) List.range
    (fun _ => .rfl) (linear 1 0) ((linear_family 1).sum 0) 2 3 twoSteps_visits
  choose f hf using hex
  refine ⟨fun i => f^[i] fun _ => 0, rfl, fun i => ?_, fun s => ?_⟩
  · simp only [Function.iterate_succ_apply']
    exact hf _
  · exact C263_converges twoSteps twoSteps_ok exPlain hm rfl (by norm_num [exPlain]) (by norm_num [exPlain]) (by norm_num [exPlain])
      (by norm_num [exPlain]) (fun _ => exRms) (fun _ => List.range) (fun _ _ => .rfl) (linear 1 0) ((linear_family 1).sum 0) twoSteps_nonneg
      twoValues twoValues_values 2 twoSteps_visits (fun _ => 3) (fun _ => by norm_num) _ (fun i => by
        rw [Function.iterate_succ_apply']
        exact hf _) s

end Verif.PolicyGradient
