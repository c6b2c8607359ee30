import Verif.Props.PolicyGradient

/-!
C241: advantages and returns of A2C (and PPO, NPG, TRPO) with a critic that knows the values of the policy.
-/

namespace Verif.PolicyGradient

open Verif.OnPolicy Verif.Returns Verif.Stats

set_option linter.unusedSectionVars false

variable {S A : Type} [Fintype S] [Fintype A]

/-! ### Specification -/

/-- The expected reward of an action plus the discounted value of the next state, which is 0 at the end of an episode. -/
noncomputable def actionValue (e : Env S A) (gamma : ℝ) (v : S → ℝ) (s : S) (a : A) : ℝ :=
  ∑ s', e.next s a s' * (e.rew s a s' + gamma * if e.ends s a s' then 0 else v s')

/-- `v` are the values of the policy: Bellman's equation. -/
def Values (e : Env S A) (π : S → A → ℝ) (gamma : ℝ) (v : S → ℝ) : Prop := ∀ s, v s = ∑ a, π s a * actionValue e gamma v s a

/-- The advantage of an action. -/
noncomputable def advantage (e : Env S A) (gamma : ℝ) (v : S → ℝ) (s : S) (a : A) : ℝ := actionValue e gamma v s a - v s

/-- With `reward_normalization` the outputs of the critic are multiplied by the standard deviation of the returns so far. -/
noncomputable def unitOf (c : Cfg) (rms : RMS Unit ℝ) : ℝ := if c.rewNorm then Real.sqrt (rms.var () + c.eps) else 1

/-- The sum over the rows of the batch of a function of observation and action times the number computed for the row. -/
noncomputable def weighted (h : S → A → ℝ) (rows : List (Row S A)) (x : List ℝ) : ℝ :=
  (List.zipWith (fun r g => h r.obs r.act * g) rows x).sum

/-- `adv` and `returns` as `process_fn` computes them for the recorded episodes (empty if there is no row). -/
noncomputable def advOf (e : Env S A) (c : Cfg) (critic : List S → List ℝ) (rms : RMS Unit ℝ) (τs : List (List (Step S A))) : List ℝ :=
  ((computeReturns c critic (view (recordAll e τs)) (recordAll e τs) (List.range (recordAll e τs).length) rms).map
    fun r => r.1.adv).getD []

noncomputable def returnsOf (e : Env S A) (c : Cfg) (critic : List S → List ℝ) (rms : RMS Unit ℝ) (τs : List (List (Step S A))) : List ℝ :=
  ((computeReturns c critic (view (recordAll e τs)) (recordAll e τs) (List.range (recordAll e τs).length) rms).map
    fun r => r.1.returns).getD []

/-! ### Helpers -/

theorem gae_eq' (rows : List (Row S A)) (v v' : Row S A → ℝ) (gamma lam : ℝ) (isClose : Bool) :
    computeEpisodicReturn (view rows) (rows.map Row.step) (List.range rows.length) (some (rows.map v')) (some (rows.map v))
      gamma lam isClose = some (List.zipWith (· + ·) (gaeLoop (rows.map (delta gamma lam v v'))) (rows.map v),
        gaeLoop (rows.map (delta gamma lam v v'))) := by
  unfold computeEpisodicReturn
  simp only [Option.isNone_some, Bool.false_eq_true, false_and, if_false]
  rw [nextValues_eq, endFlag_eq]
  unfold curValues
  simp only
  rw [advantage_eq]

theorem computeReturns_eq (rows : List (Row S A)) (hne : rows ≠ []) (c : Cfg) (hm : SizeOk c.maxBatch) (critic : List S → List ℝ)
    (v : S → ℝ) (rms : RMS Unit ℝ) (hu : unitOf c rms ≠ 0) (hv : Rowwise critic fun s => [v s / unitOf c rms]) :
    ∃ p q, computeReturns c critic (view rows) rows (List.range rows.length) rms = some (p, q) ∧
      p.adv = gaeLoop (rows.map (delta c.gamma c.lam (fun r => v r.obs) fun r => v r.obsNext)) ∧
      p.returns = (List.zipWith (· + ·) (gaeLoop (rows.map (delta c.gamma c.lam (fun r => v r.obs) fun r => v r.obsNext)))
        (rows.map fun r => v r.obs)).map (· / unitOf c rms) := by
  have ev : ∀ l : List S, (l.map fun s => [v s / unitOf c rms]).flatten = l.map fun s => v s / unitOf c rms := by
    intro l
    induction l with
    | nil => rfl
    | cons a l ih => simpa using ih
  unfold computeReturns
  rw [inParts_rowwise hv _ (by simpa using hne) hm, inParts_rowwise hv _ (by simpa using hne) hm, ev, ev]
  simp only [Option.bind_some, List.map_map]
  have key := gae_eq' rows (fun r => v r.obs) (fun r => v r.obsNext) c.gamma c.lam c.isClose
  cases hn : c.rewNorm with
  | false =>
    have h1 : unitOf c rms = 1 := by simp [unitOf, hn]
    simp only [Bool.false_eq_true, if_false, h1, div_one]
    have key' : computeEpisodicReturn (view rows) (rows.map Row.step) (List.range rows.length)
      (some (rows.map ((fun s => v s) ∘ Row.obsNext))) (some (rows.map ((fun s => v s) ∘ Row.obs))) c.gamma c.lam c.isClose = _ := key
    rw [key']
    exact ⟨_, _, rfl, rfl, by simp⟩
  | true =>
    have h1 : unitOf c rms = scale c rms := by simp [unitOf, hn, scale]
    rw [h1] at hu
    simp only [if_true, h1]
    have e1 : ∀ f : Row S A → S, rows.map ((fun x => x * scale c rms) ∘ (fun s => v s / scale c rms) ∘ f) = rows.map fun r => v (f r) := by
      intro f
      refine List.map_congr_left fun r _ => ?_
      simp only [Function.comp]
      exact div_mul_cancel₀ _ hu
    rw [e1, e1, key]
    exact ⟨_, _, rfl, rfl, rfl⟩

theorem advOf_eq (e : Env S A) (c : Cfg) (hm : SizeOk c.maxBatch) (critic : List S → List ℝ)
    (v : S → ℝ) (rms : RMS Unit ℝ) (hu : unitOf c rms ≠ 0) (hv : Rowwise critic fun s => [v s / unitOf c rms]) (h : S → A → ℝ)
    (τs : List (List (Step S A))) :
    weighted h (recordAll e τs) (advOf e c critic rms τs) = (τs.map fun τ => (List.zipWith (fun r g => h r.obs r.act * g) (record e τ)
      (advs e c.gamma c.lam (fun r => v r.obs) (fun r => v r.obsNext) τ)).sum).sum := by
  by_cases hne : recordAll e τs = []
  · have h0 : ∀ τ ∈ τs, record e τ = [] := by
      intro τ hτ
      unfold recordAll at hne
      exact List.flatten_eq_nil_iff.mp hne _ (List.mem_map.mpr ⟨τ, hτ, rfl⟩)
    rw [hne, List.map_congr_left (g := fun _ => (0 : ℝ)) fun τ hτ => by rw [h0 τ hτ]; simp]
    simp [weighted]
  · obtain ⟨p, q, h1, h2, -⟩ := computeReturns_eq (recordAll e τs) hne c hm critic v rms hu hv
    unfold advOf weighted
    rw [h1, Option.map_some, Option.getD_some, h2, gaeLoop_recordAll, sum_recordAll]

theorem advs_cons (e : Env S A) (gamma lam : ℝ) (v : S → ℝ) (x : Step S A) (τ : List (Step S A)) :
    advs e gamma lam (fun r => v r.obs) (fun r => v r.obsNext) (x :: τ) =
      (stepDelta e gamma v x.1 x.2.1 x.2.2 + (if e.ends x.1 x.2.1 x.2.2 then 0 else
        gamma * lam * (advs e gamma lam (fun r => v r.obs) (fun r => v r.obsNext) τ).headD 0)) ::
      advs e gamma lam (fun r => v r.obs) (fun r => v r.obsNext) τ := by
  unfold advs
  simp only [record, List.map_cons, gaeLoop, delta]
  congr 1
  unfold stepDelta
  cases τ with
  | nil => cases e.ends x.1 x.2.1 x.2.2 <;> simp [record, gaeLoop]
  | cons y τ => cases e.ends x.1 x.2.1 x.2.2 <;> simp

/-- The expected temporal difference is the advantage. -/
theorem sum_stepDelta (e : Env S A) (he : e.Ok) (gamma : ℝ) (v : S → ℝ) (s : S) (a : A) :
    ∑ s', e.next s a s' * stepDelta e gamma v s a s' = advantage e gamma v s a := by
  unfold stepDelta advantage actionValue
  have : ∀ s', e.next s a s' * (e.rew s a s' + (if e.ends s a s' = true then 0 else v s') * gamma - v s) =
      e.next s a s' * (e.rew s a s' + gamma * if e.ends s a s' = true then 0 else v s') - e.next s a s' * v s := by
    intro s'; ring
  simp_rw [this]
  rw [Finset.sum_sub_distrib, ← Finset.sum_mul, he.next, one_mul]

theorem sum_advantage (e : Env S A) (π : S → A → ℝ) (hπ : ∀ s, ∑ a, π s a = 1) (gamma : ℝ) (v : S → ℝ)
    (hv : Values e π gamma v) (s : S) : ∑ a, π s a * advantage e gamma v s a = 0 := by
  unfold advantage
  simp only [mul_sub]
  rw [Finset.sum_sub_distrib, ← Finset.sum_mul, hπ, one_mul, ← hv s, sub_self]

theorem expect_head (e : Env S A) (he : e.Ok) (π : S → A → ℝ) (hπ : ∀ s, ∑ a, π s a = 1) (gamma lam : ℝ) (v : S → ℝ)
    (hv : Values e π gamma v) (n : Nat) (s : S) :
    expectFrom e π n s (fun τ => (advs e gamma lam (fun r => v r.obs) (fun r => v r.obsNext) τ).headD 0) = 0 := by
  induction n generalizing s with
  | zero => rfl
  | succ n ih =>
    unfold expectFrom
    refine Eq.trans ?_ (sum_advantage e π hπ gamma v hv s)
    refine Finset.sum_congr rfl fun a _ => ?_
    rw [← sum_stepDelta e he gamma v s a]
    congr 1
    refine Finset.sum_congr rfl fun s' _ => ?_
    congr 1
    by_cases hend : e.ends s a s' = true
    · rw [if_pos hend]
      simp [advs_cons, hend]
    · rw [if_neg hend]
      simp only [advs_cons, List.headD_cons, hend, if_false, Bool.false_eq_true]
      rw [expectFrom_add, expectFrom_const e he π hπ, expectFrom_mul, ih s']
      ring

theorem expectBatch_add (e : Env S A) (π : S → A → ℝ) (n N : Nat) (F G : List (List (Step S A)) → ℝ) :
    expectBatch e π n N (fun τs => F τs + G τs) = expectBatch e π n N F + expectBatch e π n N G := by
  induction N generalizing F G with
  | zero => rfl
  | succ N ih =>
    unfold expectBatch
    simp only [ih]
    rw [← expectEpisode_add]

/-- Sums over the steps of an episode. -/
theorem expect_weighted (e : Env S A) (he : e.Ok) (π : S → A → ℝ) (hπ : ∀ s, ∑ a, π s a = 1) (gamma lam : ℝ) (v : S → ℝ)
    (hv : Values e π gamma v) (h : S → A → ℝ) (n : Nat) (s : S) :
    expectFrom e π n s (fun τ => (List.zipWith (fun r g => h r.obs r.act * g) (record e τ)
      (advs e gamma lam (fun r => v r.obs) (fun r => v r.obsNext) τ)).sum) =
    expectFrom e π n s (fun τ => (τ.map fun x => h x.1 x.2.1 * advantage e gamma v x.1 x.2.1).sum) := by
  induction n generalizing s with
  | zero => simp [expectFrom, record]
  | succ n ih =>
    unfold expectFrom
    refine Finset.sum_congr rfl fun a _ => ?_
    congr 1
    have e1 : ∀ s', e.next s a s' * (if e.ends s a s' = true then
        (List.zipWith (fun r g => h r.obs r.act * g) (record e [(s, a, s')])
          (advs e gamma lam (fun r => v r.obs) (fun r => v r.obsNext) [(s, a, s')])).sum
        else expectFrom e π n s' fun τ => (List.zipWith (fun r g => h r.obs r.act * g) (record e ((s, a, s') :: τ))
          (advs e gamma lam (fun r => v r.obs) (fun r => v r.obsNext) ((s, a, s') :: τ))).sum) =
        h s a * (e.next s a s' * stepDelta e gamma v s a s') + e.next s a s' * (if e.ends s a s' = true then 0 else
          expectFrom e π n s' fun τ => (τ.map fun x => h x.1 x.2.1 * advantage e gamma v x.1 x.2.1).sum) := by
      intro s'
      by_cases hend : e.ends s a s' = true
      · rw [if_pos hend, if_pos hend, advs_cons]
        simp [hend, record, advs, gaeLoop]
        ring
      · rw [if_neg hend, if_neg hend]
        simp only [advs_cons, record, List.zipWith_cons_cons, List.sum_cons, hend, if_false, Bool.false_eq_true]
        rw [expectFrom_add e π n s' (fun τ => h s a * (stepDelta e gamma v s a s' +
          gamma * lam * (advs e gamma lam (fun r => v r.obs) (fun r => v r.obsNext) τ).headD 0)), expectFrom_mul, expectFrom_add,
          expectFrom_const e he π hπ, expectFrom_mul, expect_head e he π hπ gamma lam v hv, ih s']
        ring
    have e2 : ∀ s', e.next s a s' * (if e.ends s a s' = true then
        ([(s, a, s')].map fun x => h x.1 x.2.1 * advantage e gamma v x.1 x.2.1).sum
        else expectFrom e π n s' fun τ => (((s, a, s') :: τ).map fun x => h x.1 x.2.1 * advantage e gamma v x.1 x.2.1).sum) =
        e.next s a s' * (h s a * advantage e gamma v s a) + e.next s a s' * (if e.ends s a s' = true then 0 else
          expectFrom e π n s' fun τ => (τ.map fun x => h x.1 x.2.1 * advantage e gamma v x.1 x.2.1).sum) := by
      intro s'
      by_cases hend : e.ends s a s' = true
      · rw [if_pos hend, if_pos hend]
        simp
      · rw [if_neg hend, if_neg hend]
        simp only [List.map_cons, List.sum_cons]
        rw [expectFrom_add, expectFrom_const e he π hπ]
        ring
    simp_rw [e1, e2]
    rw [Finset.sum_add_distrib, Finset.sum_add_distrib, ← Finset.mul_sum, sum_stepDelta e he, ← Finset.sum_mul, he.next, one_mul]

theorem expect_batch (e : Env S A) (he : e.Ok) (π : S → A → ℝ) (hπ : ∀ s, ∑ a, π s a = 1) (gamma lam : ℝ) (v : S → ℝ)
    (hv : Values e π gamma v) (h : S → A → ℝ) (n N : Nat) :
    expectBatch e π n N (fun τs => (τs.map fun τ => (List.zipWith (fun r g => h r.obs r.act * g) (record e τ)
      (advs e gamma lam (fun r => v r.obs) (fun r => v r.obsNext) τ)).sum).sum) =
    N * expectEpisode e π n (fun τ => (τ.map fun x => h x.1 x.2.1 * advantage e gamma v x.1 x.2.1).sum) := by
  have := expectBatch_sum e he π hπ n N 0 (fun τ => (List.zipWith (fun r g => h r.obs r.act * g) (record e τ)
      (advs e gamma lam (fun r => v r.obs) (fun r => v r.obsNext) τ)).sum)
  simp only [zero_add] at this
  rw [this]
  congr 1
  unfold expectEpisode
  exact Finset.sum_congr rfl fun s _ => by rw [expect_weighted e he π hπ gamma lam v hv h n s]

/-! ### C241 -/

/-- **C241** with the values of the policy as critic, the advantages are unbiased: whatever the function `h` of observation and action by which the
rows are weighted or selected, the expected sum of `h` times the computed advantages equals that of `h` times the advantages of the
actions. This holds for all discount factors, all lambdas and all time limits, with and without normalisation. -/
theorem C241_advantages (e : Env S A) (he : e.Ok) (c : Cfg) (hm : SizeOk c.maxBatch) (critic : List S → List ℝ) (v : S → ℝ)
    (rms : RMS Unit ℝ) (hu : unitOf c rms ≠ 0) (hc : Rowwise critic fun s => [v s / unitOf c rms])
    (π : S → A → ℝ) (hπ : ∀ s, ∑ a, π s a = 1) (hv : Values e π c.gamma v) (h : S → A → ℝ) (n N : Nat) :
    expectBatch e π n N (fun τs => weighted h (recordAll e τs) (advOf e c critic rms τs)) =
      N * expectEpisode e π n (fun τ => (τ.map fun x => h x.1 x.2.1 * advantage e c.gamma v x.1 x.2.1).sum) := by
  simp_rw [advOf_eq e c hm critic v rms hu hc]
  exact expect_batch e he π hπ c.gamma c.lam v hv h n N

/-- **C241** the returns are unbiased as well: weighted by any function of the observation, their expected sum equals that of the values of the
policy, in the unit in which the critic states them. -/
theorem C241_returns (e : Env S A) (he : e.Ok) (c : Cfg) (hm : SizeOk c.maxBatch) (critic : List S → List ℝ) (v : S → ℝ)
    (rms : RMS Unit ℝ) (hu : unitOf c rms ≠ 0) (hc : Rowwise critic fun s => [v s / unitOf c rms])
    (π : S → A → ℝ) (hπ : ∀ s, ∑ a, π s a = 1) (hv : Values e π c.gamma v) (h : S → ℝ) (n N : Nat) :
    expectBatch e π n N (fun τs => weighted (fun s _ => h s) (recordAll e τs) (returnsOf e c critic rms τs)) =
      N * expectEpisode e π n (fun τ => (τ.map fun x => h x.1 * (v x.1 / unitOf c rms)).sum) := by
  have e1 : ∀ τs, weighted (fun s _ => h s) (recordAll e τs) (returnsOf e c critic rms τs) =
      (1 / unitOf c rms) * weighted (fun s _ => h s) (recordAll e τs) (advOf e c critic rms τs) +
        (τs.map fun τ => (τ.map fun x => h x.1 * (v x.1 / unitOf c rms)).sum).sum := by
    intro τs
    have hrec : ∀ τ : List (Step S A), ((record e τ).map fun r => h r.obs * (v r.obs / unitOf c rms)).sum =
        (τ.map fun x => h x.1 * (v x.1 / unitOf c rms)).sum := by
      intro τ
      induction τ with
      | nil => rfl
      | cons x τ ih => simp [record, ih]
    have hall : ((recordAll e τs).map fun r => h r.obs * (v r.obs / unitOf c rms)).sum =
        (τs.map fun τ => (τ.map fun x => h x.1 * (v x.1 / unitOf c rms)).sum).sum := by
      unfold recordAll
      rw [List.map_flatten, List.sum_flatten, List.map_map, List.map_map]
      congr 1
      exact List.map_congr_left fun τ _ => hrec τ
    rw [← hall]
    by_cases hne : recordAll e τs = []
    · rw [hne]; simp [weighted]
    · obtain ⟨p, q, h1, h2, h3⟩ := computeReturns_eq (recordAll e τs) hne c hm critic v rms hu hc
      unfold returnsOf advOf weighted
      rw [h1, Option.map_some, Option.map_some, Option.getD_some, Option.getD_some, h2, h3]
      have hlen : (gaeLoop ((recordAll e τs).map (delta c.gamma c.lam (fun r => v r.obs) fun r => v r.obsNext))).length =
          (recordAll e τs).length := by simp [gaeLoop_length]
      generalize gaeLoop ((recordAll e τs).map (delta c.gamma c.lam (fun r => v r.obs) fun r => v r.obsNext)) = g at hlen
      generalize recordAll e τs = rows at hlen
      clear h1 h2 h3 hne hall
      induction rows generalizing g with
      | nil => simp
      | cons r rows ih =>
        cases g with
        | nil => simp at hlen
        | cons y g =>
          have := ih g (by simpa using hlen)
          simp only [List.map_cons, List.zipWith_cons_cons, List.sum_cons, this]
          ring
  have e2 : expectBatch e π n N (fun τs => weighted (fun s _ => h s) (recordAll e τs) (returnsOf e c critic rms τs)) =
      expectBatch e π n N (fun τs => 0 + (τs.map fun τ => (1 / unitOf c rms) * (List.zipWith (fun r g => h r.obs * g) (record e τ)
      (advs e c.gamma c.lam (fun r => v r.obs) (fun r => v r.obsNext) τ)).sum +
        (τ.map fun x => h x.1 * (v x.1 / unitOf c rms)).sum).sum) := by
    congr 1
    funext τs
    rw [e1, advOf_eq e c hm critic v rms hu hc, List.sum_map_add, List.sum_map_mul_left, zero_add]
  rw [e2, expectBatch_sum e he π hπ, zero_add]
  congr 1
  rw [expectEpisode_add, expectEpisode_mul]
  have h3 : expectEpisode e π n (fun τ => (List.zipWith (fun r g => h r.obs * g) (record e τ)
      (advs e c.gamma c.lam (fun r => v r.obs) (fun r => v r.obsNext) τ)).sum) = 0 := by
    have h4 : ∀ s, expectFrom e π n s (fun τ => (List.zipWith (fun r g => h r.obs * g) (record e τ)
      (advs e c.gamma c.lam (fun r => v r.obs) (fun r => v r.obsNext) τ)).sum) = 0 := by
      intro s
      rw [expect_weighted e he π hπ c.gamma c.lam v hv (fun s _ => h s) n s]
      clear e2 e1
      induction n generalizing s with
      | zero => simp [expectFrom]
      | succ n ih =>
        unfold expectFrom
        have h5 : ∀ a s', (if e.ends s a s' = true then
            ([(s, a, s')].map fun x => h x.1 * advantage e c.gamma v x.1 x.2.1).sum
            else expectFrom e π n s' fun τ => (((s, a, s') :: τ).map fun x => h x.1 * advantage e c.gamma v x.1 x.2.1).sum) =
            h s * advantage e c.gamma v s a := by
          intro a s'
          split
          · simp
          · simp only [List.map_cons, List.sum_cons]
            rw [expectFrom_add, expectFrom_const e he π hπ, ih s', add_zero]
        simp_rw [h5, ← Finset.sum_mul, he.next, one_mul]
        have h6 : ∀ a, π s a * (h s * advantage e c.gamma v s a) = h s * (π s a * advantage e c.gamma v s a) := by
          intro a; ring
        simp_rw [h6]
        rw [← Finset.mul_sum, sum_advantage e π hπ c.gamma v hv, mul_zero]
    unfold expectEpisode
    simp [h4]
  rw [h3, mul_zero, zero_add]

/-- **C241** the gradient of A2C: with the values of the policy as critic, the expected derivative of `actor_loss` (times the number of rows) is the
expected sum, over the steps of an episode, of the derivative of the logarithm of the probability times the advantage of the action,
negated; whatever the parametrisation of the policy, the lambda, the time limit, the order of the rows and the normalisation. -/
theorem C241_actor (e : Env S A) (he : e.Ok) (c : Cfg) (hm : SizeOk c.maxBatch) (critic : List S → List ℝ) (v : S → ℝ)
    (rms : RMS Unit ℝ) (hu : unitOf c rms ≠ 0) (hc : Rowwise critic fun s => [v s / unitOf c rms])
    (perm : Nat → List Nat) (hperm : ∀ k, (perm k).Perm (List.range k))
    (π : ℝ → S → A → ℝ) (π' : S → A → ℝ) (θ : ℝ) (hπ : Family π π' θ) (hv : Values e (π θ) c.gamma v) (n N : Nat) :
    expectBatch e (π θ) n N (fun τs => steps τs * a2cGradient e c critic rms perm π θ τs) =
      -(N * expectEpisode e (π θ) n fun τ =>
        (τ.map fun x => deriv (fun t => Real.log (π t x.1 x.2.1)) θ * advantage e c.gamma v x.1 x.2.1).sum) := by
  have hd : ∀ s a, deriv (fun t => Real.log (π t s a)) θ = π' s a / π θ s a := fun s a =>
    ((hπ.deriv s a).log (hπ.pos s a).ne').deriv
  simp_rw [hd]
  have e1 : ∀ τs, (steps τs : ℝ) * a2cGradient e c critic rms perm π θ τs =
      -1 * weighted (fun s a => π' s a / π θ s a) (recordAll e τs) (advOf e c critic rms τs) := by
    intro τs
    by_cases hne : recordAll e τs = []
    · have h0 : steps τs = 0 := by rw [← recordAll_length e τs, hne]; rfl
      rw [h0, hne]
      simp [weighted]
    · obtain ⟨p, q, h1, h2, -⟩ := computeReturns_eq (recordAll e τs) hne c hm critic v rms hu hc
      have hl : p.adv.length = (recordAll e τs).length := by rw [h2]; simp [gaeLoop_length]
      have h0 : (steps τs : ℝ) ≠ 0 := by
        rw [← recordAll_length e τs]
        simpa using hne
      unfold a2cGradient a2cLoss advOf
      simp only [h1, Option.map_some, Option.getD_some]
      rw [(hasDerivAt_weightedLogLoss _ _ _ (hperm _) hl π π' θ hπ).deriv, recordAll_length]
      unfold weighted
      field_simp
  simp_rw [e1]
  rw [expectBatch_mul, C241_advantages e he c hm critic v rms hu hc (π θ) (hπ.sum θ) hv]
  ring

/-- **C241** hence lambda, the time at which statistics are normalised and the size of the parts are choices about the variance only: the expected
gradients of two policies with the same discount factor agree. -/
theorem C241_lambda (e : Env S A) (he : e.Ok) (c₁ c₂ : Cfg) (hg : c₁.gamma = c₂.gamma) (hm₁ : SizeOk c₁.maxBatch) (hm₂ : SizeOk c₂.maxBatch)
    (critic₁ critic₂ : List S → List ℝ) (v : S → ℝ) (rms₁ rms₂ : RMS Unit ℝ) (hu₁ : unitOf c₁ rms₁ ≠ 0) (hu₂ : unitOf c₂ rms₂ ≠ 0)
    (hc₁ : Rowwise critic₁ fun s => [v s / unitOf c₁ rms₁]) (hc₂ : Rowwise critic₂ fun s => [v s / unitOf c₂ rms₂])
    (perm₁ perm₂ : Nat → List Nat) (hperm₁ : ∀ k, (perm₁ k).Perm (List.range k)) (hperm₂ : ∀ k, (perm₂ k).Perm (List.range k))
    (π : ℝ → S → A → ℝ) (π' : S → A → ℝ) (θ : ℝ) (hπ : Family π π' θ) (hv : Values e (π θ) c₁.gamma v) (n N : Nat) :
    expectBatch e (π θ) n N (fun τs => steps τs * a2cGradient e c₁ critic₁ rms₁ perm₁ π θ τs) =
      expectBatch e (π θ) n N (fun τs => steps τs * a2cGradient e c₂ critic₂ rms₂ perm₂ π θ τs) := by
  rw [C241_actor e he c₁ hm₁ critic₁ v rms₁ hu₁ hc₁ perm₁ hperm₁ π π' θ hπ hv,
    C241_actor e he c₂ hm₂ critic₂ v rms₂ hu₂ hc₂ perm₂ hperm₂ π π' θ hπ (hg ▸ hv), hg]

/-- The derivative of `vf_loss` of `A2CPolicy` for the recorded episodes. -/
noncomputable def vfGradient (e : Env S A) (c : Cfg) (critic : List S → List ℝ) (rms : RMS Unit ℝ) (perm : Nat → List Nat)
    (value : ℝ → S → ℝ) (φ : ℝ) (τs : List (List (Step S A))) : ℝ :=
  deriv (fun φ' => (a2cVfLoss c critic (view (recordAll e τs)) (recordAll e τs) (List.range (recordAll e τs).length) rms
    (perm (recordAll e τs).length) (value φ')).getD 0) φ

/-- **C241** the values of the policy are a stationary point of the training of the critic: there the expected derivative of `vf_loss` (times the
number of rows) is 0, in every direction in which the critic can change. -/
theorem C241_critic (e : Env S A) (he : e.Ok) (c : Cfg) (hm : SizeOk c.maxBatch) (critic : List S → List ℝ) (v : S → ℝ)
    (rms : RMS Unit ℝ) (hu : unitOf c rms ≠ 0) (hc : Rowwise critic fun s => [v s / unitOf c rms])
    (perm : Nat → List Nat) (hperm : ∀ k, (perm k).Perm (List.range k))
    (value : ℝ → S → ℝ) (value' : S → ℝ) (φ : ℝ) (hd : ∀ s, HasDerivAt (fun t => value t s) (value' s) φ)
    (hφ : ∀ s, value φ s = v s / unitOf c rms)
    (π : S → A → ℝ) (hπ : ∀ s, ∑ a, π s a = 1) (hv : Values e π c.gamma v) (n N : Nat) :
    expectBatch e π n N (fun τs => steps τs * vfGradient e c critic rms perm value φ τs) = 0 := by
  have e1 : ∀ τs, (steps τs : ℝ) * vfGradient e c critic rms perm value φ τs =
      -2 * (weighted (fun s _ => value' s) (recordAll e τs) (returnsOf e c critic rms τs) +
        -1 * ((recordAll e τs).map fun r => value' r.obs * (v r.obs / unitOf c rms)).sum) := by
    intro τs
    by_cases hne : recordAll e τs = []
    · have h0 : steps τs = 0 := by rw [← recordAll_length e τs, hne]; rfl
      rw [h0, hne]
      simp [weighted]
    · obtain ⟨p, q, h1, -, h3⟩ := computeReturns_eq (recordAll e τs) hne c hm critic v rms hu hc
      have hl : p.returns.length = (recordAll e τs).length := by rw [h3]; simp [gaeLoop_length]
      have h0 : (steps τs : ℝ) ≠ 0 := by
        rw [← recordAll_length e τs]
        simpa using hne
      unfold vfGradient a2cVfLoss returnsOf
      simp only [h1, Option.map_some, Option.getD_some]
      have h4 := (hasDerivAt_mean (recordAll e τs) p.returns (perm (recordAll e τs).length) (hperm _) hl
        (fun t r g => (g - value t r.obs) * (g - value t r.obs)) (fun r g => -value' r.obs * (g - value φ r.obs) +
          (g - value φ r.obs) * -value' r.obs) φ
        (fun r g => ((hd r.obs).const_sub g).mul ((hd r.obs).const_sub g))).neg
      have h6 : (-fun t => -Ppo.mean (products (recordAll e τs) p.returns (perm (recordAll e τs).length) fun r g =>
          (g - value t r.obs) * (g - value t r.obs))) = fun t => Ppo.mean (products (recordAll e τs) p.returns
          (perm (recordAll e τs).length) fun r g => (g - value t r.obs) * (g - value t r.obs)) := by
        funext t
        simp
      rw [h6, neg_neg] at h4
      rw [h4.deriv, recordAll_length]
      have h5 : (List.zipWith (fun r g => -value' r.obs * (g - value φ r.obs) + (g - value φ r.obs) * -value' r.obs)
          (recordAll e τs) p.returns).sum = -2 * (weighted (fun s _ => value' s) (recordAll e τs) p.returns +
        -1 * ((recordAll e τs).map fun r => value' r.obs * (v r.obs / unitOf c rms)).sum) := by
        unfold weighted
        generalize p.returns = g at hl
        generalize recordAll e τs = rows at hl
        clear h1 h3 h4 h6 hne
        induction rows generalizing g with
        | nil => simp
        | cons r rows ih =>
          cases g with
          | nil => simp at hl
          | cons y g =>
            have := ih g (by simpa using hl)
            rw [List.zipWith_cons_cons, List.sum_cons, this, List.zipWith_cons_cons, List.map_cons, List.sum_cons, List.sum_cons, hφ]
            ring
      rw [h5]
      field_simp
  have hrec : ∀ τ : List (Step S A), ((record e τ).map fun r => value' r.obs * (v r.obs / unitOf c rms)).sum =
      (τ.map fun x => value' x.1 * (v x.1 / unitOf c rms)).sum := by
    intro τ
    induction τ with
    | nil => rfl
    | cons x τ ih => simp [record, ih]
  have hall : ∀ τs : List (List (Step S A)), ((recordAll e τs).map fun r => value' r.obs * (v r.obs / unitOf c rms)).sum =
      0 + (τs.map fun τ => (τ.map fun x => value' x.1 * (v x.1 / unitOf c rms)).sum).sum := by
    intro τs
    unfold recordAll
    rw [List.map_flatten, List.sum_flatten, List.map_map, List.map_map, zero_add]
    congr 1
    exact List.map_congr_left fun τ _ => hrec τ
  simp_rw [e1, hall]
  rw [expectBatch_mul, expectBatch_add, expectBatch_mul, C241_returns e he c hm critic v rms hu hc π hπ hv, expectBatch_sum e he π hπ]
  ring

/-! ### Non-vacuity -/

/-- The values of the policy that chooses both actions equally often, for the discount factor 1/2. -/
noncomputable def twoValues (s : Fin 2) : ℝ := if s = 0 then 5 / 2 else 2

theorem twoValues_values : Values twoSteps (linear 1 0) (1 / 2) twoValues := by
  intro s
  fin_cases s
  · simp [actionValue, twoSteps, linear, twoValues]
    norm_num
  · simp [actionValue, twoSteps, linear, twoValues]
    norm_num

/-- Reward normalisation, in parts of two rows, lambda 0.9. -/
noncomputable def exNorm : Cfg := ⟨1 / 2, 9 / 10, true, 2, 0, false⟩

def exRms : RMS Unit ℝ := ⟨fun _ => 0, fun _ => 4, 10, none, 0⟩

theorem exNorm_unit : unitOf exNorm exRms = 2 := by
  simp only [unitOf, exNorm, exRms, if_true, add_zero]
  rw [show (4 : ℝ) = 2 ^ 2 by norm_num]
  exact Real.sqrt_sq (by norm_num)

noncomputable def exCritic (l : List (Fin 2)) : List ℝ := l.map fun s => twoValues s / 2

theorem exCritic_rowwise : Rowwise exCritic fun s => [twoValues s / unitOf exNorm exRms] := by
  rw [exNorm_unit]
  intro l
  induction l with
  | nil => rfl
  | cons a l ih => simpa [exCritic] using ih

/-- The hypotheses hold: with seven episodes of two steps the expectation is `7 · (3 - 4) = -7`, negated. -/
example : expectBatch twoSteps (linear 1 0) 2 7 (fun τs => steps τs *
    a2cGradient twoSteps exNorm exCritic exRms List.range (linear 1) 0 τs) = 7 := by
  rw [C241_actor twoSteps twoSteps_ok exNorm (.inl (by norm_num [exNorm])) exCritic twoValues exRms (by rw [exNorm_unit]; norm_num)
    exCritic_rowwise List.range (fun _ => .rfl) _ _ 0 (linear_family 1) twoValues_values]
  have hd : ∀ s a, deriv (fun t => Real.log (linear 1 t s a)) 0 = if a then 2 else -2 := by
    intro s a
    rw [(((linear_family 1).deriv s a).log ((linear_family 1).pos s a).ne').deriv]
    cases a <;> simp [linear]
  simp_rw [hd]
  simp [expectEpisode, expectFrom, advantage, actionValue, twoSteps, linear, twoValues, exNorm]
  norm_num

/-- Rows of the first step, broken off after it: the expected return of the critic's `5/4` is `5/4`, in three episodes `15/4`. -/
example : expectBatch twoSteps (linear 1 0) 1 3 (fun τs => weighted (fun s _ => if s = 0 then 1 else 0) (recordAll twoSteps τs)
    (returnsOf twoSteps exNorm exCritic exRms τs)) = 15 / 4 := by
  rw [C241_returns twoSteps twoSteps_ok exNorm (.inl (by norm_num [exNorm])) exCritic twoValues exRms (by rw [exNorm_unit]; norm_num)
    exCritic_rowwise (linear 1 0) ((linear_family 1).sum 0) twoValues_values (fun s => if s = 0 then 1 else 0), exNorm_unit]
  simp [expectEpisode, expectFrom, twoSteps, linear, twoValues]
  norm_num

/-- A critic with the parameter `φ`, added to all values. -/
example : expectBatch twoSteps (linear 1 0) 2 3 (fun τs => steps τs *
    vfGradient twoSteps exNorm exCritic exRms List.range (fun φ s => twoValues s / 2 + φ) 0 τs) = 0 :=
  C241_critic twoSteps twoSteps_ok exNorm (.inl (by norm_num [exNorm])) exCritic twoValues exRms (by rw [exNorm_unit]; norm_num)
    exCritic_rowwise List.range (fun _ => .rfl) _ (fun _ => 1) 0 (fun s => (hasDerivAt_id' (0 : ℝ)).const_add _)
    (fun s => by rw [exNorm_unit]; simp) (linear 1 0) ((linear_family 1).sum 0) twoValues_values 2 3

end Verif.PolicyGradient
