import Verif.Props.Tested

/-!
# What tests report once training has settled (property C289)

A test reports returns without discount (`episode_returns`, C194), while training maximises discounted ones.
-/

namespace Verif.Tested

open Verif.Spec Verif.Returns Verif.QTarget Verif.QLearning Verif.Pipeline Verif.EndToEnd
open Verif.Buffer
open Verif.Nstep (World Table le_best best_le)

set_option linter.unusedSectionVars false

variable {σ S I H K : Type} [Fintype S] [DecidableEq S] [Inhabited S] {m : ℕ}

/-! ### Specification -/

/-- The return of the steps `k` to `k + l` of a stream: the sum of the rewards. -/
noncomputable def total (rows : List (Collector.Row S (Fin (m + 1)) ℝ I)) (k l : ℕ) : ℝ :=
  ∑ j ∈ Finset.range (l + 1), (rows[k + j]?.map fun r => r.out.rew).getD 0

/-- The only reward is `r`, for reaching a goal, which ends the episode. -/
def Goal (w : World S m) (r : ℝ) : Prop := ∀ s a, w.rew s a = if w.ends s a then r else 0

/-! ### Goals -/

theorem goal_rew {w : World S m} {r : ℝ} (hw : Goal w r) {rows : List (Collector.Row S (Fin (m + 1)) ℝ I)} (hstep : ∀ row ∈ rows, Step w row) {k l : ℕ}
    {rl : Collector.Row S (Fin (m + 1)) ℝ I} (hl : rows[k + l]? = some rl) (hone : OneEpisode rows k l) (hterm : rl.out.terminated = true) (j : ℕ) (hj : j < l + 1) :
    (rows[k + j]?.map fun r => r.out.rew).getD 0 = if j = l then r else 0 := by
  have hlen : k + l < rows.length := (List.getElem?_eq_some_iff.mp hl).1
  have hjk : k + j < rows.length := by omega
  have hrow := List.getElem?_eq_getElem hjk
  obtain ⟨-, h2, h3⟩ := hstep _ (List.getElem_mem hjk)
  rw [hrow, Option.map_some, Option.getD_some, h2, hw, ← h3]
  by_cases h : j = l
  · subst h
    rw [hrow, Option.some.injEq] at hl
    rw [hl, hterm]
    simp
  · have := hone j (by omega) _ hrow
    unfold Collector.StepOut.ended at this
    rw [Bool.or_eq_false_iff] at this
    simp [this.1, h]

theorem goal_discounted {w : World S m} {r : ℝ} (hw : Goal w r) {rows : List (Collector.Row S (Fin (m + 1)) ℝ I)} (hstep : ∀ row ∈ rows, Step w row) {k l : ℕ}
    {rl : Collector.Row S (Fin (m + 1)) ℝ I} (hl : rows[k + l]? = some rl) (hone : OneEpisode rows k l) (hterm : rl.out.terminated = true) (gamma : ℝ) :
    discounted rows gamma k l = gamma ^ l * r := by
  unfold discounted
  rw [Finset.sum_congr rfl fun j hj => by rw [goal_rew hw hstep hl hone hterm j (Finset.mem_range.mp hj)]]
  simp

theorem goal_total {w : World S m} {r : ℝ} (hw : Goal w r) {rows : List (Collector.Row S (Fin (m + 1)) ℝ I)} (hstep : ∀ row ∈ rows, Step w row) {k l : ℕ}
    {rl : Collector.Row S (Fin (m + 1)) ℝ I} (hl : rows[k + l]? = some rl) (hone : OneEpisode rows k l) (hterm : rl.out.terminated = true) :
    total rows k l = r := by
  unfold total
  rw [Finset.sum_congr rfl fun j hj => goal_rew hw hstep hl hone hterm j (Finset.mem_range.mp hj)]
  simp

/-! ### C289 -/

/-- **C289 (partial): goals.** Training has settled as in `C285_best`, and the only reward is a positive one for reaching a goal. Then the return that a terminated test episode
reports is the largest possible, and the test is the fastest: no collector with whatever policy has reached a goal from the same observation in fewer steps. (Missing: other
rewards, for which the property fails.) -/
theorem C289_goal_partial {c : Collector.Cfg σ (Fin (m + 1)) S ℝ I H K} (hs : c.share = false) {u : Bool} {s : Collector.Col σ (Fin (m + 1)) S ℝ I H}
    (h : Collector.Usage c u s) (hplain : Plain c) {w : World S m} {state : σ → S} (hp : Plays c.env w state)
    {m0 : Mgr S (Fin (m + 1)) ℝ} {sep0 : List (Buf S (Fin (m + 1)) ℝ)} (h0 : Reach m0 sep0) (hn : c.envNum ≤ sep0.length) (hopts : m0.opts = {})
    {b : Mgr S (Fin (m + 1)) ℝ} {stats : List (ℝ × ℕ)} (hrec : record (m0.reset false) s.log = .ok (b, stats)) (hlen : 0 < b.len)
    (draw : ℕ → ℕ) (rng : ℕ → ℕ → ℕ) (n : ℕ) (hpos : 0 < n) {indices : List ℕ} (hi : b.sampleIndices draw rng (some n) = .ok indices)
    (hall : ∀ x a, ∃ i ∈ indices, obsAt b i = x ∧ actAt b i = a) (isDouble hasTarget : Bool) (gamma : ℝ) (hg : 0 < gamma) (hg1 : gamma < 1)
    (O : Table S m) (hO : w.Optimal gamma O) (Q : Table S m) (hQ : Settled b indices isDouble hasTarget gamma 1 Q)
    {r : ℝ} (hr : 0 < r) (hgoal : Goal w r)
    -- the test
    {σ' I' H' K' : Type} {ct : Collector.Cfg σ' (Fin (m + 1)) S ℝ I' H' K'} (hst : ct.share = false) (hplaint : Plain ct) {state' : σ' → S}
    (hpt : Plays ct.env w state') (hq : PlaysGreedily ct Q) {t0 t : Collector.Col σ' (Fin (m + 1)) S ℝ I' H'} (ht0 : Collector.Reachable ct t0)
    (resetStats : Bool) (kw0 kw : K') (episodes : ℤ) (fuel : ℕ) (st : Collector.Stats)
    (hc : Collector.collect ct none (some episodes) false false kw fuel (Collector.reset ct true resetStats kw0 t0) = some (.ok (t, st)))
    (e : ℕ) (he : e < ct.envNum) (k l : ℕ) (rk rl : Collector.Row S (Fin (m + 1)) ℝ I') (hk : (Collector.rowsOf e t.log)[k]? = some rk)
    (hl : (Collector.rowsOf e t.log)[k + l]? = some rl) (hone : OneEpisode (Collector.rowsOf e t.log) k l) (hterm : rl.out.terminated = true)
    -- another collector
    {τ J G L : Type} {cx : Collector.Cfg τ (Fin (m + 1)) S ℝ J G L} (hsx : cx.share = false) (hplainx : Plain cx) {statex : τ → S}
    (hpx : Plays cx.env w statex) {v : Bool} {x : Collector.Col τ (Fin (m + 1)) S ℝ J G} (hux : Collector.Usage cx v x)
    (e' : ℕ) (he' : e' < cx.envNum) (k' l' : ℕ) (rk' rl' : Collector.Row S (Fin (m + 1)) ℝ J) (hk' : (Collector.rowsOf e' x.log)[k']? = some rk')
    (hl' : (Collector.rowsOf e' x.log)[k' + l']? = some rl') (hone' : OneEpisode (Collector.rowsOf e' x.log) k' l') (hterm' : rl'.out.terminated = true)
    (hobs : rk'.obs = rk.obs) : total (Collector.rowsOf e' x.log) k' l' ≤ total (Collector.rowsOf e t.log) k l ∧ l ≤ l' := by
  have key := C285_best hs h hplain hp h0 hn hopts hrec hlen draw rng n hpos hi hall isDouble hasTarget gamma hg.le hg1 O hO Q hQ hst hplaint hpt hq ht0
    resetStats kw0 kw episodes fuel st hc e he k l rk rl hk hl hone hterm hsx hplainx hpx hux e' he' k' l' rk' rl' hk' hl' hone' hterm' hobs
  have hstep := (usage_steps hst (test_rows hst Q hq ht0 resetStats kw0 kw episodes fuel st hc).1 hplaint hpt he).1
  have hstepx := (usage_steps hsx hux hplainx hpx he').1
  rw [goal_discounted hgoal hstep hl hone hterm, goal_discounted hgoal hstepx hl' hone' hterm', mul_le_mul_iff_of_pos_right hr] at key
  refine ⟨by rw [goal_total hgoal hstep hl hone hterm, goal_total hgoal hstepx hl' hone' hterm'], ?_⟩
  by_contra hlt
  exact absurd key (not_le.mpr (pow_lt_pow_right_of_lt_one₀ hg hg1 (by omega)))

/-- The corridor of C279 has a goal. -/
theorem corridor_goal : Goal corridor 1 := by
  intro s a
  cases s <;> fin_cases a <;> simp [corridor]

/-- The hypotheses of the theorem are met by the corridor: compared with the training run, whose first episode has four steps, the test, with two, is not slower. -/
example : ∃ t st, testRun = some (.ok (t, st)) ∧ ∃ s, corridorRun = some s ∧
    total (Collector.rowsOf 0 s.log) 0 3 ≤ total (Collector.rowsOf 1 t.log) 0 1 ∧ (1 : ℕ) ≤ 3 := by
  obtain ⟨t, st, ht, r0, r1, h0, h1, hend, hterm, hobs⟩ : ∃ t st, testRun = some (.ok (t, st)) ∧ ∃ r0 r1, (Collector.rowsOf 1 t.log)[0]? = some r0 ∧
      (Collector.rowsOf 1 t.log)[1]? = some r1 ∧ r0.out.ended = false ∧ r1.out.terminated = true ∧ r0.obs = false :=
    ⟨_, _, rfl, _, _, rfl, rfl, rfl, rfl, rfl⟩
  obtain ⟨s, b, stats, hrun, hu, hrec, hi, hlen, hall, -⟩ := corridor_collected
  refine ⟨t, st, ht, s, hrun, ?_⟩
  obtain ⟨q0, q1, q2, q3, g0, g1, g2, g3, e0, e1, e2, ends, hq⟩ : ∃ q0 q1 q2 q3, (Collector.rowsOf 0 s.log)[0]? = some q0 ∧ (Collector.rowsOf 0 s.log)[1]? = some q1 ∧
      (Collector.rowsOf 0 s.log)[2]? = some q2 ∧ (Collector.rowsOf 0 s.log)[3]? = some q3 ∧ q0.out.ended = false ∧ q1.out.ended = false ∧ q2.out.ended = false ∧
      q3.out.terminated = true ∧ q0.obs = false := by
    have hrun' := hrun
    unfold corridorRun at hrun'
    cases hrun'
    exact ⟨_, _, _, _, rfl, rfl, rfl, rfl, rfl, rfl, rfl, rfl, rfl⟩
  have hsettled := (C279_optimal rfl hu (fun _ => ⟨rfl, rfl⟩) corridor_plays (.new [5] (by simp) {}) (by simp [corridorCfg]) rfl hrec (by omega) (fun _ => 0)
    (fun _ k => k) 4 (by norm_num) hi hall false true (1 / 2) (by norm_num) (by norm_num) _ corridor_optimal corridorValues).mpr rfl
  refine C289_goal_partial rfl hu (fun _ => ⟨rfl, rfl⟩) corridor_plays (.new [5] (by simp) {}) (by simp [corridorCfg]) rfl hrec (by omega) (fun _ => 0)
    (fun _ k => k) 4 (by norm_num) hi hall false true (1 / 2) (by norm_num) (by norm_num) _ corridor_optimal _ hsettled one_pos corridor_goal (ct := testCfg) rfl
    (fun _ => ⟨rfl, rfl⟩) corridor_plays testCfg_greedy (.built _) false () () 2 10 st ht 1 (by simp [testCfg]) 0 1 r0 r1 h0 h1 ?_ hterm rfl (fun _ => ⟨rfl, rfl⟩)
    corridor_plays hu 0 (by simp [corridorCfg]) 0 3 q0 q3 g0 g3 ?_ ends (by rw [hobs, hq])
  · intro j hj r hr
    obtain rfl : j = 0 := by omega
    rw [h0, Option.some.injEq] at hr
    rw [← hr]
    exact hend
  · intro j hj r hr
    rcases (by omega : j = 0 ∨ j = 1 ∨ j = 2) with rfl | rfl | rfl
    · rw [g0, Option.some.injEq] at hr; rw [← hr]; exact e0
    · rw [g1, Option.some.injEq] at hr; rw [← hr]; exact e1
    · rw [g2, Option.some.injEq] at hr; rw [← hr]; exact e2

/-! ### The difference made by the discount -/

theorem total_discounted {w : World S m} {R : ℝ} (hR : ∀ s a, |w.rew s a| ≤ R) {rows : List (Collector.Row S (Fin (m + 1)) ℝ I)} (hstep : ∀ row ∈ rows, Step w row)
    {gamma : ℝ} (hg : 0 ≤ gamma) (hg1 : gamma ≤ 1) (k l : ℕ) : |total rows k l - discounted rows gamma k l| ≤ R * ((l + 1) * (1 - gamma ^ l)) := by
  have hR0 : 0 ≤ R := (abs_nonneg _).trans (hR default 0)
  unfold total discounted
  rw [← Finset.sum_sub_distrib]
  refine (Finset.abs_sum_le_sum_abs _ _).trans ?_
  have hterm : ∀ j ∈ Finset.range (l + 1), |(rows[k + j]?.map fun r => r.out.rew).getD 0 - gamma ^ j * (rows[k + j]?.map fun r => r.out.rew).getD 0| ≤ R * (1 - gamma ^ l) := by
    intro j hj
    have hjl : gamma ^ l ≤ gamma ^ j := pow_le_pow_of_le_one hg hg1 (by have := Finset.mem_range.mp hj; omega)
    have hj1 : gamma ^ j ≤ 1 := pow_le_one₀ hg hg1
    have hr : |(rows[k + j]?.map fun r => r.out.rew).getD 0| ≤ R := by
      cases h : rows[k + j]? with
      | none => simpa using hR0
      | some r =>
        rw [Option.map_some, Option.getD_some, (hstep r (List.mem_of_getElem? h)).2.1]
        exact hR _ _
    rw [show ∀ a : ℝ, a - gamma ^ j * a = a * (1 - gamma ^ j) from fun a => by ring, abs_mul, abs_of_nonneg (sub_nonneg.mpr hj1)]
    exact mul_le_mul hr (by linarith) (by linarith) hR0
  refine (Finset.sum_le_sum hterm).trans (le_of_eq ?_)
  simp
  ring

/-- **C289 (partial): how much is lost.** Training has settled as in `C285_best` and no reward is larger than `R` in absolute value. Then the return of another policy's episode
from the same observation exceeds the reported one by at most `R * ((l + 1) * (1 - gamma ^ l) + (l' + 1) * (1 - gamma ^ l'))`, where `l + 1` and `l' + 1` are the lengths of the
two episodes: the closer the discount is to 1, the less. (Missing: that nothing is lost, which fails.) -/
theorem C289_loss_partial {c : Collector.Cfg σ (Fin (m + 1)) S ℝ I H K} (hs : c.share = false) {u : Bool} {s : Collector.Col σ (Fin (m + 1)) S ℝ I H}
    (h : Collector.Usage c u s) (hplain : Plain c) {w : World S m} {state : σ → S} (hp : Plays c.env w state)
    {m0 : Mgr S (Fin (m + 1)) ℝ} {sep0 : List (Buf S (Fin (m + 1)) ℝ)} (h0 : Reach m0 sep0) (hn : c.envNum ≤ sep0.length) (hopts : m0.opts = {})
    {b : Mgr S (Fin (m + 1)) ℝ} {stats : List (ℝ × ℕ)} (hrec : record (m0.reset false) s.log = .ok (b, stats)) (hlen : 0 < b.len)
    (draw : ℕ → ℕ) (rng : ℕ → ℕ → ℕ) (n : ℕ) (hpos : 0 < n) {indices : List ℕ} (hi : b.sampleIndices draw rng (some n) = .ok indices)
    (hall : ∀ x a, ∃ i ∈ indices, obsAt b i = x ∧ actAt b i = a) (isDouble hasTarget : Bool) (gamma : ℝ) (hg : 0 < gamma) (hg1 : gamma < 1)
    (O : Table S m) (hO : w.Optimal gamma O) (Q : Table S m) (hQ : Settled b indices isDouble hasTarget gamma 1 Q)
    {R : ℝ} (hR : ∀ s a, |w.rew s a| ≤ R)
    -- the test
    {σ' I' H' K' : Type} {ct : Collector.Cfg σ' (Fin (m + 1)) S ℝ I' H' K'} (hst : ct.share = false) (hplaint : Plain ct) {state' : σ' → S}
    (hpt : Plays ct.env w state') (hq : PlaysGreedily ct Q) {t0 t : Collector.Col σ' (Fin (m + 1)) S ℝ I' H'} (ht0 : Collector.Reachable ct t0)
    (resetStats : Bool) (kw0 kw : K') (episodes : ℤ) (fuel : ℕ) (st : Collector.Stats)
    (hc : Collector.collect ct none (some episodes) false false kw fuel (Collector.reset ct true resetStats kw0 t0) = some (.ok (t, st)))
    (e : ℕ) (he : e < ct.envNum) (k l : ℕ) (rk rl : Collector.Row S (Fin (m + 1)) ℝ I') (hk : (Collector.rowsOf e t.log)[k]? = some rk)
    (hl : (Collector.rowsOf e t.log)[k + l]? = some rl) (hone : OneEpisode (Collector.rowsOf e t.log) k l) (hterm : rl.out.terminated = true)
    -- another collector
    {τ J G L : Type} {cx : Collector.Cfg τ (Fin (m + 1)) S ℝ J G L} (hsx : cx.share = false) (hplainx : Plain cx) {statex : τ → S}
    (hpx : Plays cx.env w statex) {v : Bool} {x : Collector.Col τ (Fin (m + 1)) S ℝ J G} (hux : Collector.Usage cx v x)
    (e' : ℕ) (he' : e' < cx.envNum) (k' l' : ℕ) (rk' rl' : Collector.Row S (Fin (m + 1)) ℝ J) (hk' : (Collector.rowsOf e' x.log)[k']? = some rk')
    (hl' : (Collector.rowsOf e' x.log)[k' + l']? = some rl') (hone' : OneEpisode (Collector.rowsOf e' x.log) k' l') (hterm' : rl'.out.terminated = true)
    (hobs : rk'.obs = rk.obs) : total (Collector.rowsOf e' x.log) k' l' ≤
    total (Collector.rowsOf e t.log) k l + R * ((l + 1) * (1 - gamma ^ l) + (l' + 1) * (1 - gamma ^ l')) := by
  have key := C285_best hs h hplain hp h0 hn hopts hrec hlen draw rng n hpos hi hall isDouble hasTarget gamma hg.le hg1 O hO Q hQ hst hplaint hpt hq ht0
    resetStats kw0 kw episodes fuel st hc e he k l rk rl hk hl hone hterm hsx hplainx hpx hux e' he' k' l' rk' rl' hk' hl' hone' hterm' hobs
  have h1 := abs_le.mp (total_discounted hR (usage_steps hst (test_rows hst Q hq ht0 resetStats kw0 kw episodes fuel st hc).1 hplaint hpt he).1 hg.le hg1.le k l)
  have h2 := abs_le.mp (total_discounted hR (usage_steps hsx hux hplainx hpx he').1 hg.le hg1.le k' l')
  rw [mul_add]
  linarith [h1.1, h2.2]

theorem total_int {w : World S m} (hint : ∀ s a, ∃ z : ℤ, w.rew s a = z) {rows : List (Collector.Row S (Fin (m + 1)) ℝ I)} (hstep : ∀ row ∈ rows, Step w row) (k l : ℕ) :
    ∃ z : ℤ, total rows k l = z := by
  have : ∀ j, ∃ z : ℤ, (rows[k + j]?.map fun r => r.out.rew).getD 0 = (z : ℝ) := by
    intro j
    cases h : rows[k + j]? with
    | none => exact ⟨0, by simp⟩
    | some r =>
      rw [Option.map_some, Option.getD_some, (hstep r (List.mem_of_getElem? h)).2.1]
      exact hint _ _
  choose f hf using this
  refine ⟨∑ j ∈ Finset.range (l + 1), f j, ?_⟩
  unfold total
  push_cast
  exact Finset.sum_congr rfl fun j _ => hf j

/-- **C289 (partial): whole rewards.** If the rewards are whole numbers and the discount is so close to 1 that the bound of `C289_loss_partial` is below 1, then the reported return
is the largest. (Missing: smaller discounts, for which the property fails.) -/
theorem C289_whole_partial {c : Collector.Cfg σ (Fin (m + 1)) S ℝ I H K} (hs : c.share = false) {u : Bool} {s : Collector.Col σ (Fin (m + 1)) S ℝ I H}
    (h : Collector.Usage c u s) (hplain : Plain c) {w : World S m} {state : σ → S} (hp : Plays c.env w state)
    {m0 : Mgr S (Fin (m + 1)) ℝ} {sep0 : List (Buf S (Fin (m + 1)) ℝ)} (h0 : Reach m0 sep0) (hn : c.envNum ≤ sep0.length) (hopts : m0.opts = {})
    {b : Mgr S (Fin (m + 1)) ℝ} {stats : List (ℝ × ℕ)} (hrec : record (m0.reset false) s.log = .ok (b, stats)) (hlen : 0 < b.len)
    (draw : ℕ → ℕ) (rng : ℕ → ℕ → ℕ) (n : ℕ) (hpos : 0 < n) {indices : List ℕ} (hi : b.sampleIndices draw rng (some n) = .ok indices)
    (hall : ∀ x a, ∃ i ∈ indices, obsAt b i = x ∧ actAt b i = a) (isDouble hasTarget : Bool) (gamma : ℝ) (hg : 0 < gamma) (hg1 : gamma < 1)
    (O : Table S m) (hO : w.Optimal gamma O) (Q : Table S m) (hQ : Settled b indices isDouble hasTarget gamma 1 Q)
    (hint : ∀ s a, ∃ z : ℤ, w.rew s a = z) {R : ℝ} (hR : ∀ s a, |w.rew s a| ≤ R)
    -- the test
    {σ' I' H' K' : Type} {ct : Collector.Cfg σ' (Fin (m + 1)) S ℝ I' H' K'} (hst : ct.share = false) (hplaint : Plain ct) {state' : σ' → S}
    (hpt : Plays ct.env w state') (hq : PlaysGreedily ct Q) {t0 t : Collector.Col σ' (Fin (m + 1)) S ℝ I' H'} (ht0 : Collector.Reachable ct t0)
    (resetStats : Bool) (kw0 kw : K') (episodes : ℤ) (fuel : ℕ) (st : Collector.Stats)
    (hc : Collector.collect ct none (some episodes) false false kw fuel (Collector.reset ct true resetStats kw0 t0) = some (.ok (t, st)))
    (e : ℕ) (he : e < ct.envNum) (k l : ℕ) (rk rl : Collector.Row S (Fin (m + 1)) ℝ I') (hk : (Collector.rowsOf e t.log)[k]? = some rk)
    (hl : (Collector.rowsOf e t.log)[k + l]? = some rl) (hone : OneEpisode (Collector.rowsOf e t.log) k l) (hterm : rl.out.terminated = true)
    -- another collector
    {τ J G L : Type} {cx : Collector.Cfg τ (Fin (m + 1)) S ℝ J G L} (hsx : cx.share = false) (hplainx : Plain cx) {statex : τ → S}
    (hpx : Plays cx.env w statex) {v : Bool} {x : Collector.Col τ (Fin (m + 1)) S ℝ J G} (hux : Collector.Usage cx v x)
    (e' : ℕ) (he' : e' < cx.envNum) (k' l' : ℕ) (rk' rl' : Collector.Row S (Fin (m + 1)) ℝ J) (hk' : (Collector.rowsOf e' x.log)[k']? = some rk')
    (hl' : (Collector.rowsOf e' x.log)[k' + l']? = some rl') (hone' : OneEpisode (Collector.rowsOf e' x.log) k' l') (hterm' : rl'.out.terminated = true)
    (hobs : rk'.obs = rk.obs)
    (hclose : R * ((l + 1) * (1 - gamma ^ l) + (l' + 1) * (1 - gamma ^ l')) < 1) : total (Collector.rowsOf e' x.log) k' l' ≤ total (Collector.rowsOf e t.log) k l := by
  have key := C289_loss_partial hs h hplain hp h0 hn hopts hrec hlen draw rng n hpos hi hall isDouble hasTarget gamma hg hg1 O hO Q hQ hR hst hplaint hpt hq ht0
    resetStats kw0 kw episodes fuel st hc e he k l rk rl hk hl hone hterm hsx hplainx hpx hux e' he' k' l' rk' rl' hk' hl' hone' hterm' hobs
  obtain ⟨y, hy⟩ := total_int hint (usage_steps hst (test_rows hst Q hq ht0 resetStats kw0 kw episodes fuel st hc).1 hplaint hpt he).1 k l
  obtain ⟨z, hz⟩ := total_int hint (usage_steps hsx hux hplainx hpx he').1 k' l'
  rw [hy, hz] at key ⊢
  have : (z : ℝ) < ((y + 1 : ℤ) : ℝ) := by push_cast; linarith
  exact_mod_cast Int.lt_add_one_iff.mp (by exact_mod_cast this)

/-- The optimal values of the corridor with discount 15/16. -/
noncomputable def corridorSlow : Table Bool 1 := fun s a => if s then (if a = 1 then 1 else 15 / 16) else (if a = 1 then 15 / 16 else 225 / 256)

theorem corridorSlow_optimal : corridor.Optimal (15 / 16) corridorSlow := by
  have hb : ∀ s, best corridorSlow s = if s then 1 else 15 / 16 := by
    intro s
    refine le_antisymm (best_le _ _ _ fun a => ?_) ?_
    · cases s <;> fin_cases a <;> norm_num [corridorSlow]
    · have := le_best corridorSlow s 1
      cases s <;> simp [corridorSlow] at this ⊢ <;> linarith
  intro s a
  cases s <;> fin_cases a <;> norm_num [corridorSlow, corridor, hb]

theorem corridorSlow_greedy : PlaysGreedily testCfg corridorSlow := by
  refine ⟨rfl, fun k obs info hidden => ?_⟩
  have : ∀ s, Policy.argmax (tableNet corridorSlow s) = 1 := by
    intro s
    cases s <;> norm_num [tableNet, List.ofFn_succ, Policy.argmax, corridorSlow]
  unfold Policy.dqnAct Policy.computeQ
  simp only [testCfg, List.map_map]
  exact List.map_congr_left fun s _ => (this s).symm

/-- The hypotheses of `C289_whole_partial`, and so those of `C289_loss_partial`, are met by the corridor with discount 15/16. -/
example : ∃ t st, testRun = some (.ok (t, st)) ∧ ∃ s, corridorRun = some s ∧
    total (Collector.rowsOf 0 s.log) 0 3 ≤ total (Collector.rowsOf 1 t.log) 0 1 := by
  obtain ⟨t, st, ht, r0, r1, h0, h1, hend, hterm, hobs⟩ : ∃ t st, testRun = some (.ok (t, st)) ∧ ∃ r0 r1, (Collector.rowsOf 1 t.log)[0]? = some r0 ∧
      (Collector.rowsOf 1 t.log)[1]? = some r1 ∧ r0.out.ended = false ∧ r1.out.terminated = true ∧ r0.obs = false :=
    ⟨_, _, rfl, _, _, rfl, rfl, rfl, rfl, rfl⟩
  obtain ⟨s, b, stats, hrun, hu, hrec, hi, hlen, hall, -⟩ := corridor_collected
  refine ⟨t, st, ht, s, hrun, ?_⟩
  obtain ⟨q0, q1, q2, q3, g0, g1, g2, g3, e0, e1, e2, ends, hq⟩ : ∃ q0 q1 q2 q3, (Collector.rowsOf 0 s.log)[0]? = some q0 ∧ (Collector.rowsOf 0 s.log)[1]? = some q1 ∧
      (Collector.rowsOf 0 s.log)[2]? = some q2 ∧ (Collector.rowsOf 0 s.log)[3]? = some q3 ∧ q0.out.ended = false ∧ q1.out.ended = false ∧ q2.out.ended = false ∧
      q3.out.terminated = true ∧ q0.obs = false := by
    have hrun' := hrun
    unfold corridorRun at hrun'
    cases hrun'
    exact ⟨_, _, _, _, rfl, rfl, rfl, rfl, rfl, rfl, rfl, rfl, rfl⟩
  have hsettled := (C279_optimal rfl hu (fun _ => ⟨rfl, rfl⟩) corridor_plays (.new [5] (by simp) {}) (by simp [corridorCfg]) rfl hrec (by omega) (fun _ => 0)
    (fun _ k => k) 4 (by norm_num) hi hall false true (15 / 16) (by norm_num) (by norm_num) _ corridorSlow_optimal corridorSlow).mpr rfl
  refine C289_whole_partial rfl hu (fun _ => ⟨rfl, rfl⟩) corridor_plays (.new [5] (by simp) {}) (by simp [corridorCfg]) rfl hrec (by omega) (fun _ => 0)
    (fun _ k => k) 4 (by norm_num) hi hall false true (15 / 16) (by norm_num) (by norm_num) _ corridorSlow_optimal _ hsettled (fun s a => ?_) (R := 1) (fun s a => ?_) (ct := testCfg) rfl
    (fun _ => ⟨rfl, rfl⟩) corridor_plays corridorSlow_greedy (.built _) false () () 2 10 st ht 1 (by simp [testCfg]) 0 1 r0 r1 h0 h1 ?_ hterm rfl (fun _ => ⟨rfl, rfl⟩)
    corridor_plays hu 0 (by simp [corridorCfg]) 0 3 q0 q3 g0 g3 ?_ ends (by rw [hobs, hq]) (by norm_num)
  · unfold corridor
    dsimp only
    split
    · exact ⟨1, by simp⟩
    · exact ⟨0, by simp⟩
  · unfold corridor
    dsimp only
    split <;> simp
  · intro j hj r hr
    obtain rfl : j = 0 := by omega
    rw [h0, Option.some.injEq] at hr
    rw [← hr]
    exact hend
  · intro j hj r hr
    rcases (by omega : j = 0 ∨ j = 1 ∨ j = 2) with rfl | rfl | rfl
    · rw [g0, Option.some.injEq] at hr; rw [← hr]; exact e0
    · rw [g1, Option.some.injEq] at hr; rw [← hr]; exact e1
    · rw [g2, Option.some.injEq] at hr; rw [← hr]; exact e2

/-! ### Returns that are not maximal -/

/-- In the first state action 0 ends the episode with reward 1, action 1 leads to the second state, from where every action ends it with reward 3/2. -/
noncomputable def patience : World Bool 1 where
  next := fun _ _ => true
  rew := fun s a => if s then 3 / 2 else if a = 0 then 1 else 0
  ends := fun s a => s || a == 0

/-- An environment that behaves like this. -/
noncomputable def patienceEnv : Collector.Env Bool (Fin 2) Bool ℝ Unit Unit where
  step := fun s a => (patience.next s a, ⟨patience.next s a, patience.rew s a, patience.ends s a, false, ()⟩)
  reset := fun _ _ => (false, false, ())

theorem patience_plays : Plays patienceEnv patience id := ⟨fun _ _ => rfl, fun _ _ => rfl, fun _ _ => rfl, fun _ _ => rfl, fun _ _ => rfl⟩

/-- One such environment and a policy that takes the actions `acts`, depending on the number of the call. -/
noncomputable def patienceCfg (acts : ℕ → Fin 2) : Collector.Cfg Bool (Fin 2) Bool ℝ Unit Unit Unit where
  env := patienceEnv
  policy := ⟨fun k obs _ _ => (obs.map fun _ => acts k, none), fun _ acts _ => acts, id, id, fun _ _ => 0⟩
  envNum := 1
  noise := false
  share := false
  hiddenKind := .arrayOrBatch
  zeroHidden := ()
  isAsync := false

/-- The actions during training. -/
def patienceActs (k : ℕ) : Fin 2 := if k = 0 ∨ k = 2 then 0 else 1

/-- A new collector after a reset. -/
noncomputable def patienceReset (acts : ℕ → Fin 2) : Collector.Col Bool (Fin 2) Bool ℝ Unit Unit :=
  Collector.reset (patienceCfg acts) true true () { world := ⟨fun _ => false, fun _ => false⟩ }

/-- The optimal values with discount 1/2. -/
noncomputable def patienceValues : Table Bool 1 := fun s a => if s then 3 / 2 else if a = 0 then 1 else 3 / 4

theorem patience_optimal : patience.Optimal (1 / 2) patienceValues := by
  have hb : ∀ s, best patienceValues s = if s then 3 / 2 else 1 := by
    intro s
    refine le_antisymm (best_le _ _ _ fun a => ?_) ?_
    · cases s <;> fin_cases a <;> norm_num [patienceValues]
    · have := le_best patienceValues s 0
      cases s <;> simp [patienceValues] at this ⊢ <;> linarith
  intro s a
  cases s <;> fin_cases a <;> norm_num [patienceValues, patience, hb]

theorem patience_greedy : PlaysGreedily (patienceCfg fun _ => 0) patienceValues := by
  refine ⟨rfl, fun k obs info hidden => ?_⟩
  have : ∀ s, Policy.argmax (tableNet patienceValues s) = 0 := by
    intro s
    cases s <;> norm_num [tableNet, List.ofFn_succ, Policy.argmax, patienceValues]
  unfold Policy.dqnAct Policy.computeQ
  simp only [patienceCfg, List.map_map]
  exact List.map_congr_left fun s _ => (this s).symm

/-- **C289 is violated**: training has settled (five steps that contain all pairs, discount 1/2, every choice of `is_double` and target network), the test episode from the first
state reports the return 1, and a policy that always takes action 1 has the return 3/2 from there. -/
theorem C289_violated : ∃ s b stats tr t st x sx, Collector.collect (patienceCfg patienceActs) (some 5) none false false () 10 (patienceReset patienceActs) = some (.ok (s, tr)) ∧
    record ((Mgr.new [6] {} : Mgr Bool (Fin 2) ℝ).reset false) s.log = .ok (b, stats) ∧
    b.sampleIndices (fun _ => 0) (fun _ k => k) (some 5) = .ok [0, 1, 2, 3, 4] ∧
    (∀ isDouble hasTarget, Settled b [0, 1, 2, 3, 4] isDouble hasTarget (1 / 2) 1 patienceValues) ∧
    -- the test
    PlaysGreedily (patienceCfg fun _ => 0) patienceValues ∧
    Collector.collect (patienceCfg fun _ => 0) none (some 1) false false () 10 (patienceReset fun _ => 0) = some (.ok (t, st)) ∧
    -- another policy
    Collector.collect (patienceCfg fun _ => 1) none (some 1) false false () 10 (patienceReset fun _ => 1) = some (.ok (x, sx)) ∧
    (∃ r, (Collector.rowsOf 0 t.log) = [r] ∧ r.obs = false ∧ r.out.terminated = true) ∧
    (∃ r r', (Collector.rowsOf 0 x.log) = [r, r'] ∧ r.obs = false ∧ r.out.ended = false ∧ r'.out.terminated = true) ∧
    total (Collector.rowsOf 0 t.log) 0 0 = 1 ∧ total (Collector.rowsOf 0 x.log) 0 1 = 3 / 2 := by
  obtain ⟨s, tr, hc, b, stats, hrec, hi, hlen, a0, a1, a2, a3⟩ : ∃ s tr, Collector.collect (patienceCfg patienceActs) (some 5) none false false () 10 (patienceReset patienceActs) =
      some (.ok (s, tr)) ∧ ∃ b stats, record ((Mgr.new [6] {} : Mgr Bool (Fin 2) ℝ).reset false) s.log = .ok (b, stats) ∧
      b.sampleIndices (fun _ => 0) (fun _ k => k) (some 5) = .ok [0, 1, 2, 3, 4] ∧ b.len = 5 ∧
      (obsAt b 0 = false ∧ actAt b 0 = 0) ∧ (obsAt b 1 = false ∧ actAt b 1 = 1) ∧ (obsAt b 2 = true ∧ actAt b 2 = 0) ∧ obsAt b 4 = true ∧ actAt b 4 = 1 :=
    ⟨_, _, rfl, _, _, rfl, rfl, rfl, ⟨rfl, rfl⟩, ⟨rfl, rfl⟩, ⟨rfl, rfl⟩, rfl, rfl⟩
  have hu : Collector.Usage (patienceCfg patienceActs) false s := .steps (.reset (.built _) true ()) 5 false false (by simp) () 10 tr hc
  obtain ⟨t, st, ht, r, hr, h1, h2, h3⟩ : ∃ t st, Collector.collect (patienceCfg fun _ => 0) none (some 1) false false () 10 (patienceReset fun _ => 0) = some (.ok (t, st)) ∧
      ∃ r, (Collector.rowsOf 0 t.log) = [r] ∧ r.obs = false ∧ r.out.terminated = true ∧ r.out.rew = patience.rew false 0 :=
    ⟨_, _, rfl, _, rfl, rfl, rfl, rfl⟩
  obtain ⟨x, sx, hx, q, q', hq, g1, g2, g3, g4, g5⟩ : ∃ t st, Collector.collect (patienceCfg fun _ => 1) none (some 1) false false () 10 (patienceReset fun _ => 1) = some (.ok (t, st)) ∧
      ∃ r r', (Collector.rowsOf 0 t.log) = [r, r'] ∧ r.obs = false ∧ r.out.ended = false ∧ r'.out.terminated = true ∧ r.out.rew = patience.rew false 1 ∧
      r'.out.rew = patience.rew true 1 :=
    ⟨_, _, rfl, _, _, rfl, rfl, rfl, rfl, rfl, rfl⟩
  refine ⟨s, b, stats, tr, t, st, x, sx, hc, hrec, hi, fun isDouble hasTarget => ?_, patience_greedy, ht, hx, ⟨r, hr, h1, h2⟩, ⟨q, q', hq, g1, g2, g3⟩, ?_, ?_⟩
  · refine (C279_optimal rfl hu (fun _ => ⟨rfl, rfl⟩) patience_plays (.new [6] (by simp) {}) (by simp [patienceCfg]) rfl hrec (by omega) (fun _ => 0)
      (fun _ k => k) 5 (by norm_num) hi ?_ isDouble hasTarget (1 / 2) (by norm_num) (by norm_num) _ patience_optimal patienceValues).mpr rfl
    intro y a
    cases y <;> fin_cases a
    · exact ⟨0, by simp, a0⟩
    · exact ⟨1, by simp, a1⟩
    · exact ⟨2, by simp, a2⟩
    · exact ⟨4, by simp, a3⟩
  · rw [hr]; simp [total, h3, patience]
  · rw [hq]; simp [total, Finset.sum_range_succ, g4, g5, patience]

end Verif.Tested
