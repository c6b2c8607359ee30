import Verif.Props.EndToEnd

/-!
# Testing a policy whose training has settled (property C285)

`test_episode` (tianshou/trainer/utils.py:27-30) resets the test collector together with its buffer and collects episodes with the policy, here DQN without
exploration noise. The values come from training as in property C279.
-/

namespace Verif.Collector

variable {σ A O R I H K : Type}

/-- The actions of one round are those of the policy. -/
def ByPolicy (c : Cfg σ A O R I H K) (round : List (Nat × Row O A R I)) : Prop :=
  ∃ k hidden, round.map (fun p => p.2.act) = (c.policy.forward k (round.map fun p => p.2.obs) (round.map fun p => p.2.given) hidden).1

theorem Round.byPolicy {c : Cfg σ A O R I H K} (hnoise : c.noise = false) {nEpisode : Option Int} {kw : K}
    {s s' : Loop σ A O R I H} {ent : List (Row O A R I)} (hlo : s.lastObs.length = s.ready.length)
    (hv : ∀ (i : Nat) (x : Cell O), s.lastObs[i]? = some x → ∃ o, x = .val o)
    (hr : Round c nEpisode false kw s s' ent) : ByPolicy c (s.ready.zip ent) := by
  have hm : ∀ {β : Type} (f : Row O A R I → β), (s.ready.zip ent).map (fun p => f p.2) = ent.map f := by
    intro β f
    have : (s.ready.zip ent).map Prod.snd = ent := List.map_snd_zip (by rw [hr.len])
    conv_rhs => rw [← this]
    rw [List.map_map]; rfl
  have hobs : ent.map Row.obs = s.lastObs.map (Cell.read s.world.mem) := by
    apply List.ext_getElem?
    intro i
    by_cases hi : i < ent.length
    · have hi2 : i < s.lastObs.length := by rw [hlo, ← hr.len]; exact hi
      obtain ⟨o, ho⟩ := hv i _ (List.getElem?_eq_getElem hi2)
      have h1 : s.lastObs[i]? = some (.val o) := by rw [List.getElem?_eq_getElem hi2, ho]
      rw [List.getElem?_map, List.getElem?_map, h1, List.getElem?_eq_getElem hi]
      simp only [Option.map_some, Option.some.injEq, Cell.read]
      exact hr.obs i o _ h1 (List.getElem?_eq_getElem hi)
    · rw [List.getElem?_eq_none (by simp; omega), List.getElem?_eq_none (by simp [hlo, ← hr.len]; omega)]
  have hact := hr.act
  rw [← hobs, ← hr.given] at hact
  refine ⟨s.calls, s.lastHidden, ?_⟩
  rw [hm Row.act, hm Row.obs, hm Row.given, hact]
  simp [decide, hnoise]

/-- In a collection without random actions all new rounds are decided by the policy. -/
theorem run_byPolicy {c : Cfg σ A O R I H K} (hs : c.share = false) (hnoise : c.noise = false) (nStep nEpisode : Option Int) (kw : K) (fuel m : Nat)
    (hm : m ≤ c.envNum) (b : Bool) (s : Col σ A O R I H) (po : List (Cell O)) (pi : List I) (h : UInv c b s po pi) (hlog : s.log = [])
    (l : Loop σ A O R I H) (hr : run c nStep nEpisode false kw fuel (start s (List.range m) po pi) = some (.ok l)) :
    ∀ round ∈ l.log, ByPolicy c round := by
  have hi := start_inv nEpisode s m po pi (by rw [h.lenObs]; exact hm) (by rw [h.lenInfo]; exact hm)
  have hc : ∀ e o, c.cell e o = .val o := by intro e o; simp [Cfg.cell, hs]
  have hP := run_induct c nStep nEpisode false kw
    (fun x => (∃ new, Inv nEpisode (List.range m) s.log new x) ∧ (∀ (i : Nat) (y : Cell O), x.lastObs[i]? = some y → ∃ o, y = .val o) ∧
      ∀ round ∈ x.log, ByPolicy c round) ?_ fuel _ _ hr ⟨⟨[], hi⟩, ?_, ?_⟩
  · exact hP.1.2.2
  · rintro x y ⟨⟨new, hx⟩, hv, hd⟩ hit
    obtain ⟨ent, hrd, hinv⟩ := hx.iter hit
    refine ⟨⟨_, hinv⟩, ?_, ?_⟩
    · intro j z hz
      have hj : j < y.ready.length := by rw [← hrd.lenObs]; exact getElem?_some_lt hz
      have hje := List.getElem?_eq_getElem hj
      obtain ⟨i, hi'⟩ := getElem?_mem_idx (hrd.sub.subset (List.mem_of_getElem? hje))
      have hl : i < ent.length := by rw [hrd.len]; exact getElem?_some_lt hi'
      obtain ⟨w, _, ha, hb⟩ := hrd.moved i _ ent[i] hi' (List.getElem?_eq_getElem hl)
      cases hdn : ent[i].out.done with
      | false =>
        have := ((ha hdn).2.2 j hje).1
        rw [hz, hc, Option.some.injEq] at this
        exact ⟨_, this⟩
      | true =>
        obtain ⟨_, o, _, _, _, h3⟩ := hb hdn
        have := (h3 j hje).1
        rw [hz, hc, Option.some.injEq] at this
        exact ⟨_, this⟩
    · intro round hround
      rw [hrd.log, List.mem_append, List.mem_singleton] at hround
      rcases hround with hround | rfl
      · exact hd round hround
      · exact hrd.byPolicy hnoise hx.lenObs hv
  · intro i y hy
    have : y ∈ (start s (List.range m) po pi).lastObs := List.mem_of_getElem? hy
    simp only [start, List.mem_filterMap, List.mem_range] at this
    obtain ⟨e, he, hpe⟩ := this
    obtain ⟨_, sit, _, _, _, h4, _⟩ := h.traj e (by omega)
    rw [h4, Option.some.injEq] at hpe
    exact ⟨_, hpe.symm⟩
  · simp [start, hlog]

end Verif.Collector

namespace Verif.Tested

open Verif.Spec Verif.Returns Verif.QTarget Verif.QLearning Verif.Pipeline Verif.EndToEnd
open Verif.Buffer
open Verif.Nstep (World Table le_best best_le)

set_option linter.unusedSectionVars false

variable {σ S I H K : Type} [Fintype S] [DecidableEq S] [Inhabited S] {m : ℕ}

/-! ### Specification -/

/-- The policy of the collector is that of DQN with the values `Q` (`forward`, dqn.py:166-210, for a network that is a table), and no exploration noise is
added. -/
def PlaysGreedily (c : Collector.Cfg σ (Fin (m + 1)) S ℝ I H K) (Q : Table S m) : Prop :=
  c.noise = false ∧ ∀ k obs info hidden, (c.policy.forward k obs info hidden).1.map (fun a : Fin (m + 1) => (a : ℕ)) = Policy.dqnAct (obs.map (tableNet Q)) none

/-- What was obtained from step `k` of the stream `rows` on, in `l + 1` steps: the discounted rewards and, unless the last of the steps has terminated the
episode, the discounted value `V` of the observation that was reached. -/
noncomputable def obtained (rows : List (Collector.Row S (Fin (m + 1)) ℝ I)) (gamma : ℝ) (V : S → ℝ) (k l : ℕ) (last : Collector.Row S (Fin (m + 1)) ℝ I) : ℝ :=
  (∑ j ∈ Finset.range (l + 1), gamma ^ j * (rows[k + j]?.map fun r => r.out.rew).getD 0) +
    gamma ^ (l + 1) * if last.out.terminated then 0 else V last.out.obs

/-- The steps `k` to `k + l` of the stream belong to one episode. -/
def OneEpisode (rows : List (Collector.Row S (Fin (m + 1)) ℝ I)) (k l : ℕ) : Prop :=
  ∀ j < l, ∀ r, rows[k + j]? = some r → r.out.ended = false

/-! ### Streams -/

theorem obtained_succ (rows : List (Collector.Row S (Fin (m + 1)) ℝ I)) (gamma : ℝ) (V : S → ℝ) (k l : ℕ) (first last : Collector.Row S (Fin (m + 1)) ℝ I)
    (hk : rows[k]? = some first) : obtained rows gamma V k (l + 1) last = first.out.rew + gamma * obtained rows gamma V (k + 1) l last := by
  unfold obtained
  rw [Finset.sum_range_succ', Nat.add_zero k, hk, mul_add, Finset.mul_sum, pow_succ' gamma (l + 1)]
  have : ∀ j ∈ Finset.range (l + 1), gamma ^ (j + 1) * (rows[k + (j + 1)]?.map fun r => r.out.rew).getD 0 =
      gamma * (gamma ^ j * (rows[k + 1 + j]?.map fun r => r.out.rew).getD 0) := by
    intro j _
    rw [show k + (j + 1) = k + 1 + j by omega]
    ring
  rw [Finset.sum_congr rfl this]
  simp only [pow_zero, one_mul, Option.map_some, Option.getD_some]
  ring

theorem obtained_zero (rows : List (Collector.Row S (Fin (m + 1)) ℝ I)) (gamma : ℝ) (V : S → ℝ) (k : ℕ) (first : Collector.Row S (Fin (m + 1)) ℝ I)
    (hk : rows[k]? = some first) : obtained rows gamma V k 0 first = first.out.rew + gamma * if first.out.terminated then 0 else V first.out.obs := by
  unfold obtained
  rw [zero_add, Finset.sum_range_one, Nat.add_zero k, hk, pow_zero, one_mul, pow_one]
  rfl

section
variable {w : World S m} {rows : List (Collector.Row S (Fin (m + 1)) ℝ I)} (hstep : ∀ row ∈ rows, Step w row)
  (hnext : ∀ (i : ℕ) (r r' : Collector.Row S (Fin (m + 1)) ℝ I), rows[i]? = some r → rows[i + 1]? = some r' → r.out.ended = false → r'.obs = r.out.obs)
  {gamma : ℝ} {O : Table S m} (hO : w.Optimal gamma O)
include hstep hnext hO

/-- Any behaviour obtains at most the optimal value. -/
theorem obtained_le (hg : 0 ≤ gamma) (l : ℕ) : ∀ (k : ℕ) (rk rl : Collector.Row S (Fin (m + 1)) ℝ I), rows[k]? = some rk → rows[k + l]? = some rl →
    OneEpisode rows k l → obtained rows gamma (best O) k l rl ≤ O rk.obs rk.act := by
  induction l with
  | zero =>
    intro k rk rl hk hl _
    rw [Nat.add_zero k, hk, Option.some.injEq] at hl
    subst hl
    obtain ⟨h1, h2, h3⟩ := hstep rk (List.mem_of_getElem? hk)
    rw [obtained_zero rows gamma _ k rk hk, hO, h2, h3, h1]
  | succ l ih =>
    intro k rk rl hk hl hrun
    have hlt : k + 1 < rows.length := by
      have := (List.getElem?_eq_some_iff.mp hl).1
      omega
    have hr1 := List.getElem?_eq_getElem hlt
    have hend := hrun 0 (Nat.succ_pos l) rk (by simpa using hk)
    have hobs := hnext k rk _ hk hr1 hend
    obtain ⟨h1, h2, h3⟩ := hstep rk (List.mem_of_getElem? hk)
    have hne : w.ends rk.obs rk.act = false := by
      rw [← h3]
      exact (Bool.or_eq_false_iff.mp hend).1
    have := ih (k + 1) _ rl hr1 (by rwa [show k + 1 + l = k + (l + 1) by omega]) (fun j hj r hr => hrun (j + 1) (by omega) r (by
      rwa [show k + (j + 1) = k + 1 + j by omega]))
    rw [obtained_succ rows gamma _ k l rk rl hk, hO, hne, h2]
    simp only [Bool.false_eq_true, if_false]
    have h4 := this.trans (le_best O _ _)
    rw [hobs, h1] at h4
    exact add_le_add le_rfl (mul_le_mul_of_nonneg_left h4 hg)

/-- Greedy behaviour obtains exactly the optimal value. -/
theorem obtained_eq (hgreedy : ∀ row ∈ rows, O row.obs row.act = best O row.obs) (l : ℕ) : ∀ (k : ℕ) (rk rl : Collector.Row S (Fin (m + 1)) ℝ I),
    rows[k]? = some rk → rows[k + l]? = some rl → OneEpisode rows k l → obtained rows gamma (best O) k l rl = best O rk.obs := by
  induction l with
  | zero =>
    intro k rk rl hk hl _
    rw [Nat.add_zero k, hk, Option.some.injEq] at hl
    subst hl
    obtain ⟨h1, h2, h3⟩ := hstep rk (List.mem_of_getElem? hk)
    rw [obtained_zero rows gamma _ k rk hk, ← hgreedy rk (List.mem_of_getElem? hk), hO, h2, h3, h1]
  | succ l ih =>
    intro k rk rl hk hl hrun
    have hlt : k + 1 < rows.length := by
      have := (List.getElem?_eq_some_iff.mp hl).1
      omega
    have hr1 := List.getElem?_eq_getElem hlt
    have hend := hrun 0 (Nat.succ_pos l) rk (by simpa using hk)
    have hobs := hnext k rk _ hk hr1 hend
    obtain ⟨h1, h2, h3⟩ := hstep rk (List.mem_of_getElem? hk)
    have hne : w.ends rk.obs rk.act = false := by
      rw [← h3]
      exact (Bool.or_eq_false_iff.mp hend).1
    have := ih (k + 1) _ rl hr1 (by rwa [show k + 1 + l = k + (l + 1) by omega]) (fun j hj r hr => hrun (j + 1) (by omega) r (by
      rwa [show k + (j + 1) = k + 1 + j by omega]))
    rw [obtained_succ rows gamma _ k l rk rl hk, this, hobs, h1, ← hgreedy rk (List.mem_of_getElem? hk), hO, hne, h2]
    simp

end

/-- The rows of a test are steps with best actions. -/
theorem test_rows {c : Collector.Cfg σ (Fin (m + 1)) S ℝ I H K} (hs : c.share = false) (Q : Table S m) (hq : PlaysGreedily c Q)
    {s0 s : Collector.Col σ (Fin (m + 1)) S ℝ I H} (h0 : Collector.Reachable c s0) (stats : Bool) (kw0 kw : K) (n : ℤ) (fuel : ℕ) (st : Collector.Stats)
    (hc : Collector.collect c none (some n) false false kw fuel (Collector.reset c true stats kw0 s0) = some (.ok (s, st))) :
    Collector.Usage c true s ∧ ∀ e, ∀ row ∈ Collector.rowsOf e s.log, Q row.obs row.act = best Q row.obs := by
  refine ⟨.episodes (.reset h0 stats kw0) n (Or.inl rfl) false false (by simp) kw fuel st hc, fun e row hrow => ?_⟩
  obtain ⟨po, pi, hu⟩ := Collector.reset_uinv_fresh c hs kw0 stats s0
  obtain ⟨_, po', pi', l, hpo, hpi, hr, rfl, _⟩ := Collector.collect_episodes c n false false kw fuel _ s st hc
  simp only [Collector.prepared, Bool.false_eq_true, if_false] at hpo hpi hr hrow
  rw [hu.obs, Option.some.injEq] at hpo
  rw [hu.info, Option.some.injEq] at hpi
  subst hpo; subst hpi
  have hby := Collector.run_byPolicy hs hq.1 none (some n) kw fuel _ (by omega) true _ po pi hu (by cases stats <;> rfl) l hr
  unfold Collector.rowsOf at hrow
  obtain ⟨p, hp1, rfl⟩ := List.mem_map.mp hrow
  obtain ⟨round, hround, hp2⟩ := List.mem_flatten.mp (List.mem_filter.mp hp1).1
  obtain ⟨k, hidden, hact⟩ := hby round hround
  have h1 := congrArg (List.map fun a : Fin (m + 1) => (a : ℕ)) hact
  rw [hq.2, List.map_map] at h1
  unfold Policy.dqnAct Policy.computeQ at h1
  simp only [List.map_map] at h1
  have h2 := List.map_inj_left.mp h1 p hp2
  simp only [Function.comp_apply] at h2
  have h3 := argmax_table Q p.2.obs
  rw [← h2] at h3
  rw [← h3, List.getD_eq_getElem?_getD, table_get]
  rfl

/-! ### C285 -/

/-- **C285: optimal tests.** Training as in `C279_optimal` has settled with the values `Q`. A test collector (any number of environments that behave like `w`, not
necessarily those of training) is reset and collects any number of episodes with the policy of DQN for these values. From every step of every episode on, the
test obtains exactly the optimal value of the observation, and no collector with whatever policy obtains more from the same observation. -/
theorem C285_optimal {c : Collector.Cfg σ (Fin (m + 1)) S ℝ I H K} (hs : c.share = false) {u : Bool} {s : Collector.Col σ (Fin (m + 1)) S ℝ I H}
    (h : Collector.Usage c u s) (hplain : Plain c) {w : World S m} {state : σ → S} (hp : Plays c.env w state)
    {m0 : Mgr S (Fin (m + 1)) ℝ} {sep0 : List (Buf S (Fin (m + 1)) ℝ)} (h0 : Reach m0 sep0) (hn : c.envNum ≤ sep0.length) (hopts : m0.opts = {})
    {b : Mgr S (Fin (m + 1)) ℝ} {stats : List (ℝ × ℕ)} (hrec : record (m0.reset false) s.log = .ok (b, stats)) (hlen : 0 < b.len)
    (draw : ℕ → ℕ) (rng : ℕ → ℕ → ℕ) (n : ℕ) (hpos : 0 < n) {indices : List ℕ} (hi : b.sampleIndices draw rng (some n) = .ok indices)
    (hall : ∀ x a, ∃ i ∈ indices, obsAt b i = x ∧ actAt b i = a) (isDouble hasTarget : Bool) (gamma : ℝ) (hg : 0 ≤ gamma) (hg1 : gamma < 1)
    (O : Table S m) (hO : w.Optimal gamma O) (Q : Table S m) (hQ : Settled b indices isDouble hasTarget gamma 1 Q)
    -- the test
    {σ' I' H' K' : Type} {ct : Collector.Cfg σ' (Fin (m + 1)) S ℝ I' H' K'} (hst : ct.share = false) (hplaint : Plain ct) {state' : σ' → S}
    (hpt : Plays ct.env w state') (hq : PlaysGreedily ct Q) {t0 t : Collector.Col σ' (Fin (m + 1)) S ℝ I' H'} (ht0 : Collector.Reachable ct t0)
    (resetStats : Bool) (kw0 kw : K') (episodes : ℤ) (fuel : ℕ) (st : Collector.Stats)
    (hc : Collector.collect ct none (some episodes) false false kw fuel (Collector.reset ct true resetStats kw0 t0) = some (.ok (t, st)))
    (e : ℕ) (he : e < ct.envNum) (k l : ℕ) (rk rl : Collector.Row S (Fin (m + 1)) ℝ I') (hk : (Collector.rowsOf e t.log)[k]? = some rk)
    (hl : (Collector.rowsOf e t.log)[k + l]? = some rl) (hone : OneEpisode (Collector.rowsOf e t.log) k l) :
    obtained (Collector.rowsOf e t.log) gamma (best O) k l rl = best O rk.obs ∧
    ∀ {σ' I' H' K' : Type} {cx : Collector.Cfg σ' (Fin (m + 1)) S ℝ I' H' K'} (_ : cx.share = false) (_ : Plain cx) {state' : σ' → S}
      (_ : Plays cx.env w state') {v : Bool} {x : Collector.Col σ' (Fin (m + 1)) S ℝ I' H'} (_ : Collector.Usage cx v x)
      (e' : ℕ) (_ : e' < cx.envNum) (k' l' : ℕ) (rk' rl' : Collector.Row S (Fin (m + 1)) ℝ I') (_ : (Collector.rowsOf e' x.log)[k']? = some rk')
      (_ : (Collector.rowsOf e' x.log)[k' + l']? = some rl') (_ : OneEpisode (Collector.rowsOf e' x.log) k' l') (_ : rk'.obs = rk.obs),
      obtained (Collector.rowsOf e' x.log) gamma (best O) k' l' rl' ≤ best O rk.obs := by
  obtain rfl := (C279_optimal hs h hplain hp h0 hn hopts hrec hlen draw rng n hpos hi hall isDouble hasTarget gamma hg hg1 O hO Q).mp hQ
  obtain ⟨hu, hrows⟩ := test_rows hst Q hq ht0 resetStats kw0 kw episodes fuel st hc
  refine ⟨obtained_eq (usage_steps hst hu hplaint hpt he).1 (usage_steps hst hu hplaint hpt he).2 hO (hrows e) l k rk rl hk hl hone, ?_⟩
  intro _ _ _ _ cx hsx hplainx _ hpx v x hux e' he' k' l' rk' rl' hk' hl' hone' hobs
  rw [← hobs]
  exact (obtained_le (usage_steps hsx hux hplainx hpx he').1 (usage_steps hsx hux hplainx hpx he').2 hO hg l' k' rk' rl' hk' hl' hone').trans (le_best Q _ _)

/-- The discounted return of the steps `k` to `k + l`. -/
noncomputable def discounted (rows : List (Collector.Row S (Fin (m + 1)) ℝ I)) (gamma : ℝ) (k l : ℕ) : ℝ :=
  ∑ j ∈ Finset.range (l + 1), gamma ^ j * (rows[k + j]?.map fun r => r.out.rew).getD 0

/-- **C285: no policy is better.** In the situation of `C285_optimal`: the discounted return of a terminated test episode is at least that of every terminated
episode (or rest of an episode) which any collector with any policy stores from the same observation on. -/
theorem C285_best {c : Collector.Cfg σ (Fin (m + 1)) S ℝ I H K} (hs : c.share = false) {u : Bool} {s : Collector.Col σ (Fin (m + 1)) S ℝ I H}
    (h : Collector.Usage c u s) (hplain : Plain c) {w : World S m} {state : σ → S} (hp : Plays c.env w state)
    {m0 : Mgr S (Fin (m + 1)) ℝ} {sep0 : List (Buf S (Fin (m + 1)) ℝ)} (h0 : Reach m0 sep0) (hn : c.envNum ≤ sep0.length) (hopts : m0.opts = {})
    {b : Mgr S (Fin (m + 1)) ℝ} {stats : List (ℝ × ℕ)} (hrec : record (m0.reset false) s.log = .ok (b, stats)) (hlen : 0 < b.len)
    (draw : ℕ → ℕ) (rng : ℕ → ℕ → ℕ) (n : ℕ) (hpos : 0 < n) {indices : List ℕ} (hi : b.sampleIndices draw rng (some n) = .ok indices)
    (hall : ∀ x a, ∃ i ∈ indices, obsAt b i = x ∧ actAt b i = a) (isDouble hasTarget : Bool) (gamma : ℝ) (hg : 0 ≤ gamma) (hg1 : gamma < 1)
    (O : Table S m) (hO : w.Optimal gamma O) (Q : Table S m) (hQ : Settled b indices isDouble hasTarget gamma 1 Q)
    -- the test
    {σ' I' H' K' : Type} {ct : Collector.Cfg σ' (Fin (m + 1)) S ℝ I' H' K'} (hst : ct.share = false) (hplaint : Plain ct) {state' : σ' → S}
    (hpt : Plays ct.env w state') (hq : PlaysGreedily ct Q) {t0 t : Collector.Col σ' (Fin (m + 1)) S ℝ I' H'} (ht0 : Collector.Reachable ct t0)
    (resetStats : Bool) (kw0 kw : K') (episodes : ℤ) (fuel : ℕ) (st : Collector.Stats)
    (hc : Collector.collect ct none (some episodes) false false kw fuel (Collector.reset ct true resetStats kw0 t0) = some (.ok (t, st)))
    (e : ℕ) (he : e < ct.envNum) (k l : ℕ) (rk rl : Collector.Row S (Fin (m + 1)) ℝ I') (hk : (Collector.rowsOf e t.log)[k]? = some rk)
    (hl : (Collector.rowsOf e t.log)[k + l]? = some rl) (hone : OneEpisode (Collector.rowsOf e t.log) k l) (hterm : rl.out.terminated = true)
    -- another collector
    {τ J G L : Type} {cx : Collector.Cfg τ (Fin (m + 1)) S ℝ J G L} (hsx : cx.share = false) (hplainx : Plain cx) {statex : τ → S}
    (hpx : Plays cx.env w statex) {v : Bool} {x : Collector.Col τ (Fin (m + 1)) S ℝ J G} (hux : Collector.Usage cx v x)
    (e' : ℕ) (he' : e' < cx.envNum) (k' l' : ℕ) (rk' rl' : Collector.Row S (Fin (m + 1)) ℝ J) (hk' : (Collector.rowsOf e' x.log)[k']? = some rk')
    (hl' : (Collector.rowsOf e' x.log)[k' + l']? = some rl') (hone' : OneEpisode (Collector.rowsOf e' x.log) k' l') (hterm' : rl'.out.terminated = true)
    (hobs : rk'.obs = rk.obs) : discounted (Collector.rowsOf e' x.log) gamma k' l' ≤ discounted (Collector.rowsOf e t.log) gamma k l := by
  obtain ⟨h1, h2⟩ := C285_optimal hs h hplain hp h0 hn hopts hrec hlen draw rng n hpos hi hall isDouble hasTarget gamma hg hg1 O hO Q hQ hst hplaint hpt hq ht0
    resetStats kw0 kw episodes fuel st hc e he k l rk rl hk hl hone
  have h3 := h2 hsx hplainx hpx hux e' he' k' l' rk' rl' hk' hl' hone' hobs
  rw [← h1] at h3
  unfold obtained at h3
  rw [hterm, hterm'] at h3
  simpa [discounted] using h3

/-! ### Example -/

/-- A test collector with two environments for the corridor of C279: the best action is always 1. -/
noncomputable def testCfg : Collector.Cfg Bool (Fin 2) Bool ℝ Unit Unit Unit :=
  { corridorCfg with policy := ⟨fun _ obs _ _ => (obs.map fun _ => 1, none), fun _ acts _ => acts, id, id, fun _ _ => 0⟩, envNum := 2 }

theorem testCfg_greedy : PlaysGreedily testCfg corridorValues := by
  refine ⟨rfl, fun k obs info hidden => ?_⟩
  have : ∀ s, Policy.argmax (tableNet corridorValues s) = 1 := by
    intro s
    cases s <;> norm_num [tableNet, List.ofFn_succ, Policy.argmax, corridorValues]
  unfold Policy.dqnAct Policy.computeQ
  simp only [testCfg, List.map_map]
  exact List.map_congr_left fun s _ => (this s).symm

/-- Two test episodes are collected, each with two steps, the second of which terminates the episode. -/
noncomputable def testRun : Option (Except Collector.Err (Collector.Col Bool (Fin 2) Bool ℝ Unit Unit × Collector.Stats)) :=
  Collector.collect testCfg none (some 2) false false () 10 (Collector.reset testCfg true false () { world := ⟨fun _ => false, fun _ => false⟩ })

/-- The hypotheses of the theorems are met, those about training by the example of C279: the test obtains the optimal value of the first observation. -/
example : ∃ t st, testRun = some (.ok (t, st)) ∧ ∃ r0 r1, (Collector.rowsOf 1 t.log)[0]? = some r0 ∧ (Collector.rowsOf 1 t.log)[1]? = some r1 ∧
    r1.out.terminated = true ∧ r0.obs = false ∧
    obtained (Collector.rowsOf 1 t.log) (1 / 2) (best corridorValues) 0 1 r1 = best corridorValues false := by
  obtain ⟨t, st, ht, r0, r1, h0, h1, hend, hterm, hobs⟩ : ∃ t st, testRun = some (.ok (t, st)) ∧ ∃ r0 r1, (Collector.rowsOf 1 t.log)[0]? = some r0 ∧
      (Collector.rowsOf 1 t.log)[1]? = some r1 ∧ r0.out.ended = false ∧ r1.out.terminated = true ∧ r0.obs = false :=
    ⟨_, _, rfl, _, _, rfl, rfl, rfl, rfl, rfl⟩
  refine ⟨t, st, ht, r0, r1, h0, h1, hterm, hobs, ?_⟩
  obtain ⟨s, b, stats, -, hu, hrec, hi, hlen, hall, -⟩ := corridor_collected
  have hsettled := (C279_optimal rfl hu (fun _ => ⟨rfl, rfl⟩) corridor_plays (.new [5] (by simp) {}) (by simp [corridorCfg]) rfl hrec (by omega) (fun _ => 0)
    (fun _ k => k) 4 (by norm_num) hi hall false true (1 / 2) (by norm_num) (by norm_num) _ corridor_optimal corridorValues).mpr rfl
  have := (C285_optimal rfl hu (fun _ => ⟨rfl, rfl⟩) corridor_plays (.new [5] (by simp) {}) (by simp [corridorCfg]) rfl hrec (by omega) (fun _ => 0)
    (fun _ k => k) 4 (by norm_num) hi hall false true (1 / 2) (by norm_num) (by norm_num) _ corridor_optimal _ hsettled (ct := testCfg) rfl (fun _ => ⟨rfl, rfl⟩)
    corridor_plays testCfg_greedy (.built _) false () () 2 10 st ht 1 (by simp [testCfg]) 0 1 r0 r1 h0 h1 ?_).1
  · rwa [hobs] at this
  · intro j hj r hr
    obtain rfl : j = 0 := by omega
    rw [h0, Option.some.injEq] at hr
    rw [← hr]
    exact hend

end Verif.Tested
