import Verif.Props.Tested

/-!
# Tests during training (property C290)

Training goes on in rounds: transitions are collected, and the network is trained until it fits the targets computed with the values of the round before. After every round
the policy can be tested. How good are the tests?
-/

namespace Verif.Tested

open Verif.Spec Verif.Returns Verif.QTarget Verif.QLearning Verif.Pipeline Verif.EndToEnd
open Verif.Buffer
open Verif.Nstep (World Table le_best best_le)

set_option linter.unusedSectionVars false

variable {σ S I H K : Type} [Fintype S] [DecidableEq S] [Inhabited S] {m : ℕ}

/-! ### Specification -/

/-- The rows `indices` are sampled from the buffer `b`, which the collector `c` in ordinary use has filled. -/
def Collected (c : Collector.Cfg σ (Fin (m + 1)) S ℝ I H K) (b : Mgr S (Fin (m + 1)) ℝ) (indices : List ℕ) : Prop :=
  ∃ (u : Bool) (s : Collector.Col σ (Fin (m + 1)) S ℝ I H) (m0 : Mgr S (Fin (m + 1)) ℝ) (sep0 : List (Buf S (Fin (m + 1)) ℝ)) (stats : List (ℝ × ℕ))
    (draw : ℕ → ℕ) (rng : ℕ → ℕ → ℕ) (n : ℕ), Collector.Usage c u s ∧ Reach m0 sep0 ∧ c.envNum ≤ sep0.length ∧ m0.opts = {} ∧
    record (m0.reset false) s.log = .ok (b, stats) ∧ 0 < b.len ∧ 0 < n ∧ b.sampleIndices draw rng (some n) = .ok indices

/-- The networks with which the targets of a round are computed have the values `Q` of the round before wherever they are used: the target network, if there is one, and the
network itself if there is none or with `is_double`. Otherwise the network, which is being trained, is arbitrary. -/
def Uses (isDouble : Bool) (nets : Nets S ℝ) (Q : Table S m) : Prop :=
  (nets.hasTarget = true → nets.old = tableNet Q) ∧ ((isDouble = true ∨ nets.hasTarget = false) → nets.online = tableNet Q)

/-- The loss of DQN for the rows `indices` of the buffer with one-step returns, as a function of the table `T` that is trained. -/
noncomputable def netLoss (b : Mgr S (Fin (m + 1)) ℝ) (indices : List ℕ) (isDouble : Bool) (nets : Nets S ℝ) (gamma : ℝ) (T : Table S m) : Option ℝ :=
  learnLoss false isDouble nets (tableNet T) (ofMgr b) (nextAt b) none (indices.map (obsAt b))
    (indices.map fun i => (actAt b i : ℕ)) indices gamma 1 (indices.map fun _ => 1)

/-- The values `T` fit the targets computed with the networks `nets`: no other table has a smaller loss. -/
def Fitted (b : Mgr S (Fin (m + 1)) ℝ) (indices : List ℕ) (isDouble : Bool) (nets : Nets S ℝ) (gamma : ℝ) (T : Table S m) : Prop :=
  ∃ l, netLoss b indices isDouble nets gamma T = some l ∧ ∀ T' l', netLoss b indices isDouble nets gamma T' = some l' → l ≤ l'

/-- `rounds` rounds of training that lead from the values `Q 0` to `Q rounds`. In each of them every pair of observation and action occurs in the batch. -/
def Trained (c : Collector.Cfg σ (Fin (m + 1)) S ℝ I H K) (isDouble : Bool) (gamma : ℝ) (rounds : ℕ) (Q : ℕ → Table S m) : Prop :=
  ∀ j < rounds, ∃ b indices nets, Collected c b indices ∧ (∀ x a, ∃ i ∈ indices, obsAt b i = x ∧ actAt b i = a) ∧ Uses isDouble nets (Q j) ∧
    Fitted b indices isDouble nets gamma (Q (j + 1))

/-! ### One round -/

section
variable {w : World S m} {log : List (List (ℕ × Collector.Row S (Fin (m + 1)) ℝ I))} {num : ℕ} {b : Mgr S (Fin (m + 1)) ℝ} {indices : List ℕ}

theorem netLoss_eq (b : Mgr S (Fin (m + 1)) ℝ) (indices : List ℕ) {isDouble : Bool} {nets : Nets S ℝ} {Q : Table S m} (hu : Uses isDouble nets Q) (gamma : ℝ) (T : Table S m) :
    netLoss b indices isDouble nets gamma T = loss b indices isDouble true gamma 1 Q T := by
  have h : ∀ xs, dqnTarget isDouble nets xs none = dqnTarget isDouble ⟨tableNet Q, tableNet Q, true⟩ xs none := by
    intro xs
    rw [dqnTarget_table isDouble nets Q hu.1 hu.2, dqnTarget_table isDouble ⟨tableNet Q, tableNet Q, true⟩ Q (fun _ => rfl) (fun _ => rfl)]
  unfold netLoss loss learnLoss dqnReturns
  simp only [Option.map_none, h]

theorem fitted_iff (hB : Batch w log num b indices) {isDouble : Bool} {nets : Nets S ℝ} {Q : Table S m} (hu : Uses isDouble nets Q) (gamma : ℝ) (T : Table S m) :
    Fitted b indices isDouble nets gamma T ↔ ∀ i ∈ indices, T (obsAt b i) (actAt b i) = w.rew (obsAt b i) (actAt b i) + gamma *
      if w.ends (obsAt b i) (actAt b i) then 0 else best Q (w.next (obsAt b i) (actAt b i)) := by
  obtain ⟨y, hy, hyp⟩ := sampled hB gamma 1 one_pos Q
  have hn' : (0 : ℝ) < indices.length := by exact_mod_cast hB.size
  have hy1 := fun p => (hyp p).1 rfl
  have hls := least_squares (fun p => (obsAt b (indices.get p), actAt b (indices.get p))) y fun x => T x.1 x.2
  simp only [Prod.forall] at hls
  have hF : Fitted b indices isDouble nets gamma T ↔
      ∀ s a, ∑ p with (obsAt b (indices.get p), actAt b (indices.get p)) = (s, a), (y p - T s a) = 0 := by
    unfold Fitted
    simp only [netLoss_eq b indices hu, loss_eq b indices isDouble true gamma 1 Q _ y hy, Option.some.injEq, exists_eq_left', forall_eq', div_le_div_iff_of_pos_right hn']
    rw [← hls]
    constructor
    · intro h Q'
      exact h fun s a => Q' (s, a)
    · intro h T'
      exact h fun x => T' x.1 x.2
  rw [hF]
  constructor
  · intro hsum i hmem
    obtain ⟨p, hpi⟩ := List.mem_iff_get.mp hmem
    have h1 := hsum (obsAt b i) (actAt b i)
    have h2 : ∀ q ∈ Finset.univ.filter fun p : Fin indices.length => (obsAt b (indices.get p), actAt b (indices.get p)) = (obsAt b i, actAt b i),
        y q - T (obsAt b i) (actAt b i) = y p - T (obsAt b i) (actAt b i) := by
      intro q hq
      have hq := Prod.mk.inj (Finset.mem_filter.mp hq).2
      rw [hy1 q, hy1 p, hq.1, hq.2, hpi]
    rw [Finset.sum_congr rfl h2, Finset.sum_const, nsmul_eq_mul, mul_eq_zero] at h1
    rcases h1 with h1 | h1
    · exfalso
      have : p ∈ Finset.univ.filter fun p : Fin indices.length => (obsAt b (indices.get p), actAt b (indices.get p)) = (obsAt b i, actAt b i) := by
        simp [← hpi]
      rw [Nat.cast_eq_zero, Finset.card_eq_zero] at h1
      rw [h1] at this
      simp at this
    · rw [hy1 p, hpi] at h1
      linarith
  · intro hb s' a'
    refine Finset.sum_eq_zero fun p hp' => ?_
    have hp' := Prod.mk.inj (Finset.mem_filter.mp hp').2
    rw [hy1 p, ← hb _ (List.get_mem indices p), hp'.1, hp'.2, sub_self]

end

theorem best_near {Q O : Table S m} {x : S} {eps : ℝ} (h : ∀ a, |Q x a - O x a| ≤ eps) : |best Q x - best O x| ≤ eps := by
  refine abs_le.mpr ⟨?_, ?_⟩
  · have : best O x ≤ best Q x + eps := best_le O x _ fun a => by linarith [(abs_le.mp (h a)).1, le_best Q x a]
    linarith
  · have : best Q x ≤ best O x + eps := best_le Q x _ fun a => by linarith [(abs_le.mp (h a)).2, le_best O x a]
    linarith

/-- Each round brings the values closer to the optimal ones by the factor `gamma`. -/
theorem trained_near {c : Collector.Cfg σ (Fin (m + 1)) S ℝ I H K} (hs : c.share = false) (hplain : Plain c) {w : World S m} {state : σ → S} (hp : Plays c.env w state)
    {isDouble : Bool} {gamma : ℝ} (hg : 0 ≤ gamma) {O : Table S m} (hO : w.Optimal gamma O) {rounds : ℕ} {Q : ℕ → Table S m}
    (hQ : Trained c isDouble gamma rounds Q) {B : ℝ} (hB : ∀ x a, |Q 0 x a - O x a| ≤ B) : ∀ x a, |Q rounds x a - O x a| ≤ gamma ^ rounds * B := by
  induction rounds with
  | zero => simpa using hB
  | succ r ih =>
    have ih := ih fun j hj => hQ j (by omega)
    have hB0 : 0 ≤ gamma ^ r * B := (abs_nonneg _).trans (ih default 0)
    obtain ⟨b, indices, nets, ⟨u, s, m0, sep0, stats, draw, rng, n, h, h0, hn, hopts, hrec, hlen, hpos, hi⟩, hall, huses, hfit⟩ := hQ r (by omega)
    have hb := batch_sync hs h hplain hp h0 hn hopts hrec hlen draw rng n hpos hi
    intro x a
    obtain ⟨i, hmem, hx, ha⟩ := hall x a
    have h1 := (fitted_iff hb huses gamma _).mp hfit i hmem
    rw [hx, ha] at h1
    rw [h1, hO x a, pow_succ', mul_assoc]
    cases w.ends x a
    · simp only [Bool.false_eq_true, if_false]
      rw [add_sub_add_left_eq_sub, ← mul_sub, abs_mul, abs_of_nonneg hg]
      exact mul_le_mul_of_nonneg_left (best_near (ih _)) hg
    · simpa using mul_nonneg hg hB0

/-! ### Behaviour -/

section
variable {w : World S m} {rows : List (Collector.Row S (Fin (m + 1)) ℝ I)} (hstep : ∀ row ∈ rows, Step w row)
  (hnext : ∀ (i : ℕ) (r r' : Collector.Row S (Fin (m + 1)) ℝ I), rows[i]? = some r → rows[i + 1]? = some r' → r.out.ended = false → r'.obs = r.out.obs)
  {gamma : ℝ} {O : Table S m} (hO : w.Optimal gamma O)
include hstep hnext hO

/-- Nearly greedy behaviour obtains nearly the optimal value. -/
theorem obtained_ge (hg : 0 ≤ gamma) {d : ℝ} (hd : ∀ row ∈ rows, best O row.obs - d ≤ O row.obs row.act) (l : ℕ) : ∀ (k : ℕ)
    (rk rl : Collector.Row S (Fin (m + 1)) ℝ I), rows[k]? = some rk → rows[k + l]? = some rl → OneEpisode rows k l →
    best O rk.obs - d * ∑ j ∈ Finset.range (l + 1), gamma ^ j ≤ obtained rows gamma (best O) k l rl := by
  induction l with
  | zero =>
    intro k rk rl hk hl _
    rw [Nat.add_zero k, hk, Option.some.injEq] at hl
    subst hl
    obtain ⟨h1, h2, h3⟩ := hstep rk (List.mem_of_getElem? hk)
    have := hd rk (List.mem_of_getElem? hk)
    rw [hO] at this
    rw [obtained_zero rows gamma _ k rk hk, h2, h3, h1]
    simpa using this
  | succ l ih =>
    intro k rk rl hk hl hrun
    have hlt : k + 1 < rows.length := by
      have := (List.getElem?_eq_some_iff.mp hl).1
      omega
    have hr1 := List.getElem?_eq_getElem hlt
    have hend := hrun 0 (Nat.succ_pos l) rk (by simpa using hk)
    have hobs := hnext k rk _ hk hr1 hend
    obtain ⟨h1, h2, h3⟩ := hstep rk (List.mem_of_getElem? hk)
    have hne : w.ends rk.obs rk.act = false := by
      rw [← h3]
      exact (Bool.or_eq_false_iff.mp hend).1
    have h4 := ih (k + 1) _ rl hr1 (by rwa [show k + 1 + l = k + (l + 1) by omega]) (fun j hj r hr => hrun (j + 1) (by omega) r (by
      rwa [show k + (j + 1) = k + 1 + j by omega]))
    have h5 := hd rk (List.mem_of_getElem? hk)
    rw [hO, hne] at h5
    simp only [Bool.false_eq_true, if_false] at h5
    rw [hobs, h1] at h4
    have h6 := mul_le_mul_of_nonneg_left h4 hg
    rw [obtained_succ rows gamma _ k l rk rl hk, h2, Finset.sum_range_succ' _ (l + 1)]
    simp only [pow_succ', ← Finset.mul_sum, pow_zero]
    linarith

end

/-- Actions that are best for values near the optimal ones are nearly optimal. -/
theorem act_near {Q O : Table S m} {eps : ℝ} (h : ∀ x a, |Q x a - O x a| ≤ eps) {x : S} {a : Fin (m + 1)} (ha : Q x a = best Q x) : best O x - 2 * eps ≤ O x a := by
  have h1 := (abs_le.mp (best_near (h x))).1
  have h2 := (abs_le.mp (h x a)).2
  linarith

/-! ### C290 -/

/-- **C290: how good tests are.** After `rounds` rounds of training, started with values that are off by at most `B`, a test obtains from every step of every episode on at most the
optimal value, and falls short of it by at most `2 * gamma ^ rounds * B * (1 + gamma + ... + gamma ^ l)`. -/
theorem C290_near {c : Collector.Cfg σ (Fin (m + 1)) S ℝ I H K} (hs : c.share = false) (hplain : Plain c) {w : World S m} {state : σ → S} (hp : Plays c.env w state)
    (isDouble : Bool) (gamma : ℝ) (hg : 0 ≤ gamma) (O : Table S m) (hO : w.Optimal gamma O) (rounds : ℕ) (Q : ℕ → Table S m)
    (hQ : Trained c isDouble gamma rounds Q) (B : ℝ) (hB : ∀ x a, |Q 0 x a - O x a| ≤ B)
    -- the test
    {σ' I' H' K' : Type} {ct : Collector.Cfg σ' (Fin (m + 1)) S ℝ I' H' K'} (hst : ct.share = false) (hplaint : Plain ct) {state' : σ' → S}
    (hpt : Plays ct.env w state') (hq : PlaysGreedily ct (Q rounds)) {t0 t : Collector.Col σ' (Fin (m + 1)) S ℝ I' H'} (ht0 : Collector.Reachable ct t0)
    (resetStats : Bool) (kw0 kw : K') (episodes : ℤ) (fuel : ℕ) (st : Collector.Stats)
    (hc : Collector.collect ct none (some episodes) false false kw fuel (Collector.reset ct true resetStats kw0 t0) = some (.ok (t, st)))
    (e : ℕ) (he : e < ct.envNum) (k l : ℕ) (rk rl : Collector.Row S (Fin (m + 1)) ℝ I') (hk : (Collector.rowsOf e t.log)[k]? = some rk)
    (hl : (Collector.rowsOf e t.log)[k + l]? = some rl) (hone : OneEpisode (Collector.rowsOf e t.log) k l) :
    obtained (Collector.rowsOf e t.log) gamma (best O) k l rl ≤ best O rk.obs ∧
    best O rk.obs - 2 * (gamma ^ rounds * B) * ∑ j ∈ Finset.range (l + 1), gamma ^ j ≤ obtained (Collector.rowsOf e t.log) gamma (best O) k l rl := by
  obtain ⟨hu, hrows⟩ := test_rows hst _ hq ht0 resetStats kw0 kw episodes fuel st hc
  have hsteps := usage_steps hst hu hplaint hpt he
  exact ⟨(obtained_le hsteps.1 hsteps.2 hO hg l k rk rl hk hl hone).trans (le_best O _ _),
    obtained_ge hsteps.1 hsteps.2 hO hg (fun row hrow => act_near (trained_near hs hplain hp hg hO hQ hB) (hrows e row hrow)) l k rk rl hk hl hone⟩

/-- **C290: compared with other policies.** The discounted return of a terminated test episode after `rounds` rounds is at most `2 * gamma ^ rounds * B / (1 - gamma)` less than that
of any terminated episode which a collector with any policy stores from the same observation on. -/
theorem C290_return {c : Collector.Cfg σ (Fin (m + 1)) S ℝ I H K} (hs : c.share = false) (hplain : Plain c) {w : World S m} {state : σ → S} (hp : Plays c.env w state)
    (isDouble : Bool) (gamma : ℝ) (hg : 0 ≤ gamma) (hg1 : gamma < 1) (O : Table S m) (hO : w.Optimal gamma O) (rounds : ℕ) (Q : ℕ → Table S m)
    (hQ : Trained c isDouble gamma rounds Q) (B : ℝ) (hB : ∀ x a, |Q 0 x a - O x a| ≤ B)
    -- the test
    {σ' I' H' K' : Type} {ct : Collector.Cfg σ' (Fin (m + 1)) S ℝ I' H' K'} (hst : ct.share = false) (hplaint : Plain ct) {state' : σ' → S}
    (hpt : Plays ct.env w state') (hq : PlaysGreedily ct (Q rounds)) {t0 t : Collector.Col σ' (Fin (m + 1)) S ℝ I' H'} (ht0 : Collector.Reachable ct t0)
    (resetStats : Bool) (kw0 kw : K') (episodes : ℤ) (fuel : ℕ) (st : Collector.Stats)
    (hc : Collector.collect ct none (some episodes) false false kw fuel (Collector.reset ct true resetStats kw0 t0) = some (.ok (t, st)))
    (e : ℕ) (he : e < ct.envNum) (k l : ℕ) (rk rl : Collector.Row S (Fin (m + 1)) ℝ I') (hk : (Collector.rowsOf e t.log)[k]? = some rk)
    (hl : (Collector.rowsOf e t.log)[k + l]? = some rl) (hone : OneEpisode (Collector.rowsOf e t.log) k l) (hterm : rl.out.terminated = true)
    -- another collector
    {τ J G L : Type} {cx : Collector.Cfg τ (Fin (m + 1)) S ℝ J G L} (hsx : cx.share = false) (hplainx : Plain cx) {statex : τ → S}
    (hpx : Plays cx.env w statex) {v : Bool} {x : Collector.Col τ (Fin (m + 1)) S ℝ J G} (hux : Collector.Usage cx v x)
    (e' : ℕ) (he' : e' < cx.envNum) (k' l' : ℕ) (rk' rl' : Collector.Row S (Fin (m + 1)) ℝ J) (hk' : (Collector.rowsOf e' x.log)[k']? = some rk')
    (hl' : (Collector.rowsOf e' x.log)[k' + l']? = some rl') (hone' : OneEpisode (Collector.rowsOf e' x.log) k' l') (hterm' : rl'.out.terminated = true)
    (hobs : rk'.obs = rk.obs) :
    discounted (Collector.rowsOf e' x.log) gamma k' l' ≤ discounted (Collector.rowsOf e t.log) gamma k l + 2 * (gamma ^ rounds * B) / (1 - gamma) := by
  obtain ⟨-, h1⟩ := C290_near hs hplain hp isDouble gamma hg O hO rounds Q hQ B hB hst hplaint hpt hq ht0 resetStats kw0 kw episodes fuel st hc e he k l rk rl hk hl hone
  have hsteps := usage_steps hsx hux hplainx hpx he'
  have h2 := (obtained_le hsteps.1 hsteps.2 hO hg l' k' rk' rl' hk' hl' hone').trans (le_best O _ _)
  have hB0 : 0 ≤ gamma ^ rounds * B := (abs_nonneg _).trans (trained_near hs hplain hp hg hO hQ hB default 0)
  have h3 : ∑ j ∈ Finset.range (l + 1), gamma ^ j ≤ 1 / (1 - gamma) := by
    rw [le_div_iff₀ (by linarith), geom_sum_mul_neg]
    linarith [pow_nonneg hg (l + 1)]
  have h4 := mul_le_mul_of_nonneg_left h3 (by linarith : 0 ≤ 2 * (gamma ^ rounds * B))
  rw [mul_one_div] at h4
  unfold obtained at h1 h2
  rw [hterm, if_pos rfl, mul_zero, add_zero] at h1
  rw [hterm', if_pos rfl, mul_zero, add_zero, hobs] at h2
  unfold discounted
  linarith

/-- The smallest loss caused by a wrong action. -/
theorem exists_gap (O : Table S m) : ∃ d : ℝ, 0 < d ∧ ∀ x a, O x a < best O x → O x a + d ≤ best O x := by
  classical
  have : Nonempty (S × Fin (m + 1)) := ⟨(default, 0)⟩
  obtain ⟨⟨x0, a0⟩, hmin⟩ := Finite.exists_min fun z : S × Fin (m + 1) => if O z.1 z.2 < best O z.1 then best O z.1 - O z.1 z.2 else 1
  refine ⟨if O x0 a0 < best O x0 then best O x0 - O x0 a0 else 1, ?_, fun x a h => ?_⟩
  · split
    · linarith
    · exact one_pos
  · have := hmin (x, a)
    simp only [h, if_true] at this
    linarith

/-- **C290: finitely many rounds suffice.** For each environment, discount and bound `B` there is a number of rounds such that, whatever values within `B` of the optimal ones training
starts with and whatever is collected, all tests after that many rounds or more obtain exactly the optimal value from every step of every episode on. -/
theorem C290_finally (w : World S m) (gamma : ℝ) (hg : 0 ≤ gamma) (hg1 : gamma < 1) (O : Table S m) (hO : w.Optimal gamma O) (B : ℝ) :
    ∃ enough : ℕ, ∀ {σ I H K : Type} {c : Collector.Cfg σ (Fin (m + 1)) S ℝ I H K} (_ : c.share = false) (_ : Plain c) {state : σ → S} (_ : Plays c.env w state)
      (isDouble : Bool) (rounds : ℕ) (_ : enough ≤ rounds) (Q : ℕ → Table S m) (_ : Trained c isDouble gamma rounds Q)
      (_ : ∀ x a, |Q 0 x a - O x a| ≤ B)
      {σ' I' H' K' : Type} {ct : Collector.Cfg σ' (Fin (m + 1)) S ℝ I' H' K'} (_ : ct.share = false) (_ : Plain ct) {state' : σ' → S}
      (_ : Plays ct.env w state') (_ : PlaysGreedily ct (Q rounds)) {t0 t : Collector.Col σ' (Fin (m + 1)) S ℝ I' H'} (_ : Collector.Reachable ct t0)
      (resetStats : Bool) (kw0 kw : K') (episodes : ℤ) (fuel : ℕ) (st : Collector.Stats)
      (_ : Collector.collect ct none (some episodes) false false kw fuel (Collector.reset ct true resetStats kw0 t0) = some (.ok (t, st)))
      (e : ℕ) (_ : e < ct.envNum) (k l : ℕ) (rk rl : Collector.Row S (Fin (m + 1)) ℝ I') (_ : (Collector.rowsOf e t.log)[k]? = some rk)
      (_ : (Collector.rowsOf e t.log)[k + l]? = some rl) (_ : OneEpisode (Collector.rowsOf e t.log) k l),
      obtained (Collector.rowsOf e t.log) gamma (best O) k l rl = best O rk.obs := by
  obtain ⟨d, hd, hgap⟩ := exists_gap O
  obtain ⟨enough, hen⟩ := exists_pow_lt_of_lt_one (show 0 < d / (2 * (|B| + 1)) by positivity) hg1
  refine ⟨enough, ?_⟩
  intro _ _ _ _ c hs hplain _ hp isDouble rounds hr Q hQ hB _ _ _ _ ct hst hplaint _ hpt hq t0 t ht0 resetStats kw0 kw episodes fuel st hc e he k l rk rl hk hl hone
  obtain ⟨hu, hrows⟩ := test_rows hst _ hq ht0 resetStats kw0 kw episodes fuel st hc
  have hsteps := usage_steps hst hu hplaint hpt he
  refine obtained_eq hsteps.1 hsteps.2 hO (fun row hrow => ?_) l k rk rl hk hl hone
  by_contra hne
  have h1 := hgap _ _ (lt_of_le_of_ne (le_best O row.obs row.act) hne)
  have h2 := act_near (trained_near hs hplain hp hg hO hQ hB) (hrows e row hrow)
  have h3 : gamma ^ rounds * (2 * (|B| + 1)) < d := by
    rw [← lt_div_iff₀ (by positivity)]
    exact (pow_le_pow_of_le_one hg hg1.le hr).trans_lt hen
  have h4 : gamma ^ rounds * B ≤ gamma ^ rounds * (|B| + 1) := mul_le_mul_of_nonneg_left (by linarith [le_abs_self B]) (pow_nonneg hg _)
  linarith

/-! ### Example -/

/-- Two rounds of training with a target network in the corridor of C279, started with the values 0. -/
noncomputable def soonValues : ℕ → Table Bool 1
  | 0 => fun _ _ => 0
  | 1 => fun s a => if s = true ∧ a = 1 then 1 else 0
  | _ => fun s a => if s then (if a = 1 then 1 else 1 / 2) else (if a = 1 then 1 / 2 else 0)

theorem soon_trained (online : Bool → List ℝ) : Trained corridorCfg false (1 / 2) 2 soonValues := by
  obtain ⟨s, b, stats, hrun, hu, hrec, hi, hlen, hall, -⟩ := corridor_collected
  have hb := batch_sync rfl hu (fun _ => ⟨rfl, rfl⟩) corridor_plays (.new [5] (by simp) {}) (by simp [corridorCfg]) rfl hrec (by omega) (fun _ => 0) (fun _ k => k) 4
    (by norm_num) hi
  have h0 : ∀ s, best (soonValues 0) s = 0 := by
    intro s
    refine le_antisymm (best_le _ _ _ fun a => ?_) ?_
    · simp [soonValues]
    · have := le_best (soonValues 0) s 1
      simpa [soonValues] using this
  have h1 : ∀ s, best (soonValues 1) s = if s then 1 else 0 := by
    intro s
    refine le_antisymm (best_le _ _ _ fun a => ?_) ?_
    · cases s <;> fin_cases a <;> norm_num [soonValues]
    · have := le_best (soonValues 1) s 1
      cases s <;> simpa [soonValues] using this
  intro j hj
  refine ⟨b, [0, 1, 2, 3], ⟨online, tableNet (soonValues j), true⟩, ⟨false, s, _, _, stats, _, _, 4, hu, .new [5] (by simp) {}, by simp [corridorCfg], rfl, hrec, by omega, by norm_num, hi⟩, hall, ⟨fun _ => rfl, fun h => by simp at h⟩, ?_⟩
  rw [fitted_iff hb (Q := soonValues j) ⟨fun _ => rfl, fun h => by simp at h⟩]
  intro i _
  generalize obsAt b i = x
  generalize actAt b i = a
  rcases (by omega : j = 0 ∨ j = 1) with rfl | rfl
  · rw [h0]
    cases x <;> fin_cases a <;> norm_num [soonValues, corridor]
  · rw [h1]
    cases x <;> fin_cases a <;> norm_num [soonValues, corridor]

theorem soon_greedy : PlaysGreedily testCfg (soonValues 2) := by
  refine ⟨rfl, fun k obs info hidden => ?_⟩
  have : ∀ s, Policy.argmax (tableNet (soonValues 2) s) = 1 := by
    intro s
    cases s <;> norm_num [tableNet, List.ofFn_succ, Policy.argmax, soonValues]
  unfold Policy.dqnAct Policy.computeQ
  simp only [testCfg, List.map_map]
  exact List.map_congr_left fun s _ => (this s).symm

theorem soon_start : ∀ x a, |soonValues 0 x a - corridorValues x a| ≤ 1 := by
  intro x a
  cases x <;> fin_cases a <;> norm_num [soonValues, corridorValues]

/-- The hypotheses of the theorems are met: the values after two rounds are not yet the optimal ones, and the test is within the bounds. -/
example : soonValues 2 ≠ corridorValues ∧ ∃ t st, testRun = some (.ok (t, st)) ∧ ∃ r, (Collector.rowsOf 1 t.log)[1]? = some r ∧
    obtained (Collector.rowsOf 1 t.log) (1 / 2) (best corridorValues) 0 1 r ≤ best corridorValues false ∧
    best corridorValues false - 2 * ((1 / 2) ^ 2 * 1) * ∑ j ∈ Finset.range 2, (1 / 2 : ℝ) ^ j ≤ obtained (Collector.rowsOf 1 t.log) (1 / 2) (best corridorValues) 0 1 r := by
  refine ⟨fun h => ?_, ?_⟩
  · have := congrFun (congrFun h false) 0
    norm_num [soonValues, corridorValues] at this
  obtain ⟨t, st, ht, r0, r1, h0, h1, hend, hobs⟩ : ∃ t st, testRun = some (.ok (t, st)) ∧ ∃ r0 r1, (Collector.rowsOf 1 t.log)[0]? = some r0 ∧
      (Collector.rowsOf 1 t.log)[1]? = some r1 ∧ r0.out.ended = false ∧ r0.obs = false := ⟨_, _, rfl, _, _, rfl, rfl, rfl, rfl⟩
  refine ⟨t, st, ht, r1, h1, ?_⟩
  rw [← hobs]
  refine C290_near rfl (fun _ => ⟨rfl, rfl⟩) corridor_plays false (1 / 2) (by norm_num) _ corridor_optimal 2 soonValues (soon_trained fun _ => []) 1 soon_start
    (ct := testCfg) rfl (fun _ => ⟨rfl, rfl⟩) corridor_plays soon_greedy (.built _) false () () 2 10 st ht 1 (by simp [testCfg]) 0 1 r0 r1 h0 h1 ?_
  intro j hj r hr
  obtain rfl : j = 0 := by omega
  rw [h0, Option.some.injEq] at hr
  rw [← hr]
  exact hend

end Verif.Tested
