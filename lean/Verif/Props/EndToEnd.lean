import Verif.Props.Pipeline
import Verif.Props.Nstep

/-!
# From the environments to the learned values (property C279)

A collector in ordinary use (`Collector.Usage`), the vector buffer it fills, a batch sampled from this buffer, and the loss of DQN for this batch.
-/

namespace Verif.EndToEnd

open Verif.Buffer Verif.Spec Verif.Returns Verif.QTarget Verif.QLearning Verif.Pipeline
open Verif.Nstep (World Table le_best best_le)

set_option linter.unusedSectionVars false

variable {σ S I H K : Type} [Fintype S] [DecidableEq S] [Inhabited S] {m : ℕ}

/-! ### Specification -/

/-- The environment `E` behaves as described by `w`, whatever else (random numbers, time limits, infos) belongs to its state: the observation is the state of
`w`, and next state, reward and termination are those of `w`. Episodes may be truncated at any time and start anywhere. -/
structure Plays (E : Collector.Env σ (Fin (m + 1)) S ℝ I K) (w : World S m) (state : σ → S) : Prop where
  obs : ∀ x a, (E.step x a).2.obs = w.next (state x) a
  moves : ∀ x a, state (E.step x a).1 = w.next (state x) a
  rew : ∀ x a, (E.step x a).2.rew = w.rew (state x) a
  ends : ∀ x a, (E.step x a).2.terminated = w.ends (state x) a
  reset : ∀ kw x, (E.reset kw x).2.1 = state (E.reset kw x).1

/-- `batch.obs`, `batch.act` and `batch.obs_next` of a row of the buffer. -/
def obsAt (b : Mgr S (Fin (m + 1)) ℝ) (i : ℕ) : S := ((b.data i).map Trans.obs).getD default
def actAt (b : Mgr S (Fin (m + 1)) ℝ) (i : ℕ) : Fin (m + 1) := ((b.data i).map Trans.act).getD 0
def nextAt (b : Mgr S (Fin (m + 1)) ℝ) (i : ℕ) : S := ((b.data i).bind Trans.obsNext).getD default

/-- The loss of DQN for the rows `indices` of the buffer, as a function of the table `T` that is trained; network and target network have the values `Q`. -/
noncomputable def loss (b : Mgr S (Fin (m + 1)) ℝ) (indices : List ℕ) (isDouble hasTarget : Bool) (gamma : ℝ) (N : ℕ) (Q T : Table S m) : Option ℝ :=
  learnLoss false isDouble ⟨tableNet Q, tableNet Q, hasTarget⟩ (tableNet T) (ofMgr b) (nextAt b) none (indices.map (obsAt b))
    (indices.map fun i => (actAt b i : ℕ)) indices gamma N (indices.map fun _ => 1)

/-- Training with these rows has settled: no other table has a smaller loss. -/
def Settled (b : Mgr S (Fin (m + 1)) ℝ) (indices : List ℕ) (isDouble hasTarget : Bool) (gamma : ℝ) (N : ℕ) (Q : Table S m) : Prop :=
  ∃ l, loss b indices isDouble hasTarget gamma N Q Q = some l ∧ ∀ T l', loss b indices isDouble hasTarget gamma N Q T = some l' → l ≤ l'

/-! ### What the environments went through -/

/-- A row of the collector is a step of the world. -/
def Step (w : World S m) (row : Collector.Row S (Fin (m + 1)) ℝ I) : Prop :=
  row.out.obs = w.next row.obs row.act ∧ row.out.rew = w.rew row.obs row.act ∧ row.out.terminated = w.ends row.obs row.act

theorem trajectory_steps {E : Collector.Env σ (Fin (m + 1)) S ℝ I K} {w : World S m} {state : σ → S} (hp : Plays E w state)
    {start now : Collector.Situation σ S I} {rows : List (Collector.Row S (Fin (m + 1)) ℝ I)} (hj : Collector.JustReset E start)
    (h : Collector.Trajectory E start rows now) : now.obs = state now.state ∧ ∀ row ∈ rows, row.applied = row.act → Step w row := by
  induction h with
  | nil =>
    obtain ⟨_, kw, x, hx⟩ := hj
    have := hp.reset kw x
    rw [hx] at this
    exact ⟨this, by simp⟩
  | step row x h hobs hinfo hstep hdone ih =>
    rename_i rows s
    have e1 := hp.obs s.state row.applied
    have e2 := hp.moves s.state row.applied
    have e3 := hp.rew s.state row.applied
    have e4 := hp.ends s.state row.applied
    rw [hstep] at e1 e2 e3 e4
    refine ⟨e1.trans e2.symm, fun r hr ha => ?_⟩
    rcases List.mem_append.mp hr with hr | hr
    · exact ih.2 r hr ha
    · obtain rfl := List.mem_singleton.mp hr
      rw [ha, ← ih.1, ← hobs] at e1 e3 e4
      exact ⟨e1, e3, e4⟩
  | done row x y kw o i h hobs hinfo hstep hdone hreset ih =>
    rename_i rows s
    have e1 := hp.obs s.state row.applied
    have e3 := hp.rew s.state row.applied
    have e4 := hp.ends s.state row.applied
    have e5 := hp.reset kw x
    rw [hstep] at e1 e3 e4
    rw [hreset] at e5
    refine ⟨e5, fun r hr ha => ?_⟩
    rcases List.mem_append.mp hr with hr | hr
    · exact ih.2 r hr ha
    · obtain rfl := List.mem_singleton.mp hr
      rw [ha, ← ih.1, ← hobs] at e1 e3 e4
      exact ⟨e1, e3, e4⟩
  | again kw y o i h hf hreset ih =>
    rename_i rows s
    have e5 := hp.reset kw s.state
    rw [hreset] at e5
    exact ⟨e5, ih.2⟩

/-- The policy hands actions to the environment unchanged, as for discrete action spaces (C38). -/
def Plain (c : Collector.Cfg σ (Fin (m + 1)) S ℝ I H K) : Prop := ∀ a, c.policy.mapAction a = a ∧ c.policy.mapActionInverse a = a

theorem usage_steps {c : Collector.Cfg σ (Fin (m + 1)) S ℝ I H K} (hs : c.share = false) {b : Bool} {s : Collector.Col σ (Fin (m + 1)) S ℝ I H}
    (h : Collector.Usage c b s) (hplain : Plain c) {w : World S m} {state : σ → S} (hp : Plays c.env w state) {e : ℕ} (he : e < c.envNum) :
    (∀ row ∈ Collector.rowsOf e s.log, Step w row) ∧ ∀ (i : ℕ) (r r' : Collector.Row S (Fin (m + 1)) ℝ I), (Collector.rowsOf e s.log)[i]? = some r →
      (Collector.rowsOf e s.log)[i + 1]? = some r' → r.out.ended = false → r'.obs = r.out.obs := by
  obtain ⟨start, now, h1, h2, _⟩ := (Collector.C61_trajectories_partial c hs b s h).1 e he
  refine ⟨fun row hrow => (trajectory_steps hp h1 h2).2 row hrow ?_, fun i r r' hr hr' hend =>
    ((Collector.C61_adjacent_partial c hs b s h e he).2.2 i r r' hr hr').1 hend⟩
  unfold Collector.rowsOf at hrow
  obtain ⟨p, hp1, rfl⟩ := List.mem_map.mp hrow
  obtain ⟨round, hround, hp2⟩ := List.mem_flatten.mp (List.mem_filter.mp hp1).1
  rcases Collector.C61_actions_partial c hs b s h round hround with ⟨_, _, _, hd⟩ | ⟨_, hd⟩
  · rw [hd p hp2, (hplain _).1]
  · rw [(hd p hp2).2, (hplain _).2]

/-! ### Targets -/

/-- The targets of the rows of a stream are bounded by the optimal values. -/
theorem target_le {w : World S m} {rows : List (Collector.Row S (Fin (m + 1)) ℝ I)} (hstep : ∀ row ∈ rows, Step w row)
    (hnext : ∀ (i : ℕ) (r r' : Collector.Row S (Fin (m + 1)) ℝ I), rows[i]? = some r → rows[i + 1]? = some r' → r.out.ended = false → r'.obs = r.out.obs)
    (gamma : ℝ) (hg : 0 ≤ gamma) (hg1 : gamma ≤ 1) (O Q : Table S m) (hO : w.Optimal gamma O) (M : ℝ) (hM : 0 ≤ M) (hQ : ∀ s a, Q s a ≤ O s a + M)
    (l : ℕ) : ∀ (k : ℕ) (rk rl : Collector.Row S (Fin (m + 1)) ℝ I), rows[k]? = some rk → rows[k + l]? = some rl →
      (∀ j < l, ∀ r, rows[k + j]? = some r → r.out.ended = false) →
      (∑ j ∈ Finset.range (l + 1), gamma ^ j * rewOf (rows.map experience) (k + j)) +
        gamma ^ (l + 1) * bootstrap (rows.map experience) (k + l) (best Q rl.out.obs) ≤ O rk.obs rk.act + gamma * M := by
  have hb : ∀ s, best Q s ≤ best O s + M := fun s => best_le Q s _ fun a => (hQ s a).trans (by linarith [le_best O s a])
  have hrew : ∀ k (r : Collector.Row S (Fin (m + 1)) ℝ I), rows[k]? = some r → rewOf (rows.map experience) k = w.rew r.obs r.act := by
    intro k r hr
    unfold rewOf
    rw [List.getElem?_map, hr]
    exact (hstep r (List.mem_of_getElem? hr)).2.1
  induction l with
  | zero =>
    intro k rk rl hk hl _
    rw [Nat.add_zero k, hk, Option.some.injEq] at hl
    subst hl
    obtain ⟨h1, h2, h3⟩ := hstep rk (List.mem_of_getElem? hk)
    have hterm : bootstrap (rows.map experience) (k + 0) (best Q rk.out.obs) = if w.ends rk.obs rk.act then 0 else best Q (w.next rk.obs rk.act) := by
      unfold bootstrap termOf
      rw [Nat.add_zero k, List.getElem?_map, hk, ← h1, ← h3]
      rfl
    rw [Finset.sum_range_one, hterm, Nat.add_zero k, hrew k rk hk, hO, zero_add, pow_zero, pow_one, one_mul, add_assoc, ← mul_add]
    refine add_le_add le_rfl (mul_le_mul_of_nonneg_left ?_ hg)
    split
    · simpa using hM
    · exact hb _
  | succ l ih =>
    intro k rk rl hk hl hrun
    have hlt : k + 1 < rows.length := by
      have := (List.getElem?_eq_some_iff.mp hl).1
      omega
    obtain ⟨r1, hr1⟩ : ∃ r, rows[k + 1]? = some r := ⟨_, List.getElem?_eq_getElem hlt⟩
    have hend := hrun 0 (Nat.succ_pos l) rk (by simpa using hk)
    have hobs := hnext k rk r1 hk hr1 hend
    obtain ⟨h1, h2, h3⟩ := hstep rk (List.mem_of_getElem? hk)
    have hne : w.ends rk.obs rk.act = false := by
      rw [← h3]
      unfold Collector.StepOut.ended at hend
      exact (Bool.or_eq_false_iff.mp hend).1
    have := ih (k + 1) r1 rl hr1 (by rwa [show k + 1 + l = k + (l + 1) by omega]) (fun j hj r hr => hrun (j + 1) (by omega) r (by
      rwa [show k + (j + 1) = k + 1 + j by omega]))
    rw [Finset.sum_range_succ', hO, hne]
    have e : ∑ j ∈ Finset.range (l + 1), gamma ^ (j + 1) * rewOf (rows.map experience) (k + (j + 1)) =
        gamma * ∑ j ∈ Finset.range (l + 1), gamma ^ j * rewOf (rows.map experience) (k + 1 + j) := by
      rw [Finset.mul_sum]
      refine Finset.sum_congr rfl fun j _ => ?_
      rw [show k + (j + 1) = k + 1 + j by omega]
      ring
    rw [e, pow_zero, one_mul, Nat.add_zero k, hrew k rk hk, show k + (l + 1) = k + 1 + l by omega, pow_succ' gamma (l + 1)]
    have h4 := le_best O r1.obs r1.act
    rw [hobs, h1] at h4
    rw [hobs, h1] at this
    have h5 := mul_le_mul_of_nonneg_left this hg
    have h6 : gamma * (gamma * M) ≤ gamma * M := mul_le_mul_of_nonneg_left (mul_le_of_le_one_left hM hg1) hg
    have h7 := mul_le_mul_of_nonneg_left h4 hg
    simp only [Bool.false_eq_true, if_false]
    linarith

/-- The loss for given targets. -/
theorem loss_eq (b : Mgr S (Fin (m + 1)) ℝ) (indices : List ℕ) (isDouble hasTarget : Bool) (gamma : ℝ) (N : ℕ) (Q T : Table S m) (y : Fin indices.length → ℝ)
    (hy : computeNstepReturn (ofMgr b) indices.length indices (fun l => l.map fun i => [best Q (nextAt b i)]) gamma N = some (List.ofFn fun p => [y p])) :
    loss b indices isDouble hasTarget gamma N Q T = some ((∑ p, (y p - T (obsAt b (indices.get p)) (actAt b (indices.get p))) ^ 2) / indices.length) := by
  have hq : (fun l : List ℕ => (dqnTarget isDouble ⟨tableNet Q, tableNet Q, hasTarget⟩ (l.map (nextAt b)) ((none : Option (ℕ → List Bool)).map fun m => l.map m)).map
      fun x => [x]) = fun l => l.map fun i => [best Q (nextAt b i)] := by
    funext l
    rw [Option.map_none, dqnTarget_table isDouble ⟨tableNet Q, tableNet Q, hasTarget⟩ Q (fun _ => rfl) (fun _ => rfl), List.map_map, List.map_map]
    rfl
  have hl : ∀ {α : Type} (f : ℕ → α), indices.map f = List.ofFn fun p => f (indices.get p) := by
    intro α f
    conv_lhs => rw [← List.ofFn_get indices, List.map_ofFn]
    rfl
  unfold loss learnLoss dqnReturns
  rw [hq, hy]
  have hf : (List.ofFn fun p => [y p]).flatten = List.ofFn y := by
    have := flatten_singles (List.ofFn fun p : Fin indices.length => p) y
    simpa [List.map_ofFn, Function.comp_def] using this
  simp only [Option.map_some, hf, Option.some.injEq]
  unfold pick List.zip
  rw [List.map_map, hl, hl, hl, zipWith_ofFn, zipWith_ofFn]
  simp only [Function.comp_apply, table_getD]
  rw [squared_eq]
  simp

/-- Training has settled if and only if, for each pair of observation and action, the values are the means of the targets. -/
theorem settled_iff (b : Mgr S (Fin (m + 1)) ℝ) (indices : List ℕ) (hne : 0 < indices.length) (isDouble hasTarget : Bool) (gamma : ℝ) (N : ℕ) (Q : Table S m)
    (y : Fin indices.length → ℝ)
    (hy : computeNstepReturn (ofMgr b) indices.length indices (fun l => l.map fun i => [best Q (nextAt b i)]) gamma N = some (List.ofFn fun p => [y p])) :
    Settled b indices isDouble hasTarget gamma N Q ↔
      ∀ s a, ∑ p with (obsAt b (indices.get p), actAt b (indices.get p)) = (s, a), (y p - Q s a) = 0 := by
  have hn' : (0 : ℝ) < indices.length := by exact_mod_cast hne
  unfold Settled
  simp only [loss_eq b indices isDouble hasTarget gamma N Q _ y hy, Option.some.injEq, exists_eq_left', forall_eq', div_le_div_iff_of_pos_right hn']
  have := least_squares (fun p => (obsAt b (indices.get p), actAt b (indices.get p))) y fun x => Q x.1 x.2
  simp only [Prod.forall] at this
  rw [← this]
  constructor
  · intro h Q'
    exact h fun s a => Q' (s, a)
  · intro h T
    exact h fun x => T x.1 x.2

/-- What is known about a sampled batch: the rows of the environments are steps of the world, the rows of the batch are among them, and the targets are those of
the streams of the environments. -/
structure Batch (w : World S m) (log : List (List (ℕ × Collector.Row S (Fin (m + 1)) ℝ I))) (num : ℕ) (b : Mgr S (Fin (m + 1)) ℝ) (indices : List ℕ) : Prop where
  size : 0 < indices.length
  steps : ∀ e < num, ∀ row ∈ Collector.rowsOf e log, Step w row
  adjacent : ∀ e < num, ∀ (i : ℕ) (r r' : Collector.Row S (Fin (m + 1)) ℝ I), (Collector.rowsOf e log)[i]? = some r →
    (Collector.rowsOf e log)[i + 1]? = some r' → r.out.ended = false → r'.obs = r.out.obs
  targets : ∀ (targetQ : List ℕ → List (List ℝ)) (_ : ∀ l, (targetQ l).length = l.length) (gamma : ℝ) (N : ℕ) (_ : 0 < N),
    ∃ (after : List ℕ) (out : List (List ℝ)), computeNstepReturn (ofMgr b) indices.length indices targetQ gamma N = some out ∧ out.length = indices.length ∧
      ∀ (p i : ℕ), indices[p]? = some i → ∃ (e k i' : ℕ) (rk rl : Collector.Row S (Fin (m + 1)) ℝ I) (q : List ℝ), e < num ∧
        (let stream := (Collector.rowsOf e log).map experience
         (Collector.rowsOf e log)[k]? = some rk ∧ b.data i = some (expectedRow {} (experience rk)) ∧
         (Collector.rowsOf e log)[k + (nstepLen stream N k - 1)]? = some rl ∧
         after[p]? = some i' ∧ b.data i' = some (expectedRow {} (experience rl)) ∧
         (targetQ after)[p]? = some q ∧ out[p]? = some (q.map (nstepValue stream gamma N k)))

section
variable {w : World S m} {log : List (List (ℕ × Collector.Row S (Fin (m + 1)) ℝ I))} {num : ℕ} {b : Mgr S (Fin (m + 1)) ℝ} {indices : List ℕ}

/-- One-step targets are exact, and all targets are bounded. -/
theorem sampled (hB : Batch w log num b indices) (gamma : ℝ) (N : ℕ) (hN : 0 < N) (Q : Table S m) :
    ∃ y : Fin indices.length → ℝ,
      computeNstepReturn (ofMgr b) indices.length indices (fun l => l.map fun i => [best Q (nextAt b i)]) gamma N = some (List.ofFn fun p => [y p]) ∧
      ∀ p, (N = 1 → y p = w.rew (obsAt b (indices.get p)) (actAt b (indices.get p)) + gamma *
          if w.ends (obsAt b (indices.get p)) (actAt b (indices.get p)) then 0 else best Q (w.next (obsAt b (indices.get p)) (actAt b (indices.get p)))) ∧
        (∀ (O : Table S m) (M : ℝ), 0 ≤ gamma → gamma ≤ 1 → w.Optimal gamma O → 0 ≤ M → (∀ s a, Q s a ≤ O s a + M) →
          y p ≤ O (obsAt b (indices.get p)) (actAt b (indices.get p)) + gamma * M) := by
  obtain ⟨after, out, r3, r4, r5⟩ := hB.targets (fun l => l.map fun i => [best Q (nextAt b i)]) (by simp) gamma N hN
  have hout : ∀ p : Fin indices.length, ∃ y, out[(p : ℕ)]? = some [y] ∧
      (N = 1 → y = w.rew (obsAt b (indices.get p)) (actAt b (indices.get p)) + gamma *
          if w.ends (obsAt b (indices.get p)) (actAt b (indices.get p)) then 0 else best Q (w.next (obsAt b (indices.get p)) (actAt b (indices.get p)))) ∧
        (∀ (O : Table S m) (M : ℝ), 0 ≤ gamma → gamma ≤ 1 → w.Optimal gamma O → 0 ≤ M → (∀ s a, Q s a ≤ O s a + M) →
          y ≤ O (obsAt b (indices.get p)) (actAt b (indices.get p)) + gamma * M) := by
    intro p
    obtain ⟨e, k, i', rk, rl, q, he, hk, hdata, hl, ha, hdata', hq, hout⟩ := r5 p (indices.get p) (by simp)
    have hstep := hB.steps e he
    have hnext := hB.adjacent e he
    rw [List.getElem?_map, ha, Option.map_some, Option.some.injEq] at hq
    subst hq
    have hnx : nextAt b i' = rl.out.obs := by
      unfold nextAt
      rw [hdata']
      rfl
    have hobs : obsAt b (indices.get p) = rk.obs := by
      unfold obsAt
      rw [hdata]
      rfl
    have hact : actAt b (indices.get p) = rk.act := by
      unfold actAt
      rw [hdata]
      rfl
    rw [List.map_cons, List.map_nil, hnx] at hout
    refine ⟨_, hout, ?_, ?_⟩
    · intro hN1
      subst hN1
      have hlen1 : nstepLen ((Collector.rowsOf e log).map experience) 1 k = 1 := by
        unfold nstepLen
        omega
      obtain ⟨h1, h2, h3⟩ := hstep rk (List.mem_of_getElem? hk)
      rw [hlen1, Nat.sub_self, Nat.add_zero k, hk, Option.some.injEq] at hl
      subst hl
      unfold nstepValue
      rw [hlen1, Finset.sum_range_one, Nat.sub_self, Nat.add_zero k, pow_zero, one_mul, pow_one, hobs, hact, ← h2, ← h3, ← h1]
      unfold rewOf bootstrap termOf
      rw [List.getElem?_map, hk]
      rfl
    · intro O M hg hg1 hO hM hQ
      obtain ⟨l, hl'⟩ : ∃ l, nstepLen ((Collector.rowsOf e log).map experience) N k = l + 1 :=
        ⟨nstepLen ((Collector.rowsOf e log).map experience) N k - 1, by unfold nstepLen; omega⟩
      unfold nstepValue
      rw [hobs, hact]
      rw [hl', Nat.add_sub_cancel] at hl ⊢
      refine target_le hstep hnext gamma hg hg1 O Q hO M hM hQ l k rk rl hk hl fun j hj r hr => ?_
      have hkl : k < ((Collector.rowsOf e log).map experience).length := by
        rw [List.length_map]
        exact (List.getElem?_eq_some_iff.mp hk).1
      have hle : l + 1 ≤ epLast Trans.done ((Collector.rowsOf e log).map experience) k - k + 1 := by
        rw [← hl']
        exact min_le_right _ _
      have hcont := Spec.continues_of_lt_epLast Trans.done ((Collector.rowsOf e log).map experience) hkl (l := k + j + 1) (by omega) (by omega)
      unfold continues at hcont
      simp only [List.getElem?_map, hr, Option.map_some] at hcont
      simp only [Bool.not_eq_true'] at hcont
      exact hcont
  choose y hy1 hy2 using hout
  refine ⟨y, ?_, hy2⟩
  rw [r3, Option.some.injEq]
  refine List.ext_getElem? fun p => ?_
  by_cases hp' : p < indices.length
  · rw [hy1 ⟨p, hp'⟩, List.getElem?_ofFn, dif_pos hp']
  · rw [List.getElem?_eq_none (by omega), List.getElem?_ofFn, dif_neg hp']

/-- Settled means Bellman's equation for the rows of the batch. -/
theorem bellman (hB : Batch w log num b indices) (isDouble hasTarget : Bool) (gamma : ℝ) (Q : Table S m) :
    Settled b indices isDouble hasTarget gamma 1 Q ↔ ∀ i ∈ indices, Q (obsAt b i) (actAt b i) = w.rew (obsAt b i) (actAt b i) + gamma *
      if w.ends (obsAt b i) (actAt b i) then 0 else best Q (w.next (obsAt b i) (actAt b i)) := by
  obtain ⟨y, hy, hyp⟩ := sampled hB gamma 1 one_pos Q
  rw [settled_iff b indices hB.size isDouble hasTarget gamma 1 Q y hy]
  have hy1 := fun p => (hyp p).1 rfl
  constructor
  · intro hsum i hmem
    obtain ⟨p, hpi⟩ := List.mem_iff_get.mp hmem
    have h1 := hsum (obsAt b i) (actAt b i)
    have h2 : ∀ q ∈ Finset.univ.filter fun p : Fin indices.length => (obsAt b (indices.get p), actAt b (indices.get p)) = (obsAt b i, actAt b i),
        y q - Q (obsAt b i) (actAt b i) = y p - Q (obsAt b i) (actAt b i) := by
      intro q hq
      have hq := Prod.mk.inj (Finset.mem_filter.mp hq).2
      rw [hy1 q, hy1 p, hq.1, hq.2, hpi]
    rw [Finset.sum_congr rfl h2, Finset.sum_const, nsmul_eq_mul, mul_eq_zero] at h1
    rcases h1 with h1 | h1
    · exfalso
      have : p ∈ Finset.univ.filter fun p : Fin indices.length => (obsAt b (indices.get p), actAt b (indices.get p)) = (obsAt b i, actAt b i) := by
        simp [← hpi]
      rw [Nat.cast_eq_zero, Finset.card_eq_zero] at h1
      rw [h1] at this
      simp at this
    · rw [hy1 p, hpi] at h1
      linarith
  · intro hb s' a'
    refine Finset.sum_eq_zero fun p hp' => ?_
    have hp' := Prod.mk.inj (Finset.mem_filter.mp hp').2
    rw [hy1 p, ← hb _ (List.get_mem indices p), hp'.1, hp'.2, sub_self]

/-- Settled means optimal if the batch has all pairs. -/
theorem optimal (hB : Batch w log num b indices)
    (hall : ∀ x a, ∃ i ∈ indices, obsAt b i = x ∧ actAt b i = a) (isDouble hasTarget : Bool) (gamma : ℝ) (hg : 0 ≤ gamma) (hg1 : gamma < 1)
    (O : Table S m) (hO : w.Optimal gamma O) (Q : Table S m) : Settled b indices isDouble hasTarget gamma 1 Q ↔ Q = O := by
  rw [bellman hB]
  constructor
  · intro hb
    have hQ : w.Optimal gamma Q := by
      intro x a
      obtain ⟨i, hm, rfl, rfl⟩ := hall x a
      exact hb i hm
    -- both differences are bounded by their discounted maximum
    have key : ∀ (U V : Table S m), w.Optimal gamma U → w.Optimal gamma V → ∀ x a, U x a ≤ V x a := by
      intro U V hU hV x a
      have : Nonempty (S × Fin (m + 1)) := ⟨(x, a)⟩
      obtain ⟨⟨x0, a0⟩, hmax⟩ := Finite.exists_max fun z : S × Fin (m + 1) => U z.1 z.2 - V z.1 z.2
      by_contra hlt
      have hM : 0 < U x0 a0 - V x0 a0 := lt_of_lt_of_le (by simp only; linarith) (hmax (x, a))
      have hb' : ∀ z, best U z ≤ best V z + (U x0 a0 - V x0 a0) := fun z => best_le U z _ fun a => by
        linarith [hmax (z, a), le_best V z a]
      have e1 := hU x0 a0
      have e2 := hV x0 a0
      cases hend : w.ends x0 a0
      · simp only [hend, Bool.false_eq_true, if_false] at e1 e2
        have := mul_le_mul_of_nonneg_left (hb' (w.next x0 a0)) hg
        nlinarith
      · simp only [hend, if_true] at e1 e2
        linarith
    funext x a
    exact le_antisymm (key Q O hQ hO x a) (key O Q hO hQ x a)
  · rintro rfl i _
    exact hO _ _

/-- Values learned from returns of several steps. -/
theorem several (hB : Batch w log num b indices)
    (hall : ∀ x a, ∃ i ∈ indices, obsAt b i = x ∧ actAt b i = a) (isDouble hasTarget : Bool) (gamma : ℝ) (hg : 0 ≤ gamma) (hg1 : gamma < 1)
    (O : Table S m) (hO : w.Optimal gamma O) (N : ℕ) (hN : 0 < N) (Q : Table S m) (hQ : Settled b indices isDouble hasTarget gamma N Q) (x : S)
    (a : Fin (m + 1)) : Q x a ≤ O x a := by
  obtain ⟨y, hy, hyp⟩ := sampled hB gamma N hN Q
  rw [settled_iff b indices hB.size isDouble hasTarget gamma N Q y hy] at hQ
  have : Nonempty (S × Fin (m + 1)) := ⟨(x, a)⟩
  obtain ⟨⟨x0, a0⟩, hmax⟩ := Finite.exists_max fun z : S × Fin (m + 1) => Q z.1 z.2 - O z.1 z.2
  by_contra hlt
  have hM : 0 < Q x0 a0 - O x0 a0 := lt_of_lt_of_le (by simp only; linarith) (hmax (x, a))
  obtain ⟨i, hmem, hx, ha⟩ := hall x0 a0
  obtain ⟨p, hpi⟩ := List.mem_iff_get.mp hmem
  have hneg : ∑ p with (obsAt b (indices.get p), actAt b (indices.get p)) = (x0, a0), (y p - Q x0 a0) < 0 := by
    refine Finset.sum_neg (fun q hq => ?_) ⟨p, by simp [← hx, ← ha, ← hpi]⟩
    have hq := Prod.mk.inj (Finset.mem_filter.mp hq).2
    have h1 := (hyp q).2 O (Q x0 a0 - O x0 a0) hg hg1.le hO hM.le fun z a => by linarith [hmax (z, a)]
    rw [hq.1, hq.2] at h1
    nlinarith
  rw [hQ x0 a0] at hneg
  exact lt_irrefl _ hneg

end

/-- A batch sampled after the ordinary use of a collector with a vector buffer. -/
theorem batch_sync {c : Collector.Cfg σ (Fin (m + 1)) S ℝ I H K} (hs : c.share = false) {u : Bool} {s : Collector.Col σ (Fin (m + 1)) S ℝ I H}
    (h : Collector.Usage c u s) (hplain : Plain c) {w : World S m} {state : σ → S} (hp : Plays c.env w state)
    {m0 : Mgr S (Fin (m + 1)) ℝ} {sep0 : List (Buf S (Fin (m + 1)) ℝ)} (h0 : Reach m0 sep0) (hn : c.envNum ≤ sep0.length) (hopts : m0.opts = {})
    {b : Mgr S (Fin (m + 1)) ℝ} {stats : List (ℝ × ℕ)} (hrec : record (m0.reset false) s.log = .ok (b, stats)) (hlen : 0 < b.len)
    (draw : ℕ → ℕ) (rng : ℕ → ℕ → ℕ) (n : ℕ) (hpos : 0 < n) {indices : List ℕ} (hi : b.sampleIndices draw rng (some n) = .ok indices) :
    Batch w s.log c.envNum b indices := by
  have key := C193_nstep c hs u s h h0 hn (by rw [hopts]; exact Or.inl rfl) hrec hlen draw rng n hpos
  rw [hopts] at key
  refine ⟨?_, fun e he => (usage_steps hs h hplain hp he).1, fun e he => (usage_steps hs h hplain hp he).2, fun targetQ hQ gamma N hN => ?_⟩
  · obtain ⟨indices', after, out, r1, r2, -⟩ := key (fun l => l.map fun _ => []) (by simp) 0 1 one_pos
    rw [hi, Except.ok.injEq] at r1
    subst r1
    omega
  · obtain ⟨indices', after, out, r1, r2, r3, r4, r5⟩ := key targetQ hQ gamma N hN
    rw [hi, Except.ok.injEq] at r1
    subst r1
    subst r2
    exact ⟨after, out, r3, r4, r5⟩

/-! ### C279 -/

/-- **C279: Bellman's equation of the environment.** A collector in ordinary use steps environments that behave like `w`, with any policy and exploration, and fills a
vector buffer of any sizes; a batch of any size is sampled. With one-step returns the loss of DQN has settled if and only if the values satisfy Bellman's
optimality equation of `w` for all pairs of observation and action in the batch, also if episodes were truncated or are unfinished and if old
transitions were overwritten. -/
theorem C279_bellman {c : Collector.Cfg σ (Fin (m + 1)) S ℝ I H K} (hs : c.share = false) {u : Bool} {s : Collector.Col σ (Fin (m + 1)) S ℝ I H}
    (h : Collector.Usage c u s) (hplain : Plain c) {w : World S m} {state : σ → S} (hp : Plays c.env w state)
    {m0 : Mgr S (Fin (m + 1)) ℝ} {sep0 : List (Buf S (Fin (m + 1)) ℝ)} (h0 : Reach m0 sep0) (hn : c.envNum ≤ sep0.length) (hopts : m0.opts = {})
    {b : Mgr S (Fin (m + 1)) ℝ} {stats : List (ℝ × ℕ)} (hrec : record (m0.reset false) s.log = .ok (b, stats)) (hlen : 0 < b.len)
    (draw : ℕ → ℕ) (rng : ℕ → ℕ → ℕ) (n : ℕ) (hpos : 0 < n) {indices : List ℕ} (hi : b.sampleIndices draw rng (some n) = .ok indices)
    (isDouble hasTarget : Bool) (gamma : ℝ) (Q : Table S m) :
    Settled b indices isDouble hasTarget gamma 1 Q ↔ ∀ i ∈ indices, Q (obsAt b i) (actAt b i) = w.rew (obsAt b i) (actAt b i) + gamma *
      if w.ends (obsAt b i) (actAt b i) then 0 else best Q (w.next (obsAt b i) (actAt b i)) := by
  exact bellman (batch_sync hs h hplain hp h0 hn hopts hrec hlen draw rng n hpos hi) isDouble hasTarget gamma Q

/-- **C279: optimal values.** If the batch contains every pair of observation and action, training with one-step returns has settled if and only if the
values are the optimal ones of the environment. -/
theorem C279_optimal {c : Collector.Cfg σ (Fin (m + 1)) S ℝ I H K} (hs : c.share = false) {u : Bool} {s : Collector.Col σ (Fin (m + 1)) S ℝ I H}
    (h : Collector.Usage c u s) (hplain : Plain c) {w : World S m} {state : σ → S} (hp : Plays c.env w state)
    {m0 : Mgr S (Fin (m + 1)) ℝ} {sep0 : List (Buf S (Fin (m + 1)) ℝ)} (h0 : Reach m0 sep0) (hn : c.envNum ≤ sep0.length) (hopts : m0.opts = {})
    {b : Mgr S (Fin (m + 1)) ℝ} {stats : List (ℝ × ℕ)} (hrec : record (m0.reset false) s.log = .ok (b, stats)) (hlen : 0 < b.len)
    (draw : ℕ → ℕ) (rng : ℕ → ℕ → ℕ) (n : ℕ) (hpos : 0 < n) {indices : List ℕ} (hi : b.sampleIndices draw rng (some n) = .ok indices)
    (hall : ∀ x a, ∃ i ∈ indices, obsAt b i = x ∧ actAt b i = a) (isDouble hasTarget : Bool) (gamma : ℝ) (hg : 0 ≤ gamma) (hg1 : gamma < 1)
    (O : Table S m) (hO : w.Optimal gamma O) (Q : Table S m) : Settled b indices isDouble hasTarget gamma 1 Q ↔ Q = O := by
  exact optimal (batch_sync hs h hplain hp h0 hn hopts hrec hlen draw rng n hpos hi) hall isDouble hasTarget gamma hg hg1 O hO Q

/-- C279: with returns of several steps the learned values are never above the optimal ones (they can be below, C274). -/
theorem C279_le {c : Collector.Cfg σ (Fin (m + 1)) S ℝ I H K} (hs : c.share = false) {u : Bool} {s : Collector.Col σ (Fin (m + 1)) S ℝ I H}
    (h : Collector.Usage c u s) (hplain : Plain c) {w : World S m} {state : σ → S} (hp : Plays c.env w state)
    {m0 : Mgr S (Fin (m + 1)) ℝ} {sep0 : List (Buf S (Fin (m + 1)) ℝ)} (h0 : Reach m0 sep0) (hn : c.envNum ≤ sep0.length) (hopts : m0.opts = {})
    {b : Mgr S (Fin (m + 1)) ℝ} {stats : List (ℝ × ℕ)} (hrec : record (m0.reset false) s.log = .ok (b, stats)) (hlen : 0 < b.len)
    (draw : ℕ → ℕ) (rng : ℕ → ℕ → ℕ) (n : ℕ) (hpos : 0 < n) {indices : List ℕ} (hi : b.sampleIndices draw rng (some n) = .ok indices)
    (hall : ∀ x a, ∃ i ∈ indices, obsAt b i = x ∧ actAt b i = a) (isDouble hasTarget : Bool) (gamma : ℝ) (hg : 0 ≤ gamma) (hg1 : gamma < 1)
    (O : Table S m) (hO : w.Optimal gamma O) (N : ℕ) (hN : 0 < N) (Q : Table S m) (hQ : Settled b indices isDouble hasTarget gamma N Q) (x : S)
    (a : Fin (m + 1)) : Q x a ≤ O x a := by
  exact several (batch_sync hs h hplain hp h0 hn hopts hrec hlen draw rng n hpos hi) hall isDouble hasTarget gamma hg hg1 O hO N hN Q hQ x a

/-! ### Example -/

/-- Two states; action 1 moves from the first to the second and ends the episode with reward 1 from there. -/
noncomputable def corridor : World Bool 1 where
  next := fun s a => if a = 1 then true else s
  rew := fun s a => if s = true ∧ a = 1 then 1 else 0
  ends := fun s a => s && a == 1

/-- An environment that behaves like this. -/
noncomputable def corridorEnv : Collector.Env Bool (Fin 2) Bool ℝ Unit Unit where
  step := fun s a => (corridor.next s a, ⟨corridor.next s a, corridor.rew s a, corridor.ends s a, false, ()⟩)
  reset := fun _ _ => (false, false, ())

theorem corridor_plays : Plays corridorEnv corridor id := ⟨fun _ _ => rfl, fun _ _ => rfl, fun _ _ => rfl, fun _ _ => rfl, fun _ _ => rfl⟩

/-- One environment and a policy that takes the actions 0 and 1 in turn. -/
noncomputable def corridorCfg : Collector.Cfg Bool (Fin 2) Bool ℝ Unit Unit Unit where
  env := corridorEnv
  policy := ⟨fun k obs _ _ => (obs.map fun _ => if k % 2 = 0 then 0 else 1, none), fun _ acts _ => acts, id, id, fun _ _ => 0⟩
  envNum := 1
  noise := false
  share := false
  hiddenKind := .arrayOrBatch
  zeroHidden := ()
  isAsync := false

/-- A reset and a collection of four steps. -/
noncomputable def corridorRun : Option (Collector.Col Bool (Fin 2) Bool ℝ Unit Unit) :=
  Collector.after (Collector.collect corridorCfg (some 4) none false false () 10
    (Collector.reset corridorCfg true true () { world := ⟨fun _ => false, fun _ => false⟩ }))

/-- The optimal values with discount 1/2. -/
noncomputable def corridorValues : Table Bool 1 := fun s a => if s then (if a = 1 then 1 else 1 / 2) else (if a = 1 then 1 / 2 else 1 / 4)

theorem corridor_optimal : corridor.Optimal (1 / 2) corridorValues := by
  have hb : ∀ s, best corridorValues s = if s then 1 else 1 / 2 := by
    intro s
    refine le_antisymm (best_le _ _ _ fun a => ?_) ?_
    · cases s <;> fin_cases a <;> norm_num [corridorValues]
    · have := le_best corridorValues s 1
      cases s <;> simp [corridorValues] at this ⊢ <;> linarith
  intro s a
  cases s <;> fin_cases a <;> norm_num [corridorValues, corridor, hb]

/-- Four steps of this collector visit all pairs. -/
theorem corridor_collected : ∃ s b stats, corridorRun = some s ∧ Collector.Usage corridorCfg false s ∧
    record ((Mgr.new [5] {} : Mgr Bool (Fin 2) ℝ).reset false) s.log = .ok (b, stats) ∧
    b.sampleIndices (fun _ => 0) (fun _ k => k) (some 4) = .ok [0, 1, 2, 3] ∧ b.len = 4 ∧
    (∀ x a, ∃ i ∈ [0, 1, 2, 3], obsAt b i = x ∧ actAt b i = a) ∧ ∀ round ∈ s.log, round ≠ [] := by
  obtain ⟨s, hs, b, stats, hrec, hi, hlen, hne, hall⟩ : ∃ s, corridorRun = some s ∧ ∃ b stats, record ((Mgr.new [5] {} : Mgr Bool (Fin 2) ℝ).reset false) s.log = .ok (b, stats) ∧
      b.sampleIndices (fun _ => 0) (fun _ k => k) (some 4) = .ok [0, 1, 2, 3] ∧ b.len = 4 ∧ s.log.all (fun round => !round.isEmpty) = true ∧
      (obsAt b 0 = false ∧ actAt b 0 = 0) ∧ (obsAt b 1 = false ∧ actAt b 1 = 1) ∧ (obsAt b 2 = true ∧ actAt b 2 = 0) ∧ obsAt b 3 = true ∧ actAt b 3 = 1 :=
    ⟨_, rfl, _, _, rfl, rfl, rfl, rfl, ⟨rfl, rfl⟩, ⟨rfl, rfl⟩, ⟨rfl, rfl⟩, rfl, rfl⟩
  have hu : Collector.Usage corridorCfg false s := by
    unfold corridorRun at hs
    obtain ⟨t, ht⟩ := Collector.after_some hs
    exact .steps (.reset (.built _) true ()) 4 false false (by simp) () 10 t ht
  refine ⟨s, b, stats, hs, hu, hrec, hi, hlen, ?_, fun round hround => ?_⟩
  swap
  · have := List.all_eq_true.mp hne round hround
    rintro rfl
    simp at this
  obtain ⟨h0, h1, h2, h3⟩ := hall
  intro x a
  cases x <;> fin_cases a
  · exact ⟨0, by simp, h0⟩
  · exact ⟨1, by simp, h1⟩
  · exact ⟨2, by simp, h2⟩
  · exact ⟨3, by simp, h3⟩

/-- The hypotheses of the theorems are met: sampled as a batch, these steps lead to the optimal values. -/
example : ∃ s b stats, corridorRun = some s ∧ Collector.Usage corridorCfg false s ∧
    record ((Mgr.new [5] {} : Mgr Bool (Fin 2) ℝ).reset false) s.log = .ok (b, stats) ∧
    b.sampleIndices (fun _ => 0) (fun _ k => k) (some 4) = .ok [0, 1, 2, 3] ∧
    ∀ isDouble hasTarget Q, Settled b [0, 1, 2, 3] isDouble hasTarget (1 / 2) 1 Q ↔ Q = corridorValues := by
  obtain ⟨s, b, stats, hs, hu, hrec, hi, hlen, hall, -⟩ := corridor_collected
  refine ⟨s, b, stats, hs, hu, hrec, hi, fun isDouble hasTarget Q => ?_⟩
  exact C279_optimal rfl hu (fun _ => ⟨rfl, rfl⟩) corridor_plays (.new [5] (by simp) {}) (by simp [corridorCfg]) rfl hrec (by omega) (fun _ => 0) (fun _ k => k) 4
    (by norm_num) hi hall isDouble hasTarget (1 / 2) (by norm_num) (by norm_num) _ corridor_optimal Q

end Verif.EndToEnd
