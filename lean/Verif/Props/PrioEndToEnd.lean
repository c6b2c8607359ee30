import Verif.Props.EndToEnd
import Verif.Props.Prio

/-!
# From the environments to the learned values with prioritised replay (property C286)

As property C279, with a `PrioritizedVectorReplayBuffer`: between the rounds of the collector, minibatches are sampled and their priorities updated in any way, as
training does.
-/

namespace Verif.PrioEndToEnd

open Verif.Buffer Verif.Spec Verif.Returns Verif.QTarget Verif.QLearning Verif.Pipeline Verif.EndToEnd
open Verif.Nstep (World Table le_best best_le)

set_option linter.unusedSectionVars false

variable {σ S I H K : Type} [Fintype S] [DecidableEq S] [Inhabited S] {m : ℕ}

/-! ### Specification -/

section
variable {O A R : Type} [AddCommMonoid R]

/-- The prioritised buffer after the rounds `log` of a collector have been added to `p0`. Between the rounds, any number of minibatches were sampled (with random
numbers greater than 0, see C26) and new priorities given to their transitions (by the policies: the TD errors), and `set_beta` was called. -/
inductive Recorded (p0 : PMgr O A R) : List (List (ℕ × Collector.Row O A R I)) → PMgr O A R → Prop
  | start : Recorded p0 [] p0
  | round {log : List (List (ℕ × Collector.Row O A R I))} {p p' : PMgr O A R} {res : List (AddResult R)} (round : List (ℕ × Collector.Row O A R I)) :
      Recorded p0 log p → p.add (round.map Prod.fst) (round.map fun q => toTrans q.2) = some (p', res) → Recorded p0 (log ++ [round]) p'
  | priorities {log : List (List (ℕ × Collector.Row O A R I))} {p p' : PMgr O A R} (x : ℕ → ℝ) (draw : ℕ → ℕ) (rng : ℕ → ℕ → ℕ) (n : ℕ) (kv : List (ℕ × ℝ)) :
      Recorded p0 log p → 0 < p.base.len → (∀ k, 0 < x k ∧ x k < 1) → 0 < n → p.sampleIndices x draw rng (some n) = some (kv.map Prod.fst) →
      p.updateWeight kv = some p' → Recorded p0 log p'
  | beta {log : List (List (ℕ × Collector.Row O A R I))} {p : PMgr O A R} (beta : ℝ) : Recorded p0 log p → Recorded p0 log (p.setBeta beta)

end

/-- The loss of DQN for the rows `indices` of the buffer with the importance weights `ws`, as a function of the table `T` that is trained. -/
noncomputable def loss (b : Mgr S (Fin (m + 1)) ℝ) (indices : List ℕ) (ws : List ℝ) (isDouble hasTarget : Bool) (gamma : ℝ) (N : ℕ) (Q T : Table S m) : Option ℝ :=
  learnLoss false isDouble ⟨tableNet Q, tableNet Q, hasTarget⟩ (tableNet T) (ofMgr b) (nextAt b) none (indices.map (obsAt b))
    (indices.map fun i => (actAt b i : ℕ)) indices gamma N ws

/-- Training with these rows and weights has settled: no other table has a smaller loss. -/
def Settled (b : Mgr S (Fin (m + 1)) ℝ) (indices : List ℕ) (ws : List ℝ) (isDouble hasTarget : Bool) (gamma : ℝ) (N : ℕ) (Q : Table S m) : Prop :=
  ∃ l, loss b indices ws isDouble hasTarget gamma N Q Q = some l ∧ ∀ T l', loss b indices ws isDouble hasTarget gamma N Q T = some l' → l ≤ l'

/-! ### The buffer -/

section
variable {O A R : Type} [AddCommMonoid R]

theorem sample_live {p : PMgr O A R} {sep : List (Buf O A R)} {ps : List ℝ} (h : PMHistory p sep ps) (hlen : 0 < p.base.len) (x : ℕ → ℝ)
    (hx : ∀ k, 0 < x k ∧ x k < 1) (draw : ℕ → ℕ) (rng : ℕ → ℕ → ℕ) (n : ℕ) (hn : 0 < n) {l : List ℕ} (hl : p.sampleIndices x draw rng (some n) = some l) :
    l.length = n ∧ ∀ i ∈ l, LiveIn sep i := by
  obtain ⟨l', h1, h2, h3⟩ := C26_vector_partial h hlen x (fun k => ⟨(hx k).1.le, (hx k).2⟩) draw rng n hn
  rw [hl, Option.some.injEq] at h1
  subst h1
  refine ⟨h2, fun i hi => ?_⟩
  obtain ⟨k, hk, he⟩ := List.getElem_of_mem hi
  obtain ⟨i', h4, h5, -⟩ := h3 k (by omega)
  rw [List.getElem?_eq_getElem hk, he, Option.some.injEq] at h4
  subst h4
  exact h5 (hx k).1

/-- What holds after recording. -/
theorem recorded_spec {totalSize bufferNum : ℕ} (hsz : 0 < totalSize) {o : Opts O} {popts : PrioOpts} (heps : 0 < popts.eps) {beta : ℝ} {wn : Bool}
    {p0 p : PMgr O A R} (hnew : PMgr.new totalSize bufferNum o popts beta wn = some p0) {log : List (List (ℕ × Collector.Row O A R I))}
    (h : Recorded p0 log p) (hid : ∀ q ∈ log.flatten, q.1 < bufferNum) :
    ∃ sep ps, PMHistory p sep ps ∧ sep.length = bufferNum ∧ p.base.opts = o ∧ 0 ≤ p.beta ∧ p.weightNorm = true ∧
      Follows o (fun _ => (totalSize + bufferNum - 1) / bufferNum) sep (fun e => (Collector.rowsOf e log).map experience) := by
  induction h with
  | start =>
    have hp := PMHistory.new totalSize bufferNum hsz o popts heps beta wn hnew
    refine ⟨_, _, hp, by simp, ?_⟩
    unfold PMgr.new at hnew
    split at hnew
    · rename_i hc
      simp only [Option.some.injEq] at hnew
      subst hnew
      refine ⟨rfl, hc.2.1, rfl, ?_⟩
      intro b cb hcb
      have := List.mem_of_getElem? hcb
      rw [List.mem_replicate] at this
      rw [this.2]
      refine ⟨rfl, rfl, ?_⟩
      have := History.new (A := A) (R := R) ((totalSize + bufferNum - 1) / bufferNum) (Nat.div_pos (by omega) hc.2.2) o
      simpa [ghostOf, openT, Collector.rowsOf] using this
    · cases hnew
  | @round log p p' res round h hadd ih =>
    obtain ⟨sep, ps, h1, h2, h3, h4, h5, h6⟩ := ih (fun q hq => hid q (by simp at hq ⊢; exact Or.inl hq))
    have hr : ∀ q ∈ round, q.1 < sep.length := fun q hq => by rw [h2]; exact hid q (by simp [hq])
    have hreach := h1.inv.reach
    obtain ⟨m', sep', rs, g1, g2, g3, g4, -, g5, -, -⟩ := add_round hreach h6 round hr
    obtain ⟨m2, sep2, rs2, k1, k2, -⟩ := C20_add hreach (round.map Prod.fst) (round.map fun q => toTrans q.2) (by simp) (by
      intro b hb
      obtain ⟨q, hq, rfl⟩ := List.mem_map.mp hb
      exact hr q hq)
    have hp' := h1.add hadd k1
    unfold PMgr.add at hadd
    rw [g1] at hadd
    simp only [Option.map_eq_some_iff, Prod.mk.injEq] at hadd
    obtain ⟨w, -, rfl, -⟩ := hadd
    obtain ⟨f1, -⟩ := h6.route (items round) (by rw [← items_zip]; exact k1)
    refine ⟨sep2, ps, hp', by rw [(routeAll_bound _ k1).2, h2], by simp only; rw [g3, h3], h4, h5, ?_⟩
    have : extend (fun e => (Collector.rowsOf e log).map experience) (items round) = fun e => (Collector.rowsOf e (log ++ [round])).map experience := by
      funext e
      rw [extend_items, ← List.map_append]
      simp [Collector.rowsOf]
    rwa [this] at f1
  | @priorities log p p' x draw rng n kv h hlen hx hn hs hup ih =>
    obtain ⟨sep, ps, h1, h2, h3, h4, h5, h6⟩ := ih hid
    have hp' := h1.updateWeight (kv := kv) (fun q hq => (sample_live h1 hlen x hx draw rng n hn hs).2 q.1 (List.mem_map_of_mem hq)) hup
    unfold PMgr.updateWeight at hup
    simp only [Option.map_eq_some_iff] at hup
    obtain ⟨w, -, rfl⟩ := hup
    exact ⟨sep, _, hp', h2, h3, h4, h5, h6⟩
  | beta b h ih =>
    obtain ⟨sep, ps, h1, h2, h3, h4, h5, h6⟩ := ih hid
    exact ⟨sep, ps, h1.setBeta b, h2, h3, h4, h5, h6⟩

/-- The importance weights of live rows are positive. -/
theorem weights_pos {p : PMgr O A R} {sep : List (Buf O A R)} {ps : List ℝ} (h : PMHistory p sep ps) (hn : p.weightNorm = true) (hb : 0 ≤ p.beta)
    (indices : List ℕ) (hne : 0 < indices.length) (hl : ∀ i ∈ indices, LiveIn sep i) {ws : List ℝ} (hw : p.weightAt indices = some ws) :
    ws.length = indices.length ∧ ∀ w ∈ ws, 0 < w := by
  obtain ⟨a, ha, hmin⟩ := Finset.exists_min_image indices.toFinset p.stored ⟨indices[0], by simp⟩
  obtain ⟨h1, h2, -⟩ := C29_vector h hn hb indices hl a (by simpa using ha) fun i hi => hmin i (by simpa using hi)
  rw [hw, Option.some.injEq] at h1
  subst h1
  refine ⟨by simp, fun w hw => ?_⟩
  obtain ⟨i, hi, rfl⟩ := List.mem_map.mp hw
  exact (h2 i hi).1

end

/-! ### Learning with weights -/

theorem loss_eq (b : Mgr S (Fin (m + 1)) ℝ) (indices : List ℕ) (ws : Fin indices.length → ℝ) (isDouble hasTarget : Bool) (gamma : ℝ) (N : ℕ) (Q T : Table S m)
    (y : Fin indices.length → ℝ)
    (hy : computeNstepReturn (ofMgr b) indices.length indices (fun l => l.map fun i => [best Q (nextAt b i)]) gamma N = some (List.ofFn fun p => [y p])) :
    loss b indices (List.ofFn ws) isDouble hasTarget gamma N Q T =
      some ((∑ p, (y p - T (obsAt b (indices.get p)) (actAt b (indices.get p))) ^ 2 * ws p) / indices.length) := by
  have hq : (fun l : List ℕ => (dqnTarget isDouble ⟨tableNet Q, tableNet Q, hasTarget⟩ (l.map (nextAt b)) ((none : Option (ℕ → List Bool)).map fun m => l.map m)).map
      fun x => [x]) = fun l => l.map fun i => [best Q (nextAt b i)] := by
    funext l
    rw [Option.map_none, dqnTarget_table isDouble ⟨tableNet Q, tableNet Q, hasTarget⟩ Q (fun _ => rfl) (fun _ => rfl), List.map_map, List.map_map]
    rfl
  have hl : ∀ {α : Type} (f : ℕ → α), indices.map f = List.ofFn fun p => f (indices.get p) := by
    intro α f
    conv_lhs => rw [← List.ofFn_get indices, List.map_ofFn]
    rfl
  unfold loss learnLoss dqnReturns
  rw [hq, hy]
  have hf : (List.ofFn fun p => [y p]).flatten = List.ofFn y := by
    have := flatten_singles (List.ofFn fun p : Fin indices.length => p) y
    simpa [List.map_ofFn, Function.comp_def] using this
  simp only [Option.map_some, hf, Option.some.injEq]
  unfold pick List.zip
  rw [List.map_map, hl, hl, zipWith_ofFn, zipWith_ofFn]
  simp only [Function.comp_apply, table_getD]
  rw [squared_eq]

/-- With positive weights, settled means Bellman's equation for the rows of the batch. -/
theorem bellman {w : World S m} {log : List (List (ℕ × Collector.Row S (Fin (m + 1)) ℝ I))} {num : ℕ} {b : Mgr S (Fin (m + 1)) ℝ} {indices : List ℕ}
    (hB : Batch w log num b indices) (ws : List ℝ) (hl : ws.length = indices.length) (hw : ∀ x ∈ ws, 0 < x) (isDouble hasTarget : Bool) (gamma : ℝ) (Q : Table S m) :
    Settled b indices ws isDouble hasTarget gamma 1 Q ↔ ∀ i ∈ indices, Q (obsAt b i) (actAt b i) = w.rew (obsAt b i) (actAt b i) + gamma *
      if w.ends (obsAt b i) (actAt b i) then 0 else best Q (w.next (obsAt b i) (actAt b i)) := by
  obtain ⟨y, hy, hyp⟩ := sampled hB gamma 1 one_pos Q
  have hn' : (0 : ℝ) < indices.length := by exact_mod_cast hB.size
  obtain ⟨v, rfl⟩ : ∃ v : Fin indices.length → ℝ, ws = List.ofFn v := ⟨fun p => ws.get (p.cast hl.symm), by
    apply List.ext_getElem
    · simp [hl]
    · intro i h1 h2
      simp⟩
  have hv : ∀ p, 0 < v p := fun p => hw _ (by simp)
  have hy1 := fun p => (hyp p).1 rfl
  unfold Settled
  simp only [loss_eq b indices v isDouble hasTarget gamma 1 Q _ y hy, Option.some.injEq, exists_eq_left', forall_eq', div_le_div_iff_of_pos_right hn']
  constructor
  · intro h i hmem
    obtain ⟨p, rfl⟩ := List.mem_iff_get.mp hmem
    have h1 := h fun s a => w.rew s a + gamma * if w.ends s a then 0 else best Q (w.next s a)
    have h2 : ∑ p, (y p - (w.rew (obsAt b (indices.get p)) (actAt b (indices.get p)) + gamma * if w.ends (obsAt b (indices.get p)) (actAt b (indices.get p)) then 0
        else best Q (w.next (obsAt b (indices.get p)) (actAt b (indices.get p))))) ^ 2 * v p = 0 :=
      Finset.sum_eq_zero fun p _ => by rw [hy1 p]; ring
    rw [h2] at h1
    have h3 := (Finset.sum_eq_zero_iff_of_nonneg fun p _ => mul_nonneg (sq_nonneg _) (hv p).le).mp
      (le_antisymm h1 (Finset.sum_nonneg fun p _ => mul_nonneg (sq_nonneg _) (hv p).le)) p (Finset.mem_univ p)
    have h4 := pow_eq_zero_iff (two_ne_zero) |>.mp ((mul_eq_zero.mp h3).resolve_right (hv p).ne')
    rw [hy1 p] at h4
    linarith
  · intro h T
    refine le_trans (le_of_eq (Finset.sum_eq_zero fun p _ => ?_)) (Finset.sum_nonneg fun p _ => mul_nonneg (sq_nonneg _) (hv p).le)
    rw [hy1 p, h _ (List.get_mem indices p)]
    ring

/-- A batch sampled from the prioritised buffer. -/
theorem batch_prio {c : Collector.Cfg σ (Fin (m + 1)) S ℝ I H K} (hs : c.share = false) {u : Bool} {s : Collector.Col σ (Fin (m + 1)) S ℝ I H}
    (h : Collector.Usage c u s) (hplain : Plain c) {w : World S m} {state : σ → S} (hp : Plays c.env w state)
    {totalSize bufferNum : ℕ} (hsz : 0 < totalSize) (hn : c.envNum ≤ bufferNum) {popts : PrioOpts} (heps : 0 < popts.eps) {beta : ℝ} {wn : Bool}
    {p0 p : PMgr S (Fin (m + 1)) ℝ} (hnew : PMgr.new totalSize bufferNum {} popts beta wn = some p0) (hrec : Recorded p0 s.log p) (hlen : 0 < p.base.len)
    (x : ℕ → ℝ) (hx : ∀ k, 0 < x k ∧ x k < 1) (draw : ℕ → ℕ) (rng : ℕ → ℕ → ℕ) (n : ℕ) (hpos : 0 < n) {indices : List ℕ}
    (hi : p.sampleIndices x draw rng (some n) = some indices) {ws : List ℝ} (hw : p.weightAt indices = some ws) :
    Batch w s.log c.envNum p.base indices ∧ ws.length = indices.length ∧ ∀ x ∈ ws, 0 < x := by
  have hids := ids_lt c hs u s h
  obtain ⟨sep, ps, h1, h2, h3, h4, h5, h6⟩ := recorded_spec hsz heps hnew hrec (fun q hq => (hids q hq).trans_le hn)
  obtain ⟨g1, g2⟩ := sample_live h1 hlen x hx draw rng n hpos hi
  refine ⟨⟨by omega, fun e he => (usage_steps hs h hplain hp he).1, fun e he => (usage_steps hs h hplain hp he).2, fun targetQ hQ gamma N hN => ?_⟩,
    weights_pos h1 h5 h4 indices (by omega) g2 hw⟩
  exact nstep_at s.log c.envNum (Or.inl rfl) h1.inv.reach h3 (embeds_of_follows s.log c.envNum hids h6) indices g2 targetQ hQ gamma N hN

/-! ### C286 -/

/-- **C286: Bellman's equation of the environment, with prioritised replay.** As `C279_bellman`, for a `PrioritizedVectorReplayBuffer` whatever its size, `alpha`,
`beta` and `weight_norm`, and however often the priorities of sampled transitions were changed before: with the importance weights which the buffer returns, the
loss of DQN has settled if and only if the values satisfy Bellman's optimality equation of the environment for all pairs in the batch. -/
theorem C286_bellman {c : Collector.Cfg σ (Fin (m + 1)) S ℝ I H K} (hs : c.share = false) {u : Bool} {s : Collector.Col σ (Fin (m + 1)) S ℝ I H}
    (h : Collector.Usage c u s) (hplain : Plain c) {w : World S m} {state : σ → S} (hp : Plays c.env w state)
    {totalSize bufferNum : ℕ} (hsz : 0 < totalSize) (hn : c.envNum ≤ bufferNum) {popts : PrioOpts} (heps : 0 < popts.eps) {beta : ℝ} {wn : Bool}
    {p0 p : PMgr S (Fin (m + 1)) ℝ} (hnew : PMgr.new totalSize bufferNum {} popts beta wn = some p0) (hrec : Recorded p0 s.log p) (hlen : 0 < p.base.len)
    (x : ℕ → ℝ) (hx : ∀ k, 0 < x k ∧ x k < 1) (draw : ℕ → ℕ) (rng : ℕ → ℕ → ℕ) (n : ℕ) (hpos : 0 < n) {indices : List ℕ}
    (hi : p.sampleIndices x draw rng (some n) = some indices) {ws : List ℝ} (hw : p.weightAt indices = some ws)
    (isDouble hasTarget : Bool) (gamma : ℝ) (Q : Table S m) :
    Settled p.base indices ws isDouble hasTarget gamma 1 Q ↔ ∀ i ∈ indices, Q (obsAt p.base i) (actAt p.base i) =
      w.rew (obsAt p.base i) (actAt p.base i) + gamma *
        if w.ends (obsAt p.base i) (actAt p.base i) then 0 else best Q (w.next (obsAt p.base i) (actAt p.base i)) := by
  obtain ⟨hB, h1, h2⟩ := batch_prio hs h hplain hp hsz hn heps hnew hrec hlen x hx draw rng n hpos hi hw
  exact bellman hB ws h1 h2 isDouble hasTarget gamma Q

/-- **C286: optimal values.** If the batch contains every pair of observation and action, training has settled if and only if the values are the optimal ones: neither
the priorities nor the importance weights change what is learned. -/
theorem C286_optimal {c : Collector.Cfg σ (Fin (m + 1)) S ℝ I H K} (hs : c.share = false) {u : Bool} {s : Collector.Col σ (Fin (m + 1)) S ℝ I H}
    (h : Collector.Usage c u s) (hplain : Plain c) {w : World S m} {state : σ → S} (hp : Plays c.env w state)
    {totalSize bufferNum : ℕ} (hsz : 0 < totalSize) (hn : c.envNum ≤ bufferNum) {popts : PrioOpts} (heps : 0 < popts.eps) {beta : ℝ} {wn : Bool}
    {p0 p : PMgr S (Fin (m + 1)) ℝ} (hnew : PMgr.new totalSize bufferNum {} popts beta wn = some p0) (hrec : Recorded p0 s.log p) (hlen : 0 < p.base.len)
    (x : ℕ → ℝ) (hx : ∀ k, 0 < x k ∧ x k < 1) (draw : ℕ → ℕ) (rng : ℕ → ℕ → ℕ) (n : ℕ) (hpos : 0 < n) {indices : List ℕ}
    (hi : p.sampleIndices x draw rng (some n) = some indices) {ws : List ℝ} (hw : p.weightAt indices = some ws)
    (hall : ∀ x a, ∃ i ∈ indices, obsAt p.base i = x ∧ actAt p.base i = a) (isDouble hasTarget : Bool) (gamma : ℝ) (hg : 0 ≤ gamma) (hg1 : gamma < 1)
    (O : Table S m) (hO : w.Optimal gamma O) (Q : Table S m) : Settled p.base indices ws isDouble hasTarget gamma 1 Q ↔ Q = O := by
  obtain ⟨hB, h1, h2⟩ := batch_prio hs h hplain hp hsz hn heps hnew hrec hlen x hx draw rng n hpos hi hw
  rw [bellman hB ws h1 h2, ← EndToEnd.bellman hB isDouble hasTarget]
  exact EndToEnd.optimal hB hall isDouble hasTarget gamma hg hg1 O hO Q

/-! ### Example -/

section
variable {O A R : Type} [AddCommMonoid R]

/-- Rounds that a vector buffer accepts can be recorded in a prioritised one. -/
theorem recorded_of_record (log : List (List (ℕ × Collector.Row O A R I))) (hne : ∀ round ∈ log, round ≠ []) {p0 : PMgr O A R}
    (past : List (List (ℕ × Collector.Row O A R I))) {p : PMgr O A R} (h : Recorded p0 past p) {sep : List (Buf O A R)} {ps : List ℝ} (hp : PMHistory p sep ps)
    (hid : ∀ q ∈ log.flatten, q.1 < sep.length) {b : Mgr O A R} {stats : List (R × ℕ)} (hrec : record p.base log = .ok (b, stats)) :
    ∃ p' sep' ps', Recorded p0 (past ++ log) p' ∧ p'.base = b ∧ PMHistory p' sep' ps' ∧ sep'.length = sep.length := by
  induction log generalizing past p sep ps b stats with
  | nil =>
    cases hrec
    exact ⟨p, sep, ps, by rwa [List.append_nil], rfl, hp, rfl⟩
  | cons round rest ih =>
    obtain ⟨p1, sep1, res, res', ha, h1, -, h2, -⟩ := hp.add_ok (round.map Prod.fst) (round.map fun q => toTrans q.2) (by simp) (by
      intro b hb
      obtain ⟨q, hq, rfl⟩ := List.mem_map.mp hb
      exact hid q (by simp [hq])) (by simpa using hne round (by simp))
    have hbase : ∃ rs, p.base.add (round.map Prod.fst) (round.map fun q => toTrans q.2) = .ok (p1.base, rs) := by
      unfold PMgr.add at ha
      split at ha
      · cases ha
      · rename_i m' rs hb
        simp only [Option.map_eq_some_iff, Prod.mk.injEq] at ha
        obtain ⟨w, -, rfl, -⟩ := ha
        exact ⟨rs, hb⟩
    obtain ⟨rs, hbase⟩ := hbase
    rw [record, recordRound, hbase] at hrec
    simp only at hrec
    cases hst : episodeStats p1.base (((round.zip rs).filter fun p => p.1.2.out.done).map Prod.snd) with
    | error e => rw [hst] at hrec; cases hrec
    | ok xs =>
      rw [hst] at hrec
      simp only at hrec
      cases hr : record p1.base rest with
      | error e => rw [hr] at hrec; cases hrec
      | ok q =>
        obtain ⟨m2, ys⟩ := q
        rw [hr] at hrec
        cases hrec
        obtain ⟨p', sep', ps', i1, i2, i3, i4⟩ := ih (fun r hr => hne r (by simp [hr])) (past ++ [round]) (h.round round ha) h1
          (fun q hq => by rw [h2]; exact hid q (by rw [List.flatten_cons]; exact List.mem_append_right _ hq)) hr
        exact ⟨p', sep', ps', by simpa using i1, i2, i3, i4.trans h2⟩

/-- Every list of live slots can be sampled. -/
theorem can_sample {p : PMgr O A R} {sep : List (Buf O A R)} {ps : List ℝ} (h : PMHistory p sep ps) (hlen : 0 < p.base.len) (want : List ℕ) (hne : 0 < want.length)
    (hl : ∀ i ∈ want, LiveIn sep i) (draw : ℕ → ℕ) (rng : ℕ → ℕ → ℕ) :
    ∃ x : ℕ → ℝ, (∀ k, 0 < x k ∧ x k < 1) ∧ p.sampleIndices x draw rng (some (want.length : ℕ)) = some want := by
  have hit : ∀ i : ℕ, ∃ x : ℝ, 0 < x ∧ x < 1 ∧ (LiveIn sep i → p.w.sample (fun _ => x) 1 = some [i]) := by
    intro i
    by_cases hi : LiveIn sep i
    · obtain ⟨x, h1, h2, h3⟩ := h.inv.w.sample_hits hi
      exact ⟨x, h1, h2, fun _ => h3⟩
    · exact ⟨1 / 2, by norm_num, by norm_num, fun hc => absurd hc hi⟩
  choose x hx0 hx1 hx using hit
  refine ⟨fun k => x (want.getD k 0), fun k => ⟨hx0 _, hx1 _⟩, ?_⟩
  have hu : ∀ k, 0 ≤ (fun k => x (want.getD k 0)) k ∧ (fun k => x (want.getD k 0)) k < 1 := fun k => ⟨(hx0 _).le, hx1 _⟩
  obtain ⟨l, h1, h2, h3⟩ := C26_vector_partial h hlen _ hu draw rng want.length hne
  rw [h1, Option.some.injEq]
  apply List.ext_getElem?
  intro k
  by_cases hk : k < want.length
  · obtain ⟨j, h4, -, -, h5⟩ := h3 k hk
    have hg : want.getD k 0 = want[k] := by simp [List.getD_eq_getElem?_getD, hk]
    obtain ⟨l', g1, -, g3⟩ := C26_vector_partial h hlen (fun _ => x want[k]) (fun _ => ⟨(hx0 _).le, hx1 _⟩) draw rng 1 one_pos
    have hs : p.sampleIndices (fun _ => x want[k]) draw rng (some (1 : ℕ)) = some [want[k]] := by
      unfold PMgr.sampleIndices
      simp only
      rw [if_pos ⟨by norm_num, hlen⟩]
      exact hx _ (hl _ (List.getElem_mem hk))
    rw [g1, Option.some.injEq] at hs
    subst hs
    obtain ⟨j', g4, -, -, g5⟩ := g3 0 one_pos
    simp only [List.getElem?_cons_zero, Option.some.injEq] at g4
    have e := (g5 (hx0 _) want[k]).mp g4
    have e2 := (h5 (hx0 _) want[k]).mpr (by simp only [hg]; exact e)
    rw [h4, ← e2, List.getElem?_eq_getElem hk]
  · rw [List.getElem?_eq_none (by omega), List.getElem?_eq_none (by omega)]

end

/-- The hypotheses of the theorems are met: the collector of C279 with a prioritised buffer, whose first two transitions get other priorities; the four transitions
can be sampled, and lead to the optimal values. -/
example : ∃ s p0 p x indices ws, corridorRun = some s ∧ PMgr.new 5 1 {} ⟨1 / 2, 1 / 10⟩ (1 / 2) true = some p0 ∧ Recorded p0 s.log p ∧ (∀ k, 0 < x k ∧ x k < 1) ∧
    p.sampleIndices x (fun _ => 0) (fun _ k => k) (some (4 : ℕ)) = some indices ∧ p.weightAt indices = some ws ∧
    ∀ isDouble hasTarget Q, Settled p.base indices ws isDouble hasTarget (1 / 2) 1 Q ↔ Q = corridorValues := by
  obtain ⟨s, b, stats, hs, hu, hrec, hi, hlen, hall, hne⟩ := corridor_collected
  obtain ⟨p0, hp0, h0, -, hbeta⟩ := PMgr.new_ok (O := Bool) (A := Fin 2) (R := ℝ) 5 1 (by norm_num) (by norm_num) {} ⟨1 / 2, 1 / 10⟩ (by norm_num) (by norm_num) (1 / 2)
    (by norm_num) true
  have hb0 : p0.base = (Mgr.new [5] {} : Mgr Bool (Fin 2) ℝ).reset false := by
    unfold PMgr.new at hp0
    rw [if_pos (by norm_num)] at hp0
    cases hp0
    rfl
  have hid := ids_lt corridorCfg rfl _ s hu
  obtain ⟨p1, sep, ps, r1, rfl, r3, r4⟩ := recorded_of_record s.log hne [] .start h0 (by simpa [corridorCfg] using hid) (by rw [hb0]; exact hrec)
  rw [List.nil_append] at r1
  have hlive : ∀ i < 4, LiveIn sep i := by
    have hl := C22_len r3.inv.reach
    rw [hlen] at hl
    obtain ⟨c, rfl⟩ := List.length_eq_one_iff.mp (r4.trans (by simp))
    simp at hl
    exact fun i hi => ⟨0, c, rfl, Nat.zero_le _, by simp [startOf]; omega⟩
  -- new priorities of two transitions
  obtain ⟨x1, hx1, hs1⟩ := can_sample r3 (by omega) [0, 1] (by simp) (by simp; exact ⟨hlive 0 (by norm_num), hlive 1 (by norm_num)⟩) (fun _ => 0) (fun _ k => k)
  obtain ⟨w, hw⟩ := r3.inv.w.updateWeight_ok (kv := [(0, 2), (1, 3)]) (by simp) (by simp; exact ⟨hlive 0 (by norm_num), hlive 1 (by norm_num)⟩)
  have hup : p1.updateWeight [(0, 2), (1, 3)] = some { p1 with w := w } := by unfold PMgr.updateWeight; rw [hw]; rfl
  have r5 := r1.priorities x1 _ _ 2 [(0, 2), (1, 3)] (by omega) hx1 (by norm_num) (by simpa using hs1) hup
  have r6 := r3.updateWeight (kv := [(0, 2), (1, 3)]) (by simp; exact ⟨hlive 0 (by norm_num), hlive 1 (by norm_num)⟩) hup
  obtain ⟨x, hx, hs4⟩ := can_sample r6 (by simp only; omega) [0, 1, 2, 3] (by simp) (by
    intro i hi
    simp at hi
    exact hlive i (by omega)) (fun _ => 0) (fun _ k => k)
  obtain ⟨ws, hws⟩ : ∃ ws, PMgr.weightAt { p1 with w := w } [0, 1, 2, 3] = some ws := by
    unfold PMgr.weightAt Weights.batchWeight
    simp only [List.map_cons]
    split
    · exact ⟨_, rfl⟩
    · exact ⟨_, rfl⟩
  refine ⟨s, p0, _, x, _, ws, hs, hp0, r5, hx, hs4, hws, fun isDouble hasTarget Q => ?_⟩
  exact C286_optimal rfl hu (fun _ => ⟨rfl, rfl⟩) corridor_plays (by norm_num) (by simp [corridorCfg]) (by norm_num) hp0 r5 (by simp only; omega) x hx _ _ 4 (by norm_num)
    hs4 hws hall isDouble hasTarget (1 / 2) (by norm_num) (by norm_num) _ corridor_optimal Q

end Verif.PrioEndToEnd
