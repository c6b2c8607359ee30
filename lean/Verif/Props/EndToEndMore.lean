import Verif.Props.EndToEnd
import Verif.Props.CachedPipeline

/-!
# The same with asynchronous environments and with cached buffers (property C282)

C279 for the asynchronous collector and for `CachedReplayBuffer`.
-/

namespace Verif.EndToEnd

open Verif.Buffer Verif.Spec Verif.Returns Verif.QTarget Verif.QLearning Verif.Pipeline
open Verif.Nstep (World Table le_best best_le)

set_option linter.unusedSectionVars false

variable {σ S I H K : Type} [Fintype S] [DecidableEq S] [Inhabited S] {m : ℕ}

/-! ### Specification -/

/-- What DQN learns from the rows `indices` is about the world `w`: with one-step returns training has settled if and only if Bellman's optimality equation
of `w` holds for all pairs of observation and action in the batch; if the batch contains all pairs, then if and only if the values are the optimal ones,
and with returns of several steps the learned values are never above the optimal ones. -/
def Learns (w : World S m) (b : Mgr S (Fin (m + 1)) ℝ) (indices : List ℕ) : Prop :=
  ∀ (isDouble hasTarget : Bool) (gamma : ℝ) (Q : Table S m),
    (Settled b indices isDouble hasTarget gamma 1 Q ↔ ∀ i ∈ indices, Q (obsAt b i) (actAt b i) = w.rew (obsAt b i) (actAt b i) + gamma *
      if w.ends (obsAt b i) (actAt b i) then 0 else best Q (w.next (obsAt b i) (actAt b i))) ∧
    ∀ (O : Table S m), (∀ x a, ∃ i ∈ indices, obsAt b i = x ∧ actAt b i = a) → 0 ≤ gamma → gamma < 1 → w.Optimal gamma O →
      (Settled b indices isDouble hasTarget gamma 1 Q ↔ Q = O) ∧
      ∀ N, 0 < N → Settled b indices isDouble hasTarget gamma N Q → ∀ x a, Q x a ≤ O x a

theorem learns {w : World S m} {log : List (List (ℕ × Collector.Row S (Fin (m + 1)) ℝ I))} {num : ℕ} {b : Mgr S (Fin (m + 1)) ℝ} {indices : List ℕ}
    (hB : Batch w log num b indices) : Learns w b indices := fun isDouble hasTarget gamma Q =>
  ⟨bellman hB isDouble hasTarget gamma Q, fun O hall hg hg1 hO => ⟨optimal hB hall isDouble hasTarget gamma hg hg1 O hO Q,
    fun N hN hQ x a => several hB hall isDouble hasTarget gamma hg hg1 O hO N hN Q hQ x a⟩⟩

/-! ### Asynchronous environments -/

/-- Actions reach the environments unchanged, and the array of floats in which the asynchronous collector keeps them can hold them. -/
def APlain (c : Collector.ACfg σ (Fin (m + 1)) S ℝ I H K) : Prop := Plain c.base ∧ ∀ a, c.store a = some a

theorem ausage_steps {c : Collector.ACfg σ (Fin (m + 1)) S ℝ I H K} (hsch : Collector.Schedule c.wait) {s : Collector.ACol σ (Fin (m + 1)) S ℝ I H}
    (h : Collector.AUsage c s) (hplain : APlain c) {w : World S m} {state : σ → S} (hp : Plays c.base.env w state) {e : ℕ} (he : e < c.base.envNum) :
    (∀ row ∈ Collector.rowsOf e s.log, Step w row) ∧ ∀ (i : ℕ) (r r' : Collector.Row S (Fin (m + 1)) ℝ I), (Collector.rowsOf e s.log)[i]? = some r →
      (Collector.rowsOf e s.log)[i + 1]? = some r' → r.out.ended = false → r'.obs = r.out.obs := by
  obtain ⟨start, now, h1, h2, _⟩ := (Collector.C62_trajectories c hsch s h).1 e he
  refine ⟨fun row hrow => (trajectory_steps hp h1 h2).2 row hrow ?_, fun i r r' hr hr' hend =>
    ((Collector.trajectory_adjacent _ _ _ _ h1 h2).2.2.1 i r r' hr hr').1 hend⟩
  unfold Collector.rowsOf at hrow
  obtain ⟨p, hp1, rfl⟩ := List.mem_map.mp hrow
  rcases (Collector.C62_pairing c hsch s (Collector.ausage_reachable h) p.1 p.2 (List.mem_filter.mp hp1).1).2 with
    ⟨k, i, bt, infos, hid, a, -, -, -, hst, happ⟩ | ⟨k, -, hst⟩
  · rw [hplain.2, Option.some.injEq] at hst
    rw [happ, (hplain.1 _).1, hst]
  · rw [hplain.2, Option.some.injEq, (hplain.1 _).2] at hst
    exact hst

theorem toOption_eq_some {ε α : Type} {x : Except ε α} {a : α} : x.toOption = some a ↔ x = .ok a := by
  cases x <;> simp [Except.toOption]

/-! ### C282 -/

/-- **C282: asynchronous environments.** The collector waits for some of the environments at a time, in any order; what is learned from the vector buffer it
fills is about the environment. -/
theorem C282_async {c : Collector.ACfg σ (Fin (m + 1)) S ℝ I H K} (hsch : Collector.Schedule c.wait) {s : Collector.ACol σ (Fin (m + 1)) S ℝ I H}
    (h : Collector.AUsage c s) (hplain : APlain c) {w : World S m} {state : σ → S} (hp : Plays c.base.env w state)
    {m0 : Mgr S (Fin (m + 1)) ℝ} {sep0 : List (Buf S (Fin (m + 1)) ℝ)} (h0 : Reach m0 sep0) (hn : c.base.envNum ≤ sep0.length) (hopts : m0.opts = {})
    {b : Mgr S (Fin (m + 1)) ℝ} {stats : List (ℝ × ℕ)} (hrec : asyncRecord (m0.reset false) s.log = .ok (b, stats)) (hlen : 0 < b.len)
    (draw : ℕ → ℕ) (rng : ℕ → ℕ → ℕ) (n : ℕ) (hpos : 0 < n) {indices : List ℕ} (hi : b.sampleIndices draw rng (some n) = .ok indices) :
    Learns w b indices := by
  have key := C206_nstep c hsch s h h0 hn (by rw [hopts]; exact Or.inl rfl) hrec hlen draw rng n hpos
  rw [hopts] at key
  refine learns (log := s.log) (num := c.base.envNum) ⟨?_, fun e he => (ausage_steps hsch h hplain hp he).1,
    fun e he => (ausage_steps hsch h hplain hp he).2, fun targetQ hQ gamma N hN => ?_⟩
  · obtain ⟨indices', after, out, r1, r2, -⟩ := key (fun l => l.map fun _ => []) (by simp) 0 1 one_pos
    rw [hi, Except.ok.injEq] at r1
    subst r1
    omega
  · obtain ⟨indices', after, out, r1, r2, r3, r4, r5⟩ := key targetQ hQ gamma N hN
    rw [hi, Except.ok.injEq] at r1
    subst r1
    subst r2
    exact ⟨after, out, r3, r4, r5⟩

/-- **C282: cached buffers.** Episodes are kept in the cache of their environment and copied into the main buffer when they end; batches are drawn from both.
What is learned is about the environment, whatever the size of the main buffer and however many of its old transitions were overwritten. -/
theorem C282_cached {c : Collector.Cfg σ (Fin (m + 1)) S ℝ I H K} (hs : c.share = false) {u : Bool} {s : Collector.Col σ (Fin (m + 1)) S ℝ I H}
    (h : Collector.Usage c u s) (hplain : Plain c) {w : World S m} {state : σ → S} (hp : Plays c.env w state)
    {n0 L : ℕ} {m0 : Mgr S (Fin (m + 1)) ℝ} {past : Cached S (Fin (m + 1)) ℝ} (h0 : CHistory n0 L {} m0 past) (hn : c.envNum ≤ n0)
    {b : Mgr S (Fin (m + 1)) ℝ} {stats : List (ℝ × ℕ)} (hrec : cachedRecord (m0.reset false) s.log = .ok (b, stats)) (hlen : 0 < b.len)
    (draw : ℕ → ℕ) (rng : ℕ → ℕ → ℕ) (n : ℕ) (hpos : 0 < n) {indices : List ℕ} (hi : b.sampleIndices draw rng (some n) = .ok indices) :
    Learns w b indices := by
  have key := C207_nstep c hs u s h h0 hn (Or.inl rfl) hrec hlen draw rng n hpos
  refine learns (log := s.log) (num := c.envNum) ⟨?_, fun e he => (usage_steps hs h hplain hp he).1,
    fun e he => (usage_steps hs h hplain hp he).2, fun targetQ hQ gamma N hN => ?_⟩
  · obtain ⟨indices', after, out, r1, r2, -⟩ := key (fun l => l.map fun _ => []) (by simp) 0 1 one_pos
    rw [hi, Except.ok.injEq] at r1
    subst r1
    omega
  · obtain ⟨indices', after, out, r1, r2, r3, r4, r5⟩ := key targetQ hQ gamma N hN
    rw [hi, Except.ok.injEq] at r1
    subst r1
    subst r2
    exact ⟨after, out, r3, r4, r5⟩

/-- C282: asynchronous environments with a cached buffer. -/
theorem C282_cached_async {c : Collector.ACfg σ (Fin (m + 1)) S ℝ I H K} (hsch : Collector.Schedule c.wait)
    {s : Collector.ACol σ (Fin (m + 1)) S ℝ I H} (h : Collector.AUsage c s) (hplain : APlain c) {w : World S m} {state : σ → S}
    (hp : Plays c.base.env w state) {n0 L : ℕ} {m0 : Mgr S (Fin (m + 1)) ℝ} {past : Cached S (Fin (m + 1)) ℝ} (h0 : CHistory n0 L {} m0 past)
    (hn : c.base.envNum ≤ n0) {b : Mgr S (Fin (m + 1)) ℝ} {stats : List (ℝ × ℕ)}
    (hrec : asyncCachedRecord (m0.reset false) s.log = .ok (b, stats)) (hlen : 0 < b.len)
    (draw : ℕ → ℕ) (rng : ℕ → ℕ → ℕ) (n : ℕ) (hpos : 0 < n) {indices : List ℕ} (hi : b.sampleIndices draw rng (some n) = .ok indices) :
    Learns w b indices := by
  have key := C207_nstep_async c hsch s h h0 hn (Or.inl rfl) hrec hlen draw rng n hpos
  refine learns (log := s.log) (num := c.base.envNum) ⟨?_, fun e he => (ausage_steps hsch h hplain hp he).1,
    fun e he => (ausage_steps hsch h hplain hp he).2, fun targetQ hQ gamma N hN => ?_⟩
  · obtain ⟨indices', after, out, r1, r2, -⟩ := key (fun l => l.map fun _ => []) (by simp) 0 1 one_pos
    rw [hi, Except.ok.injEq] at r1
    subst r1
    omega
  · obtain ⟨indices', after, out, r1, r2, r3, r4, r5⟩ := key targetQ hQ gamma N hN
    rw [hi, Except.ok.injEq] at r1
    subst r1
    subst r2
    exact ⟨after, out, r3, r4, r5⟩

/-! ### Examples -/

/-- The corridor of C279, stepped by an asynchronous collector; the policy has a hidden state (C78). -/
noncomputable def corridorACfg : Collector.ACfg Bool (Fin 2) Bool ℝ Unit Unit Unit where
  base := { corridorCfg with
    isAsync := true
    policy := ⟨fun k obs _ _ => (obs.map fun _ => if k % 2 = 0 then 0 else 1, some (obs.map fun _ => ())), fun _ acts _ => acts, id, id, fun _ _ => 0⟩ }
  entry := false
  store := some
  junk := 0
  wait := Collector.oneAtATime

/-- A reset and a collection of four steps. -/
noncomputable def corridorARun : Option (Collector.ACol Bool (Fin 2) Bool ℝ Unit Unit) :=
  ((Collector.areset corridorACfg true true () (Collector.abuilt corridorACfg ⟨fun _ => false, fun _ => false⟩)).toOption).bind fun s0 =>
  Collector.aafter (Collector.acollect corridorACfg (some 4) none false false () 100 s0)

theorem corridorARun_usage {s : Collector.ACol Bool (Fin 2) Bool ℝ Unit Unit} (h : corridorARun = some s) : Collector.AUsage corridorACfg s := by
  unfold corridorARun at h
  rw [Option.bind_eq_some_iff] at h
  obtain ⟨s0, e0, h⟩ := h
  obtain ⟨t1, e1⟩ := Collector.aafter_some h
  cases hr : Collector.areset corridorACfg true true () (Collector.abuilt corridorACfg ⟨fun _ => false, fun _ => false⟩) with
  | error e => rw [hr] at e0; cases e0
  | ok s0' =>
    rw [hr] at e0
    cases e0
    exact .collect (.reset (.built _) true () hr) (some 4) none false () 100 t1 e1

/-- The hypotheses are met: four steps, all pairs, and the optimal values are learned. -/
example : ∃ s b stats, corridorARun = some s ∧ asyncRecord ((Mgr.new [5] {} : Mgr Bool (Fin 2) ℝ).reset false) s.log = .ok (b, stats) ∧
    b.sampleIndices (fun _ => 0) (fun _ k => k) (some 4) = .ok [0, 1, 2, 3] ∧
    ∀ isDouble hasTarget Q, Settled b [0, 1, 2, 3] isDouble hasTarget (1 / 2) 1 Q ↔ Q = corridorValues := by
  obtain ⟨s, hs, b, stats, hrec, hi, hlen, hall⟩ : ∃ s, corridorARun = some s ∧ ∃ b stats,
      asyncRecord ((Mgr.new [5] {} : Mgr Bool (Fin 2) ℝ).reset false) s.log = .ok (b, stats) ∧
      b.sampleIndices (fun _ => 0) (fun _ k => k) (some 4) = .ok [0, 1, 2, 3] ∧ b.len = 4 ∧
      (obsAt b 0 = false ∧ actAt b 0 = 1) ∧ (obsAt b 1 = true ∧ actAt b 1 = 0) ∧ (obsAt b 2 = true ∧ actAt b 2 = 1) ∧ obsAt b 3 = false ∧ actAt b 3 = 0 := by
    have key : (corridorARun.bind fun s => (asyncRecord ((Mgr.new [5] {} : Mgr Bool (Fin 2) ℝ).reset false) s.log).toOption.map fun p =>
        ((p.1.sampleIndices (fun _ => 0) (fun _ k => k) (some 4)).toOption, p.1.len, [0, 1, 2, 3].map fun i => (obsAt p.1 i, actAt p.1 i))) =
        some (some [0, 1, 2, 3], 4, [(false, 1), (true, 0), (true, 1), (false, 0)]) := by decide +kernel
    rw [Option.bind_eq_some_iff] at key
    obtain ⟨s, hs, key⟩ := key
    rw [Option.map_eq_some_iff] at key
    obtain ⟨⟨b, stats⟩, hrec, key⟩ := key
    rw [toOption_eq_some] at hrec
    simp only [List.map_cons, List.map_nil, Prod.mk.injEq, List.cons.injEq, and_true, toOption_eq_some] at key
    exact ⟨s, hs, b, stats, hrec, key⟩
  refine ⟨s, b, stats, hs, hrec, hi, fun isDouble hasTarget Q => ?_⟩
  refine ((C282_async Collector.oneAtATime_schedule (corridorARun_usage hs) ⟨fun _ => ⟨rfl, rfl⟩, fun _ => rfl⟩ corridor_plays (.new [5] (by simp) {})
    (by simp [corridorACfg, corridorCfg]) rfl hrec (by omega) (fun _ => 0) (fun _ k => k) 4 (by norm_num) hi isDouble hasTarget (1 / 2) Q).2
    corridorValues ?_ (by norm_num) (by norm_num) corridor_optimal).1
  obtain ⟨h0, h1, h2, h3⟩ := hall
  intro x a
  cases x <;> fin_cases a
  · exact ⟨3, by simp, h3⟩
  · exact ⟨0, by simp, h0⟩
  · exact ⟨1, by simp, h1⟩
  · exact ⟨2, by simp, h2⟩

/-- The same collector as in C279 with a cached buffer, whose main part has six slots and whose cache has four: the episode is copied into the main part when it
ends. -/
example : ∃ s b stats, corridorRun = some s ∧ Collector.Usage corridorCfg false s ∧
    cachedRecord ((Mgr.newCached 6 1 4 {} : Mgr Bool (Fin 2) ℝ).reset false) s.log = .ok (b, stats) ∧
    b.sampleIndices (fun _ => 0) (fun _ k => k) (some 4) = .ok [0, 1, 2, 3] ∧
    ∀ isDouble hasTarget Q, Settled b [0, 1, 2, 3] isDouble hasTarget (1 / 2) 1 Q ↔ Q = corridorValues := by
  obtain ⟨s, hs, b, stats, hrec, hi, hlen, hall⟩ : ∃ s, corridorRun = some s ∧ ∃ b stats,
      cachedRecord ((Mgr.newCached 6 1 4 {} : Mgr Bool (Fin 2) ℝ).reset false) s.log = .ok (b, stats) ∧
      b.sampleIndices (fun _ => 0) (fun _ k => k) (some 4) = .ok [0, 1, 2, 3] ∧ b.len = 4 ∧
      (obsAt b 0 = false ∧ actAt b 0 = 0) ∧ (obsAt b 1 = false ∧ actAt b 1 = 1) ∧ (obsAt b 2 = true ∧ actAt b 2 = 0) ∧ obsAt b 3 = true ∧ actAt b 3 = 1 := by
    have key : (corridorRun.bind fun s => (cachedRecord ((Mgr.newCached 6 1 4 {} : Mgr Bool (Fin 2) ℝ).reset false) s.log).toOption.map fun p =>
        ((p.1.sampleIndices (fun _ => 0) (fun _ k => k) (some 4)).toOption, p.1.len, [0, 1, 2, 3].map fun i => (obsAt p.1 i, actAt p.1 i))) =
        some (some [0, 1, 2, 3], 4, [(false, 0), (false, 1), (true, 0), (true, 1)]) := by decide +kernel
    rw [Option.bind_eq_some_iff] at key
    obtain ⟨s, hs, key⟩ := key
    rw [Option.map_eq_some_iff] at key
    obtain ⟨⟨b, stats⟩, hrec, key⟩ := key
    rw [toOption_eq_some] at hrec
    simp only [List.map_cons, List.map_nil, Prod.mk.injEq, List.cons.injEq, and_true, toOption_eq_some] at key
    exact ⟨s, hs, b, stats, hrec, key⟩
  have hu : Collector.Usage corridorCfg false s := by
    unfold corridorRun at hs
    obtain ⟨t, ht⟩ := Collector.after_some hs
    exact .steps (.reset (.built _) true ()) 4 false false (by simp) () 10 t ht
  refine ⟨s, b, stats, hs, hu, hrec, hi, fun isDouble hasTarget Q => ?_⟩
  refine ((C282_cached rfl hu (fun _ => ⟨rfl, rfl⟩) corridor_plays (.new 6 (by norm_num) (by norm_num : 0 < 4)) (by simp [corridorCfg]) hrec (by omega)
    (fun _ => 0) (fun _ k => k) 4 (by norm_num) hi isDouble hasTarget (1 / 2) Q).2 corridorValues ?_ (by norm_num) (by norm_num) corridor_optimal).1
  obtain ⟨h0, h1, h2, h3⟩ := hall
  intro x a
  cases x <;> fin_cases a
  · exact ⟨0, by simp, h0⟩
  · exact ⟨1, by simp, h1⟩
  · exact ⟨2, by simp, h2⟩
  · exact ⟨3, by simp, h3⟩

end Verif.EndToEnd
