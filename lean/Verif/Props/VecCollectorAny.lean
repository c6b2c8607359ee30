import Verif.Lemmas.VecCollectorScript
import Verif.Lemmas.VecCollectorKeep
import Verif.Props.VecCollector
import Verif.Props.Stats
import Verif.Props.Collector
import Verif.Props.Pipeline

/-!
# Collecting from arbitrary vector environments (property C288)
-/

namespace Verif.VecCollector

open Verif.Stats
open Verif.Collector (StepOut Env Row World Policy HiddenKind Err Stats rowsOf allRows)

variable {W σ A O R I H K ι F Θ : Type}

/-! ### Vector environments with the right number of results -/

theorem ofEnv_sized (E : Env σ A O R I K) : (ofEnv E).Sized := ⟨length_stepEnvs E, length_resetEnvs E⟩

theorem observing_sized {O' : Type} {V : VecEnv W A O R I K} (hV : V.Sized) (observe : Θ → List O → Θ × List O') (h : ∀ θ obs, (observe θ obs).2.length = obs.length) :
    (V.observing observe).Sized :=
  ⟨fun acts w => by simp [VecEnv.observing, h, hV.1], fun kw ids w => by simp [VecEnv.observing, h, hV.2]⟩

/-- C288: `VectorEnvNormObs` around environments returns one result per environment. -/
theorem C288_normalised [Field F] [LinearOrder F] (sqrt : F → F) (E : Env σ A (ι → F) R I K) : ((ofEnv E).observing (NormObs.observe sqrt)).Sized :=
  observing_sized (ofEnv_sized E) _ (observe_length sqrt)

/-! ### C288 -/

/-- **C288: independent environments.** Every use of a collector with any vector environment is, up to the states of the environments, a use of a collector with
independent environments: the same transitions are stored and the same numbers counted. -/
theorem C288_independent [Nonempty O] [Nonempty R] [Nonempty I] {V : VecEnv W A O R I K} (hV : V.Sized) (c : Setup A O I H) (ops : List (Op K)) (v : W) {s : Col W A O R I H}
    (h : use c V ops { world := v } = some s) :
    ∃ (σ : Type) (E : Env σ A O R I K) (w : World σ O) (s' : Collector.Col σ A O R I H), useCollector (c.cfg E) ops { world := w } = some s' ∧ s'.log = s.log ∧
      s'.collectStep = s.collectStep ∧ s'.collectEpisode = s.collectEpisode := by
  obtain ⟨o⟩ := ‹Nonempty O›
  obtain ⟨r⟩ := ‹Nonempty R›
  obtain ⟨i⟩ := ‹Nonempty I›
  obtain ⟨piece, hp⟩ := script_use hV ⟨o, r, false, false, i⟩ (o, i) c ops _ h
  obtain ⟨w', -, h1⟩ := hp (fun _ => []) ⟨piece, fun _ => o⟩ (fun e => by simp)
  have h2 := use_same c (scripted ⟨o, r, false, false, i⟩ (o, i) : Env _ A O R I K) ops (({ world := v } : Col W A O R I H).at ⟨piece, fun _ => o⟩) []
  rw [h1] at h2
  obtain ⟨asked, h2⟩ := h2
  exact ⟨_, _, _, _, h2, rfl, rfl, rfl⟩

theorem usage_reachable {c : Collector.Cfg σ A O R I H K} {b : Bool} {s : Collector.Col σ A O R I H} (h : Collector.Usage c b s) : Collector.Reachable c s := by
  induction h with
  | reset h stats kw => exact .reset h true stats kw
  | resetKept _ stats kw ih => exact .reset ih false stats kw
  | steps _ n random before _ kw fuel st hc ih => exact .steps ih n random before kw fuel st hc
  | episodes _ n _ random before _ kw fuel st hc ih => exact .episodes ih n random before kw fuel st hc

theorem usage_of_proper {c : Setup A O I H} {E : Env σ A O R I K} (ops : List (Op K)) : ∀ (b : Bool) (s : Collector.Col σ A O R I H), Collector.Usage (c.cfg E) b s →
    Proper c.envNum b ops → ∀ t, useCollector (c.cfg E) ops s = some t → ∃ b', Collector.Usage (c.cfg E) b' t := by
  induction ops with
  | nil => intro b s hs _ t ht; cases ht; exact ⟨b, hs⟩
  | cons op ops ih =>
    intro b s hs hp t ht
    cases op with
    | reset buffer stats kw =>
      cases buffer with
      | true => exact ih true _ (.reset (usage_reachable hs) stats kw) hp t ht
      | false =>
        obtain ⟨hb, hp⟩ := hp
        subst hb
        exact ih true _ (.resetKept hs stats kw) hp t ht
    | collect nStep nEpisode random before kw fuel =>
      unfold useCollector at ht
      split at ht
      · rename_i s1 st hc
        cases nStep with
        | some n =>
          cases nEpisode with
          | some m => exact absurd hp (by simp [Proper])
          | none => exact ih false _ (.steps hs n random before hp.1 kw fuel st hc) hp.2 t ht
        | none =>
          cases nEpisode with
          | none => exact absurd hp (by simp [Proper])
          | some n => exact ih true _ (.episodes hs n hp.1 random before hp.2.1 kw fuel st hc) hp.2.2 t ht
      · cases ht

theorem usage_of_use [Nonempty O] [Nonempty R] [Nonempty I] {V : VecEnv W A O R I K} (hV : V.Sized) (c : Setup A O I H) (stats : Bool) (kw : K) (ops : List (Op K))
    (hops : Proper c.envNum true ops) (v : W) {s : Col W A O R I H} (h : use c V (.reset true stats kw :: ops) { world := v } = some s) :
    ∃ (σ : Type) (E : Env σ A O R I K) (b : Bool) (s' : Collector.Col σ A O R I H), Collector.Usage (c.cfg E) b s' ∧ s'.log = s.log := by
  obtain ⟨σ, E, w, s', h1, h2, -, -⟩ := C288_independent hV c _ v h
  obtain ⟨b, h3⟩ := usage_of_proper ops true _ (.reset (.built w) stats kw) hops s' h1
  exact ⟨σ, E, b, s', h3, h2⟩

/-- **C288: neighbouring transitions.** With any vector environment, in each environment's stream the observation of a transition is the stored next observation of the preceding
one if that did not end an episode. So the policy and the critic see the same observation, in particular the same normalised one, as the state after one transition and
before the next. Only the transitions of the environments `0, …, envNum - 1` are stored. -/
theorem C288_adjacent [Nonempty O] [Nonempty R] [Nonempty I] {V : VecEnv W A O R I K} (hV : V.Sized) (c : Setup A O I H) (stats : Bool) (kw : K) (ops : List (Op K))
    (hops : Proper c.envNum true ops) (v : W) {s : Col W A O R I H} (h : use c V (.reset true stats kw :: ops) { world := v } = some s) :
    (∀ e < c.envNum, ∀ (i : Nat) (r r' : Row O A R I), (rowsOf e s.log)[i]? = some r → (rowsOf e s.log)[i + 1]? = some r' → r.out.ended = false → r'.obs = r.out.obs) ∧
      ∀ p ∈ s.log.flatten, p.1 < c.envNum := by
  obtain ⟨σ, E, b, s', h1, h2⟩ := usage_of_use hV c stats kw ops hops v h
  rw [← h2]
  refine ⟨fun e he i r r' hr hr' => ((Collector.C61_adjacent_partial _ rfl b s' h1 e he).2.2 i r r' hr hr').1, ?_⟩
  intro p hp
  by_contra hc
  have := (Collector.C61_trajectories_partial _ rfl b s' h1).2 p.1 (Nat.le_of_not_lt hc)
  unfold rowsOf at this
  rw [List.map_eq_nil_iff, List.filter_eq_nil_iff] at this
  exact this p hp (by simp)

theorem reachable_of_use {c : Setup A O I H} {E : Env σ A O R I K} (ops : List (Op K)) : (∀ op ∈ ops, op.Single) → ∀ s : Collector.Col σ A O R I H, Collector.Reachable (c.cfg E) s →
    ∀ t, useCollector (c.cfg E) ops s = some t → Collector.Reachable (c.cfg E) t := by
  induction ops with
  | nil => intro _ s hs t ht; cases ht; exact hs
  | cons op ops ih =>
    intro h1 s hs t ht
    have h2 : ∀ op ∈ ops, op.Single := fun op h => h1 op (List.mem_cons_of_mem _ h)
    have h1 := h1 _ List.mem_cons_self
    cases op with
    | reset buffer stats kw => exact ih h2 _ (.reset hs buffer stats kw) t ht
    | collect nStep nEpisode random before kw fuel =>
      unfold useCollector at ht
      split at ht
      · rename_i s1 st hc
        cases nStep with
        | some n =>
          cases nEpisode with
          | some m => exact absurd rfl h1
          | none => exact ih h2 _ (.steps hs n random before kw fuel st hc) t ht
        | none =>
          cases nEpisode with
          | none => exact absurd rfl h1
          | some n => exact ih h2 _ (.episodes hs n random before kw fuel st hc) t ht
      · cases ht

theorem collect_of_use [Nonempty O] [Nonempty R] [Nonempty I] {V : VecEnv W A O R I K} (hV : V.Sized) (c : Setup A O I H) (ops : List (Op K)) (hops : ∀ op ∈ ops, op.Single) (v : W) {s s' : Col W A O R I H}
    {st : Stats} (h : use c V ops { world := v } = some s) (nStep nEpisode : Option Int) (random before : Bool) (kw : K) (fuel : Nat)
    (hc : collect c V nStep nEpisode random before kw fuel s = some (.ok (s', st))) :
    ∃ (σ : Type) (E : Env σ A O R I K) (t t' : Collector.Col σ A O R I H), Collector.Reachable (c.cfg E) t ∧
      Collector.collect (c.cfg E) nStep nEpisode random before kw fuel t = some (.ok (t', st)) ∧ t.log = s.log ∧ t'.log = s'.log ∧
      t.collectStep = s.collectStep ∧ t'.collectStep = s'.collectStep ∧ t.collectEpisode = s.collectEpisode ∧ t'.collectEpisode = s'.collectEpisode := by
  obtain ⟨o⟩ := ‹Nonempty O›
  obtain ⟨r⟩ := ‹Nonempty R›
  obtain ⟨i⟩ := ‹Nonempty I›
  obtain ⟨p1, hp1⟩ := script_use hV ⟨o, r, false, false, i⟩ (o, i) c ops _ h
  obtain ⟨p2, hp2⟩ := script_collect hV ⟨o, r, false, false, i⟩ (o, i) c nStep nEpisode random before kw fuel s hc
  obtain ⟨w1, h1, h2⟩ := hp1 p2 ⟨fun e => p1 e ++ p2 e, fun _ => o⟩ (fun e => rfl)
  obtain ⟨w2, -, h3⟩ := hp2 (fun _ => []) w1 (fun e => by rw [h1 e, List.append_nil])
  have h4 := use_same c (scripted ⟨o, r, false, false, i⟩ (o, i) : Env _ A O R I K) ops (({ world := v } : Col W A O R I H).at ⟨fun e => p1 e ++ p2 e, fun _ => o⟩) []
  rw [h2] at h4
  obtain ⟨asked, h4⟩ := h4
  have h5 := collect_same c (scripted ⟨o, r, false, false, i⟩ (o, i) : Env _ A O R I K) nStep nEpisode random before kw fuel (s.at w1) asked
  rw [h3] at h5
  obtain ⟨asked', h5⟩ := h5
  exact ⟨_, _, _, _, reachable_of_use ops hops _ (.built _) _ h4, h5, rfl, rfl, rfl, rfl, rfl, rfl⟩

/-- **C288: collecting steps.** With any vector environment, after any calls, `collect(n_step=n)` stores the least multiple of the number of environments that is at least `n`,
the same number for each environment, and returns and adds these counts. -/
theorem C288_steps [Nonempty O] [Nonempty R] [Nonempty I] {V : VecEnv W A O R I K} (hV : V.Sized) (c : Setup A O I H) (ops : List (Op K)) (hops : ∀ op ∈ ops, op.Single) (v : W) {s s' : Col W A O R I H}
    {st : Stats} (h : use c V ops { world := v } = some s) (n : Int) (hn : 0 < n) (random : Bool) (kw : K) (fuel : Nat)
    (hc : collect c V (some n) none random false kw fuel s = some (.ok (s', st))) :
    ∃ (k : Nat) (new : List (List (Nat × Row O A R I))), s'.log = s.log ++ new ∧ n ≤ ((k * c.envNum : Nat) : Int) ∧
      (∀ k' : Nat, n ≤ ((k' * c.envNum : Nat) : Int) → k ≤ k') ∧ st.steps = k * c.envNum ∧ (∀ e < c.envNum, (rowsOf e new).length = k) ∧
      (∀ e ≥ c.envNum, rowsOf e new = []) ∧ st.episodes = ((allRows new).filter fun r => r.out.ended).length ∧
      s'.collectStep = s.collectStep + st.steps ∧ s'.collectEpisode = s.collectEpisode + st.episodes := by
  obtain ⟨σ, E, t, t', h1, h2, e1, e2, e3, e4, e5, e6⟩ := collect_of_use hV c ops hops v h _ _ random false kw fuel hc
  obtain ⟨k, new, a1, a2, a3, a4, -, a6, a7, a8, a9, -⟩ := Collector.C59_exact _ t t' h1 n hn random false kw fuel st h2
  rw [e1, e2] at a1
  rw [e3, e4, e5, e6] at a9
  exact ⟨k, new, a1, a2, a3, a4, a7, a8, a6, (a9 rfl).1, (a9 rfl).2⟩

/-- **C288: collecting episodes.** With any vector environment, after any calls, `collect(n_episode=n)` stores exactly `n` ends of episodes, at least one of each of the
environments `0, …, n - 1`, and nothing of the others. -/
theorem C288_episodes [Nonempty O] [Nonempty R] [Nonempty I] {V : VecEnv W A O R I K} (hV : V.Sized) (c : Setup A O I H) (ops : List (Op K)) (hops : ∀ op ∈ ops, op.Single) (v : W) {s s' : Col W A O R I H}
    {st : Stats} (h : use c V ops { world := v } = some s) (n : Int) (hn : 0 < n) (random : Bool) (kw : K) (fuel : Nat)
    (hc : collect c V none (some n) random false kw fuel s = some (.ok (s', st))) :
    ∃ new, s'.log = s.log ++ new ∧ (((allRows new).filter fun r => r.out.ended).length : Int) = n ∧ (st.episodes : Int) = n ∧ st.steps = (allRows new).length ∧
      (∀ e : Nat, e < c.envNum → (e : Int) < n → ∃ rows row, rowsOf e new = rows ++ [row] ∧ row.out.ended = true) ∧
      (∀ e : Nat, c.envNum ≤ e ∨ n ≤ (e : Int) → rowsOf e new = []) ∧
      s'.collectStep = s.collectStep + st.steps ∧ (s'.collectEpisode : Int) = s.collectEpisode + n := by
  obtain ⟨σ, E, t, t', h1, h2, e1, e2, e3, e4, e5, e6⟩ := collect_of_use hV c ops hops v h _ _ random false kw fuel hc
  obtain ⟨new, a1, a2, a3, a4, a5, -⟩ := Collector.C58_exact _ t t' h1 n hn random false kw fuel st h2
  obtain ⟨new', b1, b2, b3⟩ := Collector.C60_whole_episodes _ t t' h1 n hn random false kw fuel st h2
  have : new' = new := List.append_cancel_left (b1.symm.trans a1)
  subst this
  rw [e1, e2] at a1
  rw [e3, e4, e5, e6] at a5
  exact ⟨_, a1, a2, a3, a4, b2, b3, (a5 rfl).2, (a5 rfl).1⟩

open Verif.Buffer Verif.Spec Verif.Returns Verif.Pipeline in
/-- **C288: targets.** With any vector environment, the `N`-step targets of a sampled batch are those of the streams of the environments, as in C193: the discounted sum of the
rewards which this environment gave, and the value of the state after the last of these steps, as it has been stored. -/
theorem C288_nstep [CommRing R] [Nonempty O] [Nonempty I] {V : VecEnv W A O R I K} (hV : V.Sized) (c : Setup A O I H) (stats : Bool) (kw : K) (ops : List (Op K))
    (hops : Proper c.envNum true ops) (v : W) {s : Col W A O R I H} (h : use c V (.reset true stats kw :: ops) { world := v } = some s)
    {m0 : Mgr O A R} {sep0 : List (Buf O A R)} (h0 : Reach m0 sep0) (hn : c.envNum ≤ sep0.length) (hm : m0.opts.stackNum = 1 ∨ m0.opts.sampleAvail = false)
    {m : Mgr O A R} {ends : List (R × Nat)} (hrec : record (m0.reset false) s.log = .ok (m, ends)) (hlen : 0 < m.len)
    (draw : Nat → Nat) (rng : Nat → Nat → Nat) (n : Nat) (hpos : 0 < n) (targetQ : List Nat → List (List R))
    (hQ : ∀ l, (targetQ l).length = l.length) (gamma : R) (N : Nat) (hN : 0 < N) :
    ∃ (indices after : List Nat) (out : List (List R)), m.sampleIndices draw rng (some n) = .ok indices ∧ indices.length = n ∧
      computeNstepReturn (ofMgr m) n indices targetQ gamma N = some out ∧ out.length = n ∧
      ∀ (p i : Nat), indices[p]? = some i → ∃ (e k i' : Nat) (rk rl : Row O A R I) (q : List R), e < c.envNum ∧
        (let stream := (rowsOf e s.log).map experience
         (rowsOf e s.log)[k]? = some rk ∧ m.data i = some (expectedRow m0.opts (experience rk)) ∧
         (rowsOf e s.log)[k + (nstepLen stream N k - 1)]? = some rl ∧
         after[p]? = some i' ∧ m.data i' = some (expectedRow m0.opts (experience rl)) ∧
         (targetQ after)[p]? = some q ∧ out[p]? = some (q.map (nstepValue stream gamma N k))) := by
  have : Nonempty R := ⟨0⟩
  obtain ⟨σ, E, b, s', h1, h2⟩ := usage_of_use hV c stats kw ops hops v h
  rw [← h2] at hrec ⊢
  exact C193_nstep _ rfl b s' h1 h0 hn hm hrec hlen draw rng n hpos targetQ hQ gamma N hN

/-! ### The statistics of C287 -/

theorem keeps_recording {V : VecEnv W A O R I K} (hV : V.Sized) : Keeps V.recording (fun w : W × List (List O) => ∀ b ∈ w.2, b ≠ []) where
  step acts w h hw := by
    intro b hb
    rcases List.mem_append.mp (show b ∈ w.2 ++ [(V.step acts w.1).2.map StepOut.obs] from hb) with hb | hb
    · exact hw b hb
    · rw [List.mem_singleton] at hb
      subst hb
      intro hn
      have := hV.1 acts w.1
      rw [List.map_eq_nil_iff.mp hn, List.length_nil] at this
      exact h (List.length_eq_zero_iff.mp this.symm)
  reset kw ids w h hw := by
    intro b hb
    rcases List.mem_append.mp (show b ∈ w.2 ++ [(V.reset kw ids w.1).2.map Prod.fst] from hb) with hb | hb
    · exact hw b hb
    · rw [List.mem_singleton] at hb
      subst hb
      intro hn
      have := hV.2 kw ids w.1
      rw [List.map_eq_nil_iff.mp hn, List.length_nil] at this
      exact h (List.length_eq_zero_iff.mp this.symm)

/-- **C287: statistics.** A wrapper that starts without data holds, after any use of the collector, the mean and the variance of all observations that the environments have returned,
each counted once: those of steps and those of resets (`recorded`: the use without the wrapper, in which the batches of observations are kept). -/
theorem C287_statistics [Field F] [LinearOrder F] [IsStrictOrderedRing F] (sqrt : F → F) (c : Setup A (ι → F) I H) (hc : 0 < c.envNum) (E : Env σ A (ι → F) R I K) (rms : RMS ι F)
    (h0 : rms.count = 0) (ops : List (Op K)) (w : World σ (ι → F)) {s : Col (World σ (ι → F) × NormObs ι F) A (ι → F) R I H}
    (h : use c ((ofEnv E).observing (NormObs.observe sqrt)) ops { world := (w, ⟨true, rms⟩) } = some s) :
    ∃ (policy : Policy A (ι → F) I H) (recorded : Col (World σ (ι → F) × List (List (ι → F))) A (ι → F) R I H),
      policy.mapAction = c.policy.mapAction ∧ policy.mapActionInverse = c.policy.mapActionInverse ∧ policy.sample = c.policy.sample ∧
      use { c with policy := policy } (ofEnv E).recording ops { world := (w, []) } = some recorded ∧ recorded.world.1 = s.world.1 ∧
      SameLog (Normalised sqrt rms recorded.world.2) recorded.log s.log ∧ s.world.2.rms.count = recorded.world.2.flatten.length ∧
      (recorded.world.2 ≠ [] → ∀ i, s.world.2.rms.mean i = meanOf (recorded.world.2.flatten.map fun x => x i) ∧
        s.world.2.rms.var i = varOf (recorded.world.2.flatten.map fun x => x i)) := by
  obtain ⟨policy, recorded, raw, a1, a2, a3, a4, a5, a6, a7, -, -, a10, a11⟩ := C287_transparent sqrt c E rms ops w h
  have hsized : (ofEnv E).recording.Sized := observing_sized (ofEnv_sized E) _ (fun _ _ => rfl)
  have hne := keep_use (c := { c with policy := policy }) hsized (keeps_recording (ofEnv_sized E)) hc ops _ _ (by simp) a4
  obtain ⟨x, hx, hx'⟩ := (alike_recording (ofEnv E)).use { c with policy := policy } ops { world := (w, []) } (w' := w) rfl a4
  have b1 := use_same { c with policy := policy } E ops { world := w } []
  have hx'' : use { c with policy := policy } (ofEnv E) ops { world := w } = some (recorded.at x) := hx'
  rw [hx''] at b1
  obtain ⟨asked, b1⟩ := b1
  have b2 : useCollector (({ c with policy := policy } : Setup A (ι → F) I H).cfg E) ops { world := w } = some ((recorded.at x).toCol asked) := b1
  rw [a5, Option.some.injEq] at b2
  have b3 : raw.world = x := by rw [b2]; rfl
  refine ⟨policy, recorded, a1, a2, a3, a4, by rw [← a7, b3, hx], by rw [a6]; exact a11, ?_, ?_⟩
  · rw [a10]
    by_cases he : recorded.world.2 = []
    · rw [he]; simpa using h0
    · exact (C56_pooled rms h0 _ hne he).1
  · intro he
    rw [a10]
    exact (C56_pooled rms h0 _ hne he).2

/-! ### Example -/

/-- The environments of the example of C287 with integer rewards 1, 2, 3 in each episode. -/
def exEnvInt : Env (ℕ × ℕ) ℕ (Unit → ℚ) ℤ Unit Unit where
  step s _ := ((s.1, s.2 + 1), ⟨fun _ => 10 * s.1 + (s.2 + 1), s.2 + 1, s.2 == 2, false, ()⟩)
  reset _ s := ((s.1, 0), fun _ => 10 * s.1, ())

/-- They are behind a wrapper that normalises with growing statistics. -/
def exNorm : VecEnv (World (ℕ × ℕ) (Unit → ℚ) × NormObs Unit ℚ) ℕ (Unit → ℚ) ℤ Unit Unit := (ofEnv exEnvInt).observing (NormObs.observe id)

/-- The collector after a reset and eight steps. -/
def exUse : Option (Col (World (ℕ × ℕ) (Unit → ℚ) × NormObs Unit ℚ) ℕ (Unit → ℚ) ℤ Unit Unit) :=
  use exSetup exNorm exOps { world := (exWorld, ⟨true, exRms⟩) }

/-- The stream of the second environment: each observation is the next observation of the transition before, until the end of the episode. -/
example : ∃ s, exUse = some s ∧ ((rowsOf 1 s.log).map fun r => (r.obs (), r.out.obs (), r.out.ended)) =
      [(1 / 5, 22 / 101, false), (22 / 101, 18 / 77, false), (18 / 77, 26 / 105, true), (95 / 659, 174 / 941, false)] ∧
    ∀ e < 2, ∀ (i : ℕ) (r r' : Row (Unit → ℚ) ℕ ℤ Unit), (rowsOf e s.log)[i]? = some r → (rowsOf e s.log)[i + 1]? = some r' → r.out.ended = false → r'.obs = r.out.obs := by
  have h : exUse.map (fun s => (rowsOf 1 s.log).map fun r => (r.obs (), r.out.obs (), r.out.ended)) =
      some [(1 / 5, 22 / 101, false), (22 / 101, 18 / 77, false), (18 / 77, 26 / 105, true), (95 / 659, 174 / 941, false)] := by decide +kernel
  rw [Option.map_eq_some_iff] at h
  obtain ⟨s, h1, h2⟩ := h
  exact ⟨s, h1, h2, (C288_adjacent (C288_normalised id exEnvInt) exSetup true () [.collect (some 8) none false false () 100] ⟨by simp, trivial⟩ _ h1).1⟩

/-- The twelve observations of both environments: 0, 1, 2, 3, 0, 1 and 10, 11, 12, 13, 10, 11. Their mean and variance. -/
example : exUse.map (fun s => (s.world.2.rms.count, s.world.2.rms.mean (), s.world.2.rms.var ())) =
    some (12, meanOf [0, 10, 1, 11, 2, 12, 3, 13, 0, 10, 1, 11], varOf [0, 10, 1, 11, 2, 12, 3, 13, 0, 10, 1, 11]) ∧ 0 < exSetup.envNum ∧ exRms.count = 0 := by decide +kernel

open Verif.Buffer Verif.Spec Verif.Returns Verif.Pipeline in
/-- The hypotheses of the theorem about targets are met with a buffer for eight transitions, and the two-step targets with discount 10 and the stored normalised next observations,
times 1000 and rounded down, as values: steps 1 and 3 of the episode of the first environment and step 1 of the second. -/
example : ∃ s m ends, exUse = some s ∧ Proper 2 true [Op.collect (some 8) none false false () 100] ∧
    Reach (Mgr.new [4, 4] {} : Mgr (Unit → ℚ) ℕ ℤ) ([4, 4].map fun s => Buf.new s {}) ∧
    record ((Mgr.new [4, 4] {} : Mgr (Unit → ℚ) ℕ ℤ).reset false) s.log = .ok (m, ends) ∧ 0 < m.len ∧
    computeNstepReturn (ofMgr m) 3 [0, 2, 4] (fun l => l.map fun i => [((m.data i).elim 0 fun r => (1000 * (r.obsNext.elim 0 fun o => o ())).floor)]) 10 2 =
      some [[1 + 10 * 2 + 100 * (-156)], [3], [1 + 10 * 2 + 100 * 233]] := by
  have h : exUse.bind (fun s => (record ((Mgr.new [4, 4] {} : Mgr (Unit → ℚ) ℕ ℤ).reset false) s.log).toOption.map fun p => (Nat.blt 0 p.1.len,
      computeNstepReturn (ofMgr p.1) 3 [0, 2, 4] (fun l => l.map fun i => [((p.1.data i).elim 0 fun r => (1000 * (r.obsNext.elim 0 fun o => o ())).floor)]) 10 2)) =
      some (true, some [[1 + 10 * 2 + 100 * (-156)], [3], [1 + 10 * 2 + 100 * 233]]) := by decide +kernel
  rw [Option.bind_eq_some_iff] at h
  obtain ⟨s, h1, h2⟩ := h
  rw [Option.map_eq_some_iff] at h2
  obtain ⟨⟨m, ends⟩, h3, h4⟩ := h2
  rw [Prod.mk.injEq] at h4
  refine ⟨s, m, ends, h1, ⟨by simp, trivial⟩, .new [4, 4] (by simp) {}, ?_, by simpa using h4.1, h4.2⟩
  cases hr : record ((Mgr.new [4, 4] {} : Mgr (Unit → ℚ) ℕ ℤ).reset false) s.log with
  | error e => rw [hr] at h3; cases h3
  | ok q => rw [hr] at h3; cases h3; rfl

end Verif.VecCollector
