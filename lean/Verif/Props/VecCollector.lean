import Verif.Lemmas.VecCollectorObs
import Mathlib.Algebra.Order.Ring.Rat
import Mathlib.Algebra.Order.Field.Rat

/-!
# Collecting from environments with normalised observations (property C287)
-/

namespace Verif.VecCollector

open Verif.Stats
open Verif.Collector (StepOut Env Row World Policy HiddenKind Err Stats)

variable {σ A O R I H K ι F : Type}

/-! ### Specification -/

/-- `o'` is the observation `o`, normalised with the statistics of all observations that had been returned by then: those of the batch of `o`
and of all earlier batches, starting with the statistics `rms`. -/
def Normalised [Field F] [LinearOrder F] (sqrt : F → F) (rms : RMS ι F) (batches : List (List (ι → F))) (o o' : ι → F) : Prop :=
  ∃ i, ∃ batch, batches[i]? = some batch ∧ o ∈ batch ∧ o' = ((batches.take (i + 1)).foldl RMS.update rms).norm sqrt o

/-! ### Example -/

/-- Episodes of three steps; the observation is the number of the step, plus 10 for the second environment. -/
def exEnv : Env (ℕ × ℕ) ℕ (Unit → ℚ) ℕ Unit Unit where
  step s _ := ((s.1, s.2 + 1), ⟨fun _ => 10 * s.1 + (s.2 + 1), s.2, s.2 == 2, false, ()⟩)
  reset _ s := ((s.1, 0), fun _ => 10 * s.1, ())

/-- Two environments. -/
def exWorld : World (ℕ × ℕ) (Unit → ℚ) := ⟨fun e => (e, 0), fun _ _ => 0⟩

/-- The action 1 is chosen for observations above 0. -/
def exSetup : Setup ℕ (Unit → ℚ) Unit Unit where
  policy :=
    { forward := fun _ obs _ _ => (obs.map fun o => if 0 < o () then 1 else 0, none)
      noise := fun _ acts _ => acts
      mapAction := id
      mapActionInverse := id
      sample := fun _ _ => 0 }
  envNum := 2
  noise := false
  hiddenKind := .arrayOrBatch
  zeroHidden := ()
  isAsync := false

/-- Reset, then collect eight steps. -/
def exOps : List (Op Unit) := [.reset true true (), .collect (some 8) none false false () 100]

/-- No data yet. -/
def exRms : RMS Unit ℚ := .new (fun _ => 0) (fun _ => 1) (some 10) 0

/-! ### C287 -/

/-- **C287: the collector.** With a vector environment without wrappers, the collector with an arbitrary vector environment does what the collector of
C58-C64 does. -/
theorem C287_same (c : Setup A O I H) (E : Env σ A O R I K) (ops : List (Op K)) (w : World σ O) :
    (use c (ofEnv E) ops { world := w }).map (fun s => (s.log, s.collectStep, s.collectEpisode)) =
      (useCollector (c.cfg E) ops { world := w }).map (fun s => (s.log, s.collectStep, s.collectEpisode)) := by
  have h := use_same c E ops { world := w } []
  cases hu : use c (ofEnv E) ops { world := w } with
  | none =>
    rw [hu] at h
    have h' : useCollector (c.cfg E) ops { world := w } = none := h
    rw [h']
    rfl
  | some t =>
    rw [hu] at h
    obtain ⟨asked, h⟩ := h
    have h' : useCollector (c.cfg E) ops { world := w } = some (t.toCol asked) := h
    rw [h']
    rfl

section
variable [Field F] [LinearOrder F]

/-- **C287: fixed statistics.** With `VectorEnvNormObs` that does not update its statistics (as for test environments), every use of the collector stores what it stores
with environments whose observations are normalised by one fixed function; the statistics stay as they are. So everything that is known about collectors holds
for these. -/
theorem C287_frozen (sqrt : F → F) (c : Setup A (ι → F) I H) (E : Env σ A (ι → F) R I K) (rms : RMS ι F) (ops : List (Op K)) (w : World σ (ι → F))
    {s : Col (World σ (ι → F) × NormObs ι F) A (ι → F) R I H} (h : use c ((ofEnv E).observing (NormObs.observe sqrt)) ops { world := (w, ⟨false, rms⟩) } = some s) :
    s.world.2 = ⟨false, rms⟩ ∧ ∃ s', useCollector (c.cfg (mapObs (fun o => rms.norm sqrt o) E)) ops { world := ⟨w.envs, fun e => rms.norm sqrt (w.mem e)⟩ } = some s' ∧
      s'.log = s.log ∧ s'.collectStep = s.collectStep ∧ s'.collectEpisode = s.collectEpisode ∧ s'.world.envs = s.world.1.envs := by
  obtain ⟨x, ⟨h1, h2⟩, h3⟩ := (alike_frozen E (NormObs.observe sqrt) ⟨false, rms⟩ (fun o => rms.norm sqrt o) (fun _ => rfl)).use c ops _
    (w' := ⟨w.envs, fun e => rms.norm sqrt (w.mem e)⟩) ⟨rfl, rfl⟩ h
  have h4 := use_same c (mapObs (fun o => rms.norm sqrt o) E) ops { world := ⟨w.envs, fun e => rms.norm sqrt (w.mem e)⟩ } []
  have h3' : use c (ofEnv (mapObs (fun o => rms.norm sqrt o) E)) ops { world := ⟨w.envs, fun e => rms.norm sqrt (w.mem e)⟩ } = some (s.at x) := h3
  rw [h3'] at h4
  obtain ⟨asked, h4⟩ := h4
  exact ⟨h1, _, h4, rfl, rfl, rfl, h2⟩

/-- With fixed statistics (mean 5, variance 1): eight transitions; each environment ends an episode and starts anew. -/
example : ∃ s, use exSetup ((ofEnv exEnv).observing (NormObs.observe id)) exOps { world := (exWorld, ⟨false, { exRms with mean := fun _ => 5 }⟩) } = some s ∧
    (s.log.map fun r => r.map fun q => (q.1, q.2.act, q.2.obs (), q.2.out.obs ())) = [[(0, 0, -5, -4), (1, 1, 5, 6)], [(0, 0, -4, -3), (1, 1, 6, 7)], [(0, 0, -3, -2), (1, 1, 7, 8)], [(0, 0, -5, -4), (1, 1, 5, 6)]] ∧ s.world.2 = ⟨false, { exRms with mean := fun _ => 5 }⟩ := by
  have h : (use exSetup ((ofEnv exEnv).observing (NormObs.observe id)) exOps { world := (exWorld, ⟨false, { exRms with mean := fun _ => 5 }⟩) }).map
      (fun s => s.log.map fun r => r.map fun q => (q.1, q.2.act, q.2.obs (), q.2.out.obs ())) = some [[(0, 0, -5, -4), (1, 1, 5, 6)], [(0, 0, -4, -3), (1, 1, 6, 7)], [(0, 0, -3, -2), (1, 1, 7, 8)], [(0, 0, -5, -4), (1, 1, 5, 6)]] := by
    decide +kernel
  rw [Option.map_eq_some_iff] at h
  obtain ⟨s, h1, h2⟩ := h
  exact ⟨s, h1, h2, (C287_frozen id exSetup exEnv _ exOps exWorld h1).1⟩

theorem observe_length (sqrt : F → F) (w : NormObs ι F) (obs : List (ι → F)) : (NormObs.observe sqrt w obs).2.length = obs.length := by
  simp [NormObs.observe]

theorem memory_norm (sqrt : F → F) (batches : List (List (ι → F))) : ∀ rms : RMS ι F,
    memory (NormObs.observe sqrt) ⟨true, rms⟩ batches = ⟨true, batches.foldl RMS.update rms⟩ := by
  induction batches with
  | nil => intro rms; rfl
  | cons b batches ih => intro rms; exact ih (rms.update b)

theorem shown_norm (sqrt : F → F) (rms : RMS ι F) (batches : List (List (ι → F))) (o o' : ι → F) (h : Shown (NormObs.observe sqrt) ⟨true, rms⟩ batches o o') :
    Normalised sqrt rms batches o o' := by
  obtain ⟨i, batch, j, h1, h2, h3⟩ := h
  refine ⟨i, batch, h1, List.mem_of_getElem? h2, ?_⟩
  rw [memory_norm] at h3
  simp only [NormObs.observe, ↓reduceIte, List.getElem?_map, h2, Option.map_some, Option.some.injEq] at h3
  rw [List.take_add_one, h1, List.foldl_append, ← h3]
  rfl

/-- **C287: normalisation changes nothing but the observations.** With `VectorEnvNormObs` that updates its statistics, for every use of the collector there is a use of the same
collector without the wrapper (with a policy that returns the actions which the given one chose) in which the environments do the same: the same rounds with the same
environments, actions, rewards, ends of episodes and infos are stored, and each stored observation is the normalised one of what the environment had returned. `batches` are the
observations that the environments have returned, call by call, and the statistics are those of exactly these. -/
theorem C287_transparent (sqrt : F → F) (c : Setup A (ι → F) I H) (E : Env σ A (ι → F) R I K) (rms : RMS ι F) (ops : List (Op K)) (w : World σ (ι → F))
    {s : Col (World σ (ι → F) × NormObs ι F) A (ι → F) R I H} (h : use c ((ofEnv E).observing (NormObs.observe sqrt)) ops { world := (w, ⟨true, rms⟩) } = some s) :
    ∃ (policy : Policy A (ι → F) I H) (recorded : Col (World σ (ι → F) × List (List (ι → F))) A (ι → F) R I H) (raw : Collector.Col σ A (ι → F) R I H),
      policy.mapAction = c.policy.mapAction ∧ policy.mapActionInverse = c.policy.mapActionInverse ∧ policy.sample = c.policy.sample ∧
      use { c with policy := policy } (ofEnv E).recording ops { world := (w, []) } = some recorded ∧
      useCollector (({ c with policy := policy } : Setup A (ι → F) I H).cfg E) ops { world := w } = some raw ∧ recorded.log = raw.log ∧
      raw.world = s.world.1 ∧ raw.collectStep = s.collectStep ∧ raw.collectEpisode = s.collectEpisode ∧
      s.world.2 = ⟨true, recorded.world.2.foldl RMS.update rms⟩ ∧ SameLog (Normalised sqrt rms recorded.world.2) raw.log s.log := by
  obtain ⟨-, g, hg⟩ := use_link (θ0 := (⟨true, rms⟩ : NormObs ι F)) (observe_length sqrt) c (ofEnv E) ops h
  obtain ⟨t, h1, h2⟩ := hg g (fun _ _ _ => rfl) { world := (w, []) } ⟨rfl, rfl, Or.inl ⟨rfl, rfl⟩, rfl, rfl, rfl, rfl, rfl, List.Forall₂.nil⟩
  obtain ⟨x, h3, h4⟩ := (alike_recording (ofEnv E)).use (c.replay g) ops { world := (w, []) } (w' := w) rfl h1
  have h5 := use_same (c.replay g) E ops { world := w } []
  have h4' : use (c.replay g) (ofEnv E) ops { world := w } = some (t.at x) := h4
  rw [h4'] at h5
  obtain ⟨asked, h5⟩ := h5
  refine ⟨(c.replay g : Setup A (ι → F) I H).policy, t, _, rfl, rfl, rfl, h1, h5, rfl, h3.trans h2.world, h2.collectStep, h2.collectEpisode, ?_, ?_⟩
  · rw [h2.memory, memory_norm]
  · exact h2.log.mono fun o o' ho => shown_norm sqrt rms _ o o' ho

/-- With updates: the statistics are those of the twelve observations returned so far. -/
example : ∃ s, use exSetup ((ofEnv exEnv).observing (NormObs.observe id)) exOps { world := (exWorld, ⟨true, exRms⟩) } = some s ∧
    (s.log.map fun r => r.map fun q => (q.1, q.2.act, q.2.obs (), q.2.out.obs ())) = [[(0, 0, -1 / 5, -18 / 101), (1, 1, 1 / 5, 22 / 101)], [(0, 0, -18 / 101, -12 / 77), (1, 1, 22 / 101, 18 / 77)],
      [(0, 0, -12 / 77, -2 / 15), (1, 1, 18 / 77, 26 / 105)], [(0, 0, -155 / 659, -186 / 941), (1, 1, 95 / 659, 174 / 941)]] ∧ ∃ batches : List (List (Unit → ℚ)), s.world.2 = ⟨true, batches.foldl RMS.update exRms⟩ := by
  have h : (use exSetup ((ofEnv exEnv).observing (NormObs.observe id)) exOps { world := (exWorld, ⟨true, exRms⟩) }).map
      (fun s => s.log.map fun r => r.map fun q => (q.1, q.2.act, q.2.obs (), q.2.out.obs ())) = some [[(0, 0, -1 / 5, -18 / 101), (1, 1, 1 / 5, 22 / 101)], [(0, 0, -18 / 101, -12 / 77), (1, 1, 22 / 101, 18 / 77)],
      [(0, 0, -12 / 77, -2 / 15), (1, 1, 18 / 77, 26 / 105)], [(0, 0, -155 / 659, -186 / 941), (1, 1, 95 / 659, 174 / 941)]] := by
    decide +kernel
  rw [Option.map_eq_some_iff] at h
  obtain ⟨s, h1, h2⟩ := h
  exact ⟨s, h1, h2, by
    obtain ⟨_, recorded, _, _, _, _, _, _, _, _, _, _, h3, _⟩ := C287_transparent id exSetup exEnv exRms exOps exWorld h1
    exact ⟨_, h3⟩⟩

end

end Verif.VecCollector
