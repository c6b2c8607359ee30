import Verif.Props.AsyncCollector
import Verif.Props.CollectorUnseen

/-!
# Which episodes an asynchronous collector takes (property C293)

The property C292 for `AsyncCollector` (tianshou/data/collector.py:1339-1342): all environments go on until enough episodes have ended, so episodes that end early are preferred.
-/

namespace Verif.Collector

set_option linter.unusedSectionVars false

variable {σ A O R I H K : Type}

/-- The collector with another state of the environment `e`. -/
def ACol.withEnv (s : ACol σ A O R I H) (e : Nat) (y : σ) : ACol σ A O R I H :=
  { s with world := { s.world with envs := fun i => if i = e then y else s.world.envs i } }

/-- Two environments with given lengths of episodes and a recurrent policy; all pending steps are returned at once. -/
def tapeAsync : ACfg (Nat × List Nat) Nat Nat Nat Nat Nat Unit where
  base := { tapeCfg with
    isAsync := true
    policy := { exPolicy with forward := fun _ obs _ _ => (obs, some obs) } }
  entry := false
  store := some
  junk := 77
  wait := fun _ w => w

theorem tapeAsync_schedule : Schedule tapeAsync.wait := fun _ _ hne hn => ⟨hne, hn, fun _ he => he⟩

/-- A new collector; the environments will have episodes of one step. -/
def tapeABuilt : ACol (Nat × List Nat) Nat Nat Nat Nat Nat := abuilt tapeAsync ⟨fun _ => (0, [1, 1, 1]), fun _ => 0⟩

/-- **C293 is violated.** Two collections of two episodes from the same state of an `AsyncCollector`, except for the length of the first episode of the first of two environments:
it has one step in one of them and nine in the other. Only the short one is collected; instead of the long one there is another short one of the second environment. (The
synchronous collector takes the first episode of each environment in both cases: C292.) -/
theorem C293_violated : ∃ (c : ACfg (Nat × List Nat) Nat Nat Nat Nat Nat Unit) (s s1 s2 : ACol (Nat × List Nat) Nat Nat Nat Nat Nat) (y : Nat × List Nat) (st1 st2 : Stats),
    Schedule c.wait ∧ AReachable c s ∧ s.log = [] ∧ SameFor c.base.env () 0 (s.world.envs 0) y ∧
    acollect c none (some 2) false false () 100 s = some (.ok (s1, st1)) ∧
    acollect c none (some 2) false false () 100 (s.withEnv 0 y) = some (.ok (s2, st2)) ∧
    episodesOf 0 s1.log = 1 ∧ episodesOf 1 s1.log = 1 ∧ episodesOf 0 s2.log = 0 ∧ episodesOf 1 s2.log = 2 := by
  have h : (match areset tapeAsync true true () tapeABuilt with
    | .ok s => some (s.log.length,
        (aafter (acollect tapeAsync none (some 2) false false () 100 s)).map fun s' => (episodesOf 0 s'.log, episodesOf 1 s'.log),
        (aafter (acollect tapeAsync none (some 2) false false () 100 (s.withEnv 0 (9, [])))).map fun s' => (episodesOf 0 s'.log, episodesOf 1 s'.log))
    | .error _ => none) = some (0, some (1, 1), some (0, 2)) := by decide +kernel
  cases hr : areset tapeAsync true true () tapeABuilt with
  | error e => rw [hr] at h; simp at h
  | ok s =>
    rw [hr] at h
    simp only [Option.some.injEq, Prod.mk.injEq, Option.map_eq_some_iff] at h
    obtain ⟨h0, ⟨s1, a1, b1⟩, s2, a2, b2⟩ := h
    obtain ⟨st1, c1⟩ := aafter_some a1
    obtain ⟨st2, c2⟩ := aafter_some a2
    exact ⟨tapeAsync, s, s1, s2, (9, []), st1, st2, tapeAsync_schedule, .reset (.built _) true true () hr, List.length_eq_zero_iff.1 h0,
      ⟨fun k _ _ => k = 0, fun _ _ _ h => absurd h (by omega), rfl⟩, c1, c2, b1.1, b1.2, b2.1, b2.2⟩

end Verif.Collector
