import Verif.Props.AsyncUnseen
import Verif.Props.CollectorUnbiased

/-!
# The mean return of an asynchronous collection is biased (property C295)

The property C294 for `AsyncCollector` (tianshou/data/collector.py:1339-1357).
-/

namespace Verif.Collector

set_option linter.unusedSectionVars false

/-- An episode has one step and the return 0, or (`true`) two steps and the return 1, given with the last step. The state holds the steps left and whether there is a reward. -/
def lateInit (v : Bool) : (Nat × Bool) × Nat × Unit := if v then ((2, true), 0, ()) else ((1, false), 0, ())

def lateStep (x : Nat × Bool) (_ : Nat) : (Nat × Bool) × StepOut Nat Rat Unit :=
  ((x.1 - 1, x.2), ⟨0, if Nat.ble x.1 1 && x.2 then 1 else 0, Nat.ble x.1 1, false, ()⟩)

def lateReturn (v : Bool) : Rat := if v then 1 else 0

/-- Two environments and a recurrent policy; all pending steps are returned at once. -/
def lateAsync : ACfg ((Nat × Bool) × List Bool) Nat Nat Rat Unit Nat Unit where
  base :=
    { env := taped lateInit lateStep false
      policy := ⟨fun _ obs _ _ => (obs, some obs), fun _ acts _ => acts, id, id, fun _ _ => 0⟩
      envNum := 2
      noise := false
      share := false
      hiddenKind := .arrayOrBatch
      zeroHidden := 0
      isAsync := true }
  entry := false
  store := some
  junk := 77
  wait := fun _ w => w

/-- A new collector, if the environments have these seeds. -/
def lateBuilt (w : Fin 2 × Fin 2 → Bool) : ACol ((Nat × Bool) × List Bool) Nat Nat Rat Unit Nat :=
  abuilt lateAsync ⟨fun e => ((0, false), tape w e), fun _ => 0⟩

theorem late_rolls (v : Bool) : Rolls lateStep StepOut.rew id (lateInit v).1 (lateInit v).2.1 (lateReturn v) := by
  cases v with
  | false => exact .last (act := id) (1, false) 0 rfl
  | true =>
    have h1 : Rolls lateStep StepOut.rew id (1, true) 0 1 := .last (act := id) (1, true) 0 rfl
    have h2 := Rolls.more (act := id) (2, true) 0 1 rfl h1
    have h3 : (lateStep (2, true) (id 0)).2.rew + 1 = lateReturn true := by decide +kernel
    rw [h3] at h2
    exact h2

/-- **C295 is violated.** Episodes have the return 0 or 1 with equal chances, so the mean return is 1/2; those with the return 1 have two steps, the others one. Over all ways to give
seeds to two environments, the mean return reported by `AsyncCollector.collect(n_episode=1)` is 1/4 on average. (In these collections the return of an episode is the
reward of its last step, so the mean of the returns is the sum over the rows that end an episode, divided by their number.) -/
theorem C295_violated : ∃ (s' : (Fin 2 × Fin 2 → Bool) → ACol ((Nat × Bool) × List Bool) Nat Nat Rat Unit Nat) (st : (Fin 2 × Fin 2 → Bool) → Stats),
    Schedule lateAsync.wait ∧ (∀ v, Rolls lateStep StepOut.rew id (lateInit v).1 (lateInit v).2.1 (lateReturn v)) ∧
    (∀ w, acollect lateAsync none (some 1) false true () 100 (lateBuilt w) = some (.ok (s' w, st w))) ∧
    (∑ v, lateReturn v) / Fintype.card Bool = 1 / 2 ∧
    (∑ w, total StepOut.rew ((allRows (s' w).log).filter fun r => r.out.ended) / (st w).episodes) / Fintype.card (Fin 2 × Fin 2 → Bool) = 1 / 4 := by
  let f : Option (Except Err (ACol ((Nat × Bool) × List Bool) Nat Nat Rat Unit Nat × Stats)) → Rat := fun x =>
    match x with
    | some (.ok (s, st)) => total StepOut.rew ((allRows s.log).filter fun r => r.out.ended) / st.episodes
    | _ => 0
  have hall : ∀ w : Fin 2 × Fin 2 → Bool, (aafter (acollect lateAsync none (some 1) false true () 100 (lateBuilt w))).isSome = true := by
    decide +kernel
  have hsum : (∑ w : Fin 2 × Fin 2 → Bool, f (acollect lateAsync none (some 1) false true () 100 (lateBuilt w))) = 4 := by
    decide +kernel
  have hex : ∀ w : Fin 2 × Fin 2 → Bool, ∃ s st, acollect lateAsync none (some 1) false true () 100 (lateBuilt w) = some (.ok (s, st)) := by
    intro w
    obtain ⟨s, hs⟩ := Option.isSome_iff_exists.1 (hall w)
    exact ⟨s, aafter_some hs⟩
  choose s' st hc using hex
  refine ⟨s', st, fun _ _ hne hn => ⟨hne, hn, fun _ he => he⟩, late_rolls, hc, by simp [lateReturn], ?_⟩
  have hsame : (∑ w, total StepOut.rew ((allRows (s' w).log).filter fun r => r.out.ended) / (st w).episodes) = 4 := by
    rw [← hsum]
    refine Finset.sum_congr rfl fun w _ => ?_
    rw [hc w]
  rw [hsame]
  simp
  norm_num

end Verif.Collector
