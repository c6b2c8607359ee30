import Verif.Model.EnvWrappers
import Verif.Spec.Collector

/-! Property C86: `TruncatedAsTerminated`. -/

namespace Verif.Wrappers

open Verif.Collector

variable {σ A O R I K : Type}

/-- A transition with the terminated flag set if it was truncated. -/
def marked (row : Row O A R I) : Row O A R I :=
  { row with out := { row.out with terminated := row.out.terminated || row.out.truncated } }

theorem marked_ended (row : Row O A R I) : (marked row).out.ended = row.out.ended := by
  simp only [marked, StepOut.ended]
  cases row.out.terminated <;> cases row.out.truncated <;> rfl

theorem asTerminated_step (E : Env σ A O R I K) (s x : σ) (row : Row O A R I) (h : E.step s row.applied = (x, row.out)) :
    (asTerminated E).step s (marked row).applied = (x, (marked row).out) := by
  simp [asTerminated, truncatedAsTerminated, marked, h]

/-- C86. What can be recorded from a wrapped environment is what can be recorded from the environment, with `terminated` replaced by
`terminated or truncated`: observations, rewards, infos, the truncated flag, the actions and the points at which episodes end are the same. -/
theorem C86_trajectories (E : Env σ A O R I K) (start now : Situation σ O I) (rows : List (Row O A R I)) :
    Trajectory (asTerminated E) start rows now ↔ ∃ rows0, Trajectory E start rows0 now ∧ rows = rows0.map marked := by
  constructor
  · intro h
    induction h with
    | nil => exact ⟨[], .nil, rfl⟩
    | @step rows s row x h hobs hinfo hstep hdone ih =>
      obtain ⟨rows0, h1, h2⟩ := ih
      obtain ⟨obs, given, act, applied, out⟩ := row
      simp only [asTerminated, truncatedAsTerminated, Prod.mk.injEq] at hstep
      obtain ⟨out0, h0⟩ : ∃ o, o = (E.step s.state applied).2 := ⟨_, rfl⟩
      rw [← h0] at hstep
      obtain ⟨e1, e2⟩ := hstep
      have hm : (⟨obs, given, act, applied, out⟩ : Row O A R I) = marked ⟨obs, given, act, applied, out0⟩ := by
        rw [marked, ← e2]
      refine ⟨rows0 ++ [⟨obs, given, act, applied, out0⟩], ?_, by rw [h2, List.map_append, hm]; rfl⟩
      rw [hm, marked_ended] at hdone
      have := Trajectory.step (E := E) (start := start) ⟨obs, given, act, applied, out0⟩ x h1 hobs hinfo
        (by rw [h0, ← e1]) hdone
      rw [← e2]
      exact this
    | @done rows s row x y kw o i h hobs hinfo hstep hdone hreset ih =>
      obtain ⟨rows0, h1, h2⟩ := ih
      obtain ⟨obs, given, act, applied, out⟩ := row
      simp only [asTerminated, truncatedAsTerminated, Prod.mk.injEq] at hstep
      obtain ⟨out0, h0⟩ : ∃ o, o = (E.step s.state applied).2 := ⟨_, rfl⟩
      rw [← h0] at hstep
      obtain ⟨e1, e2⟩ := hstep
      have hm : (⟨obs, given, act, applied, out⟩ : Row O A R I) = marked ⟨obs, given, act, applied, out0⟩ := by
        rw [marked, ← e2]
      refine ⟨rows0 ++ [⟨obs, given, act, applied, out0⟩], ?_, by rw [h2, List.map_append, hm]; rfl⟩
      rw [hm, marked_ended] at hdone
      exact Trajectory.done (E := E) (start := start) ⟨obs, given, act, applied, out0⟩ x y kw o i h1 hobs hinfo
        (by rw [h0, ← e1]) hdone hreset
    | again kw y o i h hf hreset ih =>
      obtain ⟨rows0, h1, h2⟩ := ih
      exact ⟨rows0, Trajectory.again kw y o i h1 hf hreset, h2⟩
  · rintro ⟨rows0, h, rfl⟩
    induction h with
    | nil => exact .nil
    | @step rows s row x h hobs hinfo hstep hdone ih =>
      rw [List.map_append]
      exact Trajectory.step (E := asTerminated E) (start := start) (marked row) x ih hobs hinfo
        (asTerminated_step E s.state x row hstep) (by rw [marked_ended]; exact hdone)
    | @done rows s row x y kw o i h hobs hinfo hstep hdone hreset ih =>
      rw [List.map_append]
      exact Trajectory.done (E := asTerminated E) (start := start) (marked row) x y kw o i ih hobs hinfo
        (asTerminated_step E s.state x row hstep) (by rw [marked_ended]; exact hdone) hreset
    | again kw y o i h hf hreset ih => exact Trajectory.again kw y o i ih hf hreset

/-- C86. In particular, every recorded transition that ended an episode is recorded as terminated. -/
theorem C86_terminated (E : Env σ A O R I K) (start now : Situation σ O I) (rows : List (Row O A R I))
    (h : Trajectory (asTerminated E) start rows now) : ∀ row ∈ rows, row.out.terminated = row.out.ended := by
  obtain ⟨rows0, _, rfl⟩ := (C86_trajectories E start now rows).1 h
  intro row hrow
  obtain ⟨r, _, rfl⟩ := List.mem_map.1 hrow
  simp only [marked, StepOut.ended]
  cases r.out.terminated <;> cases r.out.truncated <;> rfl

/-- An environment that counts up and is truncated at 3. -/
def limited : Env Nat Nat Nat Nat Nat Unit where
  step := fun s _ => (s + 1, ⟨s + 1, 1, false, decide (3 ≤ s + 1), 0⟩)
  reset := fun _ _ => (0, 0, 0)

example : ((asTerminated limited).step 2 7).2.terminated = true ∧ ((asTerminated limited).step 1 7).2.terminated = false ∧
    (limited.step 2 7).2.terminated = false := by decide

example : Trajectory (asTerminated limited) ⟨true, 1, 1, 0⟩
    [⟨1, 0, 5, 5, ⟨2, 1, false, false, 0⟩⟩, ⟨2, 0, 5, 5, ⟨3, 1, true, true, 0⟩⟩] ⟨true, 0, 0, 0⟩ :=
  Trajectory.done (rows := [_]) _ 3 0 () 0 0 (Trajectory.step (rows := []) _ 2 Trajectory.nil rfl rfl rfl rfl) rfl rfl rfl rfl rfl

end Verif.Wrappers
