import Verif.Props.PolicyIteration
import Verif.Props.SacCriticsExample

/-!
Cases that meet the hypotheses of C266.
-/

namespace Verif.SacLoss

open Verif.Squash Verif.Critics Verif.PolicyGradient MeasureTheory

/-- The states alternate and the reward in state `true` is the action: its optimal values with discount 1/2. -/
example : OptimalValues turns (1 / 2) fun s => if s then 4 / 3 else 2 / 3 := by
  intro s
  constructor
  · rintro _ ⟨y, hy, rfl⟩
    have h := (abs_le.mp (hy 0)).2
    cases s
    · simp [turns_lookahead]
      norm_num
    · simp [turns_lookahead]
      linarith
  · intro b hb
    have h := hb ⟨fun _ => 1, fun j => by simp, rfl⟩
    cases s
    · simp [turns_lookahead] at h ⊢
      linarith
    · simp [turns_lookahead] at h ⊢
      linarith

/-- The hypotheses of `C266_ddpg_exists` are met for it, and hence there is a sequence as in `C266_ddpg`, from the actor that always chooses 0. -/
example : ∃ (mu : Nat → Bool → Fin 1 → ℝ) (v : Nat → Bool → ℝ) (critic : Nat → Bool → List ℝ → ℝ) (vstar : Bool → ℝ), mu 0 = (fun _ _ => 0) ∧
    (∀ s, Inside (mu 0 s)) ∧ (∀ k, ActorValues turns (1 / 2) (mu k) (v k)) ∧ (∀ k s (y : Fin 1 → ℝ), critic k s (List.ofFn y) = lookahead turns (1 / 2) (v k) s y) ∧
    (∀ k, BestActor (critic k) [true, false, true] (mu (k + 1))) ∧ OptimalValues turns (1 / 2) vstar := by
  refine C266_ddpg_exists turns turns_proper.nonneg turns_proper.sum (fun s s' => continuous_const) (fun s s' => ?_) (fun s s' => continuous_const) (1 / 2)
    (by norm_num) (by norm_num) _ _ fun s j => by simp
  cases s
  · exact continuous_const
  · exact continuous_apply 0

theorem exampleMdp_bounded : exampleMdp.Bounded where
  nonneg s y s' := by norm_num [exampleMdp]
  sum s y := by norm_num [exampleMdp]
  next s s' := measurable_const
  rew s := (exampleTame (cube 2)).1
  bounded := ⟨1, fun s y => by
    change |smaller exampleCritic1 exampleCritic2 2 s y| ≤ 1
    unfold smaller exampleCritic1 exampleCritic2
    rcases min_choice (Real.sin (List.ofFn y).sum) (Real.cos (List.ofFn y).sum) with h | h <;> rw [h]
    · exact Real.abs_sin_le_one _
    · exact Real.abs_cos_le_one _⟩

/-- The hypotheses of `C266_sac_exists` are met from the uniform actor on, and so are those of `C266_sac_partial`. -/
example : ∃ (l : Nat → Unit → (Fin 2 → ℝ) → ℝ) (v : Nat → Unit → ℝ) (critic : Nat → Unit → List ℝ → ℝ) (vstar : Unit → ℝ), l 0 = (fun _ => exampleFlat) ∧
    (∀ k s, Measurable (l k s)) ∧ (∀ k, exampleMdp.Policy (l k)) ∧ (∀ k, exampleMdp.SoftValues (1 / 2) 1 (l k) (v k)) ∧
    (∀ k s y, critic k s (List.ofFn y) = exampleMdp.soft (1 / 2) (v k) s y) ∧ (∀ k, exampleMdp.BestSac (critic k) (critic k) 1 (l (k + 1))) ∧
    exampleMdp.SoftOptimal (1 / 2) 1 vstar := by
  refine C266_sac_exists exampleMdp exampleMdp_bounded (1 / 2) 1 (by norm_num) (by norm_num) one_pos _ (fun _ => measurable_const) ?_
  exact ⟨fun _ => inferInstance, fun _ => integrable_const _, fun _ => (exampleTame (lawOf exampleFlat)).2.1, fun _ _ => integrable_const _⟩

end Verif.SacLoss
