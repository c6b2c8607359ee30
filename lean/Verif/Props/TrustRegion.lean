import Verif.Lemmas.TrustRegion
import Mathlib.Analysis.Real.Sqrt
import Mathlib.Tactic.IntervalCases
import Mathlib.Tactic.NormNum

/-! Properties C87, C88: natural gradient and trust region updates. -/

set_option linter.unusedSectionVars false

namespace Verif.TrustRegion

variable {K : Type} [Field K] [LinearOrder K] [IsStrictOrderedRing K] {n : Nat}

/-! ### C87 -/

/-- C87, the part that holds: if one of the `max_backtracks` candidates (the full step, then the step shrunk once,
twice, …) satisfies the constraints, the update takes the first that does, and reports its step size and
divergence. -/
theorem C87_accepted_partial (c : Trpo K) (m : Mini K n) (theta d : Fin n → K) (step : K) (j : Nat)
    (hj : j < c.maxBacktracks)
    (hacc : Improves m c.maxKl theta (theta + (step * c.backtrackCoeff ^ j) • d))
    (hfirst : ∀ i < j, ¬ Improves m c.maxKl theta (theta + (step * c.backtrackCoeff ^ i) • d)) :
    lineSearch c m theta d step =
      ⟨theta + (step * c.backtrackCoeff ^ j) • d, step * c.backtrackCoeff ^ j,
        m.kl theta (theta + (step * c.backtrackCoeff ^ j) • d)⟩ ∧
    Improves m c.maxKl theta (lineSearch c m theta d step).actor := by
  have : lineSearch c m theta d step =
      ⟨theta + (step * c.backtrackCoeff ^ j) • d, step * c.backtrackCoeff ^ j,
        m.kl theta (theta + (step * c.backtrackCoeff ^ j) • d)⟩ := by
    unfold lineSearch
    exact searchFrom_success (a := step) c.maxBacktracks 0 j _ (by simp) (by omega) (Nat.zero_le _) (by omega)
      (fun t _ ht => hfirst t ht) hacc
  rw [this]
  exact ⟨rfl, hacc⟩

/-- C87, what happens otherwise: the actor keeps the parameters of the last rejected candidate, while the reported
step size is 0. -/
theorem C87_rejected (c : Trpo K) (m : Mini K n) (theta d : Fin n → K) (step : K) (hpos : 0 < c.maxBacktracks)
    (hno : ∀ i < c.maxBacktracks, ¬ Improves m c.maxKl theta (theta + (step * c.backtrackCoeff ^ i) • d)) :
    lineSearch c m theta d step =
      ⟨theta + (step * c.backtrackCoeff ^ (c.maxBacktracks - 1)) • d, 0,
        m.kl theta (theta + (step * c.backtrackCoeff ^ (c.maxBacktracks - 1)) • d)⟩ := by
  unfold lineSearch
  obtain ⟨k, hk⟩ : ∃ k, c.maxBacktracks = k + 1 := ⟨c.maxBacktracks - 1, by omega⟩
  conv_lhs => rw [hk]
  rw [searchFrom_failure (a := step) k 0 _ (by simp) (by omega) (fun t _ ht => hno t ht)]
  simp [hk]

/-- C87 for a whole call of `learn`, any number of minibatches and repetitions: whenever the step size reported for
a minibatch is not 0, the actor before and after that minibatch satisfy the constraints. -/
theorem C87_learn_partial (sqrt : K → K) (c : Trpo K) (hpos : 0 < c.maxBacktracks) (damping tol : K) (nsteps : Nat)
    (ms : List (Mini K n)) (theta : Fin n → K) (ss : List (Search K n))
    (h : trpoLearn sqrt c damping tol nsteps ms theta = some ss) :
    ss.length = ms.length ∧ ∀ (k : Nat) (m : Mini K n) (old : Fin n → K) (s : Search K n), ms[k]? = some m →
      (theta :: ss.map Search.actor)[k]? = some old → ss[k]? = some s → s.step ≠ 0 →
      Improves m c.maxKl old s.actor := by
  induction ms generalizing theta ss with
  | nil =>
    simp only [trpoLearn, Option.some.injEq] at h
    subst h; simp
  | cons m ms ih =>
    simp only [trpoLearn] at h
    split at h
    · simp at h
    · rename_i s hs
      simp only [Option.map_eq_some_iff] at h
      obtain ⟨ss', h', rfl⟩ := h
      obtain ⟨hl, ih⟩ := ih s.actor ss' h'
      refine ⟨by simp [hl], ?_⟩
      intro k m' old s' hm hold hs' hne
      cases k with
      | zero =>
        simp only [List.getElem?_cons_zero, Option.some.injEq] at hm hold hs'
        subst hm hold hs'
        unfold trpoStep at hs
        split at hs
        · simp at hs
        · rename_i d _
          simp only [Option.map_eq_some_iff] at hs
          obtain ⟨step, _, rfl⟩ := hs
          by_cases hex : ∃ j, j < c.maxBacktracks ∧ Improves m c.maxKl theta (theta + (step * c.backtrackCoeff ^ j) • d)
          · classical
            obtain ⟨h1, h2⟩ := Nat.find_spec hex
            exact (C87_accepted_partial c m theta d step _ h1 h2
              (fun i hi hI => Nat.find_min hex hi ⟨lt_trans hi h1, hI⟩)).2
          · push Not at hex
            rw [C87_rejected c m theta d step hpos hex] at hne
            simp at hne
      | succ k =>
        simp only [List.getElem?_cons_succ, List.map_cons] at hm hold hs'
        exact ih k m' old s' hm hold hs' hne

/-- A policy with one parameter whose divergence is the squared distance. -/
def quadratic : Mini ℚ 1 where
  loss := fun x => x 0
  kl := fun old new => (new 0 - old 0) ^ 2
  grad := fun _ _ => 1
  hvp := fun _ v => (2 : ℚ) • v

/-- The first candidate is rejected, the second accepted. -/
example : (lineSearch ⟨3, 1 / 2, 1 / 2⟩ quadratic 0 (fun _ => -1) 1).actor 0 = -1 / 2 ∧
    ¬ Improves quadratic (1 / 2) 0 (0 + (1 * (1 / 2) ^ 0 : ℚ) • fun _ => -1) ∧
    Improves quadratic (1 / 2) 0 (0 + (1 * (1 / 2) ^ 1 : ℚ) • fun _ => -1) := by
  refine ⟨by decide +kernel, ?_, ?_⟩ <;> simp [Improves, quadratic] <;> norm_num

example : (trpoLearn (fun x => x) ⟨3, 1 / 2, 1 / 2⟩ 1 (1 / 10) 10 [quadratic, quadratic] 0).map
    (fun ss => ss.map fun s => (s.actor 0, s.step, s.kl)) =
      some [(-1 / 2, 3 / 2, 1 / 4), (-1, 3 / 2, 1 / 4)] := by decide +kernel

/-- A policy whose divergence grows faster than its second derivative at 0 tells. -/
noncomputable def steep : Mini ℝ 1 where
  loss := fun x => x 0
  kl := fun old new => 9 / 20 * (new 0 - old 0) ^ 2 + 1000000 * (new 0 - old 0) ^ 4
  grad := fun _ _ => 1
  hvp := fun _ v => (9 / 10 : ℝ) • v

/-- C87 is violated with the default parameters (10 backtracks, coefficient 0.8, damping 0.1): no candidate
satisfies the bound on the divergence, the reported step size is 0, but the actor has moved, to parameters outside the
trust region. -/
theorem C87_violated : ∃ s : Search ℝ 1,
    trpoStep Real.sqrt ⟨10, 1 / 50, 4 / 5⟩ (1 / 10) (1 / 10 ^ 10) 10 steep 0 = some s ∧ s.step = 0 ∧ s.actor ≠ 0 ∧
      steep.kl 0 s.actor > 1 / 50 ∧ ¬ Trusted steep (1 / 50) 0 s.actor := by
  have hcg : conjugateGradients (mvp (steep.hvp 0) (1 / 10)) (steep.grad 0) 10 (1 / 10 ^ 10) = some (fun _ => 1) := by
    have e : (mvp (steep.hvp 0) (1 / 10)) = fun v => v := by
      funext v i; simp [mvp, steep]; ring
    have eg : steep.grad 0 = fun _ => 1 := rfl
    have e1 : ((fun _ => 1 : Fin 1 → ℝ) ⬝ᵥ fun _ => 1) = 1 := by simp [dotProduct]
    rw [e, eg]
    unfold conjugateGradients
    rw [cgLoop]
    simp only [e1]
    rw [fdiv_some one_ne_zero]
    simp only [div_one, one_smul, sub_self, dotProduct_zero, zero_add]
    rw [if_pos (by norm_num)]
  have hdir : direction steep (1 / 10) (1 / 10 ^ 10) 10 0 = some (fun _ => -1) := by
    unfold direction; rw [hcg]; simp only [Option.map_some, Option.some.injEq]; funext i; simp
  have hstep : maxStep Real.sqrt ⟨10, 1 / 50, 4 / 5⟩ steep (1 / 10) 0 (fun _ => -1) = some (1 / 5) := by
    unfold maxStep
    have e : ((fun _ => -1 : Fin 1 → ℝ) ⬝ᵥ mvp (steep.hvp 0) (1 / 10) (fun _ => -1)) = 1 := by
      simp [mvp, steep, dotProduct]; norm_num
    rw [e]
    simp only [fdiv, one_ne_zero, if_false, Option.map_some, Option.some.injEq]
    rw [show (2 * (1 / 50) / 1 : ℝ) = (1 / 5) ^ 2 by norm_num]
    exact Real.sqrt_sq (by norm_num)
  have hno : ∀ i < 10, ¬ Improves steep (1 / 50) 0 (0 + ((1 / 5 : ℝ) * (4 / 5) ^ i) • fun _ => -1) := by
    intro i hi
    rintro ⟨h, -⟩
    simp only [steep, Pi.add_apply, Pi.zero_apply, Pi.smul_apply, smul_eq_mul] at h
    interval_cases i <;> norm_num at h
  have hrej := C87_rejected ⟨10, 1 / 50, 4 / 5⟩ steep 0 (fun _ => -1) (1 / 5) (by norm_num) hno
  have hres : trpoStep Real.sqrt ⟨10, 1 / 50, 4 / 5⟩ (1 / 10) (1 / 10 ^ 10) 10 steep 0 =
      some (lineSearch ⟨10, 1 / 50, 4 / 5⟩ steep 0 (fun _ => -1) (1 / 5)) := by
    unfold trpoStep; rw [hdir]; simp only [hstep, Option.map_some]
  rw [hrej] at hres
  refine ⟨_, hres, rfl, ?_, ?_, ?_⟩
  · intro h
    have := congrFun h 0
    simp at this
  · simp only [steep, Pi.add_apply, Pi.zero_apply, Pi.smul_apply, smul_eq_mul]; norm_num
  · rintro (h | h)
    · have := congrFun h 0
      simp at this
    · exact hno 9 (by norm_num) h

/-- C87: writing a flat vector back and flattening again gives that vector; no tensor changes its size. -/
theorem C87_parameters (ps : List (List K)) (flat : List K) (h : flat.length = ps.flatten.length) :
    (setFromFlat ps flat).flatten = flat ∧ (setFromFlat ps flat).map List.length = ps.map List.length :=
  setFromFlat_shape ps flat h

example : setFromFlat [[0, 0], [], [0]] [1, 2, (3 : ℚ)] = [[1, 2], [], [3]] := by decide +kernel

/-! ### C88 -/

/-- C88: with a non-zero gradient the search direction is finite, it is a descent direction of the surrogate loss, and
`(H + damping·I)·direction = -gradient` up to the tolerance whenever the number of parameters does not exceed the
number of steps of the solver. -/
theorem C88_direction_partial (m : Mini K n) (theta : Fin n → K) (hH : Psd (m.hvp theta)) (damping tol : K)
    (hd : 0 < damping) (ht : 0 < tol) (nsteps : Nat) (hs : 0 < nsteps) (hg : m.grad theta ≠ 0) :
    ∃ d, direction m damping tol nsteps theta = some d ∧ m.grad theta ⬝ᵥ d < 0 ∧
      (n ≤ nsteps → ∀ e, e = m.grad theta + (m.hvp theta d + damping • d) → e ⬝ᵥ e < tol) := by
  have hB := hH.mvp hd
  obtain ⟨y, h1, h2, h3⟩ := cgLoop_spec hB ht nsteps (Inv.zero hB hg) (by simpa using hs)
  refine ⟨-y, ?_, ?_, ?_⟩
  · unfold direction conjugateGradients; rw [h1]; rfl
  · rw [dotProduct_neg]
    have : 0 ≤ y ⬝ᵥ mvp (m.hvp theta) damping y := by
      by_cases hy : y = 0
      · subst hy; simp
      · exact (hB.pos y hy).le
    linarith
  · rintro hn e rfl
    rcases h3 with h3 | h3
    · have : m.grad theta + (m.hvp theta (-y) + damping • -y) = m.grad theta - mvp (m.hvp theta) damping y := by
        have := hB.neg y
        unfold mvp at this ⊢
        rw [this]; abel
      rw [this]; exact h3
    · simp at h3; omega

/-- C88 for NPG: to first order the update lowers the surrogate loss: it moves against the gradient. -/
theorem C88_npg_partial (m : Mini K n) (theta : Fin n → K) (hH : Psd (m.hvp theta)) (damping tol : K)
    (hd : 0 < damping) (ht : 0 < tol) (nsteps : Nat) (hs : 0 < nsteps) (hg : m.grad theta ≠ 0) (stepSize : K)
    (hst : 0 < stepSize) :
    ∃ new, npgStep m damping tol nsteps stepSize theta = some new ∧ m.grad theta ⬝ᵥ (new - theta) < 0 := by
  obtain ⟨d, h1, h2, _⟩ := C88_direction_partial m theta hH damping tol hd ht nsteps hs hg
  refine ⟨theta + stepSize • d, by unfold npgStep; rw [h1]; rfl, ?_⟩
  rw [add_sub_cancel_left, dotProduct_smul, smul_eq_mul]
  exact mul_neg_of_pos_of_neg hst h2

/-- C88 is violated by a zero gradient (all advantages 0, say): instead of leaving the actor where it is, NPG and TRPO
give it parameters that are not numbers. -/
theorem C88_violated (m : Mini K n) (theta : Fin n → K) (hg : m.grad theta = 0) (damping tol stepSize : K)
    (nsteps : Nat) (hs : 0 < nsteps) (sqrt : K → K) (c : Trpo K) :
    npgStep m damping tol nsteps stepSize theta = none ∧ trpoStep sqrt c damping tol nsteps m theta = none := by
  have : direction m damping tol nsteps theta = none := by
    obtain ⟨k, rfl⟩ : ∃ k, nsteps = k + 1 := ⟨nsteps - 1, by omega⟩
    simp [direction, conjugateGradients, cgLoop, hg, fdiv]
  exact ⟨by simp [npgStep, this], by simp [trpoStep, this]⟩

/-- Two parameters, coupled. -/
def coupled : Mini ℚ 2 where
  loss := fun x => x 0 + x 1
  kl := fun _ _ => 0
  grad := fun _ => ![1, 2]
  hvp := fun _ v => ![2 * v 0 + v 1, v 0 + v 1]

example : Psd (coupled.hvp 0) where
  add u v := by ext i; fin_cases i <;> simp [coupled] <;> ring
  smul c v := by ext i; fin_cases i <;> simp [coupled] <;> ring
  symm u v := by simp [coupled, dotProduct, Fin.sum_univ_two]; ring
  nonneg v := by
    simp [coupled, dotProduct, Fin.sum_univ_two]
    nlinarith [sq_nonneg (v 0 + v 1), sq_nonneg (v 0)]

example : (direction coupled 1 (1 / 100) 10 0).map (fun d => [d 0, d 1]) = some [0, -1] := by decide +kernel

end Verif.TrustRegion
