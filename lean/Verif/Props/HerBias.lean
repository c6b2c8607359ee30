import Verif.Props.Her
import Mathlib.Algebra.Order.Ring.Rat
import Mathlib.Data.List.Sublists
import Mathlib.Tactic.Linarith
import Mathlib.Tactic.Positivity

/-!
C269: what is learned from a hindsight buffer. The specification is an environment whose dynamics do not know the
goal; nothing of it mentions the buffer.
-/

namespace Verif.Buffer

open Verif.Spec

variable {P G A R : Type} {K : ℚ}

/-- A goal environment without chance: where an action leads, whether it ends the episode, which goal is achieved in
a state and the reward for having achieved one goal when another one was desired. -/
structure GoalEnv (P G A R : Type) where
  step : P → A → P
  ends : P → A → Bool
  achieved : P → G
  reward : G → G → R

/-- `t` is a step of the environment under the goal that `t` carries. -/
structure GoalEnv.Step (e : GoalEnv P G A R) (t : Trans (GObs P G) A R) : Prop where
  here : t.obs.achieved = e.achieved t.obs.observation
  next : t.obsNext = some ⟨e.step t.obs.observation t.act, e.achieved (e.step t.obs.observation t.act), t.obs.desired⟩
  rew : t.rew = e.reward (e.achieved (e.step t.obs.observation t.act)) t.obs.desired
  ends : t.terminated = e.ends t.obs.observation t.act

/-- `q s goal a` are the best discounted returns for each goal: the reward and the discounted value of the best
action in the next state for the same goal. -/
def GoalEnv.Optimal (e : GoalEnv P G A ℚ) (gamma : ℚ) (q : P → G → A → ℚ) : Prop :=
  ∀ s goal a, ∃ best, IsGreatest (Set.range (q (e.step s a) goal)) best ∧
    q s goal a = e.reward (e.achieved (e.step s a)) goal + if e.ends s a then 0 else gamma * best

/-- **C269** (for an environment without chance in which the end of an episode does not depend on the goal, with
`obs_next` stored and a horizon that covers the episodes; missing: everything else, see `C269_violated_chance`,
`C269_violated_end` and `C73_violated`) if all transitions passed in are steps of the environment, so are all that
the buffer holds after any sampling, each for the goal that it carries now. -/
theorem C269_steps_partial [AddCommMonoid R] (e : GoalEnv P G A R) {h h' : HBuf P G A R} {g : Ghost (GObs P G) A R}
    (H : HHistory K h g) (hrew : h.computeReward = e.reward) (hstored : h.base.opts.ignoreObsNext = false)
    (hall : ∀ t ∈ g.received, e.Step t)
    {rng : Nat → Nat} {u : Nat → ℚ} {pick : Nat → Nat → List Nat} {bs : Option Int} {l : List Nat}
    (hs : h.sampleIndices rng u pick bs = .ok (h', l)) (hu : ∀ k, 0 ≤ u k ∧ u k < 1)
    (hhor : ∀ (k i : Nat), h.base.idx.allIndices[k]? = some i → i ∈ l →
      epLast Trans.done (lastN h.base.idx.maxsize g.received) k - k < h.horizon)
    (i : Nat) (hi : i ∈ h.base.idx.allIndices) :
    ∃ t, h'.base.data i = some t ∧ e.Step t := by
  obtain ⟨p, hp⟩ := List.mem_iff_getElem?.mp hi
  obtain ⟨t, ht, h1⟩ := C32_future_goal H hs hu _ rfl hhor p i hp
  have hmem : t ∈ g.received := by
    have := List.mem_of_getElem? ht
    unfold lastN at this
    exact List.mem_of_mem_drop this
  have ok := hall t hmem
  rcases h1 with h1 | ⟨t', goal, j, h1, h2, -, -, -, -, h3⟩
  · exact ⟨t, h1, ok⟩
  · refine ⟨t', h1, ?_⟩
    have hr := h3 hstored _ ok.next
    rw [hrew] at hr
    rw [h2]
    exact ⟨ok.here, by simp only [ok.next, Option.map_some], hr, ok.ends⟩

/-- **C269** (same limits) hence the best values of all goals are consistent with every sampled transition: reward
and discounted best next value are the value of the action taken, whichever goals were put in. -/
theorem C269_values_partial (e : GoalEnv P G A ℚ) {gamma : ℚ} {q : P → G → A → ℚ} (hq : e.Optimal gamma q)
    {h h' : HBuf P G A ℚ} {g : Ghost (GObs P G) A ℚ}
    (H : HHistory K h g) (hrew : h.computeReward = e.reward) (hstored : h.base.opts.ignoreObsNext = false)
    (hall : ∀ t ∈ g.received, e.Step t)
    {rng : Nat → Nat} {u : Nat → ℚ} {pick : Nat → Nat → List Nat} {bs : Option Int} {l : List Nat}
    (hs : h.sampleIndices rng u pick bs = .ok (h', l)) (hu : ∀ k, 0 ≤ u k ∧ u k < 1)
    (hhor : ∀ (k i : Nat), h.base.idx.allIndices[k]? = some i → i ∈ l →
      epLast Trans.done (lastN h.base.idx.maxsize g.received) k - k < h.horizon)
    (i : Nat) (hi : i ∈ h.base.idx.allIndices) :
    ∃ t o best, h'.base.data i = some t ∧ t.obsNext = some o ∧
      IsGreatest (Set.range (q o.observation o.desired)) best ∧
      t.rew + (if t.terminated then 0 else gamma * best) = q t.obs.observation t.obs.desired t.act := by
  obtain ⟨t, ht, ok⟩ := C269_steps_partial e H hrew hstored hall hs hu hhor i hi
  obtain ⟨best, hb, hv⟩ := hq t.obs.observation t.obs.desired t.act
  exact ⟨t, _, best, ht, ok.next, hb, by rw [hv, ok.rew, ok.ends]⟩

/-! ### A case of the theorems -/

/-- Walking along a line to the left or right of where one is; the reward is −1 until the goal is reached. -/
def line : GoalEnv Int Int Bool ℚ where
  step s a := if a then s + 1 else s - 1
  ends _ _ := false
  achieved s := s
  reward a d := if a = d then 0 else -1

/-- One step on the line. -/
def lineStep (s goal : Int) (a last : Bool) : Trans (GObs Int Int) Bool ℚ :=
  { obs := ⟨s, s, goal⟩, act := a, rew := line.reward (line.step s a) goal, terminated := false, truncated := last
    obsNext := some ⟨line.step s a, line.step s a, goal⟩ }

/-- Two episodes, the goals 7 and −3 were not reached. -/
def lineBuf : HBuf Int Int Bool ℚ :=
  (((HBuf.new 4 line.reward 3 2 {}).addOne (lineStep 0 7 true false)).addOne (lineStep 1 7 true true)).addOne
    (lineStep 0 (-3) false true)

theorem lineBuf_history : ∃ g, HHistory 2 lineBuf g ∧
    g.received = [lineStep 0 7 true false, lineStep 1 7 true true, lineStep 0 (-3) false true] := by
  have H0 := HHistory.new (K := 2) (R := ℚ) (A := Bool) (P := Int) (G := Int) 4 (by norm_num) line.reward 3 {} rfl
  obtain ⟨g1, H1, e1⟩ := H0.addOne (lineStep 0 7 true false)
  obtain ⟨g2, H2, e2⟩ := H1.addOne (lineStep 1 7 true true)
  obtain ⟨g3, H3, e3⟩ := H2.addOne (lineStep 0 (-3) false true)
  refine ⟨g3, H3, ?_⟩
  rw [e3, e2, e1]
  rfl

theorem lineStep_ok (s goal : Int) (a last : Bool) : line.Step (lineStep s goal a last) := ⟨rfl, rfl, rfl, rfl⟩

/-- What can be seen of a sampling result: position, desired goal, reward. -/
def lineView (r : Except Err (HBuf Int Int Bool ℚ × List Nat)) : Option (List (Option (Int × Int × ℚ))) :=
  r.toOption.map fun p => (List.range 3).map fun i =>
    (p.1.base.data i).map fun t => (t.obs.observation, t.obs.desired, t.rew)

/-- The first episode relabelled with the position it reached: its last step now has the reward of success. -/
example : lineView (lineBuf.sampleIndices (fun _ => 0) (fun _ => 0) (fun _ s => List.range s) (some 0)) =
    some [some (0, 2, -1), some (1, 2, 0), some (0, -3, -1)] := by decide +kernel

/-- The hypotheses of C269 hold for it; the values: with `gamma = 0` the best values are the rewards. -/
example : ∃ (h' : HBuf Int Int Bool ℚ) (l : List Nat) (g : Ghost (GObs Int Int) Bool ℚ) (q : Int → Int → Bool → ℚ),
    HHistory 2 lineBuf g ∧ lineBuf.computeReward = line.reward ∧ lineBuf.base.opts.ignoreObsNext = false ∧
    (∀ t ∈ g.received, line.Step t) ∧
    lineBuf.sampleIndices (fun _ => 0) (fun _ => 0) (fun _ s => List.range s) (some 0) = .ok (h', l) ∧
    (∀ (k i : Nat), lineBuf.base.idx.allIndices[k]? = some i → i ∈ l →
      epLast Trans.done (lastN lineBuf.base.idx.maxsize g.received) k - k < lineBuf.horizon) ∧
    line.Optimal 0 q := by
  obtain ⟨g, H, hg⟩ := lineBuf_history
  cases e : lineBuf.sampleIndices (fun _ => 0) (fun _ => 0) (fun _ s => List.range s) (some 0) with
  | error e' =>
    have : (lineBuf.sampleIndices (fun _ => 0) (fun _ => 0) (fun _ s => List.range s) (some 0)).toOption.isSome = true := by
      decide +kernel
    rw [e] at this; cases this
  | ok p =>
    refine ⟨p.1, p.2, g, fun s goal a => line.reward (line.achieved (line.step s a)) goal, H, rfl, rfl, ?_, rfl, ?_, ?_⟩
    · intro t ht
      rw [hg] at ht
      simp only [List.mem_cons, List.not_mem_nil, or_false] at ht
      rcases ht with rfl | rfl | rfl <;> exact lineStep_ok _ _ _ _
    · intro k i hk _
      have hk3 : k < 3 := by
        have h1 := (List.getElem?_eq_some_iff.mp hk).1
        have h2 : lineBuf.base.idx.allIndices.length = 3 := by decide +kernel
        omega
      rw [hg]
      have : ∀ k < 3, epLast Trans.done (lastN lineBuf.base.idx.maxsize
        [lineStep 0 7 true false, lineStep 1 7 true true, lineStep 0 (-3) false true]) k - k < lineBuf.horizon := by
        decide +kernel
      exact this k hk3
    · intro s goal a
      refine ⟨max (line.reward (line.achieved (line.step (line.step s a) true)) goal)
        (line.reward (line.achieved (line.step (line.step s a) false)) goal), ⟨?_, ?_⟩, by simp⟩
      · rcases max_choice (line.reward (line.achieved (line.step (line.step s a) true)) goal)
          (line.reward (line.achieved (line.step (line.step s a) false)) goal) with h | h
        · exact ⟨true, h.symm⟩
        · exact ⟨false, h.symm⟩
      · rintro _ ⟨b, rfl⟩
        cases b
        · exact le_max_right _ _
        · exact le_max_left _ _

/-! ### With chance -/

/-- One throw of a coin: from state 0 to 1 or 2, the goal was given before. The reward is 1 if it was achieved. -/
def coinStep (outcome goal : Nat) : Trans (GObs Nat Nat) Unit ℚ :=
  { obs := ⟨0, 0, goal⟩, act := (), rew := if outcome = goal then 1 else 0, terminated := true, truncated := false
    obsNext := some ⟨outcome, outcome, goal⟩ }

/-- Both outcomes equally often for both goals. -/
def coinBuf : HBuf Nat Nat Unit ℚ :=
  ((((HBuf.new 4 (fun a d => if a = d then 1 else 0) 1 2 {}).addOne (coinStep 1 1)).addOne (coinStep 2 1)).addOne
    (coinStep 1 2)).addOne (coinStep 2 2)

theorem coinBuf_history : ∃ g, HHistory 2 coinBuf g ∧
    g.received = [coinStep 1 1, coinStep 2 1, coinStep 1 2, coinStep 2 2] := by
  have H0 := HHistory.new (K := 2) (R := ℚ) (A := Unit) (P := Nat) (G := Nat) 4 (by norm_num)
    (fun a d => if a = d then 1 else 0) 1 {} rfl
  obtain ⟨g1, H1, e1⟩ := H0.addOne (coinStep 1 1)
  obtain ⟨g2, H2, e2⟩ := H1.addOne (coinStep 2 1)
  obtain ⟨g3, H3, e3⟩ := H2.addOne (coinStep 1 2)
  obtain ⟨g4, H4, e4⟩ := H3.addOne (coinStep 2 2)
  refine ⟨g4, H4, ?_⟩
  rw [e4, e3, e2, e1]
  rfl

/-- The rewards of the transitions with desired goal 1. -/
def rewardsOfGoal1 (ts : List (Option (Trans (GObs Nat Nat) Unit ℚ))) : List ℚ :=
  (ts.filterMap id).filterMap fun t => if t.obs.desired = 1 then some t.rew else none

/-- The rewards with desired goal 1 after sampling everything, where the episodes `pair` are relabelled. -/
def coinRewards (u : Nat → ℚ) (pair : List Nat) : List ℚ :=
  match coinBuf.sampleIndices (fun _ => 0) u (fun _ _ => pair) (some 0) with
  | .ok p => rewardsOfGoal1 (p.2.map p.1.base.data)
  | .error _ => []

/-- The equally likely choices of two of the four episodes, `future_k = 2`. -/
def coinPairs : List (List Nat) := (List.range 4).sublistsLen 2

/-- Mean over the choices of the sum of squared differences of a value from the rewards. -/
def meanSquares (rewards : List Nat → List ℚ) (v : ℚ) : ℚ :=
  (coinPairs.map fun pair => ((rewards pair).map fun r => (r - v) ^ 2).sum).sum / coinPairs.length

/-- **C269** fails in an environment with chance: with both outcomes equally often for both goals, one half is the
mean reward for goal 1 and the value with the smallest squared error before sampling; in what is sampled, averaged
over the equally likely choices of the episodes to relabel, the smallest squared error is that of three quarters. -/
theorem C269_violated_chance : ∃ g, HHistory 2 coinBuf g ∧
    g.received = [coinStep 1 1, coinStep 2 1, coinStep 1 2, coinStep 2 2] ∧
    (∀ v, v ≠ 1 / 2 → meanSquares (fun _ => rewardsOfGoal1 (g.received.map some)) (1 / 2) <
      meanSquares (fun _ => rewardsOfGoal1 (g.received.map some)) v) ∧
    (∀ pair ∈ coinPairs, (coinBuf.sampleIndices (fun _ => 0) (fun _ => 0) (fun _ _ => pair) (some 0)).toOption.isSome) ∧
    (∀ v, v ≠ 3 / 4 → meanSquares (coinRewards fun _ => 0) (3 / 4) < meanSquares (coinRewards fun _ => 0) v) := by
  obtain ⟨g, H, hg⟩ := coinBuf_history
  have hp : coinPairs = [[2, 3], [1, 3], [1, 2], [0, 3], [0, 2], [0, 1]] := by decide +kernel
  have e1 : rewardsOfGoal1 ([coinStep 1 1, coinStep 2 1, coinStep 1 2, coinStep 2 2].map some) = [1, 0] := by
    decide +kernel
  have e2 : coinPairs.map (coinRewards fun _ => 0) = [[1, 0, 1], [1], [1, 1], [1, 0], [1, 0, 1], [1]] := by
    decide +kernel
  have e3 : ∀ v, meanSquares (coinRewards fun _ => 0) v =
      ((([[1, 0, 1], [1], [1, 1], [1, 0], [1, 0, 1], [1]] : List (List ℚ)).map
        fun rs => (rs.map fun r => (r - v) ^ 2).sum).sum) / 6 := by
    intro v
    have hl : coinPairs.length = 6 := by decide +kernel
    unfold meanSquares
    rw [hl, ← e2, List.map_map]
    rfl
  refine ⟨g, H, hg, ?_, by decide +kernel, ?_⟩
  · intro v hv
    rw [hg]
    unfold meanSquares
    rw [hp, e1]
    simp only [List.map_cons, List.map_nil, List.sum_cons, List.sum_nil, List.length_cons, List.length_nil]
    have : 0 < (v - 1 / 2) ^ 2 := by
      have : v - 1 / 2 ≠ 0 := sub_ne_zero.mpr hv
      positivity
    rw [div_lt_div_iff_of_pos_right (by norm_num)]
    nlinarith
  · intro v hv
    rw [e3, e3]
    simp only [List.map_cons, List.map_nil, List.sum_cons, List.sum_nil]
    have : 0 < (v - 3 / 4) ^ 2 := by
      have : v - 3 / 4 ≠ 0 := sub_ne_zero.mpr hv
      positivity
    rw [div_lt_div_iff_of_pos_right (by norm_num)]
    nlinarith

/-- **C269** fails if the environment ends an episode when the goal is reached: the transitions passed in are all
marked as terminated exactly when the goal was reached, the relabelled one in slot 1 has reached its goal and is not,
so that a target computed from it goes on with values after the end. -/
theorem C269_violated_end : ∃ (g : Ghost (GObs Int Int) Bool ℚ) (h' : HBuf Int Int Bool ℚ) (l : List Nat)
    (t : Trans (GObs Int Int) Bool ℚ) (o : GObs Int Int), HHistory 2 lineBuf g ∧
    (∀ t ∈ g.received, ∀ o, t.obsNext = some o → (t.terminated = true ↔ o.achieved = o.desired)) ∧
    lineBuf.sampleIndices (fun _ => 0) (fun _ => 0) (fun _ s => List.range s) (some 0) = .ok (h', l) ∧
    1 ∈ l ∧ h'.base.data 1 = some t ∧ t.obsNext = some o ∧ o.achieved = o.desired ∧ t.terminated = false := by
  obtain ⟨g, H, hg⟩ := lineBuf_history
  cases e : lineBuf.sampleIndices (fun _ => 0) (fun _ => 0) (fun _ s => List.range s) (some 0) with
  | error e' =>
    have : (lineBuf.sampleIndices (fun _ => 0) (fun _ => 0) (fun _ s => List.range s) (some 0)).toOption.isSome = true := by
      decide +kernel
    rw [e] at this; cases this
  | ok p =>
    have h1 : ((lineBuf.sampleIndices (fun _ => 0) (fun _ => 0) (fun _ s => List.range s) (some 0)).toOption.bind
        fun p => if 1 ∈ p.2 then p.1.base.data 1 else none) =
        some ⟨⟨1, 1, 2⟩, true, 0, false, true, some ⟨2, 2, 2⟩⟩ := by decide +kernel
    rw [e] at h1
    replace h1 : (if 1 ∈ p.2 then p.1.base.data 1 else none) = _ := h1
    by_cases hm : 1 ∈ p.2
    · rw [if_pos hm] at h1
      refine ⟨g, p.1, p.2, _, _, H, ?_, rfl, hm, h1, rfl, rfl, rfl⟩
      rw [hg]
      intro t ht o ho
      simp only [List.mem_cons, List.not_mem_nil, or_false] at ht
      rcases ht with rfl | rfl | rfl <;>
        · simp only [lineStep, Option.some.injEq] at ho
          subst ho
          simp [lineStep, line]
    · rw [if_neg hm] at h1; cases h1

end Verif.Buffer
