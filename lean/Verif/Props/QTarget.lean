import Verif.Lemmas.QTarget
import Mathlib.Analysis.SpecialFunctions.Log.Basic
import Mathlib.Tactic.NormNum

/-! Properties C92-C98: targets and losses of the Q-learning policies. -/

set_option linter.unusedSectionVars false

namespace Verif.QTarget

open Verif.Policy Verif.Returns Verif.Buffer Verif.Spec

variable {O A X K : Type} [Field K] [LinearOrder K] [IsStrictOrderedRing K]

/-- `buffer[i].obs_next`, with its stacked frames. -/
abbrev Inp (O : Type) := List (Option (Option O))

/-- The networks have one output per action, the masks one entry per action and at least one legal action. -/
def Fits {V : Type} (n : Nets X V) (mask : Option (X → List Bool)) : Prop :=
  ∀ x, n.online x ≠ [] ∧ (n.old x).length = (n.online x).length ∧
    ∀ m, mask = some m → (m x).length = (n.online x).length ∧ true ∈ m x

/-- The network evaluated for the target: `model_old` if there is a target network. -/
def evalNet {V : Type} (n : Nets X V) (x : X) : List V := if n.hasTarget then n.old x else n.online x

/-! ### C92, C93: DQN -/

/-- C92 for DQN: with `is_double` every return of a batch is the n-step return bootstrapped with the value the target
network gives to the legal action that is best for the online network, in the state after the last step covered. -/
theorem C92_dqn_double {b : Buf O A K} {g : Ghost O A K} (h : History b g) (indices : List Nat)
    (hind : ∀ i ∈ indices, i ∈ b.idx.allIndices) (n : Nets (Inp O) K) (mask : Option (Inp O → List Bool))
    (hf : Fits n mask) (gamma : K) (N : Nat) (hN : 0 < N) :
    ∃ out, dqnReturns true n (ofBuf b) (fun i => (b.getRow i).obsNext) (mask.map fun m i => m (b.getRow i).obsNext)
        indices gamma N = some out ∧ out.length = indices.length ∧
      ∀ (p i k : Nat), indices[p]? = some i → b.idx.allIndices[k]? = some i →
        ∃ (i' : Nat) (v : K), b.idx.allIndices[k + (nstepLen (stored b) N k - 1)]? = some i' ∧
          DoubleTarget (n.online (b.getRow i').obsNext) (evalNet n (b.getRow i').obsNext)
            (mask.map fun m => m (b.getRow i').obsNext) v ∧
          out[p]? = some [nstepValue (stored b) gamma N k v] := by
  obtain ⟨after, out, h1, h2, h3, h4⟩ := C36_buffer h indices hind
    (fun l => (dqnTarget true n (l.map fun i => (b.getRow i).obsNext)
      ((mask.map fun m i => m (b.getRow i).obsNext).map fun m => l.map m)).map fun x => [x])
    (by
      intro l
      rw [List.length_map, dqnTarget_length, List.length_map]
      intro m hm
      cases mask with
      | none => simp at hm
      | some mk =>
        simp only [Option.map_some, Option.some.injEq] at hm
        subst hm; simp) gamma N hN
  refine ⟨out, h1, h2, ?_⟩
  intro p i k hp hk
  obtain ⟨h5, q, h6, h7⟩ := h4 p i k hp hk
  have hlt : p < after.length := by
    rw [h3]; exact (List.getElem?_eq_some_iff.mp hp).1
  obtain ⟨i', hi'⟩ : ∃ i', after[p]? = some i' := ⟨_, List.getElem?_eq_getElem hlt⟩
  obtain ⟨hf1, hf2, hf3⟩ := hf (b.getRow i').obsNext
  obtain ⟨v, hv1, hv2⟩ := dqnTarget_double n (after.map fun i => (b.getRow i).obsNext)
    ((mask.map fun m i => m (b.getRow i).obsNext).map fun m => after.map m) p (b.getRow i').obsNext
    (by simp [hi']) hf1 hf2 (by
      intro m hm
      cases mask with
      | none => simp at hm
      | some mk =>
        simp only [Option.map_some, Option.some.injEq] at hm
        subst hm
        exact ⟨mk (b.getRow i').obsNext, by simp [hi'], hf3 mk rfl⟩)
  refine ⟨i', v, by rw [← h5, hi'], ?_, ?_⟩
  · rw [rowMask_map mask _ after p i' hi'] at hv2
    exact hv2
  · rw [List.getElem?_map, hv1] at h6
    cases h6
    rw [h7]; rfl

/-- C92/C93 for DQN: without `is_double` it is the largest value of the target network, as far as all actions are
legal (no masks). -/
theorem C93_dqn_plain_partial {b : Buf O A K} {g : Ghost O A K} (h : History b g) (indices : List Nat)
    (hind : ∀ i ∈ indices, i ∈ b.idx.allIndices) (n : Nets (Inp O) K) (hf : Fits n none) (gamma : K) (N : Nat)
    (hN : 0 < N) :
    ∃ out, dqnReturns false n (ofBuf b) (fun i => (b.getRow i).obsNext) none indices gamma N = some out ∧
      out.length = indices.length ∧
      ∀ (p i k : Nat), indices[p]? = some i → b.idx.allIndices[k]? = some i →
        ∃ (i' : Nat) (v : K), b.idx.allIndices[k + (nstepLen (stored b) N k - 1)]? = some i' ∧
          PlainTarget (evalNet n (b.getRow i').obsNext) none v ∧
          out[p]? = some [nstepValue (stored b) gamma N k v] := by
  obtain ⟨after, out, h1, h2, h3, h4⟩ := C36_buffer h indices hind
    (fun l => (dqnTarget false n (l.map fun i => (b.getRow i).obsNext) none).map fun x => [x])
    (by
      intro l
      rw [List.length_map, dqnTarget_length, List.length_map]
      intro m hm; simp at hm) gamma N hN
  refine ⟨out, h1, h2, ?_⟩
  intro p i k hp hk
  obtain ⟨h5, q, h6, h7⟩ := h4 p i k hp hk
  have hlt : p < after.length := by
    rw [h3]; exact (List.getElem?_eq_some_iff.mp hp).1
  obtain ⟨i', hi'⟩ : ∃ i', after[p]? = some i' := ⟨_, List.getElem?_eq_getElem hlt⟩
  obtain ⟨hf1, hf2, _⟩ := hf (b.getRow i').obsNext
  obtain ⟨v, hv1, hv2⟩ := dqnTarget_plain n (after.map fun i => (b.getRow i).obsNext) none p (b.getRow i').obsNext
    (by simp [hi']) (by
      split_ifs
      · intro h0; rw [h0] at hf2; exact hf1 (List.length_eq_zero_iff.1 hf2.symm)
      · exact hf1)
  refine ⟨i', v, by rw [← h5, hi'], hv2, ?_⟩
  rw [List.getElem?_map, hv1] at h6
  cases h6
  rw [h7]; rfl

/-- A buffer with three steps of one episode; observations are numbers. -/
def exB : Buf Nat Nat ℚ := addAll (Buf.new 4 {})
  [⟨0, 0, 1, false, false, some 1⟩, ⟨1, 0, 2, false, false, some 2⟩, ⟨2, 0, 4, false, true, some 3⟩]

theorem exB_history : ∃ g, History exB g := by
  obtain ⟨g, h1, _⟩ := (History.new (A := Nat) (R := ℚ) 4 (by decide) ({} : Opts Nat)).addAll
    [⟨0, 0, 1, false, false, some 1⟩, ⟨1, 0, 2, false, false, some 2⟩, ⟨2, 0, 4, false, true, some 3⟩]
  exact ⟨g, h1⟩

/-- Two networks that disagree about the best of three actions; the third is illegal. -/
def exN : Nets (Inp Nat) ℚ := ⟨fun _ => [5, 4, 9], fun _ => [10, 20, 30], true⟩

def exMask : Inp Nat → List Bool := fun _ => [true, true, false]

theorem exN_fits : Fits exN (some exMask) := by
  intro x; refine ⟨by simp [exN], by simp [exN], ?_⟩
  intro m hm; cases hm; simp [exN, exMask]

/-- Double Q-learning with two steps: 1 + 2/2 + 10/4, and with one step left (truncated) 4 + 10/2. -/
example : dqnReturns true exN (ofBuf exB) (fun i => (exB.getRow i).obsNext)
    (some fun i => exMask (exB.getRow i).obsNext) [2, 0] (1 / 2) 2 = some [[9], [9 / 2]] := by decide +kernel

example : dqnReturns false exN (ofBuf exB) (fun i => (exB.getRow i).obsNext) none [2, 0] (1 / 2) 2 =
    some [[19], [19 / 2]] := by decide +kernel

/-- C93 is violated: without `is_double` the target is the value of an illegal action. -/
theorem C93_violated : ∃ (b : Buf Nat Nat ℚ) (g : Ghost Nat Nat ℚ) (n : Nets (Inp Nat) ℚ) (m : Inp Nat → List Bool)
    (v : ℚ), History b g ∧ Fits n (some m) ∧ b.idx.allIndices = [0, 1, 2] ∧
    dqnReturns false n (ofBuf b) (fun i => (b.getRow i).obsNext) (some fun i => m (b.getRow i).obsNext) [1] 1 1 =
      some [[nstepValue (stored b) 1 1 1 v]] ∧
    ¬ PlainTarget (evalNet n (b.getRow 1).obsNext) (some (m (b.getRow 1).obsNext)) v := by
  obtain ⟨g, hg⟩ := exB_history
  refine ⟨exB, g, exN, exMask, 30, hg, exN_fits, by decide +kernel, by decide +kernel, ?_⟩
  rintro ⟨a, ⟨hl, _⟩, ha⟩
  have h1 := hl _ rfl
  simp only [exMask] at h1
  simp only [evalNet, exN] at ha
  match a, h1, ha with
  | 0, _, ha => norm_num at ha
  | 1, _, ha => norm_num at ha
  | a + 2, h1, _ => simp at h1; cases a <;> simp at h1

/-! ### C92: the distributional policies -/

/-- C92 for QRDQN, IQN and FQF, what holds: the target is that of double Q-learning, whatever `is_double`; so the
option is honoured when it is true. -/
theorem C92_distributional_partial {b : Buf O A K} {g : Ghost O A K} (h : History b g) (indices : List Nat)
    (hind : ∀ i ∈ indices, i ∈ b.idx.allIndices) (isDouble : Bool) (value : Inp O → List K → K)
    (n : Nets (Inp O) (List K)) (mask : Option (Inp O → List Bool)) (hf : Fits n mask) (gamma : K) (N : Nat)
    (hN : 0 < N) :
    ∃ out, distReturns isDouble value n (ofBuf b) (fun i => (b.getRow i).obsNext)
        (mask.map fun m i => m (b.getRow i).obsNext) indices gamma N = some out ∧ out.length = indices.length ∧
      ∀ (p i k : Nat), indices[p]? = some i → b.idx.allIndices[k]? = some i →
        ∃ (i' : Nat) (d : List K), b.idx.allIndices[k + (nstepLen (stored b) N k - 1)]? = some i' ∧
          DoubleTarget ((n.online (b.getRow i').obsNext).map (value (b.getRow i').obsNext))
            (evalNet n (b.getRow i').obsNext) (mask.map fun m => m (b.getRow i').obsNext) d ∧
          out[p]? = some (d.map (nstepValue (stored b) gamma N k)) := by
  obtain ⟨after, out, h1, h2, h3, h4⟩ := C36_buffer h indices hind
    (fun l => distTarget isDouble value n (l.map fun i => (b.getRow i).obsNext)
      ((mask.map fun m i => m (b.getRow i).obsNext).map fun m => l.map m))
    (by
      intro l
      rw [distTarget_length, List.length_map]
      intro m hm
      cases mask with
      | none => simp at hm
      | some mk =>
        simp only [Option.map_some, Option.some.injEq] at hm
        subst hm; simp) gamma N hN
  refine ⟨out, h1, h2, ?_⟩
  intro p i k hp hk
  obtain ⟨h5, q, h6, h7⟩ := h4 p i k hp hk
  have hlt : p < after.length := by
    rw [h3]; exact (List.getElem?_eq_some_iff.mp hp).1
  obtain ⟨i', hi'⟩ : ∃ i', after[p]? = some i' := ⟨_, List.getElem?_eq_getElem hlt⟩
  obtain ⟨hf1, hf2, hf3⟩ := hf (b.getRow i').obsNext
  obtain ⟨v, hv1, hv2⟩ := distTarget_get isDouble value n (after.map fun i => (b.getRow i).obsNext)
    ((mask.map fun m i => m (b.getRow i).obsNext).map fun m => after.map m) p (b.getRow i').obsNext
    (by simp [hi']) hf1 hf2 (by
      intro m hm
      cases mask with
      | none => simp at hm
      | some mk =>
        simp only [Option.map_some, Option.some.injEq] at hm
        subst hm
        exact ⟨mk (b.getRow i').obsNext, by simp [hi'], hf3 mk rfl⟩)
  refine ⟨i', v, by rw [← h5, hi'], ?_, ?_⟩
  · rw [rowMask_map mask _ after p i' hi'] at hv2
    exact hv2
  · rw [hv1] at h6
    cases h6
    exact h7

/-- Networks with two quantiles per action. -/
def exQ : Nets (Inp Nat) (List ℚ) := ⟨fun _ => [[5, 7], [1, 3]], fun _ => [[10, 12], [20, 30]], true⟩

/-- C92 is violated for QRDQN and IQN (and in the same way for FQF and C51): with `is_double=False` the target is not
the distribution of the action that is best for the target network. -/
theorem C92_violated : ∃ (b : Buf Nat Nat ℚ) (g : Ghost Nat Nat ℚ) (n : Nets (Inp Nat) (List ℚ)) (d : List ℚ),
    History b g ∧ Fits n none ∧ b.idx.allIndices = [0, 1, 2] ∧
    distReturns false (fun _ => quantileValue) n (ofBuf b) (fun i => (b.getRow i).obsNext) none [1] 1 1 =
      some [d.map (nstepValue (stored b) 1 1 1)] ∧
    ¬ DoubleTarget ((evalNet n (b.getRow 1).obsNext).map quantileValue) (evalNet n (b.getRow 1).obsNext) none d := by
  obtain ⟨g, hg⟩ := exB_history
  refine ⟨exB, g, exQ, [10, 12], hg, ?_, by decide +kernel, by decide +kernel, ?_⟩
  · intro x; exact ⟨by simp [exQ], by simp [exQ], by simp⟩
  · rintro ⟨a, ⟨_, v, hv, hbest⟩, ha⟩
    have h1 := hbest 1 25 (by intro m hm; simp at hm) (by decide +kernel)
    match a, hv, ha with
    | 0, hv, _ =>
      have : v = 11 := by
        have e : ((evalNet exQ (exB.getRow 1).obsNext).map quantileValue)[0]? = some (11 : ℚ) := by decide +kernel
        rw [e] at hv; cases hv; rfl
      rw [this] at h1; norm_num at h1
    | 1, _, ha =>
      have e : (evalNet exQ (exB.getRow 1).obsNext)[1]? = some [(20 : ℚ), 30] := by decide +kernel
      rw [e] at ha
      revert ha; decide +kernel
    | a + 2, hv, _ => simp [evalNet, exQ] at hv

/-- The two networks disagree: the online network prefers action 0, whose quantiles are then taken from the target
network, shifted by the reward. -/
example : distReturns true (fun _ => quantileValue) exQ (ofBuf exB) (fun i => (exB.getRow i).obsNext) none [1] 1 1 =
    some [[12, 14]] := by decide +kernel

/-! ### The action values of the distributional policies -/

theorem c51Value_eq (p : C51 K) (d : List K) :
    c51Value p d = ∑ k ∈ Finset.range d.length, d.getD k 0 *
      (p.vMin + (k : K) * ((p.vMax - p.vMin) / ((p.numAtoms : K) - 1))) := by
  have h : ∀ (d : List K) (s : Nat), ((d.zipIdx s).map fun x => x.1 * p.atom x.2).sum =
      ∑ k ∈ Finset.range d.length, d.getD k 0 * p.atom (k + s) := by
    intro d
    induction d with
    | nil => intro s; simp
    | cons x t ih =>
      intro s
      rw [List.zipIdx_cons, List.map_cons, List.sum_cons, ih, List.length_cons, Finset.sum_range_succ', add_comm]
      simp only [List.getD_cons_zero, List.getD_cons_succ, Nat.zero_add]
      congr 1
      apply Finset.sum_congr rfl
      intro k _
      rw [show k + (s + 1) = k + 1 + s by omega]
  rw [c51Value, h d 0]
  rfl

theorem fqfValue_eq (taus d : List K) (h : taus.length = d.length + 1) :
    fqfValue taus d = ∑ k ∈ Finset.range d.length, (taus.getD (k + 1) 0 - taus.getD k 0) * d.getD k 0 := by
  induction d generalizing taus with
  | nil => simp [fqfValue]
  | cons x t ih =>
    match taus, h with
    | a :: b :: rest, h =>
      have e : fqfValue (a :: b :: rest) (x :: t) = (b - a) * x + fqfValue (b :: rest) t := by
        simp [fqfValue]
      rw [e, ih (b :: rest) (by simpa using h), List.length_cons, Finset.sum_range_succ', add_comm]
      simp

/-- C92: the values by which the distributional policies compare actions. For QRDQN and IQN it is the mean of the
quantiles; for C51 the mean of the distribution on the atoms, which are equally spaced from `v_min` to `v_max`; for FQF
the mean of the quantiles weighted with the widths of the fractions between which they stand. -/
theorem C92_action_values (p : C51 K) (taus d : List K) :
    quantileValue d = (∑ k ∈ Finset.range d.length, d.getD k 0) / d.length ∧
    c51Value p d = ∑ k ∈ Finset.range d.length, d.getD k 0 *
      (p.vMin + (k : K) * ((p.vMax - p.vMin) / ((p.numAtoms : K) - 1))) ∧
    (taus.length = d.length + 1 →
      fqfValue taus d = ∑ k ∈ Finset.range d.length, (taus.getD (k + 1) 0 - taus.getD k 0) * d.getD k 0) := by
  refine ⟨?_, c51Value_eq p d, fqfValue_eq taus d⟩
  rw [quantileValue, Ppo.mean]
  congr 1
  induction d with
  | nil => simp
  | cons x t ih =>
    rw [List.sum_cons, ih, List.length_cons, Finset.sum_range_succ', add_comm]
    simp

/-- With `fractions = [0, 1/4, 1]` the second quantile weighs three times the first. -/
example : fqfValue [0, 1 / 4, 1] [8, 4] = (5 : ℚ) ∧ c51Value ⟨3, -1, 1⟩ [1 / 4, 1 / 4, 1 / 2] = (1 / 4 : ℚ) ∧
    quantileValue [8, 4] = (6 : ℚ) := by decide +kernel

/-! ### C95 -/

/-- C95, what holds: if the return covers one step only (`estimation_step=1`, or the episode ends or is cut off there),
the target distribution is the projection of the returns of all atoms, weighted with the target network's distribution
of the action that is best for the online network in the next state. -/
theorem C95_one_step_partial {b : Buf O A K} {g : Ghost O A K} (h : History b g) (indices : List Nat)
    (hind : ∀ i ∈ indices, i ∈ b.idx.allIndices) (pr : C51 K) (isDouble : Bool) (n : Nets (Inp O) (List K))
    (mask : Option (Inp O → List Bool)) (hf : Fits n mask) (gamma : K) (N : Nat) (hN : 0 < N) :
    ∃ out, c51Targets pr isDouble n (ofBuf b) (fun i => (b.getRow i).obsNext)
        (mask.map fun m i => m (b.getRow i).obsNext) indices gamma N = some out ∧ out.length = indices.length ∧
      ∀ (p i k : Nat), indices[p]? = some i → b.idx.allIndices[k]? = some i → nstepLen (stored b) N k = 1 →
        ∃ (d : List K), DoubleTarget ((n.online (b.getRow i).obsNext).map (c51Value pr))
            (evalNet n (b.getRow i).obsNext) (mask.map fun m => m (b.getRow i).obsNext) d ∧
          out[p]? = some (pr.targetDist
            (((List.range pr.numAtoms).map pr.atom).map (nstepValue (stored b) gamma N k)) d) := by
  obtain ⟨after, ret, h1, h2, h3, h4⟩ := C36_buffer h indices hind
    (fun l => l.map fun _ => (List.range pr.numAtoms).map pr.atom) (by intro l; simp) gamma N hN
  have hlen : (distTarget isDouble (fun _ => c51Value pr) n (indices.map fun i => (b.getRow i).obsNext)
      ((mask.map fun m i => m (b.getRow i).obsNext).map fun m => indices.map m)).length = indices.length := by
    rw [distTarget_length, List.length_map]
    intro m hm
    cases mask with
    | none => simp at hm
    | some mk =>
      simp only [Option.map_some, Option.some.injEq] at hm
      subst hm; simp
  have hres := congrArg (Option.map fun returns => List.zipWith pr.targetDist returns
    (distTarget isDouble (fun _ => c51Value pr) n (indices.map fun i => (b.getRow i).obsNext)
      ((mask.map fun m i => m (b.getRow i).obsNext).map fun m => indices.map m))) h1
  refine ⟨_, hres, by rw [List.length_zipWith, h2, hlen, min_self], ?_⟩
  intro p i k hp hk h1s
  obtain ⟨h5, q, h6, h7⟩ := h4 p i k hp hk
  obtain ⟨hf1, hf2, hf3⟩ := hf (b.getRow i).obsNext
  obtain ⟨v, hv1, hv2⟩ := distTarget_get isDouble (fun _ => c51Value pr) n
    (indices.map fun i => (b.getRow i).obsNext)
    ((mask.map fun m i => m (b.getRow i).obsNext).map fun m => indices.map m) p (b.getRow i).obsNext
    (by simp [hp]) hf1 hf2 (by
      intro m hm
      cases mask with
      | none => simp at hm
      | some mk =>
        simp only [Option.map_some, Option.some.injEq] at hm
        subst hm
        exact ⟨mk (b.getRow i).obsNext, by simp [hp], hf3 mk rfl⟩)
  refine ⟨v, ?_, ?_⟩
  · rw [rowMask_map mask _ indices p i hp] at hv2
    exact hv2
  · have hq : q = (List.range pr.numAtoms).map pr.atom := by
      rw [List.getElem?_map] at h6
      cases ha : after[p]? with
      | none => rw [ha] at h6; simp at h6
      | some x => rw [ha] at h6; simpa using h6.symm
    rw [List.getElem?_zipWith, h7, hv1, hq]

/-- Two atoms 0 and 10, one action, a network that is certain of the value of each state: 10 after the first step
(observation 1), 0 later. -/
def exC : Nets (Inp Nat) (List ℚ) :=
  ⟨fun x => if x = [some (some 1)] then [[0, 1]] else [[1, 0]],
    fun x => if x = [some (some 1)] then [[0, 1]] else [[1, 0]], false⟩

def exAtoms : C51 ℚ := ⟨2, 0, 10⟩

/-- C95 is violated for `estimation_step=2`: the distribution mixed in is that of the state after one step, although
the return covers two. -/
theorem C95_violated : ∃ (b : Buf Nat Nat ℚ) (g : Ghost Nat Nat ℚ) (n : Nets (Inp Nat) (List ℚ)) (out : List ℚ),
    History b g ∧ Fits n none ∧ b.idx.allIndices = [0, 1, 2] ∧ nstepLen (stored b) 2 0 = 2 ∧
    c51Targets exAtoms true n (ofBuf b) (fun i => (b.getRow i).obsNext) none [0] 1 2 = some [out] ∧
    ∀ d, DoubleTarget ((n.online (b.getRow 1).obsNext).map (c51Value exAtoms))
        (evalNet n (b.getRow 1).obsNext) none d →
      out ≠ exAtoms.targetDist
        (((List.range exAtoms.numAtoms).map exAtoms.atom).map (nstepValue (stored b) 1 2 0)) d := by
  obtain ⟨g, hg⟩ := exB_history
  refine ⟨exB, g, exC, [0, 1], hg, ?_, by decide +kernel, by decide +kernel, by decide +kernel, ?_⟩
  · intro x
    refine ⟨?_, ?_, by simp⟩ <;> simp only [exC] <;> split_ifs <;> simp
  · rintro d ⟨a, ⟨_, v, hv, _⟩, ha⟩
    match a, ha with
    | 0, ha =>
      have e : (evalNet exC (exB.getRow 1).obsNext)[0]? = some [(1 : ℚ), 0] := by decide +kernel
      rw [e] at ha
      cases ha
      decide +kernel
    | a + 1, ha =>
      have e : evalNet exC (exB.getRow 1).obsNext = [[(1 : ℚ), 0]] := by decide +kernel
      rw [e] at ha
      simp at ha

example : c51Targets exAtoms true exC (ofBuf exB) (fun i => (exB.getRow i).obsNext) none [0, 1] 1 1 =
    some [[0, 1], [4 / 5, 1 / 5]] := by decide +kernel

/-! ### C94 -/

/-- C94: the losses of DQN without gradient clipping, QRDQN, IQN, FQF, C51, BDQ, and of the critics of DDPG, TD3, SAC
and discrete SAC are importance weighted. -/
theorem C94_weighted_partial (log : K → K) (eps : K) :
    ImportanceWeighted (dqnLoss (K := K) false) ∧ ImportanceWeighted (quantileLoss (K := K)) ∧
    ImportanceWeighted (c51Loss log eps) ∧ ImportanceWeighted (bdqLoss (K := K)) ∧
    ImportanceWeighted (criticLoss (K := K)) := by
  refine ⟨weighted_mean (fun r => (r.2 - r.1) ^ 2) _ fun rows ws => rfl,
    weighted_mean (fun r => quantileRow r.1 r.2.1 r.2.2) _ fun rows ws => rfl,
    weighted_mean (fun r => -(List.zipWith (fun t c => t * log (c + eps)) r.2 r.1).sum) _ fun rows ws => rfl,
    weighted_mean (fun r => Ppo.mean (List.zipWith
      (fun row a => (row.zipIdx.map fun x => if x.2 = a then (r.2.2 - x.1) ^ 2 else 0).sum) r.1 r.2.1)) _
      fun rows ws => rfl,
    weighted_mean (fun r => (r.1 - r.2) ^ 2) _ fun rows ws => rfl⟩

/-- C94 is violated by DQN with `clip_loss_grad=True`: the importance weights have no influence. -/
theorem C94_violated : (∀ (rows : List (K × K)) (ws ws' : List K), dqnLoss true rows ws = dqnLoss true rows ws') ∧
    ¬ ImportanceWeighted (dqnLoss (K := K) true) := by
  refine ⟨fun rows ws ws' => rfl, ?_⟩
  intro h
  have := h [(1, 0)] [0] rfl (by simp)
  simp [dqnLoss, Ppo.mean, huber] at this
  norm_num at this

example : dqnLoss false [((1 : ℚ), 3), (0, 1)] [1 / 2, 2] = 2 ∧ dqnLoss true [((1 : ℚ), 3), (0, 1)] [1 / 2, 2] = 1 := by
  decide +kernel

/-! ### C96 -/

/-- The networks have `D` branches, the same number of actions in both. -/
def Branching (n : Nets X (List K)) (D : Nat) : Prop :=
  0 < D ∧ ∀ x, (n.online x).length = D ∧ (n.old x).length = D ∧
    ∀ (d : Nat) (q o : List K), (n.online x)[d]? = some q → (n.old x)[d]? = some o → q ≠ [] ∧ o.length = q.length

/-- The value of branch `d` in the next state: as in (double) Q-learning. -/
def BranchTarget (isDouble : Bool) (n : Nets X (List K)) (x : X) (d : Nat) (v : K) : Prop :=
  ∃ q e, (n.online x)[d]? = some q ∧ (evalNet n x)[d]? = some e ∧
    (if isDouble then DoubleTarget q e none v else PlainTarget e none v)

theorem argmax_greedy (q : List K) (hq : q ≠ []) : Greedy q none (argmax q) := by
  obtain ⟨v, h1, h2, _⟩ := argmax_spec q hq
  exact ⟨fun m hm => by simp at hm, v, h1, fun b x _ hx => h2 b x hx⟩

theorem bdqRow_spec (isDouble : Bool) (n : Nets X (List K)) (D : Nat) (hb : Branching n D) (x : X) :
    (bdqRow isDouble (n.online x) (if n.hasTarget then n.old x else n.online x)).length = D ∧
    ∀ (d : Nat) (v : K), (bdqRow isDouble (n.online x) (if n.hasTarget then n.old x else n.online x))[d]? = some v →
      BranchTarget isDouble n x d v := by
  obtain ⟨_, hx⟩ := hb
  obtain ⟨h1, h2, h3⟩ := hx x
  have he : (evalNet n x).length = D := by unfold evalNet; split_ifs <;> assumption
  change (bdqRow isDouble (n.online x) (evalNet n x)).length = D ∧
    ∀ (d : Nat) (v : K), (bdqRow isDouble (n.online x) (evalNet n x))[d]? = some v → BranchTarget isDouble n x d v
  refine ⟨?_, ?_⟩
  · unfold bdqRow; rw [pick_length]; split_ifs <;> simp [h1, he]
  · intro d v hv
    have hd : d < D := by
      have := (List.getElem?_eq_some_iff.mp hv).1
      unfold bdqRow at this; rw [pick_length, he] at this; omega
    obtain ⟨q, hq⟩ : ∃ q, (n.online x)[d]? = some q := ⟨_, List.getElem?_eq_getElem (by omega)⟩
    obtain ⟨o, ho⟩ : ∃ o, (n.old x)[d]? = some o := ⟨_, List.getElem?_eq_getElem (by omega)⟩
    obtain ⟨e, hee⟩ : ∃ e, (evalNet n x)[d]? = some e := ⟨_, List.getElem?_eq_getElem (by omega)⟩
    obtain ⟨h4, h5⟩ := h3 d q o hq ho
    have hel : e.length = q.length := by
      unfold evalNet at hee
      split_ifs at hee
      · rw [ho] at hee; cases hee; exact h5
      · rw [hq] at hee; cases hee; rfl
    have hene : e ≠ [] := by
      intro h0; rw [h0] at hel; exact h4 (List.length_eq_zero_iff.1 hel.symm)
    refine ⟨q, e, hq, hee, ?_⟩
    have fin : ∀ (q : List K) (a : Nat), Greedy q none a → q.length = e.length → v = e.getD a 0 →
        DoubleTarget q e none v := by
      intro q a hg hl hv
      obtain ⟨w, hw, _⟩ := hg.2
      have := (List.getElem?_eq_some_iff.mp hw).1
      refine ⟨a, hg, ?_⟩
      rw [hv, List.getD_eq_getElem?_getD, List.getElem?_eq_getElem (by omega : a < e.length)]; rfl
    cases isDouble with
    | true =>
      rw [if_pos rfl]
      refine fin q _ (argmax_greedy q h4) hel.symm ?_
      unfold bdqRow at hv
      rw [if_pos rfl, pick_get 0 _ _ d (argmax q) e hee (by simp [hq])] at hv
      exact (Option.some.inj hv).symm
    | false =>
      rw [if_neg (by simp)]
      refine fin e _ (argmax_greedy e hene) rfl ?_
      unfold bdqRow at hv
      rw [if_neg (by simp), pick_get 0 _ _ d (argmax e) e hee (by simp [hee])] at hv
      exact (Option.some.inj hv).symm

theorem bdqMean_eq (rows : List (List K)) (D : Nat) (hD : ∀ row ∈ rows, row.length = D)
    (hc : 2 ≤ rows.length ∨ D = 1) (hpos : 0 < D) : bdqMean rows = rows.map Ppo.mean := by
  have h1 : D = 1 → rows.flatten = rows.map Ppo.mean := by
    rintro rfl
    clear hc
    induction rows with
    | nil => rfl
    | cons row rows ih =>
      have hr := hD row List.mem_cons_self
      match row, hr with
      | [x], _ =>
        rw [List.flatten_cons, List.map_cons, ih fun r hr => hD r (List.mem_cons_of_mem _ hr)]
        simp [Ppo.mean]
  unfold bdqMean
  by_cases hd : D = 1
  · split_ifs
    · exact h1 hd
    · rfl
  · rw [if_neg]
    rintro (h | h)
    · omega
    · obtain ⟨row, hrow⟩ := List.exists_mem_of_length_pos (l := rows) (by omega)
      exact hd ((hD row hrow).symm.trans (h row hrow))

/-- C96, what holds: with the discount factor 0.99, at least two rows (or a single branch), every row whose transition
terminated its episode, or neither ended it nor is the newest one of an open episode, has the target
`r + 0.99 · (mean over the branches of their Q-learning values)`, without the second term after a termination. -/
theorem C96_target_partial {b : Buf O A K} {g : Ghost O A K} (h : History b g) (indices : List Nat)
    (hind : ∀ i ∈ indices, i ∈ b.idx.allIndices) (isDouble : Bool) (n : Nets (Inp O) (List K)) (D : Nat)
    (hb : Branching n D) (hc : 2 ≤ indices.length ∨ D = 1) :
    ∃ out, bdqReturns isDouble n (ofBuf b) (fun i => (b.getRow i).obsNext) indices (99 / 100) = some out ∧
      out.length = indices.length ∧
      ∀ (p i k : Nat) (t : Trans O A K), indices[p]? = some i → b.idx.allIndices[k]? = some i →
        (content b g)[k]? = some t → (t.terminated = false → t.truncated = false ∧ k + 1 < b.len) →
        ∃ vs : List K, vs.length = D ∧
          (∀ (d : Nat) (v : K), vs[d]? = some v → BranchTarget isDouble n (b.getRow i).obsNext d v) ∧
          out[p]? = some (t.rew + 99 / 100 * if t.terminated then 0 else vs.sum / D) := by
  obtain ⟨rows, hrows⟩ : ∃ rows, rows = indices.map fun i =>
    bdqRow isDouble (n.online (b.getRow i).obsNext)
      (if n.hasTarget then n.old (b.getRow i).obsNext else n.online (b.getRow i).obsNext) := ⟨_, rfl⟩
  have hD : ∀ row ∈ rows, row.length = D := by
    intro row hr
    rw [hrows] at hr
    obtain ⟨i, _, rfl⟩ := List.mem_map.1 hr
    exact (bdqRow_spec isDouble n D hb _).1
  have hm : bdqMean rows = rows.map Ppo.mean := bdqMean_eq rows D hD (by rw [hrows]; simpa using hc) hb.1
  have hres : bdqReturns isDouble n (ofBuf b) (fun i => (b.getRow i).obsNext) indices (99 / 100) =
      some (List.zipWith (fun (re : K × Bool) x => re.1 + 99 / 100 * x * (if re.2 then 0 else 1))
        ((indices.map (ofBuf b).rew).zip (indices.map fun i => (ofBuf b).done i || (ofBuf b).unfinished.contains i))
        (rows.map Ppo.mean)) := by
    unfold bdqReturns
    rw [← hrows]
    simp only [hm]
    unfold bdqBroadcast
    rw [if_pos (by simp [hrows])]
  refine ⟨_, hres, by simp [hrows], ?_⟩
  intro p i k t hp hk ht hend
  have hs := shows_buf h
  obtain ⟨hd1, hd2⟩ := hs.ended k i t hk ht
  have hrew : (ofBuf b).rew i = t.rew := by rw [hs.rew k i hk]; simp [rewOf, ht]
  have hlen : (content b g).length = b.len := h.holds.len
  refine ⟨bdqRow isDouble (n.online (b.getRow i).obsNext)
    (if n.hasTarget then n.old (b.getRow i).obsNext else n.online (b.getRow i).obsNext),
    (bdqRow_spec isDouble n D hb _).1, (bdqRow_spec isDouble n D hb _).2, ?_⟩
  have hflag : ((ofBuf b).done i || (ofBuf b).unfinished.contains i) = t.terminated := by
    rw [hd1]
    cases htt : t.terminated with
    | true => simp [Trans.done, htt]
    | false =>
      obtain ⟨h1, h2⟩ := hend htt
      have : ¬ ((ofBuf b).unfinished.contains i = true) := by
        rw [hd2]; rintro ⟨h3, _⟩; omega
      rw [Bool.not_eq_true] at this
      rw [this]; simp [Trans.done, htt, h1]
  have hz : ((indices.map (ofBuf b).rew).zip
      (indices.map fun i => (ofBuf b).done i || (ofBuf b).unfinished.contains i))[p]? =
      some (t.rew, t.terminated) := by
    rw [List.getElem?_zip_eq_some]
    exact ⟨by simp only [List.getElem?_map, hp, Option.map_some, hrew],
      by simp only [List.getElem?_map, hp, Option.map_some, hflag]⟩
  rw [List.getElem?_zipWith, hz]
  simp only [hrows, List.getElem?_map, hp, Option.map_some]
  rw [Ppo.mean, (bdqRow_spec isDouble n D hb _).1]
  cases t.terminated <;> simp

/-- Two branches with two actions each. -/
def exD : Nets (Inp Nat) (List ℚ) := ⟨fun _ => [[1, 0], [0, 1]], fun _ => [[100, 0], [0, 300]], true⟩

theorem exD_branching : Branching exD 2 := by
  refine ⟨by norm_num, fun x => ⟨rfl, rfl, ?_⟩⟩
  intro d q o hq ho
  match d, hq, ho with
  | 0, hq, ho => simp [exD] at hq ho; subst hq ho; simp
  | 1, hq, ho => simp [exD] at hq ho; subst hq ho; simp

example : bdqReturns true exD (ofBuf exB) (fun i => (exB.getRow i).obsNext) [0, 1] (99 / 100) =
    some [1 + 198, 2 + 198] := by decide +kernel

/-- C96 is violated in three ways: the policy's discount factor has no influence; a batch with one row and two branches
yields one target per branch instead of their mean; and a truncated transition is not bootstrapped. -/
theorem C96_violated : (∀ (isDouble : Bool) (n : Nets X (List K)) (w : View K) (inputs : Nat → X) (indices : List Nat)
      (d d' : K), bdqReturns isDouble n w inputs indices d = bdqReturns isDouble n w inputs indices d') ∧
    (∃ (b : Buf Nat Nat ℚ) (g : Ghost Nat Nat ℚ) (n : Nets (Inp Nat) (List ℚ)), History b g ∧ Branching n 2 ∧
      b.idx.allIndices = [0, 1, 2] ∧
      (content b g)[2]? = some ⟨2, 0, 4, false, true, some 3⟩ ∧
      bdqReturns true n (ofBuf b) (fun i => (b.getRow i).obsNext) [0] (99 / 100) = some [1 + 99, 1 + 297] ∧
      bdqReturns true n (ofBuf b) (fun i => (b.getRow i).obsNext) [0, 2] (99 / 100) = some [1 + 198, 4]) := by
  refine ⟨fun _ _ _ _ _ _ _ => rfl, ?_⟩
  obtain ⟨g, hg⟩ := exB_history
  refine ⟨exB, g, exD, hg, exD_branching, by decide +kernel, ?_, by decide +kernel, by decide +kernel⟩
  rw [← (data_at hg (k := 2) (i := 2) (by decide +kernel)).1]
  rfl

/-! ### C97 -/

/-- C97, what holds: after exploration each action whose entry in the mask (if there is one) is not set is one of the `n` actions of its
branch; the rows that explore take the random actions there, the others are unchanged. -/
theorem C97_explore_partial (eps : K) (isClose : Bool) (u : Nat → K) (rand : Nat → Nat → Nat) (mask : Option (Nat → Nat → Bool)) (n : Nat)
    (hrand : ∀ i j, rand i j < n) (act : List (List Nat)) (hact : ∀ row ∈ act, ∀ a ∈ row, a < n) :
    (bdqExplore eps isClose u rand mask act).map List.length = act.map List.length ∧
    (∀ (r : Nat) (row : List Nat), (bdqExplore eps isClose u rand mask act)[r]? = some row → ∀ (j a : Nat), row[j]? = some a →
      (∀ m, mask = some m → m r j = false) → a < n ∧ (isClose = false → u r < eps → a = rand r j)) ∧
    (∀ (r : Nat) (row : List Nat), act[r]? = some row → isClose = true ∨ eps ≤ u r →
      (bdqExplore eps isClose u rand mask act)[r]? = some row) := by
  unfold bdqExplore
  cases isClose with
  | true =>
    refine ⟨rfl, fun r row hr j a hj _ => ⟨hact row (List.mem_of_getElem? hr) a (List.mem_of_getElem? hj), by simp⟩,
      fun r row hr _ => hr⟩
  | false =>
    simp only [Bool.false_eq_true, if_false, false_or]
    refine ⟨?_, ?_, ?_⟩
    · apply List.ext_getElem?
      intro i
      simp only [List.getElem?_map, List.getElem?_zipIdx]
      cases act[i]? with
      | none => rfl
      | some row =>
        simp only [Option.map_some, Option.some.injEq]
        split_ifs <;> simp
    · intro r row hrow j a hj hm
      simp only [List.getElem?_map, List.getElem?_zipIdx, Nat.zero_add, Option.map_eq_some_iff] at hrow
      obtain ⟨p, ⟨row', hr', rfl⟩, hrow⟩ := hrow
      simp only at hrow
      by_cases hu : u r < eps
      · rw [if_pos hu] at hrow
        subst hrow
        simp only [List.getElem?_map, List.getElem?_zipIdx, Nat.zero_add, Option.map_eq_some_iff] at hj
        obtain ⟨q, ⟨x, _, rfl⟩, rfl⟩ := hj
        cases mask with
        | none => exact ⟨hrand r j, fun _ _ => rfl⟩
        | some m =>
          simp only [hm m rfl, Bool.false_eq_true, if_false]
          exact ⟨hrand r j, fun _ _ => rfl⟩
      · rw [if_neg hu] at hrow
        subst hrow
        exact ⟨hact _ (List.mem_of_getElem? hr') a (List.mem_of_getElem? hj), fun _ h => absurd h hu⟩
    · intro r row hr hu
      simp only [List.getElem?_map, List.getElem?_zipIdx, hr, Option.map_some, Nat.zero_add]
      rw [if_neg (not_lt.2 hu)]

/-- C97 is violated with masks: they are added to the random actions, so the action can be the first one that does
not exist. -/
theorem C97_violated (n : Nat) (hn : 0 < n) : ∃ (rand : Nat → Nat → Nat) (mask : Nat → Nat → Bool),
    (∀ i j, rand i j < n) ∧ bdqExplore (1 : ℚ) false (fun _ => 0) rand (some mask) [[0]] = [[n]] := by
  refine ⟨fun _ _ => n - 1, fun _ _ => true, fun _ _ => Nat.sub_lt hn one_pos, ?_⟩
  simp [bdqExplore, Nat.sub_add_cancel hn]

example : bdqExplore (1 / 2 : ℚ) false (fun i => if i = 0 then 0 else 1) (fun i j => i + j) none [[4, 4], [4, 4]] =
    [[0, 1], [4, 4]] := by decide +kernel

/-! ### C98 -/

/-- C98: the fractions of QRDQN are the midpoints `(2i + 1) / (2n)`, which lie strictly between 0 and 1. -/
theorem C98_midpoints (n : Nat) (hn : 0 < n) : (tauHat (K := K) n).length = n ∧
    ∀ i < n, (tauHat (K := K) n)[i]? = some ((2 * (i : K) + 1) / (2 * (n : K))) ∧
      0 < (2 * (i : K) + 1) / (2 * (n : K)) ∧ (2 * (i : K) + 1) / (2 * (n : K)) < 1 := by
  have hn' : (0 : K) < n := by exact_mod_cast hn
  refine ⟨by simp [tauHat], ?_⟩
  intro i hi
  refine ⟨?_, by positivity, ?_⟩
  · unfold tauHat
    simp only [List.getElem?_zipWith, List.getElem?_map, List.getElem?_tail]
    rw [List.getElem?_range (by omega : i < n + 1), List.getElem?_range (by omega : i + 1 < n + 1)]
    simp only [Option.map_some, Option.some.injEq]
    field_simp
    push_cast; ring
  · rw [div_lt_one (by positivity)]
    have : (i : K) + 1 ≤ n := by exact_mod_cast hi
    linarith

theorem huber_nonneg (x : K) : 0 ≤ huber x := by
  unfold huber
  split_ifs with h
  · positivity
  · push Not at h; linarith

theorem huber_eq_zero (x : K) : huber x = 0 ↔ x = 0 := by
  unfold huber
  split_ifs with h
  · constructor
    · intro h0
      have : x ^ 2 = 0 := by linarith
      exact pow_eq_zero_iff (two_ne_zero) |>.1 this
    · rintro rfl; simp
  · push Not at h
    constructor
    · intro h0; linarith
    · rintro rfl; simp at h; linarith

/-- C98: the quantile loss of a row is never negative, and (with fractions strictly between 0 and 1) zero exactly if
all quantiles agree with all targets. -/
theorem C98_loss (taus cur target : List K) (hlen : taus.length = cur.length) (hne : cur ≠ [])
    (ht : ∀ t ∈ taus, 0 < t ∧ t < 1) :
    0 ≤ quantileRow taus cur target ∧
    (quantileRow taus cur target = 0 ↔ ∀ c ∈ cur, ∀ t ∈ target, t = c) := by
  have hw : ∀ (tau x : K), 0 < tau → tau < 1 → 0 < |tau - if x ≤ 0 then 1 else 0| := by
    intro tau x h1 h2
    rw [abs_pos]
    split_ifs
    · linarith
    · linarith
  have hinner : ∀ tau c, 0 < tau → tau < 1 →
      0 ≤ (target.map fun t => huber (t - c) * |tau - if t - c ≤ 0 then 1 else 0|).sum ∧
      ((target.map fun t => huber (t - c) * |tau - if t - c ≤ 0 then 1 else 0|).sum = 0 ↔ ∀ t ∈ target, t = c) := by
    intro tau c h1 h2
    induction target with
    | nil => simp
    | cons t ts ih =>
      obtain ⟨ih1, ih2⟩ := ih
      have h0 : 0 ≤ huber (t - c) * |tau - if t - c ≤ 0 then 1 else 0| :=
        mul_nonneg (huber_nonneg _) (abs_nonneg _)
      simp only [List.map_cons, List.sum_cons, List.mem_cons, forall_eq_or_imp]
      refine ⟨add_nonneg h0 ih1, ?_⟩
      rw [add_eq_zero_iff_of_nonneg h0 ih1, ih2, mul_eq_zero, huber_eq_zero, sub_eq_zero]
      have := (hw tau (t - c) h1 h2).ne'
      tauto
  have houter : ∀ (taus cur : List K), taus.length = cur.length → (∀ t ∈ taus, 0 < t ∧ t < 1) →
      0 ≤ (List.zipWith (fun tau c =>
        (target.map fun t => huber (t - c) * |tau - if t - c ≤ 0 then 1 else 0|).sum) taus cur).sum ∧
      ((List.zipWith (fun tau c =>
        (target.map fun t => huber (t - c) * |tau - if t - c ≤ 0 then 1 else 0|).sum) taus cur).sum = 0 ↔
          ∀ c ∈ cur, ∀ t ∈ target, t = c) := by
    intro taus
    induction taus with
    | nil =>
      intro cur hlen _
      have : cur = [] := List.length_eq_zero_iff.1 hlen.symm
      subst this; simp
    | cons tau taus ih =>
      intro cur hlen ht
      match cur, hlen with
      | c :: cur, hlen =>
        obtain ⟨i1, i2⟩ := ih cur (by simpa using hlen) fun t h => ht t (List.mem_cons_of_mem _ h)
        obtain ⟨h1, h2⟩ := ht tau List.mem_cons_self
        obtain ⟨j1, j2⟩ := hinner tau c h1 h2
        simp only [List.zipWith_cons_cons, List.sum_cons, List.mem_cons, forall_eq_or_imp]
        exact ⟨add_nonneg j1 i1, by rw [add_eq_zero_iff_of_nonneg j1 i1, j2, i2]⟩
  obtain ⟨k1, k2⟩ := houter taus cur hlen ht
  have hlenpos : (0 : K) < (taus.length : K) := by
    rw [hlen]; exact_mod_cast List.length_pos_iff.2 hne
  unfold quantileRow Ppo.mean
  rw [List.length_zipWith, hlen, min_self, ← hlen]
  refine ⟨div_nonneg k1 hlenpos.le, ?_⟩
  rw [div_eq_zero_iff, k2]
  simp [hlenpos.ne']

/-- C98: an estimate below the target is charged with weight `tau`, one above with `1 - tau`. -/
theorem C98_asymmetric (tau c t : K) (h0 : 0 ≤ tau) (h1 : tau ≤ 1) :
    (c < t → quantileRow [tau] [c] [t] = tau * huber (t - c)) ∧
    (t ≤ c → quantileRow [tau] [c] [t] = (1 - tau) * huber (t - c)) := by
  refine ⟨fun h => ?_, fun h => ?_⟩
  · have : ¬ (t - c ≤ 0) := by linarith
    simp only [quantileRow, Ppo.mean, List.zipWith_cons_cons, List.zipWith_nil_right, List.map_cons, List.map_nil,
      List.sum_cons, List.sum_nil, List.length_cons, List.length_nil, if_neg this]
    rw [sub_zero, abs_of_nonneg h0]; simp; ring
  · have : t - c ≤ 0 := by linarith
    simp only [quantileRow, Ppo.mean, List.zipWith_cons_cons, List.zipWith_nil_right, List.map_cons, List.map_nil,
      List.sum_cons, List.sum_nil, List.length_cons, List.length_nil, if_pos this]
    rw [abs_of_nonpos (by linarith)]; simp; ring

example : tauHat (K := ℚ) 2 = [1 / 4, 3 / 4] ∧ quantileRow (tauHat (K := ℚ) 2) [0, 2] [2, 2] = 3 / 8 := by
  decide +kernel

/-! ### C99 -/

/-- The probability the imitator gives to action `a`. -/
noncomputable def softmax (logits : List ℝ) (a : Nat) : ℝ :=
  Real.exp (logits.getD a 0) / (logits.map Real.exp).sum

/-- Action `a` is likely enough for the behaviour policy: at least `tau` times as likely as any other. -/
def Likely (tau : ℝ) (logits : List ℝ) (a : Nat) : Prop :=
  ∀ b < logits.length, tau * softmax logits b ≤ softmax logits a

theorem likely_iff (tau : ℝ) (ht : 0 < tau) (logits : List ℝ) (a : Nat) (ha : a < logits.length) :
    Likely tau logits a ↔ Real.log tau ≤ logits.getD a 0 - maxOf logits := by
  have hne : logits ≠ [] := by rintro rfl; simp at ha
  have hsum : 0 < (logits.map Real.exp).sum := by
    refine List.sum_pos _ (by
      intro x hx
      obtain ⟨y, _, rfl⟩ := List.mem_map.1 hx
      exact Real.exp_pos y) (by simpa using hne)
  have key : ∀ x y : ℝ, tau * (Real.exp x / (logits.map Real.exp).sum) ≤ Real.exp y / (logits.map Real.exp).sum ↔
      Real.log tau ≤ y - x := by
    intro x y
    rw [← mul_div_assoc, div_le_div_iff_of_pos_right hsum, ← le_div_iff₀ (Real.exp_pos x), ← Real.exp_sub,
      ← Real.log_le_iff_le_exp ht]
  obtain ⟨m, hm, hmv⟩ := List.getElem_of_mem (maxOf_mem logits hne)
  have hmd : logits.getD m 0 = maxOf logits := by
    rw [List.getD_eq_getElem?_getD, List.getElem?_eq_getElem hm, Option.getD_some, hmv]
  unfold Likely softmax
  constructor
  · intro h
    have := (key _ _).1 (h m hm)
    rwa [hmd] at this
  · intro h b hb
    rw [key]
    have hle : logits.getD b 0 ≤ maxOf logits := by
      rw [List.getD_eq_getElem?_getD, List.getElem?_eq_getElem hb, Option.getD_some]
      exact le_maxOf _ _ (List.getElem_mem hb)
    linarith

/-- C99: the action of discrete BCQ is one whose probability under the imitator is at least
`unlikely_action_threshold` times the largest, and has the largest Q-value among these, as long as no two Q-values
differ by `inf` or more. -/
theorem C99_filter (inf tau : ℝ) (ht : 0 < tau) (ht1 : tau < 1) (q logits : List ℝ)
    (hlen : q.length = logits.length) (hne : logits ≠ [])
    (hinf : ∀ (a b : Nat) (x y : ℝ), q[a]? = some x → q[b]? = some y → x - y < inf) :
    ∃ v, q[bcqAct inf (some (Real.log tau)) q logits]? = some v ∧
      Likely tau logits (bcqAct inf (some (Real.log tau)) q logits) ∧
      ∀ (b : Nat) (x : ℝ), q[b]? = some x → Likely tau logits b → x ≤ v := by
  obtain ⟨z, hz⟩ : ∃ z, z = List.zipWith (fun x l => x - inf * (if l - maxOf logits < Real.log tau then 1 else 0))
    q logits := ⟨_, rfl⟩
  have hzlen : z.length = logits.length := by rw [hz, List.length_zipWith, hlen, min_self]
  have hzne : z ≠ [] := by
    intro h0; rw [h0] at hzlen; exact hne (List.length_eq_zero_iff.1 hzlen.symm)
  have hzget : ∀ (a : Nat) (x l : ℝ), q[a]? = some x → logits[a]? = some l →
      z[a]? = some (x - inf * (if l - maxOf logits < Real.log tau then 1 else 0)) := by
    intro a x l hx hl
    rw [hz, List.getElem?_zipWith, hx, hl]
  have hact : bcqAct inf (some (Real.log tau)) q logits = argmax z := by rw [hz]; rfl
  obtain ⟨w, h1, h2, _⟩ := argmax_spec z hzne
  have hlt : argmax z < logits.length := by rw [← hzlen]; exact (List.getElem?_eq_some_iff.mp h1).1
  rw [hact]
  obtain ⟨a, ha⟩ : ∃ a, a = argmax z := ⟨_, rfl⟩
  rw [← ha] at h1 hlt ⊢
  obtain ⟨x, hx⟩ : ∃ x, q[a]? = some x := ⟨_, List.getElem?_eq_getElem (by omega)⟩
  obtain ⟨l, hl⟩ : ∃ l, logits[a]? = some l := ⟨_, List.getElem?_eq_getElem hlt⟩
  obtain ⟨m, hm, hmv⟩ := List.getElem_of_mem (maxOf_mem logits hne)
  have hml : logits[m]? = some (maxOf logits) := by rw [List.getElem?_eq_getElem hm, hmv]
  obtain ⟨y, hy⟩ : ∃ y, q[m]? = some y := ⟨_, List.getElem?_eq_getElem (by omega)⟩
  have hlog : Real.log tau < 0 := Real.log_neg ht ht1
  have hzm := hzget m y _ hy hml
  rw [if_neg (by linarith), mul_zero, sub_zero] at hzm
  have hza := hzget a x l hx hl
  rw [h1] at hza
  have hw := Option.some.inj hza
  have hgetD : ∀ {b : Nat} {t : ℝ}, logits[b]? = some t → logits.getD b 0 = t := by
    intro b t h; rw [List.getD_eq_getElem?_getD, h]; rfl
  have hlikely : ¬ (l - maxOf logits < Real.log tau) := by
    intro hc
    rw [if_pos hc, mul_one] at hw
    have := h2 m y hzm
    have := hinf a m x y hx hy
    linarith
  rw [if_neg hlikely, mul_zero, sub_zero] at hw
  refine ⟨x, hx, ?_, ?_⟩
  · rw [likely_iff tau ht logits a hlt, hgetD hl]; exact not_lt.1 hlikely
  · intro b x' hx' hb
    have hblt : b < logits.length := by rw [← hlen]; exact (List.getElem?_eq_some_iff.mp hx').1
    obtain ⟨l', hl'⟩ : ∃ l', logits[b]? = some l' := ⟨_, List.getElem?_eq_getElem hblt⟩
    rw [likely_iff tau ht logits b hblt, hgetD hl'] at hb
    have := h2 b x' (by rw [hzget b x' l' hx' hl', if_neg (not_lt.2 hb), mul_zero, sub_zero])
    linarith

/-- C99 with threshold 0: the action of the largest Q-value. -/
theorem C99_unfiltered (inf : K) (q logits : List K) (hlen : q.length = logits.length) (hne : q ≠ []) :
    Greedy q none (bcqAct inf none q logits) := by
  have : bcqAct inf none q logits = argmax q := by
    unfold bcqAct
    congr 1
    apply List.ext_getElem?
    intro i
    rw [List.getElem?_zipWith]
    cases hq : q[i]? with
    | none => rfl
    | some x =>
      have := (List.getElem?_eq_some_iff.mp hq).1
      rw [List.getElem?_eq_getElem (by omega : i < logits.length)]
      simp
  rw [this]; exact argmax_greedy q hne

/-- The best action is too unlikely. -/
example : bcqAct (1000 : ℚ) (some (-1)) [5, 3, 4] [-3, 0, -1 / 2] = 2 ∧ bcqAct (1000 : ℚ) none [5, 3, 4] [-3, 0, -1 / 2] = 0 := by
  decide +kernel

end Verif.QTarget
