import Verif.Model.ComputeAction
import Mathlib.MeasureTheory.Measure.Lebesgue.Basic
import Mathlib.Tactic.Linarith
import Mathlib.Tactic.Ring

/-!
C233: the random policy. C234: `compute_action`.
-/

namespace Verif.ComputeAction

open Verif.Policy

variable {K : Type} [Field K] [LinearOrder K]

/-! ### C233 -/

/-- A result of `sample()` of the box. -/
def IsSample (low high row : List K) : Prop :=
  row.length = low.length ∧ row.length = high.length ∧
    ∀ (i : Nat) (x l u : K), row[i]? = some x → low[i]? = some l → high[i]? = some u → l ≤ x ∧ x ≤ u

theorem clip_eq [IsStrictOrderedRing K] (x : K) : clip1 x = x ↔ -1 ≤ x ∧ x ≤ 1 := by
  unfold clip1
  constructor
  · intro e
    rw [← e]
    exact ⟨le_min (le_max_right _ _) (by linarith), min_le_right _ _⟩
  · rintro ⟨h1, h2⟩
    rw [max_eq_left h1, min_eq_left h2]

/-- **C233, exactly.** The environments receive the sampled actions if and only if all their components are in `[-1, 1]`. -/
theorem C233_exact [IsStrictOrderedRing K] (tanh : K → K) (low high : List K) (samples : List (List K)) :
    randomActions tanh low high samples = .ok samples ↔ ∀ row ∈ samples, ∀ x ∈ row, -1 ≤ x ∧ x ≤ 1 := by
  unfold randomActions Policy.mapAction randomPolicy
  simp only [Bool.false_eq_true, if_false, Except.ok.injEq]
  constructor
  · intro e row hr x hx
    have h1 := List.map_eq_map_iff.mp (e.trans (List.map_id samples).symm) row hr
    have h2 := List.map_eq_map_iff.mp (h1.trans (List.map_id row).symm) x hx
    exact (clip_eq x).mp h2
  · intro h
    refine (List.map_congr_left fun row hr => ?_).trans (List.map_id samples)
    refine (List.map_congr_left fun x hx => ?_).trans (List.map_id row)
    exact (clip_eq x).mpr (h row hr x hx)

/-- **C233 (partial).** For boxes within `[-1, 1]` the environments receive the actions that `sample()` of the space returned.
Missing: other boxes (`C233_outside_violated`, `C233_violated`). -/
theorem C233_partial [IsStrictOrderedRing K] (tanh : K → K) (low high : List K) (hl : ∀ l ∈ low, -1 ≤ l)
    (hu : ∀ u ∈ high, u ≤ 1) (samples : List (List K)) (hs : ∀ row ∈ samples, IsSample low high row) :
    randomActions tanh low high samples = .ok samples := by
  refine (C233_exact tanh low high samples).mpr fun row hr x hx => ?_
  obtain ⟨h1, h2, h3⟩ := hs row hr
  obtain ⟨i, hi, rfl⟩ := List.getElem_of_mem hx
  have hil : i < low.length := by omega
  have hih : i < high.length := by omega
  obtain ⟨a, b⟩ := h3 i row[i] low[i] high[i] (List.getElem?_eq_getElem hi) (List.getElem?_eq_getElem hil)
    (List.getElem?_eq_getElem hih)
  exact ⟨(hl _ (List.getElem_mem hil)).trans a, b.trans (hu _ (List.getElem_mem hih))⟩

example : (∀ l ∈ [(-1 : ℚ), 0], -1 ≤ l) ∧ IsSample [(-1 : ℚ), 0] [1, 1] [1 / 2, 1 / 3] := by
  refine ⟨by intro l hl; fin_cases hl <;> norm_num, rfl, rfl, ?_⟩
  intro i x l u h1 h2 h3
  rcases i with _ | _ | i
  · simp at h1 h2 h3; subst h1 h2 h3; norm_num
  · simp at h1 h2 h3; subst h1 h2 h3; norm_num
  · simp at h1

/-- **C233 is violated**: if in some dimension the box has no number in common with `[-1, 1]`, no action that an environment
receives is in its action space. -/
theorem C233_outside_violated [IsStrictOrderedRing K] (tanh : K → K) (low high : List K) (i : Nat) (l u : K)
    (hl : low[i]? = some l) (hu : high[i]? = some u) (hout : 1 < l ∨ u < -1) (samples : List (List K)) :
    ∃ acts, randomActions tanh low high samples = .ok acts ∧ acts.length = samples.length ∧
      ∀ row ∈ acts, ¬ IsSample low high row := by
  refine ⟨_, rfl, by simp [randomPolicy], ?_⟩
  intro row hr hin
  obtain ⟨src, hsrc, rfl⟩ := List.mem_map.mp hr
  obtain ⟨h1, h2, h3⟩ := hin
  rw [List.length_map] at h1
  have hil : i < src.length := by rw [h1]; exact (List.getElem?_eq_some_iff.mp hl).1
  have hx : (src.map (bound1 tanh Bound.clip))[i]? = some (clip1 src[i]) := by
    rw [List.getElem?_map, List.getElem?_eq_getElem hil]; rfl
  obtain ⟨a, b⟩ := h3 i _ l u hx hl hu
  have c1 : clip1 src[i] ≤ 1 := min_le_right _ _
  have c2 : -1 ≤ clip1 src[i] := le_min (le_max_right _ _) (by linarith)
  rcases hout with h | h
  · exact absurd (h.trans_le (a.trans c1)) (lt_irrefl _)
  · exact absurd ((c2.trans b).trans_lt h) (lt_irrefl _)

example : randomActions id [(2 : ℚ)] [3] [[5 / 2], [3]] = .ok [[1], [1]] := by
  unfold randomActions Policy.mapAction randomPolicy bound1 clip1
  norm_num

/-- **C233 is violated**: in the box `[-a, a]` with `a > 1`, actions are drawn uniformly from an interval of length `2a`; a part
of length `a - 1` of it makes the environment receive 1, which `sample()` never returns (up to probability zero), and no action
above 1 is ever received. -/
theorem C233_violated (tanh : ℝ → ℝ) (a : ℝ) (ha : 1 < a) :
    MeasureTheory.volume ({x : ℝ | randomActions tanh [-a] [a] [[x]] = .ok [[1]]} ∩ Set.Icc (-a) a) = ENNReal.ofReal (a - 1) ∧
    MeasureTheory.volume ({x : ℝ | x = 1} ∩ Set.Icc (-a) a) = 0 ∧
    ∀ x y : ℝ, randomActions tanh [-a] [a] [[x]] = .ok [[y]] → y ≤ 1 := by
  refine ⟨?_, ?_, ?_⟩
  · have : ({x : ℝ | randomActions tanh [-a] [a] [[x]] = .ok [[1]]} ∩ Set.Icc (-a) a) = Set.Icc 1 a := by
      ext x
      simp only [Set.mem_inter_iff, Set.mem_ofPred_eq, Set.mem_Icc, randomActions, Policy.mapAction, randomPolicy, bound1,
        List.map_cons, List.map_nil, Bool.false_eq_true, if_false, Except.ok.injEq, List.cons.injEq, and_true]
      unfold clip1
      constructor
      · rintro ⟨h1, h2, h3⟩
        refine ⟨?_, h3⟩
        by_contra hx
        push Not at hx
        have : max x (-1) < 1 := max_lt hx (by norm_num)
        rw [min_eq_left this.le] at h1
        linarith
      · rintro ⟨h1, h2⟩
        exact ⟨by rw [max_eq_left (by linarith), min_eq_right h1], by linarith, h2⟩
    rw [this, Real.volume_Icc]
  · refine MeasureTheory.measure_mono_null Set.inter_subset_left ?_
    simp
  · intro x y h
    simp only [randomActions, Policy.mapAction, randomPolicy, bound1, List.map_cons, List.map_nil, Bool.false_eq_true,
      if_false, Except.ok.injEq, List.cons.injEq, and_true] at h
    rw [← h]
    exact min_le_right _ _

/-! ### C234 -/

/-- `idx` is the position of an entry of an array of shape `s`. -/
def Inside (s idx : List Nat) : Prop := List.Forall₂ (fun i d => i < d) idx s

/-- `action_space.contains` for a box, for an array of numbers: the shape and the bounds. -/
def Contains (low high : NArr K) (a : NArr K) : Prop :=
  a.shape = low.shape ∧ ∀ idx, Inside low.shape idx → low.at' idx ≤ a.at' idx ∧ a.at' idx ≤ high.at' idx

theorem mem_indices (s idx : List Nat) : idx ∈ indices s ↔ Inside s idx := by
  induction s generalizing idx with
  | nil => simp [indices, Inside]
  | cons d s ih =>
    simp only [indices, List.mem_flatMap, List.mem_range, List.mem_map, Inside]
    constructor
    · rintro ⟨i, hi, r, hr, rfl⟩
      exact .cons hi ((ih r).mp hr)
    · intro h
      cases h with
      | cons h1 h2 => exact ⟨_, h1, _, (ih _).mpr h2, rfl⟩

theorem brev_nil_right (s : List Nat) : brev s [] = some s := by cases s <;> rfl

theorem brev_self_append (t r : List Nat) : brev (t ++ r) t = some (t ++ r) := by
  induction t with
  | nil => simp [brev_nil_right]
  | cons d t ih => simp [brev, ih]

/-- Broadcasting the squeezed shape against the shape gives the shape only if no dimension of size one comes before
(in reversed order) another one. -/
theorem brev_filter (s : List Nat) (h : brev s (s.filter (· ≠ 1)) = some s) :
    ∀ a b, s = a ++ 1 :: b → ∀ d ∈ b, d = 1 := by
  induction s with
  | nil => intro a b e; simp at e
  | cons d s ih =>
    by_cases hd : d = 1
    · subst hd
      intro a b e
      have hall : ∀ x ∈ s, x = 1 := by
        by_contra hex
        push Not at hex
        obtain ⟨x, hx, hx1⟩ := hex
        cases hf : s.filter (· ≠ 1) with
        | nil =>
          have : x ∈ s.filter (· ≠ 1) := List.mem_filter.mpr ⟨hx, by simpa using hx1⟩
          rw [hf] at this
          simp at this
        | cons y t =>
          have hy : y ≠ 1 := by
            have : y ∈ s.filter (· ≠ 1) := by rw [hf]; simp
            simpa using (List.mem_filter.mp this).2
          have e1 : (1 :: s).filter (· ≠ 1) = y :: t := by rw [List.filter_cons]; simpa using hf
          rw [e1] at h
          simp only [brev] at h
          rw [if_neg (by rintro (h | h) <;> [exact hy h.symm; exact hy h]), if_pos trivial] at h
          rw [Option.map_eq_some_iff] at h
          obtain ⟨_, -, h⟩ := h
          injection h with h _
          exact hy h
      cases a with
      | nil => simp at e; subst e; exact hall
      | cons x a =>
        simp at e
        intro z hz
        exact hall z (by rw [e.2]; simp [hz])
    · have e1 : (d :: s).filter (· ≠ 1) = d :: s.filter (· ≠ 1) := by rw [List.filter_cons]; simp [hd]
      rw [e1] at h
      simp only [brev, true_or, if_true] at h
      rw [Option.map_eq_some_iff] at h
      obtain ⟨r, h1, h2⟩ := h
      injection h2 with _ h2
      subst h2
      intro a b e
      cases a with
      | nil => simp at e; exact absurd e.1 hd
      | cons x a =>
        simp at e
        exact ih h1 a b e.2

/-- The dimensions of size one, if there are any, are the first ones. -/
def OnesFirst (s : List Nat) : Prop := ∃ k t, s = List.replicate k 1 ++ t ∧ 1 ∉ t

theorem onesFirst_of (s : List Nat) (h : ∀ a b, s = a ++ 1 :: b → ∀ d ∈ a, d = 1) : OnesFirst s := by
  induction s with
  | nil => exact ⟨0, [], rfl, by simp⟩
  | cons d s ih =>
    by_cases hd : d = 1
    · subst hd
      obtain ⟨k, t, e, ht⟩ := ih fun a b e x hx => h (1 :: a) b (by rw [e]; rfl) x (by simp [hx])
      exact ⟨k + 1, t, by rw [e, List.replicate_succ]; rfl, ht⟩
    · refine ⟨0, d :: s, rfl, ?_⟩
      intro hm
      rcases List.mem_cons.mp hm with e | hm
      · exact hd e.symm
      · obtain ⟨a, b, e⟩ := List.append_of_mem hm
        exact hd (h (d :: a) b (by rw [e]; rfl) d (by simp))

theorem filter_ones (k : Nat) (t : List Nat) (ht : 1 ∉ t) : (List.replicate k 1 ++ t).filter (· ≠ 1) = t := by
  rw [List.filter_append]
  have h1 : (List.replicate k 1).filter (· ≠ 1) = [] := by
    rw [List.filter_eq_nil_iff]
    intro x hx
    simp [List.eq_of_mem_replicate hx]
  have h2 : t.filter (· ≠ 1) = t := by
    rw [List.filter_eq_self]
    intro x hx
    simp only [decide_eq_true_eq]
    rintro rfl
    exact ht hx
  rw [h1, h2, List.nil_append]

theorem bshape_ones (k : Nat) (t : List Nat) : bshape (List.replicate k 1 ++ t) t = some (List.replicate k 1 ++ t) := by
  unfold bshape
  rw [List.reverse_append, brev_self_append]
  simp

/-- Which shapes come out of the scaling. -/
theorem bshape_squeeze (s : List Nat) : bshape s (s.filter (· ≠ 1)) = some s ↔ OnesFirst s := by
  constructor
  · intro h
    refine onesFirst_of s ?_
    unfold bshape at h
    rw [Option.map_eq_some_iff] at h
    obtain ⟨r, h1, h2⟩ := h
    have hr : r = s.reverse := by rw [← h2, List.reverse_reverse]
    subst hr
    rw [← List.filter_reverse] at h1
    have := brev_filter _ h1
    intro a b e d hd
    exact this b.reverse a.reverse (by rw [e]; simp) d (by simpa using hd)
  · rintro ⟨k, t, rfl, ht⟩
    rw [filter_ones k t ht]
    exact bshape_ones k t

theorem expand_self (t idx : List Nat) (ht : 1 ∉ t) (hi : idx.length = t.length) : expand t idx = idx := by
  induction t generalizing idx with
  | nil => cases idx with
    | nil => rfl
    | cons a b => simp at hi
  | cons d t ih =>
    cases idx with
    | nil => simp at hi
    | cons i r =>
      have hd : d ≠ 1 := fun e => ht (by simp [e])
      simp only [expand, hd, if_false]
      rw [ih r (fun hm => ht (by simp [hm])) (by simpa using hi)]

theorem expand_ones (k : Nat) (t idx : List Nat) (ht : 1 ∉ t) (hi : idx.length = t.length) :
    expand (List.replicate k 1 ++ t) idx = List.replicate k 0 ++ idx := by
  induction k with
  | zero => simpa using expand_self t idx ht hi
  | succ k ih =>
    rw [List.replicate_succ, List.replicate_succ, List.cons_append, List.cons_append]
    simp only [expand, if_true]
    rw [ih]

theorem inside_ones (k : Nat) (t idx : List Nat) (h : Inside (List.replicate k 1 ++ t) idx) :
    ∃ it, idx = List.replicate k 0 ++ it ∧ Inside t it := by
  induction k generalizing idx with
  | zero => exact ⟨idx, rfl, by simpa using h⟩
  | succ k ih =>
    rw [List.replicate_succ, List.cons_append] at h
    cases h with
    | cons h1 h2 =>
      obtain ⟨it, e, hit⟩ := ih _ h2
      refine ⟨it, ?_, hit⟩
      rw [List.replicate_succ, List.cons_append, ← e]
      congr 1
      omega

theorem inside_append {s : List Nat} (k : Nat) (t idx : List Nat) (e : s = List.replicate k 1 ++ t) (h : Inside t idx) :
    Inside s (List.replicate k 0 ++ idx) := by
  subst e
  induction k with
  | zero => simpa using h
  | succ k ih =>
    rw [List.replicate_succ, List.replicate_succ]
    exact .cons (by omega) ih

theorem align_self (s idx : List Nat) (h : Inside s idx) : align s idx = idx := by
  have hl : idx.length = s.length := h.length_eq
  unfold align
  rw [hl, Nat.sub_self, List.drop_zero]
  induction h with
  | nil => rfl
  | @cons i d a b h1 h2 ih =>
    rw [List.zipWith_cons_cons, ih h2.length_eq]
    congr 1
    split
    · omega
    · rfl

theorem align_ones (k : Nat) (t it : List Nat) (h : Inside t it) : align t (List.replicate k 0 ++ it) = it := by
  have hl : it.length = t.length := h.length_eq
  have e : (List.replicate k 0 ++ it).drop ((List.replicate k 0 ++ it).length - t.length) = it := by
    rw [List.length_append, List.length_replicate, hl, Nat.add_sub_cancel]
    exact List.drop_left' (by simp)
  have := align_self t it h
  unfold align at this ⊢
  rw [e]
  rw [hl, Nat.sub_self, List.drop_zero] at this
  exact this

/-- **C234, the shape.** For an observation with at least one dimension and a policy that returns a batch of one action of the
space, `compute_action` without scaling returns an action of the shape of the space if and only if no dimension has size one;
with scaling, if and only if dimensions of size one come first. -/
theorem C234_shape (tanh : K → K) (low high : NArr K) (bound : Bound) (scaling : Bool) (obs : List Nat) (hobs : obs ≠ [])
    (fwd : NArr K) (hf : fwd.shape = 1 :: low.shape) (act : NArr K)
    (he : computeAction tanh (.box low high) bound scaling obs fwd = .ok act) :
    act.shape = low.shape ↔ if scaling then OnesFirst low.shape else 1 ∉ low.shape := by
  have hsq : fwd.squeeze.shape = low.shape.filter (· ≠ 1) := by
    unfold NArr.squeeze
    rw [hf, List.filter_cons]
    simp
  unfold computeAction at he
  rw [if_neg hobs] at he
  cases scaling with
  | false =>
    simp only [mapAction, Bool.false_eq_true, if_false, Except.ok.injEq] at he
    rw [← he]
    simp only [Bool.false_eq_true, if_false, hsq]
    constructor
    · intro e hm
      rw [← e] at hm
      simpa using (List.mem_filter.mp hm).2
    · intro hm
      exact filter_ones 0 low.shape hm
  | true =>
    simp only [mapAction, if_true, hsq] at he
    split at he
    · cases he
    · next h0 =>
      split at h0
      · cases h0
      · split at h0
        · cases hb : bshape low.shape (low.shape.filter (· ≠ 1)) with
          | none => rw [hb] at h0; cases h0
          | some s =>
            rw [hb] at h0
            injection h0 with h0
            injection he with he
            rw [← he, ← h0, ← bshape_squeeze, hb]
            simp
        · cases h0

/-- The number `x` of the policy, with the bounds applied. -/
def Bounded (tanh : K → K) (bound : Bound) (x : K) : K :=
  match bound with
  | .clip => min (max x (-1)) 1
  | .tanh => tanh x
  | .unbounded => x

/-- What `compute_action` should return for the batch of one action `fwd`: the action with its bounds and scaling applied. -/
def Mapped (tanh : K → K) (low high : NArr K) (bound : Bound) (scaling : Bool) (fwd act : NArr K) : Prop :=
  act.shape = low.shape ∧ ∀ idx, Inside low.shape idx →
    act.at' idx =
      if scaling then low.at' idx + (high.at' idx - low.at' idx) * (Bounded tanh bound (fwd.at' (0 :: idx)) + 1) / 2
      else Bounded tanh bound (fwd.at' (0 :: idx))

/-- **C234 (partial).** If the dimensions of size one come first, and there are none in the absence of scaling, `compute_action`
returns the action of the policy with its bounds and scaling applied (numbers outside of `[-1, 1]` cannot be scaled). Missing: other shapes (`C234_violated`), observations that are single numbers (`C234_scalar_violated`). -/
theorem C234_partial [IsStrictOrderedRing K] (tanh : K → K) (low high : NArr K) (hh : high.shape = low.shape) (bound : Bound)
    (scaling : Bool) (obs : List Nat) (hobs : obs ≠ []) (fwd : NArr K) (hf : fwd.shape = 1 :: low.shape)
    (hpos : 0 ∉ low.shape)
    (hs : if scaling then OnesFirst low.shape else 1 ∉ low.shape)
    (hr : scaling = true → ∀ idx, Inside low.shape idx →
      -1 ≤ Bounded tanh bound (fwd.at' (0 :: idx)) ∧ Bounded tanh bound (fwd.at' (0 :: idx)) ≤ 1) :
    ∃ act, computeAction tanh (.box low high) bound scaling obs fwd = .ok act ∧
      Mapped tanh low high bound scaling fwd act := by
  have hsq : fwd.squeeze.shape = low.shape.filter (· ≠ 1) := by
    unfold NArr.squeeze
    rw [hf, List.filter_cons]
    simp
  obtain ⟨k, t, e, ht⟩ : OnesFirst low.shape := by
    cases scaling with
    | true => exact hs
    | false => exact ⟨0, low.shape, rfl, by simpa using hs⟩
  have hft : fwd.squeeze.shape = t := by rw [hsq, e, filter_ones k t ht]
  have hat : ∀ it, Inside t it → fwd.squeeze.at' it = fwd.at' (0 :: (List.replicate k 0 ++ it)) := by
    intro it hit
    show fwd.at' (expand fwd.shape it) = _
    rw [hf, e]
    simp only [expand, if_true]
    rw [expand_ones k t it ht hit.length_eq]
  have hne : indices t ≠ [] := by
    have : (t.map fun _ => 0) ∈ indices t := by
      rw [mem_indices]
      have h0 : ∀ d ∈ t, d ≠ 0 := fun d hd h => hpos (by rw [e, ← h]; simp [hd])
      clear hat hft ht e hs hpos
      unfold Inside
      induction t with
      | nil => exact .nil
      | cons d t ih =>
        exact .cons (Nat.pos_of_ne_zero (h0 d (by simp))) (ih fun x hx => h0 x (by simp [hx]))
    intro h
    rw [h] at this
    simp at this
  unfold computeAction
  rw [if_neg hobs]
  cases scaling with
  | false =>
    have hs' : 1 ∉ low.shape := by simpa using hs
    have hk : k = 0 := by
      rcases k with _ | k
      · rfl
      · exfalso
        apply hs'
        rw [e]
        simp
    subst hk
    refine ⟨_, rfl, by simp only; rw [hft, e]; rfl, ?_⟩
    intro idx hidx
    have hidx' : Inside t idx := by rw [e] at hidx; simpa using hidx
    simp only [Bool.false_eq_true, if_false]
    rw [hat idx hidx']
    cases bound <;> rfl
  | true =>
    have hrange : ∀ idx ∈ indices t, -1 ≤ bound1 tanh bound (fwd.squeeze.at' idx) ∧
        bound1 tanh bound (fwd.squeeze.at' idx) ≤ 1 := by
      intro idx hidx
      rw [mem_indices] at hidx
      have := hr rfl _ (inside_append k t idx e hidx)
      rw [hat idx hidx]
      cases bound <;> exact this
    refine ⟨⟨List.replicate k 1 ++ t, fun idx => scale1 (low.at' (align low.shape idx), high.at' (align high.shape idx))
      (bound1 tanh bound (fwd.squeeze.at' (align t idx)))⟩, ?_, e.symm, ?_⟩
    · simp only [mapAction, if_true, hft]
      rw [if_neg hne, if_pos hrange, e, bshape_ones]
    · intro idx hidx
      simp only [if_true]
      rw [hh, align_self low.shape idx hidx]
      rw [e] at hidx
      obtain ⟨it, rfl, hit⟩ := inside_ones k t idx hidx
      rw [align_ones k t it hit, hat it hit]
      unfold scale1
      cases bound <;> simp only [bound1, Bounded, clip1]

/-- The action is an element of the space if it is scaled with clipping or squashing; without scaling, if the bounded numbers are
within the bounds of the space. -/
theorem C234_contains_partial [IsStrictOrderedRing K] (tanh : K → K) (low high : NArr K) (hh : high.shape = low.shape)
    (hle : ∀ idx, Inside low.shape idx → low.at' idx ≤ high.at' idx) (bound : Bound)
    (obs : List Nat) (hobs : obs ≠ []) (fwd : NArr K) (hf : fwd.shape = 1 :: low.shape) (hpos : 0 ∉ low.shape)
    (hs : OnesFirst low.shape)
    (hr : ∀ idx, Inside low.shape idx →
      -1 ≤ Bounded tanh bound (fwd.at' (0 :: idx)) ∧ Bounded tanh bound (fwd.at' (0 :: idx)) ≤ 1) :
    ∃ act, computeAction tanh (.box low high) bound true obs fwd = .ok act ∧ Contains low high act := by
  obtain ⟨act, h1, h2, h3⟩ := C234_partial tanh low high hh bound true obs hobs fwd hf hpos (by simpa using hs) fun _ => hr
  refine ⟨act, h1, h2, fun idx hidx => ?_⟩
  rw [h3 idx hidx, if_pos rfl]
  obtain ⟨a, b⟩ := hr idx hidx
  have hd := sub_nonneg.mpr (hle idx hidx)
  have m1 := mul_nonneg hd (by linarith : (0 : K) ≤ Bounded tanh bound (fwd.at' (0 :: idx)) + 1)
  have m2 := mul_le_mul_of_nonneg_left (by linarith : Bounded tanh bound (fwd.at' (0 :: idx)) + 1 ≤ 2) hd
  constructor
  · have := div_nonneg m1 (by norm_num : (0 : K) ≤ 2)
    linarith
  · have := div_le_div_of_nonneg_right m2 (by norm_num : (0 : K) ≤ 2)
    rw [mul_div_cancel_right₀ _ (by norm_num : (2 : K) ≠ 0)] at this
    linarith

/-- **C234, discrete actions.** -/
theorem C234_discrete_partial (tanh : K → K) (n : Nat) (bound : Bound) (scaling : Bool) (obs : List Nat) (hobs : obs ≠ [])
    (fwd : NArr K) (hf : fwd.shape = [1]) :
    ∃ act, computeAction tanh (.discrete n) bound scaling obs fwd = .ok act ∧ act.shape = [] ∧
      act.at' [] = fwd.at' [0] := by
  unfold computeAction
  rw [if_neg hobs]
  have h1 : fwd.squeeze.shape = [] := by unfold NArr.squeeze; rw [hf]; rfl
  refine ⟨⟨[], fun _ => fwd.squeeze.at' []⟩, ?_, rfl, ?_⟩
  · simp [mapAction, h1, indices]
  · show fwd.at' (expand fwd.shape []) = _
    rw [hf]
    rfl

/-- **C234, several discrete actions.** The shape of the result is right if and only if no dimension has size one. -/
theorem C234_multi (tanh : K → K) (shape : List Nat) (bound : Bound) (scaling : Bool) (obs : List Nat) (hobs : obs ≠ [])
    (fwd : NArr K) (hf : fwd.shape = 1 :: shape) :
    ∃ act, computeAction tanh (.multi shape) bound scaling obs fwd = .ok act ∧ (act.shape = shape ↔ 1 ∉ shape) ∧
      (1 ∉ shape → ∀ idx, Inside shape idx → act.at' idx = fwd.at' (0 :: idx)) := by
  unfold computeAction
  rw [if_neg hobs]
  refine ⟨_, rfl, ?_, ?_⟩
  · have hsq : fwd.squeeze.shape = shape.filter (· ≠ 1) := by
      unfold NArr.squeeze
      rw [hf, List.filter_cons]
      simp
    rw [hsq]
    constructor
    · intro e hm
      rw [← e] at hm
      simpa using (List.mem_filter.mp hm).2
    · intro hm
      exact filter_ones 0 shape hm
  · intro hm idx hidx
    show fwd.at' (expand fwd.shape idx) = _
    rw [hf]
    simp only [expand, if_true]
    rw [expand_self shape idx hm hidx.length_eq]

/-- **C234 is violated** for observations that are single numbers: `compute_action` raises, whatever the policy. -/
theorem C234_scalar_violated (tanh : K → K) (sp : Space K) (bound : Bound) (scaling : Bool) (fwd : NArr K) :
    computeAction tanh sp bound scaling [] fwd = .error .index := rfl

/-- **C234 is violated**: without scaling and with a dimension of size one (for instance the one torque of a pendulum), what
`compute_action` returns is never an element of the action space; with scaling and a dimension of size one after a larger one,
neither. -/
theorem C234_violated (tanh : K → K) (low high : NArr K) (bound : Bound) (obs : List Nat) (hobs : obs ≠ [])
    (fwd : NArr K) (hf : fwd.shape = 1 :: low.shape) :
    (1 ∈ low.shape → ∃ act, computeAction tanh (.box low high) bound false obs fwd = .ok act ∧ ¬ Contains low high act) ∧
    (¬ OnesFirst low.shape → ∀ act, computeAction tanh (.box low high) bound true obs fwd = .ok act →
      ¬ Contains low high act) := by
  constructor
  · intro h1
    have he : ∃ act, computeAction tanh (.box low high) bound false obs fwd = .ok act := by
      unfold computeAction
      rw [if_neg hobs]
      exact ⟨_, rfl⟩
    obtain ⟨act, he⟩ := he
    refine ⟨act, he, fun hc => ?_⟩
    have := (C234_shape tanh low high bound false obs hobs fwd hf act he).mp hc.1
    simp only [Bool.false_eq_true, if_false] at this
    exact this h1
  · intro h1 act he hc
    have := (C234_shape tanh low high bound true obs hobs fwd hf act he).mp hc.1
    rw [if_pos rfl] at this
    exact h1 this

/-! ### The hypotheses are met -/

/-- An array given by a shape and a function of the position. -/
def arr (shape : List Nat) (f : List Nat → ℚ) : NArr ℚ := ⟨shape, f⟩

/-- What `compute_action` returns, as shape and numbers. -/
def out (r : Except Err (NArr ℚ)) : Except Err (List Nat × List ℚ) :=
  r.map fun a => (a.shape, (indices a.shape).map a.at')

def policyOut (s : List Nat) : NArr ℚ := arr (1 :: s) fun idx => (idx.sum : ℚ) / 4

/-- Shapes `(3,)` and `(1, 3)` with scaling. -/
example : out (computeAction id (.box (arr [3] fun _ => 0) (arr [3] fun _ => 8)) .clip true [4] (policyOut [3])) =
    .ok ([3], [4, 5, 6]) := by decide +kernel

example : out (computeAction id (.box (arr [1, 3] fun _ => 0) (arr [1, 3] fun _ => 8)) .clip true [4] (policyOut [1, 3])) =
    .ok ([1, 3], [4, 5, 6]) := by decide +kernel

/-- Shape `(1,)`: with scaling an array with one entry, without scaling a number. -/
example : out (computeAction id (.box (arr [1] fun _ => -2) (arr [1] fun _ => 2)) .clip true [3] (policyOut [1])) =
    .ok ([1], [0]) := by decide +kernel

example : out (computeAction id (.box (arr [1] fun _ => -2) (arr [1] fun _ => 2)) .clip false [3] (policyOut [1])) =
    .ok ([], [0]) := by decide +kernel

/-- Shape `(2, 1)` with scaling: four numbers instead of two. -/
example : out (computeAction id (.box (arr [2, 1] fun _ => 0) (arr [2, 1] fun _ => 8)) .clip true [3] (policyOut [2, 1])) =
    .ok ([2, 2], [4, 5, 4, 5]) := by decide +kernel

/-- Shape `(2, 4, 1, 3)` with scaling: the shapes do not fit. -/
example : out (computeAction id (.box (arr [2, 4, 1, 3] fun _ => 0) (arr [2, 4, 1, 3] fun _ => 8)) .clip true [3]
    (policyOut [2, 4, 1, 3])) = .error .value := by decide +kernel

example : out (computeAction id (.discrete 5) .clip false [3] (arr [1] fun _ => 3)) = .ok ([], [3]) := by decide +kernel

example : OnesFirst [1, 1, 3, 2] := ⟨2, [3, 2], rfl, by decide⟩

end Verif.ComputeAction
