import Verif.Lemmas.SegTree
import Mathlib.Algebra.Order.Ring.Rat

/-! Properties C01-C04: `SegmentTree`. -/

namespace Verif.SegTree

open Finset

variable {R : Type}

/-! ### Specification -/

/-- The value of slot `i` according to the history of all (slot, value) writes: the most recent write to
`i`, or 0. -/
def lastWrite [Zero R] (h : List (Int × R)) (i : Nat) : R :=
  match h.reverse.find? (fun p => p.1 = (i : Int)) with
  | some p => p.2
  | none => 0

/-- Upper end of the Python slice `value[start:stop]` of a sequence of length `size`. -/
def sliceEnd (size : Nat) (stop : Option Int) : Nat :=
  match stop with
  | none => size
  | some e => if e < 0 then (e + size).toNat else min e.toNat size

/-- A tree created with `SegmentTree(size)` and then written by the given assignment calls, all accepted. -/
def After [Add R] [Zero R] (size : Nat) (calls : List (List (Int × R))) (t : Tree R) : Prop :=
  calls.foldlM setitem (init size) = some t

/-! ### C01 -/

theorem after_inv [Ring R] (size : Nat) (calls : List (List (Int × R))) (t : Tree R)
    (h : After size calls t) :
    WF t ∧ t.size = size ∧ ∀ i, getitem t i =
      scatter (fun _ => 0) (calls.flatten.map fun p => (p.1.toNat, p.2)) i := by
  have gen : ∀ (calls : List (List (Int × R))) (t0 : Tree R), WF t0 →
      calls.foldlM setitem t0 = some t → WF t ∧ t.size = t0.size ∧ ∀ i, getitem t i =
      scatter (getitem t0) (calls.flatten.map fun p => (p.1.toNat, p.2)) i := by
    intro calls
    induction calls with
    | nil => intro t0 h0 h; cases h; exact ⟨h0, rfl, fun _ => rfl⟩
    | cons c rest ih =>
      intro t0 h0 h
      rw [List.foldlM_cons] at h
      cases hc : setitem t0 c with
      | none => rw [hc] at h; cases h
      | some t1 =>
        rw [hc] at h
        obtain ⟨h1, h2, h3⟩ := setitem_spec t0 t1 h0 c hc
        obtain ⟨h4, h5, h6⟩ := ih t1 h1 h
        refine ⟨h4, h5.trans h2, fun i => ?_⟩
        rw [h6]
        have : getitem t1 = scatter (getitem t0) (c.map fun p => (p.1.toNat, p.2)) := funext h3
        rw [this, List.flatten_cons, List.map_append]
        have app : ∀ (l l' : List (Nat × R)) (a : Nat → R),
            scatter (scatter a l) l' i = scatter a (l ++ l') i := by
          intro l
          induction l with
          | nil => intro l' a; rfl
          | cons p l ih => intro l' a; obtain ⟨j, x⟩ := p; exact ih l' _
        exact app _ _ _
  exact gen calls (init size) (wf_init size) h

theorem scatter_eq_lastWrite [Zero R] (h : List (Int × R)) (hn : ∀ p ∈ h, 0 ≤ p.1) (i : Nat) :
    scatter (fun _ => 0) (h.map fun p => (p.1.toNat, p.2)) i = lastWrite h i := by
  have gen : ∀ (h : List (Int × R)) (a : Nat → R), (∀ p ∈ h, 0 ≤ p.1) →
      scatter a (h.map fun p => (p.1.toNat, p.2)) i =
        match h.reverse.find? (fun p => p.1 = (i : Int)) with
        | some p => p.2
        | none => a i := by
    intro h
    induction h with
    | nil => intro a _; rfl
    | cons p rest ih =>
      intro a hn
      rw [List.map_cons, scatter, ih _ (fun q hq => hn q (by simp [hq])), List.reverse_cons,
        List.find?_append]
      cases hf : rest.reverse.find? (fun p => p.1 = (i : Int)) with
      | some q => rfl
      | none =>
        have hp := hn p (by simp)
        by_cases hpi : p.1 = (i : Int)
        · simp [hpi]
        · have : i ≠ p.1.toNat := by omega
          simp [hpi, Function.update_of_ne this]
  exact gen h _ hn

theorem setitem_accept [Add R] (t : Tree R) (kv : List (Int × R)) :
    setitem t kv = none ↔ kv = [] ∨ ∃ p ∈ kv, p.1 < 0 ∨ (t.size : Int) ≤ p.1 := by
  unfold setitem
  split
  · rename_i h
    cases kv with
    | nil => simp [setitemRaw]
    | cons p rest =>
      simp only [List.map_cons, setitemRaw, Option.map_some, reduceCtorEq, false_or, false_iff,
        not_exists, not_and, not_or, not_lt, not_le]
      exact fun q hq => ⟨h.1 q hq, h.2 q hq⟩
  · rename_i h
    simp only [true_iff]
    right
    by_contra hc
    apply h
    simp only [not_exists, not_and, not_or, not_lt, not_le] at hc
    exact ⟨fun p hp => (hc p hp).1, fun p hp => (hc p hp).2⟩

theorem after_nonneg_idx [Ring R] (size : Nat) (calls : List (List (Int × R))) (t : Tree R)
    (h : After size calls t) : ∀ p ∈ calls.flatten, 0 ≤ p.1 := by
  have gen : ∀ (calls : List (List (Int × R))) (t0 : Tree R),
      calls.foldlM setitem t0 = some t → ∀ p ∈ calls.flatten, 0 ≤ p.1 := by
    intro calls
    induction calls with
    | nil => intro _ _ p hp; simp at hp
    | cons c rest ih =>
      intro t0 h p hp
      rw [List.foldlM_cons] at h
      cases hc : setitem t0 c with
      | none => rw [hc] at h; cases h
      | some t1 =>
        rw [hc] at h
        rw [List.flatten_cons, List.mem_append] at hp
        rcases hp with hp | hp
        · have := (setitem_accept t0 c).not.mp (by simp [hc])
          simp only [not_or, not_exists, not_and, not_lt] at this
          exact (this.2 p hp).1
        · exact ih t1 h p hp
  exact gen calls _ h

/-- **C01** read-after-write: after any accepted assignment calls, reading slot `i` gives the last value
written to it (0 if there is none). -/
theorem C01_read_after_write [Ring R] (size : Nat) (calls : List (List (Int × R))) (t : Tree R)
    (h : After size calls t) (i : Nat) (_hi : i < size) :
    getitem t i = lastWrite calls.flatten i := by
  rw [(after_inv size calls t h).2.2 i]
  exact scatter_eq_lastWrite _ (after_nonneg_idx size calls t h) i

/-- **C01** acceptance: an assignment is rejected exactly if it has an out-of-range index (or is empty). -/
theorem C01_rejects [Ring R] (size : Nat) (calls : List (List (Int × R))) (t : Tree R)
    (h : After size calls t) (kv : List (Int × R)) :
    setitem t kv = none ↔ kv = [] ∨ ∃ p ∈ kv, p.1 < 0 ∨ (size : Int) ≤ p.1 := by
  rw [setitem_accept, (after_inv size calls t h).2.1]

/-- Non-vacuity: size 3 (padded to 4), a vectorised write with a duplicate index, then a scalar write. -/
example : ∃ t : Tree ℚ, After 3 [[(0, 5), (2, 7), (0, 6)], [(1, 4)]] t :=
  ⟨_, rfl⟩

example : lastWrite [((0 : Int), (5 : ℚ)), (2, 7), (0, 6), (1, 4)] 0 = 6 := by decide

/-! ### C02 -/

/-- **C02** `reduce()` is the sum of all entries. -/
theorem C02_reduce_all [Ring R] (size : Nat) (calls : List (List (Int × R))) (t : Tree R)
    (h : After size calls t) : reduce t 0 none = ∑ j ∈ range size, getitem t j := by
  obtain ⟨hw, hs, _⟩ := after_inv size calls t h
  rw [reduce, if_pos ⟨rfl, rfl⟩, root_eq t hw, hs]

/-- **C02** `reduce(start, end)` is the sum of the Python slice `[start:end]`, for every non-negative
`start` and every `end ≤ size` (`None` and negative ends included). -/
theorem C02_reduce [Ring R] (size : Nat) (calls : List (List (Int × R))) (t : Tree R)
    (h : After size calls t) (start : Nat) (stop : Option Int) (hs : ∀ e ∈ stop, e ≤ size) :
    reduce t start stop = ∑ j ∈ Ico start (sliceEnd size stop), getitem t j := by
  by_cases h0 : start = 0 ∧ stop = none
  · obtain ⟨rfl, rfl⟩ := h0
    rw [C02_reduce_all size calls t h, sliceEnd]
    rw [range_eq_Ico]
  obtain ⟨hw, hsz, _⟩ := after_inv size calls t h
  unfold reduce
  rw [if_neg h0]
  obtain ⟨d, hd⟩ := hw.pow
  have hpos : 0 < 2 ^ d := by positivity
  have hle := hw.le
  simp only
  rw [hsz] at *
  generalize he : stop.getD (size : Int) = e
  generalize he' : (if e < 0 then e + (size : Int) else e) = e'
  have hsl : (sliceEnd size stop : Int) = max e' 0 ∧ e' ≤ size := by
    cases stop with
    | none => simp only [Option.getD_none] at he; simp only [sliceEnd]; split at he' <;> omega
    | some x =>
      simp only [Option.getD_some] at he
      have := hs x rfl
      simp only [sliceEnd]
      split at he' <;> split <;> omega
  rw [reduceLoop_spec t.value t.bound hw.node _ _ _ (by omega)]
  rw [show start + t.bound - 1 + 1 = t.bound + start by omega]
  split
  · rename_i hlt
    rw [show (e' + (t.bound : Int)).toNat = t.bound + sliceEnd size stop by omega, P_bound, P_bound,
      sum_Ico_eq_sub _ (by omega)]
    abel
  · rw [Ico_eq_empty_of_le (by omega), sum_empty]

example : ∃ t : Tree ℚ, After 3 [[(0, 5), (2, 7), (0, 6)], [(1, 4)]] t ∧ reduce t 1 (some (-1)) = 4 :=
  ⟨_, rfl, by decide +kernel⟩

/-- The interval query only reads entries of the array `_value` (length `2 * bound`). -/
theorem C02_reads_in_bounds [Add R] [Zero R] (v v' : Nat → R) (bound s e : Nat) (r : R)
    (he : e ≤ 2 * bound) (hv : ∀ k < 2 * bound, v k = v' k) : reduceLoop v s e r = reduceLoop v' s e r := by
  induction s, e, r using reduceLoop.induct v with
  | case1 s e r h r1 s' r2 ih =>
    rw [reduceLoop, if_pos h, reduceLoop.eq_def v', if_pos h]
    simp only
    have ih := ih (by omega)
    simp only [r1, r2, s', dite_eq_ite] at ih
    rw [ih, hv (s + 1) (by omega), hv (e - 1) (by omega)]
  | case2 s e r h => rw [reduceLoop, if_neg h, reduceLoop.eq_def v', if_neg h]

/-! ### C03 -/

section order
variable [CommRing R] [LinearOrder R] [IsStrictOrderedRing R]

theorem getPrefixSumIdx_eq (t : Tree R) (hw : WF t) (values : List R)
    (idx : List Nat) (after : List R) (h : getPrefixSumIdx t values = some (idx, after)) :
    (∀ v ∈ values, 0 ≤ v ∧ v < t.value 1) ∧ ∃ d, t.bound = 2 ^ d ∧
      idx = values.map (fun v => (descendN t.value d (1, v)).1 - t.bound) ∧
      after = values.map (fun v => (descendN t.value d (1, v)).2) := by
  unfold getPrefixSumIdx at h
  split at h
  · rename_i hb
    obtain ⟨d, hd⟩ := hw.pow
    have := prefixLoop_eq t.value d 0 (values.map fun v => (1, v)) (by simp)
    rw [zero_add, ← hd] at this
    rw [this] at h
    simp only [List.map_map, Option.some.injEq, Prod.mk.injEq] at h
    exact ⟨fun v hv => ⟨hb.1 v hv, hb.2 v hv⟩, d, hd, h.1.symm, h.2.symm⟩
  · cases h

/-- **C03** For a tree with non-negative entries, the query is accepted exactly for values in `[0, total)`,
and then returns one index per value. -/
theorem C03_accepts (size : Nat) (calls : List (List (Int × R))) (t : Tree R)
    (h : After size calls t) (values : List R) :
    (∃ idx after, getPrefixSumIdx t values = some (idx, after) ∧ idx.length = values.length) ↔
      ∀ v ∈ values, 0 ≤ v ∧ v < ∑ j ∈ range size, getitem t j := by
  obtain ⟨hw, hs, _⟩ := after_inv size calls t h
  have hroot := root_eq t hw
  rw [hs] at hroot
  rw [← hroot]
  constructor
  · rintro ⟨idx, after, he, _⟩
    exact (getPrefixSumIdx_eq t hw values idx after he).1
  · intro hv
    have : (∀ v ∈ values, 0 ≤ v) ∧ (∀ v ∈ values, v < t.value 1) :=
      ⟨fun v h => (hv v h).1, fun v h => (hv v h).2⟩
    obtain ⟨d, hd⟩ := hw.pow
    have he := prefixLoop_eq t.value d 0 (values.map fun v => (1, v)) (by simp)
    rw [zero_add, ← hd] at he
    refine ⟨_, _, by rw [getPrefixSumIdx, if_pos this], ?_⟩
    rw [he]; simp

/-- **C03** The `k`-th returned index is the least `i` with `v_k ≤ arr[0] + ... + arr[i]`; it lies in the
array, and its entry is positive if `v_k > 0`. -/
theorem C03_prefix_sum_idx (size : Nat) (calls : List (List (Int × R))) (t : Tree R)
    (h : After size calls t) (hnn : ∀ i < size, 0 ≤ getitem t i) (values : List R)
    (idx : List Nat) (after : List R) (hq : getPrefixSumIdx t values = some (idx, after))
    (k : Nat) (v : R) (hk : values[k]? = some v) :
    ∃ i, idx[k]? = some i ∧ i < size ∧ (0 < v → 0 < getitem t i) ∧
      v ≤ ∑ j ∈ range (i + 1), getitem t j ∧ ∀ i' < i, ∑ j ∈ range (i' + 1), getitem t j < v := by
  obtain ⟨hw, hs, _⟩ := after_inv size calls t h
  subst hs
  obtain ⟨hb, d, hd, rfl, rfl⟩ := getPrefixSumIdx_eq t hw values idx after hq
  have hv := hb v (List.mem_of_getElem? hk)
  obtain ⟨i, x, hdn, hsum, hx, hz⟩ := descent_spec t hw hnn d hd v hv.1 hv.2
  have hleast : v ≤ ∑ j ∈ range (i + 1), getitem t j ∧
      ∀ i' < i, ∑ j ∈ range (i' + 1), getitem t j < v := by
    constructor
    · rw [sum_range_succ, hsum]; linarith
    · intro i' hi'
      rcases hz with ⟨rfl, _⟩ | hpos
      · omega
      · have hsub : ∑ j ∈ range (i' + 1), getitem t j ≤ ∑ j ∈ range i, getitem t j := by
          apply sum_le_sum_of_subset_of_nonneg
          · intro j; simp only [mem_range]; omega
          · intro j _ _
            rcases Nat.lt_or_ge j t.size with hj | hj
            · exact hnn j hj
            · rw [getitem, hw.pad j hj]
        linarith
  have hroot := root_eq t hw
  have hsz : 0 < t.size := by
    rcases Nat.eq_zero_or_pos t.size with h0 | h0
    · rw [h0, sum_range_zero] at hroot; rw [hroot] at hv; exact absurd (lt_of_le_of_lt hv.1 hv.2) (lt_irrefl _)
    · exact h0
  refine ⟨i, by rw [List.getElem?_map, hk]; simp [hdn], ?_, ?_, hleast⟩
  · by_contra hc
    have := hleast.2 (t.size - 1) (by omega)
    rw [Nat.sub_add_cancel hsz, ← hroot] at this
    exact absurd (this.trans hv.2) (lt_irrefl _)
  · intro hvp
    rcases hz with ⟨rfl, rfl⟩ | hpos
    · simp at hsum; rw [hsum] at hvp; exact absurd hvp (lt_irrefl _)
    · linarith

/-- **C03** (sampling is proportional) For `v > 0` the query answers `i` exactly if `v` lies in the interval
`(S_i, S_{i+1}]`, whose length is the entry `arr[i]`. -/
theorem C03_interval (size : Nat) (calls : List (List (Int × R))) (t : Tree R)
    (h : After size calls t) (hnn : ∀ i < size, 0 ≤ getitem t i) (v : R) (hv0 : 0 < v)
    (i : Nat) (after : List R) (hq : getPrefixSumIdx t [v] = some ([i], after)) (i' : Nat) :
    i' = i ↔ ∑ j ∈ range i', getitem t j < v ∧ v ≤ (∑ j ∈ range i', getitem t j) + getitem t i' := by
  obtain ⟨i2, h1, h2, h3, hmem, h4⟩ := C03_prefix_sum_idx size calls t h hnn [v] [i] after hq 0 v rfl
  simp only [List.getElem?_cons_zero, Option.some.injEq] at h1
  subst h1
  obtain ⟨hw, hs, _⟩ := after_inv size calls t h
  have hnn' : ∀ j, 0 ≤ getitem t j := by
    intro j
    rcases Nat.lt_or_ge j size with hj | hj
    · exact hnn j hj
    · rw [getitem, hw.pad j (by omega)]
  have mono : ∀ a b, a ≤ b → ∑ j ∈ range a, getitem t j ≤ ∑ j ∈ range b, getitem t j := by
    intro a b hab
    apply sum_le_sum_of_subset_of_nonneg
    · intro j; simp only [mem_range]; omega
    · intro j _ _; exact hnn' j
  constructor
  · rintro rfl
    refine ⟨?_, by rw [← sum_range_succ]; exact hmem⟩
    rcases Nat.eq_zero_or_pos i' with rfl | hpos
    · simpa using hv0
    · have := h4 (i' - 1) (by omega)
      rwa [Nat.sub_add_cancel hpos] at this
  · rintro ⟨ha, hb⟩
    rw [← sum_range_succ] at hb
    have hle : i ≤ i' := by
      by_contra hc
      exact absurd (lt_of_le_of_lt hb (h4 i' (by omega))) (lt_irrefl _)
    rcases Nat.lt_or_ge i i' with hlt | hge
    · have := mono (i + 1) i' hlt
      exact absurd (lt_of_lt_of_le ha (hmem.trans this)) (lt_irrefl _)
    · omega

end order

/-- Non-vacuity for C03: entries 6, 4, 7; value 10 falls on index 1, 10.5 on index 2. -/
example : ∃ t : Tree ℚ, After 3 [[(0, 5), (2, 7), (0, 6)], [(1, 4)]] t ∧ (∀ i < 3, 0 ≤ getitem t i) ∧
    (getPrefixSumIdx t [10, 21 / 2]).map Prod.fst = some [1, 2] :=
  ⟨_, rfl, by decide +kernel, by decide +kernel⟩

/-! ### C04 -/

/-- **C04** is violated: the query overwrites the caller's array (the returned second component is the
content of the caller's array after the call). Entries 6, 4, 7; the argument `[10]` becomes `[4]`. -/
theorem C04_violated : ∃ (calls : List (List (Int × ℚ))) (t : Tree ℚ) (values after : List ℚ) (idx : List Nat),
    After 3 calls t ∧ getPrefixSumIdx t values = some (idx, after) ∧ after ≠ values :=
  ⟨[[(0, 5), (2, 7), (0, 6)], [(1, 4)]], _, [10], [4], [1], rfl, by decide +kernel, by decide⟩

/-- **C04** (what holds instead) the array is left holding, for each value, its distance into the interval
of the chosen index: `v_k` minus the sum of the entries before the returned index. In particular an element
is unchanged exactly if everything before its index sums to 0. Missing for the full claim: `after = values`,
which is false (`C04_violated`). -/
theorem C04_residual_partial [CommRing R] [LinearOrder R] [IsStrictOrderedRing R] (size : Nat)
    (calls : List (List (Int × R))) (t : Tree R)
    (h : After size calls t) (hnn : ∀ i < size, 0 ≤ getitem t i) (values : List R)
    (idx : List Nat) (after : List R) (hq : getPrefixSumIdx t values = some (idx, after))
    (k : Nat) (v : R) (hk : values[k]? = some v) :
    ∃ i, idx[k]? = some i ∧ after[k]? = some (v - ∑ j ∈ range i, getitem t j) := by
  obtain ⟨hw, hs, _⟩ := after_inv size calls t h
  subst hs
  obtain ⟨hb, d, hd, rfl, rfl⟩ := getPrefixSumIdx_eq t hw values idx after hq
  have hv := hb v (List.mem_of_getElem? hk)
  obtain ⟨i, x, hdn, hsum, hx, hz⟩ := descent_spec t hw hnn d hd v hv.1 hv.2
  refine ⟨i, by rw [List.getElem?_map, hk]; simp [hdn], ?_⟩
  rw [List.getElem?_map, hk]
  simp only [Option.map_some, Option.some.injEq, hdn]
  rw [hsum]; ring

end Verif.SegTree
