import Verif.Lemmas.BufferReads
import Mathlib.Algebra.Order.Ring.Int

/-! Properties C05-C19: `ReplayBuffer`.

`History b g` (Spec/History.lean) says that `b` results from public operations and that `g` records what the
user passed in. `content b g` is the list of the last `maxsize` transitions received since the last reset.
`b.idx.allIndices` is the array built on base.py:504-507, i.e. the result of `sample_indices(0)` (C06). -/

set_option linter.unusedSectionVars false

namespace Verif.Buffer

open Verif.Spec

variable {O A R : Type} [AddCommMonoid R]

/-! ### Running examples -/

/-- Helper for the examples: add transitions one by one (an error, which never happens, is skipped). -/
def addAll (b : Buf O A R) : List (Trans O A R) → Buf O A R
  | [] => b
  | t :: ts => match b.add t with
    | .ok (b', _) => addAll b' ts
    | .error _ => addAll b ts

theorem History.addAll {b : Buf O A R} {g : Ghost O A R} (h : History b g) (ts : List (Trans O A R)) :
    ∃ g', History (addAll b ts) g' ∧ g'.received = g.received ++ ts.map (expectedRow b.opts) := by
  induction ts generalizing b g with
  | nil => exact ⟨g, h, by simp⟩
  | cons t ts ih =>
    obtain ⟨b', r, hb⟩ := h.inv.add_ok t
    obtain ⟨g', h1, h2⟩ := ih (h.add hb)
    refine ⟨g', by rw [Buffer.addAll, hb]; exact h1, ?_⟩
    rw [h2, (h.inv.add hb).2.1]
    simp

/-- A transition of the running example: observation `o`, reward `o`. -/
def tr (o : Nat) (term trunc : Bool) : Trans Nat Nat Int := ⟨o, o, o, term, trunc, some (o + 1)⟩

/-- Five transitions, the second terminates an episode, the rest is an open episode. -/
def exTrans : List (Trans Nat Nat Int) :=
  [tr 10 false false, tr 11 true false, tr 20 false false, tr 21 false false, tr 22 false false]

/-- A buffer of size 4 after the five transitions: wrapped around, slot 0 overwritten. -/
def exBuf : Buf Nat Nat Int := addAll (Buf.new 4 {}) exTrans

theorem exBuf_history : ∃ g, History exBuf g ∧ g.received = exTrans := by
  obtain ⟨g, h1, h2⟩ := (History.new (A := Nat) (R := Int) 4 (by decide) ({} : Opts Nat)).addAll exTrans
  exact ⟨g, h1, h2⟩

example : exBuf.idx.allIndices = [1, 2, 3, 0] := by decide

/-! ### C05, C06 -/

/-- **C05** the length of the buffer. -/
theorem C05_len {b : Buf O A R} {g : Ghost O A R} (h : History b g) :
    b.len = min g.received.length b.idx.maxsize := h.inv.size

/-- **C05** the buffer, read in the order of `sample_indices(0)`, holds exactly the last `maxsize`
transitions received since the last reset, in order. -/
theorem C05_fifo {b : Buf O A R} {g : Ghost O A R} (h : History b g) :
    b.idx.allIndices.map b.data = (lastN b.idx.maxsize g.received).map some := h.holds.contents

/-- **C05** the row returned by `buffer[i]` for the `k`-th oldest slot `i` consists of the fields of the
`k`-th oldest transition (`stack_num = 1`). -/
theorem C05_rows {b : Buf O A R} {g : Ghost O A R} (h : History b g) (hs : b.opts.stackNum = 1)
    (k i : Nat) (hi : b.idx.allIndices[k]? = some i) :
    ∃ t, (lastN b.idx.maxsize g.received)[k]? = some t ∧
      (b.getRow i).obs = [some t.obs] ∧ (b.getRow i).act = some t.act ∧
      (b.getRow i).rew = some t.rew ∧ (b.getRow i).terminated = some t.terminated ∧
      (b.getRow i).truncated = some t.truncated ∧
      (b.getRow i).done = (t.terminated || t.truncated) ∧
      (b.opts.ignoreObsNext = false → (b.getRow i).obsNext = [some t.obsNext]) := by
  have hf := congrArg (fun l => l[k]?) (C05_fifo h)
  simp only [List.getElem?_map, hi, Option.map_some] at hf
  cases hc : (lastN b.idx.maxsize g.received)[k]? with
  | none => rw [hc] at hf; cases hf
  | some t =>
    rw [hc] at hf
    simp only [Option.map_some, Option.some.injEq] at hf
    refine ⟨t, rfl, ?_, ?_, ?_, ?_, ?_, ?_, ?_⟩
    · simp [Buf.getRow, hs, Buf.get, Buf.get.go, hf]
    · simp [Buf.getRow, hf]
    · simp [Buf.getRow, hf]
    · simp [Buf.getRow, hf]
    · simp [Buf.getRow, hf]
    · simp [Buf.getRow, doneAt, hf, Trans.done]
    · intro hn
      simp [Buf.getRow, hs, hn, Buf.get, Buf.get.go, hf]

/-- **C06** `sample_indices(0)` (without `sample_avail`) has one entry per live slot, without duplicates, and
its entries are exactly the slots `0 .. len-1`. -/
theorem C06_enumerates {b : Buf O A R} {g : Ghost O A R} (h : History b g)
    (hm : b.opts.stackNum = 1 ∨ b.opts.sampleAvail = false) (rng : Nat → Nat) :
    ∃ l, b.sampleIndices rng (some 0) = .ok l ∧ l = b.idx.allIndices ∧ l.length = b.len ∧ l.Nodup ∧
      ∀ i, i ∈ l ↔ i < b.len := by
  refine ⟨b.idx.allIndices, ?_, rfl, h.holds.allIndices_length, ?_, ?_⟩
  · unfold Buf.sampleIndices
    simp only [Option.getD_some]
    rw [if_pos (by simpa using hm)]
    simp
  · rw [allIndices_eq h.holds.ins_le]
    refine List.pairwise_map.mpr ((List.nodup_range).imp_of_mem ?_)
    intro x y hx hy hne hxy
    exact hne (slot_inj h.holds.ins_le (List.mem_range.mp hx) (List.mem_range.mp hy) hxy)
  · intro i
    rw [allIndices_eq h.holds.ins_le, List.mem_map]
    constructor
    · rintro ⟨k, hk, rfl⟩
      exact slot_lt h.holds.ins_le (List.mem_range.mp hk)
    · intro hi
      obtain ⟨k, hk, hki⟩ := slot_surj h.holds.ins_le hi
      exact ⟨k, List.mem_range.mpr hk, hki⟩

/-- **C06** `buffer[:]` returns the rows in chronological order. -/
theorem C06_getAll {b : Buf O A R} {g : Ghost O A R} (h : History b g)
    (hm : b.opts.stackNum = 1 ∨ b.opts.sampleAvail = false) :
    ∃ rows, b.getAll = .ok rows ∧ rows.length = b.len ∧
      rows.map Row.act = (lastN b.idx.maxsize g.received).map (fun t => some t.act) ∧
      rows.map Row.rew = (lastN b.idx.maxsize g.received).map (fun t => some t.rew) := by
  obtain ⟨l, h1, h2, h3, _, _⟩ := C06_enumerates h hm (fun _ => 0)
  refine ⟨l.map b.getRow, by rw [Buf.getAll, h1]; rfl, by rw [List.length_map, h3], ?_, ?_⟩
  · have := congrArg (List.map (Option.map Trans.act)) (C05_fifo h)
    rw [List.map_map, List.map_map] at this
    rw [List.map_map, h2]
    exact this
  · have := congrArg (List.map (Option.map Trans.rew)) (C05_fifo h)
    rw [List.map_map, List.map_map] at this
    rw [List.map_map, h2]
    exact this

/-! ### C07 -/

theorem choice_mem (rng : Nat → Nat) (all : List Nat) (n : Nat) (l : List Nat)
    (h : choice rng all n = .ok l) : l.length = n ∧ ∀ i ∈ l, i ∈ all := by
  unfold choice at h
  split at h
  · cases h
  · rename_i hne
    simp only [Except.ok.injEq] at h
    subst h
    refine ⟨by simp, ?_⟩
    intro i hi
    rw [List.mem_map] at hi
    obtain ⟨k, hk, rfl⟩ := hi
    rw [List.mem_range] at hk
    have hpos : 0 < all.length := by omega
    have hlt := Nat.mod_lt (rng k) hpos
    rw [List.getD_eq_getElem?_getD, List.getElem?_eq_getElem hlt]
    simp

theorem choice_ok (rng : Nat → Nat) (all : List Nat) (n : Nat) (h : 0 < all.length) :
    ∃ l, choice rng all n = .ok l := by
  unfold choice; rw [if_neg (by omega)]; exact ⟨_, rfl⟩

theorem choice_surj (all : List Nat) (l : List Nat) (h : ∀ i ∈ l, i ∈ all) (hne : 0 < all.length) :
    ∃ rng, choice rng all l.length = .ok l := by
  have : ∀ i, ∃ k, i ∈ all → k < all.length ∧ all[k]? = some i := by
    intro i
    by_cases hi : i ∈ all
    · obtain ⟨k, hk, he⟩ := List.getElem_of_mem hi
      exact ⟨k, fun _ => ⟨hk, by rw [List.getElem?_eq_getElem hk, he]⟩⟩
    · exact ⟨0, fun h => absurd h hi⟩
  choose f hf using this
  refine ⟨fun j => f (l.getD j 0), ?_⟩
  unfold choice
  rw [if_neg (by omega)]
  congr 1
  apply List.ext_getElem
  · simp
  · intro j h1 h2
    simp only [List.getElem_map, List.getElem_range]
    have hj : l.getD j 0 = l[j] := by rw [List.getD_eq_getElem?_getD, List.getElem?_eq_getElem h2]; rfl
    rw [hj]
    have := hf l[j] (h _ (List.getElem_mem h2))
    rw [Nat.mod_eq_of_lt this.1, List.getD_eq_getElem?_getD, this.2]
    rfl

theorem mem_arange (n i : Nat) : i ∈ arange 0 n ↔ i < n := by
  simp [arange]

/-- **C07** every index ever sampled is a live slot, in every mode and for every random outcome. -/
theorem C07_sampled_live {b : Buf O A R} {g : Ghost O A R} (h : History b g) (rng : Nat → Nat)
    (bs : Option Int) (l : List Nat) (hl : b.sampleIndices rng bs = .ok l) : ∀ i ∈ l, i < b.len := by
  have hall : ∀ i ∈ b.idx.allIndices, i < b.len := by
    intro i hi
    rw [allIndices_eq h.holds.ins_le, List.mem_map] at hi
    obtain ⟨k, hk, rfl⟩ := hi
    exact slot_lt h.holds.ins_le (List.mem_range.mp hk)
  unfold Buf.sampleIndices at hl
  simp only at hl
  intro i hi
  split_ifs at hl with h1 h2 h3 h4 h5
  · have := (choice_mem _ _ _ _ hl).2 i hi
    exact (mem_arange _ _).mp this
  · cases hl; exact hall i hi
  · cases hl; simp at hi
  · cases hl; simp at hi
  · have := (choice_mem _ _ _ _ hl).2 i hi
    exact hall i (List.mem_filter.mp this).1
  · cases hl; exact hall i (List.mem_filter.mp hi).1

/-- **C07** sampling `n > 0` indices from a non-empty buffer gives `n` indices. -/
theorem C07_count {b : Buf O A R} {g : Ghost O A R} (_h : History b g)
    (hm : b.opts.stackNum = 1 ∨ b.opts.sampleAvail = false) (rng : Nat → Nat) (n : Nat) (hn : 0 < n)
    (hlen : 0 < b.len) : ∃ l, b.sampleIndices rng (some n) = .ok l ∧ l.length = n := by
  unfold Buf.sampleIndices
  simp only [Option.getD_some]
  rw [if_pos (by simpa using hm), if_pos (by omega)]
  obtain ⟨l, hl⟩ := choice_ok rng (arange 0 b.idx.size) (n : Int).toNat
    (by simp [arange]; exact hlen)
  exact ⟨l, hl, (choice_mem _ _ _ _ hl).1⟩

/-- **C07** every sequence of `n > 0` live slots is a possible outcome (so the statement above is about all
outcomes, and no live slot is excluded from sampling). -/
theorem C07_all_outcomes {b : Buf O A R} {g : Ghost O A R} (_h : History b g)
    (hm : b.opts.stackNum = 1 ∨ b.opts.sampleAvail = false) (l : List Nat) (hn : l ≠ [])
    (hl : ∀ i ∈ l, i < b.len) : ∃ rng, b.sampleIndices rng (some l.length) = .ok l := by
  have hpos : 0 < l.length := List.length_pos_iff.mpr hn
  obtain ⟨rng, hr⟩ := choice_surj (arange 0 b.idx.size) l (fun i hi => (mem_arange _ _).mpr (hl i hi))
    (by
      obtain ⟨i, hi⟩ := List.exists_mem_of_ne_nil l hn
      have := hl i hi
      simp only [arange, List.length_map, List.length_range]
      unfold Buf.len at this
      omega)
  refine ⟨rng, ?_⟩
  unfold Buf.sampleIndices
  simp only [Option.getD_some]
  rw [if_pos (by simpa using hm), if_pos (by omega)]
  simpa using hr

/-- **C07** the remaining cases: `None` samples `len` indices (all of them if the buffer is empty), a
negative batch size none, and sampling from an empty buffer raises. -/
theorem C07_special {b : Buf O A R} {g : Ghost O A R} (h : History b g)
    (hm : b.opts.stackNum = 1 ∨ b.opts.sampleAvail = false) (rng : Nat → Nat) :
    (∃ l, b.sampleIndices rng none = .ok l ∧ l.length = b.len) ∧
    (∀ n : Int, n < 0 → b.sampleIndices rng (some n) = .ok []) ∧
    (∀ n : Int, 0 < n → b.len = 0 → b.sampleIndices rng (some n) = .error .valueError) := by
  refine ⟨?_, ?_, ?_⟩
  · rcases Nat.eq_zero_or_pos b.len with h0 | h0
    · obtain ⟨l, h1, _, h3, _⟩ := C06_enumerates h hm rng
      refine ⟨l, ?_, h3⟩
      rw [← h1]
      unfold Buf.sampleIndices
      simp [h0]
    · obtain ⟨l, h1, h2⟩ := C07_count h hm rng b.len h0 h0
      exact ⟨l, by rw [← h1]; rfl, h2⟩
  · intro n hn
    unfold Buf.sampleIndices
    simp only [Option.getD_some]
    rw [if_pos (by simpa using hm), if_neg (by omega), if_neg (by omega)]
  · intro n hn h0
    unfold Buf.sampleIndices
    simp only [Option.getD_some]
    rw [if_pos (by simpa using hm), if_pos hn, choice]
    unfold Buf.len at h0
    rw [if_pos (by simp [arange, h0]; omega)]

example : ∃ g, History exBuf g ∧ exBuf.opts.stackNum = 1 ∧ 0 < exBuf.len :=
  let ⟨g, h, _⟩ := exBuf_history; ⟨g, h, rfl, by decide⟩

/-! ### C08 - C11 -/

/-- **C08** `prev` of the `k`-th oldest live slot is the `(k-1)`-th oldest one if that transition did not end
an episode, and the slot itself otherwise (in particular for the oldest one). -/
theorem C08_prev {b : Buf O A R} {g : Ghost O A R} (h : History b g) (k i : Nat)
    (hi : b.idx.allIndices[k]? = some i) :
    some (b.prev i) = b.idx.allIndices[if continues Trans.done (content b g) k then k - 1 else k]? := by
  have hk : k < b.idx.size := by
    rw [← h.holds.allIndices_length]; exact (List.getElem?_eq_some_iff.mp hi).1
  rw [h.holds.allIndices_getElem? k hk] at hi
  cases hi
  rw [prev_slot h.holds k hk, h.holds.allIndices_getElem?]
  split <;> omega

/-- **C09** `next` of the `k`-th oldest live slot is the `(k+1)`-th oldest one unless the transition ended an
episode or is the newest one, and the slot itself otherwise. -/
theorem C09_next {b : Buf O A R} {g : Ghost O A R} (h : History b g) (k i : Nat)
    (hi : b.idx.allIndices[k]? = some i) :
    some (b.next i) = b.idx.allIndices[
      if k + 1 < b.len ∧ continues Trans.done (content b g) (k + 1) then k + 1 else k]? := by
  have hk : k < b.idx.size := by
    rw [← h.holds.allIndices_length]; exact (List.getElem?_eq_some_iff.mp hi).1
  rw [h.holds.allIndices_getElem? k hk] at hi
  cases hi
  have hlen := h.holds.len
  rw [next_slot h.holds k hk, h.holds.allIndices_getElem?]
  · rw [hlen]; rfl
  · unfold Buf.len; split <;> omega

/-- The wrapped example: slot 2 (oldest of the second episode) keeps its place under `prev`, slot 0 (newest)
steps back over the physical end of the array, slot 1 (end of the first episode) is fixed by `next`. -/
example : exBuf.prev 2 = 2 ∧ exBuf.prev 0 = 3 ∧ exBuf.next 1 = 1 ∧ exBuf.next 3 = 0 ∧ exBuf.next 0 = 0 := by
  decide

example : continues Trans.done (lastN 4 exTrans) 1 = false ∧ continues Trans.done (lastN 4 exTrans) 3 = true := by
  decide

/-- **C10** `prev` undoes `next` wherever `next` moves, and conversely. -/
theorem C10_inverse {b : Buf O A R} {g : Ghost O A R} (h : History b g) (i : Nat) (hi : i < b.len) :
    (b.next i ≠ i → b.prev (b.next i) = i) ∧ (b.prev i ≠ i → b.next (b.prev i) = i) := by
  obtain ⟨k, hk, rfl⟩ := slot_surj h.holds.ins_le hi
  have hlen := h.holds.len
  constructor
  · intro hne
    rw [next_slot h.holds k hk] at hne ⊢
    split at hne
    · rename_i hc
      rw [if_pos hc, prev_slot h.holds _ (by omega), hc.2]
      simp
    · exact absurd rfl hne
  · intro hne
    rw [prev_slot h.holds k hk] at hne ⊢
    split at hne
    · rename_i hc
      cases k with
      | zero => simp [continues] at hc
      | succ k =>
        rw [if_pos hc]
        simp only [Nat.add_sub_cancel]
        rw [next_slot h.holds _ (by omega), if_pos ⟨by omega, hc⟩]
    · exact absurd rfl hne

/-- **C10** iterating `next` `j` times from step `k` leads to step `min (k+j) (last stored step of the
episode)`; in particular after at most `len - 1` steps it has reached the end of the episode and stays. -/
theorem C10_next_iterate {b : Buf O A R} {g : Ghost O A R} (h : History b g) (k i j : Nat)
    (hi : b.idx.allIndices[k]? = some i) :
    some (b.next^[j] i) = b.idx.allIndices[min (k + j) (epLast Trans.done (content b g) k)]? := by
  have hk : k < b.idx.size := by
    rw [← h.holds.allIndices_length]; exact (List.getElem?_eq_some_iff.mp hi).1
  rw [h.holds.allIndices_getElem? k hk] at hi
  cases hi
  have hlen := h.holds.len
  have := epLast_lt Trans.done (content b g) (k := k) (by omega)
  rw [next_iter h.holds k j hk, h.holds.allIndices_getElem? _ (by omega)]

/-- **C10** iterating `prev` `j` times from step `k` leads to step `max (k-j) (first stored step of the
episode)`. -/
theorem C10_prev_iterate {b : Buf O A R} {g : Ghost O A R} (h : History b g) (k i j : Nat)
    (hi : b.idx.allIndices[k]? = some i) :
    some (b.prev^[j] i) = b.idx.allIndices[max (k - j) (epFirst Trans.done (content b g) k)]? := by
  have hk : k < b.idx.size := by
    rw [← h.holds.allIndices_length]; exact (List.getElem?_eq_some_iff.mp hi).1
  rw [h.holds.allIndices_getElem? k hk] at hi
  cases hi
  have := epFirst_le Trans.done (content b g) k
  rw [prev_iter h.holds k j hk, h.holds.allIndices_getElem? _ (by omega)]

/-- **C11** `unfinished_index` is the newest slot if its transition did not end an episode, and empty
otherwise (on a buffer that has ever been written). -/
theorem C11_unfinished {b : Buf O A R} {g : Ghost O A R} (h : History b g) :
    b.unfinishedIndex true = .ok
      (match (content b g).getLast? with
        | some t => if t.terminated || t.truncated then [] else b.idx.allIndices.getLast?.toList
        | none => []) := by
  have hlen := h.holds.len
  have hall := h.holds.allIndices_length
  unfold Buf.unfinishedIndex
  rcases Nat.eq_zero_or_pos b.idx.size with h0 | h0
  · have : content b g = [] := List.length_eq_zero_iff.mp (by omega)
    rw [this]
    simp [h0]
  · have hi := h.holds.ins_le
    have hlast : (((b.idx.ins : Int) - 1) % (b.idx.size : Int)).toNat =
        slot b.idx.ins b.idx.size (b.idx.size - 1) := by
      rcases Nat.lt_or_ge b.idx.ins b.idx.size with hlt | hge
      · rw [pred_mod _ _ hlt]; unfold slot; split_ifs <;> omega
      · have : b.idx.ins = b.idx.size := by omega
        rw [this, Int.emod_eq_of_lt (by omega) (by omega)]
        unfold slot; split_ifs <;> omega
    have hs0 : b.idx.size ≠ 0 := by omega
    simp only [hs0, ne_eq, not_false_eq_true, if_true, not_true_eq_false, if_false, and_true, hlast]
    have hd := h.holds.data (b.idx.size - 1) (by omega)
    have hcl : (content b g).getLast? = (content b g)[b.idx.size - 1]? := by
      rw [List.getLast?_eq_getElem?, hlen]
    have hal : b.idx.allIndices.getLast? = some (slot b.idx.ins b.idx.size (b.idx.size - 1)) := by
      rw [List.getLast?_eq_getElem?, hall, h.holds.allIndices_getElem? _ (by omega)]
    obtain ⟨t, ht⟩ : ∃ t, (content b g)[b.idx.size - 1]? = some t :=
      ⟨_, List.getElem?_eq_getElem (by omega)⟩
    have hda : doneAt b.data (slot b.idx.ins b.idx.size (b.idx.size - 1)) = (t.terminated || t.truncated) := by
      rw [doneAt, hd, ht]; rfl
    rw [hcl, hal, ht, hda]
    simp only [Option.toList_some]
    cases t.terminated || t.truncated <;> rfl

example : exBuf.unfinishedIndex true = .ok [0] := by rfl

/-- Before the first write the call raises instead of returning an empty array (the flag array does not exist
yet). -/
theorem C11_before_first_write {b : Buf O A R} : b.unfinishedIndex false = .error .attributeError := rfl

/-! ### C12 - C14 -/

/-- **C12** what `add` reports: the slot of the newest transition, and if the transition ends an episode the
number of transitions and the reward sum of the episode (all transitions added since the previous end of
episode or statistics-clearing reset), otherwise zeros. -/
theorem C12_add_result {b b' : Buf O A R} {g : Ghost O A R} (h : History b g) {t : Trans O A R}
    {r : AddResult R} (ha : b.add t = .ok (b', r)) :
    b'.data r.slot = some (expectedRow b.opts t) ∧ b'.idx.allIndices.getLast? = some r.slot ∧
    ((t.terminated || t.truncated) = true →
      r.epLen = g.openEp.length + 1 ∧ r.epRet = (g.openEp.map Trans.rew).sum + t.rew) ∧
    ((t.terminated || t.truncated) = false → r.epLen = 0 ∧ r.epRet = 0) := by
  obtain ⟨I', _, hm, hr, hlast, hdata⟩ := h.inv.add ha
  subst hr
  refine ⟨by rw [hdata]; simp, ?_, ?_, ?_⟩
  · have hs := I'.size
    have hpos := I'.holds.pos
    have hs0 : b'.idx.size ≠ 0 := by simp at hs; omega
    have hl := I'.holds.last
    rw [if_neg hs0] at hl
    rw [List.getLast?_eq_getElem?, I'.holds.allIndices_length,
      I'.holds.allIndices_getElem? _ (by omega), ← hl, hlast]
  · intro hd
    simp [hd]
  · intro hd
    simp [hd]

/-- **C14** `add` never raises on a buffer used through its public operations; in particular no
`MalformedBufferError`. -/
theorem C14_add_succeeds {b : Buf O A R} {g : Ghost O A R} (h : History b g) (t : Trans O A R) :
    ∃ b' r, b.add t = .ok (b', r) := h.inv.add_ok t

/-- The episode of the example had three steps when its end arrives: length 4 (longer than what is left of
it after wrap-around in a buffer of size 4), return 20+21+22+23. -/
example : (exBuf.add (tr 23 false true)).map (fun p => p.2) =
    .ok { slot := 1, epRet := 86, epLen := 4, epStart := 2 } := by rfl

/-- **C13** `get_buffer_indices(start, slot + 1)`, with the start and slot reported by `add` at the end of an
episode, returns exactly the slots of the transitions received since the previous end of episode (or since
the reset), oldest first, if they fit into the buffer and do not fill it completely from a slot other
than 0. Missing for the full claim: that last case, where the call raises (`C13_full_wrap_raises`,
`C13_violated`). -/
theorem C13_episode_indices_partial {b b' : Buf O A R} {g : Ghost O A R} (h : History b g) {t : Trans O A R}
    {r : AddResult R} (ha : b.add t = .ok (b', r)) (_hd : (t.terminated || t.truncated) = true)
    (hfit : g.received.length + 1 - g.startPos ≤ b.idx.maxsize)
    (hnot : ¬ (g.received.length + 1 - g.startPos = b.idx.maxsize ∧ r.epStart ≠ 0)) :
    b'.getBufferIndices r.epStart (r.slot + 1) =
      .ok (lastN (g.received.length + 1 - g.startPos) b'.idx.allIndices) := by
  obtain ⟨I', _, hm, hr, hlast, hdata⟩ := h.inv.add ha
  have hsp := h.inv.startPos
  have hpos := h.inv.holds.pos
  have hs := I'.size
  simp only [List.length_append, List.length_cons, List.length_nil] at hs
  rw [I'.lastN_allIndices _ (by omega)]
  subst hr
  simp only at hnot ⊢
  unfold Buf.getBufferIndices
  rw [hm, h.inv.ins]
  have e : g.received.length % b.idx.maxsize =
      (g.startPos % b.idx.maxsize + (g.received.length + 1 - g.startPos - 1)) % b.idx.maxsize := by
    rw [Nat.mod_add_mod]; congr 1; omega
  rw [e, getBufferIndices_ring _ _ _ (Nat.mod_lt _ hpos) (by omega) hfit, if_neg hnot]
  congr 1
  apply List.map_congr_left
  intro j _
  rw [Nat.mod_add_mod]
  congr 1
  simp
  omega

/-- **C13** is violated for an episode that fills the buffer exactly and does not start at slot 0: the call
raises `ValueError`. -/
theorem C13_full_wrap_raises {b b' : Buf O A R} {g : Ghost O A R} (h : History b g) {t : Trans O A R}
    {r : AddResult R} (ha : b.add t = .ok (b', r))
    (hfit : g.received.length + 1 - g.startPos = b.idx.maxsize) (hst : r.epStart ≠ 0) :
    b'.getBufferIndices r.epStart (r.slot + 1) = .error .valueError := by
  obtain ⟨I', _, hm, hr, hlast, hdata⟩ := h.inv.add ha
  have hsp := h.inv.startPos
  have hpos := h.inv.holds.pos
  subst hr
  simp only at hst ⊢
  unfold Buf.getBufferIndices
  rw [hm, h.inv.ins]
  have e : g.received.length % b.idx.maxsize =
      (g.startPos % b.idx.maxsize + (g.received.length + 1 - g.startPos - 1)) % b.idx.maxsize := by
    rw [Nat.mod_add_mod]; congr 1; omega
  rw [e, getBufferIndices_ring _ _ _ (Nat.mod_lt _ hpos) (by omega) (by omega), if_pos ⟨hfit, hst⟩]

/-- **C13** violation, concretely: size 4, an episode of 2 then an episode of 4 steps. -/
theorem C13_violated : ∃ (b b' : Buf Nat Nat Int) (g : Ghost Nat Nat Int) (t : Trans Nat Nat Int)
    (r : AddResult Int), History b g ∧ b.add t = .ok (b', r) ∧ t.terminated = true ∧ r.epLen ≤ b.idx.maxsize ∧
    b'.getBufferIndices r.epStart (r.slot + 1) = .error .valueError := by
  obtain ⟨g, h, _⟩ := exBuf_history
  exact ⟨exBuf, _, g, tr 23 true false, _, h, rfl, rfl, by decide, rfl⟩

/-- Non-vacuity of `C13_episode_indices_partial`: an episode of three steps wrapping around (slots 2, 3, 0). -/
example : ((addAll (Buf.new 4 {}) (exTrans.take 4)).add (tr 22 true false)).toOption.map
    (fun p => p.1.getBufferIndices p.2.epStart (p.2.slot + 1)) = some (.ok [2, 3, 0]) := by rfl

/-! ### C15 -/

/-- **C15** `dst.update(src)` appends the content of `src`, oldest first; it returns the slots written, one
per moved transition; the last ones of them are the newest slots of the result, in order. -/
theorem C15_update {b src : Buf O A R} {g gs : Ghost O A R} (h : History b g) (hs : History src gs) :
    (b.update src).1.idx.allIndices.map (b.update src).1.data =
      (lastN b.idx.maxsize (g.received ++ content src gs)).map some ∧
    (b.update src).2.length = src.len ∧
    lastN (min src.len b.idx.maxsize) (b.update src).2 =
      lastN (min src.len b.idx.maxsize) (b.update src).1.idx.allIndices := by
  obtain ⟨I, hu, _, hm⟩ := h.inv.update hs.inv
  refine ⟨?_, by rw [hu]; simp, ?_⟩
  · have := I.holds.contents
    rw [content, hm] at this
    exact this
  · have hsz := I.size
    have hcl : (content src gs).length = src.len := hs.holds.len
    rw [hm] at hsz
    simp only [List.length_append, hcl] at hsz
    rw [I.lastN_allIndices _ (by omega), hu, lastN, hm]
    apply List.ext_getElem
    · simp only [List.length_drop, List.length_map, List.length_range]; omega
    · intro j h1 h2
      simp only [List.length_map, List.length_range] at h2
      simp only [List.getElem_drop, List.getElem_map, List.getElem_range, List.length_map,
        List.length_range, List.length_append, hcl]
      congr 1
      omega

/-- **C15** an empty source changes nothing and reports no slots. -/
theorem C15_empty (b src : Buf O A R) (h : src.len = 0) : b.update src = (b, []) := by
  unfold Buf.update; rw [if_pos (Or.inl h)]

/-- A source of length 5 moved into a destination of size 3. -/
example : ((Buf.new 3 {} : Buf Nat Nat Int).update (addAll (Buf.new 7 {}) exTrans)).2 = [0, 1, 2, 0, 1] := by
  decide

/-! ### C16 - C18 -/

/-- **C16** stacking: entry `j` of `get(i, key, K)` is the value at the step `K-1-j` before step `k`, but
never before the first stored step of the episode. -/
theorem C16_stack {V : Type} {b : Buf O A R} {g : Ghost O A R} (h : History b g) (val : Trans O A R → V)
    (k i K : Nat) (hi : b.idx.allIndices[k]? = some i) :
    b.get val i K = (List.range K).map fun j =>
      ((content b g)[max (k - (K - 1 - j)) (epFirst Trans.done (content b g) k)]?).map val := by
  have hk : k < b.idx.size := by
    rw [← h.holds.allIndices_length]; exact (List.getElem?_eq_some_iff.mp hi).1
  rw [h.holds.allIndices_getElem? k hk] at hi
  cases hi
  exact get_eq h.holds val k K hk

/-- No entry of the stack is missing (all of them are stored transitions). -/
theorem C16_stack_total {V : Type} {b : Buf O A R} {g : Ghost O A R} (h : History b g)
    (val : Trans O A R → V) (k i K : Nat) (hi : b.idx.allIndices[k]? = some i) :
    ∀ x ∈ b.get val i K, x ≠ none := by
  have hk : k < b.idx.size := by
    rw [← h.holds.allIndices_length]; exact (List.getElem?_eq_some_iff.mp hi).1
  have hlen := h.holds.len
  rw [C16_stack h val k i K hi]
  intro x hx
  rw [List.mem_map] at hx
  obtain ⟨j, _, rfl⟩ := hx
  have := epFirst_le Trans.done (content b g) k
  rw [List.getElem?_eq_getElem (by omega)]
  simp

example : exBuf.get Trans.obs 0 4 = [some 20, some 20, some 21, some 22] := by decide

/-- **C17** with `sample_avail` and `stack_num = K > 1`, `sample_indices(0)` lists, in chronological order,
exactly the live slots with at least `K - 1` predecessors in the same stored episode. -/
theorem C17_sample_avail {b : Buf O A R} {g : Ghost O A R} (h : History b g) (hK : 1 < b.opts.stackNum)
    (ha : b.opts.sampleAvail = true) (rng : Nat → Nat) :
    ∃ l, b.sampleIndices rng (some 0) = .ok l ∧
      l.map some = ((List.range b.len).filter fun k =>
        b.opts.stackNum - 1 ≤ k - epFirst Trans.done (content b g) k).map fun k => b.idx.allIndices[k]? := by
  unfold Buf.sampleIndices
  simp only [Option.getD_some]
  rw [if_neg (by simp [ha]; omega), if_neg (by omega), if_neg (by omega)]
  refine ⟨_, rfl, ?_⟩
  have hfilter : ∀ k, k < b.idx.size →
      (b.prev^[b.opts.stackNum - 2] (slot b.idx.ins b.idx.size k) ≠
        b.prev (b.prev^[b.opts.stackNum - 2] (slot b.idx.ins b.idx.size k)) ↔
      b.opts.stackNum - 1 ≤ k - epFirst Trans.done (content b g) k) := by
    intro k hk
    have hle := epFirst_le Trans.done (content b g) k
    rw [← Function.iterate_succ_apply' b.prev, prev_iter h.holds _ _ hk, prev_iter h.holds _ _ hk]
    constructor
    · intro hne
      by_contra hc
      apply hne
      congr 1
      omega
    · intro hge heq
      have := slot_inj h.holds.ins_le (by omega) (by omega) heq
      omega
  rw [allIndices_eq h.holds.ins_le, List.filter_map, List.map_map]
  have hpred : (List.range b.idx.size).filter
      ((fun i => decide (b.prev^[b.opts.stackNum - 2] i ≠ b.prev (b.prev^[b.opts.stackNum - 2] i))) ∘
        slot b.idx.ins b.idx.size) = (List.range b.idx.size).filter
        fun k => decide (b.opts.stackNum - 1 ≤ k - epFirst Trans.done (content b g) k) := by
    apply List.filter_congr
    intro k hk
    rw [List.mem_range] at hk
    simp only [Function.comp]
    exact decide_eq_decide.mpr (hfilter k hk)
  rw [hpred]
  apply List.map_congr_left
  intro k hk
  have := (List.mem_filter.mp hk).1
  rw [List.mem_range] at this
  simp [this]

/-- **C17** random sampling in this mode only returns such slots. -/
theorem C17_sample_avail_random {b : Buf O A R} {g : Ghost O A R} (_h : History b g)
    (hK : 1 < b.opts.stackNum) (ha : b.opts.sampleAvail = true) (rng rng' : Nat → Nat) (n : Nat) (hn : 0 < n)
    (l l0 : List Nat) (hl : b.sampleIndices rng (some n) = .ok l)
    (h0 : b.sampleIndices rng' (some 0) = .ok l0) : l.length = n ∧ ∀ i ∈ l, i ∈ l0 := by
  unfold Buf.sampleIndices at hl h0
  simp only [Option.getD_some] at hl h0
  rw [if_neg (by simp [ha]; omega), if_neg (by omega), if_pos (by omega)] at hl
  rw [if_neg (by simp [ha]; omega), if_neg (by omega), if_neg (by omega)] at h0
  cases h0
  exact choice_mem _ _ _ _ hl

/-- The example with `stack_num = 2`: only steps 21 and 22 (slots 3, 0) have a predecessor in their episode. -/
example : (addAll (Buf.new 4 { stackNum := 2, sampleAvail := true }) exTrans).sampleIndices (fun _ => 0) (some 0)
    = .ok [3, 0] := by rfl

/-- **C18** with `ignore_obs_next`, the `obs_next` of a row is the `obs` of the following transition if that
belongs to the same episode, and the row's own `obs` otherwise (`stack_num = 1`). -/
theorem C18_obs_next {b : Buf O A R} {g : Ghost O A R} (h : History b g)
    (hig : b.opts.ignoreObsNext = true) (hs : b.opts.stackNum = 1) (k i : Nat)
    (hi : b.idx.allIndices[k]? = some i) :
    (b.getRow i).obsNext =
      [((content b g)[if k + 1 < b.len ∧ continues Trans.done (content b g) (k + 1) then k + 1 else k]?).map
        fun t => some t.obs] := by
  have hk : k < b.idx.size := by
    rw [← h.holds.allIndices_length]; exact (List.getElem?_eq_some_iff.mp hi).1
  rw [h.holds.allIndices_getElem? k hk] at hi
  cases hi
  have hlen := h.holds.len
  simp only [Buf.getRow, hig, if_true, hs]
  rw [next_slot h.holds k hk]
  simp only [Buf.get, Buf.get.go]
  rw [h.holds.data _ (by split <;> omega)]
  rw [hlen]; rfl

/-- **C18** so if the user's transitions are chained (`obs_next` of a transition that does not end an episode
is the next `obs`), every such transition but the newest is returned with the original `obs_next`. -/
theorem C18_chained {b : Buf O A R} {g : Ghost O A R} (h : History b g)
    (hig : b.opts.ignoreObsNext = true) (hs : b.opts.stackNum = 1) (k i : Nat)
    (hi : b.idx.allIndices[k]? = some i) (obsNext : O) (t t' : Trans O A R)
    (ht : (content b g)[k]? = some t) (hd : t.done = false)
    (ht' : (content b g)[k + 1]? = some t') (hchain : t'.obs = obsNext) :
    (b.getRow i).obsNext = [some (some obsNext)] := by
  rw [C18_obs_next h hig hs k i hi, if_pos, ht', ← hchain]
  · rfl
  · refine ⟨?_, by simp [continues, ht, hd]⟩
    rw [h.holds.len_eq]
    exact (List.getElem?_eq_some_iff.mp ht').1

example : ((addAll (Buf.new 4 { ignoreObsNext := true }) exTrans).getRow 3).obsNext = [some (some 22)] ∧
    ((addAll (Buf.new 4 { ignoreObsNext := true }) exTrans).getRow 1).obsNext = [some (some 11)] := by decide

/-! ### C19 -/

/-- **C19** is violated: `buffer_ids = [3]` and `buffer_ids = [0, 1]` are accepted. -/
theorem C19_violated : ∃ (b : Buf Nat Nat Int) (g : Ghost Nat Nat Int) (t : Trans Nat Nat Int),
    History b g ∧ b.addIds [3] [t] = b.add t ∧ b.addIds [0, 1] [t] = b.add t ∧ ∃ r, b.add t = .ok r := by
  obtain ⟨g, h, _⟩ := exBuf_history
  exact ⟨exBuf, g, tr 23 false false, h, rfl, rfl, _, rfl⟩

/-- **C19** (what holds) one row is accepted exactly if there is one id *or* the first id is 0; otherwise
`ValueError` (an empty list raises `IndexError`). Missing: rejection unless both conditions hold. -/
theorem C19_check_partial (b : Buf O A R) (id0 : Int) (ids : List Int) (t : Trans O A R) :
    b.addIds (id0 :: ids) [t] = (if ids = [] ∨ id0 = 0 then b.add t else .error .valueError) ∧
    b.addIds [] [t] = .error .indexError ∧
    (∀ rows, rows.length ≠ 1 → ∃ e, b.addIds (id0 :: ids) rows = .error e) := by
  refine ⟨?_, rfl, ?_⟩
  · unfold Buf.addIds
    simp only [List.length_cons, ne_eq, Nat.add_eq_right, List.length_eq_zero_iff]
    by_cases h1 : ids = [] <;> by_cases h2 : id0 = 0 <;> simp [h1, h2]
  · intro rows hr
    unfold Buf.addIds
    simp only
    split
    · exact ⟨_, rfl⟩
    · match rows, hr with
      | [], _ => exact ⟨_, rfl⟩
      | [_], h => exact absurd rfl h
      | _ :: _ :: _, _ => exact ⟨_, rfl⟩

end Verif.Buffer
