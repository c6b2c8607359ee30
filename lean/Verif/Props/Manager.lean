import Verif.Lemmas.ManagerReads
import Verif.Props.Buffer
import Mathlib.Data.List.Nodup

/-! Properties C20-C25: vector and cached replay buffers.

`Reach m sep` (Spec/Manager.lean): `m` is a vector (or cached) buffer used through its public operations and
`sep` is the list of separate `ReplayBuffer`s that received the same transitions one by one. -/

set_option linter.unusedSectionVars false

namespace Verif.Buffer

open Verif.Spec

variable {O A R : Type} [AddCommMonoid R]

/-! ### C20 -/

/-- **C20** the store of the vector buffer, from the first slot of sub-buffer `b` on, is the store of the
separate buffer `b`; and the separate buffer is one with a history of its own (so C05-C18 apply to it). -/
theorem C20_store {m : Mgr O A R} {sep : List (Buf O A R)} (h : Reach m sep) (b : Nat) (c : Buf O A R)
    (hb : sep[b]? = some c) :
    (∀ i, i < c.idx.maxsize → m.data (startOf sep b + i) = c.data i) ∧ ∃ g, History c g := by
  obtain ⟨s, hs, rfl⟩ := h.inv.get' hb
  refine ⟨?_, h.inv.child_hist hs⟩
  intro i hi
  rw [← h.inv.offset_eq hs]
  simp only [Mgr.child, childOf] at hi ⊢
  rw [if_pos hi]

/-- **C20** `self.buffers[b]` itself (bookkeeping and view of the store) is the separate buffer `b`. -/
theorem C20_children {m : Mgr O A R} {sep : List (Buf O A R)} (h : Reach m sep) :
    m.subs.map m.child = sep := h.inv.children

/-- **C20** `add` on valid ids succeeds and acts as adding each row to its separate buffer, in order (repeated
ids allowed); it returns their results with slots shifted by the start of the sub-buffer; sub-buffers not
mentioned are untouched. -/
theorem C20_add {m : Mgr O A R} {sep : List (Buf O A R)} (h : Reach m sep) (ids : List Nat)
    (rows : List (Trans O A R)) (hl : ids.length = rows.length) (hid : ∀ b ∈ ids, b < sep.length) :
    ∃ m' sep' res, routeAll sep (ids.zip rows) = some (sep', res) ∧
      m.add ids rows = .ok (m', List.zipWith (fun b r => AddResult.shift (startOf sep b) r) ids res) ∧
      res.length = ids.length ∧ Reach m' sep' ∧ (∀ b, b ∉ ids → sep'[b]? = sep[b]?) ∧
      (∀ b, startOf sep' b = startOf sep b) := by
  obtain ⟨m', rs, sep', rs', h1, h2, _, h4, h5, h6, h7, _⟩ := h.inv.add ids rows hl hid
  subst h4
  exact ⟨m', sep', rs', h2, h1, h5, h.add h1 h2, h6, h7⟩

/-- **C20** so adding to some sub-buffers never changes a slot of another one. -/
theorem C20_no_interference {m m' : Mgr O A R} {sep : List (Buf O A R)} (h : Reach m sep) (ids : List Nat)
    (rows : List (Trans O A R)) {res : List (AddResult R)} (hl : ids.length = rows.length)
    (hid : ∀ b ∈ ids, b < sep.length) (ha : m.add ids rows = .ok (m', res)) (b : Nat) (c : Buf O A R)
    (hb : sep[b]? = some c) (hn : b ∉ ids) :
    ∀ i, i < c.idx.maxsize → m'.data (startOf sep b + i) = m.data (startOf sep b + i) := by
  obtain ⟨m1, sep1, res1, _, h2, _, h4, h5, h6⟩ := C20_add h ids rows hl hid
  rw [ha] at h2
  cases h2
  intro i hi
  have hb1 : sep1[b]? = some c := by rw [h5 b hn]; exact hb
  have e := (C20_store h4 b c hb1).1 i hi
  rw [h6 b] at e
  rw [e, (C20_store h b c hb).1 i hi]

/-- Apply several calls of `add`. -/
def Mgr.addAll (m : Mgr O A R) : List (List Nat × List (Trans O A R)) → Mgr O A R
  | [] => m
  | (ids, rows) :: rest => match m.add ids rows with
    | .ok (m', _) => m'.addAll rest
    | .error _ => m

theorem Reach.addAll {m : Mgr O A R} {sep : List (Buf O A R)} (h : Reach m sep)
    (calls : List (List Nat × List (Trans O A R)))
    (hc : ∀ p ∈ calls, p.1.length = p.2.length ∧ ∀ b ∈ p.1, b < sep.length) :
    ∃ sep', Reach (m.addAll calls) sep' ∧ sep'.length = sep.length := by
  induction calls generalizing m sep with
  | nil => exact ⟨sep, h, rfl⟩
  | cons p rest ih =>
    obtain ⟨ids, rows⟩ := p
    obtain ⟨h1, h2⟩ := hc _ List.mem_cons_self
    obtain ⟨m', sep', res, h3, h4, _, h6, _⟩ := C20_add h ids rows h1 h2
    have hl : sep'.length = sep.length := by
      obtain ⟨_, _, sep2, _, _, h8, _, _, _, _, _, h9⟩ := h.inv.add ids rows h1 h2
      rw [h3] at h8
      cases h8
      exact h9
    obtain ⟨sep2, h7, h8⟩ := ih h6 (by rw [hl]; exact fun p hp => hc p (List.mem_cons_of_mem _ hp))
    refine ⟨sep2, ?_, by omega⟩
    show Reach (match m.add ids rows with | .ok (m', _) => m'.addAll rest | .error _ => m) sep2
    rw [h4]
    exact h7

/-- Two sub-buffers of sizes 2 and 3; the first call uses sub-buffer 1 twice. -/
def exMgr : Mgr Nat Nat Int :=
  (Mgr.new [2, 3] {} : Mgr Nat Nat Int).addAll
    [([1, 0, 1], [tr 10 false false, tr 50 false false, tr 11 true false]),
     ([0, 1, 0], [tr 51 false false, tr 20 false false, tr 52 false false])]

theorem exMgr_reach : ∃ sep, Reach exMgr sep ∧ sep.length = 2 :=
  (Reach.new [2, 3] (by decide) {}).addAll _ (by simp)

example : (List.range 5).map (fun i => (exMgr.data i).map Trans.obs) =
    [some 52, some 51, some 10, some 11, some 20] := by decide +kernel

/-! ### C21 -/

/-- **C21** on any integer index whose normalisation (modulo the capacity) is live slot `i` of sub-buffer `b`,
`prev` and `next` are those of the separate buffer, shifted. -/
theorem C21_live {m : Mgr O A R} {sep : List (Buf O A R)} (h : Reach m sep) (b : Nat) (c : Buf O A R)
    (hb : sep[b]? = some c) (i : Nat) (hi : i < c.len) (z : Int)
    (hz : z % (((sep.map fun c => c.idx.maxsize).sum : Nat) : Int) = ((startOf sep b + i : Nat) : Int)) :
    m.prev z = startOf sep b + c.prev i ∧ m.next z = startOf sep b + c.next i := by
  obtain ⟨s, hs, rfl⟩ := h.inv.get' hb
  have ht : m.total = (sep.map fun c => c.idx.maxsize).sum := by
    rw [h.inv.layout.total, h.inv.maxs_eq]
  rw [← ht, ← h.inv.offset_eq hs] at hz
  rw [h.inv.prev_live hs z hz hi, h.inv.next_live hs z hz hi, h.inv.offset_eq hs]
  exact ⟨Nat.add_comm _ _, Nat.add_comm _ _⟩

/-- **C21** whatever the index (any integer, live or not), the result lies in the sub-buffer of the
normalised index. -/
theorem C21_same_subbuffer {m : Mgr O A R} {sep : List (Buf O A R)} (h : Reach m sep) (z : Int)
    (b : Nat) (c : Buf O A R) (hb : sep[b]? = some c)
    (h1 : (startOf sep b : Int) ≤ z % (((sep.map fun c => c.idx.maxsize).sum : Nat) : Int))
    (h2 : z % (((sep.map fun c => c.idx.maxsize).sum : Nat) : Int) < ((startOf sep b + c.idx.maxsize : Nat) : Int)) :
    (startOf sep b ≤ m.prev z ∧ m.prev z < startOf sep b + c.idx.maxsize) ∧
    (startOf sep b ≤ m.next z ∧ m.next z < startOf sep b + c.idx.maxsize) := by
  obtain ⟨s, hs, rfl⟩ := h.inv.get' hb
  have ht : m.total = (sep.map fun c => c.idx.maxsize).sum := by
    rw [h.inv.layout.total, h.inv.maxs_eq]
  rw [← ht, ← h.inv.offset_eq hs] at h1 h2
  rw [← h.inv.offset_eq hs]
  obtain ⟨p, hp⟩ : ∃ p : Nat, z % (m.total : Int) = (p : Int) := ⟨(z % (m.total : Int)).toNat, by omega⟩
  have e : (m.child s).idx = s.idx := rfl
  rw [e] at h2 ⊢
  rw [hp] at h1 h2
  exact ⟨h.inv.prev_in hs z hp (by omega) (by omega), h.inv.next_in hs z hp (by omega) (by omega)⟩

/-- Every index has such a sub-buffer. -/
theorem C21_total {m : Mgr O A R} {sep : List (Buf O A R)} (h : Reach m sep) (hne : sep ≠ []) (z : Int) :
    ∃ (b : Nat) (c : Buf O A R), sep[b]? = some c ∧
      (startOf sep b : Int) ≤ z % (((sep.map fun c => c.idx.maxsize).sum : Nat) : Int) ∧
      z % (((sep.map fun c => c.idx.maxsize).sum : Nat) : Int) < ((startOf sep b + c.idx.maxsize : Nat) : Int) := by
  have ht : m.total = (sep.map fun c => c.idx.maxsize).sum := by
    rw [h.inv.layout.total, h.inv.maxs_eq]
  have hpos : 0 < m.total := by
    cases sep with
    | nil => exact absurd rfl hne
    | cons c rest =>
      obtain ⟨g, hg⟩ := h.inv.hist c (by simp)
      have := hg.holds.pos
      rw [ht]; simp; omega
  rw [← ht]
  have h1 := Int.emod_nonneg z (by omega : (m.total : Int) ≠ 0)
  have h2 := Int.emod_lt_of_pos z (by omega : (0 : Int) < (m.total : Int))
  obtain ⟨b, s, hs, hp1, hp2⟩ := h.inv.layout.find (i := (z % (m.total : Int)).toNat) (by omega)
  refine ⟨b, m.child s, h.inv.get hs, ?_, ?_⟩
  · rw [← h.inv.offset_eq hs]; omega
  · rw [← h.inv.offset_eq hs]
    have e : (m.child s).idx = s.idx := rfl
    rw [e]; omega

example : exMgr.prev 0 = 1 ∧ exMgr.prev 1 = 1 ∧ exMgr.next (-4) = 0 ∧ exMgr.prev (-1) = 4 ∧ exMgr.next 2 = 3 := by
  decide +kernel

/-! ### C22 -/

/-- **C22** length. -/
theorem C22_len {m : Mgr O A R} {sep : List (Buf O A R)} (h : Reach m sep) :
    m.len = (sep.map Buf.len).sum := by
  rw [← h.inv.children, List.map_map]
  unfold Mgr.len
  congr 1
  apply List.map_congr_left
  intro s hs
  exact h.inv.length s hs

/-- The newest slot of a buffer, if its transition did not end an episode. -/
def newestOpen (c : Buf O A R) : List Nat :=
  match c.idx.allIndices.getLast? with
  | none => []
  | some i => match c.data i with
    | none => []
    | some t => if t.terminated || t.truncated then [] else [i]

theorem unfinished_newest {c : Buf O A R} {g : Ghost O A R} (h : History c g) :
    c.unfinishedIndex true = .ok (newestOpen c) := by
  rw [C11_unfinished h]
  unfold newestOpen
  have hf := C05_fifo h
  have hl := congrArg List.getLast? hf
  rw [List.getLast?_map, List.getLast?_map] at hl
  rw [content]
  cases hc : (lastN c.idx.maxsize g.received).getLast? with
  | none =>
    rw [hc] at hl
    cases ha : c.idx.allIndices.getLast? with
    | none => rfl
    | some i => rw [ha] at hl; cases hl
  | some t =>
    rw [hc] at hl
    cases ha : c.idx.allIndices.getLast? with
    | none => rw [ha] at hl; cases hl
    | some i =>
      rw [ha] at hl
      simp only [Option.map_some, Option.some.injEq] at hl
      simp only [hl, Option.toList_some]

/-- **C22** `unfinished_index` lists, in sub-buffer order, the newest slot of each sub-buffer whose newest
transition did not end an episode. -/
theorem C22_unfinished {m : Mgr O A R} {sep : List (Buf O A R)} (h : Reach m sep) :
    m.unfinishedIndex =
      .ok ((sep.zipIdx.map fun p => (newestOpen p.1).map (· + startOf sep p.2)).flatten) := by
  unfold Mgr.unfinishedIndex
  rw [concatOk_map _ _ (fun s => (newestOpen (m.child s)).map (· + s.offset))]
  · congr 2
    apply List.ext_getElem?
    intro b
    simp only [List.getElem?_map, List.getElem?_zipIdx]
    cases hb : m.subs[b]? with
    | none =>
      have : sep[b]? = none := by rw [← h.inv.children]; simp [hb]
      simp [this]
    | some s =>
      rw [h.inv.get hb]
      simp [h.inv.offset_eq hb]
  · intro s hs
    obtain ⟨b, hlt, he⟩ := List.getElem_of_mem hs
    have hb : m.subs[b]? = some s := by rw [List.getElem?_eq_getElem hlt, he]
    obtain ⟨g, hg⟩ := h.inv.child_hist hb
    rw [unfinished_newest hg]
    rfl

example : exMgr.len = 5 ∧ exMgr.unfinishedIndex.toOption = some [0, 4] := by decide +kernel

/-! ### C23 -/

theorem mem_flatten_range (n : Nat) (f : Nat → List Nat) (off : Nat → Nat) (i : Nat) :
    i ∈ ((List.range n).map fun b => (f b).map (· + off b)).flatten ↔
      ∃ b, b < n ∧ ∃ k ∈ f b, i = k + off b := by
  rw [List.mem_flatten]
  constructor
  · rintro ⟨l, hl, hi⟩
    rw [List.mem_map] at hl
    obtain ⟨b, hb, rfl⟩ := hl
    rw [List.mem_map] at hi
    obtain ⟨k, hk, rfl⟩ := hi
    exact ⟨b, List.mem_range.mp hb, k, hk, rfl⟩
  · rintro ⟨b, hb, k, hk, rfl⟩
    exact ⟨_, List.mem_map.mpr ⟨b, List.mem_range.mpr hb, rfl⟩, List.mem_map.mpr ⟨k, hk, rfl⟩⟩

/-- **C23** for a positive batch size on a non-empty buffer, `sample_indices` returns exactly that many
indices, all of them live, for every random outcome (mode without `sample_avail`). -/
theorem C23_sample {m : Mgr O A R} {sep : List (Buf O A R)} (h : Reach m sep)
    (hm : m.opts.stackNum = 1 ∨ m.opts.sampleAvail = false) (draw : Nat → Nat) (rng : Nat → Nat → Nat)
    (n : Nat) (hn : 0 < n) (hlen : 0 < m.len) :
    ∃ l, m.sampleIndices draw rng (some n) = .ok l ∧ l.length = n ∧ ∀ i ∈ l, LiveIn sep i := by
  set cands := (List.range m.subs.length).filter
    fun b => decide (0 < (m.subs.map Sub.length).getD b 0) with hcands
  have hcne : 0 < cands.length := by
    rw [List.length_pos_iff]
    intro hnil
    have : ∀ s ∈ m.subs, s.length = 0 := by
      intro s hs
      obtain ⟨b, hlt, he⟩ := List.getElem_of_mem hs
      by_contra h0
      have : b ∈ cands := by
        rw [hcands, List.mem_filter]
        refine ⟨List.mem_range.mpr hlt, ?_⟩
        simp [List.getD_eq_getElem?_getD, List.getElem?_eq_getElem hlt, he]
        omega
      rw [hnil] at this
      simp at this
    have : m.len = 0 := by
      unfold Mgr.len
      rw [List.sum_eq_zero]
      intro x hx
      rw [List.mem_map] at hx
      obtain ⟨s, hs, rfl⟩ := hx
      exact this s hs
    omega
  obtain ⟨bi, hbi⟩ := choice_ok draw cands n hcne
  obtain ⟨hbl, hbm⟩ := choice_mem _ _ _ _ hbi
  have hsl := h.inv.sub_length
  have hlt : ∀ b ∈ bi, b < sep.length := by
    intro b hb
    have := (List.mem_filter.mp (hbm b hb)).1
    rw [List.mem_range] at this
    omega
  have hpos : ∀ b c, b ∈ bi → sep[b]? = some c → 0 < c.len := by
    intro b c hb hc
    obtain ⟨s, hs, rfl⟩ := h.inv.get' hc
    have := (List.mem_filter.mp (hbm b hb)).2
    simp [List.getD_eq_getElem?_getD, hs] at this
    have hl := h.inv.length s (List.mem_of_getElem? hs)
    show 0 < s.idx.size
    omega
  have hopts : ∀ (b : Nat) (c : Buf O A R), sep[b]? = some c → c.opts = m.opts := by
    intro b c hc
    obtain ⟨s, hs, rfl⟩ := h.inv.get' hc
    rfl
  -- results of the children
  have hchild : ∀ (b : Nat), ∃ l, ∀ (c : Buf O A R), sep[b]? = some c →
      c.sampleIndices (rng b) (some (if bi.count b = 0 then -1 else (bi.count b : Int))) = .ok l ∧
      l.length = bi.count b ∧ ∀ i ∈ l, i < c.len := by
    intro b
    cases hb : sep[b]? with
    | none => exact ⟨[], by simp⟩
    | some c =>
      obtain ⟨g, hg⟩ := h.inv.hist c (List.mem_of_getElem? hb)
      have hmc : c.opts.stackNum = 1 ∨ c.opts.sampleAvail = false := by rw [hopts b c hb]; exact hm
      by_cases h0 : bi.count b = 0
      · refine ⟨[], ?_⟩
        intro c' hc'
        cases hc'
        rw [if_pos h0, (C07_special hg hmc (rng b)).2.1 (-1) (by omega)]
        exact ⟨rfl, by simp [h0], by simp⟩
      · have hmem : b ∈ bi := List.count_pos_iff.mp (by omega)
        obtain ⟨l, h1, h2⟩ := C07_count hg hmc (rng b) (bi.count b) (by omega) (hpos b c hmem hb)
        refine ⟨l, ?_⟩
        intro c' hc'
        cases hc'
        rw [if_neg h0]
        exact ⟨h1, h2, C07_sampled_live hg (rng b) _ l h1⟩
  choose f hf using hchild
  refine ⟨((List.range sep.length).map fun b => (f b).map (· + startOf sep b)).flatten, ?_, ?_, ?_⟩
  · unfold Mgr.sampleIndices
    rw [if_neg (by simp), if_neg (by rcases hm with hm | hm <;> simp [hm]), if_neg (by simp; omega)]
    simp only [Option.getD_some, Int.toNat_natCast]
    rw [← hcands, hbi]
    exact h.inv.concatSamples rng _ f (fun b c hc => (hf b c hc).1)
  · rw [List.length_flatten, List.map_map]
    rw [← hbl, ← sum_count sep.length bi hlt]
    congr 1
    apply List.map_congr_left
    intro b hb
    have hlt' := List.mem_range.mp hb
    have := (hf b _ (List.getElem?_eq_getElem hlt')).2.1
    simp [this]
  · intro i hi
    rw [mem_flatten_range] at hi
    obtain ⟨b, hb, k, hk, rfl⟩ := hi
    have hs := List.getElem?_eq_getElem hb
    have := (hf b _ hs).2.2 k hk
    exact ⟨b, _, hs, by omega, by omega⟩

/-- **C23** for 0 or `None`: every live slot exactly once. -/
theorem C23_all {m : Mgr O A R} {sep : List (Buf O A R)} (h : Reach m sep)
    (hm : m.opts.stackNum = 1 ∨ m.opts.sampleAvail = false) (draw : Nat → Nat) (rng : Nat → Nat → Nat)
    (bs : Option Int) (hbs : bs = none ∨ bs = some 0) :
    ∃ l, m.sampleIndices draw rng bs = .ok l ∧ l.Nodup ∧ l.length = m.len ∧ ∀ i, i ∈ l ↔ LiveIn sep i := by
  have hg0 : bs.getD 0 = 0 := by rcases hbs with rfl | rfl <;> rfl
  have hopts : ∀ (b : Nat) (c : Buf O A R), sep[b]? = some c → c.opts = m.opts := by
    intro b c hc
    obtain ⟨s, hs, rfl⟩ := h.inv.get' hc
    rfl
  have hchild : ∀ (b : Nat), ∃ l, ∀ (c : Buf O A R), sep[b]? = some c →
      c.sampleIndices (rng b) (some 0) = .ok l ∧ l.Nodup ∧ l.length = c.len ∧ ∀ i, i ∈ l ↔ i < c.len := by
    intro b
    cases hb : sep[b]? with
    | none => exact ⟨[], by simp⟩
    | some c =>
      obtain ⟨g, hg⟩ := h.inv.hist c (List.mem_of_getElem? hb)
      have hmc : c.opts.stackNum = 1 ∨ c.opts.sampleAvail = false := by rw [hopts b c hb]; exact hm
      obtain ⟨l, h1, _, h3, h4, h5⟩ := C06_enumerates hg hmc (rng b)
      refine ⟨l, ?_⟩
      intro c' hc'
      cases hc'
      exact ⟨h1, h4, h3, h5⟩
  choose f hf using hchild
  refine ⟨((List.range sep.length).map fun b => (f b).map (· + startOf sep b)).flatten, ?_, ?_, ?_, ?_⟩
  · unfold Mgr.sampleIndices
    rw [if_neg (by omega), if_neg (by rcases hm with hm | hm <;> simp [hm]), if_pos hg0]
    exact h.inv.concatSamples rng _ f (fun b c hc => (hf b c hc).1)
  · rw [List.nodup_flatten]
    constructor
    · intro l hl
      rw [List.mem_map] at hl
      obtain ⟨b, hb, rfl⟩ := hl
      have hlt := List.mem_range.mp hb
      have := (hf b _ (List.getElem?_eq_getElem hlt)).2.1
      refine List.pairwise_map.mpr (this.imp ?_)
      intro x y hxy he
      omega
    · rw [List.pairwise_map]
      refine (List.pairwise_lt_range).imp_of_mem ?_
      intro a b ha hb hab
      have hla := List.mem_range.mp ha
      have hlb := List.mem_range.mp hb
      rw [List.disjoint_left]
      intro i hi hi'
      rw [List.mem_map] at hi hi'
      obtain ⟨k, hk, rfl⟩ := hi
      obtain ⟨k', hk', he⟩ := hi'
      have h1 := ((hf a _ (List.getElem?_eq_getElem hla)).2.2.2 k).mp hk
      obtain ⟨g, hg⟩ := h.inv.hist _ (List.getElem_mem hla)
      have h2 := hg.holds.size_le
      have h3 := startOf_mono sep (List.getElem?_eq_getElem hla) hab
      unfold Buf.len at h1
      omega
  · rw [C22_len h, List.length_flatten, List.map_map]
    congr 1
    apply List.ext_getElem
    · simp
    · intro b h1 h2
      simp only [List.length_map, List.length_range] at h1
      have := (hf b _ (List.getElem?_eq_getElem h1)).2.2.1
      simp [this]
  · intro i
    rw [mem_flatten_range]
    constructor
    · rintro ⟨b, hb, k, hk, rfl⟩
      have hs := List.getElem?_eq_getElem hb
      have := ((hf b _ hs).2.2.2 k).mp hk
      exact ⟨b, _, hs, by omega, by omega⟩
    · rintro ⟨b, c, hc, h1, h2⟩
      refine ⟨b, (List.getElem?_eq_some_iff.mp hc).1, i - startOf sep b, ?_, by omega⟩
      exact ((hf b c hc).2.2.2 _).mpr (by omega)

/-- **C23** `sample_indices(0)` lists the live slots sub-buffer by sub-buffer, each from its oldest transition to
its newest. -/
theorem C23_order {m : Mgr O A R} {sep : List (Buf O A R)} (h : Reach m sep)
    (hm : m.opts.stackNum = 1 ∨ m.opts.sampleAvail = false) (draw : Nat → Nat) (rng : Nat → Nat → Nat) :
    m.sampleIndices draw rng (some 0) =
      .ok ((sep.zipIdx.map fun p => p.1.idx.allIndices.map (· + startOf sep p.2)).flatten) := by
  have hopts : ∀ (b : Nat) (c : Buf O A R), sep[b]? = some c → c.opts = m.opts := by
    intro b c hc
    obtain ⟨s, hs, rfl⟩ := h.inv.get' hc
    rfl
  unfold Mgr.sampleIndices
  rw [if_neg (by simp), if_neg (by rcases hm with hm | hm <;> simp [hm]), if_pos (by simp)]
  rw [h.inv.concatSamples rng (fun _ => 0) (fun b => ((sep[b]?).map fun c => c.idx.allIndices).getD [])]
  · congr 2
    apply List.ext_getElem?
    intro b
    simp only [List.getElem?_map, List.getElem?_zipIdx]
    cases hb : sep[b]? with
    | none =>
      have : sep.length ≤ b := List.getElem?_eq_none_iff.mp hb
      simp [this]
    | some c =>
      obtain ⟨hlt, rfl⟩ := List.getElem?_eq_some_iff.mp hb
      simp [hlt]
  · intro b c hc
    unfold Buf.sampleIndices
    have := hopts b c hc
    rw [if_pos (by rw [this]; rcases hm with hm | hm <;> simp [hm])]
    simp [hc]

theorem sum_zero_mem {l : List Nat} (h : l.sum = 0) {x : Nat} (hx : x ∈ l) : x = 0 := by
  induction l with
  | nil => simp at hx
  | cons a l ih =>
    simp only [List.sum_cons] at h
    rcases List.mem_cons.mp hx with rfl | hx
    · omega
    · exact ih (by omega) hx

/-- **C23** negative batch sizes give nothing, and sampling from an empty vector buffer raises. -/
theorem C23_special {m : Mgr O A R} {sep : List (Buf O A R)} (h : Reach m sep)
    (hm : m.opts.stackNum = 1 ∨ m.opts.sampleAvail = false) (draw : Nat → Nat) (rng : Nat → Nat → Nat) (n : Int) :
    (n < 0 → m.sampleIndices draw rng (some n) = .ok []) ∧
    (0 < n → m.len = 0 → m.sampleIndices draw rng (some n) = .error .valueError) := by
  constructor
  · intro hn
    unfold Mgr.sampleIndices
    rw [if_pos (by simpa using hn)]
  · intro hn h0
    unfold Mgr.sampleIndices
    rw [if_neg (by simp; omega), if_neg (by rcases hm with hm | hm <;> simp [hm]), if_neg (by simp; omega)]
    have hz : ∀ s ∈ m.subs, s.length = 0 := by
      intro s hs
      have h1 : s.length ∈ m.subs.map Sub.length := List.mem_map.mpr ⟨s, hs, rfl⟩
      unfold Mgr.len at h0
      exact sum_zero_mem h0 h1
    have hc : (List.range m.subs.length).filter
        (fun b => decide (0 < (m.subs.map Sub.length).getD b 0)) = [] := by
      rw [List.filter_eq_nil_iff]
      intro b hb
      have hlt := List.mem_range.mp hb
      simp [List.getD_eq_getElem?_getD, List.getElem?_eq_getElem hlt, hz _ (List.getElem_mem hlt)]
    simp only [hc, Option.getD_some]
    rw [choice, if_pos ⟨rfl, by omega⟩]

example : (exMgr.sampleIndices (fun k => k) (fun _ k => k) (some 4)).toOption = some [0, 1, 2, 3] ∧
    (exMgr.sampleIndices (fun _ => 1) (fun _ k => k) (some 2)).toOption = some [2, 3] ∧
    (exMgr.sampleIndices (fun k => k) (fun _ k => k) none).toOption = some [1, 0, 2, 3, 4] := by decide +kernel

/-! ### C13 for vector buffers -/

/-- **C13** on a vector buffer `get_buffer_indices`, for a start slot and an exclusive end slot in the same
sub-buffer, is that of the separate buffer, shifted. -/
theorem C13_vector {m : Mgr O A R} {sep : List (Buf O A R)} (h : Reach m sep) (b : Nat) (c : Buf O A R)
    (hb : sep[b]? = some c) (i j : Nat) (hi : i < c.idx.maxsize) (hj : 0 < j) (hj' : j ≤ c.idx.maxsize) :
    m.getBufferIndices (i + startOf sep b) (j + startOf sep b) =
      (c.getBufferIndices i j).map fun l => l.map (· + startOf sep b) := by
  have hlt := (List.getElem?_eq_some_iff.mp hb).1
  have e := startOf_succ sep hb
  unfold Mgr.getBufferIndices Buf.getBufferIndices
  rw [getBufferIndices_in (k := b) h.inv.edges_increasing (h.inv.edges_get (by omega))
    (h.inv.edges_get (by omega)) (by omega) (by omega) (by omega) (by omega)]
  have hinc : Increasing [0, c.idx.maxsize] := by
    intro a a' x y haa hx hy
    match a, a', haa with
    | 0, 1, _ => simp at hx hy; omega
    | 0, a + 2, _ => simp at hy
    | a + 1, a' + 2, _ => simp at hy
  rw [getBufferIndices_in (k := 0) (lo := 0) (hi := c.idx.maxsize) hinc rfl rfl (by omega) hi hj hj']
  by_cases c1 : i < j
  · rw [if_pos (by omega), if_pos c1, arange_shift]; rfl
  · rw [if_neg (by omega), if_neg c1]
    by_cases c2 : j < i
    · rw [if_pos (by omega), if_pos c2, e, Nat.add_comm (startOf sep b) c.idx.maxsize, arange_shift]
      have := arange_shift 0 j (startOf sep b)
      rw [Nat.zero_add] at this
      rw [this]
      simp [Except.map]
    · rw [if_neg (by omega), if_neg c2]; rfl

/-- **C13** the slots between two positions of one sub-buffer, going round at its end. -/
theorem C13_interval {c : Buf O A R} {g : Ghost O A R} (h : History c g) (i j : Nat) (hi : i < c.idx.maxsize)
    (hj : 0 < j) (hj' : j ≤ c.idx.maxsize) (hne : i ≠ j) :
    c.getBufferIndices i j =
      .ok ((List.range (if i < j then j - i else c.idx.maxsize - i + j)).map fun k => (i + k) % c.idx.maxsize) := by
  have hpos := h.holds.pos
  unfold Buf.getBufferIndices
  by_cases c1 : i < j
  · have := getBufferIndices_ring c.idx.maxsize i (j - i) hi (by omega) (by omega)
    rw [if_neg (by omega), Nat.mod_eq_of_lt (by omega), show i + (j - i - 1) + 1 = j by omega] at this
    rw [if_pos c1, this]
  · have := getBufferIndices_ring c.idx.maxsize i (c.idx.maxsize - i + j) hi (by omega) (by omega)
    rw [if_neg (by omega), show i + (c.idx.maxsize - i + j - 1) = (j - 1) + c.idx.maxsize by omega,
      Nat.add_mod_right, Nat.mod_eq_of_lt (by omega), show j - 1 + 1 = j by omega] at this
    rw [if_neg c1, this]

/-- **C13** intervals whose ends lie in different sub-buffers are refused. -/
theorem C13_vector_rejects {m : Mgr O A R} {sep : List (Buf O A R)} (h : Reach m sep) (b b' : Nat)
    (c c' : Buf O A R) (hb : sep[b]? = some c) (hb' : sep[b']? = some c') (hne : b ≠ b') (i j : Nat)
    (hi : i < c.idx.maxsize) (hj : 0 < j) (hj' : j ≤ c'.idx.maxsize) :
    m.getBufferIndices (i + startOf sep b) (j + startOf sep b') = .error .valueError := by
  have hlt := (List.getElem?_eq_some_iff.mp hb).1
  have hlt' := (List.getElem?_eq_some_iff.mp hb').1
  have e := startOf_succ sep hb
  have e' := startOf_succ sep hb'
  exact getBufferIndices_out h.inv.edges_increasing (h.inv.edges_get (by omega)) (h.inv.edges_get (by omega))
    (h.inv.edges_get (by omega)) (h.inv.edges_get (by omega)) hne (by omega) (by omega) (by omega) (by omega)

example : (exMgr.getBufferIndices 4 3).toOption = some [4, 2] ∧ (exMgr.getBufferIndices 1 3).toOption = none := by
  decide +kernel

/-! ### C24 -/

/-- **C24** `VectorReplayBuffer(total_size, buffer_num)`: `buffer_num` sub-buffers of one size, their slot
ranges are contiguous, start at 0 and end at the capacity, which is at least `total_size` and exceeds it by
less than `buffer_num`. -/
theorem C24_capacity (totalSize bufferNum : Nat) (hn : 0 < bufferNum) (opts : Opts O) :
    ∃ size, (Mgr.newVector (A := A) (R := R) totalSize bufferNum opts).subs.map
        (fun s => (s.offset, s.idx.maxsize)) = (List.range bufferNum).map (fun b => (b * size, size)) ∧
      (Mgr.newVector (A := A) (R := R) totalSize bufferNum opts).total = bufferNum * size ∧
      totalSize ≤ bufferNum * size ∧ bufferNum * size < totalSize + bufferNum := by
  refine ⟨(totalSize + bufferNum - 1) / bufferNum, ?_, ?_, ?_, ?_⟩
  · obtain ⟨h1, h2, h3⟩ := initSubs_spec (R := R)
      (List.replicate bufferNum ((totalSize + bufferNum - 1) / bufferNum)) 0
    apply List.ext_getElem?
    intro b
    have hc := congrArg (fun l => l[b]?) h1
    simp only [List.getElem?_map, Mgr.newVector, Mgr.new] at hc ⊢
    cases hb : (initSubs (R := R) (List.replicate bufferNum ((totalSize + bufferNum - 1) / bufferNum)) 0).1[b]? with
    | none =>
      rw [hb, List.getElem?_replicate] at hc
      by_cases hlt : b < bufferNum
      · simp [hlt] at hc
      · simp [hlt]
    | some s =>
      rw [hb, List.getElem?_replicate] at hc
      by_cases hlt : b < bufferNum
      · simp only [hlt, if_true, Option.map_some, Option.some.injEq] at hc
        obtain ⟨h4, _⟩ := h3 b s hb
        simp only [List.take_replicate, List.sum_replicate, Nat.zero_add] at h4
        rw [Nat.min_eq_left (by omega)] at h4
        simp [hlt, h4, hc, Idx.new]
      · simp [hlt] at hc
  · have := (initSubs_spec (R := R)
      (List.replicate bufferNum ((totalSize + bufferNum - 1) / bufferNum)) 0).2.1
    simpa [Mgr.newVector, Mgr.new] using this
  · have := Nat.lt_mul_div_succ (totalSize + bufferNum - 1) hn
    rw [Nat.mul_add, Nat.mul_one] at this
    omega
  · have := Nat.mul_div_le (totalSize + bufferNum - 1) bufferNum
    omega

example : ((Mgr.newVector 10 4 {} : Mgr Nat Nat Int).subs.map fun s => (s.offset, s.idx.maxsize)) =
    [(0, 3), (3, 3), (6, 3), (9, 3)] := by decide

/-! ### C25 -/

/-- **C25** after any history of adds (distinct ids within a call) and resets, the main buffer holds, oldest
first, the last transitions of the concatenation of finished episodes in order of completion, each cut to its
last `L = max_episode_length` transitions; cached buffer `b` holds the last `L` transitions of the open
episode of environment `b`. -/
theorem C25_cached {n L : Nat} {opts : Opts O} {m : Mgr O A R} {s : Cached O A R}
    (h : CHistory n L opts m s) :
    ∃ main cached, m.subs.map m.child = main :: cached ∧ cached.length = n ∧
      main.idx.allIndices.map main.data = (lastN main.idx.maxsize s.main).map some ∧
      ∀ (b : Nat) (c : Buf O A R), cached[b]? = some c →
        c.idx.maxsize = L ∧ c.idx.allIndices.map c.data = (lastN L (s.opened b)).map some := by
  obtain ⟨sep, M, hM, hL, hR, hlen, hT⟩ := h.tracks
  cases sep with
  | nil => simp at hlen
  | cons main cached =>
    refine ⟨main, cached, hR.inv.children, by simpa using hlen, ?_, ?_⟩
    · obtain ⟨_, h2, g, hg, hgr⟩ := hT 0 main rfl
      rw [C05_fifo hg, hgr]
      rfl
    · intro b c hc
      obtain ⟨_, h2, g, hg, hgr⟩ := hT (b + 1) c (by simpa using hc)
      have h2' : c.idx.maxsize = L := h2
      refine ⟨h2', ?_⟩
      rw [C05_fifo hg, hgr, h2']
      rfl

/-- **C25** `add` succeeds on valid distinct ids. -/
theorem C25_add_succeeds {n L : Nat} {opts : Opts O} {m : Mgr O A R} {s : Cached O A R}
    (h : CHistory n L opts m s) (ids : List Nat) (rows : List (Trans O A R)) (hl : ids.length = rows.length)
    (hid : ∀ b ∈ ids, b < n) (hnd : ids.Nodup) : ∃ m' res, m.cachedAdd ids rows = .ok (m', res) := by
  obtain ⟨sep, M, hM, hL, hR, hlen, hT⟩ := h.tracks
  obtain ⟨m', res, _, _, _, h1, _⟩ := hR.inv.cachedAdd hl (by intro b hb; have := hid b hb; omega) hnd
  exact ⟨m', res, h1⟩

/-- **C25** what `add` returns: with `sep` the separate buffers (number 0 the main buffer, `b + 1` the cached
buffer of environment `b`) before the call, the rows are added to the cached buffers, then the ended episodes
are moved to the main buffer in the order of the rows; a row that ends its episode is reported with the slots of
the main buffer that its episode was moved to (first and last), any other with its slot in the cached buffer. -/
theorem C25_add_result {n L : Nat} {opts : Opts O} {m m' : Mgr O A R} {s : Cached O A R}
    (h : CHistory n L opts m s) (ids : List Nat) (rows : List (Trans O A R)) (hl : ids.length = rows.length)
    (hid : ∀ b ∈ ids, b < n) (hnd : ids.Nodup) {res : List (CachedResult R)}
    (ha : m.cachedAdd ids rows = .ok (m', res)) :
    ∃ sep sep' res', Reach m sep ∧ sep.length = n + 1 ∧
      routeAll sep ((ids.map (· + 1)).zip rows) = some (sep', res') ∧
      CachedResults (rows.map fun t => t.terminated || t.truncated)
        (List.zipWith (fun b r => AddResult.shift (startOf sep (b + 1)) r) ids res')
        (moveSlots sep' (((ids.zip rows).filter fun p => p.2.terminated || p.2.truncated).map fun p => p.1 + 1))
        res := by
  obtain ⟨sep, M, hM, hL, hR, hlen, hT⟩ := h.tracks
  obtain ⟨m1, res1, sep', res', _, h1, h2, _, _, h5⟩ :=
    hR.inv.cachedAdd hl (by intro b hb; have := hid b hb; omega) hnd
  rw [ha] at h1
  cases h1
  exact ⟨sep, sep', res', hR, hlen, h2, h5⟩

/-- The prev/next/sampling theorems above also apply to cached buffers. -/
theorem C25_reach {n L : Nat} {opts : Opts O} {m : Mgr O A R} {s : Cached O A R}
    (h : CHistory n L opts m s) : ∃ sep, Reach m sep ∧ sep.length = n + 1 := by
  obtain ⟨sep, M, _, _, hR, hlen, _⟩ := h.tracks
  exact ⟨sep, hR, hlen⟩

/-- Two environments, main buffer of size 5, episodes of at most 3 steps; environment 1 finishes first. -/
def exCached : Except Err (Mgr Nat Nat Int × List (CachedResult Int)) := do
  let (m, _) ← (Mgr.newCached 5 2 3 {} : Mgr Nat Nat Int).cachedAdd [0, 1] [tr 10 false false, tr 50 false false]
  let (m, _) ← m.cachedAdd [0, 1] [tr 11 false false, tr 51 true false]
  m.cachedAdd [0] [tr 12 false true]

example : exCached.toOption.map (fun p => ((List.range 5).map fun i => (p.1.data i).map Trans.obs,
    p.2.map fun r => (r.slot, r.epLen, r.epStart))) =
    some ([some 50, some 51, some 10, some 11, some 12], [(4, 3, 2)]) := by decide +kernel

end Verif.Buffer
