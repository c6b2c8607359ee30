import Verif.Lemmas.Returns
import Verif.Spec.Returns
import Verif.Props.Manager

/-! Connection of the return computations with buffers. -/

set_option linter.unusedSectionVars false

namespace Verif.Returns

open Verif.Spec Verif.Buffer

variable {O A R : Type} [CommRing R]

/-- What a view shows of the rows at the slots holding the content `c`. -/
structure Shown (w : View R) (slots : List Nat) (c : List (Trans O A R)) : Prop where
  len : slots.length = c.length
  rew : ∀ (k i : Nat), slots[k]? = some i → w.rew i = rewOf c k
  terminated : ∀ (k i : Nat), slots[k]? = some i → w.terminated i = termOf c k
  ended : ∀ (k i : Nat) (t : Trans O A R), slots[k]? = some i → c[k]? = some t →
    w.done i = t.done ∧ (w.unfinished.contains i = true ↔ k + 1 = c.length ∧ t.done = false)

/-- What a view shows at the slots holding the content `c`. -/
structure Shows (w : View R) (slots : List Nat) (c : List (Trans O A R)) : Prop extends Shown w slots c where
  next : ∀ (k i j : Nat), slots[k]? = some i → slots[min (k + j) (epLast Trans.done c k)]? = some (w.next^[j] i)

theorem data_at {b : Buf O A R} {g : Ghost O A R} (h : History b g) {k i : Nat}
    (hi : b.idx.allIndices[k]? = some i) : b.data i = (content b g)[k]? ∧ k < (content b g).length := by
  have h1 := congrArg (·[k]?) (C05_fifo h)
  simp only [List.getElem?_map, hi, Option.map_some] at h1
  cases hc : (lastN b.idx.maxsize g.received)[k]? with
  | none => rw [hc] at h1; simp at h1
  | some t =>
    rw [hc] at h1
    simp only [Option.map_some, Option.some.injEq] at h1
    exact ⟨by rw [h1]; exact hc.symm, (List.getElem?_eq_some_iff.mp hc).1⟩

theorem newestOpen_spec {b : Buf O A R} {g : Ghost O A R} (h : History b g) {k i : Nat} {t : Trans O A R}
    (hi : b.idx.allIndices[k]? = some i) (ht : (content b g)[k]? = some t) :
    i ∈ newestOpen b ↔ k + 1 = (content b g).length ∧ t.done = false := by
  have hlen : b.idx.allIndices.length = (content b g).length := by
    rw [h.holds.allIndices_length, h.holds.len]
  have hk := (List.getElem?_eq_some_iff.mp hi).1
  unfold newestOpen
  rw [List.getLast?_eq_getElem?]
  obtain ⟨i', hi'⟩ : ∃ i', b.idx.allIndices[b.idx.allIndices.length - 1]? = some i' :=
    ⟨_, List.getElem?_eq_getElem (by omega)⟩
  rw [hi']
  obtain ⟨hd, hk'⟩ := data_at h hi'
  simp only [hd, List.getElem?_eq_getElem hk']
  have hnd : b.idx.allIndices.Nodup := by
    have := h.holds.ins_le
    rw [allIndices_eq this]
    rw [List.nodup_map_iff_inj_on List.nodup_range]
    intro x hx y hy hxy
    exact slot_inj this (List.mem_range.mp hx) (List.mem_range.mp hy) hxy
  by_cases hke : k + 1 = (content b g).length
  · have hkk : k = b.idx.allIndices.length - 1 := by omega
    have : i = i' := by rw [← hkk, hi] at hi'; exact Option.some.inj hi'
    subst this
    have htt : (content b g)[b.idx.allIndices.length - 1] = t := by
      rw [← hkk] at hk'
      have := List.getElem?_eq_some_iff.mp ht
      obtain ⟨_, h2⟩ := this
      simp only [← hkk]; exact h2
    rw [htt]
    simp only [hke, true_and, Trans.done]
    cases t.terminated || t.truncated <;> simp
  · have hne : i ≠ i' := by
      intro he
      subst he
      have := (List.getElem?_inj hk hnd).mp (hi.trans hi'.symm)
      omega
    simp only [hke, false_and, iff_false]
    split <;> simp [hne]

theorem shows_buf {b : Buf O A R} {g : Ghost O A R} (h : History b g) :
    Shows (ofBuf b) b.idx.allIndices (content b g) := by
  refine ⟨⟨by rw [h.holds.allIndices_length, h.holds.len], ?_, ?_, ?_⟩, ?_⟩
  · intro k i hi
    obtain ⟨hd, hk⟩ := data_at h hi
    simp only [ofBuf, rewAt, hd, rewOf]
    rw [List.getElem?_eq_getElem hk]; rfl
  · intro k i hi
    obtain ⟨hd, hk⟩ := data_at h hi
    simp only [ofBuf, terminatedAt, hd, termOf]
    rw [List.getElem?_eq_getElem hk]; rfl
  · intro k i t hi ht
    obtain ⟨hd, hk⟩ := data_at h hi
    refine ⟨?_, ?_⟩
    · simp only [ofBuf, doneAt, hd, ht]
    · simp only [ofBuf, unfinished_newest h, List.contains_iff_mem]
      exact newestOpen_spec h hi ht
  · intro k i j hi
    exact (C10_next_iterate h k i j hi).symm

theorem shows_mgr {m : Mgr O A R} {sep : List (Buf O A R)} (hr : Reach m sep) {b : Nat} {cb : Buf O A R}
    (hb : sep[b]? = some cb) {g : Ghost O A R} (h : History cb g) :
    Shows (ofMgr m) (cb.idx.allIndices.map (· + startOf sep b)) (content cb g) := by
  have hstore := (C20_store hr b cb hb).1
  have hsize : ∀ {k i : Nat}, cb.idx.allIndices[k]? = some i → i < cb.len := by
    intro k i hi
    have hk := (List.getElem?_eq_some_iff.mp hi).1
    rw [h.holds.allIndices_length] at hk
    rw [h.holds.allIndices_getElem? k hk] at hi
    cases hi
    exact slot_lt h.holds.ins_le hk
  have hdata : ∀ {k i : Nat}, cb.idx.allIndices[k]? = some i → m.data (i + startOf sep b) = (content cb g)[k]? := by
    intro k i hi
    rw [Nat.add_comm, hstore i (lt_of_lt_of_le (hsize hi) h.holds.size_le), (data_at h hi).1]
  have hinv : ∀ {k i : Nat}, (cb.idx.allIndices.map (· + startOf sep b))[k]? = some i →
      ∃ i', cb.idx.allIndices[k]? = some i' ∧ i = i' + startOf sep b := by
    intro k i hi
    rw [List.getElem?_map, Option.map_eq_some_iff] at hi
    obtain ⟨i', h1, h2⟩ := hi
    exact ⟨i', h1, h2.symm⟩
  refine ⟨⟨by rw [List.length_map, h.holds.allIndices_length, h.holds.len], ?_, ?_, ?_⟩, ?_⟩
  · intro k i hi
    obtain ⟨i', hi', rfl⟩ := hinv hi
    have hk := (data_at h hi').2
    simp only [ofMgr, rewAt, hdata hi', rewOf]
    rw [List.getElem?_eq_getElem hk]; rfl
  · intro k i hi
    obtain ⟨i', hi', rfl⟩ := hinv hi
    have hk := (data_at h hi').2
    simp only [ofMgr, terminatedAt, hdata hi', termOf]
    rw [List.getElem?_eq_getElem hk]; rfl
  · intro k i t hi ht
    obtain ⟨i', hi', rfl⟩ := hinv hi
    refine ⟨?_, ?_⟩
    · simp only [ofMgr, doneAt, hdata hi', ht]
    · rw [← newestOpen_spec h hi' ht]
      simp only [ofMgr, C22_unfinished hr, List.contains_iff_mem, List.mem_flatten, List.mem_map]
      constructor
      · rintro ⟨l, ⟨⟨c', b'⟩, hp, rfl⟩, hl⟩
        rw [List.mem_zipIdx_iff_getElem?] at hp
        simp only at hp hl
        rw [List.mem_map] at hl
        obtain ⟨i'', h1, h2⟩ := hl
        obtain ⟨g', hg'⟩ := hr.inv.hist c' (List.mem_of_getElem? hp)
        have hi'' : i'' < c'.len := by
          have : i'' ∈ c'.idx.allIndices := by
            unfold newestOpen at h1
            split at h1
            · simp at h1
            · rename_i x hx
              split at h1
              · simp at h1
              · split at h1
                · simp at h1
                · simp only [List.mem_singleton] at h1
                  subst h1
                  exact List.mem_of_getLast? hx
          obtain ⟨k', hk', he⟩ := List.getElem_of_mem this
          have he' := List.getElem?_eq_getElem hk'
          rw [he] at he'
          rw [hg'.holds.allIndices_length] at hk'
          rw [hg'.holds.allIndices_getElem? k' hk'] at he'
          cases he'
          exact slot_lt hg'.holds.ins_le hk'
        have hs1 := hg'.holds.size_le
        have hs2 := h.holds.size_le
        have hi2 := hsize hi'
        have : b' = b := by
          rcases Nat.lt_trichotomy b' b with hlt | heq | hgt
          · have := startOf_mono sep hp hlt
            unfold Buf.len at *; omega
          · exact heq
          · have := startOf_mono sep hb hgt
            unfold Buf.len at *; omega
        subst this
        rw [hb] at hp
        cases hp
        have : i'' = i' := by omega
        rw [← this]; exact h1
      · intro hmem
        refine ⟨_, ⟨(cb, b), ?_, rfl⟩, List.mem_map.mpr ⟨i', hmem, rfl⟩⟩
        rw [List.mem_zipIdx_iff_getElem?]
        exact hb
  · intro k i j hi
    obtain ⟨i', hi', rfl⟩ := hinv hi
    have hit : ∀ j, (ofMgr m).next^[j] (i' + startOf sep b) = cb.next^[j] i' + startOf sep b ∧ cb.next^[j] i' < cb.len := by
      intro j
      induction j with
      | zero => exact ⟨rfl, hsize hi'⟩
      | succ j ih =>
        rw [Function.iterate_succ_apply', Function.iterate_succ_apply', ih.1]
        have h2 := (C10_next_iterate h k i' (j + 1) hi').symm
        rw [Function.iterate_succ_apply'] at h2
        refine ⟨?_, hsize h2⟩
        have := (C21_live hr b cb hb (cb.next^[j] i') ih.2 ((cb.next^[j] i' + startOf sep b : Nat) : Int) ?_).2
        · rw [Nat.add_comm (cb.next _)]; exact this
        · rw [Nat.add_comm]
          apply Int.emod_eq_of_lt (by omega)
          have h3 := startOf_le sep hb
          have h4 := h.holds.size_le
          have h5 := ih.2
          unfold Buf.len at h5
          have h6 : startOf sep (b + 1) ≤ (sep.map fun c => c.idx.maxsize).sum := by
            have := List.sum_take_add_sum_drop (sep.map fun c => c.idx.maxsize) (b + 1)
            unfold startOf
            omega
          omega
    rw [(hit j).1, List.getElem?_map, ← C10_next_iterate h k i' j hi']
    rfl

/-! ### Segments of the batch -/

/-- End flags of a block of the batch holding the content `c`. -/
def blockEnds (c : List (Trans O A R)) : List Bool :=
  (List.range c.length).map fun k => (((c[k]?).map Trans.done).getD false) || decide (k + 1 = c.length)

theorem blockEnds_length (c : List (Trans O A R)) : (blockEnds c).length = c.length := by simp [blockEnds]

theorem blockEnds_getElem? (c : List (Trans O A R)) (k : Nat) (t : Trans O A R) (h : c[k]? = some t) :
    (blockEnds c)[k]? = some (t.done || decide (k + 1 = c.length)) := by
  have hk := (List.getElem?_eq_some_iff.mp h).1
  simp only [blockEnds, List.getElem?_map, List.getElem?_range hk, Option.map_some, h, Option.getD_some]

theorem epLast_block (pre post : List Bool) (c : List (Trans O A R)) (k : Nat) (hk : k < c.length) :
    epLast id (pre ++ blockEnds c ++ post) (pre.length + k) = pre.length + epLast Trans.done c k := by
  set e := pre ++ blockEnds c ++ post with he
  have hel : e.length = pre.length + c.length + post.length := by
    simp [he, blockEnds_length]; omega
  have hget : ∀ (j : Nat) (t : Trans O A R), c[j]? = some t → e[pre.length + j]? = some (t.done || decide (j + 1 = c.length)) := by
    intro j t ht
    have hj := (List.getElem?_eq_some_iff.mp ht).1
    rw [he, List.append_assoc, List.getElem?_append_right (by omega), Nat.add_sub_cancel_left,
      List.getElem?_append_left (by rw [blockEnds_length]; exact hj), blockEnds_getElem? c j t ht]
  induction hn : c.length - k generalizing k with
  | zero => omega
  | succ n ih =>
    obtain ⟨t, ht⟩ : ∃ t, c[k]? = some t := ⟨_, List.getElem?_eq_getElem hk⟩
    by_cases h : k + 1 < c.length ∧ t.done = false
    · rw [epLast_succ Trans.done c h.1 (by simp [continues, ht, h.2]),
        epLast_succ id e (by omega) (by
          simp only [continues, hget k t ht, h.2, id]
          simp; omega)]
      exact ih (k + 1) h.1 (by omega)
    · have h1 : epLast Trans.done c k = k := by
        apply epLast_stop Trans.done c hk
        by_cases h2 : k + 1 < c.length
        · right
          have : t.done = true := by simpa using fun h3 => h ⟨h2, h3⟩
          simp [continues, ht, this]
        · left; omega
      have h2 : epLast id e (pre.length + k) = pre.length + k := by
        apply epLast_stop id e (by omega)
        right
        simp only [continues, hget k t ht, id]
        by_cases h2 : k + 1 < c.length
        · have : t.done = true := by simpa using fun h3 => h ⟨h2, h3⟩
          simp [this]
        · have : k + 1 = c.length := by omega
          simp [this]
      rw [h1, h2]

/-- The end flags computed for a block. -/
theorem Shown.ends {w : View R} {slots : List Nat} {c : List (Trans O A R)} (h : Shown w slots c) :
    List.zipWith (fun (r : BRow R) i => (r.terminated || r.truncated) || w.unfinished.contains i) (c.map rowOf) slots =
      blockEnds c := by
  apply List.ext_getElem?
  intro k
  rw [List.getElem?_zipWith, List.getElem?_map]
  cases ht : c[k]? with
  | none =>
    have h1 : c.length ≤ k := List.getElem?_eq_none_iff.mp ht
    rw [List.getElem?_eq_none (l := blockEnds c) (by rw [blockEnds_length]; exact h1)]
    simp
  | some t =>
    have hk := (List.getElem?_eq_some_iff.mp ht).1
    obtain ⟨i, hi⟩ : ∃ i, slots[k]? = some i := ⟨_, List.getElem?_eq_getElem (by rw [h.len]; exact hk)⟩
    rw [blockEnds_getElem? c k t ht, hi]
    obtain ⟨_, h2⟩ := h.ended k i t hi ht
    simp only [Option.map_some, rowOf, Option.some.injEq]
    cases hd : t.done with
    | true =>
      have : (t.terminated || t.truncated) = true := hd
      simp [this]
    | false =>
      have : (t.terminated || t.truncated) = false := hd
      rw [this]
      rw [hd] at h2
      simp only [and_true] at h2
      rw [Bool.false_or, Bool.false_or, Bool.eq_iff_iff, h2, decide_eq_true_iff]

theorem as_range {α : Type} (l : List α) (d : α) : l = (List.range l.length).map fun k => (l[k]?).getD d := by
  apply List.ext_getElem?
  intro k
  rw [List.getElem?_map]
  by_cases hk : k < l.length
  · rw [List.getElem?_range hk, Option.map_some, List.getElem?_eq_getElem hk]; rfl
  · rw [List.getElem?_eq_none (by omega), List.getElem?_eq_none (by simp; omega)]; rfl

/-- Blocks of a batch: slots and content. -/
abbrev Blocks (O A R : Type) := List (List Nat × List (Trans O A R))

def Blocks.slots (bs : Blocks O A R) : List Nat := (bs.map Prod.fst).flatten
def Blocks.rows (bs : Blocks O A R) : List (BRow R) := (bs.map fun B => B.2.map rowOf).flatten
def Blocks.ends (bs : Blocks O A R) : List Bool := (bs.map fun B => blockEnds B.2).flatten
def Blocks.start (bs : Blocks O A R) (b : Nat) : Nat := ((bs.map fun B => B.2.length).take b).sum

theorem Blocks.ends_eq {w : View R} (bs : Blocks O A R) (h : ∀ B ∈ bs, Shown w B.1 B.2) :
    List.zipWith (fun (r : BRow R) i => (r.terminated || r.truncated) || w.unfinished.contains i) bs.rows bs.slots =
      bs.ends := by
  induction bs with
  | nil => rfl
  | cons B bs ih =>
    have hB := h B (by simp)
    have e1 : Blocks.rows (B :: bs) = B.2.map rowOf ++ Blocks.rows bs := by simp [Blocks.rows]
    have e2 : Blocks.slots (B :: bs) = B.1 ++ Blocks.slots bs := by simp [Blocks.slots]
    have e3 : Blocks.ends (B :: bs) = blockEnds B.2 ++ Blocks.ends bs := by simp [Blocks.ends]
    rw [e1, e2, e3, List.zipWith_append (by rw [List.length_map, hB.len]), hB.ends,
      ih (fun B' hB' => h B' (by simp [hB']))]

theorem Blocks.lengths (bs : Blocks O A R) {w : View R} (h : ∀ B ∈ bs, Shown w B.1 B.2) :
    bs.rows.length = (bs.map fun B => B.2.length).sum ∧ bs.slots.length = (bs.map fun B => B.2.length).sum ∧
      bs.ends.length = (bs.map fun B => B.2.length).sum := by
  induction bs with
  | nil => exact ⟨rfl, rfl, rfl⟩
  | cons B bs ih =>
    have hB := h B (by simp)
    obtain ⟨h1, h2, h3⟩ := ih (fun B' hB' => h B' (by simp [hB']))
    have e1 : Blocks.rows (B :: bs) = B.2.map rowOf ++ Blocks.rows bs := by simp [Blocks.rows]
    have e2 : Blocks.slots (B :: bs) = B.1 ++ Blocks.slots bs := by simp [Blocks.slots]
    have e3 : Blocks.ends (B :: bs) = blockEnds B.2 ++ Blocks.ends bs := by simp [Blocks.ends]
    rw [e1, e2, e3]
    simp [h1, h2, h3, hB.len, blockEnds_length]

theorem flatten_getElem? {α β : Type} (bs : List α) (f : α → List β) (len : α → Nat) (hlen : ∀ B ∈ bs, (f B).length = len B)
    (b : Nat) (B : α) (hb : bs[b]? = some B) (k : Nat) (hk : k < len B) :
    ((bs.map f).flatten)[((bs.map len).take b).sum + k]? = (f B)[k]? := by
  induction bs generalizing b with
  | nil => simp at hb
  | cons B' bs ih =>
    have h0 := hlen B' (by simp)
    cases b with
    | zero =>
      simp only [List.getElem?_cons_zero, Option.some.injEq] at hb
      subst hb
      simp only [List.take_zero, List.sum_nil, Nat.zero_add, List.map_cons, List.flatten_cons]
      rw [List.getElem?_append_left (by omega)]
    | succ b =>
      rw [List.getElem?_cons_succ] at hb
      simp only [List.map_cons, List.flatten_cons, List.take_succ_cons, List.sum_cons]
      rw [List.getElem?_append_right (by omega), h0, Nat.add_assoc, Nat.add_sub_cancel_left]
      exact ih (fun x hx => hlen x (by simp [hx])) b hb

theorem Blocks.epLast_eq {w : View R} (bs : Blocks O A R) (h : ∀ B ∈ bs, Shown w B.1 B.2) (b : Nat)
    (B : List Nat × List (Trans O A R)) (hb : bs[b]? = some B) (k : Nat) (hk : k < B.2.length) :
    epLast id bs.ends (bs.start b + k) = bs.start b + epLast Trans.done B.2 k := by
  have hsplit : bs = bs.take b ++ B :: bs.drop (b + 1) := by
    obtain ⟨hlt, he⟩ := List.getElem?_eq_some_iff.mp hb
    rw [← he, ← List.drop_eq_getElem_cons hlt, List.take_append_drop]
  have h1 : bs.ends = Blocks.ends (bs.take b) ++ blockEnds B.2 ++ Blocks.ends (bs.drop (b + 1)) := by
    conv_lhs => rw [hsplit]
    simp [Blocks.ends]
  have h2 : (Blocks.ends (bs.take b)).length = bs.start b := by
    rw [(Blocks.lengths (bs.take b) (w := w) (fun B' hB' => h B' (List.mem_of_mem_take hB'))).2.2, Blocks.start,
      List.map_take]
  rw [h1, ← h2]
  exact epLast_block _ _ _ k hk

/-! ### Arrays given by their entries -/

section arrays

variable (w : View R) (n : Nat) (rew v v' : Nat → R) (term trunc : Nat → Bool) (slotOf : Nat → Nat) (gamma lam : R)

/-- Value of the next state of step `k` as the code uses it. -/
def nextV (vNext : Option (Nat → R)) (k : Nat) : R :=
  match vNext with
  | some f => if w.terminated (slotOf k) then 0 else f k
  | none => 0

/-- Value of the state of step `k` as the code uses it: by default that of the preceding next state. -/
def curV (x' : Nat → R) (vCur : Option (Nat → R)) (k : Nat) : R :=
  match vCur with
  | some f => f k
  | none => x' (if k = 0 then n - 1 else k - 1)

theorem compute_eq (vNext vCur : Option (Nat → R)) (isClose : Bool) (hc : vNext.isSome = true ∨ isClose = true) :
    let x' := nextV w slotOf vNext
    let x := curV n x' vCur
    let a := fun t => ∑ l ∈ Finset.range (epLast id (endsAt w n term trunc slotOf) t - t + 1),
      (gamma * lam) ^ l * (rew (t + l) + gamma * x' (t + l) - x (t + l))
    ∃ ret adv, computeEpisodicReturn w (rows n rew term trunc) ((List.range n).map slotOf)
        (vNext.map fun f => (List.range n).map f) (vCur.map fun f => (List.range n).map f) gamma lam isClose =
          some (ret, adv) ∧ adv.length = n ∧ ret.length = n ∧
      ∀ t, t < n → adv[t]? = some (a t) ∧ ret[t]? = some (a t + x t) := by
  intro x' x a
  have hx' : nextValues w ((List.range n).map slotOf) ((List.range n).map rew)
      (vNext.map fun f => (List.range n).map f) = (List.range n).map x' := by
    unfold nextValues
    cases vNext with
    | none =>
      simp only [Option.map_none, List.map_map]
      apply List.map_congr_left
      intro k _
      rfl
    | some f =>
      simp only [Option.map_some, valueMask, List.map_map]
      rw [zipWith_map_range]
      apply List.map_congr_left
      intro k _
      simp only [Function.comp, mask, x', nextV]
      by_cases h : w.terminated (slotOf k) = true <;> simp [h]
  have hx : curValues ((List.range n).map x') (vCur.map fun f => (List.range n).map f) = (List.range n).map x := by
    unfold curValues
    cases vCur with
    | none =>
      simp only [Option.map_none]
      rw [roll_map_range]
      rfl
    | some f => rfl
  have he : List.zipWith (fun (r : BRow R) i => (r.terminated || r.truncated) || w.unfinished.contains i)
      (rows n rew term trunc) ((List.range n).map slotOf) = endsAt w n term trunc slotOf := by
    rw [rows, zipWith_map_range]
    rfl
  have hr : (rows n rew term trunc).map BRow.rew = (List.range n).map rew := by
    simp only [rows, List.map_map]
    rfl
  obtain ⟨h1, h2⟩ := gaeReturn_spec n x x' rew
    (fun k => (term k || trunc k) || w.unfinished.contains (slotOf k)) gamma lam
  have hadv : ∀ t, t < n → (gaeReturn ((List.range n).map x) ((List.range n).map x') ((List.range n).map rew)
      (endsAt w n term trunc slotOf) gamma lam)[t]? = some (a t) := by
    intro t ht
    have := h2 t ht
    rw [show endsAt w n term trunc slotOf = (List.range n).map
      (fun k => (term k || trunc k) || w.unfinished.contains (slotOf k)) from rfl, this]
    congr 1
    apply Finset.sum_congr rfl
    intro l _
    ring
  unfold computeEpisodicReturn
  have hnot : ¬ ((vNext.map fun f => (List.range n).map f).isNone = true ∧ ¬ isClose = true) := by
    rintro ⟨h3, h4⟩
    rcases hc with h5 | h5
    · cases vNext <;> simp at h3 h5
    · exact h4 h5
  simp only [if_neg hnot, hr, hx', hx, he]
  refine ⟨_, _, rfl, h1, ?_, ?_⟩
  · rw [List.length_zipWith]
    have : (gaeReturn ((List.range n).map x) ((List.range n).map x') ((List.range n).map rew)
      (endsAt w n term trunc slotOf) gamma lam).length = n := h1
    rw [this]
    simp
  · intro t ht
    refine ⟨hadv t ht, ?_⟩
    rw [zipWith_getElem_some _ _ _ t (a t) (x t) (hadv t ht) (by simp [ht])]

end arrays

theorem telescope (gamma : R) (x' x : Nat → R) (t m : Nat) (hx : ∀ l, l < m → x (t + l + 1) = x' (t + l)) :
    ∑ l ∈ Finset.range (m + 1), gamma ^ l * (gamma * x' (t + l) - x (t + l)) = gamma ^ (m + 1) * x' (t + m) - x t := by
  induction m with
  | zero => simp
  | succ m ih =>
    rw [Finset.sum_range_succ, ih (fun l hl => hx l (by omega)), show t + (m + 1) = t + m + 1 by omega,
      hx m (by omega)]
    ring

theorem stored_eq {b : Buf O A R} {g : Ghost O A R} (h : History b g) : stored b = content b g := by
  unfold stored
  have := congrArg (List.filterMap id) (C05_fifo h)
  rw [List.filterMap_map, List.filterMap_map] at this
  simpa [Function.comp_def, content] using this

theorem rowsAt_block {b : Buf O A R} {g : Ghost O A R} (h : History b g) (data : Nat → Option (Trans O A R)) (off : Nat)
    (hd : ∀ i, i < b.len → data (i + off) = b.data i) :
    rowsAt data (b.idx.allIndices.map (· + off)) = (stored b).map rowOf := by
  unfold rowsAt stored
  rw [List.filterMap_map, List.map_filterMap]
  apply List.filterMap_congr
  intro i hi
  have : i < b.len := by
    obtain ⟨k, hk, he⟩ := List.getElem_of_mem hi
    have he' := List.getElem?_eq_getElem hk
    rw [he] at he'
    rw [h.holds.allIndices_length] at hk
    rw [h.holds.allIndices_getElem? k hk] at he'
    cases he'
    exact slot_lt h.holds.ins_le hk
  simp only [Function.comp, hd i this]

/-- The blocks of a vector buffer. -/
def mgrBlocks (sep : List (Buf O A R)) : Blocks O A R :=
  sep.zipIdx.map fun p => (p.1.idx.allIndices.map (· + startOf sep p.2), stored p.1)

theorem mgrBlocks_shows {m : Mgr O A R} {sep : List (Buf O A R)} (hr : Reach m sep) :
    ∀ B ∈ mgrBlocks sep, Shows (ofMgr m) B.1 B.2 := by
  intro B hB
  simp only [mgrBlocks, List.mem_map] at hB
  obtain ⟨⟨cb, b⟩, hp, rfl⟩ := hB
  rw [List.mem_zipIdx_iff_getElem?] at hp
  obtain ⟨g, hg⟩ := hr.inv.hist cb (List.mem_of_getElem? hp)
  simp only
  rw [stored_eq hg]
  exact shows_mgr hr hp hg

theorem mgrBlocks_rows {m : Mgr O A R} {sep : List (Buf O A R)} (hr : Reach m sep) :
    rowsAt m.data (mgrBlocks sep).slots = (mgrBlocks sep).rows := by
  unfold Blocks.slots Blocks.rows mgrBlocks rowsAt
  rw [List.filterMap_flatten, List.map_map, List.map_map, List.map_map]
  congr 1
  apply List.map_congr_left
  rintro ⟨cb, b⟩ hp
  rw [List.mem_zipIdx_iff_getElem?] at hp
  obtain ⟨g, hg⟩ := hr.inv.hist cb (List.mem_of_getElem? hp)
  have := rowsAt_block hg m.data (startOf sep b) (by
    intro i hi
    rw [Nat.add_comm]
    exact (C20_store hr b cb hp).1 i (lt_of_lt_of_le hi hg.holds.size_le))
  exact this

/-- The value of the next state of step `k` of a block, `s` positions into the batch. -/
def blockNext (c : List (Trans O A R)) (vNext : Option (Nat → R)) (s k : Nat) : R :=
  match vNext with
  | some f => bootstrap c k (f (s + k))
  | none => 0

theorem compute_blocks {w : View R} (bs : Blocks O A R) (h : ∀ B ∈ bs, Shown w B.1 B.2) (vNext vCur : Option (Nat → R))
    (gamma lam : R) (isClose : Bool) (hc : vNext.isSome = true ∨ isClose = true) :
    ∃ (ret adv : List R) (x x' : Nat → R), computeEpisodicReturn w bs.rows bs.slots
        (vNext.map fun f => (List.range bs.slots.length).map f) (vCur.map fun f => (List.range bs.slots.length).map f)
        gamma lam isClose = some (ret, adv) ∧ adv.length = bs.slots.length ∧ ret.length = bs.slots.length ∧
      (∀ f, vCur = some f → x = f) ∧ (vCur = none → ∀ j, x (j + 1) = x' j) ∧
      (∀ (b : Nat) (B : List Nat × List (Trans O A R)) (k : Nat), bs[b]? = some B → k < B.2.length →
        x' (bs.start b + k) = blockNext B.2 vNext (bs.start b) k) ∧
      ∀ (b : Nat) (B : List Nat × List (Trans O A R)) (k : Nat), bs[b]? = some B → k < B.2.length →
        adv[bs.start b + k]? = some (∑ l ∈ Finset.range (epLast Trans.done B.2 k - k + 1),
          (gamma * lam) ^ l * (rewOf B.2 (k + l) + gamma * x' (bs.start b + k + l) - x (bs.start b + k + l))) ∧
        ret[bs.start b + k]? = some ((∑ l ∈ Finset.range (epLast Trans.done B.2 k - k + 1),
          (gamma * lam) ^ l * (rewOf B.2 (k + l) + gamma * x' (bs.start b + k + l) - x (bs.start b + k + l))) +
            x (bs.start b + k)) := by
  obtain ⟨hl1, hl2, hl3⟩ := Blocks.lengths bs h
  have hlen : bs.rows.length = bs.slots.length := by rw [hl1, hl2]
  set n := bs.slots.length with hn
  set rowF : Nat → BRow R := fun k => (bs.rows[k]?).getD ⟨0, false, false⟩ with hrowF
  set slotOf : Nat → Nat := fun k => (bs.slots[k]?).getD 0 with hslot
  have hrows : bs.rows = rows n (fun k => (rowF k).rew) (fun k => (rowF k).terminated) (fun k => (rowF k).truncated) := by
    rw [← hlen]
    exact as_range bs.rows ⟨0, false, false⟩
  have hslots : bs.slots = (List.range n).map slotOf := as_range bs.slots 0
  have hends : endsAt w n (fun k => (rowF k).terminated) (fun k => (rowF k).truncated) slotOf = bs.ends := by
    rw [← Blocks.ends_eq bs h]
    conv_rhs => rw [hrows, hslots]
    rw [rows, zipWith_map_range]
    rfl
  have hslotAt : ∀ (b : Nat) (B : List Nat × List (Trans O A R)) (k : Nat), bs[b]? = some B → k < B.2.length →
      B.1[k]? = some (slotOf (bs.start b + k)) := by
    intro b B k hb hk
    have hB := h B (List.mem_of_getElem? hb)
    have : bs.slots[bs.start b + k]? = B.1[k]? :=
      flatten_getElem? bs Prod.fst (fun B => B.2.length) (fun B' hB' => (h B' hB').len) b B hb k hk
    obtain ⟨i, hi⟩ : ∃ i, B.1[k]? = some i := ⟨_, List.getElem?_eq_getElem (by rw [hB.len]; exact hk)⟩
    rw [hi] at this ⊢
    simp [hslot, this]
  have hrowAt : ∀ (b : Nat) (B : List Nat × List (Trans O A R)) (k : Nat), bs[b]? = some B → k < B.2.length →
      (rowF (bs.start b + k)).rew = rewOf B.2 k := by
    intro b B k hb hk
    have : bs.rows[bs.start b + k]? = (B.2.map rowOf)[k]? :=
      flatten_getElem? bs (fun B => B.2.map rowOf) (fun B => B.2.length) (fun B' _ => by simp) b B hb k hk
    rw [List.getElem?_map, List.getElem?_eq_getElem hk] at this
    simp [hrowF, this, rowOf, rewOf, List.getElem?_eq_getElem hk]
  have hltn : ∀ (b : Nat) (B : List Nat × List (Trans O A R)) (k : Nat), bs[b]? = some B → k < B.2.length →
      bs.start b + k < n := by
    intro b B k hb hk
    have : bs.slots[bs.start b + k]? = B.1[k]? :=
      flatten_getElem? bs Prod.fst (fun B => B.2.length) (fun B' hB' => (h B' hB').len) b B hb k hk
    rw [hslotAt b B k hb hk] at this
    exact (List.getElem?_eq_some_iff.mp this).1
  obtain ⟨ret, adv, h1, h2, h3, h4⟩ := compute_eq w n (fun k => (rowF k).rew) (fun k => (rowF k).terminated)
    (fun k => (rowF k).truncated) slotOf gamma lam vNext vCur isClose hc
  rw [← hrows, ← hslots] at h1
  refine ⟨ret, adv, curV n (nextV w slotOf vNext) vCur, nextV w slotOf vNext, h1, h2, h3, ?_, ?_, ?_, ?_⟩
  · rintro f rfl
    rfl
  · rintro rfl j
    simp [curV]
  · intro b B k hb hk
    have hB := h B (List.mem_of_getElem? hb)
    cases vNext with
    | none => rfl
    | some f =>
      simp only [nextV, blockNext, bootstrap, hB.terminated k _ (hslotAt b B k hb hk)]
  · intro b B k hb hk
    obtain ⟨h5, h6⟩ := h4 (bs.start b + k) (hltn b B k hb hk)
    have he := Blocks.epLast_eq bs h b B hb k hk
    beta_reduce at h5 h6
    rw [hends, he, show bs.start b + epLast Trans.done B.2 k - (bs.start b + k) = epLast Trans.done B.2 k - k by omega] at h5 h6
    have hsum : ∀ l ∈ Finset.range (epLast Trans.done B.2 k - k + 1), (gamma * lam) ^ l *
        ((rowF (bs.start b + k + l)).rew + gamma * nextV w slotOf vNext (bs.start b + k + l) -
          curV n (nextV w slotOf vNext) vCur (bs.start b + k + l)) = (gamma * lam) ^ l *
        (rewOf B.2 (k + l) + gamma * nextV w slotOf vNext (bs.start b + k + l) -
          curV n (nextV w slotOf vNext) vCur (bs.start b + k + l)) := by
      intro l hl
      have hl' := Finset.mem_range.mp hl
      have := epLast_lt Trans.done B.2 hk
      have := le_epLast Trans.done B.2 hk
      rw [Nat.add_assoc, hrowAt b B (k + l) hb (by omega)]
    rw [h5, h6, Finset.sum_congr rfl hsum]
    exact ⟨rfl, rfl⟩

/-! ### The three forms of the result, per block -/

theorem gae_blocks {w : View R} (bs : Blocks O A R) (h : ∀ B ∈ bs, Shown w B.1 B.2) (v v' : Nat → R)
    (gamma lam : R) (isClose : Bool) :
    ∃ ret adv, computeEpisodicReturn w bs.rows bs.slots (some ((List.range bs.slots.length).map v'))
        (some ((List.range bs.slots.length).map v)) gamma lam isClose = some (ret, adv) ∧
      adv.length = bs.slots.length ∧ ret.length = bs.slots.length ∧
      ∀ (b : Nat) (B : List Nat × List (Trans O A R)) (k : Nat), bs[b]? = some B → k < B.2.length →
        adv[bs.start b + k]? = some (gaeSum B.2 gamma lam (fun j => v (bs.start b + j)) (fun j => v' (bs.start b + j)) k) ∧
        ret[bs.start b + k]? = some (gaeSum B.2 gamma lam (fun j => v (bs.start b + j)) (fun j => v' (bs.start b + j)) k +
          v (bs.start b + k)) := by
  obtain ⟨ret, adv, x, x', h1, h2, h3, h4, -, h5, h6⟩ := compute_blocks bs h (some v') (some v) gamma lam isClose (Or.inl rfl)
  refine ⟨ret, adv, h1, h2, h3, ?_⟩
  intro b B k hb hk
  have hx := h4 v rfl
  subst hx
  obtain ⟨h7, h8⟩ := h6 b B k hb hk
  have : (∑ l ∈ Finset.range (epLast Trans.done B.2 k - k + 1), (gamma * lam) ^ l *
      (rewOf B.2 (k + l) + gamma * x' (bs.start b + k + l) - x (bs.start b + k + l))) =
      gaeSum B.2 gamma lam (fun j => x (bs.start b + j)) (fun j => v' (bs.start b + j)) k := by
    apply Finset.sum_congr rfl
    intro l hl
    have := Finset.mem_range.mp hl
    have := epLast_lt Trans.done B.2 hk
    have := le_epLast Trans.done B.2 hk
    rw [Nat.add_assoc, h5 b B (k + l) hb (by omega)]
    rfl
  rw [h7, h8, this]
  exact ⟨rfl, rfl⟩

theorem gaeSum_last (c : List (Trans O A R)) (gamma lam : R) (v v' : Nat → R) (k : Nat) (h : epLast Trans.done c k = k) :
    gaeSum c gamma lam v v' k = rewOf c k + gamma * bootstrap c k (v' k) - v k := by
  simp [gaeSum, h]

theorem gaeSum_succ (c : List (Trans O A R)) (gamma lam : R) (v v' : Nat → R) (k : Nat) (hk : k < c.length)
    (h : epLast Trans.done c k ≠ k) :
    gaeSum c gamma lam v v' k = rewOf c k + gamma * v' k - v k + gamma * lam * gaeSum c gamma lam v v' (k + 1) := by
  have h1 := le_epLast Trans.done c hk
  have h2 := epLast_lt Trans.done c hk
  have hcont := continues_of_lt_epLast Trans.done c hk (Nat.lt_succ_self k) (by omega)
  have hs := epLast_succ Trans.done c (by omega) hcont
  have hterm : bootstrap c k (v' k) = v' k := by
    unfold bootstrap termOf
    simp only [continues, Nat.succ_eq_add_one, Nat.add_sub_cancel] at hcont
    cases hck : c[k]? with
    | none => simp
    | some t =>
      rw [hck] at hcont
      simp only [Trans.done] at hcont
      have : t.terminated = false := by revert hcont; cases t.terminated <;> simp
      simp [this]
  unfold gaeSum
  rw [show epLast Trans.done c k - k + 1 = (epLast Trans.done c (k + 1) - (k + 1) + 1) + 1 by omega,
    Finset.sum_range_succ']
  simp only [pow_zero, one_mul, Nat.add_zero, hterm, Finset.mul_sum]
  rw [add_comm]
  congr 1
  apply Finset.sum_congr rfl
  intro l _
  rw [show k + (l + 1) = k + 1 + l by omega]
  ring

theorem mc_blocks {w : View R} (bs : Blocks O A R) (h : ∀ B ∈ bs, Shown w B.1 B.2) (vNext : Option (Nat → R))
    (gamma : R) :
    ∃ ret adv, computeEpisodicReturn w bs.rows bs.slots (vNext.map fun f => (List.range bs.slots.length).map f)
        none gamma 1 true = some (ret, adv) ∧ ret.length = bs.slots.length ∧
      ∀ (b : Nat) (B : List Nat × List (Trans O A R)) (k : Nat), bs[b]? = some B → k < B.2.length →
        ret[bs.start b + k]? = some ((∑ l ∈ Finset.range (epLast Trans.done B.2 k - k + 1), gamma ^ l * rewOf B.2 (k + l)) +
          gamma ^ (epLast Trans.done B.2 k - k + 1) * blockNext B.2 vNext (bs.start b) (epLast Trans.done B.2 k)) := by
  obtain ⟨ret, adv, x, x', h1, -, h3, -, h4, h5, h6⟩ := compute_blocks bs h vNext none gamma 1 true (Or.inr rfl)
  refine ⟨ret, adv, h1, h3, ?_⟩
  intro b B k hb hk
  have h2 := (h6 b B k hb hk).2
  have hlt := epLast_lt Trans.done B.2 hk
  have hle := le_epLast Trans.done B.2 hk
  have ht := telescope gamma x' x (bs.start b + k) (epLast Trans.done B.2 k - k) (fun l _ => h4 rfl _)
  rw [h2]
  congr 1
  have : (∑ l ∈ Finset.range (epLast Trans.done B.2 k - k + 1), (gamma * 1) ^ l *
      (rewOf B.2 (k + l) + gamma * x' (bs.start b + k + l) - x (bs.start b + k + l))) =
      (∑ l ∈ Finset.range (epLast Trans.done B.2 k - k + 1), gamma ^ l * rewOf B.2 (k + l)) +
      ∑ l ∈ Finset.range (epLast Trans.done B.2 k - k + 1), gamma ^ l *
        (gamma * x' (bs.start b + k + l) - x (bs.start b + k + l)) := by
    rw [← Finset.sum_add_distrib]
    apply Finset.sum_congr rfl
    intro l _
    rw [mul_one]; ring
  rw [this, ht, show bs.start b + k + (epLast Trans.done B.2 k - k) = bs.start b + epLast Trans.done B.2 k by omega,
    h5 b B _ hb hlt]
  ring

/-! ### n-step returns -/

/-- From `i` on, `e` steps to the end of the episode. -/
def StepsToEnd (w : View R) (i e : Nat) : Prop :=
  (∀ j < e, (w.done (w.next^[j] i) || w.unfinished.contains (w.next^[j] i)) = false) ∧
    (w.done (w.next^[e] i) || w.unfinished.contains (w.next^[e] i)) = true ∧ w.next (w.next^[e] i) = w.next^[e] i

theorem StepsToEnd.unique {w : View R} {i e e' : Nat} (h : StepsToEnd w i e) (h' : StepsToEnd w i e') : e = e' := by
  rcases Nat.lt_trichotomy e e' with h1 | h1 | h1
  · have := h'.1 e h1; rw [h.2.1] at this; cases this
  · exact h1
  · have := h.1 e' h1; rw [h'.2.1] at this; cases this

theorem Shows.stepsToEnd {w : View R} {slots : List Nat} {c : List (Trans O A R)} (h : Shows w slots c) {k i : Nat}
    (hi : slots[k]? = some i) : StepsToEnd w i (epLast Trans.done c k - k) := by
  have hk : k < c.length := by rw [← h.len]; exact (List.getElem?_eq_some_iff.mp hi).1
  have hlt := epLast_lt Trans.done c hk
  have hle := le_epLast Trans.done c hk
  have hat : ∀ j, j ≤ epLast Trans.done c k - k → slots[k + j]? = some (w.next^[j] i) := by
    intro j hj
    rw [← h.next k i j hi, Nat.min_eq_left (by omega)]
  have hflag : ∀ j, j ≤ epLast Trans.done c k - k → ∃ t, c[k + j]? = some t ∧
      (w.done (w.next^[j] i) || w.unfinished.contains (w.next^[j] i)) = (t.done || decide (k + j + 1 = c.length)) := by
    intro j hj
    obtain ⟨t, ht⟩ : ∃ t, c[k + j]? = some t := ⟨_, List.getElem?_eq_getElem (by omega)⟩
    obtain ⟨h1, h2⟩ := h.ended (k + j) _ t (hat j hj) ht
    refine ⟨t, ht, ?_⟩
    rw [h1]
    cases hd : t.done with
    | true => simp
    | false =>
      rw [Bool.false_or, Bool.false_or, Bool.eq_iff_iff, h2, decide_eq_true_iff, hd]
      simp
  refine ⟨?_, ?_, ?_⟩
  · intro j hj
    obtain ⟨t, ht, hf⟩ := hflag j (by omega)
    have hcont := continues_of_lt_epLast Trans.done c hk (l := k + j + 1) (by omega) (by omega)
    simp only [continues, Nat.add_sub_cancel, ht] at hcont
    have h1 : t.done = false := by revert hcont; cases t.done <;> simp
    rw [hf, h1]
    simp; omega
  · obtain ⟨t, ht, hf⟩ := hflag _ (Nat.le_refl _)
    rw [hf]
    have he := epLast_end Trans.done c hk
    rw [show k + (epLast Trans.done c k - k) = epLast Trans.done c k by omega] at ht ⊢
    rcases he with he | he
    · simp [he]
    · simp only [continues, Nat.add_sub_cancel, ht] at he
      have h1 : t.done = true := by revert he; cases t.done <;> simp
      simp [h1]
  · have h1 := h.next k i (epLast Trans.done c k - k + 1) hi
    rw [Nat.min_eq_right (by omega), Function.iterate_succ_apply'] at h1
    have h2 := hat _ (Nat.le_refl _)
    rw [show k + (epLast Trans.done c k - k) = epLast Trans.done c k by omega, h1] at h2
    exact Option.some.inj h2

theorem nstep_blocks {w : View R} (bs : Blocks O A R) (h : ∀ B ∈ bs, Shows w B.1 B.2) (indices : List Nat)
    (hind : ∀ i ∈ indices, i ∈ bs.slots) (targetQ : List Nat → List (List R)) (hQ : ∀ l, (targetQ l).length = l.length)
    (gamma : R) (N : Nat) (hN : 0 < N) :
    ∃ (after : List Nat) (out : List (List R)), computeNstepReturn w indices.length indices targetQ gamma N = some out ∧
      out.length = indices.length ∧ after.length = indices.length ∧
      ∀ (p i : Nat) (B : List Nat × List (Trans O A R)) (k : Nat), indices[p]? = some i → B ∈ bs → B.1[k]? = some i →
        after[p]? = B.1[k + (nstepLen B.2 N k - 1)]? ∧
        ∃ q, (targetQ after)[p]? = some q ∧ out[p]? = some (q.map (nstepValue B.2 gamma N k)) := by
  classical
  set E : Nat → Nat := fun i => if hh : ∃ e, StepsToEnd w i e then hh.choose else 0 with hE
  have hEspec : ∀ i e, StepsToEnd w i e → E i = e := by
    intro i e he
    have hh : ∃ e, StepsToEnd w i e := ⟨e, he⟩
    simp only [hE, dif_pos hh]
    exact hh.choose_spec.unique he
  have hblock : ∀ i ∈ indices, ∃ B ∈ bs, ∃ k : Nat, B.1[k]? = some i := by
    intro i hi
    have := hind i hi
    simp only [Blocks.slots, List.mem_flatten, List.mem_map] at this
    obtain ⟨l, ⟨B, hB, rfl⟩, hm⟩ := this
    obtain ⟨k, hk, he⟩ := List.getElem_of_mem hm
    exact ⟨B, hB, k, by rw [List.getElem?_eq_getElem hk, he]⟩
  set after := indices.map fun i => w.next^[min N (E i + 1) - 1] i with hafter
  obtain ⟨out, h1, h2, h3⟩ := computeNstepReturn_spec w indices targetQ gamma N hN E (by
    intro i hi
    obtain ⟨B, hB, k, hk⟩ := hblock i hi
    have := (h B hB).stepsToEnd hk
    rw [hEspec i _ this]
    exact this) after hafter (by rw [hQ, hafter, List.length_map])
  refine ⟨after, out, h1, h2, by rw [hafter, List.length_map], ?_⟩
  intro p i B k hp hB hk
  have hs := h B hB
  have hkl : k < B.2.length := by rw [← hs.len]; exact (List.getElem?_eq_some_iff.mp hk).1
  have hlt := epLast_lt Trans.done B.2 hkl
  have hle := le_epLast Trans.done B.2 hkl
  have hEi := hEspec i _ (hs.stepsToEnd hk)
  have hat : ∀ j, j ≤ epLast Trans.done B.2 k - k → B.1[k + j]? = some (w.next^[j] i) := by
    intro j hj
    rw [← hs.next k i j hk, Nat.min_eq_left (by omega)]
  have hm : min N (E i + 1) = nstepLen B.2 N k := by rw [hEi]; rfl
  have hml : nstepLen B.2 N k - 1 ≤ epLast Trans.done B.2 k - k := by unfold nstepLen; omega
  have hpl := (List.getElem?_eq_some_iff.mp hp).1
  obtain ⟨q, hq⟩ : ∃ q, (targetQ after)[p]? = some q :=
    ⟨_, List.getElem?_eq_getElem (by rw [hQ, hafter, List.length_map]; exact hpl)⟩
  refine ⟨?_, q, hq, ?_⟩
  · rw [hafter, List.getElem?_map, hp, Option.map_some, hm, hat _ hml]
  · rw [h3 p i q hp hq, hm]
    congr 1
    apply List.map_congr_left
    intro x _
    unfold nstepValue bootstrap
    rw [hs.terminated _ _ (hat _ hml)]
    congr 1
    apply Finset.sum_congr rfl
    intro j hj
    have := Finset.mem_range.mp hj
    rw [hs.rew _ _ (hat j (by omega))]

end Verif.Returns
