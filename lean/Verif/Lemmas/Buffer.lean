import Verif.Model.Buffer
import Verif.Spec.Buffer
import Mathlib.Tactic.SplitIfs

namespace Verif.Buffer

open Verif.Spec

variable {O A R : Type}

/-! ### The ring of live slots -/

/-- Slot of the `k`-th oldest live transition. -/
def slot (ins size k : Nat) : Nat := if ins + k < size then ins + k else ins + k - size

theorem slot_lt {ins size k : Nat} (hi : ins ≤ size) (hk : k < size) : slot ins size k < size := by
  unfold slot; split_ifs <;> omega

theorem slot_inj {ins size k l : Nat} (_hi : ins ≤ size) (hk : k < size) (hl : l < size)
    (h : slot ins size k = slot ins size l) : k = l := by
  unfold slot at h; split_ifs at h <;> omega

theorem slot_surj {ins size i : Nat} (hi : ins ≤ size) (h : i < size) :
    ∃ k, k < size ∧ slot ins size k = i := by
  by_cases hc : ins ≤ i
  · exact ⟨i - ins, by omega, by unfold slot; split_ifs <;> omega⟩
  · exact ⟨i + size - ins, by omega, by unfold slot; split_ifs <;> omega⟩

/-- The bookkeeping `x` with store `data` holds exactly the transitions `c`, oldest first. -/
structure Holds (x : Idx R) (data : Nat → Option (Trans O A R)) (c : List (Trans O A R)) : Prop where
  pos : 0 < x.maxsize
  len : c.length = x.size
  fill : (x.size < x.maxsize ∧ x.ins = x.size) ∨ (x.size = x.maxsize ∧ x.ins < x.maxsize)
  last : x.last = if x.size = 0 then 0 else slot x.ins x.size (x.size - 1)
  data : ∀ k, k < x.size → data (slot x.ins x.size k) = c[k]?

theorem Holds.ins_le {x : Idx R} {data} {c : List (Trans O A R)} (H : Holds x data c) : x.ins ≤ x.size := by
  rcases H.fill with h | h <;> omega

theorem Holds.size_le {x : Idx R} {data} {c : List (Trans O A R)} (H : Holds x data c) :
    x.size ≤ x.maxsize := by
  rcases H.fill with h | h <;> omega

theorem allIndices_eq {x : Idx R} (h : x.ins ≤ x.size) :
    x.allIndices = (List.range x.size).map (slot x.ins x.size) := by
  unfold Idx.allIndices arange
  apply List.ext_getElem
  · simp; omega
  · intro k h1 h2
    simp only [List.length_append, List.length_map, List.length_range] at h1
    simp only [List.getElem_map, List.getElem_range, slot]
    rw [List.getElem_append]
    split
    · rename_i hk
      simp only [List.length_map, List.length_range] at hk
      simp only [List.getElem_map, List.getElem_range]
      rw [if_pos (by omega)]
    · rename_i hk
      simp only [List.length_map, List.length_range] at hk
      simp only [List.getElem_map, List.getElem_range, List.length_map, List.length_range]
      rw [if_neg (by omega)]
      omega

theorem Holds.allIndices_length {x : Idx R} {data} {c : List (Trans O A R)} (H : Holds x data c) :
    x.allIndices.length = x.size := by
  rw [allIndices_eq H.ins_le]; simp

theorem Holds.allIndices_getElem? {x : Idx R} {data} {c : List (Trans O A R)} (H : Holds x data c)
    (k : Nat) (hk : k < x.size) : x.allIndices[k]? = some (slot x.ins x.size k) := by
  rw [allIndices_eq H.ins_le]; simp [hk]

theorem Holds.contents {x : Idx R} {data} {c : List (Trans O A R)} (H : Holds x data c) :
    x.allIndices.map data = c.map some := by
  rw [allIndices_eq H.ins_le]
  apply List.ext_getElem
  · simp [H.len]
  · intro k h1 h2
    simp only [List.length_map, List.length_range] at h1
    simp only [List.getElem_map, List.getElem_range]
    rw [H.data k h1]
    simp

/-! ### prev / next -/

theorem pred_mod (i s : Nat) (h : i < s) :
    (((i : Int) - 1) % (s : Int)).toNat = if i = 0 then s - 1 else i - 1 := by
  split
  · rename_i h0
    subst h0
    have : ((0 : Nat) : Int) - 1 = ((s - 1 : Nat) : Int) + (s : Int) * (-1) := by omega
    rw [this, Int.add_mul_emod_self_left, Int.emod_eq_of_lt] <;> omega
  · rw [Int.emod_eq_of_lt] <;> omega

theorem prev_slot {b : Buf O A R} {c : List (Trans O A R)} (H : Holds b.idx b.data c) (k : Nat)
    (hk : k < b.idx.size) :
    b.prev (slot b.idx.ins b.idx.size k) =
      slot b.idx.ins b.idx.size (if continues Trans.done c k then k - 1 else k) := by
  have hi := H.ins_le
  have hl := slot_lt hi hk
  unfold Buf.prev
  simp only
  rw [pred_mod _ _ hl]
  have e : (if slot b.idx.ins b.idx.size k = 0 then b.idx.size - 1
      else slot b.idx.ins b.idx.size k - 1) =
      slot b.idx.ins b.idx.size (if k = 0 then b.idx.size - 1 else k - 1) := by
    unfold slot; split_ifs <;> omega
  rw [e]
  have hlast := H.last
  rw [if_neg (by omega)] at hlast
  cases k with
  | zero =>
    simp only [if_true]
    rw [hlast]
    simp only [beq_self_eq_true, Bool.or_true, Bool.toNat_true, continues, Bool.false_eq_true, if_false]
    have : slot b.idx.ins b.idx.size (b.idx.size - 1) + 1 = slot b.idx.ins b.idx.size 0 ∨
        (slot b.idx.ins b.idx.size (b.idx.size - 1) + 1 = b.idx.size ∧
          slot b.idx.ins b.idx.size 0 = 0) := by
      unfold slot; split_ifs <;> omega
    rcases this with h | ⟨h, h'⟩
    · rw [h, Nat.mod_eq_of_lt hl]
    · rw [h, h', Nat.mod_self]
  | succ k =>
    rw [if_neg (Nat.succ_ne_zero k), Nat.add_sub_cancel]
    have hk' : k < b.idx.size := by omega
    have hne : (slot b.idx.ins b.idx.size k == b.idx.last) = false := by
      rw [hlast, beq_eq_false_iff_ne]
      intro h
      have := slot_inj hi hk' (by omega) h
      omega
    rw [hne, Bool.or_false, doneAt, H.data k hk']
    have hck : k < c.length := by rw [H.len]; exact hk'
    simp only [continues, List.getElem?_eq_getElem hck]
    have hl' := slot_lt hi hk'
    cases hd : (c[k]).done with
    | false =>
      simp [Nat.mod_eq_of_lt hl']
    | true =>
      simp only [Bool.toNat_true, Bool.not_true, Bool.false_eq_true, if_false]
      have : slot b.idx.ins b.idx.size k + 1 = slot b.idx.ins b.idx.size (k + 1) ∨
          (slot b.idx.ins b.idx.size k + 1 = b.idx.size ∧ slot b.idx.ins b.idx.size (k + 1) = 0) := by
        unfold slot; split_ifs <;> omega
      rcases this with h | ⟨h, h'⟩
      · rw [h, Nat.mod_eq_of_lt hl]
      · rw [h, h', Nat.mod_self]

theorem next_slot {b : Buf O A R} {c : List (Trans O A R)} (H : Holds b.idx b.data c) (k : Nat)
    (hk : k < b.idx.size) :
    b.next (slot b.idx.ins b.idx.size k) =
      slot b.idx.ins b.idx.size
        (if k + 1 < c.length ∧ continues Trans.done c (k + 1) then k + 1 else k) := by
  have hi := H.ins_le
  have hl := slot_lt hi hk
  have hck : k < c.length := by rw [H.len]; exact hk
  unfold Buf.next
  simp only
  rw [doneAt, H.data k hk, H.last, if_neg (by omega)]
  simp only [continues, List.getElem?_eq_getElem hck]
  have hlen := H.len
  by_cases hkl : k + 1 < c.length
  · have hne : (slot b.idx.ins b.idx.size k == slot b.idx.ins b.idx.size (b.idx.size - 1)) = false := by
      rw [beq_eq_false_iff_ne]
      intro h
      have := slot_inj hi hk (by omega) h
      omega
    rw [hne, Bool.or_false]
    cases hd : (c[k]).done with
    | true => simp [Nat.mod_eq_of_lt hl]
    | false =>
      simp only [Bool.toNat_false, Nat.sub_zero, hkl, Bool.not_false, and_self, if_true]
      have hl' := slot_lt hi (show k + 1 < b.idx.size by omega)
      have : slot b.idx.ins b.idx.size k + 1 = slot b.idx.ins b.idx.size (k + 1) ∨
          (slot b.idx.ins b.idx.size k + 1 = b.idx.size ∧ slot b.idx.ins b.idx.size (k + 1) = 0) := by
        unfold slot; split_ifs <;> omega
      rcases this with h | ⟨h, h'⟩
      · rw [h, Nat.mod_eq_of_lt hl']
      · rw [h, h', Nat.mod_self]
  · have : k = b.idx.size - 1 := by omega
    rw [← this]
    simp [hkl, Nat.mod_eq_of_lt hl]

/-! ### Writing -/

theorem lastN_length {T : Type} (m : Nat) (h : List T) : (lastN m h).length = min h.length m := by
  simp [lastN]; omega

theorem lastN_lastN_append {T : Type} (m : Nat) (h g : List T) :
    lastN m (lastN m h ++ g) = lastN m (h ++ g) := by
  unfold lastN
  rw [← List.drop_append_of_le_length (by omega), List.drop_drop]
  congr 1
  simp
  omega

theorem lastN_of_le {T : Type} (m : Nat) (h : List T) (hl : h.length ≤ m) : lastN m h = h := by
  unfold lastN; rw [show h.length - m = 0 by omega]; rfl

/-- The bookkeeping part shared by `add` and `update`. -/
def Idx.push (x : Idx R) : Idx R :=
  { x with last := x.ins, ins := (x.ins + 1) % x.maxsize, size := min (x.size + 1) x.maxsize }

theorem succ_mod {i m : Nat} (h : i < m) : (i + 1) % m = if i + 1 = m then 0 else i + 1 := by
  split
  · rename_i h1; rw [h1, Nat.mod_self]
  · exact Nat.mod_eq_of_lt (by omega)

theorem Holds.push {x : Idx R} {data} {c : List (Trans O A R)} (H : Holds x data c) (t : Trans O A R) :
    Holds x.push (Function.update data x.ins (some t)) (lastN x.maxsize (c ++ [t])) := by
  have hpos := H.pos
  have hlen := H.len
  have hinsm : x.ins < x.maxsize := by rcases H.fill with h | h <;> omega
  have hmod := succ_mod hinsm
  rcases H.fill with ⟨h1, h2⟩ | ⟨h1, h2⟩
  · have hs : x.push.size = x.size + 1 := by simp [Idx.push]; omega
    have hi : x.push.ins = if x.size + 1 = x.maxsize then 0 else x.size + 1 := by
      simp only [Idx.push]; rw [hmod, h2]
    have hslot' : ∀ k, k < x.size + 1 → slot x.push.ins x.push.size k = k := by
      intro k hk; rw [hs, hi]; unfold slot; split_ifs <;> omega
    have hslot : ∀ k, k < x.size → slot x.ins x.size k = k := by
      intro k hk; unfold slot; split_ifs <;> omega
    rw [lastN_of_le _ _ (by simp; omega)]
    refine ⟨hpos, by rw [hs]; simp [hlen], ?_, ?_, ?_⟩
    · rw [hs, hi]; show _ ∧ _ ∨ _ = x.maxsize ∧ _ < x.maxsize
      simp only [show x.push.maxsize = x.maxsize from rfl]
      split_ifs <;> omega
    · rw [if_neg (by omega), show x.push.size - 1 = x.size by omega, hslot' _ (by omega)]
      exact h2
    · intro k hk
      rw [hs] at hk
      rw [hslot' k hk, h2]
      by_cases hkx : k = x.size
      · subst hkx
        rw [Function.update_self, List.getElem?_append_right (by omega)]
        simp [hlen]
      · rw [Function.update_of_ne hkx, List.getElem?_append_left (by omega)]
        have := H.data k (by omega)
        rwa [hslot k (by omega)] at this
  · have hs : x.push.size = x.size := by simp [Idx.push]; omega
    have hi : x.push.ins = if x.ins + 1 = x.maxsize then 0 else x.ins + 1 := by
      simp only [Idx.push]; rw [hmod]
    have hm : lastN x.maxsize (c ++ [t]) = c.tail ++ [t] := by
      unfold lastN
      have hc : c ≠ [] := by intro h; subst h; simp at hlen; omega
      rw [show (c ++ [t]).length - x.maxsize = 1 by simp; omega]
      cases c with
      | nil => exact absurd rfl hc
      | cons a c => rfl
    have hslot' : ∀ k, k + 1 < x.size → slot x.push.ins x.push.size k = slot x.ins x.size (k + 1) := by
      intro k hk; rw [hs, hi]; unfold slot; split_ifs <;> omega
    have hslotl : slot x.push.ins x.push.size (x.size - 1) = x.ins := by
      rw [hs, hi]; unfold slot; split_ifs <;> omega
    have hslot0 : slot x.ins x.size 0 = x.ins := by unfold slot; split_ifs <;> omega
    rw [hm]
    refine ⟨hpos, by rw [hs]; simp; omega, ?_, ?_, ?_⟩
    · rw [hs, hi]; simp only [show x.push.maxsize = x.maxsize from rfl]
      split_ifs <;> omega
    · rw [if_neg (by rw [hs]; omega)]
      rw [show x.push.size - 1 = x.size - 1 by rw [hs], hslotl]
      rfl
    · intro k hk
      rw [hs] at hk
      by_cases hkx : k + 1 = x.size
      · have : k = x.size - 1 := by omega
        rw [this, hslotl, Function.update_self, List.getElem?_append_right (by simp; omega)]
        simp [hlen]
      · rw [hslot' k (by omega), Function.update_of_ne, H.data _ (by omega),
          List.getElem?_append_left (by simp; omega), List.getElem?_tail]
        intro h
        have := slot_inj H.ins_le (by omega) (by omega) (h.trans hslot0.symm)
        omega

theorem push_maxsize (x : Idx R) : x.push.maxsize = x.maxsize := rfl

theorem Holds.new [Zero R] (m : Nat) (hm : 0 < m) (data) :
    Holds (Idx.new m : Idx R) data ([] : List (Trans O A R)) := by
  refine ⟨hm, rfl, Or.inl ⟨hm, rfl⟩, rfl, ?_⟩
  intro k hk
  simp [Idx.new] at hk

theorem Holds.reset [Zero R] {x : Idx R} {data} {c : List (Trans O A R)} (H : Holds x data c) (keep : Bool) :
    Holds (x.reset keep) data ([] : List (Trans O A R)) := by
  refine ⟨H.pos, rfl, Or.inl ⟨H.pos, rfl⟩, rfl, ?_⟩
  intro k hk
  simp [Idx.reset] at hk

/-- `Holds` only depends on the ring fields. -/
theorem Holds.congr {x y : Idx R} {data} {c : List (Trans O A R)} (H : Holds x data c)
    (h1 : y.maxsize = x.maxsize) (h2 : y.last = x.last) (h3 : y.ins = x.ins) (h4 : y.size = x.size) :
    Holds y data c := by
  refine ⟨by rw [h1]; exact H.pos, by rw [h4]; exact H.len, by rw [h1, h3, h4]; exact H.fill, ?_, ?_⟩
  · rw [h2, h3, h4]; exact H.last
  · rw [h3, h4]; exact H.data

/-- `Holds` only looks at live slots of the store. -/
theorem Holds.congr_data {x : Idx R} {data data' : Nat → Option (Trans O A R)} {c : List (Trans O A R)}
    (H : Holds x data c) (h : ∀ i, i < x.maxsize → data' i = data i) : Holds x data' c := by
  refine ⟨H.pos, H.len, H.fill, H.last, ?_⟩
  intro k hk
  rw [h _ (Nat.lt_of_lt_of_le (slot_lt H.ins_le hk) H.size_le)]
  exact H.data k hk

theorem Holds.advance {x : Idx R} {data} {c : List (Trans O A R)} (H : Holds x data c)
    (ts : List (Trans O A R)) :
    Holds (x.advance ts.length).2 (scatter data ((x.advance ts.length).1.zip (ts.map some)))
      (lastN x.maxsize (c ++ ts)) ∧ (x.advance ts.length).2.maxsize = x.maxsize := by
  induction ts generalizing x data c with
  | nil =>
    simp only [List.length_nil, Idx.advance, List.map_nil, List.zip_nil_right, List.append_nil]
    refine ⟨?_, trivial⟩
    rw [lastN_of_le _ _ (by rw [H.len]; exact H.size_le)]
    exact H
  | cons t ts ih =>
    simp only [List.length_cons, Idx.advance, List.map_cons, List.zip_cons_cons, scatter]
    have := ih (H.push t)
    simp only [Idx.push] at this
    refine ⟨?_, this.2⟩
    have h3 := this.1
    rw [lastN_lastN_append, List.append_assoc, List.singleton_append] at h3
    exact h3

end Verif.Buffer
