import Verif.Lemmas.History
import Mathlib.Tactic.IntervalCases

set_option linter.unusedSectionVars false

namespace Verif.Buffer

open Verif.Spec

variable {O A R : Type} [AddCommMonoid R]

/-- Chronological slots in terms of positions in the history. -/
theorem Inv.slot_eq {b : Buf O A R} {g : Ghost O A R} (I : Inv b g) (k : Nat) (hk : k < b.idx.size) :
    slot b.idx.ins b.idx.size k = (g.received.length - b.idx.size + k) % b.idx.maxsize := by
  have hs := I.size
  have hi := I.ins
  have hpos := I.holds.pos
  set n := g.received.length
  set m := b.idx.maxsize
  rcases I.holds.fill with ⟨h1, h2⟩ | ⟨h1, h2⟩
  · rw [show n - b.idx.size + k = k by omega, Nat.mod_eq_of_lt (by omega)]
    unfold slot; split_ifs <;> omega
  · rw [h1]
    have hnm : m ≤ n := by omega
    have : (n - m + k) % m = (b.idx.ins + k) % m := by
      rw [hi, Nat.mod_add_mod, show n + k = n - m + k + m by omega, Nat.add_mod_right]
    rw [this]
    unfold slot
    split
    · rw [Nat.mod_eq_of_lt (by omega)]
    · rw [Nat.mod_eq_sub_mod (by omega), Nat.mod_eq_of_lt (by omega)]

theorem Inv.allIndices_eq {b : Buf O A R} {g : Ghost O A R} (I : Inv b g) :
    b.idx.allIndices = (List.range b.idx.size).map
      fun k => (g.received.length - b.idx.size + k) % b.idx.maxsize := by
  rw [Buffer.allIndices_eq I.holds.ins_le]
  apply List.map_congr_left
  intro k hk
  exact I.slot_eq k (List.mem_range.mp hk)

/-- The last `L` live slots. -/
theorem Inv.lastN_allIndices {b : Buf O A R} {g : Ghost O A R} (I : Inv b g) (L : Nat)
    (hL : L ≤ b.idx.size) :
    lastN L b.idx.allIndices = (List.range L).map
      fun j => (g.received.length - L + j) % b.idx.maxsize := by
  have hs := I.size
  rw [I.allIndices_eq, lastN]
  apply List.ext_getElem
  · simp; omega
  · intro j h1 h2
    simp only [List.length_map, List.length_range] at h2
    simp only [List.getElem_drop, List.getElem_map, List.getElem_range, List.length_map,
      List.length_range]
    congr 1
    omega

/-- `get_buffer_indices` on a plain buffer, evaluated on a ring interval. -/
theorem getBufferIndices_ring (m s L : Nat) (hs : s < m) (hL : 1 ≤ L) (hLm : L ≤ m) :
    getBufferIndices [0, m] s ((s + (L - 1)) % m + 1) =
      if L = m ∧ s ≠ 0 then .error .valueError
      else .ok ((List.range L).map fun j => (s + j) % m) := by
  have hcur : (s + (L - 1)) % m < m := Nat.mod_lt _ (by omega)
  have hsr : ∀ x : Nat, x < m → searchRight [0, m] (x : Int) = 1 := by
    intro x hx
    have h1 : ¬ ((m : Int) ≤ (x : Int)) := by omega
    simp [searchRight, List.filter_cons]
    omega
  unfold getBufferIndices
  rw [show (((s + (L - 1)) % m + 1 : Nat) : Int) - 1 = (((s + (L - 1)) % m : Nat) : Int) by omega,
    hsr s hs, hsr _ hcur]
  simp only [ne_eq, not_true_eq_false, if_false]
  by_cases hw : s + L ≤ m
  · rw [Nat.mod_eq_of_lt (by omega : s + (L - 1) < m), if_pos (by omega), if_neg (by omega)]
    congr 1
    unfold arange
    rw [show s + (L - 1) + 1 - s = L by omega]
    apply List.map_congr_left
    intro j hj
    rw [List.mem_range] at hj
    rw [Nat.mod_eq_of_lt (by omega)]
  · have hm : (s + (L - 1)) % m = s + (L - 1) - m := by
      rw [Nat.mod_eq_sub_mod (by omega), Nat.mod_eq_of_lt (by omega)]
    rw [hm, if_neg (by omega)]
    by_cases hfull : L = m
    · rw [if_pos ⟨hfull, by omega⟩]
      have : crossing [0, m] s (s + (L - 1) - m + 1) = .error .valueError := by
        unfold crossing; rw [if_pos (by omega)]
      rw [this]
    · rw [if_neg (fun h => hfull h.1)]
      have hsl : searchLeft [0, m] (s : Int) = 1 := by
        have h1 : ¬ (m < s) := by omega
        have h2 : 0 < s := by omega
        simp [searchLeft, h1, h2]
      have : crossing [0, m] s (s + (L - 1) - m + 1) = .ok ((s, m), (0, s + (L - 1) - m + 1)) := by
        unfold crossing
        rw [if_neg (by omega), hsl]
        simp
      rw [this]
      simp only
      congr 1
      unfold arange
      apply List.ext_getElem
      · simp; omega
      · intro j h1 h2
        simp only [List.length_map, List.length_range] at h2
        rw [List.getElem_append]
        split
        · rename_i hj
          simp only [List.length_map, List.length_range] at hj
          simp only [List.getElem_map, List.getElem_range]
          rw [Nat.mod_eq_of_lt (by omega)]
        · rename_i hj
          simp only [List.length_map, List.length_range] at hj
          simp only [List.getElem_map, List.getElem_range, List.length_map, List.length_range]
          rw [Nat.mod_eq_sub_mod (by omega), Nat.mod_eq_of_lt (by omega)]
          omega

/-- The loop of `get` in closed form. -/
theorem get_eq {V : Type} {b : Buf O A R} {c : List (Trans O A R)} (H : Holds b.idx b.data c)
    (val : Trans O A R → V) (k K : Nat) (hk : k < b.idx.size) :
    b.get val (slot b.idx.ins b.idx.size k) K =
      (List.range K).map fun j => (c[max (k - (K - 1 - j)) (epFirst Trans.done c k)]?).map val := by
  have gen : ∀ (n : Nat) (i : Nat) (stack : List (Option V)),
      Buf.get.go b val n i stack =
        ((List.range n).map fun j => (b.data (b.prev^[n - 1 - j] i)).map val) ++ stack := by
    intro n
    induction n with
    | zero => intro i stack; simp [Buf.get.go]
    | succ n ih =>
      intro i stack
      rw [Buf.get.go, ih, List.range_succ, List.map_append, List.append_assoc]
      congr 1
      · apply List.map_congr_left
        intro j hj
        rw [List.mem_range] at hj
        rw [← Function.iterate_succ_apply, show (n - 1 - j).succ = n + 1 - 1 - j by omega]
      · simp
  rw [Buf.get, gen, List.append_nil]
  apply List.map_congr_left
  intro j hj
  have hle := epFirst_le Trans.done c k
  rw [prev_iter H k _ hk, H.data _ (by omega)]

end Verif.Buffer
