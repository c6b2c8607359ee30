import Verif.Lemmas.Buffer
import Mathlib.Tactic.Ring

namespace Verif.Spec

variable {T : Type} (done : T → Bool) (c : List T)

theorem epFirst_le (k : Nat) : epFirst done c k ≤ k := by
  induction k with
  | zero => simp [epFirst]
  | succ k ih => simp only [epFirst]; split <;> omega

theorem continues_iff (k : Nat) : continues done c (k + 1) = true ↔ ∃ t, c[k]? = some t ∧ done t = false := by
  simp only [continues]
  cases c[k]? <;> simp

theorem epFirst_continues {k : Nat} (h : epFirst done c k < k) : continues done c k = true := by
  cases k with
  | zero => omega
  | succ k =>
    simp only [epFirst] at h
    split at h
    · assumption
    · omega

theorem epFirst_pred {k : Nat} (h : epFirst done c k < k) : epFirst done c (k - 1) = epFirst done c k := by
  have h2 := epFirst_continues done c h
  cases k with
  | zero => omega
  | succ k => simp [epFirst, h2]

theorem epFirst_self_not_continues (k : Nat) : continues done c (epFirst done c k) = false := by
  induction k with
  | zero => rfl
  | succ k ih =>
    simp only [epFirst]
    split
    · exact ih
    · rename_i h; simpa using h

theorem epFirst_step {k l : Nat} (h1 : epFirst done c k ≤ l) (h2 : l ≤ k) :
    epFirst done c l = epFirst done c k := by
  induction k with
  | zero => have : l = 0 := by omega
            subst this; rfl
  | succ k ih =>
    rcases Nat.lt_or_ge l (k + 1) with h | h
    · have hlt : epFirst done c (k + 1) < k + 1 := by omega
      have := epFirst_pred done c hlt
      simp only [Nat.add_sub_cancel] at this
      rw [← this]
      exact ih (by omega) (by omega)
    · have : l = k + 1 := by omega
      subst this; rfl

/-- All steps strictly between are connected. -/
theorem epFirst_all_continue {k l : Nat} (h1 : epFirst done c k < l) (h2 : l ≤ k) :
    continues done c l = true := by
  have := epFirst_step done c (Nat.le_of_lt h1) h2
  exact epFirst_continues done c (by omega)

theorem epLast_lt {k : Nat} (hk : k < c.length) : epLast done c k < c.length := by
  unfold epLast; omega

theorem le_epLast {k : Nat} (hk : k < c.length) : k ≤ epLast done c k := by
  unfold epLast; omega

theorem epLast_stop {k : Nat} (hk : k < c.length) (h : k + 1 = c.length ∨ continues done c (k + 1) = false) :
    epLast done c k = k := by
  unfold epLast
  rcases h with h | h
  · omega
  · rw [List.drop_eq_getElem_cons hk, List.takeWhile_cons]
    simp only [continues, List.getElem?_eq_getElem hk, Bool.not_eq_false'] at h
    simp [h]; omega

theorem epLast_succ {k : Nat} (hk : k + 1 < c.length) (h : continues done c (k + 1) = true) :
    epLast done c k = epLast done c (k + 1) := by
  unfold epLast
  rw [List.drop_eq_getElem_cons (by omega : k < c.length), List.takeWhile_cons]
  simp only [continues, List.getElem?_eq_getElem (by omega : k < c.length), Bool.not_eq_true'] at h
  simp [h]; omega

theorem epLast_end {k : Nat} (hk : k < c.length) :
    epLast done c k + 1 = c.length ∨ continues done c (epLast done c k + 1) = false := by
  induction hn : c.length - k generalizing k with
  | zero => omega
  | succ n ih =>
    by_cases h : k + 1 < c.length ∧ continues done c (k + 1) = true
    · rw [epLast_succ done c h.1 h.2]; exact ih h.1 (by omega)
    · have h' : k + 1 = c.length ∨ continues done c (k + 1) = false := by
        rcases Nat.lt_or_ge (k + 1) c.length with h1 | h1
        · right; simpa using fun h2 => h ⟨h1, h2⟩
        · left; omega
      rw [epLast_stop done c hk h']; exact h'

/-- Steps inside `[k, epLast k]` continue each other. -/
theorem continues_of_lt_epLast {k l : Nat} (hk : k < c.length) (h1 : k < l) (h2 : l ≤ epLast done c k) :
    continues done c l = true := by
  induction hn : c.length - k generalizing k with
  | zero => omega
  | succ n ih =>
    by_cases h : k + 1 < c.length ∧ continues done c (k + 1) = true
    · rcases Nat.lt_or_ge (k + 1) l with h3 | h3
      · exact ih h.1 h3 (by rw [← epLast_succ done c h.1 h.2]; exact h2) (by omega)
      · have : l = k + 1 := by omega
        rw [this]; exact h.2
    · have h' : k + 1 = c.length ∨ continues done c (k + 1) = false := by
        rcases Nat.lt_or_ge (k + 1) c.length with h1 | h1
        · right; simpa using fun h2 => h ⟨h1, h2⟩
        · left; omega
      rw [epLast_stop done c hk h'] at h2; omega

theorem epLast_step {k l : Nat} (hk : k < c.length) (h1 : k ≤ l) (h2 : l ≤ epLast done c k) :
    epLast done c l = epLast done c k := by
  induction hn : c.length - k generalizing k with
  | zero => omega
  | succ n ih =>
    by_cases h : k + 1 < c.length ∧ continues done c (k + 1) = true
    · rcases Nat.lt_or_ge k l with h3 | h3
      · rw [epLast_succ done c h.1 h.2]
        exact ih h.1 h3 (by rw [← epLast_succ done c h.1 h.2]; exact h2) (by omega)
      · have : l = k := by omega
        rw [this]
    · have h' : k + 1 = c.length ∨ continues done c (k + 1) = false := by
        rcases Nat.lt_or_ge (k + 1) c.length with h1 | h1
        · right; simpa using fun h2 => h ⟨h1, h2⟩
        · left; omega
      rw [epLast_stop done c hk h'] at h2
      have : l = k := by omega
      rw [this]

end Verif.Spec

namespace Verif.Buffer

open Verif.Spec

variable {O A R : Type}

theorem prev_iter {b : Buf O A R} {c : List (Trans O A R)} (H : Holds b.idx b.data c) (k j : Nat)
    (hk : k < b.idx.size) :
    b.prev^[j] (slot b.idx.ins b.idx.size k) =
      slot b.idx.ins b.idx.size (max (k - j) (epFirst Trans.done c k)) := by
  induction j with
  | zero =>
    have := epFirst_le Trans.done c k
    simp only [Function.iterate_zero, id, Nat.sub_zero]
    rw [Nat.max_eq_left this]
  | succ j ih =>
    rw [Function.iterate_succ_apply', ih]
    have hle := epFirst_le Trans.done c k
    rw [prev_slot H _ (by omega)]
    congr 1
    by_cases hc : epFirst Trans.done c k < k - j
    · rw [Nat.max_eq_left (by omega)]
      rw [epFirst_all_continue Trans.done c hc (by omega)]
      simp only [if_true]
      omega
    · have h3 : max (k - j) (epFirst Trans.done c k) = epFirst Trans.done c k := by omega
      rw [h3, epFirst_self_not_continues]
      simp only [Bool.false_eq_true, if_false]
      omega

theorem next_iter {b : Buf O A R} {c : List (Trans O A R)} (H : Holds b.idx b.data c) (k j : Nat)
    (hk : k < b.idx.size) :
    b.next^[j] (slot b.idx.ins b.idx.size k) =
      slot b.idx.ins b.idx.size (min (k + j) (epLast Trans.done c k)) := by
  have hlen := H.len
  have hk' : k < c.length := by omega
  have h1 := le_epLast Trans.done c hk'
  have h2 := epLast_lt Trans.done c hk'
  induction j with
  | zero =>
    simp only [Function.iterate_zero, id, Nat.add_zero]
    rw [Nat.min_eq_left h1]
  | succ j ih =>
    rw [Function.iterate_succ_apply', ih, next_slot H _ (by omega)]
    congr 1
    by_cases hc : k + j < epLast Trans.done c k
    · rw [Nat.min_eq_left (by omega)]
      rw [if_pos ⟨by omega, continues_of_lt_epLast Trans.done c hk' (by omega) (by omega)⟩]
      omega
    · have h3 : min (k + j) (epLast Trans.done c k) = epLast Trans.done c k := by omega
      rw [h3, if_neg]
      · omega
      · rcases epLast_end Trans.done c hk' with h | h
        · omega
        · simp [h]

end Verif.Buffer
