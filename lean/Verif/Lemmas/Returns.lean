import Verif.Model.Returns
import Verif.Lemmas.Episode
import Mathlib.Algebra.BigOperators.Ring.Finset
import Mathlib.Algebra.BigOperators.Group.Finset.Basic
import Mathlib.Tactic.Ring
import Mathlib.Tactic.SplitIfs

/-! Helper lemmas for the return computations. -/

set_option linter.unusedSectionVars false

namespace Verif.Returns

open Verif.Spec Verif.Buffer

variable {O A R : Type} [CommRing R]

theorem gaeLoop_length (l : List (R × R)) : (gaeLoop l).length = l.length := by
  induction l with
  | nil => rfl
  | cons p rest ih => obtain ⟨d, c⟩ := p; simp [gaeLoop, ih]

theorem gaeLoop_getElem? (l : List (R × R)) (t : Nat) (d c : R) (h : l[t]? = some (d, c)) :
    (gaeLoop l)[t]? = some (d + c * ((gaeLoop l)[t + 1]?).getD 0) := by
  induction l generalizing t with
  | nil => simp at h
  | cons p rest ih =>
    obtain ⟨d', c'⟩ := p
    cases t with
    | zero =>
      simp only [List.getElem?_cons_zero, Option.some.injEq, Prod.mk.injEq] at h
      obtain ⟨rfl, rfl⟩ := h
      simp [gaeLoop, List.headD_eq_head?_getD, List.head?_eq_getElem?]
    | succ t =>
      simp only [List.getElem?_cons_succ] at h
      have := ih t h
      simpa [gaeLoop] using this

/-- Unrolling a recursion that stops at the end of each segment. -/
theorem segment_sum (e : List Bool) (c : R) (delta a : Nat → R)
    (hstop : ∀ t, t < e.length → epLast id e t = t → a t = delta t)
    (hstep : ∀ t, t < e.length → t < epLast id e t → a t = delta t + c * a (t + 1)) (t : Nat)
    (ht : t < e.length) :
    a t = ∑ l ∈ Finset.range (epLast id e t - t + 1), c ^ l * delta (t + l) := by
  induction hn : e.length - t generalizing t with
  | zero => omega
  | succ n ih =>
    have h1 := le_epLast id e ht
    have h2 := epLast_lt id e ht
    rcases Nat.eq_or_lt_of_le h1 with h | h
    · rw [hstop t ht h.symm, ← h]
      simp
    · have h3 : epLast id e t - (t + 1) + 1 = epLast id e t - t := by omega
      rw [hstep t ht h, ih (t + 1) (by omega) (by omega), epLast_step id e ht (by omega) (by omega : t + 1 ≤ _), h3,
        Finset.sum_range_succ', Finset.mul_sum]
      simp only [pow_zero, one_mul, Nat.add_zero]
      rw [add_comm]
      congr 1
      apply Finset.sum_congr rfl
      intro l _
      rw [pow_succ, show t + 1 + l = t + (l + 1) by omega]
      ring

theorem zipWith_map_range {α β γ : Type} (f : α → β → γ) (n : Nat) (x : Nat → α) (y : Nat → β) :
    List.zipWith f ((List.range n).map x) ((List.range n).map y) = (List.range n).map fun k => f (x k) (y k) := by
  rw [List.zipWith_map]
  apply List.ext_getElem?
  intro k
  simp only [List.getElem?_zipWith, List.getElem?_map]
  cases (List.range n)[k]? <;> rfl

theorem zip_map_range {α β : Type} (n : Nat) (x : Nat → α) (y : Nat → β) :
    ((List.range n).map x).zip ((List.range n).map y) = (List.range n).map fun k => (x k, y k) :=
  zipWith_map_range Prod.mk n x y

/-- `_gae_return` on arrays given by their entries. -/
theorem gaeReturn_spec (n : Nat) (v v' rew : Nat → R) (e : Nat → Bool) (gamma lam : R) :
    let el := (List.range n).map e
    let adv := gaeReturn ((List.range n).map v) ((List.range n).map v') ((List.range n).map rew) el gamma lam
    adv.length = n ∧ ∀ t, t < n → adv[t]? = some (∑ l ∈ Finset.range (epLast id el t - t + 1),
      (gamma * lam) ^ l * (rew (t + l) + v' (t + l) * gamma - v (t + l))) := by
  intro el adv
  have hlen : el.length = n := by simp [el]
  set delta := fun k => rew k + v' k * gamma - v k with hdelta
  have hadv : adv = gaeLoop ((List.range n).map fun k => (delta k, mask (!e k) (gamma * lam))) := by
    simp only [adv, el, gaeReturn]
    rw [zipWith_map_range, zipWith_map_range, List.map_map, zip_map_range]
    rfl
  have hl : adv.length = n := by rw [hadv, gaeLoop_length]; simp
  refine ⟨hl, ?_⟩
  have hrec : ∀ t, t < n → adv[t]? = some (delta t + mask (!e t) (gamma * lam) * (adv[t + 1]?).getD 0) := by
    intro t ht
    rw [hadv]
    apply gaeLoop_getElem?
    simp [ht]
  have hget : ∀ k, k < n → el[k]? = some (e k) := by intro k hk; simp [el, hk]
  intro t ht
  have := segment_sum el (gamma * lam) delta (fun t => (adv[t]?).getD 0) ?_ ?_ t (by omega)
  · rw [hrec t ht] at this ⊢
    simpa using this
  · intro t ht h
    rw [hlen] at ht
    simp only [hrec t ht, Option.getD_some]
    have h3 := epLast_end id el (k := t) (by omega)
    rw [h] at h3
    rcases h3 with h3 | h3
    · rw [hlen] at h3
      rw [List.getElem?_eq_none (by omega : adv.length ≤ t + 1)]
      simp
    · simp only [continues, hget t ht, id, Bool.not_eq_false'] at h3
      rw [h3]
      simp [mask]
  · intro t ht h
    rw [hlen] at ht
    simp only [hrec t ht, Option.getD_some]
    have h3 := continues_of_lt_epLast id el (k := t) (l := t + 1) (by omega) (by omega) (by omega)
    simp only [continues, hget t ht, id, Bool.not_eq_true'] at h3
    rw [h3]
    simp [mask]

theorem roll_map_range (n : Nat) (f : Nat → R) :
    roll ((List.range n).map f) = (List.range n).map fun k => f (if k = 0 then n - 1 else k - 1) := by
  cases n with
  | zero => rfl
  | succ n =>
    have hne : (List.range (n + 1)).map f ≠ [] := by simp
    have h1 : ∀ l : List R, (h : l ≠ []) → roll l = l.getLast h :: l.dropLast := by
      intro l h
      cases l with
      | nil => exact absurd rfl h
      | cons x l => rfl
    rw [h1 _ hne]
    apply List.ext_getElem?
    intro k
    cases k with
    | zero => simp [List.getLast_eq_getElem]
    | succ k =>
      rw [List.getElem?_cons_succ, List.getElem?_dropLast]
      simp only [List.length_map, List.length_range, Nat.add_sub_cancel, List.getElem?_map]
      by_cases hk : k < n
      · rw [if_pos hk, List.getElem?_range (by omega), List.getElem?_range (by omega)]
        simp
      · rw [if_neg hk, List.getElem?_eq_none (by simp; omega)]
        rfl


theorem gammaBuffer_eq (gamma : R) (n : Nat) : gammaBuffer gamma n = gamma ^ n := by
  induction n with
  | zero => simp [gammaBuffer]
  | succ n ih => rw [gammaBuffer, ih, pow_succ]

theorem stackedColumn_length (next : Nat → Nat) (i n : Nat) : (stackedColumn next i n).length = n + 1 := by
  induction n generalizing i with
  | zero => rfl
  | succ n ih => simp [stackedColumn, ih]

theorem stackedColumn_getElem? (next : Nat → Nat) (i n j : Nat) (hj : j ≤ n) :
    (stackedColumn next i n)[j]? = some (next^[j] i) := by
  induction n generalizing i j with
  | zero =>
    have : j = 0 := by omega
    subst this; rfl
  | succ n ih =>
    cases j with
    | zero => rfl
    | succ j =>
      rw [stackedColumn, List.getElem?_cons_succ, ih _ _ (by omega)]
      rfl

/-- The loop on a column whose entries are `p 0, p 1, …`, with the first end flag at position `E`. -/
theorem nstepLoop_spec (rew : Nat → R) (endFlag : Nat → Bool) (gamma : R) (N A : Nat) (p : Nat → Nat) (E : Nat)
    (hE : ∀ j < E, endFlag (p j) = false) (hend : endFlag (p E) = true) (n : Nat) (col : List Nat)
    (hn : n ≤ E) (hN : n + col.length = N) (hcol : ∀ j, j < col.length → col[j]? = some (p (n + j))) :
    nstepLoop rew endFlag gamma N A n col = (min N (E + 1),
      List.replicate A (∑ j ∈ Finset.range (min N (E + 1) - n), gamma ^ j * rew (p (n + j)))) := by
  induction col generalizing n with
  | nil =>
    simp only [List.length_nil, Nat.add_zero] at hN
    have h1 : min N (E + 1) = N := by omega
    rw [h1, ← hN]
    simp [nstepLoop]
  | cons now rest ih =>
    have h0 := hcol 0 (by simp)
    simp only [List.getElem?_cons_zero, Nat.add_zero, Option.some.injEq] at h0
    simp only [List.length_cons] at hN
    rcases Nat.eq_or_lt_of_le hn with h | h
    · -- the end of the episode
      subst h
      have hA : ∀ (n : Nat) (col : List Nat), (nstepLoop rew endFlag gamma N A n col).2.length = A := by
        intro n col
        induction col generalizing n with
        | nil => simp [nstepLoop]
        | cons now rest ih =>
          simp only [nstepLoop]
          split <;> simp [ih]
      have h1 : min N (n + 1) = n + 1 := by omega
      simp only [nstepLoop, h0, hend, if_true, h1, Nat.add_sub_cancel_left, Finset.sum_range_one, pow_zero, one_mul,
        Nat.add_zero, Prod.mk.injEq, true_and, List.map_map]
      rw [List.eq_replicate_iff]
      constructor
      · simp [hA]
      · intro b hb
        rw [List.mem_map] at hb
        obtain ⟨x, _, rfl⟩ := hb
        simp
    · have hrest := ih (n + 1) (by omega) (by omega) (by
        intro j hj
        have := hcol (j + 1) (by simp; omega)
        rw [List.getElem?_cons_succ] at this
        rw [this, show n + 1 + j = n + (j + 1) by omega])
      have h1 : min N (E + 1) - n = min N (E + 1) - (n + 1) + 1 := by omega
      simp only [nstepLoop, h0, hE n h, hrest, Bool.false_eq_true, if_false, List.map_replicate, h1]
      congr 2
      rw [Finset.sum_range_succ', Finset.mul_sum, add_comm]
      simp only [pow_zero, one_mul, Nat.add_zero]
      congr 1
      apply Finset.sum_congr rfl
      intro j _
      rw [pow_succ, show n + 1 + j = n + (j + 1) by omega]
      ring

theorem iterate_fix (next : Nat → Nat) (i E j : Nat) (hfix : next (next^[E] i) = next^[E] i) (hj : E ≤ j) :
    next^[j] i = next^[E] i := by
  induction j with
  | zero => rw [show E = 0 by omega]
  | succ j ih =>
    rcases Nat.eq_or_lt_of_le hj with h | h
    · rw [h]
    · rw [Function.iterate_succ_apply', ih (by omega), hfix]

theorem zipWith_getElem_some {α β γ : Type} (f : α → β → γ) (l : List α) (l' : List β) (k : Nat) (a : α) (b : β)
    (h1 : l[k]? = some a) (h2 : l'[k]? = some b) : (List.zipWith f l l')[k]? = some (f a b) := by
  rw [List.getElem?_zipWith, h1, h2]

/-- `compute_nstep_return` for an index from which `next` reaches the end of its episode after `E` steps. -/
theorem computeNstepReturn_spec (w : View R) (indices : List Nat) (targetQ : List Nat → List (List R)) (gamma : R)
    (N : Nat) (hN : 0 < N) (E : Nat → Nat)
    (hE : ∀ i ∈ indices, (∀ j < E i, (w.done (w.next^[j] i) || w.unfinished.contains (w.next^[j] i)) = false) ∧
      (w.done (w.next^[E i] i) || w.unfinished.contains (w.next^[E i] i)) = true ∧
      w.next (w.next^[E i] i) = w.next^[E i] i)
    (after : List Nat) (hafter : after = indices.map fun i => w.next^[min N (E i + 1) - 1] i)
    (hQ : (targetQ after).length = indices.length) :
    ∃ out, computeNstepReturn w indices.length indices targetQ gamma N = some out ∧
      out.length = indices.length ∧
      ∀ (p i : Nat) (q : List R), indices[p]? = some i → (targetQ after)[p]? = some q →
        out[p]? = some (q.map fun x =>
          (∑ j ∈ Finset.range (min N (E i + 1)), gamma ^ j * w.rew (w.next^[j] i)) +
            gamma ^ (min N (E i + 1)) *
              (if w.terminated (w.next^[min N (E i + 1) - 1] i) then 0 else x)) := by
  have hlast : ∀ i ∈ indices, (stackedColumn w.next i (N - 1)).getLastD 0 = w.next^[min N (E i + 1) - 1] i := by
    intro i hi
    rw [List.getLastD_eq_getLast?, List.getLast?_eq_getElem?, stackedColumn_length, Nat.add_sub_cancel,
      stackedColumn_getElem? _ _ _ _ (le_refl _)]
    simp only [Option.getD_some]
    rcases Nat.lt_or_ge (E i) N with h | h
    · rw [show min N (E i + 1) - 1 = E i by omega]
      exact iterate_fix _ _ _ _ (hE i hi).2.2 (by omega)
    · rw [show min N (E i + 1) - 1 = N - 1 by omega]
  have haf : ((indices.map fun i => stackedColumn w.next i (N - 1)).map fun col => col.getLastD 0) = after := by
    rw [hafter, List.map_map]
    apply List.map_congr_left
    intro i hi
    exact hlast i hi
  have hal : after.length = indices.length := by rw [hafter]; simp
  unfold computeNstepReturn
  simp only [ne_eq, not_true_eq_false, if_false, haf]
  refine ⟨_, rfl, ?_, ?_⟩
  · simp [valueMask, hQ, hal]
  · intro p i q hp hq
    have hi : i ∈ indices := List.mem_of_getElem? hp
    have ha : after[p]? = some (w.next^[min N (E i + 1) - 1] i) := by rw [hafter, List.getElem?_map, hp]; rfl
    rw [zipWith_getElem_some _ _ _ p (stackedColumn w.next i (N - 1))
      (q.map (mask (!w.terminated (w.next^[min N (E i + 1) - 1] i)))) (by rw [List.getElem?_map, hp]; rfl)
      (zipWith_getElem_some _ _ _ p (!w.terminated (w.next^[min N (E i + 1) - 1] i)) q
        (by rw [valueMask, List.getElem?_map, ha]; rfl) hq)]
    rw [List.take_of_length_le (by rw [stackedColumn_length]; omega)]
    rw [nstepLoop_spec w.rew _ gamma N _ (fun j => w.next^[j] i) (E i) (hE i hi).1 (hE i hi).2.1 0 _ (by omega)
      (by rw [stackedColumn_length]; omega) (by
        intro j hj
        rw [stackedColumn_length] at hj
        rw [stackedColumn_getElem? _ _ _ _ (by omega), Nat.zero_add])]
    simp only [gammaBuffer_eq, Nat.sub_zero, Nat.zero_add, Option.some.injEq]
    apply List.ext_getElem?
    intro k
    rw [List.getElem?_zipWith, List.getElem?_map, List.getElem?_map, List.getElem?_replicate, List.length_map]
    cases hk : q[k]? with
    | none => simp
    | some x =>
      have : k < q.length := (List.getElem?_eq_some_iff.mp hk).1
      simp only [Option.map_some, this, if_true, Option.some.injEq]
      cases w.terminated (w.next^[min N (E i + 1) - 1] i) <;> simp [mask] <;> ring

/-! ### Return-to-go -/

theorem mcReturnToGo_spec (gamma : R) (rew : List R) (hne : rew ≠ []) :
    ∃ l, mcReturnToGo gamma rew = some l ∧ l.length = rew.length ∧ ∀ t, t < rew.length →
      l[t]? = some (∑ k ∈ Finset.range (rew.length - t), gamma ^ k * (rew[t + k]?).getD 0) := by
  induction rew with
  | nil => exact absurd rfl hne
  | cons r rest ih =>
    cases rest with
    | nil =>
      refine ⟨[r], rfl, rfl, ?_⟩
      intro t ht
      have : t = 0 := by simpa using ht
      subst this
      simp
    | cons r' rest =>
      obtain ⟨l, h1, h2, h3⟩ := ih (by simp)
      cases l with
      | nil => simp at h2
      | cons x xs =>
        refine ⟨(r + gamma * x) :: x :: xs, ?_, by simp at h2 ⊢; omega, ?_⟩
        · simp only [mcReturnToGo]
          rw [h1]
        · intro t ht
          cases t with
          | zero =>
            have h0 := h3 0 (by simp)
            simp only [List.getElem?_cons_zero, Option.some.injEq, Nat.zero_add, Nat.sub_zero] at h0
            simp only [List.getElem?_cons_zero, Option.some.injEq, Nat.zero_add, Nat.sub_zero]
            rw [List.length_cons, Finset.sum_range_succ']
            simp only [List.getElem?_cons_succ, List.getElem?_cons_zero, pow_zero, Option.getD_some, one_mul]
            rw [h0, Finset.mul_sum, add_comm]
            congr 1
            apply Finset.sum_congr rfl
            intro k _
            rw [pow_succ]
            ring
          | succ t =>
            have h0 := h3 t (by simp at ht ⊢; omega)
            rw [List.getElem?_cons_succ, h0]
            rw [show (r :: r' :: rest).length - (t + 1) = (r' :: rest).length - t by simp]
            congr 1
            apply Finset.sum_congr rfl
            intro k _
            rw [show t + 1 + k = (t + k) + 1 by omega, List.getElem?_cons_succ]

end Verif.Returns
