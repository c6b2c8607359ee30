import Verif.Model.SampleDist
import Verif.Spec.SampleDist
import Verif.Spec.Manager
import Verif.Lemmas.ManagerReads
import Verif.Props.Manager
import Mathlib.Tactic.Linarith
import Mathlib.Tactic.FieldSimp
import Mathlib.Algebra.Order.Field.Basic

/-! Lemmas about the draw of sub-buffers. -/

set_option linter.unusedSectionVars false

namespace Verif.Buffer

open Verif Verif.Spec

section choice

variable {K : Type} [Field K] [LinearOrder K] [IsStrictOrderedRing K]

theorem cumsum_eq (p : List K) (acc : K) :
    cumsum acc p = (List.range p.length).map fun i => acc + (p.take (i + 1)).sum := by
  induction p generalizing acc with
  | nil => rfl
  | cons x xs ih =>
    rw [cumsum, ih, List.length_cons, List.range_succ_eq_map, List.map_cons, List.map_map]
    simp [add_assoc, Function.comp_def]

theorem countP_mono (f : Nat → K) (hf : Monotone f) (u : K) (n b : Nat) (hb : b < n) (h0 : ∀ i, i < b → f i ≤ u)
    (h1 : u < f b) : ((List.range n).map f).countP (fun c => c ≤ u) = b := by
  rw [List.countP_map]
  have : List.range n = List.range b ++ (List.range (n - b)).map (b + ·) := by
    have := List.range_add (n := b) (m := n - b)
    rwa [Nat.add_sub_cancel' hb.le] at this
  rw [this, List.countP_append, List.countP_map]
  have e1 : (List.range b).countP ((fun c => decide (c ≤ u)) ∘ f) = b := by
    rw [List.countP_eq_length.mpr]
    · simp
    · intro i hi
      simpa using h0 i (List.mem_range.mp hi)
  have e2 : (List.range (n - b)).countP (((fun c => decide (c ≤ u)) ∘ f) ∘ fun x => b + x) = 0 := by
    rw [List.countP_eq_zero]
    intro i _
    simpa using h1.trans_le (hf (Nat.le_add_right b i))
  rw [e1, e2]
  rfl

/-- The sum of the first `b` weights as a fraction of all. -/
def part (ws : List Nat) (b : Nat) : K := ((ws.take b).sum : K) / (ws.sum : K)

theorem sum_map_div (ws : List Nat) (S : K) : (ws.map fun (x : Nat) => (x : K) / S).sum = (ws.sum : K) / S := by
  induction ws with
  | nil => simp
  | cons x xs ih => rw [List.map_cons, List.sum_cons, ih, List.sum_cons]; push_cast; ring

theorem part_mono (ws : List Nat) : Monotone (part (K := K) ws) := by
  intro a b hab
  unfold part
  apply div_le_div_of_nonneg_right
  · have : (ws.take a).sum ≤ (ws.take b).sum := by
      have e : ws.take a = (ws.take b).take a := by rw [List.take_take, min_eq_left hab]
      rw [e]
      have := (ws.take b).sum_take_add_sum_drop a
      omega
    exact_mod_cast this
  · exact Nat.cast_nonneg _

theorem part_all (ws : List Nat) (h : 0 < ws.sum) {b : Nat} (hb : ws.length ≤ b) : part (K := K) ws b = 1 := by
  unfold part
  rw [List.take_of_length_le hb, div_self]
  exact_mod_cast h.ne'

theorem part_succ (ws : List Nat) {b : Nat} (hb : b < ws.length) :
    part (K := K) ws (b + 1) = part ws b + (ws[b] : K) / (ws.sum : K) := by
  unfold part
  rw [List.take_succ_eq_append_getElem hb, List.sum_append]
  simp [add_div]

theorem choiceP_eq (ws : List Nat) (h : 0 < ws.sum) (u : K) (b : Nat) (h0 : part ws b ≤ u) (h1 : u < part ws (b + 1)) :
    choiceP (ws.map fun (x : Nat) => (x : K) / (ws.sum : K)) u = b := by
  have hb : b < ws.length := by
    by_contra hc
    rw [part_all ws h (by omega)] at h0
    rw [part_all ws h (by omega)] at h1
    exact absurd (h0.trans_lt h1) (lt_irrefl _)
  have hS : ((ws.sum : Nat) : K) ≠ 0 := by exact_mod_cast h.ne'
  unfold choiceP
  simp only
  set p : List K := ws.map fun (x : Nat) => (x : K) / (ws.sum : K) with hp
  have hlen : p.length = ws.length := by simp [hp]
  have hc : cumsum 0 p = (List.range ws.length).map fun i => part (K := K) ws (i + 1) := by
    rw [cumsum_eq, hlen]
    apply List.map_congr_left
    intro i _
    rw [zero_add, hp, ← List.map_take, sum_map_div]
    rfl
  have hl : (cumsum 0 p).getLastD 0 = 1 := by
    rw [hc]
    obtain ⟨m, hm⟩ : ∃ m, ws.length = m + 1 := ⟨ws.length - 1, by omega⟩
    rw [hm, List.range_succ, List.map_append, List.map_singleton, List.getLastD_concat]
    exact part_all ws h (by omega)
  rw [hl, hc]
  simp only [div_one, List.map_id']
  apply countP_mono (fun i => part (K := K) ws (i + 1)) (fun a c hac => part_mono ws (by omega)) u _ b hb _ h1
  intro i hi
  exact (part_mono ws (by omega)).trans h0

theorem exists_part (ws : List Nat) (h : 0 < ws.sum) (u : K) (hu0 : 0 ≤ u) (hu1 : u < 1) :
    ∃ b, b < ws.length ∧ part ws b ≤ u ∧ u < part ws (b + 1) := by
  classical
  have hex : ∃ b, u < part (K := K) ws (b + 1) := ⟨ws.length, by rw [part_all ws h (by omega)]; exact hu1⟩
  have h1 := Nat.find_spec hex
  have h0 : part (K := K) ws (Nat.find hex) ≤ u := by
    rcases Nat.eq_zero_or_pos (Nat.find hex) with hz | hz
    · rw [hz]; simpa [part] using hu0
    · have := Nat.find_min hex (m := Nat.find hex - 1) (by omega)
      rw [Nat.sub_add_cancel hz] at this
      exact not_lt.mp this
  refine ⟨Nat.find hex, ?_, h0, h1⟩
  by_contra hc
  rw [part_all ws h (by omega)] at h0
  exact absurd (hu1.trans_le h0) (lt_irrefl _)

/-- `u` in `[0, 1)` draws entry `b` exactly if it lies between the fractions before and after it. -/
theorem choiceP_iff (ws : List Nat) (h : 0 < ws.sum) (u : K) (hu0 : 0 ≤ u) (hu1 : u < 1) (b : Nat) :
    choiceP (ws.map fun (x : Nat) => (x : K) / (ws.sum : K)) u = b ↔ part ws b ≤ u ∧ u < part ws (b + 1) := by
  constructor
  · intro hb
    obtain ⟨b', _, h1, h2⟩ := exists_part ws h u hu0 hu1
    have := choiceP_eq ws h u b' h1 h2
    rw [hb] at this
    subst this
    exact ⟨h1, h2⟩
  · rintro ⟨h1, h2⟩
    exact choiceP_eq ws h u b h1 h2

theorem choiceP_lt (ws : List Nat) (h : 0 < ws.sum) (u : K) (hu0 : 0 ≤ u) (hu1 : u < 1) :
    ∃ (hb : choiceP (ws.map fun (x : Nat) => (x : K) / (ws.sum : K)) u < ws.length),
      0 < ws[choiceP (ws.map fun (x : Nat) => (x : K) / (ws.sum : K)) u] := by
  obtain ⟨b, hb, h1, h2⟩ := exists_part ws h u hu0 hu1
  have e := choiceP_eq ws h u b h1 h2
  rw [part_succ ws hb] at h2
  have hw : 0 < ws[b] := by
    by_contra hc
    have : ws[b] = 0 := by omega
    rw [this] at h2
    simp at h2
    exact absurd (h1.trans_lt h2) (lt_irrefl _)
  simp only [e]
  exact ⟨hb, hw⟩

end choice

variable {O A R : Type} [AddCommMonoid R] {K : Type} [Field K] [LinearOrder K] [IsStrictOrderedRing K]

theorem Reach.lengths {m : Mgr O A R} {sep : List (Buf O A R)} (h : Reach m sep) :
    m.subs.map Sub.length = sep.map Buf.len := by
  apply List.ext_getElem?
  intro b
  rw [List.getElem?_map, List.getElem?_map]
  cases hb : m.subs[b]? with
  | none =>
    have : sep[b]? = none := by
      rw [List.getElem?_eq_none_iff] at hb ⊢
      rw [← h.inv.sub_length]; exact hb
    rw [this]; rfl
  | some s =>
    rw [h.inv.get hb, Option.map_some, Option.map_some, h.inv.length s (List.mem_of_getElem? hb)]
    rfl

/-- How many of the first `n` draws fall on sub-buffer `b`. -/
def drawn (ws : List Nat) (u : Nat → K) (n b : Nat) : Nat :=
  ((List.range n).map fun k => choiceP (ws.map fun (x : Nat) => (x : K) / (ws.sum : K)) (u k)).count b

theorem arange_zero_getD (n i : Nat) (h : i < n) : (arange 0 n).getD i 0 = i := by
  simp [arange, List.getD_eq_getElem?_getD, h]

/-- What `sample_indices(n)` returns, in terms of the draws. -/
theorem Reach.sampleWith_eq {m : Mgr O A R} {sep : List (Buf O A R)} (h : Reach m sep)
    (hm : m.opts.stackNum = 1 ∨ m.opts.sampleAvail = false) (u : Nat → K) (hu : ∀ k, 0 ≤ u k ∧ u k < 1)
    (draw : Nat → Nat) (rng : Nat → Nat → Nat) (n : Nat) (hn : 0 < n) (hlen : 0 < m.len) :
    m.sampleWith u draw rng (some n) = .ok (((List.range sep.length).map fun b =>
      ((List.range (drawn (sep.map Buf.len) u n b)).map fun k => rng b k % (sep.map Buf.len).getD b 0).map
        (· + startOf sep b)).flatten) := by
  have hsum : 0 < (sep.map Buf.len).sum := by rw [← h.lengths]; exact hlen
  unfold Mgr.sampleWith
  rw [if_neg (by simp), if_neg (by rcases hm with hm | hm <;> simp [hm]), if_neg (by simp; omega)]
  simp only [Option.getD_some, Int.toNat_natCast]
  rw [h.lengths, if_neg (by omega)]
  apply h.inv.concatSamples
  intro b c hc
  have hopts : c.opts = m.opts := by
    obtain ⟨s, hs, rfl⟩ := h.inv.get' hc
    rfl
  have hcl : (sep.map Buf.len).getD b 0 = c.len := by
    simp [List.getD_eq_getElem?_getD, hc]
  unfold Buf.sampleIndices
  rw [if_pos (by rw [hopts]; rcases hm with hm | hm <;> simp [hm]), hcl]
  simp only [Option.getD_some]
  obtain ⟨d, hd⟩ : ∃ d, d = drawn (sep.map Buf.len) u n b := ⟨_, rfl⟩
  have hd' : ((List.range n).map fun k =>
      choiceP ((sep.map Buf.len).map fun (x : Nat) => (x : K) / ((sep.map Buf.len).sum : K)) (u k)).count b = d := hd.symm
  rw [hd', ← hd]
  by_cases h0 : d = 0
  · subst h0; simp
  · have hpos : 0 < c.len := by
      have : b ∈ (List.range n).map fun k => choiceP ((sep.map Buf.len).map fun (x : Nat) => (x : K) / ((sep.map Buf.len).sum : K)) (u k) :=
        List.count_pos_iff.mp (by omega)
      obtain ⟨k, _, hk⟩ := List.mem_map.mp this
      obtain ⟨hb, hw⟩ := choiceP_lt (sep.map Buf.len) hsum (u k) (hu k).1 (hu k).2
      simp only [hk] at hb hw
      obtain ⟨hb', rfl⟩ := List.getElem?_eq_some_iff.mp hc
      simpa using hw
    rw [if_neg h0, if_pos (by omega), Int.toNat_natCast]
    change choice (rng b) (arange 0 c.len) d = _
    unfold choice
    have hal : (arange 0 c.len).length = c.len := by simp [arange]
    rw [if_neg (by rw [hal]; omega), hal]
    congr 1
    apply List.map_congr_left
    intro k _
    exact arange_zero_getD _ _ (Nat.mod_lt _ hpos)

/-- How often a live slot occurs in it. -/
theorem count_flatten_slot {sep : List (Buf O A R)} (f : Nat → List Nat) {b : Nat} {c : Buf O A R} (hc : sep[b]? = some c)
    (hf : ∀ (b' : Nat) (c' : Buf O A R), sep[b']? = some c' → ∀ i ∈ f b', i < c'.idx.maxsize) {i : Nat} (hi : i < c.idx.maxsize) :
    (((List.range sep.length).map fun b => (f b).map (· + startOf sep b)).flatten).count (i + startOf sep b) =
      (f b).count i := by
  have hlt : b < sep.length := (List.getElem?_eq_some_iff.mp hc).1
  rw [List.count_flatten, List.map_map]
  have : (List.range sep.length).map (List.count (i + startOf sep b) ∘ fun b => (f b).map (· + startOf sep b)) =
      (List.range sep.length).map fun b' => if b' = b then (f b).count i else 0 := by
    apply List.map_congr_left
    intro b' hb'
    have hb'' := List.mem_range.mp hb'
    simp only [Function.comp]
    by_cases he : b' = b
    · subst he
      rw [if_pos rfl]
      exact List.count_map_of_injective (f b') (· + startOf sep b') (fun x y hxy => by simpa using hxy) i
    · rw [if_neg he, List.count_eq_zero]
      intro hmem
      obtain ⟨j, hj, hje⟩ := List.mem_map.mp hmem
      have hc' := List.getElem?_eq_getElem hb''
      have hj' := hf b' _ hc' j hj
      rcases Nat.lt_or_ge b b' with hlt' | hge
      · have := startOf_mono sep hc hlt'
        omega
      · have := startOf_mono sep hc' (show b' < b by omega)
        omega
  rw [this]
  clear this
  generalize List.count i (f b) = x
  have : ∀ n, b < n → ((List.range n).map fun b' => if b' = b then x else 0).sum = x := by
    intro n
    induction n with
    | zero => intro h; omega
    | succ n ih =>
      intro h
      rw [List.range_succ, List.map_append, List.sum_append]
      by_cases hb : b = n
      · subst hb
        rw [List.sum_eq_zero]
        · simp
        · intro y hy
          obtain ⟨j, hj, rfl⟩ := List.mem_map.mp hy
          have := List.mem_range.mp hj
          rw [if_neg (by omega)]
      · rw [ih (by omega)]
        simp [Ne.symm hb]
  exact this _ hlt

end Verif.Buffer
