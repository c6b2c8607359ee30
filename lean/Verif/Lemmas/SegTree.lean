import Verif.Model.SegTree
import Mathlib.Algebra.BigOperators.Group.Finset.Basic
import Mathlib.Algebra.BigOperators.Intervals
import Mathlib.Algebra.Order.BigOperators.Group.Finset
import Mathlib.Tactic.Abel
import Mathlib.Tactic.Positivity
import Mathlib.Tactic.Ring
import Mathlib.Tactic.Linarith

namespace Verif.SegTree

open Finset

variable {R : Type}

/-! ### Bound -/

theorem growBound_spec (size b : Nat) (hb : ∃ d, b = 2 ^ d) :
    (∃ d, growBound size b = 2 ^ d) ∧ size ≤ growBound size b := by
  induction b using growBound.induct size with
  | case1 b h ih =>
    rw [growBound, if_pos h]
    obtain ⟨d, rfl⟩ := hb
    exact ih ⟨d + 1, by rw [pow_succ]⟩
  | case2 b h =>
    rw [growBound, if_neg h]
    obtain ⟨d, rfl⟩ := hb
    have : 0 < 2 ^ d := by positivity
    exact ⟨⟨d, rfl⟩, by omega⟩

/-! ### scatter -/

theorem scatter_of_not_mem (a : Nat → R) (l : List (Nat × R)) (i : Nat) (h : i ∉ l.map Prod.fst) :
    scatter a l i = a i := by
  induction l generalizing a with
  | nil => rfl
  | cons p rest ih =>
    obtain ⟨j, x⟩ := p
    simp only [List.map_cons, List.mem_cons, not_or] at h
    rw [scatter, ih _ h.2, Function.update_of_ne h.1]

theorem scatter_map_of_mem (a : Nat → R) (f : Nat → R) (l : List Nat) (i : Nat) (h : i ∈ l) :
    scatter a (l.map fun k => (k, f k)) i = f i := by
  induction l generalizing a with
  | nil => simp at h
  | cons j rest ih =>
    simp only [List.map_cons, scatter]
    by_cases hr : i ∈ rest
    · exact ih _ hr
    · have : i = j := by simpa [hr] using h
      subst this
      rw [scatter_of_not_mem]
      · simp
      · simpa using hr

/-! ### Well-formedness -/

/-- Internal node = sum of children. -/
def Node [Add R] (v : Nat → R) (k : Nat) : Prop := v k = v (2 * k) + v (2 * k + 1)

structure WF [Zero R] [Add R] (t : Tree R) : Prop where
  pow : ∃ d, t.bound = 2 ^ d
  le : t.size ≤ t.bound
  node : ∀ k, 1 ≤ k → k < t.bound → Node t.value k
  pad : ∀ i, t.size ≤ i → t.value (i + t.bound) = 0

theorem wf_init [Ring R] (size : Nat) : WF (init size : Tree R) where
  pow := (growBound_spec size 1 ⟨0, rfl⟩).1
  le := (growBound_spec size 1 ⟨0, rfl⟩).2
  node := by intro k _ _; simp [init, Node]
  pad := by intro i _; simp [init]

theorem div_pow_lt (i d : Nat) (h : i < 2 ^ (d + 1)) : i / 2 < 2 ^ d := by
  rw [pow_succ] at h; omega

theorem pullUp_spec [Add R] (v : Nat → R) (B : Nat) (d : Nat) (hd : 2 ^ d ≤ B) (index : List Nat)
    (hne : index ≠ [])
    (hlev : ∀ i ∈ index, 2 ^ d ≤ i ∧ i < 2 ^ (d + 1)) (first : Nat) (hf : first ∈ index)
    (hB : ∀ i ∈ index, i / 2 < B)
    (hv : ∀ k, 1 ≤ k → k < B → Node v k ∨ ∃ i ∈ index, ∃ j, 1 ≤ j ∧ i / 2 ^ j = k) :
    (∀ k, 1 ≤ k → k < B → Node (pullUp v first index) k) ∧
      (∀ k, B ≤ k → pullUp v first index k = v k) := by
  induction d generalizing v index first with
  | zero =>
    have h1 : first = 1 := by have := hlev first hf; simp at this; omega
    rw [pullUp, if_neg (by omega)]
    refine ⟨fun k hk hkB => ?_, fun _ _ => rfl⟩
    rcases hv k hk hkB with h | ⟨i, hi, j, hj, hij⟩
    · exact h
    · exfalso
      have := hlev i hi
      have hi1 : i = 1 := by simp at this; omega
      subst hi1
      have h2 : 1 < 2 ^ j := Nat.one_lt_two_pow (by omega)
      rw [Nat.div_eq_of_lt h2] at hij
      omega
  | succ d ih =>
    have hf1 : 1 < first := by
      have := (hlev first hf).1
      have h2 : 1 < 2 ^ (d + 1) := Nat.one_lt_two_pow (by omega)
      omega
    rw [pullUp, if_pos hf1]
    set index' := index.map (· / 2) with hidx
    set v' := scatter v (index'.map fun i => (i, v (i * 2) + v (i * 2 + 1))) with hv'
    have hlev' : ∀ i ∈ index', 2 ^ d ≤ i ∧ i < 2 ^ (d + 1) := by
      intro i hi
      simp only [hidx, List.mem_map] at hi
      obtain ⟨j, hj, rfl⟩ := hi
      have := hlev j hj
      rw [pow_succ] at this
      have h3 := this.2
      rw [pow_succ] at h3
      rw [pow_succ]
      omega
    have hB' : ∀ i ∈ index', i < B := by
      intro i hi
      simp only [hidx, List.mem_map] at hi
      obtain ⟨j, hj, rfl⟩ := hi
      exact hB j hj
    have hmem : ∀ k, k ∈ index' → v' k = v (2 * k) + v (2 * k + 1) := by
      intro k hk
      rw [hv', scatter_map_of_mem v (fun i => v (i * 2) + v (i * 2 + 1)) index' k hk, mul_comm]
    have hnot : ∀ k, k ∉ index' → v' k = v k := by
      intro k hk
      rw [hv', scatter_of_not_mem]
      simpa [Function.comp_def] using hk
    have hpos : 0 < 2 ^ d := by positivity
    have hch : ∀ k, k ∈ index' → 2 * k ∉ index' ∧ 2 * k + 1 ∉ index' := by
      intro k hk
      have h0 := hlev' k hk
      constructor <;> intro hc <;> have h1 := hlev' _ hc <;> rw [pow_succ] at h0 h1 <;> omega
    have key := ih v' (le_trans (Nat.pow_le_pow_right (by omega) (by omega)) hd) index'
      (by simpa [hidx] using hne) hlev' (first / 2)
      (by rw [hidx]; exact List.mem_map_of_mem hf)
      (fun i hi => by have := hB' i hi; omega)
      (by
        intro k hk hkB
        by_cases hki : k ∈ index'
        · left
          obtain ⟨h1, h2⟩ := hch k hki
          rw [Node, hmem k hki, hnot _ h1, hnot _ h2]
        · by_cases hc : 2 * k ∈ index' ∨ 2 * k + 1 ∈ index'
          · right
            rcases hc with hc | hc
            · exact ⟨_, hc, 1, le_refl _, by omega⟩
            · exact ⟨_, hc, 1, le_refl _, by omega⟩
          · simp only [not_or] at hc
            rcases hv k hk hkB with h | ⟨i, hi, j, hj, hij⟩
            · left
              rw [Node, hnot _ hki, hnot _ hc.1, hnot _ hc.2]; exact h
            · right
              rcases Nat.lt_or_ge j 2 with hj2 | hj2
              · exfalso
                apply hki
                have : j = 1 := by omega
                subst this
                rw [hidx, List.mem_map]
                exact ⟨i, hi, by simpa using hij⟩
              · refine ⟨i / 2, by rw [hidx]; exact List.mem_map_of_mem hi, j - 1, by omega, ?_⟩
                rw [Nat.div_div_eq_div_mul, ← pow_succ', Nat.sub_add_cancel hj]
                exact hij)
    refine ⟨key.1, fun k hk => ?_⟩
    rw [key.2 k hk]
    apply hnot
    intro hc
    have := hB' k hc
    omega

theorem setitem_spec [Ring R] (t t' : Tree R) (hw : WF t) (kv : List (Int × R))
    (h : setitem t kv = some t') :
    WF t' ∧ t'.size = t.size ∧
      ∀ i, getitem t' i = scatter (getitem t) (kv.map fun p => (p.1.toNat, p.2)) i := by
  unfold setitem at h
  split at h
  case isFalse => cases h
  case isTrue hb =>
  cases kv with
  | nil => simp [setitemRaw] at h
  | cons p rest =>
    obtain ⟨i0, x0⟩ := p
    rw [Option.map_eq_some_iff] at h
    obtain ⟨v, hv, rfl⟩ := h
    set kv := (i0, x0) :: rest with hkv
    simp only [hkv, List.map_cons, setitemRaw, Option.some.injEq] at hv
    set kvB := kv.map (fun p => (p.1.toNat + t.bound, p.2)) with hkvB
    have hbody : v = pullUp (scatter t.value kvB) (i0.toNat + t.bound) (kvB.map Prod.fst) := by
      rw [← hv]; simp [hkvB, hkv]
    obtain ⟨d, hd⟩ := hw.pow
    have hmemB : ∀ i ∈ kvB.map Prod.fst, t.bound ≤ i ∧ i < t.bound + t.size := by
      intro i hi
      simp only [hkvB, List.map_map, List.mem_map, Function.comp] at hi
      obtain ⟨q, hq, rfl⟩ := hi
      have h1 := hb.1 q hq
      have h2 := hb.2 q hq
      omega
    have hle := hw.le
    have hlt : ∀ k, k < t.bound → scatter t.value kvB k = t.value k := by
      intro k hk
      apply scatter_of_not_mem
      intro hc
      have := hmemB k hc
      omega
    have key := pullUp_spec (scatter t.value kvB) t.bound d (by omega) (kvB.map Prod.fst)
      (by simp [hkvB, hkv])
      (by intro i hi; have := hmemB i hi; rw [pow_succ]; omega)
      (i0.toNat + t.bound) (by simp [hkvB, hkv])
      (by intro i hi; have := hmemB i hi; omega)
      (by
        intro k hk hkB
        by_cases hc : 2 * k ∈ kvB.map Prod.fst ∨ 2 * k + 1 ∈ kvB.map Prod.fst
        · right
          rcases hc with hc | hc
          · exact ⟨_, hc, 1, le_refl _, by omega⟩
          · exact ⟨_, hc, 1, le_refl _, by omega⟩
        · left
          simp only [not_or] at hc
          rw [Node, hlt k hkB, scatter_of_not_mem _ _ _ hc.1, scatter_of_not_mem _ _ _ hc.2]
          exact hw.node k hk hkB)
    rw [← hbody] at key
    have hget : ∀ i, v (i + t.bound) =
        scatter (getitem t) (kv.map fun p => (p.1.toNat, p.2)) i := by
      intro i
      rw [key.2 _ (by omega)]
      have gen : ∀ (l : List (Int × R)) (a : Nat → R),
          scatter a (l.map fun p => (p.1.toNat + t.bound, p.2)) (i + t.bound) =
          scatter (fun i => a (i + t.bound)) (l.map fun p => (p.1.toNat, p.2)) i := by
        intro l
        induction l with
        | nil => intro a; rfl
        | cons q l ih =>
          intro a
          simp only [List.map_cons, scatter]
          rw [ih]
          congr 1
          funext k
          by_cases hk : k = q.1.toNat
          · subst hk; simp
          · rw [Function.update_of_ne hk, Function.update_of_ne (by omega)]
      exact gen kv t.value
    refine ⟨⟨⟨d, hd⟩, hle, key.1, ?_⟩, rfl, hget⟩
    intro i hi
    show v (i + t.bound) = 0
    rw [key.2 _ (by omega)]
    rw [scatter_of_not_mem _ _ _ (by
      intro hc; have := hmemB _ hc; simp only at hi; omega)]
    exact hw.pad i hi

/-! ### Sums -/

/-- Node prefix sums. -/
def P [AddCommMonoid R] (v : Nat → R) (n : Nat) : R := ∑ k ∈ range n, v k

theorem P_succ [Ring R] (v : Nat → R) (n : Nat) : P v (n + 1) = P v n + v n := by
  simp [P, sum_range_succ]

theorem P_double [Ring R] (v : Nat → R) (B : Nat) (hv : ∀ k, 1 ≤ k → k < B → Node v k)
    (n : Nat) (h1 : 1 ≤ n) (h2 : n ≤ B) : P v (2 * n) = P v n + v 1 := by
  induction n with
  | zero => omega
  | succ n ih =>
    rcases Nat.eq_zero_or_pos n with rfl | hn
    · simp [P, sum_range_succ]
    · have := ih hn (by omega)
      rw [show 2 * (n + 1) = 2 * n + 1 + 1 by ring, P_succ, P_succ, this, P_succ]
      have hN := hv n hn (by omega)
      rw [Node] at hN
      rw [add_assoc, ← hN]
      abel

theorem reduceLoop_spec [Ring R] (v : Nat → R) (B : Nat) (hv : ∀ k, 1 ≤ k → k < B → Node v k)
    (s e : Nat) (r : R) (he : e ≤ 2 * B) :
    reduceLoop v s e r = if s + 1 < e then r + (P v e - P v (s + 1)) else r := by
  induction s, e, r using reduceLoop.induct v with
  | case1 s e r h r1 s' r2 ih =>
    rw [reduceLoop, if_pos h, if_pos h]
    simp only
    have ih := ih (by omega)
    simp only [r1, r2, s', dite_eq_ite] at ih
    rw [ih]
    have hP : ∀ n, 1 ≤ n → n ≤ B → P v n = P v (2 * n) - v 1 := by
      intro n h1 h2; rw [P_double v B hv n h1 h2]; abel
    have hs' : s / 2 + 1 ≤ e / 2 := by omega
    have e1 : P v (e / 2) = P v (2 * (e / 2)) - v 1 := hP _ (by omega) (by omega)
    have e2 : P v (s / 2 + 1) = P v (2 * (s / 2 + 1)) - v 1 := hP _ (by omega) (by omega)
    have hrest : (if s / 2 + 1 < e / 2 then r2 + (P v (e / 2) - P v (s / 2 + 1)) else r2)
        = r2 + (P v (2 * (e / 2)) - P v (2 * (s / 2 + 1))) := by
      split
      · rw [e1, e2]; abel
      · have : s / 2 + 1 = e / 2 := by omega
        rw [this]; abel
    simp only [r1, r2, dite_eq_ite] at hrest
    rw [hrest]
    have hs : P v (2 * (s / 2 + 1)) = P v (s + 1) + (if s % 2 = 0 then v (s + 1) else 0) := by
      split
      · rw [show 2 * (s / 2 + 1) = s + 1 + 1 by omega, P_succ]
      · rw [show 2 * (s / 2 + 1) = s + 1 by omega]; abel
    have he2 : P v e = P v (2 * (e / 2)) + (if e % 2 = 1 then v (e - 1) else 0) := by
      split
      · rw [show e = (e - 1) + 1 by omega, P_succ, show 2 * ((e - 1 + 1) / 2) = e - 1 by omega]
        simp
      · rw [show 2 * (e / 2) = e by omega]; abel
    rw [hs, he2]
    split <;> split <;> abel
  | case2 s e r h =>
    rw [reduceLoop, if_neg h, if_neg h]

theorem P_bound [Ring R] (t : Tree R) (i : Nat) :
    P t.value (t.bound + i) = P t.value t.bound + ∑ j ∈ range i, getitem t j := by
  induction i with
  | zero => simp
  | succ i ih =>
    rw [← add_assoc, P_succ, ih, sum_range_succ, getitem, add_comm i t.bound]
    abel

theorem root_eq [Ring R] (t : Tree R) (hw : WF t) :
    t.value 1 = ∑ j ∈ range t.size, getitem t j := by
  obtain ⟨d, hd⟩ := hw.pow
  have hpos : 0 < 2 ^ d := by positivity
  have h2 := P_double t.value t.bound hw.node t.bound (by omega) (le_refl _)
  have h3 := P_bound t t.bound
  rw [two_mul, h3] at h2
  have h4 := add_left_cancel h2
  rw [← h4]
  symm
  apply sum_subset
  · intro j; simp only [mem_range]; have := hw.le; omega
  · intro j _ hj
    simp only [mem_range, not_lt] at hj
    exact hw.pad j hj

/-! ### Prefix-sum descent -/

section order
variable [CommRing R] [LinearOrder R] [IsStrictOrderedRing R]

/-- The scalar loop. -/
def descendN (sums : Nat → R) : Nat → Nat × R → Nat × R
  | 0, s => s
  | n + 1, s => descendN sums n (descend sums s)

theorem prefixLoop_eq (sums : Nat → R) (n e : Nat) (s : List (Nat × R))
    (h : ∀ p ∈ s, 2 ^ e ≤ p.1 ∧ p.1 < 2 ^ (e + 1)) :
    prefixLoop (2 ^ (e + n)) sums s = s.map (descendN sums n) := by
  induction n generalizing e s with
  | zero =>
    cases s with
    | nil => rw [prefixLoop]; rfl
    | cons p rest =>
      obtain ⟨f, v⟩ := p
      have := h (f, v) (by simp)
      simp only at this
      rw [prefixLoop, if_neg (by simp only [add_zero]; omega)]
      have hid : (descendN sums 0 : Nat × R → Nat × R) = id := by funext s; rfl
      rw [hid, List.map_id]
  | succ n ih =>
    cases s with
    | nil => rw [prefixLoop]; rfl
    | cons p rest =>
      obtain ⟨f, v⟩ := p
      have h0 := h (f, v) (by simp)
      simp only at h0
      have hle : 2 ^ (e + 1) ≤ 2 ^ (e + (n + 1)) := Nat.pow_le_pow_right (by omega) (by omega)
      have hpos : 0 < 2 ^ e := by positivity
      rw [prefixLoop, if_pos (by omega), ← List.map_cons, show e + (n + 1) = (e + 1) + n by omega,
        ih (e + 1)]
      · rw [List.map_map]; rfl
      · intro p hp
        rw [List.mem_map] at hp
        obtain ⟨q, hq, rfl⟩ := hp
        have hq := h q hq
        rw [pow_succ] at hq
        rw [pow_succ, pow_succ]
        simp only [descend]
        split <;> simp only <;> omega

/-- Invariant of the descent from the node `k` at level `e`: the residual is `w` minus everything left of
the node, it is at most the node's sum, and it is positive unless the descent follows the left edge. -/
theorem descendN_spec (v : Nat → R) (n e : Nat)
    (hv : ∀ k, 1 ≤ k → k < 2 ^ (e + n) → Node v k) (hnn : ∀ k, 1 ≤ k → 0 ≤ v k) (k : Nat) (x w : R)
    (hk : 2 ^ e ≤ k ∧ k < 2 ^ (e + 1)) (h1 : x ≤ v k)
    (h0 : (k = 2 ^ e ∧ x = 0) ∨ 0 < x) (hw : w = x + (P v k - P v (2 ^ e))) :
    (2 ^ (e + n) ≤ (descendN v n (k, x)).1 ∧ (descendN v n (k, x)).1 < 2 ^ (e + n + 1)) ∧
      (descendN v n (k, x)).2 ≤ v (descendN v n (k, x)).1 ∧
      (((descendN v n (k, x)).1 = 2 ^ (e + n) ∧ (descendN v n (k, x)).2 = 0) ∨
        0 < (descendN v n (k, x)).2) ∧
      w = (descendN v n (k, x)).2 + (P v (descendN v n (k, x)).1 - P v (2 ^ (e + n))) := by
  induction n generalizing e k x with
  | zero => exact ⟨hk, h1, h0, hw⟩
  | succ n ih =>
    have hpos : 0 < 2 ^ e := by positivity
    have hle : 2 ^ (e + 1) ≤ 2 ^ (e + (n + 1)) := Nat.pow_le_pow_right (by omega) (by omega)
    have hN := hv k (by omega) (by omega)
    rw [Node] at hN
    have hPk : P v (2 * k) = P v k + v 1 := P_double v _ hv k (by omega) (by omega)
    have hPe : P v (2 ^ (e + 1)) = P v (2 ^ e) + v 1 := by
      rw [pow_succ, mul_comm]
      exact P_double v _ hv _ (by omega) (by
        have : 2 ^ e ≤ 2 ^ (e + 1) := Nat.pow_le_pow_right (by omega) (by omega)
        omega)
    have hk2 := hk
    rw [pow_succ] at hk2
    have hrange : ∀ c, c ≤ 1 → 2 ^ (e + 1) ≤ 2 * k + c ∧ 2 * k + c < 2 ^ (e + 1 + 1) := by
      intro c hc; rw [pow_succ, pow_succ]; omega
    have heq : e + (n + 1) = e + 1 + n := by omega
    rw [heq] at hv ⊢
    by_cases hlt : v (2 * k) < x
    · have hd : descendN v (n + 1) (k, x) = descendN v n (2 * k + 1, x - v (2 * k)) := by
        simp only [descendN, descend, mul_comm k 2, if_pos hlt, mul_one]
      rw [hd]
      apply ih (e + 1) hv
      · exact hrange 1 (le_refl _)
      · rw [hN] at h1; linarith
      · right; linarith
      · rw [P_succ, hPk, hPe, hw]; abel
    · have hd : descendN v (n + 1) (k, x) = descendN v n (2 * k, x) := by
        simp only [descendN, descend, mul_comm k 2, if_neg hlt, mul_zero, sub_zero]
      rw [hd]
      apply ih (e + 1) hv
      · exact hrange 0 (by omega)
      · exact not_lt.mp hlt
      · rcases h0 with ⟨rfl, rfl⟩ | h
        · left; exact ⟨by rw [pow_succ, mul_comm], rfl⟩
        · right; exact h
      · rw [hPk, hPe, hw]; abel

theorem node_nonneg (t : Tree R) (hw : WF t) (hnn : ∀ i, i < t.size → 0 ≤ getitem t i) :
    ∀ k, 1 ≤ k → 0 ≤ t.value k := by
  have leaf : ∀ k, t.bound ≤ k → 0 ≤ t.value k := by
    intro k hk
    obtain ⟨i, rfl⟩ := Nat.exists_eq_add_of_le hk
    rw [add_comm]
    rcases Nat.lt_or_ge i t.size with h | h
    · exact hnn i h
    · rw [hw.pad i h]
  have gen : ∀ m k, t.bound - k ≤ m → 1 ≤ k → 0 ≤ t.value k := by
    intro m
    induction m with
    | zero => intro k h _; exact leaf k (by omega)
    | succ m ih =>
      intro k h hk
      rcases Nat.lt_or_ge k t.bound with h2 | h2
      · have := hw.node k hk h2
        rw [Node] at this
        rw [this]
        exact add_nonneg (ih _ (by omega) (by omega)) (ih _ (by omega) (by omega))
      · exact leaf k h2
  intro k hk
  exact gen _ k (le_refl _) hk

/-- Result and residual of the whole descent. -/
theorem descent_spec (t : Tree R) (hw : WF t) (hnn : ∀ i, i < t.size → 0 ≤ getitem t i)
    (d : Nat) (hd : t.bound = 2 ^ d) (w : R) (h0 : 0 ≤ w) (h1 : w < t.value 1) :
    ∃ i x, descendN t.value d (1, w) = (i + t.bound, x) ∧
      w = x + ∑ j ∈ range i, getitem t j ∧ x ≤ getitem t i ∧ ((i = 0 ∧ x = 0) ∨ 0 < x) := by
  have key := descendN_spec t.value d 0 (by rw [zero_add, ← hd]; exact hw.node)
    (node_nonneg t hw hnn) 1 w w (by simp) h1.le
    (by rcases h0.eq_or_lt with h | h
        · left; exact ⟨rfl, h.symm⟩
        · right; exact h) (by simp)
  rw [zero_add, ← hd] at key
  obtain ⟨hr, hx, hz, hs⟩ := key
  obtain ⟨i, hi⟩ := Nat.exists_eq_add_of_le hr.1
  have hi' : (descendN t.value d (1, w)).1 = i + t.bound := by omega
  refine ⟨i, (descendN t.value d (1, w)).2, ?_, ?_, ?_, ?_⟩
  · rw [← hi']
  · rw [hi, P_bound] at hs
    rw [add_sub_cancel_left] at hs
    exact hs
  · rw [hi'] at hx; exact hx
  · rcases hz with ⟨h, h'⟩ | h
    · left; exact ⟨by omega, h'⟩
    · right; exact h

end order

end Verif.SegTree
