import Verif.Model.FromData
import Verif.Props.Buffer

/-! Property C181: buffers made from datasets. -/

namespace Verif.Buffer

variable {O A R : Type} [AddCommMonoid R]

/-- Row `i` of the dataset ends an episode. -/
def endsAt (rows : List (Trans O A R)) (i : Nat) : Prop := ∃ t, rows[i]? = some t ∧ (t.terminated = true ∨ t.truncated = true)

/-- In a buffer made from datasets `prev` and `next` move to the neighbouring row inside the episode and stay at its ends. -/
def C181 : Prop :=
  ∀ (rows : List (Trans Nat Nat Int)) (i : Nat), i < rows.length →
    (0 < i → ¬ endsAt rows (i - 1) → (Buf.fromData rows).prev i = i - 1) ∧
    (i = 0 ∨ endsAt rows (i - 1) → (Buf.fromData rows).prev i = i) ∧
    (i + 1 < rows.length → ¬ endsAt rows i → (Buf.fromData rows).next i = i + 1) ∧
    (i + 1 = rows.length ∨ endsAt rows i → (Buf.fromData rows).next i = i)

theorem fromData_done (rows : List (Trans O A R)) (i : Nat) : doneAt (Buf.fromData rows).data i = true ↔ endsAt rows i := by
  unfold Buf.fromData endsAt doneAt
  by_cases h : rows.length = 0
  · rw [if_pos h, List.eq_nil_of_length_eq_zero h]
    simp [Buf.new]
  · rw [if_neg h]
    cases hr : rows[i]? with
    | none => simp [hr]
    | some t => simp [hr, Trans.done]

theorem fromData_idx (rows : List (Trans O A R)) : (Buf.fromData rows).idx.size = rows.length ∧ (Buf.fromData rows).idx.last = 0 ∧
    (Buf.fromData rows).idx.ins = 0 ∧ (Buf.fromData rows).opts = {} := by
  unfold Buf.fromData
  by_cases h : rows.length = 0
  · rw [if_pos h]
    simp [Buf.new, Idx.new, h]
  · rw [if_neg h]
    simp [Buf.new, Idx.new]

/-- The buffer is full and has all rows, in order. -/
theorem C181_rows (rows : List (Trans O A R)) (rng : Nat → Nat) : (Buf.fromData rows).len = rows.length ∧
    (Buf.fromData rows).idx.maxsize = rows.length ∧
    (Buf.fromData rows).sampleIndices rng (some 0) = .ok (List.range rows.length) ∧
    ∀ i, (Buf.fromData rows).data i = rows[i]? := by
  obtain ⟨h1, h2, h3, h4⟩ := fromData_idx rows
  refine ⟨h1, by unfold Buf.fromData; split_ifs <;> simp [Buf.new, Idx.new], ?_, ?_⟩
  · unfold Buf.sampleIndices
    rw [if_pos (by rw [h4]; left; rfl)]
    simp [Idx.allIndices, h1, h3, arange]
  · intro i
    unfold Buf.fromData
    by_cases h : rows.length = 0
    · rw [if_pos h, List.eq_nil_of_length_eq_zero h]
      simp [Buf.new]
    · rw [if_neg h]

open Classical in
theorem fromData_prev (rows : List (Trans O A R)) (i : Nat) (hi : i < rows.length) :
    (0 < i → (¬ endsAt rows (i - 1) → i ≠ 1 → (Buf.fromData rows).prev i = i - 1) ∧
      (endsAt rows (i - 1) ∨ i = 1 → (Buf.fromData rows).prev i = i)) ∧
    (i = 0 → (Buf.fromData rows).prev i = if endsAt rows (rows.length - 1) ∨ rows.length = 1 then 0 else rows.length - 1) := by
  obtain ⟨h1, h2, _⟩ := fromData_idx rows
  unfold Buf.prev
  simp only [h1, h2]
  refine ⟨?_, ?_⟩
  · intro hpos
    have hm : (((i : Int) - 1) % (rows.length : Int)).toNat = i - 1 := by
      rw [Int.emod_eq_of_lt (by omega) (by omega)]; omega
    rw [hm]
    refine ⟨?_, ?_⟩
    · intro he hne
      have : doneAt (Buf.fromData rows).data (i - 1) = false := by
        rw [← Bool.not_eq_true, fromData_done]; exact he
      have h0 : (i - 1 == 0) = false := by simp; omega
      rw [this, h0]
      simp only [Bool.or_self, Bool.toNat_false, Nat.add_zero]
      exact Nat.mod_eq_of_lt (by omega)
    · intro he
      have : (doneAt (Buf.fromData rows).data (i - 1) || (i - 1 == 0)) = true := by
        rcases he with he | he
        · rw [(fromData_done rows _).mpr he]; rfl
        · subst he; simp
      rw [this]
      simp only [Bool.toNat_true]
      rw [show i - 1 + 1 = i by omega]
      exact Nat.mod_eq_of_lt hi
  · rintro rfl
    have hm : ((((0 : Nat) : Int) - 1) % (rows.length : Int)).toNat = rows.length - 1 := by
      have : (((0 : Nat) : Int) - 1) % (rows.length : Int) = rows.length - 1 := by
        rw [show (((0 : Nat) : Int) - 1) = ((rows.length : Int) - 1) + (rows.length : Int) * (-1) by ring,
          Int.add_mul_emod_self_left, Int.emod_eq_of_lt (by omega) (by omega)]
      rw [this]
      omega
    rw [hm]
    by_cases he : endsAt rows (rows.length - 1) ∨ rows.length = 1
    · rw [if_pos he]
      have : (doneAt (Buf.fromData rows).data (rows.length - 1) || (rows.length - 1 == 0)) = true := by
        rcases he with he | he
        · rw [(fromData_done rows _).mpr he]; rfl
        · rw [he]; simp
      rw [this]
      simp only [Bool.toNat_true]
      rw [show rows.length - 1 + 1 = rows.length by omega, Nat.mod_self]
    · rw [if_neg he]
      rw [not_or] at he
      have : doneAt (Buf.fromData rows).data (rows.length - 1) = false := by
        rw [← Bool.not_eq_true, fromData_done]; exact he.1
      have h0 : (rows.length - 1 == 0) = false := by simp; omega
      rw [this, h0]
      simp only [Bool.or_self, Bool.toNat_false, Nat.add_zero]
      exact Nat.mod_eq_of_lt (by omega)

theorem fromData_next (rows : List (Trans O A R)) (i : Nat) (hi : i < rows.length) :
    (endsAt rows i ∨ i = 0 → (Buf.fromData rows).next i = i) ∧
    (¬ endsAt rows i → i ≠ 0 → (Buf.fromData rows).next i = if i + 1 = rows.length then 0 else i + 1) := by
  obtain ⟨h1, h2, _⟩ := fromData_idx rows
  unfold Buf.next
  simp only [h1, h2]
  refine ⟨?_, ?_⟩
  · intro he
    have : (doneAt (Buf.fromData rows).data i || (i == 0)) = true := by
      rcases he with he | he
      · rw [(fromData_done rows _).mpr he]; rfl
      · subst he; simp
    rw [this]
    simp only [Bool.toNat_true, Nat.sub_self, Nat.add_zero]
    exact Nat.mod_eq_of_lt hi
  · intro he hne
    have : doneAt (Buf.fromData rows).data i = false := by
      rw [← Bool.not_eq_true, fromData_done]; exact he
    have h0 : (i == 0) = false := by simpa using hne
    rw [this, h0]
    simp only [Bool.or_self, Bool.toNat_false, Nat.sub_zero]
    by_cases hl : i + 1 = rows.length
    · rw [if_pos hl, hl, Nat.mod_self]
    · rw [if_neg hl]
      exact Nat.mod_eq_of_lt (by omega)

/-- In the first episode of more than one step, `next` does not leave row 0 and `prev` does not return to it. -/
theorem C181_first_violated (rows : List (Trans O A R)) (h : 1 < rows.length) :
    (Buf.fromData rows).next 0 = 0 ∧ (Buf.fromData rows).prev 1 = 1 :=
  ⟨(fromData_next rows 0 (by omega)).1 (Or.inr rfl), ((fromData_prev rows 1 h).1 (by omega)).2 (Or.inr rfl)⟩

/-- If the dataset does not end with the end of an episode, the last row is followed by the first, and the first preceded by
the last. -/
theorem C181_wrap_violated (rows : List (Trans O A R)) (h : 1 < rows.length) (he : ¬ endsAt rows (rows.length - 1)) :
    (Buf.fromData rows).next (rows.length - 1) = 0 ∧ (Buf.fromData rows).prev 0 = rows.length - 1 := by
  refine ⟨?_, ?_⟩
  · rw [(fromData_next rows (rows.length - 1) (by omega)).2 he (by omega), if_pos (by omega)]
  · rw [(fromData_prev rows 0 (by omega)).2 rfl, if_neg (by rw [not_or]; exact ⟨he, by omega⟩)]

theorem C181_violated : ¬ C181 := by
  intro h
  have h1 := (h [tr 10 false false, tr 11 true false] 0 (by decide)).2.2.1 (by decide)
    (by rintro ⟨t, ht, h⟩; simp only [List.getElem?_cons_zero, Option.some.injEq] at ht; subst ht; simp [tr] at h)
  rw [(C181_first_violated [tr 10 false false, tr 11 true false] (by decide)).1] at h1
  cases h1

/-- If the first row and the last row of the dataset both end an episode, `prev` and `next` are right everywhere. -/
theorem C181_partial (rows : List (Trans O A R)) (i : Nat) (hi : i < rows.length) (h0 : endsAt rows 0)
    (hl : endsAt rows (rows.length - 1)) :
    (0 < i → ¬ endsAt rows (i - 1) → (Buf.fromData rows).prev i = i - 1) ∧
    (i = 0 ∨ endsAt rows (i - 1) → (Buf.fromData rows).prev i = i) ∧
    (i + 1 < rows.length → ¬ endsAt rows i → (Buf.fromData rows).next i = i + 1) ∧
    (i + 1 = rows.length ∨ endsAt rows i → (Buf.fromData rows).next i = i) := by
  obtain ⟨p1, p2⟩ := fromData_prev rows i hi
  obtain ⟨n1, n2⟩ := fromData_next rows i hi
  refine ⟨?_, ?_, ?_, ?_⟩
  · intro hpos he
    refine (p1 hpos).1 he ?_
    rintro rfl
    exact he h0
  · rintro (rfl | he)
    · rw [p2 rfl, if_pos (Or.inl hl)]
    · by_cases hz : i = 0
      · subst hz; rw [p2 rfl, if_pos (Or.inl hl)]
      · exact (p1 (by omega)).2 (Or.inl he)
  · intro hlt he
    rw [n2 he (by rintro rfl; exact he h0), if_neg (by omega)]
  · rintro (h | he)
    · exact n1 (Or.inl (by rw [show i = rows.length - 1 by omega]; exact hl))
    · exact n1 (Or.inl he)

/-- Without these conditions: right for all rows but the first, the second and the last. -/
theorem C181_inner_partial (rows : List (Trans O A R)) (i : Nat) (hi : i + 1 < rows.length) (h2 : 2 ≤ i) :
    (¬ endsAt rows (i - 1) → (Buf.fromData rows).prev i = i - 1) ∧ (endsAt rows (i - 1) → (Buf.fromData rows).prev i = i) ∧
    (¬ endsAt rows i → (Buf.fromData rows).next i = i + 1) ∧ (endsAt rows i → (Buf.fromData rows).next i = i) := by
  obtain ⟨p1, _⟩ := fromData_prev rows i (by omega)
  obtain ⟨n1, n2⟩ := fromData_next rows i (by omega)
  exact ⟨fun he => (p1 (by omega)).1 he (by omega), fun he => (p1 (by omega)).2 (Or.inl he),
    fun he => by rw [n2 he (by omega), if_neg (by omega)], fun he => n1 (Or.inl he)⟩

example : (List.range 5).map (Buf.fromData exTrans).next = [0, 1, 3, 4, 0] := by decide
example : (List.range 5).map (Buf.fromData exTrans).prev = [4, 1, 2, 2, 3] := by decide
example : endsAt [tr 10 true false, tr 20 false false, tr 21 false true] 0 := ⟨_, rfl, Or.inl rfl⟩
example : endsAt [tr 10 true false, tr 20 false false, tr 21 false true] 2 := ⟨_, rfl, Or.inr rfl⟩

end Verif.Buffer
