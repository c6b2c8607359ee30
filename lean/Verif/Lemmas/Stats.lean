import Verif.Spec.Stats
import Mathlib.Algebra.Order.Field.Basic
import Mathlib.Algebra.Order.Ring.Abs
import Mathlib.Data.Nat.Cast.Order.Field
import Mathlib.Tactic.Linarith
import Mathlib.Tactic.FieldSimp
import Mathlib.Tactic.Ring
import Mathlib.Tactic.Positivity

namespace Verif.Stats

set_option linter.unusedSectionVars false

variable {F ι : Type} [Field F] [LinearOrder F] [IsStrictOrderedRing F]

theorem sum_sq_dev (l : List F) (c : F) :
    (l.map fun x => (x - c) ^ 2).sum = (l.map fun x => x ^ 2).sum - 2 * c * l.sum + (l.length : F) * c ^ 2 := by
  induction l with
  | nil => simp
  | cons x xs ih =>
    simp only [List.map_cons, List.sum_cons, ih, List.length_cons, Nat.cast_add, Nat.cast_one]
    ring

theorem cast_ne {n : Nat} (h : n ≠ 0) : (n : F) ≠ 0 := Nat.cast_ne_zero.2 h

theorem varOf_eq (l : List F) (h : l ≠ []) :
    varOf l = (l.map fun x => x ^ 2).sum / (l.length : F) - meanOf l ^ 2 := by
  have hn : (l.length : F) ≠ 0 := cast_ne (by simpa using h)
  rw [varOf, sum_sq_dev, meanOf]
  field_simp
  ring

theorem batchMean_eq (data : List (ι → F)) (i : ι) : batchMean data i = meanOf (data.map fun x => x i) := by
  simp [batchMean, meanOf]

theorem batchVar_eq (data : List (ι → F)) (i : ι) : batchVar data i = varOf (data.map fun x => x i) := by
  simp [batchVar, varOf, batchMean_eq, List.map_map, Function.comp_def]

/-- The statistics describe the data `seen`. -/
def Describes (s : RMS ι F) (seen : List (ι → F)) : Prop :=
  s.count = seen.length ∧ (seen ≠ [] → ∀ i, s.mean i = meanOf (seen.map fun x => x i) ∧
    s.var i = varOf (seen.map fun x => x i))

theorem describes_update (s : RMS ι F) (seen data : List (ι → F)) (hd : data ≠ []) (h : Describes s seen) :
    Describes (s.update data) (seen ++ data) := by
  obtain ⟨h1, h2⟩ := h
  refine ⟨by simp [RMS.update, h1], fun _ i => ?_⟩
  have hm : (data.length : F) ≠ 0 := cast_ne (by simpa using hd)
  have ht : ((seen.length + data.length : Nat) : F) ≠ 0 := by
    apply cast_ne
    have : data.length ≠ 0 := by simpa using hd
    omega
  have ht' : (seen.length : F) + (data.length : F) ≠ 0 := by rw [← Nat.cast_add]; exact ht
  have hne : (seen ++ data).map (fun x => x i) ≠ [] := by simp [hd]
  have hde : data.map (fun x => x i) ≠ [] := by simpa using hd
  rw [varOf_eq _ hne]
  simp only [RMS.update, batchMean_eq, batchVar_eq, h1, varOf_eq _ hde]
  rcases eq_or_ne seen [] with rfl | hs
  · simp only [meanOf, List.length_nil, Nat.cast_zero, List.nil_append, List.length_map, mul_zero,
      zero_mul, zero_div, add_zero, zero_add]
    constructor
    · field_simp; ring
    · field_simp
  · have hse : seen.map (fun x => x i) ≠ [] := by simpa using hs
    have hn : (seen.length : F) ≠ 0 := cast_ne (by simpa using hs)
    obtain ⟨e1, e2⟩ := h2 hs i
    rw [e1, e2, varOf_eq _ hse]
    simp only [meanOf, List.length_map, List.map_append, List.sum_append, List.length_append, Nat.cast_add]
    constructor
    · field_simp; ring
    · field_simp; ring

theorem describes_foldl (s : RMS ι F) (seen : List (ι → F)) (batches : List (List (ι → F)))
    (hb : ∀ b ∈ batches, b ≠ []) (h : Describes s seen) :
    Describes (batches.foldl RMS.update s) (seen ++ batches.flatten) := by
  induction batches generalizing s seen with
  | nil => simpa using h
  | cons b bs ih =>
    simp only [List.foldl_cons, List.flatten_cons, ← List.append_assoc]
    exact ih _ _ (fun b hb' => hb b (by simp [hb'])) (describes_update s seen b (hb b (by simp)) h)

/-- A `MovAvg` fed only with numbers the ban list recognises. -/
def fed (x : Num F) : Prop := x ≠ .nan false

theorem push_eq (m : MovAvg F) (xs : List (Num F)) (hx : ∀ x ∈ xs, fed x) :
    m.push xs = m.cache ++ (finite xs).map .fin := by
  induction xs generalizing m with
  | nil => simp [MovAvg.push, finite]
  | cons x xs ih =>
    have ih' := fun m => ih m fun x h => hx x (by simp [h])
    have h0 := hx x (by simp)
    cases x with
    | fin y => simp [MovAvg.push, banned, ih', finite]
    | inf => simp [MovAvg.push, banned, ih', finite]
    | ninf => simp [MovAvg.push, banned, ih', finite]
    | nan b =>
      cases b with
      | true => simp [MovAvg.push, banned, ih', finite]
      | false => exact absurd rfl h0

theorem finite_append (a b : List (Num F)) : finite (a ++ b) = finite a ++ finite b := by
  induction a with
  | nil => simp [finite]
  | cons x xs ih => cases x <;> simp [finite, ih]

/-- What is kept of the finite values. -/
def kept (size : Int) (l : List F) : List F := if size > 0 then lastN size.toNat l else l

theorem kept_append (size : Int) (l l' : List F) : kept size (kept size l ++ l') = kept size (l ++ l') := by
  unfold kept
  split_ifs with h
  · unfold lastN
    simp only [List.length_append, List.length_drop]
    by_cases hc : l.length ≤ size.toNat
    · have : l.length - size.toNat = 0 := by omega
      simp [this]
    · rw [show l.length - (l.length - size.toNat) = size.toNat by omega]
      rw [List.drop_append, List.drop_append, List.drop_drop]
      simp only [List.length_drop]
      congr 2 <;> omega
  · rfl

theorem add_cache (m : MovAvg F) (xs : List (Num F)) (l : List F) (hx : ∀ x ∈ xs, fed x)
    (hm : m.cache = (kept m.size l).map .fin) :
    (m.add xs).cache = (kept m.size (l ++ finite xs)).map .fin ∧ (m.add xs).size = m.size := by
  simp only [MovAvg.add, push_eq m xs hx, hm, ← List.map_append]
  split_ifs with hc
  · refine ⟨?_, rfl⟩
    simp only [List.length_map]
    rw [← kept_append]
    generalize kept m.size l ++ finite xs = r
    unfold kept lastN
    rw [if_pos hc.1, List.map_drop]
  · refine ⟨?_, rfl⟩
    simp only
    rw [← kept_append]
    generalize hr : kept m.size l ++ finite xs = r at hc
    unfold kept
    split_ifs with h
    · have : ¬ ((r.length : Int) > m.size) := fun h' => hc ⟨h, by simpa using h'⟩
      unfold lastN
      rw [show r.length - m.size.toNat = 0 by omega, List.drop_zero]
    · rfl

theorem adds_cache (m : MovAvg F) (l : List F) (adds : List (List (Num F)))
    (hx : ∀ a ∈ adds, ∀ x ∈ a, fed x) (hm : m.cache = (kept m.size l).map .fin) :
    (adds.foldl MovAvg.add m).cache = (kept m.size (l ++ finite adds.flatten)).map .fin := by
  induction adds generalizing m l with
  | nil => simpa [finite] using hm
  | cons a as ih =>
    obtain ⟨h1, h2⟩ := add_cache m a l (hx a (by simp)) hm
    rw [List.foldl_cons, ih (m.add a) (l ++ finite a) (fun b hb => hx b (by simp [hb])) (by rw [h2]; exact h1),
      h2, List.flatten_cons, finite_append, List.append_assoc]

theorem npMean_fin (l : List F) : npMean (l.map Num.fin) = .fin (meanOf l) := by
  have : ∀ l : List F, (l.map Num.fin).mapM Num.finite? = some l := by
    intro l
    induction l with
    | nil => rfl
    | cons x xs ih => simp [ih, Num.finite?]
  simp only [npMean, this, meanOf]

theorem foldl_max_spec (l : List F) (x : F) :
    (∀ y ∈ x :: l, y ≤ l.foldl max x) ∧ l.foldl max x ∈ x :: l := by
  induction l generalizing x with
  | nil => simp
  | cons z zs ih =>
    obtain ⟨h1, h2⟩ := ih (max x z)
    rw [List.foldl_cons]
    refine ⟨?_, ?_⟩
    · intro y hy
      have h0 := h1 (max x z) (by simp)
      simp only [List.mem_cons] at hy
      rcases hy with rfl | rfl | hy
      · exact le_trans (le_max_left _ _) h0
      · exact le_trans (le_max_right _ _) h0
      · exact h1 y (by simp [hy])
    · simp only [List.mem_cons] at h2 ⊢
      rcases h2 with h2 | h2
      · rcases max_choice x z with h | h
        · left; rw [h2, h]
        · right; left; rw [h2, h]
      · exact Or.inr (Or.inr h2)

theorem foldl_min_spec (l : List F) (x : F) :
    (∀ y ∈ x :: l, l.foldl min x ≤ y) ∧ l.foldl min x ∈ x :: l := by
  induction l generalizing x with
  | nil => simp
  | cons z zs ih =>
    obtain ⟨h1, h2⟩ := ih (min x z)
    rw [List.foldl_cons]
    refine ⟨?_, ?_⟩
    · intro y hy
      have h0 := h1 (min x z) (by simp)
      simp only [List.mem_cons] at hy
      rcases hy with rfl | rfl | hy
      · exact le_trans h0 (min_le_left _ _)
      · exact le_trans h0 (min_le_right _ _)
      · exact h1 y (by simp [hy])
    · simp only [List.mem_cons] at h2 ⊢
      rcases h2 with h2 | h2
      · rcases min_choice x z with h | h
        · left; rw [h2, h]
        · right; left; rw [h2, h]
      · exact Or.inr (Or.inr h2)

end Verif.Stats
