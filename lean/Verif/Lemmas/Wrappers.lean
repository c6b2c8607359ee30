import Verif.Model.Wrappers
import Mathlib.Algebra.BigOperators.Group.List.Basic
import Mathlib.Algebra.Order.Field.Basic
import Mathlib.Data.Nat.Cast.Order.Field
import Mathlib.Data.Set.Function
import Mathlib.Tactic.Linarith
import Mathlib.Tactic.FieldSimp
import Mathlib.Tactic.Ring
import Mathlib.Tactic.Positivity

namespace Verif.Wrappers

/-- Weight of each component: the number of values of the components behind it. -/
def weights : List Nat → List Nat
  | [] => []
  | _ :: ns => ns.prod :: weights ns

theorem discreteSize_eq (nvec : List Nat) : discreteSize nvec = nvec.prod := by
  rw [discreteSize, List.prod_eq_foldl]

theorem weights_length (l : List Nat) : (weights l).length = l.length := by
  induction l with
  | nil => rfl
  | cons n ns ih => simp [weights, ih]

theorem weights_getElem? (l : List Nat) (i : Nat) (h : i < l.length) :
    (weights l)[i]? = some (l.drop (i + 1)).prod := by
  induction l generalizing i with
  | nil => simp at h
  | cons n ns ih =>
    cases i with
    | zero => simp [weights]
    | succ i =>
      simp only [weights, List.getElem?_cons_succ, List.drop_succ_cons]
      exact ih i (by simpa using h)

/-- The loop after `k` rounds. -/
theorem bases_loop (nvec : List Nat) (k : Nat) (hk : k ≤ nvec.length - 1) :
    let r := (List.range' 1 k).foldl
      (fun bs i => bs.set i (bs.getD (i - 1) 0 * nvec.getD (nvec.length - i) 0)) (List.replicate nvec.length 1)
    r.length = nvec.length ∧ ∀ j, j ≤ k → j < nvec.length → r[j]? = some (nvec.drop (nvec.length - j)).prod := by
  induction k with
  | zero =>
    refine ⟨by simp, ?_⟩
    intro j hj hl
    obtain rfl : j = 0 := by omega
    simp [hl]
  | succ k ih =>
    obtain ⟨h1, h2⟩ := ih (by omega)
    simp only [List.range'_1_concat, List.foldl_append, List.foldl_cons, List.foldl_nil]
    refine ⟨by simpa using h1, ?_⟩
    intro j hj hl
    by_cases hjk : j = 1 + k
    · subst hjk
      rw [List.getElem?_set_self (by rw [h1]; exact hl)]
      have h3 := h2 k le_rfl (by omega)
      congr 1
      rw [List.getD_eq_getElem?_getD, show 1 + k - 1 = k by omega, h3, Option.getD_some]
      have hlt : nvec.length - (1 + k) < nvec.length := by omega
      rw [List.getD_eq_getElem?_getD, List.getElem?_eq_getElem hlt, Option.getD_some,
        List.drop_eq_getElem_cons hlt, List.prod_cons, mul_comm,
        show nvec.length - (1 + k) + 1 = nvec.length - k by omega]
    · rw [List.getElem?_set_ne (by omega)]
      exact h2 j (by omega) hl

theorem bases_reverse (nvec : List Nat) : (bases nvec).reverse = weights nvec := by
  obtain ⟨h1, h2⟩ := bases_loop nvec (nvec.length - 1) le_rfl
  change (bases nvec).length = nvec.length at h1
  apply List.ext_getElem?
  intro i
  by_cases hi : i < nvec.length
  · rw [List.getElem?_reverse (by rw [h1]; exact hi), weights_getElem? _ _ hi, h1]
    have := h2 (nvec.length - 1 - i) (by omega) (by omega)
    rw [show nvec.length - (nvec.length - 1 - i) = i + 1 by omega] at this
    exact this
  · rw [List.getElem?_eq_none (by rw [List.length_reverse, h1]; omega),
      List.getElem?_eq_none (by rw [weights_length]; omega)]

theorem convert_valid (nvec : List Nat) (a : Nat) (h : a < nvec.prod) :
    List.Forall₂ (· < ·) (convert (weights nvec) a) nvec := by
  induction nvec generalizing a with
  | nil => exact List.Forall₂.nil
  | cons n ns ih =>
    rw [List.prod_cons] at h
    have hp : 0 < ns.prod := by
      rcases Nat.eq_zero_or_pos ns.prod with h0 | h0
      · rw [h0] at h; omega
      · exact h0
    refine List.Forall₂.cons ?_ (ih _ (Nat.mod_lt _ hp))
    rw [Nat.div_lt_iff_lt_mul hp]
    exact h

theorem convert_inj (nvec : List Nat) (a b : Nat) (ha : a < nvec.prod) (hb : b < nvec.prod)
    (h : convert (weights nvec) a = convert (weights nvec) b) : a = b := by
  induction nvec generalizing a b with
  | nil => simp at ha hb; omega
  | cons n ns ih =>
    rw [List.prod_cons] at ha hb
    have hp : 0 < ns.prod := by
      rcases Nat.eq_zero_or_pos ns.prod with h0 | h0
      · rw [h0] at ha; omega
      · exact h0
    simp only [weights, convert, List.cons.injEq] at h
    have := ih _ _ (Nat.mod_lt _ hp) (Nat.mod_lt _ hp) h.2
    rw [← Nat.div_add_mod a ns.prod, ← Nat.div_add_mod b ns.prod, h.1, this]

theorem convert_surj (nvec : List Nat) (v : List Nat) (h : List.Forall₂ (· < ·) v nvec) :
    ∃ a, a < nvec.prod ∧ convert (weights nvec) a = v := by
  induction h with
  | nil => exact ⟨0, by simp, rfl⟩
  | @cons x n xs ns hx _ ih =>
    obtain ⟨a, ha, he⟩ := ih
    have hp : 0 < ns.prod := by omega
    refine ⟨x * ns.prod + a, ?_, ?_⟩
    · rw [List.prod_cons]
      calc x * ns.prod + a < x * ns.prod + ns.prod := by omega
        _ = (x + 1) * ns.prod := by ring
        _ ≤ n * ns.prod := Nat.mul_le_mul_right _ hx
    · simp only [weights, convert]
      rw [Nat.mul_comm, Nat.mul_add_div hp, Nat.div_eq_of_lt ha, Nat.mul_add_mod, Nat.mod_eq_of_lt ha, he]
      simp

theorem convertArray_rows (bs acts : List Nat) (k a : Nat) (h : acts[k]? = some a) :
    ((convertArray bs acts).map fun col => col.getD k 0) = convert bs a := by
  induction bs generalizing acts a with
  | nil => rfl
  | cons b bs ih =>
    simp only [convertArray, List.map_cons, convert]
    rw [ih (acts.map (· % b)) (a % b) (by simp [h])]
    simp [List.getD_eq_getElem?_getD, h]

theorem toMultiArray_eq (nvec acts : List Nat) : toMultiArray nvec acts = acts.map (toMulti nvec) := by
  apply List.ext_getElem?
  intro k
  unfold toMultiArray toMulti
  by_cases hk : k < acts.length
  · rw [List.getElem?_map, List.getElem?_map, List.getElem?_range hk, List.getElem?_eq_getElem hk]
    simp only [Option.map_some]
    rw [convertArray_rows _ _ k _ (List.getElem?_eq_getElem hk)]
  · rw [List.getElem?_eq_none (by simp; omega), List.getElem?_eq_none (by simp; omega)]

section

variable {F : Type} [Field F] [LinearOrder F] [IsStrictOrderedRing F]

theorem linspace_getElem? (lo hi : F) (n i : Nat) (h : i < n) :
    (linspace lo hi n)[i]? = some ((i : F) / ((n : F) - 1) * (hi - lo) + lo) := by
  rw [linspace, List.getElem?_map, List.getElem?_range h, Option.map_some]
  congr 1
  split_ifs with hc
  · obtain ⟨h1, rfl⟩ := hc
    have h2 : (((n - 1 : Nat) : F)) = (n : F) - 1 := by rw [Nat.cast_sub (by omega), Nat.cast_one]
    have h3 : ((n : F) - 1) ≠ 0 := by
      rw [← h2]; exact Nat.cast_ne_zero.2 (by omega)
    rw [h2, div_self h3]; ring
  · ring

omit [LinearOrder F] [IsStrictOrderedRing F] in
theorem linspace_length (lo hi : F) (n : Nat) : (linspace lo hi n).length = n := by simp [linspace]

/-- The fraction of the way from `lo` to `hi`. -/
theorem frac_bounds (n i : Nat) (h : i < n) : 0 ≤ (i : F) / ((n : F) - 1) ∧ (i : F) / ((n : F) - 1) ≤ 1 := by
  have h2 : (n : F) - 1 = ((n - 1 : Nat) : F) := by rw [Nat.cast_sub (by omega), Nat.cast_one]
  rw [h2]
  refine ⟨by positivity, ?_⟩
  apply div_le_one_of_le₀
  · exact Nat.cast_le.2 (by omega)
  · positivity

theorem frac_strict (n i j : Nat) (h : i < j) (hj : j < n) : (i : F) / ((n : F) - 1) < (j : F) / ((n : F) - 1) := by
  have h2 : (n : F) - 1 = ((n - 1 : Nat) : F) := by rw [Nat.cast_sub (by omega), Nat.cast_one]
  rw [h2]
  apply div_lt_div_of_pos_right
  · exact Nat.cast_lt.2 h
  · exact Nat.cast_pos.2 (by omega)

theorem mapM_some {α β : Type} (f : α → Option β) (l : List α) (h : ∀ x ∈ l, ∃ y, f x = some y) :
    ∃ r, l.mapM f = some r ∧ r.length = l.length ∧ ∀ (i : Nat) (x : α), l[i]? = some x → r[i]? = f x := by
  induction l with
  | nil => exact ⟨[], by simp, rfl, by simp⟩
  | cons x xs ih =>
    obtain ⟨y, hy⟩ := h x (by simp)
    obtain ⟨r, h1, h2, h3⟩ := ih fun x hx => h x (by simp [hx])
    refine ⟨y :: r, by simp [hy, h1], by simp [h2], ?_⟩
    intro i z hz
    cases i with
    | zero => simp at hz; subst hz; simp [hy]
    | succ i => simpa using h3 i z (by simpa using hz)

omit [LinearOrder F] [IsStrictOrderedRing F] in
theorem mesh_getElem? (low high : List F) (perDim : PerDim) (mesh : List (List F))
    (hl : high.length = low.length) (hm : makeMesh low high perDim = some mesh) :
    mesh.length = low.length ∧ (perDim.list low.length).length = low.length ∧
    ∀ (i : Nat) (lo hi : F) (n : Nat), low[i]? = some lo → high[i]? = some hi → (perDim.list low.length)[i]? = some n →
      mesh[i]? = some (linspace lo hi n) := by
  simp only [makeMesh] at hm
  split_ifs at hm with hc
  injection hm with hm
  subst hm
  refine ⟨by simp [hl, hc.1], hc.1, ?_⟩
  intro i lo hi n h1 h2 h3
  rw [List.getElem?_map]
  have : ((low.zip high).zip (perDim.list low.length))[i]? = some ((lo, hi), n) := by
    rw [List.getElem?_zip_eq_some]
    refine ⟨?_, h3⟩
    rw [List.getElem?_zip_eq_some]
    exact ⟨h1, h2⟩
  rw [this]; rfl

/-- A valid action has a point, component by component. -/
theorem toPoint_spec (low high : List F) (perDim : PerDim) (mesh : List (List F)) (act : List Nat)
    (hl : high.length = low.length) (hm : makeMesh low high perDim = some mesh)
    (ha : List.Forall₂ (· < ·) act (perDim.list low.length)) :
    ∃ r, toPoint mesh act = some r ∧ r.length = low.length ∧
      ∀ (i : Nat) (lo hi : F) (n a : Nat), low[i]? = some lo → high[i]? = some hi → (perDim.list low.length)[i]? = some n →
        act[i]? = some a → r[i]? = some ((a : F) / ((n : F) - 1) * (hi - lo) + lo) := by
  obtain ⟨h1, h2, h3⟩ := mesh_getElem? low high perDim mesh hl hm
  have hlen : act.length = low.length := by rw [ha.length_eq, h2]
  have key : ∀ (i a : Nat), act[i]? = some a → ∃ (lo hi : F) (n : Nat), low[i]? = some lo ∧ high[i]? = some hi ∧
      (perDim.list low.length)[i]? = some n ∧ a < n := by
    intro i a hi
    have hlt : i < act.length := by
      by_contra hc
      rw [List.getElem?_eq_none (by omega)] at hi
      exact absurd hi (by simp)
    refine ⟨low[i]'(by omega), high[i]'(by omega), (perDim.list low.length)[i]'(by omega), ?_, ?_, ?_, ?_⟩
    · exact List.getElem?_eq_getElem _
    · exact List.getElem?_eq_getElem _
    · exact List.getElem?_eq_getElem _
    · have := (List.forall₂_iff_get.1 ha).2 i hlt (by omega)
      rw [List.getElem?_eq_getElem hlt] at hi
      injection hi with hi
      rw [← hi]; simpa using this
  obtain ⟨r, r1, r2, r3⟩ := mapM_some (fun p : Nat × Nat => mesh[p.2]?.bind fun points => points[p.1]?) act.zipIdx (by
    rintro ⟨a, i⟩ hp
    have hi : act[i]? = some a := by
      have := List.mem_zipIdx_iff_getElem?.1 hp
      simpa using this
    obtain ⟨lo, hh, n, e1, e2, e3, e4⟩ := key i a hi
    refine ⟨(a : F) / ((n : F) - 1) * (hh - lo) + lo, ?_⟩
    · simp only
      rw [h3 i lo hh n e1 e2 e3, Option.bind_some, linspace_getElem? _ _ _ _ e4])
  refine ⟨r, r1, by rw [r2, List.length_zipIdx, hlen], ?_⟩
  intro i lo hi n a e1 e2 e3 e4
  obtain ⟨_, _, n', _, _, e5, e6⟩ := key i a e4
  rw [e3] at e5
  injection e5 with e5
  subst e5
  rw [r3 i (a, i) (by simp [List.getElem?_zipIdx, e4])]
  simp only
  rw [h3 i lo hi n e1 e2 e3, Option.bind_some, linspace_getElem? _ _ _ _ e6]

end

end Verif.Wrappers
