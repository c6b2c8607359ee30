import Verif.Lemmas.Wrappers
import Verif.Spec.Wrappers
import Mathlib.Algebra.Order.Ring.Rat

/-! Properties C54 and C55: action wrappers. -/

namespace Verif.Wrappers

/-- C54. The wrapper maps the discrete actions below the product of `nvec` one-to-one onto the lists with as many components as
`nvec`, each below its entry. -/
theorem C54_bijection (nvec : List Nat) :
    Set.BijOn (toMulti nvec) {a | a < discreteSize nvec} {v | List.Forall₂ (fun x n => x < n) v nvec} := by
  have he : toMulti nvec = convert (weights nvec) := by funext a; rw [toMulti, bases_reverse]
  rw [discreteSize_eq, he]
  refine ⟨fun a ha => convert_valid nvec a ha, fun a ha b hb h => convert_inj nvec a b ha hb h, ?_⟩
  intro v hv
  obtain ⟨a, h1, h2⟩ := convert_surj nvec v hv
  exact ⟨a, h1, h2⟩

/-- C54. The number of discrete actions is the product of the entries of `nvec`. -/
theorem C54_size (nvec : List Nat) : discreteSize nvec = nvec.prod := discreteSize_eq nvec

/-- C54. An array of actions is converted row by row. -/
theorem C54_array (nvec acts : List Nat) : toMultiArray nvec acts = acts.map (toMulti nvec) :=
  toMultiArray_eq nvec acts

example : discreteSize [2, 3, 4] = 24 ∧ toMulti [2, 3, 4] 17 = [1, 1, 1] ∧
    toMultiArray [2, 3, 4] [17, 23] = [[1, 1, 1], [1, 2, 3]] := by decide

section

set_option linter.unusedSectionVars false

variable {F : Type} [Field F] [LinearOrder F] [IsStrictOrderedRing F]

theorem Points.list {perDim : PerDim} {dim : Nat} {ns : List Nat} (h : Points perDim dim ns) : perDim.list dim = ns := by
  rcases h with ⟨n, rfl, hl, hall⟩ | rfl
  · exact (List.eq_replicate_iff.2 ⟨hl, hall⟩).symm
  · rfl

/-- C55. The wrapper can be built for every box and every choice of at least one point per dimension. -/
theorem C55_built (low high : List F) (perDim : PerDim) (ns : List Nat) (hns : Points perDim low.length ns)
    (hn : ns.length = low.length) (hpos : ∀ n ∈ ns, 0 < n) : ∃ mesh, makeMesh low high perDim = some mesh := by
  obtain rfl := hns.list
  refine ⟨_, if_pos ⟨hn, ?_⟩⟩
  simpa using hpos

/-- C55. Every discrete action is mapped to a point of the box. -/
theorem C55_in_box (low high : List F) (perDim : PerDim) (ns : List Nat) (hns : Points perDim low.length ns)
    (mesh : List (List F)) (hb : List.Forall₂ (· ≤ ·) low high) (hm : makeMesh low high perDim = some mesh)
    (act : List Nat) (ha : List.Forall₂ (fun a n => a < n) act ns) :
    ∃ point, toPoint mesh act = some point ∧ List.Forall₂ (· ≤ ·) low point ∧ List.Forall₂ (· ≤ ·) point high := by
  obtain rfl := hns.list
  have hl : high.length = low.length := hb.length_eq.symm
  obtain ⟨r, h1, h2, h3⟩ := toPoint_spec low high perDim mesh act hl hm ha
  have hn := (mesh_getElem? low high perDim mesh hl hm).2.1
  have hal : act.length = low.length := by rw [ha.length_eq, hn]
  have key : ∀ (i : Nat) (h : i < low.length), low[i] ≤ r[i]'(by omega) ∧ r[i]'(by omega) ≤ high[i]'(by omega) := by
    intro i h
    have hlt := (List.forall₂_iff_get.1 ha).2 i (by omega) (by omega)
    have hle := (List.forall₂_iff_get.1 hb).2 i h (by omega)
    simp only [List.get_eq_getElem] at hlt hle
    have h4 := h3 i _ _ _ _ (List.getElem?_eq_getElem h) (List.getElem?_eq_getElem (by omega))
      (List.getElem?_eq_getElem (by omega)) (List.getElem?_eq_getElem (by omega))
    rw [List.getElem?_eq_getElem (by omega)] at h4
    injection h4 with h4
    rw [h4]
    obtain ⟨f1, f2⟩ := frac_bounds (F := F) _ _ hlt
    constructor
    · nlinarith [mul_nonneg f1 (sub_nonneg.2 hle)]
    · nlinarith [mul_nonneg (sub_nonneg.2 f2) (sub_nonneg.2 hle)]
  refine ⟨r, h1, ?_, ?_⟩
  · exact List.forall₂_iff_get.2 ⟨h2.symm, fun i h _ => by simpa using (key i h).1⟩
  · exact List.forall₂_iff_get.2 ⟨by omega, fun i h _ => by simpa using (key i (by omega)).2⟩

/-- C55. With at least two points in a dimension, the extreme actions are mapped to the ends of the box. -/
theorem C55_extremes (low high : List F) (perDim : PerDim) (ns : List Nat)
    (hns : Points perDim low.length ns) (mesh : List (List F)) (hl : high.length = low.length)
    (hm : makeMesh low high perDim = some mesh) (act : List Nat)
    (ha : List.Forall₂ (fun a n => a < n) act ns) (point : List F)
    (hp : toPoint mesh act = some point) (i n : Nat) (hn : ns[i]? = some n) (h2 : 2 ≤ n) :
    (act[i]? = some 0 → point[i]? = low[i]?) ∧ (act[i]? = some (n - 1) → point[i]? = high[i]?) := by
  obtain rfl := hns.list
  obtain ⟨r, r1, r2, r3⟩ := toPoint_spec low high perDim mesh act hl hm ha
  rw [hp] at r1
  injection r1 with r1
  subst r1
  have hnl := (mesh_getElem? low high perDim mesh hl hm).2.1
  have hi : i < low.length := by
    by_contra hc
    rw [List.getElem?_eq_none (by omega)] at hn
    exact absurd hn (by simp)
  have e := fun a h => r3 i _ _ n a (List.getElem?_eq_getElem hi) (List.getElem?_eq_getElem (by omega)) hn h
  constructor
  · intro h
    rw [e 0 h, List.getElem?_eq_getElem hi]
    simp
  · intro h
    rw [e (n - 1) h, List.getElem?_eq_getElem (by omega : i < high.length)]
    have h3 : (((n - 1 : Nat) : F)) = (n : F) - 1 := by rw [Nat.cast_sub (by omega), Nat.cast_one]
    have h4 : ((n : F) - 1) ≠ 0 := by rw [← h3]; exact Nat.cast_ne_zero.2 (by omega)
    rw [h3, div_self h4]
    simp

/-- C55. The mapping is strictly increasing in each dimension in which the box is not degenerate. -/
theorem C55_strict (low high : List F) (perDim : PerDim) (ns : List Nat)
    (hns : Points perDim low.length ns) (mesh : List (List F)) (hl : high.length = low.length)
    (hm : makeMesh low high perDim = some mesh) (act act' : List Nat)
    (ha : List.Forall₂ (fun a n => a < n) act ns)
    (ha' : List.Forall₂ (fun a n => a < n) act' ns) (point point' : List F)
    (hp : toPoint mesh act = some point) (hp' : toPoint mesh act' = some point')
    (i : Nat) (lo hi : F) (hlo : low[i]? = some lo) (hhi : high[i]? = some hi) (hlt : lo < hi)
    (a a' : Nat) (h1 : act[i]? = some a) (h2 : act'[i]? = some a') (h : a < a') :
    ∃ x x', point[i]? = some x ∧ point'[i]? = some x' ∧ x < x' := by
  obtain rfl := hns.list
  obtain ⟨r, r1, r2, r3⟩ := toPoint_spec low high perDim mesh act hl hm ha
  obtain ⟨r', r1', r2', r3'⟩ := toPoint_spec low high perDim mesh act' hl hm ha'
  rw [hp] at r1; injection r1 with r1; subst r1
  rw [hp'] at r1'; injection r1' with r1'; subst r1'
  have hi' : i < act'.length := by
    by_contra hc
    rw [List.getElem?_eq_none (by omega)] at h2
    exact absurd h2 (by simp)
  have hlen := ha'.length_eq
  have hn := List.getElem?_eq_getElem (l := perDim.list low.length) (i := i) (by omega)
  have hlt' := (List.forall₂_iff_get.1 ha').2 i hi' (by omega)
  simp only [List.get_eq_getElem] at hlt'
  rw [List.getElem?_eq_getElem hi'] at h2
  injection h2 with h2
  rw [h2] at hlt'
  refine ⟨_, _, r3 i lo hi _ a hlo hhi hn h1, r3' i lo hi _ a' hlo hhi hn (by rw [List.getElem?_eq_getElem hi', h2]), ?_⟩
  have := frac_strict (F := F) _ a a' h hlt'
  have h5 := mul_lt_mul_of_pos_right this (sub_pos.2 hlt)
  linarith

/-- C55. Several actions at once are converted one by one. -/
theorem C55_rows (mesh : List (List F)) (acts : List (List Nat)) (points : List (List F)) :
    toPoints mesh acts = some points ↔ List.Forall₂ (fun act point => toPoint mesh act = some point) acts points := by
  unfold toPoints
  induction acts generalizing points with
  | nil => cases points <;> simp
  | cons a as ih =>
    cases points with
    | nil => simp [List.mapM_cons, Option.bind_eq_some_iff]
    | cons p ps => simp [List.mapM_cons, Option.bind_eq_some_iff, ih]

end

/-- A box with a degenerate side, three and two points: actions (1, 1) and (2, 0). -/
example : ∃ mesh, makeMesh [(-1 : ℚ), 5] [3, 5] (.each [3, 2]) = some mesh ∧
    toPoint mesh [1, 1] = some [1, 5] ∧ toPoint mesh [2, 0] = some [3, 5] ∧
    toPoints mesh [[1, 1], [0, 0]] = some [[1, 5], [-1, 5]] := by
  refine ⟨_, rfl, ?_, ?_, ?_⟩ <;> decide +kernel

example : List.Forall₂ (fun a n => a < n) [1, 1] [3, 2] ∧ Points (.each [3, 2]) 2 [3, 2] ∧
    Points (.same 4) 3 [4, 4, 4] ∧ List.Forall₂ (· ≤ ·) [(-1 : ℚ), 5] [3, 5] := by
  refine ⟨by simp, Or.inr rfl, Or.inl ⟨4, rfl, rfl, by simp⟩, by simp; norm_num⟩

end Verif.Wrappers
