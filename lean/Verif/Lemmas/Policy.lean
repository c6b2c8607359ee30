import Verif.Spec.Policy
import Mathlib.Analysis.SpecialFunctions.Artanh
import Mathlib.Tactic.Linarith
import Mathlib.Tactic.Ring
import Mathlib.Tactic.FieldSimp
import Mathlib.Algebra.BigOperators.Intervals
import Mathlib.Algebra.Order.BigOperators.Ring.Finset

/-! Lemmas for the policy model. -/

set_option linter.unusedSectionVars false

namespace Verif.Policy

variable {K : Type} [Field K] [LinearOrder K] [IsStrictOrderedRing K]

theorem clip1_mem (x : K) : -1 ≤ clip1 x ∧ clip1 x ≤ 1 := by
  unfold clip1
  exact ⟨le_min (le_max_right _ _) (by linarith), min_le_right _ _⟩

theorem clip1_mono {x y : K} (h : x ≤ y) : clip1 x ≤ clip1 y :=
  min_le_min_right _ (max_le_max_right _ h)

theorem clip1_id {x : K} (h1 : -1 ≤ x) (h2 : x ≤ 1) : clip1 x = x := by
  unfold clip1
  rw [max_eq_left h1, min_eq_left h2]

theorem scale1_mem {lo hi x : K} (h : lo ≤ hi) (h1 : -1 ≤ x) (h2 : x ≤ 1) : lo ≤ scale1 (lo, hi) x ∧ scale1 (lo, hi) x ≤ hi := by
  unfold scale1
  constructor
  · have : 0 ≤ (hi - lo) * (x + 1) := mul_nonneg (by linarith) (by linarith)
    have := div_nonneg this (by norm_num : (0 : K) ≤ 2)
    linarith
  · have : (hi - lo) * (x + 1) / 2 ≤ hi - lo := by
      rw [div_le_iff₀ (by norm_num)]
      exact mul_le_mul_of_nonneg_left (by linarith) (by linarith)
    linarith

theorem scale1_mono {lo hi x y : K} (h : lo ≤ hi) (hxy : x ≤ y) : scale1 (lo, hi) x ≤ scale1 (lo, hi) y := by
  unfold scale1
  have : (hi - lo) * (x + 1) ≤ (hi - lo) * (y + 1) := mul_le_mul_of_nonneg_left (by linarith) (by linarith)
  have := div_le_div_of_nonneg_right this (by norm_num : (0 : K) ≤ 2)
  simp only
  linarith

/-- Scaling undoes inverse scaling. -/
theorem scale1_unscale1 {lo hi a eps : K} (h : eps ≤ hi - lo ∨ hi = lo) (heps : 0 < eps) (h1 : lo ≤ a) (h2 : a ≤ hi) :
    scale1 (lo, hi) (unscale1 eps (lo, hi) a) = a := by
  unfold scale1 unscale1 safeScale
  rcases h with h | h
  · simp only [if_neg (not_lt.mpr h)]
    have : hi - lo ≠ 0 := by
      have : 0 < hi - lo := lt_of_lt_of_le heps h
      exact ne_of_gt this
    field_simp
    ring
  · subst h
    have : a = hi := le_antisymm h2 h1
    subst this
    simp

theorem unscale1_mem {lo hi a eps : K} (heps : 0 < eps) (h1 : lo ≤ a) (h2 : a ≤ hi) :
    -1 ≤ unscale1 eps (lo, hi) a ∧ unscale1 eps (lo, hi) a ≤ 1 := by
  unfold unscale1 safeScale
  simp only
  have hs : 0 < (if hi - lo < eps then hi - lo + eps else hi - lo) ∧
      hi - lo ≤ (if hi - lo < eps then hi - lo + eps else hi - lo) := by
    split
    · exact ⟨by linarith, by linarith⟩
    · rename_i h
      exact ⟨by linarith, le_refl _⟩
  generalize (if hi - lo < eps then hi - lo + eps else hi - lo) = s at hs
  constructor
  · have : 0 ≤ (a - lo) * 2 / s := div_nonneg (by linarith) hs.1.le
    linarith
  · have : (a - lo) * 2 / s ≤ 2 := by
      rw [div_le_iff₀ hs.1]
      linarith
    linarith

theorem unscale1_mem_strict {lo hi a eps : K} (heps : 0 < eps) (h1 : lo < a) (h2 : a < hi) :
    -1 < unscale1 eps (lo, hi) a ∧ unscale1 eps (lo, hi) a < 1 := by
  unfold unscale1 safeScale
  simp only
  have hs : 0 < (if hi - lo < eps then hi - lo + eps else hi - lo) ∧
      hi - lo ≤ (if hi - lo < eps then hi - lo + eps else hi - lo) := by
    split
    · exact ⟨by linarith, by linarith⟩
    · rename_i h
      exact ⟨by linarith, le_refl _⟩
  generalize (if hi - lo < eps then hi - lo + eps else hi - lo) = s at hs
  constructor
  · have : 0 < (a - lo) * 2 / s := div_pos (by linarith) hs.1
    linarith
  · have : (a - lo) * 2 / s < 2 := by
      rw [div_lt_iff₀ hs.1]
      linarith
    linarith

/-- Inverse scaling undoes scaling. -/
theorem unscale1_scale1 {lo hi x eps : K} (h : eps ≤ hi - lo) (heps : 0 < eps) :
    unscale1 eps (lo, hi) (scale1 (lo, hi) x) = x := by
  unfold scale1 unscale1 safeScale
  simp only [if_neg (not_lt.mpr h)]
  have : hi - lo ≠ 0 := ne_of_gt (lt_of_lt_of_le heps h)
  field_simp
  ring

/-! ### tanh -/

theorem tanh_mem (x : ℝ) : -1 < Real.tanh x ∧ Real.tanh x < 1 := by
  have := Real.tanh_bijOn.mapsTo (Set.mem_univ x)
  exact ⟨this.1, this.2⟩

theorem tanh_mono {x y : ℝ} (h : x ≤ y) : Real.tanh x ≤ Real.tanh y := by
  rw [← Real.artanh_le_artanh_iff (Real.tanh_bijOn.mapsTo (Set.mem_univ x)) (Real.tanh_bijOn.mapsTo (Set.mem_univ y)),
    Real.artanh_tanh, Real.artanh_tanh]
  exact h

theorem unbound_tanh {a : ℝ} (h1 : -1 < a) (h2 : a < 1) : unbound1 Real.log .tanh a = Real.artanh a := by
  rw [Real.artanh_eq_half_log ⟨h1.le, h2.le⟩, Real.log_div (by linarith) (by linarith)]
  simp only [unbound1]
  ring

/-! ### Lists -/

theorem zipWith_id {α β : Type} (f : α → β → β) (l : List α) (r : List β) (hlen : l.length = r.length)
    (h : ∀ (j : Nat) (a : α) (b : β), l[j]? = some a → r[j]? = some b → f a b = b) : List.zipWith f l r = r := by
  apply List.ext_getElem?
  intro j
  rw [List.getElem?_zipWith]
  cases hr : r[j]? with
  | none =>
    cases l[j]? <;> rfl
  | some b =>
    have hj := (List.getElem?_eq_some_iff.mp hr).1
    obtain ⟨a, ha⟩ : ∃ a, l[j]? = some a := ⟨_, List.getElem?_eq_getElem (by omega)⟩
    rw [ha]
    simp only [Option.some.injEq]
    exact h j a b ha hr

theorem zip_get {α β : Type} {l : List α} {r : List β} {j : Nat} {a : α × β} (h : (l.zip r)[j]? = some a) :
    l[j]? = some a.1 ∧ r[j]? = some a.2 := by
  rw [List.getElem?_zip_eq_some] at h
  exact h

theorem flatten_ne_nil {α : Type} {x : List (List α)} {row : List α} (h1 : row ∈ x) (h2 : row ≠ []) : x.flatten ≠ [] := by
  intro h
  exact h2 (List.flatten_eq_nil_iff.mp h row h1)

/-! ### argmax -/

theorem argmax_spec (l : List K) (hne : l ≠ []) :
    ∃ q, l[argmax l]? = some q ∧ (∀ (b : Nat) (x : K), l[b]? = some x → x ≤ q) ∧
      ∀ (b : Nat) (x : K), b < argmax l → l[b]? = some x → x < q := by
  induction l with
  | nil => exact absurd rfl hne
  | cons x xs ih =>
    by_cases h : ∀ y ∈ xs, y ≤ x
    · rw [argmax, if_pos h]
      refine ⟨x, rfl, ?_, ?_⟩
      · intro b y hb
        cases b with
        | zero => simp at hb; exact hb ▸ le_refl _
        | succ b => exact h y (List.mem_of_getElem? (by simpa using hb))
      · intro b y hb
        omega
    · rw [argmax, if_neg h]
      have hne' : xs ≠ [] := by
        rintro rfl
        simp at h
      obtain ⟨q, h1, h2, h3⟩ := ih hne'
      have hx : x < q := by
        push Not at h
        obtain ⟨y, hy, hxy⟩ := h
        obtain ⟨b, hb, rfl⟩ := List.getElem_of_mem hy
        exact lt_of_lt_of_le hxy (h2 b _ (List.getElem?_eq_getElem hb))
      refine ⟨q, by simpa using h1, ?_, ?_⟩
      · intro b y hb
        cases b with
        | zero => simp at hb; exact hb ▸ hx.le
        | succ b => exact h2 b y (by simpa using hb)
      · intro b y hb hy
        cases b with
        | zero => simp at hy; exact hy ▸ hx
        | succ b => exact h3 b y (by omega) (by simpa using hy)

theorem minOf_le (l : List K) (x : K) (hx : x ∈ l) : minOf l ≤ x := by
  induction l with
  | nil => simp at hx
  | cons y ys ih =>
    cases ys with
    | nil => simp at hx; simp [minOf, hx]
    | cons z zs =>
      rw [minOf]
      · rcases List.mem_cons.mp hx with rfl | h
        · exact min_le_left _ _
        · exact le_trans (min_le_right _ _) (ih h)
      · simp

theorem le_maxOf (l : List K) (x : K) (hx : x ∈ l) : x ≤ maxOf l := by
  induction l with
  | nil => simp at hx
  | cons y ys ih =>
    cases ys with
    | nil => simp at hx; simp [maxOf, hx]
    | cons z zs =>
      rw [maxOf]
      · rcases List.mem_cons.mp hx with rfl | h
        · exact le_max_left _ _
        · exact le_trans (ih h) (le_max_right _ _)
      · simp

/-- If allowed entries are kept and the others pushed below all of them, the argmax is the best allowed entry. -/
theorem argmax_masked (row q : List K) (m : List Bool) (hlen : row.length = m.length) (hq : q.length = m.length)
    (hex : true ∈ m) (hkeep : ∀ (b : Nat) (x y : K), m[b]? = some true → row[b]? = some x → q[b]? = some y → y = x)
    (hpush : ∀ (b c : Nat) (x y : K), m[b]? = some true → m[c]? = some false → q[b]? = some x → q[c]? = some y → y < x) :
    m[argmax q]? = some true ∧ ∃ v, row[argmax q]? = some v ∧
      (∀ (b : Nat) (x : K), m[b]? = some true → row[b]? = some x → x ≤ v) ∧
      ∀ (b : Nat) (x : K), b < argmax q → m[b]? = some true → row[b]? = some x → x < v := by
  have hne : q ≠ [] := by
    rintro rfl
    have : m = [] := List.length_eq_zero_iff.mp hq.symm
    simp [this] at hex
  obtain ⟨v, h1, h2, h3⟩ := argmax_spec q hne
  have hlt := (List.getElem?_eq_some_iff.mp h1).1
  have hget : ∀ {b : Nat}, b < m.length → ∃ y, q[b]? = some y := fun hb => ⟨_, List.getElem?_eq_getElem (by omega)⟩
  have hallowed : m[argmax q]? = some true := by
    obtain ⟨t, ht⟩ : ∃ t, m[argmax q]? = some t := ⟨_, List.getElem?_eq_getElem (by omega)⟩
    cases t with
    | true => exact ht
    | false =>
      obtain ⟨b, hb, hbt⟩ := List.getElem_of_mem hex
      have hb' : m[b]? = some true := by rw [List.getElem?_eq_getElem hb, hbt]
      obtain ⟨y, hy⟩ := hget hb
      have := hpush b _ y v hb' ht hy h1
      exact absurd (h2 b y hy) (not_le.mpr this)
  obtain ⟨v', hv'⟩ : ∃ v', row[argmax q]? = some v' := ⟨_, List.getElem?_eq_getElem (by omega)⟩
  have hvv := hkeep _ _ _ hallowed hv' h1
  subst hvv
  refine ⟨hallowed, v, hv', ?_, ?_⟩
  · intro b x hb hx
    obtain ⟨y, hy⟩ := hget (List.getElem?_eq_some_iff.mp hb).1
    rw [← hkeep b x y hb hx hy]
    exact h2 b y hy
  · intro b x hlt hb hx
    obtain ⟨y, hy⟩ := hget (List.getElem?_eq_some_iff.mp hb).1
    rw [← hkeep b x y hb hx hy]
    exact h3 b y hlt hy

/-! ### C51 -/

theorem clamp_mem {lo hi : K} (h : lo ≤ hi) (x : K) : lo ≤ clamp lo hi x ∧ clamp lo hi x ≤ hi := by
  unfold clamp
  exact ⟨le_min (le_max_right _ _) h, min_le_right _ _⟩

theorem C51.deltaZ_pos (p : C51 K) (hn : 1 < p.numAtoms) (hv : p.vMin < p.vMax) : 0 < p.deltaZ := by
  unfold C51.deltaZ
  apply div_pos (by linarith)
  have : (1 : K) < p.numAtoms := by exact_mod_cast hn
  linarith

theorem C51.atom_last (p : C51 K) (hn : 1 < p.numAtoms) : p.atom (p.numAtoms - 1) = p.vMax := by
  have h : (1 : K) < p.numAtoms := by exact_mod_cast hn
  have h' : (p.numAtoms : K) - 1 ≠ 0 := by linarith
  unfold C51.atom C51.deltaZ
  rw [Nat.cast_sub (by omega), Nat.cast_one]
  field_simp
  ring

/-- Every point of the range lies between two neighbouring atoms. -/
theorem C51.between (p : C51 K) (hn : 1 < p.numAtoms) (x : K) (h1 : p.vMin ≤ x)
    (h2 : x ≤ p.vMax) : ∃ i, i + 1 < p.numAtoms ∧ p.atom i ≤ x ∧ x ≤ p.atom (i + 1) := by
  rw [← p.atom_last hn] at h2
  have key : ∀ m, 0 < m → x ≤ p.atom m → ∃ i, i < m ∧ p.atom i ≤ x ∧ x ≤ p.atom (i + 1) := by
    intro m hm hx
    induction m with
    | zero => omega
    | succ m ih =>
      by_cases h : p.atom m ≤ x
      · exact ⟨m, by omega, h, hx⟩
      · push Not at h
        rcases Nat.eq_zero_or_pos m with rfl | hm'
        · simp [C51.atom] at h
          exact absurd h1 (not_le.mpr h)
        · obtain ⟨i, hi, h3⟩ := ih hm' h.le
          exact ⟨i, by omega, h3⟩
  obtain ⟨i, hi, h3⟩ := key (p.numAtoms - 1) (by omega) h2
  exact ⟨i, by omega, h3⟩

/-- Mass at `x` is shared between the two neighbouring atoms. -/
theorem C51.kernel_eq (p : C51 K) (hn : 1 < p.numAtoms) (hv : p.vMin < p.vMax) (x : K) (i : Nat)
    (h1 : p.atom i ≤ x) (h2 : x ≤ p.atom (i + 1)) (j : Nat) :
    p.kernel x j = if j = i then (p.atom (i + 1) - x) / p.deltaZ
      else if j = i + 1 then (x - p.atom i) / p.deltaZ else 0 := by
  have hd := p.deltaZ_pos hn hv
  have hstep : p.atom (i + 1) = p.atom i + p.deltaZ := by
    unfold C51.atom; push_cast; ring
  unfold C51.kernel clamp
  by_cases hji : j = i
  · subst hji
    rw [if_pos rfl, abs_of_nonneg (by linarith)]
    have e : 1 - (x - p.atom j) / p.deltaZ = (p.atom (j + 1) - x) / p.deltaZ := by
      rw [hstep]; field_simp; ring
    rw [e, max_eq_left (div_nonneg (by linarith) hd.le), min_eq_left]
    rw [div_le_one hd]; linarith
  · rw [if_neg hji]
    by_cases hj1 : j = i + 1
    · subst hj1
      rw [if_pos rfl, abs_of_nonpos (by linarith)]
      have e : 1 - -(x - p.atom (i + 1)) / p.deltaZ = (x - p.atom i) / p.deltaZ := by
        rw [hstep]; field_simp; ring
      rw [e, max_eq_left (div_nonneg (by linarith) hd.le), min_eq_left]
      rw [div_le_one hd]; linarith
    · rw [if_neg hj1]
      have hfar : p.deltaZ ≤ |x - p.atom j| := by
        rcases Nat.lt_or_gt_of_ne hji with h | h
        · have : p.atom j + p.deltaZ ≤ p.atom i := by
            have hc : (j : K) + 1 ≤ i := by exact_mod_cast h
            unfold C51.atom
            have := mul_le_mul_of_nonneg_right hc hd.le
            linarith
          have := le_abs_self (x - p.atom j)
          linarith
        · have : p.atom (i + 1) + p.deltaZ ≤ p.atom j := by
            have hc : ((i + 1 : Nat) : K) + 1 ≤ j := by exact_mod_cast (by omega : i + 1 + 1 ≤ j)
            unfold C51.atom
            have := mul_le_mul_of_nonneg_right hc hd.le
            linarith
          have := neg_abs_le (x - p.atom j)
          linarith
      have : 1 - |x - p.atom j| / p.deltaZ ≤ 0 := by
        have : 1 ≤ |x - p.atom j| / p.deltaZ := by rw [le_div_iff₀ hd]; linarith
        linarith
      rw [max_eq_right this, min_eq_left (by norm_num)]

theorem sum_two {n i : Nat} (hi : i + 1 < n) (f : Nat → K) (a b : K) :
    ∑ j ∈ Finset.range n, (if j = i then a else if j = i + 1 then b else 0) * f j = a * f i + b * f (i + 1) := by
  have e : ∀ j, (if j = i then a else if j = i + 1 then b else 0) * f j =
      (if j = i then a * f j else 0) + (if j = i + 1 then b * f j else 0) := by
    intro j
    by_cases h1 : j = i
    · subst h1; simp
    · by_cases h2 : j = i + 1
      · subst h2; simp
      · simp [h1, h2]
  rw [Finset.sum_congr rfl (fun j _ => e j), Finset.sum_add_distrib, Finset.sum_ite_eq', Finset.sum_ite_eq',
    if_pos (Finset.mem_range.mpr (by omega)), if_pos (Finset.mem_range.mpr hi)]

theorem C51.kernel_nonneg (p : C51 K) (x : K) (i : Nat) : 0 ≤ p.kernel x i := (clamp_mem zero_le_one _).1

theorem C51.kernel_sum (p : C51 K) (hn : 1 < p.numAtoms) (hv : p.vMin < p.vMax) (x : K) (h1 : p.vMin ≤ x)
    (h2 : x ≤ p.vMax) : ∑ j ∈ Finset.range p.numAtoms, p.kernel x j = 1 ∧
      ∑ j ∈ Finset.range p.numAtoms, p.kernel x j * p.atom j = x := by
  have hd := p.deltaZ_pos hn hv
  obtain ⟨i, hi, h3, h4⟩ := p.between hn x h1 h2
  have hstep : p.atom (i + 1) = p.atom i + p.deltaZ := by
    unfold C51.atom; push_cast; ring
  constructor
  · have := sum_two (K := K) hi (fun _ => 1) ((p.atom (i + 1) - x) / p.deltaZ) ((x - p.atom i) / p.deltaZ)
    simp only [mul_one] at this
    rw [Finset.sum_congr rfl (fun j _ => p.kernel_eq hn hv x i h3 h4 j), this, hstep]
    field_simp; ring
  · rw [Finset.sum_congr rfl (fun j _ => by rw [p.kernel_eq hn hv x i h3 h4 j]), sum_two hi, hstep]
    field_simp; ring

end Verif.Policy
