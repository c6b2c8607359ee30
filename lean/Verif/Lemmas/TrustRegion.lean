import Verif.Spec.TrustRegion
import Mathlib.LinearAlgebra.SesquilinearForm.Basic
import Mathlib.LinearAlgebra.Matrix.BilinearForm
import Mathlib.LinearAlgebra.Dimension.Finite
import Mathlib.LinearAlgebra.FiniteDimensional.Basic
import Mathlib.Tactic.Linarith
import Mathlib.Tactic.Ring
import Mathlib.Tactic.FieldSimp
import Mathlib.Algebra.Order.BigOperators.Ring.Finset

/-! Helper lemmas on the conjugate gradient loop and the line search. -/

set_option linter.unusedSectionVars false

namespace Verif.TrustRegion

variable {K : Type} [Field K] [LinearOrder K] [IsStrictOrderedRing K] {n : Nat}

theorem fdiv_some {a b : K} (h : b ≠ 0) : fdiv a b = some (a / b) := by simp [fdiv, h]

theorem dot_self_nonneg (v : Fin n → K) : 0 ≤ v ⬝ᵥ v :=
  Finset.sum_nonneg fun i _ => mul_self_nonneg (v i)

theorem dot_self_pos {v : Fin n → K} (h : v ≠ 0) : 0 < v ⬝ᵥ v := by
  obtain ⟨i, hi⟩ : ∃ i, v i ≠ 0 := by
    by_contra hc; push Not at hc; exact h (funext hc)
  exact Finset.sum_pos' (fun i _ => mul_self_nonneg (v i)) ⟨i, Finset.mem_univ _, mul_self_pos.2 hi⟩

theorem ne_zero_of_dot {u v : Fin n → K} (h : u ⬝ᵥ v ≠ 0) : u ≠ 0 := by
  rintro rfl; simp at h

theorem Spd.neg {B : (Fin n → K) → Fin n → K} (h : Spd B) (v : Fin n → K) : B (-v) = -B v := by
  have := h.smul (-1) v
  simpa using this

theorem Spd.zero {B : (Fin n → K) → Fin n → K} (h : Spd B) : B 0 = 0 := by
  have := h.smul 0 0
  simpa using this

/-- The state of the loop after some steps: `hist` are the earlier residuals and directions. -/
structure Inv (B : (Fin n → K) → Fin n → K) (b x r p : Fin n → K) (hist : List ((Fin n → K) × (Fin n → K))) : Prop where
  res : r = b - B x
  pr : p ⬝ᵥ r = r ⬝ᵥ r
  rne : r ≠ 0
  rr : ∀ q ∈ hist, r ⬝ᵥ q.1 = 0
  rp : ∀ q ∈ hist, r ⬝ᵥ q.2 = 0
  conj : ∀ q ∈ hist, p ⬝ᵥ B q.2 = 0
  hne : ∀ q ∈ hist, q.1 ≠ 0
  pair : hist.Pairwise fun q q' => q.1 ⬝ᵥ q'.1 = 0
  spanB : ∀ v, (∀ q ∈ hist, v ⬝ᵥ q.1 = 0) → v ⬝ᵥ r = 0 → ∀ q ∈ hist, v ⬝ᵥ B q.2 = 0
  spanR : ∀ v, (∀ q ∈ hist, v ⬝ᵥ q.2 = 0) → (∀ q ∈ hist, v ⬝ᵥ q.1 = 0) ∧ (v ⬝ᵥ p = 0 → v ⬝ᵥ r = 0)
  low : x ⬝ᵥ B x ≤ 2 * (b ⬝ᵥ x)
  lowS : hist ≠ [] → x ⬝ᵥ B x < 2 * (b ⬝ᵥ x)

theorem Inv.zero {B : (Fin n → K) → Fin n → K} (hB : Spd B) {b : Fin n → K} (hb : b ≠ 0) : Inv B b 0 b b [] where
  res := by simp [hB.zero]
  pr := rfl
  rne := hb
  rr := by simp
  rp := by simp
  conj := by simp
  hne := by simp
  pair := List.Pairwise.nil
  spanB := by simp
  spanR := by simp
  low := by simp
  lowS := by simp

theorem Inv.pne {B : (Fin n → K) → Fin n → K} {b x r p : Fin n → K} {hist} (h : Inv B b x r p hist) : p ≠ 0 :=
  ne_zero_of_dot (v := r) (by rw [h.pr]; exact (dot_self_pos h.rne).ne')

/-- The energy after a step. -/
theorem Inv.step_low {B : (Fin n → K) → Fin n → K} (hB : Spd B) {b x r p : Fin n → K} {hist} (h : Inv B b x r p hist) :
    let alpha := (r ⬝ᵥ r) / (p ⬝ᵥ B p)
    (x + alpha • p) ⬝ᵥ B (x + alpha • p) < 2 * (b ⬝ᵥ (x + alpha • p)) := by
  intro alpha
  have hpos := hB.pos p h.pne
  have hrr := dot_self_pos h.rne
  have hap : alpha * (p ⬝ᵥ B p) = r ⬝ᵥ r := by
    simp only [alpha]; field_simp
  have hbp : b ⬝ᵥ p = r ⬝ᵥ r + p ⬝ᵥ B x := by
    have : b = r + B x := by rw [h.res]; simp
    rw [this, add_dotProduct, dotProduct_comm r p, h.pr, dotProduct_comm (B x) p]
  have hal : 0 < alpha := div_pos hrr hpos
  have hlow := h.low
  simp only [hB.add, hB.smul, add_dotProduct, dotProduct_add, smul_dotProduct, dotProduct_smul, smul_eq_mul]
  rw [hB.symm x p, hbp, hap]
  have : 0 < alpha * (r ⬝ᵥ r) := mul_pos hal hrr
  nlinarith

theorem Inv.step {B : (Fin n → K) → Fin n → K} (hB : Spd B) {b x r p : Fin n → K} {hist} (h : Inv B b x r p hist) :
    let alpha := (r ⬝ᵥ r) / (p ⬝ᵥ B p)
    let r' := r - alpha • B p
    r' ≠ 0 → Inv B b (x + alpha • p) r' (r' + ((r' ⬝ᵥ r') / (r ⬝ᵥ r)) • p) ((r, p) :: hist) := by
  intro alpha r' hr'
  have hpos := hB.pos p h.pne
  have hrr := dot_self_pos h.rne
  have hap : alpha * (p ⬝ᵥ B p) = r ⬝ᵥ r := by
    simp only [alpha]; field_simp
  have hal : alpha ≠ 0 := (div_pos hrr hpos).ne'
  -- the new residual is orthogonal to all directions
  have hp' : r' ⬝ᵥ p = 0 := by
    simp only [r', sub_dotProduct, smul_dotProduct, smul_eq_mul]
    rw [dotProduct_comm r p, h.pr, dotProduct_comm (B p) p, hap, sub_self]
  have hps : ∀ q ∈ hist, r' ⬝ᵥ q.2 = 0 := by
    intro q hq
    simp only [r', sub_dotProduct, smul_dotProduct, smul_eq_mul]
    rw [h.rp q hq, dotProduct_comm (B p) q.2, hB.symm q.2 p, h.conj q hq]; simp
  have hrs := (h.spanR r' hps).1
  have hrk := (h.spanR r' hps).2 hp'
  have hBs := h.spanB r' hrs hrk
  -- conjugacy with the last direction
  have hrB : alpha * (r' ⬝ᵥ B p) = -(r' ⬝ᵥ r') := by
    have e : r' ⬝ᵥ r' = r' ⬝ᵥ r - alpha * (r' ⬝ᵥ B p) := by
      conv_lhs => rw [show r' ⬝ᵥ r' = r' ⬝ᵥ (r - alpha • B p) from rfl]
      rw [dotProduct_sub, dotProduct_smul, smul_eq_mul]
    rw [e, hrk]; ring
  have hconj : (r' + ((r' ⬝ᵥ r') / (r ⬝ᵥ r)) • p) ⬝ᵥ B p = 0 := by
    rw [add_dotProduct, smul_dotProduct, smul_eq_mul]
    apply mul_left_cancel₀ hal
    rw [mul_add, hrB, mul_left_comm, hap, mul_zero]
    field_simp; ring
  refine ⟨?_, ?_, hr', ?_, ?_, ?_, ?_, ?_, ?_, ?_, (h.step_low hB).le, fun _ => h.step_low hB⟩
  · simp only [r']; rw [h.res, hB.add, hB.smul]; abel
  · rw [add_dotProduct, smul_dotProduct, dotProduct_comm p r', hp']; simp
  · intro q hq
    rcases List.mem_cons.1 hq with rfl | hq
    · exact hrk
    · exact hrs q hq
  · intro q hq
    rcases List.mem_cons.1 hq with rfl | hq
    · exact hp'
    · exact hps q hq
  · intro q hq
    rcases List.mem_cons.1 hq with rfl | hq
    · exact hconj
    · rw [add_dotProduct, smul_dotProduct, hBs q hq, h.conj q hq]; simp
  · intro q hq
    rcases List.mem_cons.1 hq with rfl | hq
    · exact h.rne
    · exact h.hne q hq
  · exact List.Pairwise.cons h.rr h.pair
  · intro v hv hvr q hq
    have hvr0 : v ⬝ᵥ r = 0 := hv (r, p) (by simp)
    have hvs : ∀ q ∈ hist, v ⬝ᵥ q.1 = 0 := fun q hq => hv q (by simp [hq])
    rcases List.mem_cons.1 hq with rfl | hq
    · have : alpha * (v ⬝ᵥ B p) = v ⬝ᵥ r - v ⬝ᵥ r' := by
        simp only [r', dotProduct_sub, dotProduct_smul, smul_eq_mul]; ring
      rw [hvr0, hvr, sub_zero] at this
      exact (mul_eq_zero.1 this).resolve_left hal
    · exact h.spanB v hvs hvr0 q hq
  · intro v hv
    have hvp0 : v ⬝ᵥ p = 0 := hv (r, p) (by simp)
    have hvs : ∀ q ∈ hist, v ⬝ᵥ q.2 = 0 := fun q hq => hv q (by simp [hq])
    have := h.spanR v hvs
    refine ⟨?_, ?_⟩
    · intro q hq
      rcases List.mem_cons.1 hq with rfl | hq
      · exact this.2 hvp0
      · exact this.1 q hq
    · intro hv'
      rw [dotProduct_add, dotProduct_smul, hvp0] at hv'
      simpa using hv'

/-- At most `n` vectors of dimension `n` are non-zero and orthogonal to each other. -/
theorem orthogonal_length {l : List (Fin n → K)} (h0 : ∀ v ∈ l, v ≠ 0) (hp : l.Pairwise fun u v => u ⬝ᵥ v = 0) :
    l.length ≤ n := by
  have hli : LinearIndependent K (fun i : Fin l.length => l[i]) := by
    rw [Fintype.linearIndependent_iff]
    intro g hg i
    have hd : (∑ j, g j • l[j]) ⬝ᵥ l[i] = 0 := by rw [hg]; simp
    rw [sum_dotProduct, Finset.sum_eq_single i] at hd
    · rw [smul_dotProduct, smul_eq_mul] at hd
      exact (mul_eq_zero.1 hd).resolve_right (dot_self_pos (h0 _ (List.getElem_mem _))).ne'
    · intro j _ hj
      rw [smul_dotProduct]
      rcases lt_or_gt_of_ne (fun h => hj (Fin.ext h) : (j : Nat) ≠ i) with hlt | hlt
      · have := List.pairwise_iff_getElem.1 hp j i j.2 i.2 hlt
        simp [this]
      · have := List.pairwise_iff_getElem.1 hp i j i.2 j.2 hlt
        rw [dotProduct_comm] at this
        simp [this]
    · intro hi; exact absurd (Finset.mem_univ i) hi
  have := hli.fintype_card_le_finrank
  simpa using this

theorem Inv.length {B : (Fin n → K) → Fin n → K} {b x r p : Fin n → K} {hist} (h : Inv B b x r p hist) :
    hist.length + 1 ≤ n := by
  have := orthogonal_length (l := r :: hist.map Prod.fst)
    (by
      intro v hv
      rcases List.mem_cons.1 hv with rfl | hv
      · exact h.rne
      · obtain ⟨q, hq, rfl⟩ := List.mem_map.1 hv; exact h.hne q hq)
    (by
      refine List.Pairwise.cons ?_ ?_
      · intro v hv
        obtain ⟨q, hq, rfl⟩ := List.mem_map.1 hv; exact h.rr q hq
      · exact List.pairwise_map.2 h.pair)
  simpa using this

/-- The loop from a state on: it delivers numbers, a vector on which the quadratic model is lower than at 0, and a
small residual unless all steps were used. -/
theorem cgLoop_spec {B : (Fin n → K) → Fin n → K} (hB : Spd B) {b : Fin n → K} {tol : K} (ht : 0 < tol) :
    ∀ (k : Nat) {x r p : Fin n → K} {hist}, Inv B b x r p hist → 0 < k + hist.length →
      ∃ y, cgLoop B tol k x r p (r ⬝ᵥ r) = some y ∧ y ⬝ᵥ B y < 2 * (b ⬝ᵥ y) ∧
        ((b - B y) ⬝ᵥ (b - B y) < tol ∨ k + hist.length + 1 ≤ n) := by
  intro k
  induction k with
  | zero =>
    intro x r p hist h hk
    refine ⟨x, rfl, h.lowS ?_, Or.inr ?_⟩
    · rintro rfl; simp at hk
    · have := h.length; omega
  | succ k ih =>
    intro x r p hist h _
    have hpos := hB.pos p h.pne
    have hrr := dot_self_pos h.rne
    have hf : fdiv (r ⬝ᵥ r) (p ⬝ᵥ B p) = some ((r ⬝ᵥ r) / (p ⬝ᵥ B p)) := fdiv_some hpos.ne'
    have hres : b - B (x + ((r ⬝ᵥ r) / (p ⬝ᵥ B p)) • p) = r - ((r ⬝ᵥ r) / (p ⬝ᵥ B p)) • B p := by
      rw [h.res, hB.add, hB.smul]; abel
    unfold cgLoop
    simp only [hf]
    by_cases hlt : (r - ((r ⬝ᵥ r) / (p ⬝ᵥ B p)) • B p) ⬝ᵥ (r - ((r ⬝ᵥ r) / (p ⬝ᵥ B p)) • B p) < tol
    · rw [if_pos hlt]
      exact ⟨_, rfl, h.step_low hB, Or.inl (by rw [hres]; exact hlt)⟩
    · rw [if_neg hlt]
      have hne : r - ((r ⬝ᵥ r) / (p ⬝ᵥ B p)) • B p ≠ 0 := by
        intro hz; rw [hz] at hlt; simp at hlt; exact absurd ht (not_lt.2 hlt)
      have hf2 := fdiv_some (a := (r - ((r ⬝ᵥ r) / (p ⬝ᵥ B p)) • B p) ⬝ᵥ (r - ((r ⬝ᵥ r) / (p ⬝ᵥ B p)) • B p)) hrr.ne'
      simp only [hf2]
      obtain ⟨y, h1, h2, h3⟩ := ih (h.step hB hne) (by simp)
      refine ⟨y, h1, h2, h3.imp id fun h3 => ?_⟩
      simp only [List.length_cons] at h3; omega

theorem Psd.mvp {hvp : (Fin n → K) → Fin n → K} (h : Psd hvp) {damping : K} (hd : 0 < damping) :
    Spd (mvp hvp damping) where
  add u v := by simp only [TrustRegion.mvp, h.add, smul_add]; abel
  smul c v := by simp only [TrustRegion.mvp, h.smul, smul_add, smul_comm c damping]
  symm u v := by
    simp only [TrustRegion.mvp, dotProduct_add, dotProduct_smul, h.symm u v, dotProduct_comm u v]
  pos v hv := by
    simp only [TrustRegion.mvp, dotProduct_add, dotProduct_smul, smul_eq_mul]
    have := mul_pos hd (dot_self_pos hv)
    linarith [h.nonneg v]

theorem tryStep_accept {c : Trpo K} {loss kl : (Fin n → K) → K} {l : K} {theta d : Fin n → K} {i : Nat} {s : Search K n}
    (h : kl (theta + s.step • d) < c.maxKl ∧ loss (theta + s.step • d) < l) :
    tryStep c loss kl l theta d i s = (⟨theta + s.step • d, s.step, kl (theta + s.step • d)⟩, true) := by
  unfold tryStep; simp only; rw [if_pos h]

theorem tryStep_reject {c : Trpo K} {loss kl : (Fin n → K) → K} {l : K} {theta d : Fin n → K} {i : Nat} {s : Search K n}
    (h : ¬(kl (theta + s.step • d) < c.maxKl ∧ loss (theta + s.step • d) < l)) :
    tryStep c loss kl l theta d i s =
      (⟨theta + s.step • d, if i + 1 < c.maxBacktracks then s.step * c.backtrackCoeff else 0,
        kl (theta + s.step • d)⟩, false) := by
  unfold tryStep; simp only; rw [if_neg h]; split_ifs <;> rfl

/-- The search meets the first acceptable candidate. -/
theorem searchFrom_success {c : Trpo K} {loss kl : (Fin n → K) → K} {l : K} {theta d : Fin n → K} {a : K} :
    ∀ (k i j : Nat) (s : Search K n), s.step = a * c.backtrackCoeff ^ i → i + k = c.maxBacktracks → i ≤ j → j < i + k →
      (∀ t, i ≤ t → t < j → ¬(kl (theta + (a * c.backtrackCoeff ^ t) • d) < c.maxKl ∧
        loss (theta + (a * c.backtrackCoeff ^ t) • d) < l)) →
      (kl (theta + (a * c.backtrackCoeff ^ j) • d) < c.maxKl ∧ loss (theta + (a * c.backtrackCoeff ^ j) • d) < l) →
      searchFrom c loss kl l theta d k i s =
        ⟨theta + (a * c.backtrackCoeff ^ j) • d, a * c.backtrackCoeff ^ j, kl (theta + (a * c.backtrackCoeff ^ j) • d)⟩ := by
  intro k
  induction k with
  | zero => intro i j s _ _ h1 h2; omega
  | succ k ih =>
    intro i j s hs hk h1 h2 hmin hj
    unfold searchFrom
    by_cases hij : i = j
    · subst hij
      simp only
      rw [tryStep_accept (by rw [hs]; exact hj)]
      simp [hs]
    · simp only
      rw [tryStep_reject (by rw [hs]; exact hmin i le_rfl (by omega))]
      have hi : i + 1 < c.maxBacktracks := by omega
      simp only [Bool.false_eq_true, if_false, hi, if_true]
      refine ih (i + 1) j _ ?_ (by omega) (by omega) (by omega) (fun t h3 h4 => hmin t (by omega) h4) hj
      simp only [hs, pow_succ, mul_assoc]

/-- Without an acceptable candidate the search ends with the last one and the step size 0. -/
theorem searchFrom_failure {c : Trpo K} {loss kl : (Fin n → K) → K} {l : K} {theta d : Fin n → K} {a : K} :
    ∀ (k i : Nat) (s : Search K n), s.step = a * c.backtrackCoeff ^ i → i + (k + 1) = c.maxBacktracks →
      (∀ t, i ≤ t → t < c.maxBacktracks → ¬(kl (theta + (a * c.backtrackCoeff ^ t) • d) < c.maxKl ∧
        loss (theta + (a * c.backtrackCoeff ^ t) • d) < l)) →
      searchFrom c loss kl l theta d (k + 1) i s =
        ⟨theta + (a * c.backtrackCoeff ^ (i + k)) • d, 0, kl (theta + (a * c.backtrackCoeff ^ (i + k)) • d)⟩ := by
  intro k
  induction k with
  | zero =>
    intro i s hs hk hno
    unfold searchFrom
    simp only
    rw [tryStep_reject (by rw [hs]; exact hno i le_rfl (by omega))]
    have hi : ¬ i + 1 < c.maxBacktracks := by omega
    simp [hi, hs, searchFrom]
  | succ k ih =>
    intro i s hs hk hno
    rw [searchFrom]
    rw [tryStep_reject (by rw [hs]; exact hno i le_rfl (by omega))]
    have hi : i + 1 < c.maxBacktracks := by omega
    simp only [Bool.false_eq_true, if_false, hi, if_true]
    rw [ih (i + 1) _ (by simp only [hs, pow_succ, mul_assoc]) (by omega) (fun t h3 h4 => hno t (by omega) h4)]
    rw [show i + 1 + k = i + (k + 1) by omega]

theorem setFromFlat_shape : ∀ (ps : List (List K)) (flat : List K), flat.length = ps.flatten.length →
    (setFromFlat ps flat).flatten = flat ∧ (setFromFlat ps flat).map List.length = ps.map List.length
  | [], flat, h => by
    simp at h; subst h; simp [setFromFlat]
  | p :: ps, flat, h => by
    simp only [List.flatten_cons, List.length_append] at h
    have ih := setFromFlat_shape ps (flat.drop p.length) (by rw [List.length_drop]; omega)
    simp only [setFromFlat, List.flatten_cons, List.map_cons, ih.1, ih.2, List.take_append_drop, List.length_take, true_and]
    rw [Nat.min_eq_left (by omega)]

end Verif.TrustRegion
