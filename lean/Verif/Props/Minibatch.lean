import Verif.Lemmas.Minibatch
import Verif.Props.PrioUpdate

/-! Properties C239, C240: the probabilities of whole minibatches, and what importance weights do to their expectation. -/

set_option linter.unusedSectionVars false

namespace Verif.Buffer

open Verif Verif.Spec MeasureTheory ProbabilityTheory

variable {O A R : Type} [AddCommMonoid R]

section

variable {Ω : Type} [MeasurableSpace Ω] {P : Measure Ω} {U : ℕ → Ω → ℝ} {J : ℕ → ℕ → Ω → ℕ} {size : ℕ → ℕ}

/-! ### C239 -/

/-- **C239** a replay buffer, with or without stacking: all minibatches of `n` transitions, in all orders and with all
repetitions, of those that `sample_indices(0)` lists are equally likely. -/
theorem C239_uniform [IsProbabilityMeasure P] {b : Buf O A R} {g : Ghost O A R} (h : History b g) (rng : ℕ → ℕ) {l0 : List ℕ}
    (h0 : b.sampleIndices rng (some 0) = .ok l0) (D : Draws P U J size) (hI : iIndepFun (J 0) P) (hs : size 0 = l0.length)
    (n : ℕ) (hn : 0 < n) (l : List ℕ) (hl : l.length = n) (hm : ∀ i ∈ l, i ∈ l0) :
    P {ω | b.sampleIndices (fun k => J 0 k ω) (some n) = .ok l} = (1 / (l0.length : ENNReal)) ^ n := by
  by_cases hst : b.opts.stackNum = 1 ∨ b.opts.sampleAvail = false
  · obtain ⟨l', h1, h2, h3, h4, h5⟩ := C06_enumerates h hst rng
    rw [h0] at h1
    cases h1
    have e : ∀ ω, b.sampleIndices (fun k => J 0 k ω) (some n) = choice (fun k => J 0 k ω) (arange 0 b.len) n := by
      intro ω
      unfold Buf.sampleIndices
      rw [if_pos (by simpa using hst), if_pos (by simp; omega)]
      rfl
    have hal : (arange 0 b.len).length = l0.length := by simp [arange, h3]
    simp_rw [e]
    rw [← hal]
    apply law_of_choice D 0 hI _ (by omega) _ n l hl _ hn
    · simp only [arange, zero_add, List.map_id', Nat.sub_zero]
      exact List.nodup_range
    · intro i hi
      simp only [arange, zero_add, List.map_id', Nat.sub_zero]
      exact List.mem_range.mpr ((h5 i).mp (hm i hi))
  · have hnd : l0.Nodup := by
      have hall : b.idx.allIndices.Nodup := by
        rw [allIndices_eq h.holds.ins_le]
        refine List.pairwise_map.mpr ((List.nodup_range).imp_of_mem ?_)
        intro x y hx hy hne hxy
        exact hne (slot_inj h.holds.ins_le (List.mem_range.mp hx) (List.mem_range.mp hy) hxy)
      unfold Buf.sampleIndices at h0
      rw [if_neg (by simpa using hst), if_neg (by simp)] at h0
      simp only [Option.getD_some, lt_self_iff_false, if_false] at h0
      cases h0
      exact hall.filter _
    have e : ∀ ω, b.sampleIndices (fun k => J 0 k ω) (some n) = choice (fun k => J 0 k ω) l0 n := by
      intro ω
      unfold Buf.sampleIndices at h0 ⊢
      rw [if_neg (by simpa using hst), if_neg (by simp)] at h0 ⊢
      simp only [Option.getD_some, lt_self_iff_false, if_false] at h0
      cases h0
      rw [if_pos (by simp; omega)]
      rfl
    simp_rw [e]
    exact law_of_choice D 0 hI _ hs hnd n l hl hm hn

theorem prio_law {p : PBuf O A R} {ps : List ℝ} (h : PHistory p ps 0) (D : Draws P U J size) (hI : iIndepFun U P)
    (rng : ℕ → ℕ) (n : ℕ) (hn : 0 < n) (l : List ℕ) (hl : l.length = n) (hm : ∀ i ∈ l, i < p.base.len) :
    NullMeasurableSet {ω | (p.sampleIndices (fun k => U k ω) rng (some n)).getD [] = l} P ∧
      P {ω | (p.sampleIndices (fun k => U k ω) rng (some n)).getD [] = l} =
        (l.map fun i => ENNReal.ofReal (p.stored i / ∑ j ∈ Finset.range p.base.len, p.stored j)).prod := by
  have hne : 0 < p.base.len := by
    cases l with
    | nil => simp at hl; omega
    | cons x l => have := hm x (by simp); omega
  have hW := h.inv.w.congr (T' := fun i => i < p.base.len) (by simp)
  have hnn : ∀ j, 0 ≤ p.stored j := by
    intro j
    by_cases hj : j < p.base.len
    · exact (hW.pos j hj).le
    · exact (hW.zero j hj).ge
  have hS : 0 < ∑ j ∈ Finset.range p.base.len, p.stored j :=
    Finset.sum_pos' (fun j _ => hnn j) ⟨0, Finset.mem_range.mpr hne, hW.pos 0 hne⟩
  have key := law_of_intervals D hI n (fun u => (p.sampleIndices u rng (some n)).getD [])
    (fun i => (∑ j ∈ Finset.range i, p.stored j) / (∑ j ∈ Finset.range p.base.len, p.stored j))
    (fun i => ((∑ j ∈ Finset.range i, p.stored j) + p.stored i) / (∑ j ∈ Finset.range p.base.len, p.stored j))
    (Finset.range p.base.len)
    (fun i _ => div_nonneg (Finset.sum_nonneg fun j _ => hnn j) hS.le)
    (by
      intro i hi
      rw [div_le_one hS, ← Finset.sum_range_succ]
      exact Finset.sum_le_sum_of_subset_of_nonneg (Finset.range_mono (Finset.mem_range.mp hi)) (fun j _ _ => hnn j))
    (by
      intro u hu
      obtain ⟨l, h1, h2, _, h3⟩ := C26_prioritised_sampling h hne u hu rng n hn
      simp only [h1, Option.getD_some]
      exact ⟨h2, fun k hk hk0 i => h3 k hk hk0 i⟩)
    l hl (fun i hi => Finset.mem_range.mpr (hm i hi))
  simp_rw [← sub_div, add_sub_cancel_left] at key
  exact key

theorem getD_iff {α : Type} {o : Option (List α)} {l : List α} (hl : 0 < l.length) : o.getD [] = l ↔ o = some l := by
  cases o with
  | none =>
    simp only [Option.getD_none, reduceCtorEq, iff_false]
    rintro rfl
    simp at hl
  | some x => simp

/-- **C239** a prioritised buffer that was never reset: the entries of a minibatch are independent draws by priority, so its
probability is the product of the shares of the priorities in their sum. -/
theorem C239_prioritised {p : PBuf O A R} {ps : List ℝ} (h : PHistory p ps 0) (D : Draws P U J size) (hI : iIndepFun U P)
    (rng : ℕ → ℕ) (n : ℕ) (hn : 0 < n) (l : List ℕ) (hl : l.length = n) (hm : ∀ i ∈ l, i < p.base.len) :
    P {ω | p.sampleIndices (fun k => U k ω) rng (some n) = some l} =
      (l.map fun i => ENNReal.ofReal (p.stored i / ∑ j ∈ Finset.range p.base.len, p.stored j)).prod := by
  rw [← (prio_law h D hI rng n hn l hl hm).2]
  congr 1
  ext ω
  exact (getD_iff (by omega)).symm

theorem prio_law_vector {p : PMgr O A R} {sep : List (Buf O A R)} {ps : List ℝ} (h : PMHistory p sep ps)
    (D : Draws P U J size) (hI : iIndepFun U P) (draw : ℕ → ℕ) (rng : ℕ → ℕ → ℕ) (n : ℕ) (hn : 0 < n)
    (l : List ℕ) (hl : l.length = n) (hm : ∀ i ∈ l, LiveIn sep i) :
    NullMeasurableSet {ω | (p.sampleIndices (fun k => U k ω) draw rng (some n)).getD [] = l} P ∧
      P {ω | (p.sampleIndices (fun k => U k ω) draw rng (some n)).getD [] = l} =
        (l.map fun i => ENNReal.ofReal (p.stored i / ∑ j ∈ Finset.range p.base.total, p.stored j)).prod := by
  classical
  have hW := h.inv.w
  obtain ⟨i0, hi0⟩ : ∃ i, LiveIn sep i := by
    cases l with
    | nil => simp at hl; omega
    | cons x l => exact ⟨x, hm x (by simp)⟩
  have hne : 0 < p.base.len := by
    rw [C22_len h.inv.reach]
    obtain ⟨b, c, hc, h1, h2⟩ := hi0
    have := List.single_le_sum (by simp) c.len (List.mem_map.mpr ⟨c, List.mem_of_getElem? hc, rfl⟩)
    omega
  have hnn : ∀ j, 0 ≤ p.stored j := by
    intro j
    by_cases hj : LiveIn sep j
    · exact (hW.pos j hj).le
    · exact (hW.zero j hj).ge
  have hS : 0 < ∑ j ∈ Finset.range p.base.total, p.stored j :=
    Finset.sum_pos' (fun j _ => hnn j) ⟨i0, Finset.mem_range.mpr (hW.sub i0 hi0), hW.pos i0 hi0⟩
  have key := law_of_intervals D hI n (fun u => (p.sampleIndices u draw rng (some n)).getD [])
    (fun i => (∑ j ∈ Finset.range i, p.stored j) / (∑ j ∈ Finset.range p.base.total, p.stored j))
    (fun i => ((∑ j ∈ Finset.range i, p.stored j) + p.stored i) / (∑ j ∈ Finset.range p.base.total, p.stored j))
    ((Finset.range p.base.total).filter (LiveIn sep))
    (fun i _ => div_nonneg (Finset.sum_nonneg fun j _ => hnn j) hS.le)
    (by
      intro i hi
      rw [div_le_one hS, ← Finset.sum_range_succ]
      exact Finset.sum_le_sum_of_subset_of_nonneg
        (Finset.range_mono (Finset.mem_range.mp (Finset.mem_filter.mp hi).1)) (fun j _ _ => hnn j))
    (by
      intro u hu
      obtain ⟨l, h1, h2, h3⟩ := C26_vector_partial h hne u hu draw rng n hn
      simp only [h1, Option.getD_some]
      refine ⟨h2, fun k hk hk0 i => ?_⟩
      obtain ⟨i', h4, _, _, h5⟩ := h3 k hk
      rw [h4, Option.some.injEq, eq_comm]
      exact h5 hk0 i)
    l hl (fun i hi => Finset.mem_filter.mpr ⟨Finset.mem_range.mpr (hW.sub i (hm i hi)), hm i hi⟩)
  simp_rw [← sub_div, add_sub_cancel_left] at key
  exact key

/-- **C239** a prioritised vector buffer that was never reset: the same, with the sum over all sub-buffers. -/
theorem C239_vector {p : PMgr O A R} {sep : List (Buf O A R)} {ps : List ℝ} (h : PMHistory p sep ps)
    (D : Draws P U J size) (hI : iIndepFun U P) (draw : ℕ → ℕ) (rng : ℕ → ℕ → ℕ) (n : ℕ) (hn : 0 < n)
    (l : List ℕ) (hl : l.length = n) (hm : ∀ i ∈ l, LiveIn sep i) :
    P {ω | p.sampleIndices (fun k => U k ω) draw rng (some n) = some l} =
      (l.map fun i => ENNReal.ofReal (p.stored i / ∑ j ∈ Finset.range p.base.total, p.stored j)).prod := by
  rw [← (prio_law_vector h D hI draw rng n hn l hl hm).2]
  congr 1
  ext ω
  exact (getD_iff (by omega)).symm

/-! ### C240 -/

/-- The weighted mean of a function of the transitions over a minibatch: what a loss with importance weights is. -/
noncomputable def weightedMean (ws : List ℝ) (l : List ℕ) (f : ℕ → ℝ) : ℝ :=
  (∑ k ∈ Finset.range l.length, ws.getD k 0 * f (l.getD k 0)) / l.length

/-- The same for a minibatch of `n` that is sampled from the buffer. -/
noncomputable def PBuf.sampledMean (p : PBuf O A R) (u : ℕ → ℝ) (rng : ℕ → ℕ) (n : ℕ) (f : ℕ → ℝ) : ℝ :=
  match p.sampleIndices u rng (some n) with
  | some l => weightedMean ((p.weightAt l).getD []) l f
  | none => 0

/-- The same for a vector buffer. -/
noncomputable def PMgr.sampledMean (p : PMgr O A R) (u : ℕ → ℝ) (draw : ℕ → ℕ) (rng : ℕ → ℕ → ℕ) (n : ℕ) (f : ℕ → ℝ) : ℝ :=
  match p.sampleIndices u draw rng (some n) with
  | some l => weightedMean ((p.weightAt l).getD []) l f
  | none => 0

theorem weightedMean_map {n : ℕ} (x : Fin n → ℕ) (W : ℕ → ℝ) (f : ℕ → ℝ) :
    weightedMean ((List.ofFn x).map W) (List.ofFn x) f = (∑ k, W (x k) * f (x k)) / n := by
  unfold weightedMean
  rw [List.length_ofFn, Finset.sum_range]
  congr 1
  apply Finset.sum_congr rfl
  intro k _
  have h1 : (List.ofFn x)[k.1]? = some (x k) := by
    rw [List.getElem?_eq_getElem (by simp)]; simp
  rw [List.getD_eq_getElem?_getD, List.getD_eq_getElem?_getD, List.getElem?_map, h1]
  rfl

theorem expect_single [IsProbabilityMeasure P] {p : PBuf O A R} {ps : List ℝ} (h : PHistory p ps 0) (hne : 0 < p.base.len)
    (D : Draws P U J size) (hI : iIndepFun U P) (rng : ℕ → ℕ) (n : ℕ) (hn : 0 < n) (f : ℕ → ℝ) :
    ∫ ω, p.sampledMean (fun k => U k ω) rng n f ∂P =
      ∑ x ∈ Fintype.piFinset (fun _ : Fin n => Finset.range p.base.len),
        (∏ k, p.stored (x k) / ∑ j ∈ Finset.range p.base.len, p.stored j) *
          weightedMean ((p.weightAt (List.ofFn x)).getD []) (List.ofFn x) f := by
  have hW := h.inv.w.congr (T' := fun i => i < p.base.len) (by simp)
  have hq : ∀ i ∈ Finset.range p.base.len, 0 ≤ p.stored i / ∑ j ∈ Finset.range p.base.len, p.stored j := by
    intro i hi
    exact div_nonneg (hW.pos i (Finset.mem_range.mp hi)).le
      (Finset.sum_nonneg fun j hj => (hW.pos j (Finset.mem_range.mp hj)).le)
  rw [← expect_sample (P := P) (fun ω => (p.sampleIndices (fun k => U k ω) rng (some n)).getD []) n _ _ hq ?_ ?_
    (fun l => weightedMean ((p.weightAt l).getD []) l f)]
  · congr 1
    funext ω
    obtain ⟨l, h1, _⟩ := C26_prioritised_sampling h hne (fun k => U k ω) (fun k => D.range k ω) rng n hn
    unfold PBuf.sampledMean
    rw [h1]
    rfl
  · refine Filter.Eventually.of_forall fun ω => ?_
    obtain ⟨l, h1, h2, h3, _⟩ := C26_prioritised_sampling h hne (fun k => U k ω) (fun k => D.range k ω) rng n hn
    simp only [h1, Option.getD_some]
    exact ⟨h2, fun i hi => Finset.mem_range.mpr (h3 i hi)⟩
  · intro l hl hm
    exact prio_law h D hI rng n hn l hl (fun i hi => Finset.mem_range.mp (hm i hi))

/-- **C240**, what holds: with `beta = 1` and `weight_norm=False` the expected weighted mean over a minibatch of a prioritised
buffer that was never reset is a positive constant, independent of the function and of the size of the minibatch, times
the plain mean over the stored transitions. -/
theorem C240_partial [IsProbabilityMeasure P] {p : PBuf O A R} {ps : List ℝ} (h : PHistory p ps 0) (hne : 0 < p.base.len)
    (hb : p.beta = 1) (hw : p.weightNorm = false) (D : Draws P U J size) (hI : iIndepFun U P) (rng : ℕ → ℕ) :
    ∃ c : ℝ, 0 < c ∧ ∀ (n : ℕ), 0 < n → ∀ f : ℕ → ℝ, ∫ ω, p.sampledMean (fun k => U k ω) rng n f ∂P =
      c * ((∑ i ∈ Finset.range p.base.len, f i) / p.base.len) := by
  obtain ⟨c, hc, hu⟩ := C192_unbiased h hne hb hw
  refine ⟨c, hc, fun n hn f => ?_⟩
  have hW := h.inv.w.congr (T' := fun i => i < p.base.len) (by simp)
  have hS : 0 < ∑ j ∈ Finset.range p.base.len, p.stored j :=
    Finset.sum_pos (fun i hi => hW.pos i (Finset.mem_range.mp hi)) ⟨0, Finset.mem_range.mpr hne⟩
  rw [expect_single h hne D hI rng n hn f]
  have hwt : ∀ l, p.weightAt l = some (l.map (p.w.getWeight p.beta)) := by
    intro l
    simp [PBuf.weightAt, Weights.batchWeight, hw]
  simp_rw [hwt, Option.getD_some, weightedMean_map]
  rw [sum_draws_mean hn _ (fun i => p.stored i / ∑ j ∈ Finset.range p.base.len, p.stored j)
    (fun i => p.w.getWeight p.beta i * f i) (by rw [← Finset.sum_div, div_self hS.ne'])]
  exact hu f (p.w.getWeight p.beta) (fun i _ => hwt [i])

/-- C240 does not hold with the default `weight_norm=True`: in every prioritised buffer that was never reset and holds two
transitions of different priorities, for every size of the minibatches, with `beta = 1`. The weights are divided by the
largest weight of the minibatch, which depends on the draws, and transitions with a large priority keep too much weight. -/
theorem C240_violated [IsProbabilityMeasure P] {p : PBuf O A R} {ps : List ℝ} (h : PHistory p ps 0) (hb : p.beta = 1)
    (hw : p.weightNorm = true) {i j : ℕ} (hi : i < p.base.len) (hj : j < p.base.len) (hij : p.stored i ≠ p.stored j)
    (D : Draws P U J size) (hI : iIndepFun U P) (rng : ℕ → ℕ) (n : ℕ) (hn : 0 < n) :
    ¬ ∃ c : ℝ, ∀ f : ℕ → ℝ, ∫ ω, p.sampledMean (fun k => U k ω) rng n f ∂P =
      c * ((∑ i ∈ Finset.range p.base.len, f i) / p.base.len) := by
  have hne : 0 < p.base.len := by omega
  have hW := h.inv.w.congr (T' := fun i => i < p.base.len) (by simp)
  have : Nonempty (Fin n) := ⟨⟨0, hn⟩⟩
  have hmin : ∀ x : Fin n → ℕ, ∃ m : Fin n, ∀ k, p.stored (x m) ≤ p.stored (x k) :=
    fun x => Finite.exists_min (fun k => p.stored (x k))
  choose m hm using hmin
  have hwt : ∀ x ∈ Fintype.piFinset (fun _ : Fin n => Finset.range p.base.len),
      p.weightAt (List.ofFn x) = some ((List.ofFn x).map fun i => p.stored (x (m x)) / p.stored i) := by
    intro x hx
    have h1 := (C29_normalised h hw (by rw [hb]; norm_num) (List.ofFn x)
      (by
        intro i hi
        obtain ⟨k, rfl⟩ := List.mem_ofFn.mp hi
        exact Finset.mem_range.mp (Fintype.mem_piFinset.mp hx k))
      (x (m x)) (List.mem_ofFn.mpr ⟨_, rfl⟩)
      (by
        intro i hi
        obtain ⟨k, rfl⟩ := List.mem_ofFn.mp hi
        exact hm x k)).1
    rw [h1]
    congr 1
    apply List.map_congr_left
    intro i _
    rw [hb, Real.rpow_neg_one, inv_div]
  have key := biased hn (Finset.range p.base.len) p.stored (fun i hi => hW.pos i (Finset.mem_range.mp hi)) i j
    (Finset.mem_range.mpr hi) (Finset.mem_range.mpr hj) hij (fun x i => p.stored (x (m x)) / p.stored i)
    (by
      intro x _ t ht k
      rw [le_antisymm (ht (m x)) (hm x t)])
  rintro ⟨c, hc⟩
  refine key ⟨c, fun f => ?_⟩
  rw [Finset.card_range, ← hc f, expect_single h hne D hI rng n hn f]
  apply Finset.sum_congr rfl
  intro x hx
  rw [hwt x hx, Option.getD_some, weightedMean_map]

theorem vector_normalises {p : PMgr O A R} {sep : List (Buf O A R)} {ps : List ℝ} (h : PMHistory p sep ps) :
    p.weightNorm = true := by
  induction h with
  | new _ _ _ _ _ _ _ _ h =>
    unfold PMgr.new at h
    split at h
    · cases h; rfl
    · cases h
  | add _ h _ ih =>
    unfold PMgr.add at h
    split at h
    · cases h
    · obtain ⟨w, _, h⟩ := Option.map_eq_some_iff.mp h
      cases h
      exact ih
  | updateWeight _ _ h ih =>
    obtain ⟨w, _, rfl⟩ := Option.map_eq_some_iff.mp h
    exact ih
  | setBeta _ _ ih => exact ih

/-- C240 does not hold for prioritised vector buffers, whatever `weight_norm` they are made with (C70): the same. The sum is over the
slots that hold a transition. -/
theorem C240_vector_violated [IsProbabilityMeasure P] {p : PMgr O A R} {sep : List (Buf O A R)} {ps : List ℝ}
    (h : PMHistory p sep ps) (hb : p.beta = 1) {i j : ℕ} (hi : LiveIn sep i) (hj : LiveIn sep j)
    (hij : p.stored i ≠ p.stored j) (T : Finset ℕ) (hT : ∀ i, i ∈ T ↔ LiveIn sep i)
    (D : Draws P U J size) (hI : iIndepFun U P) (draw : ℕ → ℕ) (rng : ℕ → ℕ → ℕ) (n : ℕ) (hn : 0 < n) :
    ¬ ∃ c : ℝ, ∀ f : ℕ → ℝ, ∫ ω, p.sampledMean (fun k => U k ω) draw rng n f ∂P = c * ((∑ i ∈ T, f i) / T.card) := by
  have hw : p.weightNorm = true := vector_normalises h
  have hW := h.inv.w
  have hne : 0 < p.base.len := by
    rw [C22_len h.inv.reach]
    obtain ⟨b, c, hc, h1, h2⟩ := hi
    have := List.single_le_sum (by simp) c.len (List.mem_map.mpr ⟨c, List.mem_of_getElem? hc, rfl⟩)
    omega
  have hSum : ∑ j ∈ Finset.range p.base.total, p.stored j = ∑ j ∈ T, p.stored j := by
    symm
    apply Finset.sum_subset
    · intro j hj
      exact Finset.mem_range.mpr (hW.sub j ((hT j).mp hj))
    · intro j _ hj
      exact hW.zero j (fun hc => hj ((hT j).mpr hc))
  have hq : ∀ i ∈ T, 0 ≤ p.stored i / ∑ j ∈ T, p.stored j := by
    intro i hi
    exact div_nonneg (hW.pos i ((hT i).mp hi)).le (Finset.sum_nonneg fun j hj => (hW.pos j ((hT j).mp hj)).le)
  have hexp : ∀ f : ℕ → ℝ, ∫ ω, p.sampledMean (fun k => U k ω) draw rng n f ∂P =
      ∑ x ∈ Fintype.piFinset (fun _ : Fin n => T), (∏ k, p.stored (x k) / ∑ j ∈ T, p.stored j) *
          weightedMean ((p.weightAt (List.ofFn x)).getD []) (List.ofFn x) f := by
    intro f
    rw [← expect_sample (P := P) (fun ω => (p.sampleIndices (fun k => U k ω) draw rng (some n)).getD []) n _ _ hq ?_ ?_
      (fun l => weightedMean ((p.weightAt l).getD []) l f)]
    · congr 1
      funext ω
      obtain ⟨l, h1, _⟩ := C26_vector_partial h hne (fun k => U k ω) (fun k => D.range k ω) draw rng n hn
      unfold PMgr.sampledMean
      rw [h1]
      rfl
    · filter_upwards [D.pos] with ω hω
      obtain ⟨l, h1, h2, h3⟩ := C26_vector_partial h hne (fun k => U k ω) (fun k => D.range k ω) draw rng n hn
      simp only [h1, Option.getD_some]
      refine ⟨h2, fun i hi => (hT i).mpr ?_⟩
      obtain ⟨k, hk, rfl⟩ := List.getElem_of_mem hi
      obtain ⟨i', h4, h5, _⟩ := h3 k (by omega)
      rw [List.getElem?_eq_getElem hk, Option.some.injEq] at h4
      rw [h4]
      exact h5 (hω k)
    · intro l hl hm
      rw [← hSum]
      exact prio_law_vector h D hI draw rng n hn l hl (fun i hi => (hT i).mp (hm i hi))
  have : Nonempty (Fin n) := ⟨⟨0, hn⟩⟩
  have hmin : ∀ x : Fin n → ℕ, ∃ m : Fin n, ∀ k, p.stored (x m) ≤ p.stored (x k) :=
    fun x => Finite.exists_min (fun k => p.stored (x k))
  choose m hm using hmin
  have hwt : ∀ x ∈ Fintype.piFinset (fun _ : Fin n => T),
      p.weightAt (List.ofFn x) = some ((List.ofFn x).map fun i => p.stored (x (m x)) / p.stored i) := by
    intro x hx
    have h1 := (C29_vector h hw (by rw [hb]; norm_num) (List.ofFn x)
      (by
        intro i hi
        obtain ⟨k, rfl⟩ := List.mem_ofFn.mp hi
        exact (hT _).mp (Fintype.mem_piFinset.mp hx k))
      (x (m x)) (List.mem_ofFn.mpr ⟨_, rfl⟩)
      (by
        intro i hi
        obtain ⟨k, rfl⟩ := List.mem_ofFn.mp hi
        exact hm x k)).1
    rw [h1]
    congr 1
    apply List.map_congr_left
    intro i _
    rw [hb, Real.rpow_neg_one, inv_div]
  have key := biased hn T p.stored (fun i hi => hW.pos i ((hT i).mp hi)) i j
    ((hT i).mpr hi) ((hT j).mpr hj) hij (fun x i => p.stored (x (m x)) / p.stored i)
    (by
      intro x _ t ht k
      rw [le_antisymm (ht (m x)) (hm x t)])
  rintro ⟨c, hc⟩
  refine key ⟨c, fun f => ?_⟩
  rw [← hc f, hexp f]
  apply Finset.sum_congr rfl
  intro x hx
  rw [hwt x hx, Option.getD_some, weightedMean_map]

end

/-- A buffer with two transitions of priorities 4 and 6, of both kinds of weights. -/
theorem exTwo (wn : Bool) : ∃ (p : PBuf Nat Nat Int) (ps : List ℝ), PHistory p ps 0 ∧ p.base.len = 2 ∧ p.beta = 1 ∧
    p.weightNorm = wn ∧ p.stored 0 = 4 ∧ p.stored 1 = 6 := by
  obtain ⟨p, h, ho, hb, hw, hl, hm⟩ := PBuf.new_ok (O := Nat) (A := Nat) (R := Int) 2 (by norm_num) {}
    ⟨1, 1⟩ (by norm_num) (by norm_num) 1 (by norm_num) wn
  obtain ⟨p1, r1, _, h1, o1, b1, w1, l1, m1, _⟩ := h.add_ok (tr 1 false false)
  obtain ⟨p2, r2, _, h2, o2, b2, w2, l2, m2, _⟩ := h1.add_ok (tr 2 false false)
  have hlen : p2.base.len = 2 := by rw [l2, l1, m1, hl, hm]; rfl
  obtain ⟨w', hw'⟩ := h2.inv.w.updateWeight_ok (kv := [(0, 3), (1, 5)]) (by simp) (by simp [hlen])
  have hu : p2.updateWeight [(0, 3), (1, 5)] = some { p2 with w := w' } := by simp only [PBuf.updateWeight, hw']; rfl
  have hs := (C28_update_weight h2 hu (by simp)).1
  refine ⟨_, _, h2.updateWeight (by simp [hlen]) hu, hlen, by simp [b2, b1, hb], by simp [w2, w1, hw], ?_, ?_⟩
  · rw [hs 0 3 (by simp)]
    simp [o2, o1, ho]; norm_num
  · rw [hs 1 5 (by simp)]
    simp [o2, o1, ho]; norm_num

/-- In that buffer the minibatch of slots 1, 0, 1 has probability 6/10 * 4/10 * 6/10. -/
example : ∃ (Ω : Type) (_ : MeasurableSpace Ω) (P : Measure Ω) (U : ℕ → Ω → ℝ) (p : PBuf Nat Nat Int),
    P {ω | p.sampleIndices (fun k => U k ω) id (some 3) = some [1, 0, 1]} = ENNReal.ofReal (144 / 1000) := by
  obtain ⟨p, ps, h, hl, hb, hw, s0, s1⟩ := exTwo true
  obtain ⟨Ω, _, P, U, J, _, D, hU, hJ⟩ := exists_indep_draws fun _ => 0
  refine ⟨Ω, _, P, U, p, ?_⟩
  have := C239_prioritised h D hU id 3 (by norm_num) [1, 0, 1] rfl (by simp [hl])
  simp only [hl, Finset.sum_range_succ, Finset.sum_range_zero, s0, s1, List.map_cons, List.map_nil, List.prod_cons,
    List.prod_nil, mul_one] at this
  rw [← ENNReal.ofReal_mul (by norm_num), ← ENNReal.ofReal_mul (by norm_num)] at this
  norm_num at this ⊢
  exact this

/-- A full `ReplayBuffer` of size 4: the minibatch of slots 3, 3 has probability 1/16. -/
example : ∃ (Ω : Type) (_ : MeasurableSpace Ω) (P : Measure Ω) (J : ℕ → ℕ → Ω → ℕ),
    P {ω | exBuf.sampleIndices (fun k => J 0 k ω) (some (2 : ℕ)) = .ok [3, 3]} = (1 / 4) ^ 2 := by
  obtain ⟨g, h, _⟩ := exBuf_history
  obtain ⟨Ω, _, P, U, J, _, D, hU, hJ⟩ := exists_indep_draws fun _ => 4
  refine ⟨Ω, _, P, J, ?_⟩
  have h0 : exBuf.sampleIndices id (some 0) = .ok [1, 2, 3, 0] := by rfl
  have := C239_uniform h id h0 D (hJ 0) rfl 2 (by omega) [3, 3] rfl (by simp)
  exact_mod_cast this

/-- The hypotheses of `C240_partial` and `C240_violated` can be met. -/
example : ∃ (Ω : Type) (_ : MeasurableSpace Ω) (P : Measure Ω) (U : ℕ → Ω → ℝ) (p q : PBuf Nat Nat Int),
    (∃ c : ℝ, 0 < c ∧ ∀ (n : ℕ), 0 < n → ∀ f : ℕ → ℝ, ∫ ω, p.sampledMean (fun k => U k ω) id n f ∂P = c * ((f 0 + f 1) / 2)) ∧
    ∀ n : ℕ, 0 < n → ¬ ∃ c : ℝ, ∀ f : ℕ → ℝ, ∫ ω, q.sampledMean (fun k => U k ω) id n f ∂P = c * ((f 0 + f 1) / 2) := by
  obtain ⟨p, ps, h, hl, hb, hw, _, _⟩ := exTwo false
  obtain ⟨q, qs, hq, hql, hqb, hqw, s0, s1⟩ := exTwo true
  obtain ⟨Ω, _, P, U, J, _, D, hU, hJ⟩ := exists_indep_draws fun _ => 0
  refine ⟨Ω, _, P, U, p, q, ?_, fun n hn => ?_⟩
  · simpa [hl, Finset.sum_range_succ] using C240_partial h (by omega) hb hw D hU id
  · have := C240_violated hq hqb hqw (i := 0) (j := 1) (by omega) (by omega) (by rw [s0, s1]; norm_num) D hU id n hn
    simpa [hql, Finset.sum_range_succ] using this

/-- The hypotheses of `C239_vector` and `C240_vector_violated` can be met: two slots with priorities 1 and 4. -/
example : ∃ (Ω : Type) (_ : MeasurableSpace Ω) (P : Measure Ω) (U : ℕ → Ω → ℝ) (p : PMgr Nat Nat Int)
    (sep : List (Buf Nat Nat Int)) (T : Finset ℕ), 0 ∈ T ∧ 1 ∈ T ∧ (∀ i, i ∈ T ↔ LiveIn sep i) ∧
    ∀ n : ℕ, 0 < n → ¬ ∃ c : ℝ, ∀ f : ℕ → ℝ, ∫ ω, p.sampledMean (fun k => U k ω) id (fun _ => id) n f ∂P =
      c * ((∑ i ∈ T, f i) / T.card) := by
  classical
  obtain ⟨q, p, sep, hq, h, hw, hb, l0, l1, s0, s1, hm⟩ := exPrioVector false
  obtain ⟨Ω, _, P, U, J, _, D, hU, hJ⟩ := exists_indep_draws fun _ => 0
  have hT : ∀ i, i ∈ (Finset.range p.base.total).filter (LiveIn sep) ↔ LiveIn sep i := fun i =>
    ⟨fun hi => (Finset.mem_filter.mp hi).2, fun hi => Finset.mem_filter.mpr ⟨Finset.mem_range.mpr (h.inv.w.sub i hi), hi⟩⟩
  refine ⟨Ω, _, P, U, p, sep, _, (hT 0).mpr l0, (hT 1).mpr l1, hT, fun n hn => ?_⟩
  exact C240_vector_violated h hb l0 l1 (by rw [s0, s1]; norm_num) _ hT D hU id (fun _ => id) n hn

end Verif.Buffer
