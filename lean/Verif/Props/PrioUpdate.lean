import Verif.Props.Prio
import Verif.Model.PrioUpdate

/-!
C188: updates set the priorities of the sampled transitions. C192: importance weights undo the prioritised sampling.
-/

set_option linter.unusedSectionVars false

namespace Verif.Buffer

open Finset

variable {O A R : Type} [AddCommMonoid R]

/-! ### Specification -/

/-- How wrong the policy was on a row, in the terms of the algorithm: the temporal difference, for several critics the mean of theirs, for branches their sum; the cross entropy; the mean over
the quantiles of the summed distances to the target quantiles. -/
noncomputable def errorOf (a : Algo) (r : RowErr) : ℝ :=
  match a with
  | .dqn | .ddpg | .discreteBcq | .crr => |r.td.getD 0 0|
  | .td3 | .sac | .discreteSac | .td3bc | .cql | .bcq => |(r.td.getD 0 0 + r.td.getD 1 0) / 2|
  | .redq => |r.td.sum / r.td.length|
  | .bdq => |r.td.sum|
  | .c51 | .rainbow => |r.ce|
  | .qrdqn | .iqn | .fqf | .discreteCql => (r.diff.map fun d => (d.map fun x => |x|).sum).sum / r.diff.length

/-- C188: after an update with a prioritised buffer, each transition of the batch has the priority `(e + eps) ^ alpha`, `e` its error, and the other priorities are as before. -/
def C188 : Prop :=
  ∀ (a : Algo) (p p' : PBuf Nat Nat Int) (ps : List ℝ) (old : Nat), PHistory p ps old → ∀ (indices : List Nat) (err : Nat → RowErr),
    p.policyUpdate a indices (indices.map err) = some p' →
    ∀ i, p'.stored i = if i ∈ indices then (errorOf a (err i) + p.popts.eps) ^ p.popts.alpha else p.stored i

/-- The algorithms that set priorities. -/
def Algo.sets (a : Algo) : Prop := a ≠ .cql ∧ a ≠ .bcq ∧ a ≠ .discreteBcq ∧ a ≠ .crr

/-! ### Proofs -/

/-- `update_weight` in general: a slot of the call gets one of the values given for it. -/
theorem stored_updateWeight {p p' : PBuf O A R} {ps : List ℝ} {old : Nat} (h : PHistory p ps old) {kv : List (Nat × ℝ)} (hu : p.updateWeight kv = some p') (i : Nat) :
    (i ∉ kv.map Prod.fst ∧ p'.stored i = p.stored i) ∨ ∃ x, (i, x) ∈ kv ∧ p'.stored i = (|x| + p.popts.eps) ^ p.popts.alpha := by
  unfold PBuf.updateWeight at hu
  rw [Option.map_eq_some_iff] at hu
  obtain ⟨w, hw', rfl⟩ := hu
  unfold Weights.updateWeight at hw'
  rw [Option.map_eq_some_iff] at hw'
  obtain ⟨t, ht, rfl⟩ := hw'
  obtain ⟨calls, hc⟩ := h.inv.w.tree
  have e : (kv.map fun q => ((q.1 : Int), prioOf p.popts q.2 ^ p.popts.alpha)) =
      (kv.map fun q => (q.1, prioOf p.popts q.2 ^ p.popts.alpha)).map fun q => ((q.1 : Int), q.2) := by
    rw [List.map_map]; rfl
  rw [e] at ht
  rcases setitem_get hc ht i with ⟨h1, h2⟩ | ⟨q, hq, h1, h2⟩
  · refine .inl ⟨?_, h2⟩
    rw [List.map_map] at h1
    exact h1
  · rw [List.mem_map] at hq
    obtain ⟨⟨j, x⟩, hq', rfl⟩ := hq
    simp only at h1 h2
    subst h1
    exact .inr ⟨x, hq', h2⟩

/-- The importance weight of a slot in a batch. -/
noncomputable def PBuf.isWeight (p : PBuf O A R) (indices : List Nat) (i : Nat) : ℝ :=
  if p.weightNorm then p.w.getWeight p.beta i / (indices.tail.map (p.w.getWeight p.beta)).foldl max (p.w.getWeight p.beta (indices.headD 0)) else p.w.getWeight p.beta i

theorem weightAt_isWeight (p : PBuf O A R) (indices : List Nat) (ws : List ℝ) (h : p.weightAt indices = some ws) : ws = indices.map (p.isWeight indices) := by
  unfold PBuf.weightAt Weights.batchWeight at h
  cases hn : p.weightNorm with
  | false =>
    rw [hn] at h
    simp only [Bool.false_eq_true, if_false, Option.some.injEq] at h
    rw [← h]
    apply List.map_congr_left
    intro i _
    simp [PBuf.isWeight, hn]
  | true =>
    rw [hn] at h
    simp only [if_true] at h
    match indices, h with
    | i :: l, h =>
      simp only [List.map_cons, Option.some.injEq] at h
      rw [← h]
      simp only [List.map_cons, List.map_map, List.cons.injEq]
      refine ⟨by simp [PBuf.isWeight, hn], ?_⟩
      apply List.map_congr_left
      intro j _
      simp [PBuf.isWeight, hn]

theorem policyUpdate_eq (a : Algo) (p : PBuf O A R) (indices : List Nat) (err : Nat → RowErr) (p' : PBuf O A R) (h : p.policyUpdate a indices (indices.map err) = some p') :
    p.updateWeight (indices.map fun i => (i, a.written (p.isWeight indices i) (err i))) = some p' := by
  unfold PBuf.policyUpdate at h
  cases hw : p.weightAt indices with
  | none => rw [hw] at h; simp at h
  | some ws =>
    rw [hw] at h
    have := weightAt_isWeight p indices ws hw
    simp only [Option.bind_some, PBuf.postProcess] at h
    rw [this] at h
    rw [← h]
    congr 1
    generalize p.isWeight indices = f
    clear h this hw
    induction indices with
    | nil => rfl
    | cons i l ih => simpa using ih

/-- The general form: what is stored for the transitions of the batch. -/
theorem stored_policyUpdate (a : Algo) {p p' : PBuf O A R} {ps : List ℝ} {old : Nat} (h : PHistory p ps old) (indices : List Nat) (err : Nat → RowErr)
    (hu : p.policyUpdate a indices (indices.map err) = some p') (i : Nat) :
    p'.stored i = if i ∈ indices then (|a.written (p.isWeight indices i) (err i)| + p.popts.eps) ^ p.popts.alpha else p.stored i := by
  have hu' := policyUpdate_eq a p indices err p' hu
  rcases stored_updateWeight h hu' i with ⟨h1, h2⟩ | ⟨x, h1, h2⟩
  · rw [List.map_map] at h1
    rw [if_neg (by simpa [Function.comp_def] using h1), h2]
  · simp only [List.mem_map, Prod.mk.injEq] at h1
    obtain ⟨j, hj, rfl, rfl⟩ := h1
    rw [if_pos hj, h2]

/-- **C188, what holds.** For all algorithms except CQL, BCQ and its discrete form, and CRR, every update of a policy with a prioritised buffer, after any history of the buffer and for all indices (repeated ones
too), gives each transition of the batch the priority `(e + eps) ^ alpha` and leaves the other priorities. -/
theorem C188_partial (a : Algo) (ha : a.sets) {p p' : PBuf O A R} {ps : List ℝ} {old : Nat} (h : PHistory p ps old) (indices : List Nat) (err : Nat → RowErr)
    (hu : p.policyUpdate a indices (indices.map err) = some p') (i : Nat) :
    p'.stored i = if i ∈ indices then (errorOf a (err i) + p.popts.eps) ^ p.popts.alpha else p.stored i := by
  rw [stored_policyUpdate a h indices err hu i]
  have hpos : ∀ d : List (List ℝ), 0 ≤ (d.map fun d => (d.map fun x => |x|).sum).sum / (d.length : ℝ) := by
    intro d
    refine div_nonneg (List.sum_nonneg ?_) (by positivity)
    intro x hx
    simp only [List.mem_map] at hx
    obtain ⟨y, _, rfl⟩ := hx
    refine List.sum_nonneg ?_
    intro z hz
    simp only [List.mem_map] at hz
    obtain ⟨v, _, rfl⟩ := hz
    exact abs_nonneg v
  obtain ⟨h1, h2, h3, h4⟩ := ha
  cases a <;> first | contradiction | (simp only [Algo.written, errorOf, abs_of_nonneg (hpos _)])

/-- The update succeeds when the indices are those of stored transitions. -/
theorem C188_succeeds (a : Algo) {p : PBuf O A R} {ps : List ℝ} {old : Nat} (h : PHistory p ps old) (indices : List Nat) (hne : indices ≠ []) (hi : ∀ i ∈ indices, i < p.base.len)
    (err : Nat → RowErr) : ∃ p', p.policyUpdate a indices (indices.map err) = some p' := by
  have hw : ∃ ws, p.weightAt indices = some ws := by
    unfold PBuf.weightAt Weights.batchWeight
    cases p.weightNorm with
    | false => exact ⟨_, rfl⟩
    | true =>
      match indices, hne with
      | i :: l, _ => exact ⟨_, rfl⟩
  obtain ⟨ws, hws⟩ := hw
  have hl : ws.length = indices.length := by rw [weightAt_isWeight p indices ws hws]; simp
  obtain ⟨w', hw'⟩ := h.inv.w.updateWeight_ok (kv := indices.zip (List.zipWith a.written ws (indices.map err)))
    (by
      match indices, ws, hne, hl with
      | i :: l, w :: ws, _, _ => simp)
    (by
      rintro ⟨i, x⟩ hq
      have := hi i (List.of_mem_zip hq).1
      simp only
      omega)
  exact ⟨_, by simp only [PBuf.policyUpdate, hws, Option.bind_some, PBuf.postProcess, PBuf.updateWeight, hw']; rfl⟩

/-- A buffer with two transitions, an update of a policy with two critics on both and on one of them twice. -/
example : ∃ (p p' : PBuf Nat Nat Int) (ps : List ℝ), PHistory p ps 0 ∧
    p.policyUpdate .sac [1, 0, 1] ([1, 0, 1].map fun (i : Nat) => ⟨[(i : ℝ), 3], 0, []⟩) = some p' := by
  obtain ⟨p, h, hl, _, _⟩ := exPrio
  obtain ⟨p', h'⟩ := C188_succeeds .sac h [1, 0, 1] (by simp) (by simp [hl]) fun i => ⟨[(i : ℝ), 3], 0, []⟩
  exact ⟨p, p', [], h, h'⟩

theorem getWeight_pos {p : PBuf O A R} {ps : List ℝ} {old : Nat} (h : PHistory p ps old) (i : Nat) (hi : i < max old p.base.len) : 0 < p.w.getWeight p.beta i := by
  have I := h.inv.w
  have hm : 0 < p.w.minPrio := by
    rw [I.minp]
    have : ∀ (l : List ℝ) (c : ℝ), 0 < c → (∀ x ∈ l, 0 < x) → 0 < l.foldl min c := by
      intro l
      induction l with
      | nil => intro c hc _; exact hc
      | cons x l ih => intro c hc hx; exact ih _ (lt_min hc (hx x (by simp))) fun y hy => hx y (by simp [hy])
    exact this _ _ one_pos I.psPos
  unfold Weights.getWeight
  exact Real.rpow_pos_of_pos (div_pos (I.pos i hi) hm) _

theorem isWeight_pos {p : PBuf O A R} {ps : List ℝ} {old : Nat} (h : PHistory p ps old) (indices : List Nat) (hne : indices ≠ []) (hi : ∀ i ∈ indices, i < max old p.base.len)
    (i : Nat) (hm : i ∈ indices) : 0 < p.isWeight indices i := by
  unfold PBuf.isWeight
  split_ifs
  · refine div_pos (getWeight_pos h i (hi i hm)) ?_
    match indices, hne with
    | j :: l, _ => exact lt_of_lt_of_le (getWeight_pos h j (hi j (by simp))) (le_foldl_max _ _).1
  · exact getWeight_pos h i (hi i hm)

/-- The other algorithms write the importance weight `w` of a transition back as its priority, `(w + eps) ^ alpha`; the errors do not matter. -/
theorem C188_others (a : Algo) (ha : ¬ a.sets) {p p' : PBuf O A R} {ps : List ℝ} {old : Nat} (h : PHistory p ps old) (indices : List Nat)
    (hi : ∀ i ∈ indices, i < p.base.len) (err : Nat → RowErr) (hu : p.policyUpdate a indices (indices.map err) = some p') :
    ∃ ws, p.weightAt indices = some ws ∧ ws.length = indices.length ∧
      ∀ (k i : Nat) (w : ℝ), indices[k]? = some i → ws[k]? = some w → 0 < w ∧ p'.stored i = (w + p.popts.eps) ^ p.popts.alpha := by
  cases hw : p.weightAt indices with
  | none => unfold PBuf.policyUpdate at hu; rw [hw] at hu; simp at hu
  | some ws =>
    have hws := weightAt_isWeight p indices ws hw
    refine ⟨ws, rfl, by rw [hws]; simp, ?_⟩
    intro k i w hk hkw
    rw [hws, List.getElem?_map, hk] at hkw
    simp only [Option.map_some, Option.some.injEq] at hkw
    have hm : i ∈ indices := List.mem_of_getElem? hk
    have hpos : 0 < w := by
      rw [← hkw]
      exact isWeight_pos h indices (List.ne_nil_of_mem hm) (fun j hj => lt_max_of_lt_right (hi j hj)) i hm
    refine ⟨hpos, ?_⟩
    rw [stored_policyUpdate a h indices err hu i, if_pos hm, hkw]
    have : a.written w (err i) = w := by
      cases a <;> first | rfl | (exfalso; apply ha; refine ⟨?_, ?_, ?_, ?_⟩ <;> decide)
    rw [this, abs_of_pos hpos]

/-- For these algorithms an update reverses the order of the priorities within the batch: of two transitions, the one with the higher priority has the lower one afterwards (`beta > 0`). -/
theorem C188_reversed (a : Algo) (ha : ¬ a.sets) {p p' : PBuf O A R} {ps : List ℝ} {old : Nat} (h : PHistory p ps old) (hb : 0 < p.beta) (hal : 0 < p.popts.alpha) (he : 0 < p.popts.eps)
    (indices : List Nat) (hi : ∀ i ∈ indices, i < p.base.len) (err : Nat → RowErr) (hu : p.policyUpdate a indices (indices.map err) = some p')
    (i j : Nat) (hii : i ∈ indices) (hjj : j ∈ indices) (hij : p.stored i < p.stored j) : p'.stored j < p'.stored i := by
  have hi' : ∀ i ∈ indices, i < max old p.base.len := fun j hj => lt_max_of_lt_right (hi j hj)
  have hwr : ∀ w r, a.written w r = w := by
    intro w r
    cases a <;> first | rfl | (exfalso; apply ha; refine ⟨?_, ?_, ?_, ?_⟩ <;> decide)
  rw [stored_policyUpdate a h indices err hu i, if_pos hii, stored_policyUpdate a h indices err hu j, if_pos hjj, hwr, hwr]
  have hne := List.ne_nil_of_mem hii
  rw [abs_of_pos (isWeight_pos h indices hne hi' i hii), abs_of_pos (isWeight_pos h indices hne hi' j hjj)]
  have hlt : p.w.getWeight p.beta j < p.w.getWeight p.beta i := by
    have I := h.inv.w
    have hm : 0 < p.w.minPrio := by
      rw [I.minp]
      have : ∀ (l : List ℝ) (c : ℝ), 0 < c → (∀ x ∈ l, 0 < x) → 0 < l.foldl min c := by
        intro l
        induction l with
        | nil => intro c hc _; exact hc
        | cons x l ih => intro c hc hx; exact ih _ (lt_min hc (hx x (by simp))) fun y hy => hx y (by simp [hy])
      exact this _ _ one_pos I.psPos
    unfold Weights.getWeight
    refine Real.rpow_lt_rpow_of_neg (div_pos (I.pos i (hi' i hii)) hm) ?_ (by linarith)
    exact div_lt_div_of_pos_right hij hm
  have hlt2 : p.isWeight indices j < p.isWeight indices i := by
    unfold PBuf.isWeight
    split_ifs
    · refine div_lt_div_of_pos_right hlt ?_
      match indices, hne with
      | k :: l, _ => exact lt_of_lt_of_le (getWeight_pos h k (hi' k (by simp))) (le_foldl_max _ _).1
    · exact hlt
  refine Real.rpow_lt_rpow ?_ (by linarith) hal
  have := isWeight_pos h indices hne hi' j hjj
  linarith

/-- **C188 is violated**: with CQL the priority after an update does not depend on the error. -/
theorem C188_violated : ¬ C188 := by
  intro hC
  obtain ⟨p, h, ho, hb, hw, hl, hm⟩ := PBuf.new_ok (O := Nat) (A := Nat) (R := Int) 2 (by norm_num) {}
    ⟨1, 1⟩ (by norm_num) (by norm_num) 1 (by norm_num) true
  obtain ⟨p1, r1, _, h1, o1, b1, w1, l1, m1, _⟩ := h.add_ok (tr 1 false false)
  have hlen : p1.base.len = 1 := by rw [l1, hl, hm]; rfl
  obtain ⟨p2, h2⟩ := C188_succeeds .cql h1 [0] (by simp) (by simp [hlen]) fun _ => ⟨[3, 3], 0, []⟩
  obtain ⟨p3, h3⟩ := C188_succeeds .cql h1 [0] (by simp) (by simp [hlen]) fun _ => ⟨[5, 5], 0, []⟩
  have e2 := hC .cql p1 p2 [] 0 h1 [0] _ h2 0
  have e3 := hC .cql p1 p3 [] 0 h1 [0] _ h3 0
  have s2 := stored_policyUpdate .cql h1 [0] _ h2 0
  have s3 := stored_policyUpdate .cql h1 [0] _ h3 0
  have : p2.stored 0 = p3.stored 0 := by rw [s2, s3]; rfl
  rw [e2, e3] at this
  simp [errorOf, o1, ho] at this

/-- Opposite errors of two critics cancel: the transition gets the smallest possible priority although both critics are wrong on it. -/
theorem C188_cancel {p p' : PBuf O A R} {ps : List ℝ} {old : Nat} (h : PHistory p ps old) (indices : List Nat) (err : Nat → RowErr) (hu : p.policyUpdate .sac indices (indices.map err) = some p')
    (i : Nat) (hi : i ∈ indices) (d : ℝ) (hd : (err i).td = [d, -d]) : p'.stored i = p.popts.eps ^ p.popts.alpha := by
  rw [C188_partial .sac (by simp [Algo.sets]) h indices err hu i, if_pos hi]
  simp [errorOf, hd]

/-- A manager of several agents never changes priorities. -/
theorem C188_manager (p p' : PBuf O A R) (indices : List Nat) (hu : p.managerUpdate indices = some p') : p' = p := by
  unfold PBuf.managerUpdate at hu
  cases hw : p.weightAt indices with
  | none => rw [hw] at hu; simp at hu
  | some ws =>
    rw [hw] at hu
    simp only [Option.bind_some, PBuf.postProcess, Option.some.injEq] at hu
    exact hu.symm

/-! ### Importance weights -/

/-- **C192** The weights of a buffer with `beta = 1` and without normalisation undo the prioritised sampling: whatever the function, its mean over a transition drawn by priority (C26), weighted with the importance weight, is
a positive constant, independent of the function, times its plain mean over the stored transitions. -/
theorem C192_unbiased {p : PBuf O A R} {ps : List ℝ} (h : PHistory p ps 0) (hne : 0 < p.base.len) (hb : p.beta = 1) (hn : p.weightNorm = false) :
    ∃ c : ℝ, 0 < c ∧ ∀ (f : Nat → ℝ) (w : Nat → ℝ), (∀ i < p.base.len, p.weightAt [i] = some [w i]) →
      ∑ i ∈ range p.base.len, p.stored i / (∑ j ∈ range p.base.len, p.stored j) * (w i * f i) = c * ((∑ i ∈ range p.base.len, f i) / p.base.len) := by
  have I := h.inv.w
  have hpos : ∀ i < p.base.len, 0 < p.stored i := fun i hi => I.pos i (by omega)
  have hm : 0 < p.w.minPrio := by
    rw [I.minp]
    have : ∀ (l : List ℝ) (c : ℝ), 0 < c → (∀ x ∈ l, 0 < x) → 0 < l.foldl min c := by
      intro l
      induction l with
      | nil => intro c hc _; exact hc
      | cons x l ih => intro c hc hx; exact ih _ (lt_min hc (hx x (by simp))) fun y hy => hx y (by simp [hy])
    exact this _ _ one_pos I.psPos
  have hS : 0 < ∑ j ∈ range p.base.len, p.stored j :=
    Finset.sum_pos (fun i hi => hpos i (Finset.mem_range.mp hi)) ⟨0, Finset.mem_range.mpr hne⟩
  have hL : (0 : ℝ) < p.base.len := by exact_mod_cast hne
  refine ⟨p.w.minPrio / (∑ j ∈ range p.base.len, p.stored j) * p.base.len, by positivity, ?_⟩
  intro f w hw
  have e : ∀ i ∈ range p.base.len, p.stored i / (∑ j ∈ range p.base.len, p.stored j) * (w i * f i) =
      p.w.minPrio / (∑ j ∈ range p.base.len, p.stored j) * f i := by
    intro i hi
    have hi := Finset.mem_range.mp hi
    have h1 := weightAt_isWeight p [i] _ (hw i hi)
    simp only [List.map_cons, List.map_nil, List.cons.injEq, and_true, PBuf.isWeight, hn, Bool.false_eq_true, if_false, Weights.getWeight, hb] at h1
    rw [h1, Real.rpow_neg_one]
    have h2 := hpos i hi
    unfold PBuf.stored at *
    field_simp
  rw [Finset.sum_congr rfl e, ← Finset.mul_sum]
  field_simp

/-- A buffer with two transitions of different priorities. -/
example : ∃ (p : PBuf Nat Nat Int) (ps : List ℝ) (w : Nat → ℝ), PHistory p ps 0 ∧ p.base.len = 2 ∧ p.beta = 1 ∧ p.weightNorm = false ∧ p.stored 0 ≠ p.stored 1 ∧
    ∀ i < p.base.len, p.weightAt [i] = some [w i] := by
  obtain ⟨p, h, ho, hb, hw, hl, hm⟩ := PBuf.new_ok (O := Nat) (A := Nat) (R := Int) 2 (by norm_num) {}
    ⟨1, 1⟩ (by norm_num) (by norm_num) 1 (by norm_num) false
  obtain ⟨p1, r1, _, h1, o1, b1, w1, l1, m1, _⟩ := h.add_ok (tr 1 false false)
  obtain ⟨p2, r2, _, h2, o2, b2, w2, l2, m2, _⟩ := h1.add_ok (tr 2 false false)
  have hlen : p2.base.len = 2 := by rw [l2, l1, m1, hl, hm]; rfl
  obtain ⟨w', hw'⟩ := h2.inv.w.updateWeight_ok (kv := [(0, 3), (1, 5)]) (by simp) (by simp [hlen])
  have hu : p2.updateWeight [(0, 3), (1, 5)] = some { p2 with w := w' } := by simp only [PBuf.updateWeight, hw']; rfl
  have hs := (C28_update_weight h2 hu (by simp)).1
  refine ⟨_, _, fun i => Weights.getWeight w' p2.beta i, h2.updateWeight (by simp [hlen]) hu, hlen, by simp [b2, b1, hb], by simp [w2, w1, hw], ?_, ?_⟩
  · rw [hs 0 3 (by simp), hs 1 5 (by simp)]
    simp [o2, o1, ho]
  · intro i _
    simp [PBuf.weightAt, Weights.batchWeight, w2, w1, hw]

/-- In the loss the weights multiply the squared temporal differences. -/
theorem C192_loss (huber : ℝ → ℝ) (weights td : List ℝ) (h : weights.length = td.length) :
    criticLoss false huber weights td = (∑ i ∈ range td.length, weights.getD i 0 * td.getD i 0 ^ 2) / td.length := by
  unfold criticLoss
  simp only [Bool.false_eq_true, if_false]
  congr 1
  induction td generalizing weights with
  | nil =>
    have : weights = [] := by simpa using h
    subst this
    simp
  | cons d td ih =>
    match weights, h with
    | w :: ws, h =>
      rw [List.zipWith_cons_cons, List.sum_cons, List.length_cons, Finset.sum_range_succ']
      rw [ih ws (by simpa using h)]
      simp only [List.getD_cons_succ, List.getD_cons_zero]
      ring

/-- C192 for the loss: it depends on the importance weights, for rows with errors that are not zero. -/
def C192 : Prop :=
  ∀ (clipGrad : Bool) (w w' d : ℝ), d ≠ 0 → w ≠ w' → criticLoss clipGrad (fun x => if |x| ≤ 1 then x ^ 2 / 2 else |x| - 1 / 2) [w] [d] ≠
    criticLoss clipGrad (fun x => if |x| ≤ 1 then x ^ 2 / 2 else |x| - 1 / 2) [w'] [d]

/-- With `clip_loss_grad` the weights are not used at all: the loss is the mean Huber loss. -/
theorem C192_ignored (huber : ℝ → ℝ) (w td : List ℝ) :
    criticLoss true huber w td = (∑ i ∈ range td.length, huber (td.getD i 0)) / td.length := by
  unfold criticLoss
  simp only [if_true]
  congr 1
  induction td with
  | nil => simp
  | cons d td ih =>
    rw [List.map_cons, List.sum_cons, List.length_cons, Finset.sum_range_succ', ih]
    simp only [List.getD_cons_succ, List.getD_cons_zero]
    ring

/-- Without it they are. -/
theorem C192_used_partial (huber : ℝ → ℝ) (w w' d : ℝ) (hd : d ≠ 0) (hw : w ≠ w') : criticLoss false huber [w] [d] ≠ criticLoss false huber [w'] [d] := by
  rw [C192_loss huber [w] [d] rfl, C192_loss huber [w'] [d] rfl]
  simp [hd, hw]

/-- **C192 is violated** by DQN with `clip_loss_grad`. -/
theorem C192_violated : ¬ C192 := by
  intro h
  exact h true 1 2 1 one_ne_zero (by norm_num) rfl

end Verif.Buffer
