import Verif.Lemmas.Prio

/-! Properties C26-C30, C70, C71: prioritised replay buffers.

`p.w.tree` is the public attribute `buffer.weight` (a `SegmentTree`); `SegTree.getitem p.w.tree i` is
`buffer.weight[i]`, the stored priority of slot `i`. -/

set_option linter.unusedSectionVars false

namespace Verif.Buffer

open Verif.Spec Finset

variable {O A R : Type} [AddCommMonoid R]

/-- `buffer.weight[i]`. -/
noncomputable def PBuf.stored (p : PBuf O A R) (i : Nat) : ℝ := SegTree.getitem p.w.tree i

/-- `buffer.weight[i]`. -/
noncomputable def PMgr.stored (p : PMgr O A R) (i : Nat) : ℝ := SegTree.getitem p.w.tree i

/-! ### Operations succeed; running example -/

theorem WInv.updateWeight_ok {o w size T ps} (I : WInv o w size T ps) {kv : List (Nat × ℝ)} (hne : kv ≠ [])
    (hT : ∀ q ∈ kv, T q.1) : ∃ w', w.updateWeight o kv = some w' := by
  obtain ⟨calls, hc⟩ := I.tree
  obtain ⟨t', ht⟩ := setitem_total hc (kv.map fun q => (q.1, prioOf o q.2 ^ o.alpha)) (by simpa using hne) (by
    intro p hp
    rw [List.mem_map] at hp
    obtain ⟨q, hq, rfl⟩ := hp
    exact I.sub _ (hT q hq))
  rw [List.map_map] at ht
  exact ⟨_, by unfold Weights.updateWeight; erw [ht]; rfl⟩

theorem WInv.updateWeight_get {o w size T ps} (I : WInv o w size T ps) {kv : List (Nat × ℝ)} {w' : Weights}
    (h : w.updateWeight o kv = some w') (hnd : (kv.map Prod.fst).Nodup) {i : Nat} {x : ℝ} (hx : (i, x) ∈ kv) :
    SegTree.getitem w'.tree i = (|x| + o.eps) ^ o.alpha := by
  unfold Weights.updateWeight at h
  rw [Option.map_eq_some_iff] at h
  obtain ⟨t, ht, rfl⟩ := h
  obtain ⟨calls, hc⟩ := I.tree
  have e : (kv.map fun p => ((p.1 : Int), prioOf o p.2 ^ o.alpha)) =
      (kv.map fun p => (p.1, prioOf o p.2 ^ o.alpha)).map fun p => ((p.1 : Int), p.2) := by
    rw [List.map_map]; rfl
  rw [e] at ht
  rcases setitem_get hc ht i with ⟨h1, _⟩ | ⟨p, hp, h1, h2⟩
  · exfalso
    apply h1
    rw [List.map_map]
    exact List.mem_map.mpr ⟨(i, x), hx, rfl⟩
  · rw [List.mem_map] at hp
    obtain ⟨⟨j, y⟩, hq, rfl⟩ := hp
    simp only at h1 h2
    subst h1
    have : y = x := by
      have := List.inj_on_of_nodup_map hnd hq hx rfl
      exact (Prod.mk.inj this).2
    rw [h2, this]
    rfl

theorem PBuf.new_ok (size : Nat) (hs : 0 < size) (opts : Opts O) (popts : PrioOpts) (ha : 0 < popts.alpha)
    (he : 0 < popts.eps) (beta : ℝ) (hb : 0 ≤ beta) (wn : Bool) :
    ∃ p : PBuf O A R, PHistory p [] 0 ∧ p.popts = popts ∧ p.beta = beta ∧ p.weightNorm = wn ∧ p.base.len = 0 ∧
      p.base.idx.maxsize = size :=
  ⟨_, PHistory.new size hs opts popts he beta wn (by unfold PBuf.new; rw [if_pos ⟨ha, hb⟩]), rfl, rfl, rfl, rfl, rfl⟩

/-- `add` always succeeds; the options stay and the length grows by one until the buffer is full. -/
theorem PHistory.add_ok {p : PBuf O A R} {ps : List ℝ} {old : Nat} (h : PHistory p ps old) (t : Trans O A R) :
    ∃ p' r, p.add t = some (p', r) ∧ PHistory p' ps old ∧ p'.popts = p.popts ∧ p'.beta = p.beta ∧
      p'.weightNorm = p.weightNorm ∧ p'.base.len = min (p.base.len + 1) p.base.idx.maxsize ∧
      p'.base.idx.maxsize = p.base.idx.maxsize ∧ r.slot = p.base.idx.ins := by
  obtain ⟨p', r, ha⟩ := PBuf.add_ok h.inv t
  refine ⟨p', r, ha, h.add ha, ?_⟩
  unfold PBuf.add at ha
  obtain ⟨g, hg⟩ := h.inv.hist
  cases hb : p.base.add t with
  | error e => rw [hb] at ha; cases ha
  | ok q =>
    obtain ⟨b, r'⟩ := q
    rw [hb] at ha
    simp only [Option.map_eq_some_iff, Prod.mk.injEq] at ha
    obtain ⟨w, _, rfl, rfl⟩ := ha
    obtain ⟨I', _, hm, hr, _⟩ := hg.inv.add hb
    have hs' := I'.size
    have hs := hg.inv.size
    simp only [List.length_append, List.length_cons, List.length_nil, hm] at hs'
    refine ⟨rfl, rfl, rfl, ?_, hm, by rw [hr]⟩
    unfold Buf.len
    simp only [hs', hs]
    omega

/-- A buffer of size 2 with `alpha = beta = 1` holding two transitions. -/
theorem exPrio : ∃ p : PBuf Nat Nat Int, PHistory p [] 0 ∧ p.base.len = 2 ∧ p.beta = 1 ∧ p.weightNorm = true := by
  obtain ⟨p, h, ho, hb, hw, hl, hm⟩ := PBuf.new_ok (O := Nat) (A := Nat) (R := Int) 2 (by norm_num) {}
    ⟨1, 1⟩ (by norm_num) (by norm_num) 1 (by norm_num) true
  obtain ⟨p1, r1, _, h1, o1, b1, w1, l1, m1, _⟩ := h.add_ok (tr 1 false false)
  obtain ⟨p2, r2, _, h2, o2, b2, w2, l2, m2, _⟩ := h1.add_ok (tr 2 false false)
  exact ⟨p2, h2, by rw [l2, l1, m1, hl, hm]; rfl, by rw [b2, b1, hb], by rw [w2, w1, hw]⟩

/-! ### C26 -/

/-- **C26** on a non-empty buffer that was never reset (`old = 0`), `sample_indices(n)` with `n > 0` returns
`n` live slots, whatever the random numbers in `[0, 1)`; slot `i` is drawn exactly by the random numbers of
`(S_i / S, (S_i + w_i) / S]`, an interval of length `w_i / S` (`w` the stored priorities, `S_i` the sum of
those before slot `i`, `S` their sum). -/
theorem C26_prioritised_sampling {p : PBuf O A R} {ps : List ℝ} (h : PHistory p ps 0) (hne : 0 < p.base.len)
    (u : Nat → ℝ) (hu : ∀ k, 0 ≤ u k ∧ u k < 1) (rng : Nat → Nat) (n : Nat) (hn : 0 < n) :
    ∃ l, p.sampleIndices u rng (some n) = some l ∧ l.length = n ∧ (∀ i ∈ l, i < p.base.len) ∧
      ∀ (k : Nat), k < n → 0 < u k → ∀ i, l[k]? = some i ↔
        (∑ j ∈ range i, p.stored j) / (∑ j ∈ range p.base.len, p.stored j) < u k ∧
        u k ≤ ((∑ j ∈ range i, p.stored j) + p.stored i) / (∑ j ∈ range p.base.len, p.stored j) := by
  have I := h.inv
  obtain ⟨g, hg⟩ := I.hist
  have hW := I.w.congr (T' := fun i => i < p.base.len) (by simp)
  obtain ⟨l, h1, h2, h3⟩ := hW.sample hne u hu n
  have htot : ∑ j ∈ range p.base.idx.maxsize, SegTree.getitem p.w.tree j = ∑ j ∈ range p.base.len, p.stored j := by
    symm
    apply sum_subset
    · intro j hj
      have := hg.holds.size_le
      simp only [Finset.mem_range, Buf.len] at *
      omega
    · intro j _ hj
      exact hW.zero j (by simpa using hj)
  refine ⟨l, ?_, h2, ?_, ?_⟩
  · unfold PBuf.sampleIndices
    simp only
    rw [if_pos ⟨by omega, hne⟩]
    exact h1
  · intro i hi
    obtain ⟨k, hk, he⟩ := List.getElem_of_mem hi
    obtain ⟨i', h4, h5, h6, _⟩ := h3 k (by omega)
    rw [List.getElem?_eq_getElem hk, Option.some.injEq, he] at h4
    subst h4
    rcases (hu k).1.eq_or_lt with h0 | h0
    · rw [h6 h0.symm]; exact hne
    · exact h5 h0
  · intro k hk huk i
    obtain ⟨i', h4, _, _, h7⟩ := h3 k hk
    rw [← htot]
    rw [h4, Option.some.injEq, eq_comm]
    exact h7 huk i

example : ∃ p : PBuf Nat Nat Int, PHistory p [] 0 ∧ 0 < p.base.len := by
  obtain ⟨p, h, hl, _⟩ := exPrio
  exact ⟨p, h, by omega⟩

/-- **C26** for a `PrioritizedVectorReplayBuffer` (never reset): `n` indices; each drawn by a random number
`u > 0` is live, with the same intervals as above. Missing for the full claim: for `u = 0` the index is 0,
which is not live if the first sub-buffer is empty (`C26_vector_violated`). -/
theorem C26_vector_partial {p : PMgr O A R} {sep : List (Buf O A R)} {ps : List ℝ} (h : PMHistory p sep ps)
    (hne : 0 < p.base.len) (u : Nat → ℝ) (hu : ∀ k, 0 ≤ u k ∧ u k < 1) (draw : Nat → Nat)
    (rng : Nat → Nat → Nat) (n : Nat) (hn : 0 < n) :
    ∃ l, p.sampleIndices u draw rng (some n) = some l ∧ l.length = n ∧
      ∀ (k : Nat), k < n → ∃ i, l[k]? = some i ∧ (0 < u k → LiveIn sep i) ∧ (u k = 0 → i = 0) ∧
        (0 < u k → ∀ i', i' = i ↔
          (∑ j ∈ range i', p.stored j) / (∑ j ∈ range p.base.total, p.stored j) < u k ∧
          u k ≤ ((∑ j ∈ range i', p.stored j) + p.stored i') / (∑ j ∈ range p.base.total, p.stored j)) := by
  have I := h.inv
  obtain ⟨i0, hi0⟩ : ∃ i, LiveIn sep i := by
    rw [C22_len I.reach] at hne
    by_contra hc
    push Not at hc
    have : (sep.map Buf.len).sum = 0 := by
      apply List.sum_eq_zero
      intro x hx
      rw [List.mem_map] at hx
      obtain ⟨c, hcm, rfl⟩ := hx
      obtain ⟨b, hb, he⟩ := List.getElem_of_mem hcm
      by_contra h0
      exact hc (startOf sep b) ⟨b, c, by rw [List.getElem?_eq_getElem hb, he], le_refl _, by omega⟩
    omega
  obtain ⟨l, h1, h2, h3⟩ := I.w.sample hi0 u hu n
  refine ⟨l, ?_, h2, h3⟩
  unfold PMgr.sampleIndices
  simp only
  rw [if_pos ⟨by omega, hne⟩]
  exact h1

theorem PMHistory.add_ok {p : PMgr O A R} {sep : List (Buf O A R)} {ps : List ℝ} (h : PMHistory p sep ps)
    (ids : List Nat) (rows : List (Trans O A R)) (hl : ids.length = rows.length)
    (hid : ∀ b ∈ ids, b < sep.length) (hne : ids ≠ []) :
    ∃ p' sep' res res', p.add ids rows = some (p', res) ∧ PMHistory p' sep' ps ∧
      routeAll sep (ids.zip rows) = some (sep', res') ∧ sep'.length = sep.length ∧
      p'.popts = p.popts ∧ p'.beta = p.beta ∧ p'.weightNorm = p.weightNorm := by
  have I := h.inv
  obtain ⟨m', sep', res, h1, h2, h3, h4, _, _⟩ := C20_add I.reach ids rows hl hid
  obtain ⟨calls, hc⟩ := I.w.tree
  set rs := List.zipWith (fun b r => AddResult.shift (startOf sep b) r) ids res with hrs
  have hlive : ∀ i ∈ rs.map AddResult.slot, LiveIn sep' i := by
    intro i hi
    rw [routeAll_live _ I.reach.inv.hist h1]
    right
    have : rs.map AddResult.slot =
        List.zipWith (fun (p : Nat × Trans O A R) (r : AddResult R) => r.slot + startOf sep p.1) (ids.zip rows) res := by
      rw [hrs]
      apply List.ext_getElem
      · simp [h3, hl]
      · intro k h3 h4
        simp [AddResult.shift]
    rwa [← this]
  have htot : m'.total = p.base.total := by
    unfold Mgr.add at h2
    rw [if_neg (by omega)] at h2
    simp only at h2
    split at h2
    · cases h2
    · cases h2; rfl
  have hlt : ∀ i ∈ rs.map AddResult.slot, i < p.base.total := by
    intro i hi
    obtain ⟨b, c, hb, h5, h6⟩ := hlive i hi
    obtain ⟨s, hs, rfl⟩ := h4.inv.get' hb
    obtain ⟨g, hg⟩ := h4.inv.child_hist hs
    have h7 := hg.holds.size_le
    have h8 := h4.inv.layout.le_total hs
    have h9 := h4.inv.offset_eq hs
    rw [htot] at h8
    have e : (m'.child s).idx = s.idx := rfl
    unfold Buf.len at h6
    rw [e] at h6 h7
    omega
  obtain ⟨t', ht⟩ := setitem_total hc ((rs.map AddResult.slot).map fun i => (i, p.w.maxPrio ^ p.popts.alpha))
    (by
      have : rs.length ≠ 0 := by
        rw [hrs, List.length_zipWith, h3, Nat.min_self]
        intro h0
        exact hne (List.length_eq_zero_iff.mp h0)
      intro h0
      simp only [List.map_eq_nil_iff] at h0
      exact this (by rw [h0]; rfl))
    (by
      intro q hq
      rw [List.mem_map] at hq
      obtain ⟨i, hi, rfl⟩ := hq
      exact hlt i hi)
  have hadd : p.add ids rows = some ({ p with base := m', w := { p.w with tree := t' } }, rs) := by
    unfold PMgr.add
    rw [h2]
    simp only [Weights.initWeight]
    rw [List.map_map] at ht
    erw [ht]
    rfl
  exact ⟨_, sep', rs, res, hadd, h.add hadd h1, h1, (routeAll_bound _ h1).2, rfl, rfl, rfl⟩

theorem PMgr.new_ok (totalSize bufferNum : Nat) (hs : 0 < totalSize) (hn : 0 < bufferNum) (opts : Opts O)
    (popts : PrioOpts) (ha : 0 < popts.alpha) (he : 0 < popts.eps) (beta : ℝ) (hb : 0 ≤ beta) (wn : Bool) :
    ∃ p : PMgr O A R, PMgr.new totalSize bufferNum opts popts beta wn = some p ∧
      PMHistory p (List.replicate bufferNum (Buf.new ((totalSize + bufferNum - 1) / bufferNum) opts)) [] ∧
      p.popts = popts ∧ p.beta = beta := by
  have e : PMgr.new (A := A) (R := R) totalSize bufferNum opts popts beta wn =
      some ⟨Mgr.newVector totalSize bufferNum opts, Weights.new (Mgr.newVector (A := A) (R := R) totalSize bufferNum opts).total,
        popts, beta, true, List.replicate bufferNum beta⟩ := by
    unfold PMgr.new; rw [if_pos ⟨ha, hb, hn⟩]
  exact ⟨_, e, PMHistory.new totalSize bufferNum hs opts popts he beta wn e, rfl, rfl⟩

/-- **C26** is violated for vector buffers by the random number 0: two sub-buffers of size 1, one transition
for the second environment; the draw `u = 0` gives slot 0, which is empty. -/
theorem C26_vector_violated : ∃ (p : PMgr Nat Nat Int) (sep : List (Buf Nat Nat Int)),
    PMHistory p sep [] ∧ 0 < p.base.len ∧
      p.sampleIndices (fun _ => 0) (fun _ => 0) (fun _ _ => 0) (some 1) = some [0] ∧ ¬ LiveIn sep 0 := by
  obtain ⟨p, _, h, _, _⟩ := PMgr.new_ok (O := Nat) (A := Nat) (R := Int) 2 2 (by norm_num) (by norm_num) {}
    ⟨1, 1⟩ (by norm_num) (by norm_num) 1 (by norm_num) true
  obtain ⟨p', sep', res, res', _, h', hr, _⟩ := h.add_ok [1] [tr 5 false false] rfl (by simp) (by simp)
  have hsep : sep'.map Buf.len = [0, 1] ∧ sep'.map (fun c => c.idx.maxsize) = [1, 1] := by
    have : routeAll (List.replicate 2 (Buf.new ((2 + 2 - 1) / 2) ({} : Opts Nat) : Buf Nat Nat Int))
        ([1].zip [tr 5 false false]) = some (sep', res') := hr
    simp only [List.zip_cons_cons, List.zip_nil_right, routeAll, List.replicate] at this
    cases this
    exact ⟨rfl, rfl⟩
  have hlen : p'.base.len = 1 := by rw [C22_len h'.inv.reach, hsep.1]; rfl
  refine ⟨p', sep', h', by omega, ?_, ?_⟩
  · obtain ⟨l, h1, h2, h3⟩ := C26_vector_partial h' (by omega) (fun _ => 0) (fun _ => ⟨le_refl _, one_pos⟩)
      (fun _ => 0) (fun _ _ => 0) 1 one_pos
    obtain ⟨i, h4, _, h5, _⟩ := h3 0 one_pos
    rw [h5 rfl] at h4
    have h1' : p'.sampleIndices (fun _ => 0) (fun _ => 0) (fun _ _ => 0) (some 1) = some l := h1
    rw [h1']
    match l, h2 with
    | [a], _ => simp at h4; rw [h4]
  · rintro ⟨b, c, hb, h1, h2⟩
    have hs : startOf sep' b = (([1, 1] : List Nat).take b).sum := by unfold startOf; rw [hsep.2]
    have hl : (sep'.map Buf.len)[b]? = some c.len := by rw [List.getElem?_map, hb]; rfl
    rw [hsep.1] at hl
    match b with
    | 0 => simp at hl; rw [hs] at h2; simp at h2; omega
    | 1 => rw [hs] at h1; simp at h1
    | b + 2 => simp at hl

/-! ### C27 -/

/-- **C27** is violated in every case: whatever the history, if the buffer holds at least two transitions,
then after `reset` and one `add` some random number makes `sample_indices(1)` return slot 1, which is not live
(only slot 0 is): the transition there was added before the reset. -/
theorem C27_violated {p : PBuf O A R} {ps : List ℝ} {old : Nat} (h : PHistory p ps old) (h2 : 2 ≤ p.base.len)
    (keep : Bool) (t : Trans O A R) :
    ∃ p' r x, (p.reset keep).add t = some (p', r) ∧ p'.base.len = 1 ∧ (0 < x ∧ x < 1) ∧
      ∀ rng, p'.sampleIndices (fun _ => x) rng (some 1) = some [1] := by
  have hr := h.reset keep
  obtain ⟨p', r, ha, h', _, _, _, hl, _, _⟩ := hr.add_ok t
  obtain ⟨g, hg⟩ := h.inv.hist
  have hpos := hg.holds.pos
  have hl1 : p'.base.len = 1 := by
    rw [hl]
    show min (0 + 1) p.base.idx.maxsize = 1
    omega
  obtain ⟨x, hx0, hx1, hs⟩ := h'.inv.w.sample_hits (i := 1) (by simp; omega)
  refine ⟨p', r, x, ha, hl1, ⟨hx0, hx1⟩, fun rng => ?_⟩
  unfold PBuf.sampleIndices
  simp only
  rw [if_pos ⟨by norm_num, by omega⟩]
  exact hs

example : ∃ p : PBuf Nat Nat Int, PHistory p [] 0 ∧ 2 ≤ p.base.len := by
  obtain ⟨p, h, hl, _⟩ := exPrio
  exact ⟨p, h, by omega⟩

/-- **C27** what holds: once the buffer is again at least as long as it ever was at a reset, samples are live.
Missing: the time before that (`C27_violated`). -/
theorem C27_refilled_partial {p : PBuf O A R} {ps : List ℝ} {old : Nat} (h : PHistory p ps old)
    (hne : 0 < p.base.len) (hold : old ≤ p.base.len) (u : Nat → ℝ) (hu : ∀ k, 0 ≤ u k ∧ u k < 1)
    (rng : Nat → Nat) (n : Nat) (hn : 0 < n) :
    ∃ l, p.sampleIndices u rng (some n) = some l ∧ l.length = n ∧ ∀ i ∈ l, i < p.base.len := by
  have hW := h.inv.w.congr (T' := fun i => i < p.base.len) (by intro i; rw [max_eq_right hold])
  obtain ⟨l, h1, h2, h3⟩ := hW.sample hne u hu n
  refine ⟨l, ?_, h2, ?_⟩
  · unfold PBuf.sampleIndices
    simp only
    rw [if_pos ⟨by omega, hne⟩]
    exact h1
  · intro i hi
    obtain ⟨k, hk, he⟩ := List.getElem_of_mem hi
    obtain ⟨i', h4, h5, h6, _⟩ := h3 k (by omega)
    rw [List.getElem?_eq_getElem hk, Option.some.injEq, he] at h4
    subst h4
    rcases (hu k).1.eq_or_lt with h0 | h0
    · rw [h6 h0.symm]; exact hne
    · exact h5 h0

/-- Non-vacuity: full, reset, refilled. -/
example : ∃ p : PBuf Nat Nat Int, PHistory p [] 2 ∧ 2 ≤ p.base.len := by
  obtain ⟨p, h, hl, _⟩ := exPrio
  obtain ⟨p1, r1, _, h1, _, _, _, l1, m1, _⟩ := (h.reset false).add_ok (tr 1 false false)
  obtain ⟨p2, r2, _, h2, _, _, _, l2, m2, _⟩ := h1.add_ok (tr 2 false false)
  obtain ⟨g, hg⟩ := h.inv.hist
  have hle := hg.holds.size_le
  have h' := h2
  rw [hl] at h'
  refine ⟨p2, h', ?_⟩
  have e1 : (p.reset false).base.len = 0 := rfl
  have e2 : (p.reset false).base.idx.maxsize = p.base.idx.maxsize := rfl
  unfold Buf.len at hl
  rw [l2, l1, m1, e1, e2]
  omega

/-! ### C28 -/

/-- **C28** the transition just added is stored with priority `M ^ alpha`, `M` the maximum of 1 and every
priority ever assigned, and no slot has a larger stored priority. -/
theorem C28_new_transition_maximal {p p' : PBuf O A R} {ps : List ℝ} {old : Nat} (h : PHistory p ps old)
    {t : Trans O A R} {r : AddResult R} (ha : p.add t = some (p', r)) :
    (∃ M, p'.stored r.slot = M ^ p.popts.alpha ∧ 1 ≤ M ∧ (∀ q ∈ ps, q ≤ M) ∧ (M = 1 ∨ M ∈ ps)) ∧
      ∀ i, p'.stored i ≤ p'.stored r.slot := by
  have I := h.inv
  unfold PBuf.add at ha
  cases hb : p.base.add t with
  | error e => rw [hb] at ha; cases ha
  | ok q =>
    obtain ⟨b, r'⟩ := q
    rw [hb] at ha
    simp only [Option.map_eq_some_iff, Prod.mk.injEq] at ha
    obtain ⟨w, hw', rfl, rfl⟩ := ha
    obtain ⟨J, h1, h2⟩ := I.w.initWeight hw'
    have hs : SegTree.getitem w.tree r'.slot = p.w.maxPrio ^ p.popts.alpha := h1 _ (by simp)
    refine ⟨⟨p.w.maxPrio, hs, I.w.max_pos, ?_, ?_⟩, ?_⟩
    · intro q hq; rw [I.w.maxp]; exact (le_foldl_max ps 1).2 q hq
    · rw [I.w.maxp]; exact foldl_max_mem ps 1
    · intro i
      show SegTree.getitem w.tree i ≤ SegTree.getitem w.tree r'.slot
      rw [hs, ← h2]
      exact J.le i

/-- **C28** the same for every transition of a call of `add` on a vector buffer. -/
theorem C28_vector {p p' : PMgr O A R} {sep : List (Buf O A R)} {ps : List ℝ} (h : PMHistory p sep ps)
    {ids : List Nat} {rows : List (Trans O A R)} {res : List (AddResult R)}
    (ha : p.add ids rows = some (p', res)) (r : AddResult R) (hr : r ∈ res) :
    (∃ M, p'.stored r.slot = M ^ p.popts.alpha ∧ 1 ≤ M ∧ (∀ q ∈ ps, q ≤ M) ∧ (M = 1 ∨ M ∈ ps)) ∧
      ∀ i, p'.stored i ≤ p'.stored r.slot := by
  have I := h.inv
  unfold PMgr.add at ha
  cases hb : p.base.add ids rows with
  | error e => rw [hb] at ha; cases ha
  | ok q =>
    obtain ⟨b, rs⟩ := q
    rw [hb] at ha
    simp only [Option.map_eq_some_iff, Prod.mk.injEq] at ha
    obtain ⟨w, hw', rfl, rfl⟩ := ha
    obtain ⟨J, h1, h2⟩ := I.w.initWeight hw'
    have hs : SegTree.getitem w.tree r.slot = p.w.maxPrio ^ p.popts.alpha := h1 _ (List.mem_map.mpr ⟨r, hr, rfl⟩)
    refine ⟨⟨p.w.maxPrio, hs, I.w.max_pos, ?_, ?_⟩, ?_⟩
    · intro q hq; rw [I.w.maxp]; exact (le_foldl_max ps 1).2 q hq
    · rw [I.w.maxp]; exact foldl_max_mem ps 1
    · intro i
      show SegTree.getitem w.tree i ≤ SegTree.getitem w.tree r.slot
      rw [hs, ← h2]
      exact J.le i

/-- **C28** `update_weight` (distinct slots) stores `(|x| + eps) ^ alpha` in each slot and leaves the others. -/
theorem C28_update_weight {p p' : PBuf O A R} {ps : List ℝ} {old : Nat} (h : PHistory p ps old)
    {kv : List (Nat × ℝ)} (hu : p.updateWeight kv = some p') (hnd : (kv.map Prod.fst).Nodup) :
    (∀ i x, (i, x) ∈ kv → p'.stored i = (|x| + p.popts.eps) ^ p.popts.alpha) ∧
      ∀ i, i ∉ kv.map Prod.fst → p'.stored i = p.stored i := by
  unfold PBuf.updateWeight at hu
  rw [Option.map_eq_some_iff] at hu
  obtain ⟨w, hw', rfl⟩ := hu
  refine ⟨fun i x hx => h.inv.w.updateWeight_get hw' hnd hx, ?_⟩
  intro i hi
  unfold Weights.updateWeight at hw'
  rw [Option.map_eq_some_iff] at hw'
  obtain ⟨t, ht, rfl⟩ := hw'
  obtain ⟨calls, hc⟩ := h.inv.w.tree
  have e : (kv.map fun q => ((q.1 : Int), prioOf p.popts q.2 ^ p.popts.alpha)) =
      (kv.map fun q => (q.1, prioOf p.popts q.2 ^ p.popts.alpha)).map fun q => ((q.1 : Int), q.2) := by
    rw [List.map_map]; rfl
  rw [e] at ht
  rcases setitem_get hc ht i with ⟨_, h2⟩ | ⟨q, hq, h1, _⟩
  · exact h2
  · exfalso
    apply hi
    rw [List.mem_map] at hq
    obtain ⟨q', hq', rfl⟩ := hq
    exact List.mem_map.mpr ⟨q', hq', h1⟩

/-- Non-vacuity: raise the priority of slot 0 to `|-4| + 1 = 5`; the next transition gets priority 5 too. -/
example : ∃ (p p' : PBuf Nat Nat Int) (r : AddResult Int), PHistory p [5] 0 ∧
    p.add (tr 3 true false) = some (p', r) := by
  obtain ⟨p, h, ho, hb, hw, hl, hm⟩ := PBuf.new_ok (O := Nat) (A := Nat) (R := Int) 2 (by norm_num) {}
    ⟨1, 1⟩ (by norm_num) (by norm_num) 1 (by norm_num) true
  obtain ⟨p1, r1, _, h1, o1, b1, w1, l1, m1, _⟩ := h.add_ok (tr 1 false false)
  have hlen : 0 < p1.base.len := by rw [l1, hl, hm]; norm_num
  obtain ⟨w, hu⟩ := h1.inv.w.updateWeight_ok (kv := [(0, -4)]) (by simp) (by simpa using hlen)
  have h2 := h1.updateWeight (kv := [(0, -4)]) (p' := { p1 with w := w }) (by simpa using hlen)
    (by unfold PBuf.updateWeight; rw [hu]; rfl)
  have e : ([] ++ [((0 : Nat), (-4 : ℝ))].map fun q => |q.2| + p1.popts.eps) = [5] := by
    simp [o1, ho]; norm_num
  rw [e] at h2
  obtain ⟨p3, r3, h3, _⟩ := h2.add_ok (tr 3 true false)
  exact ⟨_, p3, r3, h2, h3⟩

/-! ### C29 -/

theorem batchWeight_norm {o w size T ps} (I : WInv o w size T ps) (beta : ℝ) (hb : 0 ≤ beta)
    (indices : List Nat) (hT : ∀ i ∈ indices, T i) (m : Nat) (hm : m ∈ indices)
    (hmin : ∀ i ∈ indices, SegTree.getitem w.tree m ≤ SegTree.getitem w.tree i) :
    w.batchWeight beta true indices =
      some (indices.map fun i => (SegTree.getitem w.tree i / SegTree.getitem w.tree m) ^ (-beta)) := by
  have hmp := I.min_pos
  have hgt : ∀ i ∈ indices, w.getWeight beta i ≤ w.getWeight beta m := by
    intro i hi
    unfold Weights.getWeight
    apply Real.rpow_le_rpow_of_nonpos (div_pos (I.pos m (hT m hm)) hmp)
      ((div_le_div_iff_of_pos_right hmp).mpr (hmin i hi)) (by linarith)
  have hdiv : ∀ i ∈ indices, w.getWeight beta i / w.getWeight beta m =
      (SegTree.getitem w.tree i / SegTree.getitem w.tree m) ^ (-beta) := by
    intro i hi
    unfold Weights.getWeight
    have h1 := I.pos i (hT i hi)
    have h2 := I.pos m (hT m hm)
    rw [← Real.div_rpow (by positivity) (by positivity)]
    congr 1
    field_simp
  cases indices with
  | nil => simp at hm
  | cons i0 rest =>
    unfold Weights.batchWeight
    simp only [if_true, List.map_cons]
    have hmax : (rest.map (w.getWeight beta)).foldl max (w.getWeight beta i0) = w.getWeight beta m := by
      apply le_antisymm
      · rcases foldl_max_mem (rest.map (w.getWeight beta)) (w.getWeight beta i0) with h | h
        · rw [h]; exact hgt i0 (by simp)
        · rw [List.mem_map] at h
          obtain ⟨j, hj, he⟩ := h
          rw [← he]; exact hgt j (by simp [hj])
      · rcases List.mem_cons.mp hm with rfl | hm'
        · exact (le_foldl_max _ _).1
        · exact (le_foldl_max _ _).2 _ (List.mem_map.mpr ⟨m, hm', rfl⟩)
    rw [hmax, hdiv i0 (by simp), List.map_map]
    congr 2
    apply List.map_congr_left
    intro i hi
    exact hdiv i (by simp [hi])

theorem rpow_neg_unit {a b beta : ℝ} (ha : 0 < a) (hab : a ≤ b) (hb : 0 ≤ beta) :
    0 < (b / a) ^ (-beta) ∧ (b / a) ^ (-beta) ≤ 1 := by
  have h1 : 1 ≤ b / a := (one_le_div ha).mpr hab
  exact ⟨Real.rpow_pos_of_pos (by linarith) _, Real.rpow_le_one_of_one_le_of_nonpos h1 (by linarith)⟩

/-- **C29** with normalisation, the weights of a batch of live slots are `(p_i / p_min) ^ (-beta)`, `p_min`
the smallest stored priority in the batch (that of slot `m`); they lie in `(0, 1]`, and that of slot `m` is 1. -/
theorem C29_normalised {p : PBuf O A R} {ps : List ℝ} {old : Nat} (h : PHistory p ps old)
    (hn : p.weightNorm = true) (hb : 0 ≤ p.beta) (indices : List Nat) (hl : ∀ i ∈ indices, i < p.base.len)
    (m : Nat) (hm : m ∈ indices) (hmin : ∀ i ∈ indices, p.stored m ≤ p.stored i) :
    p.weightAt indices = some (indices.map fun i => (p.stored i / p.stored m) ^ (-p.beta)) ∧
      (∀ i ∈ indices, 0 < (p.stored i / p.stored m) ^ (-p.beta) ∧ (p.stored i / p.stored m) ^ (-p.beta) ≤ 1) ∧
      (p.stored m / p.stored m) ^ (-p.beta) = 1 := by
  have hT : ∀ i ∈ indices, i < max old p.base.len := fun i hi => lt_of_lt_of_le (hl i hi) (le_max_right _ _)
  have hpos : 0 < p.stored m := h.inv.w.pos m (hT m hm)
  refine ⟨?_, fun i hi => rpow_neg_unit hpos (hmin i hi) hb, by rw [div_self hpos.ne', Real.one_rpow]⟩
  unfold PBuf.weightAt
  rw [hn]
  exact batchWeight_norm h.inv.w p.beta hb indices hT m hm hmin

/-- **C29** the same for a vector buffer. -/
theorem C29_vector {p : PMgr O A R} {sep : List (Buf O A R)} {ps : List ℝ} (h : PMHistory p sep ps)
    (hn : p.weightNorm = true) (hb : 0 ≤ p.beta) (indices : List Nat) (hl : ∀ i ∈ indices, LiveIn sep i)
    (m : Nat) (hm : m ∈ indices) (hmin : ∀ i ∈ indices, p.stored m ≤ p.stored i) :
    p.weightAt indices = some (indices.map fun i => (p.stored i / p.stored m) ^ (-p.beta)) ∧
      (∀ i ∈ indices, 0 < (p.stored i / p.stored m) ^ (-p.beta) ∧ (p.stored i / p.stored m) ^ (-p.beta) ≤ 1) ∧
      (p.stored m / p.stored m) ^ (-p.beta) = 1 := by
  have hpos : 0 < p.stored m := h.inv.w.pos m (hl m hm)
  refine ⟨?_, fun i hi => rpow_neg_unit hpos (hmin i hi) hb, by rw [div_self hpos.ne', Real.one_rpow]⟩
  unfold PMgr.weightAt
  rw [hn]
  exact batchWeight_norm h.inv.w p.beta hb indices hl m hm hmin

example : ∃ p : PBuf Nat Nat Int, PHistory p [] 0 ∧ p.weightNorm = true ∧ 0 ≤ p.beta ∧
    ∀ i ∈ [0, 1, 0], i < p.base.len := by
  obtain ⟨p, h, hl, hb, hw⟩ := exPrio
  exact ⟨p, h, hw, by rw [hb]; norm_num, by rw [hl]; decide⟩

/-! ### C30, C70 -/

/-- A vector buffer made with the given `weight_norm`, of one sub-buffer of size 2 and with `alpha = beta =
eps = 1`, holding two transitions, slot 1 with priority 4 (slot 0 keeps priority 1). -/
theorem exPrioVector (wn : Bool) : ∃ (q p : PMgr Nat Nat Int) (sep : List (Buf Nat Nat Int)),
    PMgr.new 2 1 {} ⟨1, 1⟩ 1 wn = some q ∧ PMHistory p sep [4] ∧ p.weightNorm = q.weightNorm ∧ p.beta = 1 ∧
      LiveIn sep 0 ∧ LiveIn sep 1 ∧ p.stored 0 = 1 ∧ p.stored 1 = 4 ∧ p.w.minPrio = 1 := by
  obtain ⟨q, hq, h, ho, hb⟩ := PMgr.new_ok (O := Nat) (A := Nat) (R := Int) 2 1 (by norm_num) (by norm_num) {}
    ⟨1, 1⟩ (by norm_num) (by norm_num) 1 (by norm_num) wn
  obtain ⟨p, sep, res, res', ha, h', hr, hlen, o1, b1, w1⟩ :=
    h.add_ok [0, 0] [tr 5 false false, tr 6 false false] rfl (by simp) (by simp)
  have hsep : ∃ c, sep = [c] ∧ c.len = 2 ∧ res'.map AddResult.slot = [0, 1] := by
    have : routeAll (List.replicate 1 (Buf.new ((2 + 1 - 1) / 1) ({} : Opts Nat) : Buf Nat Nat Int))
        ([0, 0].zip [tr 5 false false, tr 6 false false]) = some (sep, res') := hr
    simp only [List.zip_cons_cons, List.zip_nil_right, routeAll, List.replicate] at this
    cases this
    exact ⟨_, rfl, rfl, rfl⟩
  obtain ⟨c, rfl, hc, hres⟩ := hsep
  have hlive : ∀ i, i < 2 → LiveIn [c] i := fun i hi => ⟨0, c, rfl, Nat.zero_le _, by
    show i < 0 + c.len
    omega⟩
  obtain ⟨w, hu⟩ := h'.inv.w.updateWeight_ok (kv := [(1, 3)]) (by simp) (by simpa using hlive 1 (by norm_num))
  have hup : p.updateWeight [(1, 3)] = some { p with w := w } := by unfold PMgr.updateWeight; rw [hu]; rfl
  have h2 := h'.updateWeight (by simpa using hlive 1 (by norm_num)) hup
  have e : ([] ++ [((1 : Nat), (3 : ℝ))].map fun q => |q.2| + p.popts.eps) = [4] := by
    simp [o1, ho]; norm_num
  rw [e] at h2
  refine ⟨q, _, [c], hq, h2, w1, b1.trans hb, hlive 0 (by norm_num), hlive 1 (by norm_num), ?_, ?_, ?_⟩
  · -- slot 0
    have hadd := ha
    unfold PMgr.add at hadd
    cases hbase : q.base.add [0, 0] [tr 5 false false, tr 6 false false] with
    | error e => rw [hbase] at hadd; cases hadd
    | ok z =>
      obtain ⟨m, rs⟩ := z
      rw [hbase] at hadd
      simp only [Option.map_eq_some_iff, Prod.mk.injEq] at hadd
      obtain ⟨w0, hw0, rfl, rfl⟩ := hadd
      obtain ⟨_, hs, _⟩ := h.inv.w.initWeight hw0
      have h0 : (0 : Nat) ∈ rs.map AddResult.slot := by
        obtain ⟨m1, sep1, res1, e1, e2, _⟩ := C20_add h.inv.reach [0, 0] [tr 5 false false, tr 6 false false] rfl (by simp)
        rw [hr] at e1
        cases e1
        rw [hbase] at e2
        cases e2
        match res', hres with
        | [r0, r1], hres =>
          simp only [List.map_cons, List.map_nil, List.cons.injEq, and_true] at hres
          simp [AddResult.shift, hres.1, startOf]
      have hv := hs 0 h0
      have hq1 : q.w.maxPrio = 1 := by rw [h.inv.w.maxp]; rfl
      rw [hq1, Real.one_rpow] at hv
      show SegTree.getitem w.tree 0 = 1
      unfold Weights.updateWeight at hu
      rw [Option.map_eq_some_iff] at hu
      obtain ⟨t, ht, rfl⟩ := hu
      obtain ⟨calls, hcalls⟩ := h'.inv.w.tree
      have e' : ([((1 : Nat), (3 : ℝ))].map fun x => ((x.1 : Int), prioOf q.popts x.2 ^ q.popts.alpha)) =
          ([((1 : Nat), prioOf q.popts 3 ^ q.popts.alpha)]).map fun x => ((x.1 : Int), x.2) := rfl
      rw [e'] at ht
      rcases setitem_get hcalls ht 0 with ⟨_, h9⟩ | ⟨z, hz, h9, _⟩
      · show SegTree.getitem t 0 = 1
        rw [h9]; exact hv
      · simp at hz; rw [hz] at h9; simp at h9
  · have := h'.inv.w.updateWeight_get hu (by simp) (i := 1) (x := 3) (by simp)
    show SegTree.getitem w.tree 1 = 4
    rw [this, o1, ho]
    norm_num
  · have := h2.inv.w.minp
    rw [this]
    norm_num

/-- **C30** is violated: `set_beta` on the vector buffer leaves the returned weights as they were, for every
buffer and every batch. -/
theorem C30_no_effect (p : PMgr O A R) (beta : ℝ) (indices : List Nat) :
    (p.setBeta beta).weightAt indices = p.weightAt indices := rfl

/-- **C30** violation, concretely: after `set_beta(0)` the weights should all be 1 (exponent 0), but the batch
`[0, 1]` still has weights 1 and 1/4. -/
theorem C30_violated : ∃ (p : PMgr Nat Nat Int) (sep : List (Buf Nat Nat Int)) (ps : List ℝ),
    PMHistory p sep ps ∧ (p.setBeta 0).weightAt [0, 1] = some [1, 1 / 4] ∧
      ([0, 1].map fun i => (p.stored i / p.stored 0) ^ (-(0 : ℝ))) = [1, 1] := by
  obtain ⟨q, p, sep, hq, h, hw, hb, l0, l1, s0, s1, _⟩ := exPrioVector true
  have hqw : q.weightNorm = true := by
    unfold PMgr.new at hq
    split at hq
    · cases hq; rfl
    · cases hq
  refine ⟨p, sep, _, h, ?_, ?_⟩
  · rw [C30_no_effect, (C29_vector h (hw.trans hqw) (by rw [hb]; norm_num) [0, 1] (by simp [l0, l1]) 0 (by simp)
      (by simp [s0, s1])).1]
    simp only [List.map_cons, List.map_nil, s0, s1, hb]
    norm_num [Real.rpow_neg_one]
  · simp

/-- **C30** what holds: on a single buffer `set_beta` takes effect. Missing: the vector buffer. -/
theorem C30_single_partial {p : PBuf O A R} {ps : List ℝ} {old : Nat} (h : PHistory p ps old)
    (hn : p.weightNorm = true) (beta : ℝ) (hb : 0 ≤ beta) (indices : List Nat)
    (hl : ∀ i ∈ indices, i < p.base.len) (m : Nat) (hm : m ∈ indices)
    (hmin : ∀ i ∈ indices, p.stored m ≤ p.stored i) :
    (p.setBeta beta).weightAt indices = some (indices.map fun i => (p.stored i / p.stored m) ^ (-beta)) :=
  (C29_normalised (h.setBeta beta) hn hb indices hl m hm hmin).1

/-- **C70** is violated: a vector buffer made with `weight_norm=False` normalises. The batch `[1]` (priority 4,
smallest priority ever 1, `beta = 1`) should have weight `(4 / 1) ^ (-1) = 1/4` but gets weight 1. -/
theorem C70_violated : ∃ (q p : PMgr Nat Nat Int) (sep : List (Buf Nat Nat Int)) (ps : List ℝ),
    PMgr.new 2 1 {} ⟨1, 1⟩ 1 false = some q ∧ PMHistory p sep ps ∧ p.weightNorm = q.weightNorm ∧
      p.weightAt [1] = some [1] ∧ (p.stored 1 / p.w.minPrio) ^ (-p.beta) = 1 / 4 := by
  obtain ⟨q, p, sep, hq, h, hw, hb, l0, l1, s0, s1, hm⟩ := exPrioVector false
  have hqw : q.weightNorm = true := by
    unfold PMgr.new at hq
    split at hq
    · cases hq; rfl
    · cases hq
  refine ⟨q, p, sep, _, hq, h, hw, ?_, ?_⟩
  · rw [(C29_vector h (hw.trans hqw) (by rw [hb]; norm_num) [1] (by simp [l1]) 1 (by simp) (by simp)).1]
    simp [s1]
  · rw [s1, hm, hb]
    norm_num [Real.rpow_neg_one]

/-- **C70** what holds: a single buffer made with `weight_norm=False` does not normalise. Missing: the vector
buffer. -/
theorem C70_single_partial {p : PBuf O A R} (hn : p.weightNorm = false) (indices : List Nat) :
    p.weightAt indices = some (indices.map fun i => (p.stored i / p.w.minPrio) ^ (-p.beta)) := by
  unfold PBuf.weightAt Weights.batchWeight
  rw [hn]
  rfl

/-! ### C71 -/

/-- **C71** is violated: without normalisation the least likely transition does not get weight 1, and weights
exceed 1. Size 1, `alpha = 2`, `eps = 1/4`, `beta = 1`; the only transition has priority `1/4 + 1/4 = 1/2`,
stored as `1/4`; its weight is `((1/4) / (1/2)) ^ (-1) = 2`. -/
theorem C71_violated : ∃ (p : PBuf Nat Nat Int) (ps : List ℝ), PHistory p ps 0 ∧ p.weightNorm = false ∧
    p.base.len = 1 ∧ p.weightAt [0] = some [2] := by
  obtain ⟨p, h, ho, hb, hw, hl, hm⟩ := PBuf.new_ok (O := Nat) (A := Nat) (R := Int) 1 (by norm_num) {}
    ⟨2, 1 / 4⟩ (by norm_num) (by norm_num) 1 (by norm_num) false
  obtain ⟨p1, r1, _, h1, o1, b1, w1, l1, m1, _⟩ := h.add_ok (tr 1 false false)
  have hlen : p1.base.len = 1 := by rw [l1, hl, hm]; norm_num
  obtain ⟨w, hu⟩ := h1.inv.w.updateWeight_ok (kv := [(0, 1 / 4)]) (by simp) (by simp [hlen])
  have hup : p1.updateWeight [(0, 1 / 4)] = some { p1 with w := w } := by unfold PBuf.updateWeight; rw [hu]; rfl
  have h2 := h1.updateWeight (kv := [(0, 1 / 4)]) (by simp [hlen]) hup
  refine ⟨_, _, h2, w1.trans hw, hlen, ?_⟩
  rw [C70_single_partial (p := { p1 with w := w }) (w1.trans hw)]
  have hs := h1.inv.w.updateWeight_get hu (by simp) (i := 0) (x := 1 / 4) (by simp)
  have hmin := h2.inv.w.minp
  simp only [List.map_cons, List.map_nil, PBuf.stored, Option.some.injEq, List.cons.injEq, and_true]
  rw [hs, hmin, show p1.beta = 1 from b1.trans hb, o1, ho]
  norm_num [Real.rpow_neg_one, abs_of_pos]

/-- **C71** what holds: without normalisation the weight of slot `i` is `(p_i / m) ^ (-beta)` with `m` the
minimum of 1 and all priorities ever assigned (before exponentiation); with `alpha = 1` all weights of live
slots lie in `(0, 1]`. Missing: other `alpha`, because `p_i` is exponentiated and `m` is not. -/
theorem C71_partial {p : PBuf O A R} {ps : List ℝ} {old : Nat} (h : PHistory p ps old)
    (hn : p.weightNorm = false) (hb : 0 ≤ p.beta) (indices : List Nat) (hl : ∀ i ∈ indices, i < p.base.len) :
    ∃ m, (m = 1 ∨ m ∈ ps) ∧ m ≤ 1 ∧ (∀ q ∈ ps, m ≤ q) ∧
      p.weightAt indices = some (indices.map fun i => (p.stored i / m) ^ (-p.beta)) ∧
      (p.popts.alpha = 1 →
        ∀ i ∈ indices, 0 < (p.stored i / m) ^ (-p.beta) ∧ (p.stored i / m) ^ (-p.beta) ≤ 1) := by
  refine ⟨p.w.minPrio, ?_, ?_, ?_, C70_single_partial hn indices, fun ha i hi => rpow_neg_unit h.inv.w.min_pos ?_ hb⟩
  · rw [h.inv.w.minp]; exact foldl_min_mem ps 1
  · rw [h.inv.w.minp]; exact (foldl_min_le ps 1).1
  · rw [h.inv.w.minp]; exact (foldl_min_le ps 1).2
  · have := h.inv.w.ge (by rw [ha]; exact one_pos) i (lt_of_lt_of_le (hl i hi) (le_max_right _ _))
    rw [ha, Real.rpow_one] at this
    exact this

example : ∃ (p : PBuf Nat Nat Int), PHistory p [] 0 ∧ p.weightNorm = false ∧ 0 ≤ p.beta ∧ p.popts.alpha = 1 ∧
    ∀ i ∈ [0], i < p.base.len := by
  obtain ⟨p, h, ho, hb, hw, hl, hm⟩ := PBuf.new_ok (O := Nat) (A := Nat) (R := Int) 2 (by norm_num) {}
    ⟨1, 1⟩ (by norm_num) (by norm_num) 1 (by norm_num) false
  obtain ⟨p1, r1, _, h1, o1, b1, w1, l1, m1, _⟩ := h.add_ok (tr 1 false false)
  exact ⟨p1, h1, w1.trans hw, by rw [b1, hb]; norm_num, by rw [o1, ho], by rw [l1, hl, hm]; decide⟩

end Verif.Buffer
