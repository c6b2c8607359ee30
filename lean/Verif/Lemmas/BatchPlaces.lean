import Verif.Lemmas.BatchMerge

/-! Rows of arrays: single rows, several rows, segments; stacking and concatenation as instances of merging. -/

namespace Verif.Batch

/-! ### Rows -/

theorem writeRows_length (rows : List D) (ps : List Nat) (xs : List D) : (writeRows rows ps xs).length = rows.length := by
  induction ps generalizing rows xs with
  | nil => cases xs <;> rfl
  | cons p ps ih =>
    cases xs with
    | nil => rfl
    | cons x xs => rw [writeRows, ih, List.length_set]

theorem writeRows_other (rows : List D) (ps : List Nat) (xs : List D) (p : Nat) (hp : p ∉ ps) :
    (writeRows rows ps xs)[p]? = rows[p]? := by
  induction ps generalizing rows xs with
  | nil => cases xs <;> rfl
  | cons q ps ih =>
    rw [List.mem_cons, not_or] at hp
    cases xs with
    | nil => rfl
    | cons x xs => rw [writeRows, ih _ _ hp.2, List.getElem?_set_ne (Ne.symm hp.1)]

theorem writeRows_at (rows : List D) (ps : List Nat) (xs : List D) (hnd : ps.Nodup) (hin : ∀ p ∈ ps, p < rows.length)
    (hlen : xs.length = ps.length) (t p : Nat) (ht : ps[t]? = some p) : (writeRows rows ps xs)[p]? = xs[t]? := by
  induction ps generalizing rows xs t with
  | nil => simp at ht
  | cons q ps ih =>
    rw [List.nodup_cons] at hnd
    cases xs with
    | nil => simp at hlen
    | cons x xs =>
      rw [writeRows]
      cases t with
      | zero =>
        simp only [List.getElem?_cons_zero, Option.some.injEq] at ht
        subst ht
        rw [writeRows_other _ _ _ _ hnd.1, List.getElem?_set_self (hin q (by simp))]
        rfl
      | succ t =>
        rw [List.getElem?_cons_succ] at ht ⊢
        exact ih _ _ hnd.2 (by intro p hp; rw [List.length_set]; exact hin p (by simp [hp])) (by simpa using hlen) t ht

theorem fillRows_length (z : D) (rows : List D) (ps : List Nat) :
    (ps.foldl (fun r p => r.modify p (D.fill z)) rows).length = rows.length := by
  induction ps generalizing rows with
  | nil => rfl
  | cons p ps ih => rw [List.foldl_cons, ih, List.length_modify]

theorem fillRows_other (z : D) (rows : List D) (ps : List Nat) (p : Nat) (hp : p ∉ ps) :
    (ps.foldl (fun r p => r.modify p (D.fill z)) rows)[p]? = rows[p]? := by
  induction ps generalizing rows with
  | nil => rfl
  | cons q ps ih =>
    rw [List.mem_cons, not_or] at hp
    rw [List.foldl_cons, ih _ hp.2, List.getElem?_modify]
    simp [Ne.symm hp.1]

theorem fillRows_at {o : Bool} (z : D) (hz : Blank o z) (rows : List D) (ps : List Nat) (p : Nat) (hp : p ∈ ps) (x : D)
    (hx : (ps.foldl (fun r p => r.modify p (D.fill z)) rows)[p]? = some x) : Blank o x := by
  induction ps generalizing rows with
  | nil => simp at hp
  | cons q ps ih =>
    rw [List.foldl_cons] at hx
    by_cases hmem : p ∈ ps
    · exact ih _ hmem hx
    · rw [fillRows_other _ _ _ _ hmem] at hx
      have : p = q := by
        rw [List.mem_cons] at hp
        exact hp.resolve_right hmem
      subst this
      rw [List.getElem?_modify] at hx
      simp only [if_true, Option.map_eq_map, Option.map_eq_some_iff] at hx
      obtain ⟨y, _, rfl⟩ := hx
      exact fill_blank hz y

/-! ### Positions -/

theorem pos_lt {n : Nat} {i : Int} {p : Nat} (h : pos n i = some p) : p < n := by
  unfold pos at h
  split_ifs at h <;> · cases h; omega

theorem pos_natCast {n i : Nat} (h : i < n) : pos n (i : Int) = some i := by
  unfold pos
  rw [if_pos (by omega), if_pos (by omega)]
  simp

theorem positions_spec {n : Nat} {is : List Int} {ps : List Nat} (h : positions n is = some ps) :
    ps.length = is.length ∧ (∀ p ∈ ps, p < n) ∧ ∀ (t : Nat) (i : Int), is[t]? = some i → ps[t]? = pos n i := by
  unfold positions at h
  induction is generalizing ps with
  | nil => simp at h; subst h; simp
  | cons i is ih =>
    rw [List.mapM_cons, Option.bind_eq_bind, Option.bind_eq_some_iff] at h
    obtain ⟨p, hp, h⟩ := h
    rw [Option.bind_eq_bind, Option.bind_eq_some_iff] at h
    obtain ⟨r, hr, h⟩ := h
    simp only [Option.pure_def, Option.some.injEq] at h
    subst h
    obtain ⟨h1, h2, h3⟩ := ih hr
    refine ⟨by simp [h1], ?_, ?_⟩
    · intro q hq
      rw [List.mem_cons] at hq
      rcases hq with rfl | hq
      · exact pos_lt hp
      · exact h2 q hq
    · intro t j hj
      cases t with
      | zero => simp only [List.getElem?_cons_zero, Option.some.injEq] at hj ⊢; subst hj; exact hp.symm
      | succ t => rw [List.getElem?_cons_succ] at hj ⊢; exact h3 t j hj

theorem getitem_one {n : Nat} {rows : List D} (hn : rows.length = n) {i : Int} {p : Nat} (hp : pos n i = some p) :
    (D.arr rows).getitem (.one i) = .ok (rows[p]'(by rw [hn]; exact pos_lt hp)) := by
  subst hn
  simp only [D.getitem, hp, Option.bind_some, List.getElem?_eq_getElem (pos_lt hp)]

theorem setitem_one {n : Nat} {rows : List D} (hn : rows.length = n) {i : Int} {p : Nat} (hp : pos n i = some p) (v : D) :
    (D.arr rows).setitem (.one i) v = .ok (.arr (rows.set p v)) := by
  subst hn
  simp only [D.setitem, hp]

theorem setfill_one {n : Nat} {rows : List D} (hn : rows.length = n) {i : Int} {p : Nat} (hp : pos n i = some p) (z : D) :
    (D.arr rows).setfill (.one i) z = .ok (.arr (rows.modify p (D.fill z))) := by
  subst hn
  simp only [D.setfill, hp]

/-- Single rows: the places of different positions are disjoint, everything fits. -/
theorem ones_places {n : Nat} {is : List Int} {ps : List Nat} (hps : ∀ (t : Nat) (i : Int), is[t]? = some i →
      ∃ p, ps[t]? = some p ∧ pos n i = some p) (hnd : ps.Nodup) :
    Places n (is.map .one) (fun _ _ => True) := by
  have hI : ∀ (t : Nat) (I : Index), (is.map Index.one)[t]? = some I → ∃ i p, I = .one i ∧ ps[t]? = some p ∧ pos n i = some p := by
    intro t I h
    rw [List.getElem?_map, Option.map_eq_some_iff] at h
    obtain ⟨i, hi, rfl⟩ := h
    obtain ⟨p, hp1, hp2⟩ := hps t i hi
    exact ⟨i, p, rfl, hp1, hp2⟩
  have hne : ∀ (s t p q : Nat), ps[s]? = some p → ps[t]? = some q → s ≠ t → p ≠ q := by
    intro s t p q hs ht hst he
    subst he
    obtain ⟨hs', hs⟩ := List.getElem?_eq_some_iff.mp hs
    obtain ⟨ht', ht⟩ := List.getElem?_eq_some_iff.mp ht
    exact hst ((List.Nodup.getElem_inj_iff hnd).mp (hs.trans ht.symm))
  refine ⟨?_, ?_, ?_, ?_, ?_, ?_, ?_, ?_, ?_⟩
  · rintro t I d hIt ⟨rows, rfl, hr⟩
    obtain ⟨i, p, rfl, _, hp⟩ := hI t I hIt
    exact ⟨_, getitem_one hr hp⟩
  · rintro t I d v d' hIt ⟨rows, rfl, hr⟩ hs
    obtain ⟨i, p, rfl, _, hp⟩ := hI t I hIt
    rw [setitem_one hr hp] at hs
    cases hs
    exact ⟨_, rfl, by rw [List.length_set, hr]⟩
  · rintro t I d v d' hIt ⟨rows, rfl, hr⟩ _ hs
    obtain ⟨i, p, rfl, _, hp⟩ := hI t I hIt
    rw [setitem_one hr hp] at hs
    cases hs
    rw [getitem_one (n := n) (by rw [List.length_set, hr]) hp]
    simp
  · rintro t I d v d' hIt ⟨rows, rfl, hr⟩ hs j J hjt hJ
    obtain ⟨i, p, rfl, hp1, hp⟩ := hI t I hIt
    obtain ⟨i', p', rfl, hp1', hp'⟩ := hI j J hJ
    rw [setitem_one hr hp] at hs
    cases hs
    rw [getitem_one (n := n) (by rw [List.length_set, hr]) hp', getitem_one hr hp',
      List.getElem_set_ne (hne t j p p' hp1 hp1' (Ne.symm hjt))]
  · rintro t I d z d' hIt ⟨rows, rfl, hr⟩ hs
    obtain ⟨i, p, rfl, _, hp⟩ := hI t I hIt
    rw [setfill_one hr hp] at hs
    cases hs
    exact ⟨_, rfl, by rw [List.length_modify, hr]⟩
  · rintro o t I d z d' hIt ⟨rows, rfl, hr⟩ hz hs
    obtain ⟨i, p, rfl, _, hp⟩ := hI t I hIt
    rw [setfill_one hr hp] at hs
    cases hs
    refine ⟨_, getitem_one (n := n) (by rw [List.length_modify, hr]) hp, ?_⟩
    rw [List.getElem_modify, if_pos rfl]
    exact fill_blank hz _
  · rintro t I d z d' hIt ⟨rows, rfl, hr⟩ hs j J hjt hJ
    obtain ⟨i, p, rfl, hp1, hp⟩ := hI t I hIt
    obtain ⟨i', p', rfl, hp1', hp'⟩ := hI j J hJ
    rw [setfill_one hr hp] at hs
    cases hs
    rw [getitem_one (n := n) (by rw [List.length_modify, hr]) hp', getitem_one hr hp', List.getElem_modify,
      if_neg (hne t j p p' hp1 hp1' (Ne.symm hjt))]
  · rintro t I d v hIt ⟨rows, rfl, hr⟩ _
    obtain ⟨i, p, rfl, _, hp⟩ := hI t I hIt
    exact ⟨_, setitem_one hr hp v⟩
  · rintro t I d z hIt ⟨rows, rfl, hr⟩
    obtain ⟨i, p, rfl, _, hp⟩ := hI t I hIt
    exact ⟨_, setfill_one hr hp z⟩

theorem stack_places (n : Nat) : Places n ((List.range n).map fun i : Nat => Index.one (i : Int)) (fun _ _ => True) := by
  have := ones_places (n := n) (is := (List.range n).map fun i : Nat => (i : Int)) (ps := List.range n)
    (by
      intro t i h
      rw [List.getElem?_map, Option.map_eq_some_iff] at h
      obtain ⟨m, hm, rfl⟩ := h
      obtain ⟨hlt, he⟩ := List.getElem?_eq_some_iff.mp hm
      rw [List.length_range] at hlt
      rw [List.getElem_range] at he
      subst he
      exact ⟨t, hm, pos_natCast hlt⟩)
    List.nodup_range
  rw [List.map_map] at this
  exact this

theorem segments_getElem? (s : Nat) (lens : List Nat) (i : Nat) :
    (segments s lens)[i]? = lens[i]?.map fun m => .slice (s + (lens.take i).sum) (s + (lens.take i).sum + m) := by
  induction lens generalizing s i with
  | nil => simp [segments]
  | cons n lens ih =>
    rw [segments]
    cases i with
    | zero => simp
    | succ i =>
      rw [List.getElem?_cons_succ, ih, List.getElem?_cons_succ, List.take_succ_cons, List.sum_cons, Nat.add_assoc]

theorem segments_length (s : Nat) (lens : List Nat) : (segments s lens).length = lens.length := by
  induction lens generalizing s with
  | nil => rfl
  | cons n lens ih => rw [segments, List.length_cons, ih, List.length_cons]

theorem take_sum_lt {lens : List Nat} {i j m : Nat} (hi : lens[i]? = some m) (hij : i < j) :
    (lens.take i).sum + m ≤ (lens.take j).sum := by
  induction lens generalizing i j with
  | nil => simp at hi
  | cons n lens ih =>
    cases j with
    | zero => omega
    | succ j =>
      cases i with
      | zero =>
        simp only [List.getElem?_cons_zero, Option.some.injEq] at hi
        subst hi
        simp
      | succ i =>
        rw [List.getElem?_cons_succ] at hi
        have := ih hi (j := j) (by omega)
        simp only [List.take_succ_cons, List.sum_cons]
        omega

theorem take_sum_le {lens : List Nat} {i m : Nat} (hi : lens[i]? = some m) : (lens.take i).sum + m ≤ lens.sum := by
  have := take_sum_lt hi (j := lens.length) (List.getElem?_eq_some_iff.mp hi).1
  rwa [List.take_length] at this

theorem slice_ext {rows rows' : List D} {lo hi : Nat} (h : ∀ p, lo ≤ p → p < hi → rows[p]? = rows'[p]?) :
    (rows.take hi).drop lo = (rows'.take hi).drop lo := by
  apply List.ext_getElem?
  intro t
  rw [List.getElem?_drop, List.getElem?_drop, List.getElem?_take, List.getElem?_take]
  split_ifs with hlt
  · exact h _ (by omega) hlt
  · rfl

/-- Consecutive segments: disjoint, a segment takes arrays of its length. -/
theorem segment_places (lens : List Nat) :
    Places lens.sum (segments 0 lens) (fun i d => ∃ m, lens[i]? = some m ∧ Rows m d) := by
  have hI : ∀ (t : Nat) (I : Index), (segments 0 lens)[t]? = some I → ∃ m, lens[t]? = some m ∧
      I = .slice (lens.take t).sum ((lens.take t).sum + m) := by
    intro t I h
    rw [segments_getElem?, Option.map_eq_some_iff] at h
    obtain ⟨m, hm, rfl⟩ := h
    exact ⟨m, hm, by simp⟩
  have hcount : ∀ (s m n : Nat), s + m ≤ n → min (s + m) n - s = m := by omega
  have hdisj : ∀ (t j m m' : Nat), lens[t]? = some m → lens[j]? = some m' → j ≠ t → ∀ p,
      (lens.take j).sum ≤ p → p < (lens.take j).sum + m' → p ∉ List.range' (lens.take t).sum m := by
    intro t j m m' ht hj hjt p h1 h2 hp
    rw [List.mem_range'_1] at hp
    rcases Nat.lt_or_gt_of_ne hjt with h | h
    · have := take_sum_lt hj h; omega
    · have := take_sum_lt ht h; omega
  refine ⟨?_, ?_, ?_, ?_, ?_, ?_, ?_, ?_, ?_⟩
  · rintro t I d hIt ⟨rows, rfl, hr⟩
    obtain ⟨m, hm, rfl⟩ := hI t I hIt
    exact ⟨_, rfl⟩
  · rintro t I d v d' hIt ⟨rows, rfl, hr⟩ hs
    obtain ⟨m, hm, rfl⟩ := hI t I hIt
    cases v with
    | num _ => simp [D.setitem] at hs
    | none => simp [D.setitem] at hs
    | obj _ => simp [D.setitem] at hs
    | arr vs =>
    simp only [D.setitem] at hs
    split_ifs at hs
    · cases hs
      exact ⟨_, rfl, by rw [writeRows_length, hr]⟩
  · rintro t I d v d' hIt ⟨rows, rfl, hr⟩ ⟨m, hm, vs, rfl, hvs⟩ hs
    obtain ⟨m', hm', rfl⟩ := hI t I hIt
    rw [hm] at hm'
    cases hm'
    have hle := take_sum_le hm
    simp only [D.setitem, hr, hcount _ _ _ hle] at hs
    rw [if_pos (by simp [hvs])] at hs
    cases hs
    simp only [D.getitem]
    congr 2
    apply List.ext_getElem?
    intro q
    rw [List.getElem?_drop, List.getElem?_take]
    split_ifs with hlt
    · have := writeRows_at rows (List.range' (lens.take t).sum m) vs List.nodup_range'
        (by intro p hp; rw [List.mem_range'_1] at hp; omega) (by simp [hvs]) q ((lens.take t).sum + q)
        (by rw [List.getElem?_range' (by omega)]; simp)
      exact this
    · rw [List.getElem?_eq_none (by omega)]
  · rintro t I d v d' hIt ⟨rows, rfl, hr⟩ hs j J hjt hJ
    obtain ⟨m, hm, rfl⟩ := hI t I hIt
    obtain ⟨m', hm', rfl⟩ := hI j J hJ
    have hle := take_sum_le hm
    cases v with
    | num _ => simp [D.setitem] at hs
    | none => simp [D.setitem] at hs
    | obj _ => simp [D.setitem] at hs
    | arr vs =>
    simp only [D.setitem, hr, hcount _ _ _ hle] at hs
    split_ifs at hs
    · cases hs
      simp only [D.getitem]
      congr 2
      apply slice_ext
      intro p h1 h2
      exact writeRows_other _ _ _ _ (hdisj t j m m' hm hm' hjt p h1 h2)
  · rintro t I d z d' hIt ⟨rows, rfl, hr⟩ hs
    obtain ⟨m, hm, rfl⟩ := hI t I hIt
    simp only [D.setfill] at hs
    cases hs
    exact ⟨_, rfl, by rw [fillRows_length, hr]⟩
  · rintro o t I d z d' hIt ⟨rows, rfl, hr⟩ hz hs
    obtain ⟨m, hm, rfl⟩ := hI t I hIt
    have hle := take_sum_le hm
    simp only [D.setfill, hr, hcount _ _ _ hle] at hs
    cases hs
    refine ⟨_, rfl, .arr _ ?_⟩
    intro x hx
    obtain ⟨q, hq⟩ := List.getElem?_of_mem hx
    rw [List.getElem?_drop, List.getElem?_take] at hq
    split_ifs at hq with hlt
    exact fillRows_at z hz rows _ _ (by rw [List.mem_range'_1]; omega) x hq
  · rintro t I d z d' hIt ⟨rows, rfl, hr⟩ hs j J hjt hJ
    obtain ⟨m, hm, rfl⟩ := hI t I hIt
    obtain ⟨m', hm', rfl⟩ := hI j J hJ
    have hle := take_sum_le hm
    simp only [D.setfill, hr, hcount _ _ _ hle] at hs
    cases hs
    simp only [D.getitem]
    congr 2
    apply slice_ext
    intro p h1 h2
    exact fillRows_other _ _ _ _ (hdisj t j m m' hm hm' hjt p h1 h2)
  · rintro t I d v hIt ⟨rows, rfl, hr⟩ ⟨m, hm, vs, rfl, hvs⟩
    obtain ⟨m', hm', rfl⟩ := hI t I hIt
    rw [hm] at hm'
    cases hm'
    have hle := take_sum_le hm
    simp only [D.setitem, hr, hcount _ _ _ hle]
    rw [if_pos (by simp [hvs])]
    exact ⟨_, rfl⟩
  · rintro t I d z hIt ⟨rows, rfl, hr⟩
    obtain ⟨m, hm, rfl⟩ := hI t I hIt
    exact ⟨_, rfl⟩

/-! ### Stacking -/

theorem keys_eq_nil {b : B} : b.keys = [] ↔ b = .nil := by
  cases b <;> simp [B.keys]

theorem foldl_max_le (l : List Nat) (a x : Nat) (hx : x ∈ l ∨ x ≤ a) : x ≤ l.foldl max a := by
  induction l generalizing a with
  | nil => simpa using hx
  | cons y l ih =>
    rw [List.foldl_cons]
    apply ih
    rcases hx with hx | hx
    · rw [List.mem_cons] at hx
      rcases hx with rfl | hx
      · right; omega
      · exact Or.inl hx
    · right; omega

theorem depth_lt_fuel {bs : List B} {b : B} (hb : b ∈ bs) : b.depth < (bs.map B.depth).foldl max 0 + 1 := by
  have := foldl_max_le (bs.map B.depth) 0 b.depth (Or.inl (List.mem_map_of_mem hb))
  omega

theorem stackAux_spec (fuel : Nat) (bs : List B) (out : B) (hne : bs ≠ []) (hk : ∀ b ∈ bs, b.keys ≠ [])
    (hd : ∀ b ∈ bs, b.depth < fuel) (h : stackAux fuel bs = .ok out) :
    Merged bs.length ((List.range bs.length).map fun i : Nat => Index.one (i : Int)) bs out ∧ out.keys ≠ [] := by
  induction fuel generalizing bs out with
  | zero =>
    obtain ⟨b, hb⟩ := List.exists_mem_of_ne_nil bs hne
    have := hd b hb
    omega
  | succ fuel ih =>
    rw [stackAux] at h
    have hf : bs.filter (fun b => b.keys ≠ []) = bs := List.filter_eq_self.mpr (by simpa using hk)
    simp only [hf] at h
    rw [if_neg hne] at h
    refine ⟨?_, ?_⟩
    · refine merged_of_keys h ?_
      intro k hkey v hv
      refine mergeKey_spec (stack_places bs.length) (by simp) (by simpa using hne) (fun _ _ _ => ?_) ?_ v hv
      · rename_i w _
        induction w using Val.casesOn with
        | leaf l => trivial
        | sub b =>
          have : ∀ b : B, b.All fun _ => True := by
            intro b
            induction b with
            | nil => trivial
            | leaf _ _ _ ih => exact ⟨trivial, ih⟩
            | sub _ _ _ i1 i2 => exact ⟨i1, i2⟩
          exact this b
      · intro fs x hvs hfull hx
        have hlen : bs.length = fs.length := by simpa using congrArg List.length hvs
        cases hl : allLeaves fs with
        | some ls =>
          simp only [hl] at hx
          cases hx
          have e := allLeaves_some hl
          rw [e] at hvs
          have hll : bs.length = ls.length := by rw [hlen, e, List.length_map]
          refine leaf_reads (ls := ls) ⟨_, rfl, by simp [hll]⟩ ?_ ?_ rfl hvs
          · intro j J y hJ hy
            rw [List.getElem?_map, Option.map_eq_some_iff] at hJ
            obtain ⟨m, hm, rfl⟩ := hJ
            obtain ⟨hlt, he⟩ := List.getElem?_eq_some_iff.mp hm
            rw [List.length_range] at hlt
            rw [List.getElem_range] at he
            subst he
            rw [getitem_one (n := bs.length) (by simp [hll]) (pos_natCast hlt)]
            obtain ⟨_, hy⟩ := List.getElem?_eq_some_iff.mp hy
            simp [hy]
          · intro hls
            rw [hls] at hll
            exact hne (List.eq_nil_of_length_eq_zero (by simpa using hll))
        | none =>
          simp only [hl] at hx
          cases hsub : allSubs fs with
          | none => simp [hsub] at hx
          | some cs =>
            simp only [hsub] at hx
            have e := allSubs_some hsub
            have hll : bs.length = cs.length := by rw [hlen, e, List.length_map]
            cases hst : stackAux fuel cs with
            | error e' => rw [hst] at hx; simp [Except.map] at hx
            | ok c =>
              rw [hst] at hx
              simp only [Except.map, Except.ok.injEq] at hx
              subst hx
              rw [e] at hvs
              refine sub_reads ?_ hvs
              rw [hll]
              refine (ih cs c ?_ ?_ ?_ hst).1
              · intro hcs
                rw [hcs] at hll
                exact hne (List.eq_nil_of_length_eq_zero (by simpa using hll))
              · intro x hx hxk
                rw [keys_eq_nil] at hxk
                exact hfull (.sub x) (by rw [e]; exact List.mem_map_of_mem hx) (by rw [hxk])
              · intro x hx
                obtain ⟨j, hj⟩ := List.getElem?_of_mem hx
                have := congrArg (·[j]?) hvs
                simp only [List.getElem?_map, hj, Option.map_some] at this
                rw [Option.map_eq_some_iff] at this
                obtain ⟨b, hb, hbk⟩ := this
                have h1 := depth_get? hbk
                have h2 := hd b (List.mem_of_getElem? hb)
                omega
    · rw [(build_spec h).1]
      intro he
      obtain ⟨b, hb⟩ := List.exists_mem_of_ne_nil bs hne
      obtain ⟨k, hk'⟩ := List.exists_mem_of_ne_nil _ (hk b hb)
      have : k ∈ allKeys bs := mem_allKeys.mpr ⟨b, hb, hk'⟩
      rw [he] at this
      simp at this

/-! ### Concatenation -/

theorem mapM_rows {ls : List Leaf} {rs : List (List D)}
    (h : (ls.mapM fun l => match l.data with | .arr rows => some rows | _ => none) = some rs) :
    ls.map Leaf.data = rs.map D.arr := by
  induction ls generalizing rs with
  | nil => simp at h; subst h; rfl
  | cons l ls ih =>
    rw [List.mapM_cons, Option.bind_eq_bind, Option.bind_eq_some_iff] at h
    obtain ⟨p, hp, h⟩ := h
    rw [Option.bind_eq_bind, Option.bind_eq_some_iff] at h
    obtain ⟨r, hr, h⟩ := h
    simp only [Option.pure_def, Option.some.injEq] at h
    subst h
    rw [List.map_cons, List.map_cons, ih hr]
    congr 1
    split at hp
    · cases hp; assumption
    · simp at hp

theorem flatten_segment (rs : List (List D)) (i : Nat) (r : List D) (h : rs[i]? = some r) :
    (rs.flatten.take (((rs.map List.length).take i).sum + r.length)).drop ((rs.map List.length).take i).sum = r := by
  induction rs generalizing i with
  | nil => simp at h
  | cons x rs ih =>
    cases i with
    | zero =>
      simp only [List.getElem?_cons_zero, Option.some.injEq] at h
      subst h
      simp
    | succ i =>
      rw [List.getElem?_cons_succ] at h
      have := ih i h
      simp only [List.flatten_cons, List.map_cons, List.take_succ_cons, List.sum_cons]
      rw [Nat.add_assoc, List.take_length_add_append, List.drop_length_add_append]
      exact this

theorem catAux_spec (fuel : Nat) (lens : List Nat) (bs : List B) (out : B) (hne : bs ≠ []) (hlen : lens.length = bs.length)
    (htall : ∀ (i n : Nat) (b : B), bs[i]? = some b → lens[i]? = some n → b.Tall n)
    (hd : ∀ b ∈ bs, b.depth < fuel) (h : catAux fuel lens bs = .ok out) :
    Merged lens.sum (segments 0 lens) bs out := by
  induction fuel generalizing bs out with
  | zero =>
    obtain ⟨b, hb⟩ := List.exists_mem_of_ne_nil bs hne
    have := hd b hb
    omega
  | succ fuel ih =>
    rw [catAux] at h
    refine merged_of_keys h ?_
    intro k hkey v hv
    have hfit : ∀ (i : Nat) (v : Val), (bs.map (B.get? k))[i]? = some (some v) →
        ∃ m, lens[i]? = some m ∧ v.All (Rows m) := by
      intro i w hw
      rw [List.getElem?_map, Option.map_eq_some_iff] at hw
      obtain ⟨b, hb, hbk⟩ := hw
      have hi := (List.getElem?_eq_some_iff.mp hb).1
      rw [← hlen] at hi
      exact ⟨lens[i], List.getElem?_eq_getElem hi, B.All.get? (htall i _ b hb (List.getElem?_eq_getElem hi)) hbk⟩
    refine mergeKey_spec (segment_places lens) (by simp [segments_length, hlen]) (by simpa using hne) ?_ ?_ v hv
    · intro i w hw
      obtain ⟨m, hm, hall⟩ := hfit i w hw
      cases w with
      | leaf l => exact ⟨m, hm, hall⟩
      | sub b => exact B.All.mono (fun d hd => ⟨m, hm, hd⟩) (b := b) hall
    · intro fs x hvs hfull hx
      have hlenf : bs.length = fs.length := by simpa using congrArg List.length hvs
      cases hsub : allSubs fs with
      | some cs =>
        simp only [hsub] at hx
        have e := allSubs_some hsub
        have hll : bs.length = cs.length := by rw [hlenf, e, List.length_map]
        cases hst : catAux fuel lens cs with
        | error e' => rw [hst] at hx; simp [Except.map] at hx
        | ok c =>
          rw [hst] at hx
          simp only [Except.map, Except.ok.injEq] at hx
          subst hx
          rw [e] at hvs
          have hget : ∀ (j : Nat) (x : B), cs[j]? = some x → ∃ b, bs[j]? = some b ∧ b.get? k = some (.sub x) := by
            intro j x hj
            have := congrArg (·[j]?) hvs
            simp only [List.getElem?_map, hj, Option.map_some] at this
            rw [Option.map_eq_some_iff] at this
            exact this
          refine sub_reads ?_ hvs
          refine ih cs c ?_ (by rw [hlen, hll]) ?_ ?_ hst
          · intro hcs
            rw [hcs] at hll
            exact hne (List.eq_nil_of_length_eq_zero (by simpa using hll))
          · intro i n y hy hn
            obtain ⟨b, hb, hbk⟩ := hget i y hy
            exact B.All.get? (htall i n b hb hn) hbk
          · intro y hy
            obtain ⟨j, hj⟩ := List.getElem?_of_mem hy
            obtain ⟨b, hb, hbk⟩ := hget j y hj
            have h1 := depth_get? hbk
            have h2 := hd b (List.mem_of_getElem? hb)
            omega
      | none =>
        simp only [hsub] at hx
        cases hl : allLeaves fs with
        | none => simp [hl] at hx
        | some ls =>
          simp only [hl] at hx
          split at hx
          · rename_i rs hrs
            cases hx
            have er := mapM_rows hrs
            have e := allLeaves_some hl
            rw [e] at hvs
            have hll : bs.length = ls.length := by rw [hlenf, e, List.length_map]
            have hrl : ls.length = rs.length := by simpa using congrArg List.length er
            have hrows : rs.map List.length = lens := by
              apply List.ext_getElem
              · rw [List.length_map, ← hrl, ← hll, hlen]
              · intro j h1 h2
                have hj : j < ls.length := by rw [← hll, ← hlen]; exact h2
                obtain ⟨m, hm, hall⟩ := hfit j (.leaf ls[j]) (by rw [hvs]; simp [hj])
                obtain ⟨rows, hr1, hr2⟩ := hall
                have hj' : j < rs.length := by omega
                have := congrArg (·[j]?) er
                simp only [List.getElem?_map, List.getElem?_eq_getElem hj, List.getElem?_eq_getElem hj', Option.map_some,
                  Option.some.injEq] at this
                rw [this] at hr1
                cases hr1
                rw [List.getElem?_eq_getElem h2, Option.some.injEq] at hm
                simp [hm, hr2]
            refine leaf_reads (ls := ls) ⟨_, rfl, by rw [List.length_flatten, hrows]⟩ ?_ ?_ rfl hvs
            · intro j J y hJ hy
              rw [segments_getElem?, Option.map_eq_some_iff] at hJ
              obtain ⟨m, hm, rfl⟩ := hJ
              have hj := (List.getElem?_eq_some_iff.mp hy).1
              have hj' : j < rs.length := by omega
              have := congrArg (·[j]?) er
              simp only [List.getElem?_map, hy, List.getElem?_eq_getElem hj', Option.map_some, Option.some.injEq] at this
              have hm' : rs[j].length = m := by
                rw [← hrows, List.getElem?_map, List.getElem?_eq_getElem hj', Option.map_some, Option.some.injEq] at hm
                exact hm
              have hf := flatten_segment rs j rs[j] (List.getElem?_eq_getElem hj')
              rw [hm', hrows] at hf
              simp only [D.getitem, Nat.zero_add, hf, this]
            · intro hls
              rw [hls] at hll
              exact hne (List.eq_nil_of_length_eq_zero (by simpa using hll))
          · simp at hx

/-! ### Batches of the same shape -/

theorem SameShape.keys {b c : B} (h : SameShape b c) {k : String} (hk : k ∈ b.keys) : k ∈ c.keys := by
  rw [← B.get?_isSome] at hk ⊢
  obtain ⟨v, hv⟩ := Option.isSome_iff_exists.mp hk
  cases v with
  | leaf l =>
    have := (h [k]).1
    rw [B.leafAt_cons, hv] at this
    have := this.mp rfl
    rw [B.leafAt_cons] at this
    cases hc : c.get? k with
    | none => rw [hc] at this; simp at this
    | some _ => rfl
  | sub x =>
    have := (h [k]).2
    rw [B.subAt_cons, hv] at this
    have := this.mp (by simp [Val.subAt, B.subAt_nil])
    rw [B.subAt_cons] at this
    cases hc : c.get? k with
    | none => rw [hc] at this; simp at this
    | some _ => rfl

theorem SameShape.symm {b c : B} (h : SameShape b c) : SameShape c b := fun path => ⟨(h path).1.symm, (h path).2.symm⟩

theorem SameShape.leaf {b c : B} (h : SameShape b c) {k : String} {l : Leaf} (hb : b.get? k = some (.leaf l)) :
    ∃ l', c.get? k = some (.leaf l') := by
  have := (h [k]).1.mp (by rw [B.leafAt_cons, hb]; rfl)
  rw [B.leafAt_cons] at this
  cases hc : c.get? k with
  | none => rw [hc] at this; simp at this
  | some v =>
    cases v with
    | leaf l' => exact ⟨l', rfl⟩
    | sub x => rw [hc] at this; simp [Val.leafAt, B.leafAt_nil] at this

theorem SameShape.sub {b c : B} (h : SameShape b c) {k : String} {x : B} (hb : b.get? k = some (.sub x)) :
    ∃ y, c.get? k = some (.sub y) ∧ SameShape x y := by
  have := (h [k]).2.mp (by rw [B.subAt_cons, hb]; simp [Val.subAt, B.subAt_nil])
  rw [B.subAt_cons] at this
  cases hc : c.get? k with
  | none => rw [hc] at this; simp at this
  | some v =>
    cases v with
    | leaf l' => rw [hc] at this; simp [Val.subAt] at this
    | sub y =>
      refine ⟨y, rfl, ?_⟩
      intro path
      have := h (k :: path)
      rw [B.leafAt_cons, B.leafAt_cons, B.subAt_cons, B.subAt_cons, hb, hc] at this
      exact this

theorem SameShape.nil {b : B} (h : SameShape .nil b) : b = .nil := by
  rw [← keys_eq_nil]
  by_contra hne
  obtain ⟨k, hk⟩ := List.exists_mem_of_ne_nil _ hne
  have := h.symm.keys hk
  simp [B.keys] at this

theorem build_ok {f : String → Except Err Val} {ks : List String} (h : ∀ k ∈ ks, ∃ v, f k = .ok v) :
    ∃ b, build f ks = .ok b := by
  induction ks with
  | nil => exact ⟨_, rfl⟩
  | cons k ks ih =>
    obtain ⟨v, hv⟩ := h k (by simp)
    obtain ⟨b, hb⟩ := ih fun k hk => h k (by simp [hk])
    exact ⟨B.cons k v b, by simp only [build, bind, Except.bind, hv, hb]⟩

/-- A key of batches of the same shape: all values, all empty batches, or all non-empty batches. -/
theorem sameShape_key {bs : List B} (hs : ∀ b ∈ bs, ∀ c ∈ bs, SameShape b c) (k : String) (hk : k ∈ allKeys bs) :
    (∃ ls : List Leaf, bs.map (B.get? k) = (ls.map Val.leaf).map some) ∨
    (∃ cs : List B, bs.map (B.get? k) = (cs.map Val.sub).map some ∧ (∀ x ∈ cs, ∀ y ∈ cs, SameShape x y) ∧
      ((∀ x ∈ cs, x = .nil) ∨ ∀ x ∈ cs, x ≠ .nil)) := by
  obtain ⟨b, hb, hbk⟩ := mem_allKeys.mp hk
  rw [← B.get?_isSome] at hbk
  obtain ⟨v, hv⟩ := Option.isSome_iff_exists.mp hbk
  have lift : ∀ {α : Type} (g : α → Val) (l : List B), (∀ c ∈ l, ∃ x, c.get? k = some (g x)) →
      ∃ xs : List α, l.map (B.get? k) = (xs.map g).map some := by
    intro α g l
    induction l with
    | nil => intro _; exact ⟨[], rfl⟩
    | cons c l ih =>
      intro h
      obtain ⟨x, hx⟩ := h c (by simp)
      obtain ⟨xs, hxs⟩ := ih fun c hc => h c (by simp [hc])
      exact ⟨x :: xs, by simp [hx, ← hxs]⟩
  cases v with
  | leaf l =>
    left
    exact lift Val.leaf bs fun c hc => (hs b hb c hc).leaf hv
  | sub x =>
    right
    obtain ⟨cs, hcs⟩ := lift Val.sub bs fun c hc => by
      obtain ⟨y, hy, _⟩ := (hs b hb c hc).sub hv
      exact ⟨y, hy⟩
    have hmem : ∀ y ∈ cs, ∃ c ∈ bs, c.get? k = some (.sub y) := by
      intro y hy
      obtain ⟨j, hj⟩ := List.getElem?_of_mem hy
      have := congrArg (·[j]?) hcs
      simp only [List.getElem?_map, hj, Option.map_some] at this
      rw [Option.map_eq_some_iff] at this
      obtain ⟨c, hc, hck⟩ := this
      exact ⟨c, List.mem_of_getElem? hc, hck⟩
    have hpair : ∀ x ∈ cs, ∀ y ∈ cs, SameShape x y := by
      intro y hy z hz
      obtain ⟨c, hc, hck⟩ := hmem y hy
      obtain ⟨d, hd, hdk⟩ := hmem z hz
      obtain ⟨z', hz', hyz⟩ := (hs c hc d hd).sub hck
      rw [hdk] at hz'
      cases hz'
      exact hyz
    refine ⟨cs, hcs, hpair, ?_⟩
    by_cases hn : ∃ y ∈ cs, y = .nil
    · left
      obtain ⟨y, hy, rfl⟩ := hn
      intro z hz
      exact (hpair _ hy z hz).nil
    · right
      push Not at hn
      exact hn

theorem mapM_map_some {α : Type} (g : α → Val) (hg : ∀ x, full (some (g x)) = some (g x)) (xs : List α) :
    ((((xs.map g).map some).map full).mapM id : Option (List Val)) = some (xs.map g) := by
  induction xs with
  | nil => rfl
  | cons x xs ih =>
    rw [List.map_cons, List.map_cons, List.map_cons, List.mapM_cons, hg, ih]
    rfl

theorem mergeKey_leaves {size : Nat} {st : Bool} {places : List Index} {shared : List Val → Except Err Val} (ls : List Leaf) :
    mergeKey size st places shared ((ls.map Val.leaf).map some) = shared (ls.map Val.leaf) := by
  unfold mergeKey
  rw [mapM_map_some Val.leaf (fun _ => rfl)]

theorem mergeKey_subs {size : Nat} {st : Bool} {places : List Index} {shared : List Val → Except Err Val} (cs : List B)
    (h : ∀ x ∈ cs, x ≠ .nil) :
    mergeKey size st places shared ((cs.map Val.sub).map some) = shared (cs.map Val.sub) := by
  unfold mergeKey
  have : ((((cs.map Val.sub).map some).map full).mapM id : Option (List Val)) = some (cs.map Val.sub) := by
    induction cs with
    | nil => rfl
    | cons x xs ih =>
      have hx : full (some (Val.sub x)) = some (.sub x) := by
        have := h x (by simp)
        cases x <;> simp_all [full]
      rw [List.map_cons, List.map_cons, List.map_cons, List.mapM_cons, hx, ih fun y hy => h y (by simp [hy])]
      rfl
  rw [this]

theorem mergeKey_nils {size : Nat} {st : Bool} {places : List Index} {shared : List Val → Except Err Val} (cs : List B)
    (hne : cs ≠ []) (h : ∀ x ∈ cs, x = .nil) :
    mergeKey size st places shared ((cs.map Val.sub).map some) = .ok (.sub .nil) := by
  unfold mergeKey
  have hfull : ((cs.map Val.sub).map some).map full = cs.map fun _ => none := by
    rw [List.map_map, List.map_map]
    apply List.map_congr_left
    intro x hx
    rw [h x hx]
    rfl
  cases cs with
  | nil => simp at hne
  | cons x xs =>
    rw [hfull]
    simp [List.mapM_cons]

theorem allLeaves_map (ls : List Leaf) : allLeaves (ls.map Val.leaf) = some ls := by
  unfold allLeaves
  induction ls with
  | nil => rfl
  | cons l ls ih => rw [List.map_cons, List.mapM_cons, ih]; rfl

theorem allSubs_map (cs : List B) : allSubs (cs.map Val.sub) = some cs := by
  unfold allSubs
  induction cs with
  | nil => rfl
  | cons l ls ih => rw [List.map_cons, List.mapM_cons, ih]; rfl

theorem allLeaves_subs (cs : List B) (h : cs ≠ []) : allLeaves (cs.map Val.sub) = none := by
  cases cs with
  | nil => simp at h
  | cons c cs => unfold allLeaves; rw [List.map_cons, List.mapM_cons]; rfl

theorem allSubs_leaves (ls : List Leaf) (h : ls ≠ []) : allSubs (ls.map Val.leaf) = none := by
  cases ls with
  | nil => simp at h
  | cons c cs => unfold allSubs; rw [List.map_cons, List.mapM_cons]; rfl

theorem stackAux_ok (fuel : Nat) (bs : List B) (hs : ∀ b ∈ bs, ∀ c ∈ bs, SameShape b c) :
    ∃ out, stackAux fuel bs = .ok out := by
  induction fuel generalizing bs with
  | zero => exact ⟨_, rfl⟩
  | succ fuel ih =>
    rw [stackAux]
    have hs' : ∀ b ∈ bs.filter (fun b => decide (b.keys ≠ [])), ∀ c ∈ bs.filter (fun b => decide (b.keys ≠ [])),
        SameShape b c := fun b hb c hc => hs b (List.mem_of_mem_filter hb) c (List.mem_of_mem_filter hc)
    generalize bs.filter (fun b => decide (b.keys ≠ [])) = bs at hs'
    split_ifs with hne
    · exact ⟨_, rfl⟩
    · apply build_ok
      intro k hk
      have hlen : ∀ {α : Type} (g : α → Val) (xs : List α), bs.map (B.get? k) = (xs.map g).map some → xs ≠ [] := by
        intro α g xs h hxs
        rw [hxs] at h
        have := congrArg List.length h
        simp at this
        exact hne this
      rcases sameShape_key hs' k hk with ⟨ls, hls⟩ | ⟨cs, hcs, hpair, hnil⟩
      · rw [hls, mergeKey_leaves]
        simp only [allLeaves_map]
        exact ⟨_, rfl⟩
      · rw [hcs]
        rcases hnil with hnil | hnil
        · rw [mergeKey_nils cs (hlen _ _ hcs) hnil]
          exact ⟨_, rfl⟩
        · rw [mergeKey_subs cs hnil]
          simp only [allLeaves_subs cs (hlen _ _ hcs), allSubs_map]
          obtain ⟨c, hc⟩ := ih cs hpair
          rw [hc]
          exact ⟨_, rfl⟩

theorem catAux_ok (fuel : Nat) (lens : List Nat) (bs : List B) (hne : bs ≠ []) (hs : ∀ b ∈ bs, ∀ c ∈ bs, SameShape b c)
    (htall : ∀ b ∈ bs, b.All fun d => ∃ rows, d = .arr rows) :
    ∃ out, catAux fuel lens bs = .ok out := by
  induction fuel generalizing bs with
  | zero => exact ⟨_, rfl⟩
  | succ fuel ih =>
    rw [catAux]
    apply build_ok
    intro k hk
    have hlen : ∀ {α : Type} (g : α → Val) (xs : List α), bs.map (B.get? k) = (xs.map g).map some → xs ≠ [] := by
      intro α g xs h hxs
      rw [hxs] at h
      have := congrArg List.length h
      simp at this
      exact hne this
    have hmem : ∀ {α : Type} (g : α → Val) (xs : List α), bs.map (B.get? k) = (xs.map g).map some → ∀ y ∈ xs,
        ∃ c ∈ bs, c.get? k = some (g y) := by
      intro α g xs h y hy
      obtain ⟨j, hj⟩ := List.getElem?_of_mem hy
      have := congrArg (·[j]?) h
      simp only [List.getElem?_map, hj, Option.map_some] at this
      rw [Option.map_eq_some_iff] at this
      obtain ⟨c, hc, hck⟩ := this
      exact ⟨c, List.mem_of_getElem? hc, hck⟩
    rcases sameShape_key hs k hk with ⟨ls, hls⟩ | ⟨cs, hcs, hpair, hnil⟩
    · rw [hls, mergeKey_leaves]
      simp only [allSubs_leaves ls (hlen _ _ hls), allLeaves_map]
      have : ∃ rs, (ls.mapM fun l => match l.data with | .arr rows => some rows | _ => none) = some rs := by
        have hrow : ∀ l ∈ ls, ∃ rows, l.data = .arr rows := by
          intro l hl
          obtain ⟨c, hc, hck⟩ := hmem _ _ hls l hl
          exact B.All.get? (htall c hc) hck
        clear hls
        induction ls with
        | nil => exact ⟨[], rfl⟩
        | cons l ls ihl =>
          obtain ⟨rows, hrows⟩ := hrow l (by simp)
          obtain ⟨rs, hrs⟩ := ihl fun l hl => hrow l (by simp [hl])
          exact ⟨rows :: rs, by rw [List.mapM_cons, hrs]; simp [hrows]⟩
      obtain ⟨rs, hrs⟩ := this
      split
      · exact ⟨_, rfl⟩
      · rename_i hn
        exact absurd (hn.symm.trans hrs) (by simp)
    · rw [hcs]
      rcases hnil with hnil | hnil
      · rw [mergeKey_nils cs (hlen _ _ hcs) hnil]
        exact ⟨_, rfl⟩
      · rw [mergeKey_subs cs hnil]
        simp only [allSubs_map]
        obtain ⟨c, hc⟩ := ih cs (hlen _ _ hcs) hpair fun x hx => by
          obtain ⟨c, hc, hck⟩ := hmem _ _ hcs x hx
          exact B.All.get? (htall c hc) hck
        rw [hc]
        exact ⟨_, rfl⟩

theorem sameStructure_of {fuel : Nat} {b c : B} (h : SameShape b c) : b.sameStructure fuel c = true := by
  induction fuel generalizing b c with
  | zero => rfl
  | succ fuel ih =>
    rw [B.sameStructure]
    simp only [Bool.and_eq_true, decide_eq_true_eq, List.all_eq_true]
    refine ⟨⟨fun k hk => h.keys hk, fun k hk => h.symm.keys hk⟩, ?_⟩
    intro k hk
    rw [← B.get?_isSome] at hk
    obtain ⟨v, hv⟩ := Option.isSome_iff_exists.mp hk
    cases v with
    | leaf l =>
      obtain ⟨l', hl'⟩ := h.leaf hv
      simp [hv, hl', full]
    | sub x =>
      obtain ⟨y, hy, hxy⟩ := h.sub hv
      rw [hv, hy]
      cases x with
      | nil =>
        have := hxy.nil
        subst this
        simp [full]
      | leaf k' l' r =>
        have : y ≠ .nil := by
          intro hn
          subst hn
          have := hxy.symm.nil
          simp at this
        have e : full (some (Val.sub y)) = some (.sub y) := by cases y <;> simp_all [full]
        rw [e]
        exact ih hxy
      | sub k' l' r =>
        have : y ≠ .nil := by
          intro hn
          subst hn
          have := hxy.symm.nil
          simp at this
        have e : full (some (Val.sub y)) = some (.sub y) := by cases y <;> simp_all [full]
        rw [e]
        exact ih hxy

/-! ### Lengths -/

theorem lens_tall {b : B} {n : Nat} (h : b.Tall n) :
    ∃ l, b.lens = .ok l ∧ (∀ x ∈ l, x = n) ∧ ((∃ path, (b.leafAt path).isSome) → n ≠ 0 → l ≠ []) ∧
      (b.WF → l ≠ [] → ∃ path, (b.leafAt path).isSome) := by
  induction b with
  | nil =>
    refine ⟨[], rfl, by simp, ?_, by simp⟩
    rintro ⟨path, hp⟩
    cases path <;> simp [B.leafAt] at hp
  | leaf k l rest ih =>
    obtain ⟨⟨rows, hr1, hr2⟩, hrest⟩ := h
    obtain ⟨r, h1, h2, h3, h4⟩ := ih hrest
    refine ⟨n :: r, ?_, ?_, by simp, ?_⟩
    · rw [B.lens, hr1]
      simp only [h1, hr2, Except.map]
    · intro x hx
      rw [List.mem_cons] at hx
      rcases hx with rfl | hx
      · rfl
      · exact h2 x hx
    · intro _ _
      exact ⟨[k], by simp [B.leafAt]⟩
  | sub k b rest ihb ih =>
    obtain ⟨hb, hrest⟩ := h
    obtain ⟨r, h1, h2, h3, h4⟩ := ih hrest
    obtain ⟨l, g1, g2, g3, g4⟩ := ihb hb
    have hmin : l.min?.getD 0 = if l = [] then 0 else n := by
      split_ifs with hl
      · subst hl; rfl
      · obtain ⟨m, hm⟩ : ∃ m, l.min? = some m := by
          cases l with
          | nil => simp at hl
          | cons a l => exact ⟨_, rfl⟩
        rw [hm]
        exact g2 m (List.min?_mem hm)
    by_cases hz : l.min?.getD 0 = 0
    · refine ⟨r, ?_, h2, ?_, ?_⟩
      · simp only [B.lens, bind, Except.bind, g1, h1, if_pos hz]
      · rintro ⟨path, hp⟩ hn
        rw [hmin] at hz
        have hl : l = [] := by
          by_contra hl
          rw [if_neg hl] at hz
          exact hn hz
        cases path with
        | nil => rw [B.leafAt_nil] at hp; simp at hp
        | cons key path =>
          simp only [B.leafAt] at hp
          split_ifs at hp with hk
          · exact absurd hl (g3 ⟨_, hp⟩ hn)
          · exact h3 ⟨_, hp⟩ hn
      · intro hwf hr
        obtain ⟨path, hp⟩ := h4 hwf.2.2 hr
        refine ⟨path, ?_⟩
        cases path with
        | nil => rw [B.leafAt_nil] at hp; simp at hp
        | cons key path =>
          rw [B.leafAt, if_neg]
          · exact hp
          · rintro rfl
            obtain ⟨l, hl⟩ := Option.isSome_iff_exists.mp hp
            exact hwf.1 (B.mem_keys_of_leafAt hl)
    · refine ⟨n :: r, ?_, ?_, by simp, ?_⟩
      · simp only [B.lens, bind, Except.bind, g1, h1, if_neg hz]
        rw [hmin] at hz ⊢
        split_ifs at hz ⊢ with hl
        · simp at hz
        · rfl
      · intro x hx
        rw [List.mem_cons] at hx
        rcases hx with rfl | hx
        · rfl
        · exact h2 x hx
      · intro hwf _
        have hl : l ≠ [] := by
          intro hl
          rw [hl] at hz
          exact hz rfl
        obtain ⟨path, hp⟩ := g4 hwf.2.1 hl
        exact ⟨k :: path, by rw [B.leafAt, if_pos rfl]; exact hp⟩

theorem len_of_lens {b : B} {n : Nat} (h : b.Tall n) (hl : ∃ path, (b.leafAt path).isSome) : b.len = .ok n := by
  obtain ⟨l, h1, h2, h3, _⟩ := lens_tall h
  unfold B.len
  rw [h1]
  simp only [Except.map]
  congr 1
  cases l with
  | nil =>
    by_contra hn
    exact h3 hl (by intro hz; exact hn (by rw [hz]; rfl)) rfl
  | cons a l =>
    have hm : (a :: l).min? = some ((a :: l).min?.getD 0) := by simp [List.min?]
    exact h2 _ (List.min?_mem hm)

theorem leaf_of_len {b : B} {n m : Nat} (h : b.Tall n) (hwf : b.WF) (hlen : b.len = .ok m) (hm : m ≠ 0) :
    ∃ path, (b.leafAt path).isSome := by
  obtain ⟨l, h1, h2, _, h4⟩ := lens_tall h
  apply h4 hwf
  rintro rfl
  rw [B.len, h1] at hlen
  simp only [Except.map, Except.ok.injEq] at hlen
  exact hm hlen.symm

end Verif.Batch
