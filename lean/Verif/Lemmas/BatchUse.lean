import Verif.Lemmas.BatchPlaces

/-! From merged values to reading the merged batch; assignments; splitting. -/

namespace Verif.Batch

/-- Reading a place of a batch that holds `b` there. -/
theorem reads_getitem {I : Index} {b out : B} (hne : out.keys ≠ []) (hget : out.All fun d => ∃ x, d.getitem I = .ok x)
    (h : ReadsAt I (some (.sub b)) (.sub out)) :
    ∃ r, out.getitem I = .ok r ∧ Reads b r ∧ (∀ path, (r.leafAt path).isSome = (out.leafAt path).isSome) ∧
      ∀ path, (r.subAt path).isSome = (out.subAt path).isSome := by
  obtain ⟨r, hr, _, h1, h2, h3⟩ := getLoop_spec I out hget
  refine ⟨r, by rw [getitem_of_ne hne, hr], ?_, ?_, h3⟩
  · intro path
    obtain ⟨g1, g2⟩ := h path
    simp only [Option.bind_some, Val.leafAt] at g1 g2
    refine ⟨?_, ?_⟩
    · intro l hl
      obtain ⟨l', hl1, hl2⟩ := g1 l hl
      obtain ⟨x, hx1, hx2⟩ := h2 path l' hl1
      rw [hl2] at hx1
      cases hx1
      exact ⟨_, hx2, rfl⟩
    · intro hn l' hl'
      cases ho : out.leafAt path with
      | none => rw [h1 path ho] at hl'; simp at hl'
      | some lo =>
        obtain ⟨x, hx1, hx2⟩ := h2 path lo ho
        obtain ⟨y, hy1, hy2⟩ := g2 hn lo ho
        rw [hx1] at hy1
        cases hy1
        rw [hx2] at hl'
        cases hl'
        exact hy2
  · intro path
    cases ho : out.leafAt path with
    | none => rw [h1 path ho]
    | some lo =>
      obtain ⟨x, _, hx2⟩ := h2 path lo ho
      rw [hx2]
      rfl

theorem Merged.reads {size : Nat} {places : List Index} {fits : Nat → D → Prop} (hP : Places size places fits) {bs : List B}
    {out : B} (h : Merged size places bs out) (hne : out.keys ≠ []) {i : Nat} {I : Index} {b : B}
    (hI : places[i]? = some I) (hb : bs[i]? = some b) :
    ∃ r, out.getitem I = .ok r ∧ Reads b r ∧ ∀ path, (r.leafAt path).isSome → ∃ c ∈ bs, (c.leafAt path).isSome := by
  obtain ⟨h1, h2, h3⟩ := h
  obtain ⟨r, hr1, hr2, hr3, _⟩ := reads_getitem hne (B.All.mono (fun d hd => hP.get i I d hI hd) h1) (h2 i I b hI hb)
  exact ⟨r, hr1, hr2, fun path hp => by
    obtain ⟨lo, hlo⟩ := Option.isSome_iff_exists.mp (by rw [← hr3]; exact hp : (out.leafAt path).isSome = true)
    obtain ⟨c, hc, l, hl, _⟩ := h3 path lo hlo
    exact ⟨c, hc, by rw [hl]; rfl⟩⟩

theorem reads_same {bs : List B} (hs : ∀ b ∈ bs, ∀ c ∈ bs, SameShape b c) {b r : B} (hb : b ∈ bs) (h : Reads b r)
    (hdom : ∀ path, (r.leafAt path).isSome → ∃ c ∈ bs, (c.leafAt path).isSome) : SameData b r := by
  intro path
  obtain ⟨g1, _⟩ := h path
  cases hl : b.leafAt path with
  | some l =>
    obtain ⟨l', hl1, hl2⟩ := g1 l hl
    rw [hl1, Option.map_some, Option.map_some, hl2]
  | none =>
    cases hr : r.leafAt path with
    | none => rfl
    | some l' =>
      obtain ⟨c, hc, hcp⟩ := hdom path (by rw [hr]; rfl)
      have := (hs c hc b hb path).1.mp hcp
      rw [hl] at this
      simp at this

theorem keys_of_leaf {b : B} {path : List String} (h : (b.leafAt path).isSome) : b.keys ≠ [] := by
  intro hn
  rw [keys_eq_nil] at hn
  subst hn
  cases path <;> simp [B.leafAt] at h

/-! ### Assignment -/

theorem setitem_reads {n : Nat} {I : Index} {fits : Nat → D → Prop} (hP : Places n [I] fits) {b v b' : B} (hb : b.Tall n)
    (hv : v.All (fits 0)) (hne : b.keys ≠ []) (h : b.setitem I v = (b', none)) :
    b'.Tall n ∧ (∃ r, b'.getitem I = .ok r ∧ Reads v r) ∧ ∀ path, (b'.leafAt path).isSome = (b.leafAt path).isSome := by
  obtain ⟨h1, h2, _, h4⟩ := Val.setitem_spec hP (i := 0) (I := I) rfl (h := .sub b) (v := .sub v) (h' := .sub b') hb hv
    (by simp only [Val.setitem, h])
  have hkeys : b'.keys = b.keys := by
    unfold B.setitem at h
    split_ifs at h with hsub
    · have := setLoop_keys I v b
      rw [h] at this
      exact this
    · simp at h
  obtain ⟨r, hr1, hr2, _⟩ := reads_getitem (by rw [hkeys]; exact hne)
    (B.All.mono (fun d hd => hP.get 0 I d rfl hd) h1) h2
  exact ⟨h1, ⟨r, hr1, hr2⟩, fun path => by
    have := congrArg Option.isSome (h4 path)
    simpa only [Val.leafAt, Option.isSome_map] using this⟩

/-- Rows the assignment does not select. -/
theorem setitem_untouched {n : Nat} {I J : Index} {b v b' : B} (hb : b.Tall n) (hne : b.keys ≠ [])
    (hget : ∀ d, Rows n d → ∃ x, d.getitem J = .ok x)
    (hset : ∀ d v d', Rows n d → d.setitem I v = .ok d' → d'.getitem J = d.getitem J)
    (hfill : ∀ d z d', Rows n d → d.setfill I z = .ok d' → d'.getitem J = d.getitem J)
    (h : b.setitem I v = (b', none)) :
    ∃ r r', b.getitem J = .ok r ∧ b'.getitem J = .ok r' ∧ SameData r r' := by
  unfold B.setitem at h
  split_ifs at h with hsub
  · have hkeys : b'.keys = b.keys := by
      have := setLoop_keys I v b
      rw [h] at this
      exact this
    have hb' : b'.All fun d => ∃ x, d.getitem J = .ok x := by
      refine setLoop_all (P := Rows n) I ?_ ?_ v b b' hb h
      · intro d v d' hd hs
        rw [hset d v d' hd hs]
        exact hget d hd
      · intro d z d' hd hs
        rw [hfill d z d' hd hs]
        exact hget d hd
    obtain ⟨r, hr, _, h1, h2, _⟩ := getLoop_spec J b (B.All.mono hget hb)
    obtain ⟨r', hr', _, h1', h2', _⟩ := getLoop_spec J b' hb'
    refine ⟨r, r', by rw [getitem_of_ne hne, hr], by rw [getitem_of_ne (by rw [hkeys]; exact hne), hr'], ?_⟩
    intro path
    obtain ⟨p1, p2, p3⟩ := setLoop_leafAt I v b b' h path
    cases hl : b.leafAt path with
    | none => rw [h1 path hl, h1' path (p1 hl)]
    | some l =>
      have key : ∃ d, b'.leafAt path = some ⟨l.object, d⟩ ∧ d.getitem J = l.data.getitem J := by
        have hrl := B.All.leafAt b hb path l hl
        cases hv : v.leafAt path with
        | none => obtain ⟨d, hd1, hd2⟩ := p3 l hl hv; exact ⟨d, hd2, hfill _ _ _ hrl hd1⟩
        | some l' => obtain ⟨d, hd1, hd2⟩ := p2 l l' hl hv; exact ⟨d, hd2, hset _ _ _ hrl hd1⟩
      obtain ⟨d, hd1, hd2⟩ := key
      obtain ⟨x, hx1, hx2⟩ := h2 path l hl
      obtain ⟨y, hy1, hy2⟩ := h2' path _ hd1
      rw [hd2, hx1] at hy1
      cases hy1
      rw [hx2, hy2]
  · simp at h

theorem Fits.keys {v b : B} (h : Fits v b) : v.keys ⊆ b.keys := by
  intro k hk
  rw [← B.get?_isSome] at hk ⊢
  obtain ⟨x, hx⟩ := Option.isSome_iff_exists.mp hk
  cases x with
  | leaf l =>
    have := (h [k]).1 (by rw [B.leafAt_cons, hx]; rfl)
    rw [B.leafAt_cons] at this
    cases hc : b.get? k with
    | none => rw [hc] at this; simp at this
    | some _ => rfl
  | sub x =>
    have := (h [k]).2 (by rw [B.subAt_cons, hx]; simp [Val.subAt, B.subAt_nil])
    rw [B.subAt_cons] at this
    cases hc : b.get? k with
    | none => rw [hc] at this; simp at this
    | some _ => rfl

theorem setitem_ok {n : Nat} {I : Index} {fits : Nat → D → Prop} (hP : Places n [I] fits) {b v : B} (hwf : b.WF)
    (hb : b.Tall n) (hv : v.All (fits 0)) (hfits : Fits v b) : ∃ b', b.setitem I v = (b', none) := by
  unfold B.setitem
  rw [if_pos hfits.keys]
  have := setLoop_ok I v b hwf
    (fun path l l' hl hl' => hP.setOk 0 I l.data l'.data rfl (B.All.leafAt b hb path l hl) (B.All.leafAt v hv path l' hl'))
    (fun path l hl => hP.fillOk 0 I l.data l.zero rfl (B.All.leafAt b hb path l hl))
    (fun k _ path => hfits (k :: path))
  exact ⟨(B.setLoop I v b).1, Prod.ext rfl this⟩

theorem all_true (b : B) : b.All fun _ => True := by
  induction b with
  | nil => trivial
  | leaf _ _ _ ih => exact ⟨trivial, ih⟩
  | sub _ _ _ i1 i2 => exact ⟨i1, i2⟩

theorem pos_iff {n : Nat} {i : Int} {p : Nat} :
    pos n i = some p ↔ p < n ∧ (p : Int) = if i < 0 then i + n else i := by
  unfold pos
  split_ifs <;> simp <;> omega

theorem one_places {n : Nat} {i : Int} {p : Nat} (hp : pos n i = some p) : Places n [.one i] (fun _ _ => True) :=
  ones_places (is := [i]) (ps := [p])
    (by
      intro t j hj
      cases t with
      | zero => simp only [List.getElem?_cons_zero, Option.some.injEq] at hj; subst hj; exact ⟨p, rfl, hp⟩
      | succ t => simp at hj)
    (by simp)

/-- Several rows at different positions. -/
theorem many_places {n : Nat} {is : List Int} {ps : List Nat} (hps : positions n is = some ps) (hnd : ps.Nodup) :
    Places n [.many is] (fun _ d => Rows is.length d) := by
  obtain ⟨h1, h2, h3⟩ := positions_spec hps
  have hI : ∀ (t : Nat) (I : Index), [Index.many is][t]? = some I → I = .many is ∧ t = 0 := by
    intro t I h
    cases t with
    | zero => simp only [List.getElem?_cons_zero, Option.some.injEq] at h; exact ⟨h.symm, rfl⟩
    | succ t => simp at h
  have hread : ∀ (rows : List D), rows.length = n → (D.arr rows).getitem (.many is) =
      .ok (.arr (ps.filterMap fun p => rows[p]?)) := by
    rintro rows rfl
    simp only [D.getitem, hps]
  have hwrite : ∀ (rows vs : List D), rows.length = n → vs.length = is.length →
      (D.arr rows).setitem (.many is) (.arr vs) = .ok (.arr (writeRows rows ps vs)) := by
    rintro rows vs rfl hvs
    simp only [D.setitem, hps]
    rw [if_pos (by omega)]
  have hwrite' : ∀ (rows : List D) (v d' : D), rows.length = n → (D.arr rows).setitem (.many is) v = .ok d' →
      ∃ vs, v = .arr vs ∧ vs.length = is.length ∧ d' = .arr (writeRows rows ps vs) := by
    rintro rows v d' rfl hs
    simp only [D.setitem, hps] at hs
    cases v with
    | arr vs =>
      simp only at hs
      split_ifs at hs with hlen
      · cases hs
        exact ⟨vs, rfl, by omega, rfl⟩
    | num _ => simp at hs
    | none => simp at hs
    | obj _ => simp at hs
  have hfl : ∀ (rows : List D) (z : D), rows.length = n → (D.arr rows).setfill (.many is) z =
      .ok (.arr (ps.foldl (fun r p => r.modify p (D.fill z)) rows)) := by
    rintro rows z rfl
    simp only [D.setfill, hps]
  refine ⟨?_, ?_, ?_, ?_, ?_, ?_, ?_, ?_, ?_⟩
  · rintro t I d hIt ⟨rows, rfl, hr⟩
    obtain ⟨rfl, rfl⟩ := hI t I hIt
    exact ⟨_, hread rows hr⟩
  · rintro t I d v d' hIt ⟨rows, rfl, hr⟩ hs
    obtain ⟨rfl, rfl⟩ := hI t I hIt
    obtain ⟨vs, rfl, hvs, rfl⟩ := hwrite' rows v d' hr hs
    exact ⟨_, rfl, by rw [writeRows_length, hr]⟩
  · rintro t I d v d' hIt ⟨rows, rfl, hr⟩ _ hs
    obtain ⟨rfl, rfl⟩ := hI t I hIt
    obtain ⟨vs, rfl, hvs, rfl⟩ := hwrite' rows v d' hr hs
    rw [hread _ (by rw [writeRows_length, hr])]
    congr 2
    have hall : ∀ (qs : List Nat) (ys : List D), ys.length = qs.length →
        (∀ (t p : Nat), qs[t]? = some p → (writeRows rows ps vs)[p]? = ys[t]?) →
        (qs.filterMap fun p => (writeRows rows ps vs)[p]?) = ys := by
      intro qs
      induction qs with
      | nil => intro ys hys _; exact (List.eq_nil_of_length_eq_zero hys).symm
      | cons q qs ih =>
        intro ys hys h
        cases ys with
        | nil => simp at hys
        | cons y ys =>
          have h0 := h 0 q rfl
          rw [List.getElem?_cons_zero] at h0
          rw [List.filterMap_cons_some h0, ih ys (by simpa using hys)]
          intro t p ht
          exact h (t + 1) p (by simpa using ht)
    exact hall ps vs (by omega) fun t p ht => writeRows_at rows ps vs hnd (by rw [hr]; exact h2) (by omega) t p ht
  · rintro t I d v d' hIt _ _ j J hjt hJ
    obtain ⟨_, rfl⟩ := hI t I hIt
    obtain ⟨_, rfl⟩ := hI j J hJ
    exact absurd rfl hjt
  · rintro t I d z d' hIt ⟨rows, rfl, hr⟩ hs
    obtain ⟨rfl, rfl⟩ := hI t I hIt
    rw [hfl rows z hr] at hs
    cases hs
    exact ⟨_, rfl, by rw [fillRows_length, hr]⟩
  · rintro o t I d z d' hIt ⟨rows, rfl, hr⟩ hz hs
    obtain ⟨rfl, rfl⟩ := hI t I hIt
    rw [hfl rows z hr] at hs
    cases hs
    refine ⟨_, hread _ (by rw [fillRows_length, hr]), .arr _ ?_⟩
    intro x hx
    rw [List.mem_filterMap] at hx
    obtain ⟨p, hp, hpx⟩ := hx
    exact fillRows_at z hz rows ps p hp x hpx
  · rintro t I d v d' hIt _ _ j J hjt hJ
    obtain ⟨_, rfl⟩ := hI t I hIt
    obtain ⟨_, rfl⟩ := hI j J hJ
    exact absurd rfl hjt
  · rintro t I d v hIt ⟨rows, rfl, hr⟩ ⟨vs, rfl, hvs⟩
    obtain ⟨rfl, rfl⟩ := hI t I hIt
    exact ⟨_, hwrite rows vs hr hvs⟩
  · rintro t I d z hIt ⟨rows, rfl, hr⟩
    obtain ⟨rfl, rfl⟩ := hI t I hIt
    exact ⟨_, hfl rows z hr⟩

/-- A position the index does not select keeps its row. -/
theorem untouched_row {n : Nat} {I : Index} {j : Int} {q : Nat} (hq : pos n j = some q)
    (hI : ∀ rows : List D, rows.length = n →
      (∀ (v : D) (rows' : D), (D.arr rows).setitem I v = .ok rows' → ∃ r, rows' = .arr r ∧ r.length = n ∧ r[q]? = rows[q]?) ∧
      (∀ (z : D) (rows' : D), (D.arr rows).setfill I z = .ok rows' → ∃ r, rows' = .arr r ∧ r.length = n ∧ r[q]? = rows[q]?))
    {b v b' : B} (hb : b.Tall n) (hne : b.keys ≠ []) (h : b.setitem I v = (b', none)) :
    ∃ r r', b.getitem (.one j) = .ok r ∧ b'.getitem (.one j) = .ok r' ∧ SameData r r' := by
  refine setitem_untouched hb hne ?_ ?_ ?_ h
  · rintro d ⟨rows, rfl, hr⟩
    exact ⟨_, getitem_one hr hq⟩
  · rintro d v d' ⟨rows, rfl, hr⟩ hs
    obtain ⟨r, rfl, hlen, hrq⟩ := (hI rows hr).1 v d' hs
    rw [getitem_one hr hq, getitem_one hlen hq]
    have hq' := pos_lt hq
    rw [List.getElem?_eq_getElem (by omega), List.getElem?_eq_getElem (by omega), Option.some.injEq] at hrq
    rw [hrq]
  · rintro d v d' ⟨rows, rfl, hr⟩ hs
    obtain ⟨r, rfl, hlen, hrq⟩ := (hI rows hr).2 v d' hs
    rw [getitem_one hr hq, getitem_one hlen hq]
    have hq' := pos_lt hq
    rw [List.getElem?_eq_getElem (by omega), List.getElem?_eq_getElem (by omega), Option.some.injEq] at hrq
    rw [hrq]

theorem one_untouched {n : Nat} {i : Int} {p q : Nat} (hp : pos n i = some p) (hqp : q ≠ p) (rows : List D)
    (hr : rows.length = n) :
    (∀ (v : D) (rows' : D), (D.arr rows).setitem (.one i) v = .ok rows' → ∃ r, rows' = .arr r ∧ r.length = n ∧ r[q]? = rows[q]?) ∧
    (∀ (z : D) (rows' : D), (D.arr rows).setfill (.one i) z = .ok rows' → ∃ r, rows' = .arr r ∧ r.length = n ∧ r[q]? = rows[q]?) := by
  refine ⟨?_, ?_⟩
  · intro v rows' hs
    rw [setitem_one hr hp] at hs
    cases hs
    exact ⟨_, rfl, by rw [List.length_set, hr], List.getElem?_set_ne (Ne.symm hqp)⟩
  · intro v rows' hs
    rw [setfill_one hr hp] at hs
    cases hs
    refine ⟨_, rfl, by rw [List.length_modify, hr], ?_⟩
    rw [List.getElem?_modify]
    simp [Ne.symm hqp]

theorem many_untouched {n : Nat} {is : List Int} {ps : List Nat} {q : Nat} (hps : positions n is = some ps) (hqp : q ∉ ps)
    (rows : List D) (hr : rows.length = n) :
    (∀ (v : D) (rows' : D), (D.arr rows).setitem (.many is) v = .ok rows' → ∃ r, rows' = .arr r ∧ r.length = n ∧ r[q]? = rows[q]?) ∧
    (∀ (z : D) (rows' : D), (D.arr rows).setfill (.many is) z = .ok rows' → ∃ r, rows' = .arr r ∧ r.length = n ∧ r[q]? = rows[q]?) := by
  subst hr
  refine ⟨?_, ?_⟩
  · intro v rows' hs
    simp only [D.setitem, hps] at hs
    cases v with
    | arr vs =>
      simp only at hs
      split_ifs at hs with hlen
      · cases hs
        exact ⟨_, rfl, writeRows_length _ _ _, writeRows_other _ _ _ _ hqp⟩
    | num _ => simp at hs
    | none => simp at hs
    | obj _ => simp at hs
  · intro v rows' hs
    simp only [D.setfill, hps] at hs
    cases hs
    exact ⟨_, rfl, fillRows_length _ _ _, fillRows_other _ _ _ _ hqp⟩

/-! ### Splitting -/

theorem splitLoop_flatten (indices : List Nat) (size : Nat) (merge : Bool) (hs : 1 ≤ size) (fuel idx : Nat)
    (hf : indices.length < fuel + idx) : (splitLoop indices size merge fuel idx).flatten = indices.drop idx := by
  induction fuel generalizing idx with
  | zero => rw [splitLoop, List.drop_eq_nil_of_le (by omega)]; rfl
  | succ fuel ih =>
    rw [splitLoop]
    split_ifs with h1 h2
    · simp
    · rw [List.flatten_cons, ih (idx + size) (by omega), ← List.drop_drop, List.take_append_drop]
    · rw [List.drop_eq_nil_of_le (by omega)]; rfl

theorem splitLoop_sizes (indices : List Nat) (size : Nat) (hs : 1 ≤ size) (fuel idx : Nat) (j : Nat) (part : List Nat)
    (hf : indices.length < fuel + idx)
    (h : (splitLoop indices size false fuel idx)[j]? = some part) :
    1 ≤ part.length ∧ part.length ≤ size ∧
    (j + 1 < (splitLoop indices size false fuel idx).length → part.length = size) ∧
    (size ∣ indices.length → size ∣ idx → part.length = size) := by
  induction fuel generalizing idx j with
  | zero => simp [splitLoop] at h
  | succ fuel ih =>
    rw [splitLoop] at h ⊢
    split_ifs at h ⊢ with h1 h2
    · simp at h2
    · cases j with
      | zero =>
        simp only [List.getElem?_cons_zero, Option.some.injEq] at h
        subst h
        rw [List.length_take, List.length_drop]
        refine ⟨by omega, by omega, ?_, ?_⟩
        · intro hlt
          simp only [List.length_cons, Nat.zero_add, Nat.lt_add_left_iff_pos] at hlt
          by_contra hne
          have : splitLoop indices size false fuel (idx + size) = [] := by
            cases fuel with
            | zero => rfl
            | succ fuel => rw [splitLoop, if_neg (by omega)]
          rw [this] at hlt
          simp at hlt
        · rintro ⟨a, ha⟩ ⟨c, hc⟩
          have : c < a := by
            by_contra hca
            have : size * a ≤ size * c := Nat.mul_le_mul_left _ (by omega)
            omega
          have : size * (c + 1) ≤ size * a := Nat.mul_le_mul_left _ this
          rw [Nat.mul_add, Nat.mul_one] at this
          omega
      | succ j =>
        rw [List.getElem?_cons_succ] at h
        obtain ⟨g1, g2, g3, g4⟩ := ih (idx + size) j (by omega) h
        refine ⟨g1, g2, ?_, fun d1 d2 => g4 d1 (Nat.dvd_add d2 (Nat.dvd_refl _))⟩
        intro hlt
        apply g3
        simpa using hlt
    · simp at h

theorem splitLoop_merge (indices : List Nat) (size : Nat) (hs : 1 ≤ size) (hm : ¬ size ∣ indices.length) (fuel idx : Nat)
    (hidx : size ∣ idx) (hge : idx + size ≤ indices.length) (part : List Nat)
    (h : part ∈ splitLoop indices size true fuel idx) : size ≤ part.length ∧ part.length < 2 * size := by
  induction fuel generalizing idx with
  | zero => simp [splitLoop] at h
  | succ fuel ih =>
    rw [splitLoop] at h
    split_ifs at h with h1 h2
    · simp only [List.mem_singleton] at h
      subst h
      rw [List.length_drop]
      refine ⟨by omega, ?_⟩
      by_contra hlt
      have : indices.length = idx + size + size := by omega
      exact hm (by rw [this]; exact Nat.dvd_add (Nat.dvd_add hidx (Nat.dvd_refl _)) (Nat.dvd_refl _))
    · simp only [true_and, Nat.not_le] at h2
      rw [List.mem_cons] at h
      rcases h with rfl | h
      · rw [List.length_take, List.length_drop]
        omega
      · exact ih (idx + size) (Nat.dvd_add hidx (Nat.dvd_refl _)) (by omega) h
    · simp at h

end Verif.Batch
