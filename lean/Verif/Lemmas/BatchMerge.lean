import Verif.Lemmas.Batch

/-! Lemmas about stacking and concatenation. -/

namespace Verif.Batch

/-! ### Blank data -/

mutual
theorem fill_blank {o : Bool} {z : D} (hz : Blank o z) : (d : D) → Blank o (D.fill z d)
  | .num _ => by rw [D.fill]; exact hz; simp
  | .none => by rw [D.fill]; exact hz; simp
  | .obj _ => by rw [D.fill]; exact hz; simp
  | .arr rows => by rw [D.fill]; exact .arr _ (fills_blank hz rows)
theorem fills_blank {o : Bool} {z : D} (hz : Blank o z) : (rows : List D) → ∀ r ∈ D.fills z rows, Blank o r
  | [] => by simp [D.fills]
  | r :: rows => by
    intro x hx
    rw [D.fills, List.mem_cons] at hx
    rcases hx with rfl | hx
    · exact fill_blank hz r
    · exact fills_blank hz rows x hx
end

theorem zero_blank (l : Leaf) : Blank l.object l.zero := by
  unfold Leaf.zero
  cases l.object
  · exact .zero
  · exact .none

theorem Blank.rows {o : Bool} {rows : List D} (h : Blank o (.arr rows)) : ∀ r ∈ rows, Blank o r := by
  cases h; assumption

theorem getitem_blank {o : Bool} {d x : D} (h : Blank o d) {I : Index} (hx : d.getitem I = .ok x) : Blank o x := by
  cases d with
  | arr rows =>
    have hr := h.rows
    cases I with
    | one i =>
      simp only [D.getitem] at hx
      split at hx
      · rename_i r hr'
        cases hx
        rw [Option.bind_eq_some_iff] at hr'
        obtain ⟨p, _, hp⟩ := hr'
        exact hr _ (List.mem_of_getElem? hp)
      · cases hx
    | many is =>
      simp only [D.getitem] at hx
      split at hx
      · rename_i ps _
        cases hx
        apply Blank.arr
        intro r hr'
        rw [List.mem_filterMap] at hr'
        obtain ⟨p, _, hp⟩ := hr'
        exact hr _ (List.mem_of_getElem? hp)
      · cases hx
    | slice lo hi =>
      simp only [D.getitem] at hx
      cases hx
      apply Blank.arr
      intro r hr'
      exact hr _ (List.mem_of_mem_take (List.mem_of_mem_drop hr'))
  | num _ => simp [D.getitem] at hx
  | none => simp [D.getitem] at hx
  | obj _ => simp [D.getitem] at hx

/-! ### Places -/

/-- Disjoint index ranges of arrays with `size` rows, and what fits there. -/
structure Places (size : Nat) (places : List Index) (fits : Nat → D → Prop) : Prop where
  get : ∀ (i : Nat) (I : Index) (d : D), places[i]? = some I → Rows size d → ∃ x, d.getitem I = .ok x
  rows : ∀ (i : Nat) (I : Index) (d v d' : D), places[i]? = some I → Rows size d → d.setitem I v = .ok d' → Rows size d'
  set : ∀ (i : Nat) (I : Index) (d v d' : D), places[i]? = some I → Rows size d → fits i v → d.setitem I v = .ok d' →
    d'.getitem I = .ok v
  other : ∀ (i : Nat) (I : Index) (d v d' : D), places[i]? = some I → Rows size d → d.setitem I v = .ok d' →
    ∀ (j : Nat) (J : Index), j ≠ i → places[j]? = some J → d'.getitem J = d.getitem J
  fillRows : ∀ (i : Nat) (I : Index) (d z d' : D), places[i]? = some I → Rows size d → d.setfill I z = .ok d' → Rows size d'
  fill : ∀ (o : Bool) (i : Nat) (I : Index) (d z d' : D), places[i]? = some I → Rows size d → Blank o z → d.setfill I z = .ok d' →
    ∃ x, d'.getitem I = .ok x ∧ Blank o x
  fillOther : ∀ (i : Nat) (I : Index) (d z d' : D), places[i]? = some I → Rows size d → d.setfill I z = .ok d' →
    ∀ (j : Nat) (J : Index), j ≠ i → places[j]? = some J → d'.getitem J = d.getitem J
  setOk : ∀ (i : Nat) (I : Index) (d v : D), places[i]? = some I → Rows size d → fits i v → ∃ d', d.setitem I v = .ok d'
  fillOk : ∀ (i : Nat) (I : Index) (d z : D), places[i]? = some I → Rows size d → ∃ d', d.setfill I z = .ok d'

/-- Reading `h` at `I` gives the values of `v`, and zeros where `v` has none. -/
def ReadsAt (I : Index) (v : Option Val) (h : Val) : Prop :=
  ∀ path, (∀ l, (v.bind fun v => v.leafAt path) = some l → ∃ l', h.leafAt path = some l' ∧ l'.data.getitem I = .ok l.data) ∧
    ((v.bind fun v => v.leafAt path) = none → ∀ l', h.leafAt path = some l' → ∃ x, l'.data.getitem I = .ok x ∧ Blank l'.object x)

theorem Val.create_spec {size : Nat} {stack : Bool} {v h : Val} (hc : v.create size stack = .ok h) :
    h.All (Rows size) ∧ (∀ path, (h.leafAt path).isSome = (v.leafAt path).isSome) ∧
    ∀ path l', h.leafAt path = some l' → Blank l'.object l'.data ∧ ∃ l, v.leafAt path = some l ∧ l.Kind l' := by
  have hleaf : ∀ l l' : Leaf, l.create size stack = .ok l' → Rows size l'.data ∧ Blank l'.object l'.data ∧ l.Kind l' := by
    intro l l' hl
    have hrep : ∀ (o : Bool) (x : D), Blank o x → Rows size (.arr (List.replicate size x)) ∧ Blank o (.arr (List.replicate size x)) := by
      intro o x hx
      refine ⟨⟨_, rfl, by simp⟩, .arr _ ?_⟩
      intro r hr
      rw [List.mem_replicate] at hr
      exact hr.2 ▸ hx
    unfold Leaf.create at hl
    split at hl
    · rename_i hn
      cases hl
      exact ⟨(hrep _ _ .none).1, (hrep _ _ .none).2, Or.inr ⟨hn, rfl⟩⟩
    · unfold D.create at hl
      split at hl
      · cases hl
        exact ⟨(hrep _ _ (fill_blank (zero_blank l) _)).1, (hrep _ _ (fill_blank (zero_blank l) _)).2, Or.inl rfl⟩
      · split at hl
        · cases hl
          exact ⟨(hrep _ _ (fill_blank (zero_blank l) _)).1, (hrep _ _ (fill_blank (zero_blank l) _)).2, Or.inl rfl⟩
        · cases hl
  have hbatch : ∀ b b' : B, b.create size stack = .ok b' → b'.All (Rows size) ∧
      (∀ path, (b'.leafAt path).isSome = (b.leafAt path).isSome) ∧
      ∀ path l', b'.leafAt path = some l' → Blank l'.object l'.data ∧ ∃ l, b.leafAt path = some l ∧ l.Kind l' := by
    intro b
    induction b with
    | nil => intro b' hb; cases hb; exact ⟨trivial, fun _ => rfl, fun path l' h => by cases path <;> simp [B.leafAt] at h⟩
    | leaf k l rest ih =>
      intro b' hb
      rw [B.create] at hb
      cases hx : l.create size stack with
      | error e => rw [hx] at hb; cases hb
      | ok x =>
        cases hr : rest.create size stack with
        | error e => rw [hx, hr] at hb; cases hb
        | ok r =>
          rw [hx, hr] at hb
          cases hb
          obtain ⟨h1, h2, h3⟩ := ih r hr
          refine ⟨⟨(hleaf l x hx).1, h1⟩, ?_, ?_⟩
          · intro path
            cases path with
            | nil => simp [B.leafAt]
            | cons key path =>
              simp only [B.leafAt]
              split_ifs
              · rfl
              · rfl
              · exact h2 _
          · intro path l' hl'
            cases path with
            | nil => simp [B.leafAt] at hl'
            | cons key path =>
              simp only [B.leafAt] at hl' ⊢
              split_ifs at hl' ⊢
              · cases hl'; exact ⟨(hleaf l x hx).2.1, l, rfl, (hleaf l x hx).2.2⟩
              · exact h3 _ _ hl'
    | sub k c rest ihc ih =>
      intro b' hb
      rw [B.create] at hb
      cases hx : c.create size stack with
      | error e => rw [hx] at hb; cases hb
      | ok x =>
        cases hr : rest.create size stack with
        | error e => rw [hx, hr] at hb; cases hb
        | ok r =>
          rw [hx, hr] at hb
          cases hb
          obtain ⟨h1, h2, h3⟩ := ih r hr
          obtain ⟨g1, g2, g3⟩ := ihc x hx
          refine ⟨⟨g1, h1⟩, ?_, ?_⟩
          · intro path
            cases path with
            | nil => simp [B.leafAt]
            | cons key path =>
              simp only [B.leafAt]
              split_ifs
              · exact g2 _
              · exact h2 _
          · intro path l' hl'
            cases path with
            | nil => simp [B.leafAt] at hl'
            | cons key path =>
              simp only [B.leafAt] at hl' ⊢
              split_ifs at hl' ⊢
              · exact g3 _ _ hl'
              · exact h3 _ _ hl'
  cases v with
  | leaf l =>
    rw [Val.create] at hc
    cases hx : l.create size stack with
    | error e => rw [hx] at hc; cases hc
    | ok x =>
      rw [hx] at hc
      cases hc
      refine ⟨(hleaf l x hx).1, ?_, ?_⟩
      · intro path
        cases path <;> simp [Val.leafAt]
      · intro path l' hl'
        cases path with
        | nil => simp only [Val.leafAt, Option.some.injEq] at hl'; subst hl'; exact ⟨(hleaf l x hx).2.1, l, rfl, (hleaf l x hx).2.2⟩
        | cons _ _ => simp [Val.leafAt] at hl'
  | sub b =>
    rw [Val.create] at hc
    cases hx : b.create size stack with
    | error e => rw [hx] at hc; cases hc
    | ok x =>
      rw [hx] at hc
      cases hc
      obtain ⟨h1, h2, h3⟩ := hbatch b x hx
      refine ⟨h1, ?_, ?_⟩
      · intro path
        simp only [Val.leafAt]
        exact h2 path
      · intro path l' hl'
        simp only [Val.leafAt] at hl' ⊢
        exact h3 path l' hl'

section merge

variable {size : Nat} {places : List Index} {fits : Nat → D → Prop} (hP : Places size places fits)

include hP

theorem blank_reads {h : Val} (h1 : h.All (Rows size)) (h2 : ∀ path l', h.leafAt path = some l' → Blank l'.object l'.data) {j : Nat} {J : Index} (hJ : places[j]? = some J) :
    ReadsAt J none h := by
  intro path
  refine ⟨by simp, ?_⟩
  intro _ l' hl'
  obtain ⟨x, hx⟩ := hP.get j J l'.data hJ (Val.All.leafAt h h1 path l' hl')
  exact ⟨x, hx, getitem_blank (h2 path l' hl') hx⟩

theorem Val.setitem_spec {h v h' : Val} {i : Nat} {I : Index} (hI : places[i]? = some I) (hh : h.All (Rows size))
    (hv : v.All (fits i)) (hs : h.setitem I v = .ok h') :
    h'.All (Rows size) ∧ ReadsAt I (some v) h' ∧
    (∀ (j : Nat) (J : Index) (w : Option Val), j ≠ i → places[j]? = some J → ReadsAt J w h → ReadsAt J w h') ∧
    ∀ path, (h'.leafAt path).map Leaf.object = (h.leafAt path).map Leaf.object := by
  cases h with
  | leaf l =>
    cases v with
    | sub _ => simp [Val.setitem] at hs
    | leaf l' =>
      rw [Val.setitem] at hs
      cases hx : l.data.setitem I l'.data with
      | error e => rw [hx] at hs; cases hs
      | ok d =>
        rw [hx] at hs
        cases hs
        have hd := hP.rows i I l.data l'.data d hI hh hx
        refine ⟨hd, ?_, ?_, ?_⟩
        · intro path
          cases path with
          | nil =>
            refine ⟨?_, by simp [Val.leafAt]⟩
            intro x hx'
            simp only [Option.bind_some, Val.leafAt, Option.some.injEq] at hx'
            subst hx'
            exact ⟨⟨l.object, d⟩, rfl, hP.set i I l.data l'.data d hI hh hv hx⟩
          | cons _ _ => exact ⟨by simp [Val.leafAt], by simp [Val.leafAt]⟩
        · intro j J w hj hJ hr path
          obtain ⟨r1, r2⟩ := hr path
          cases path with
          | nil =>
            have ho := hP.other i I l.data l'.data d hI hh hx j J hj hJ
            refine ⟨?_, ?_⟩
            · intro x hx'
              obtain ⟨y, hy1, hy2⟩ := r1 x hx'
              simp only [Val.leafAt, Option.some.injEq] at hy1
              subst hy1
              exact ⟨⟨l.object, d⟩, rfl, by rw [ho]; exact hy2⟩
            · intro hx' y hy
              obtain ⟨x, hx1, hx2⟩ := r2 hx' l rfl
              simp only [Val.leafAt, Option.some.injEq] at hy
              subst hy
              exact ⟨x, by rw [ho]; exact hx1, hx2⟩
          | cons _ _ =>
            refine ⟨?_, by simp [Val.leafAt]⟩
            intro x hx'
            obtain ⟨y, hy1, _⟩ := r1 x hx'
            simp [Val.leafAt] at hy1
        · intro path
          cases path <;> simp [Val.leafAt]
  | sub b =>
    cases v with
    | leaf _ => simp [Val.setitem] at hs
    | sub v =>
      rw [Val.setitem] at hs
      generalize hx : b.setitem I v = r at hs
      obtain ⟨b', e⟩ := r
      cases e with
      | some e => simp at hs
      | none =>
        simp only [Except.ok.injEq] at hs
        subst hs
        unfold B.setitem at hx
        split_ifs at hx with hsub
        · have hl := setLoop_leafAt I v b b' hx
          have hrows : b'.All (Rows size) := setLoop_all (P := Rows size) I
            (fun d v d' hd hs => hP.rows i I d v d' hI hd hs)
            (fun d z d' hd hs => hP.fillRows i I d z d' hI hd hs) v b b' hh hx
          refine ⟨hrows, ?_, ?_, ?_⟩
          · intro path
            simp only [Option.bind_some, Val.leafAt]
            obtain ⟨p1, p2, p3⟩ := hl path
            refine ⟨?_, ?_⟩
            · intro l' hl'
              cases path with
              | nil => rw [B.leafAt_nil] at hl'; simp at hl'
              | cons k path =>
                have := setLoop_dom I v b b' hx k path l' (hsub (B.mem_keys_of_leafAt hl')) hl'
                obtain ⟨l, hb⟩ := Option.isSome_iff_exists.mp this
                obtain ⟨d, hd1, hd2⟩ := p2 l l' hb hl'
                exact ⟨_, hd2, hP.set i I l.data l'.data d hI (B.All.leafAt b hh _ l hb)
                  (B.All.leafAt v hv _ l' hl') hd1⟩
            · intro hn x hx'
              cases hb : b.leafAt path with
              | none => rw [p1 hb] at hx'; simp at hx'
              | some l =>
                obtain ⟨d, hd1, hd2⟩ := p3 l hb hn
                rw [hd2] at hx'
                cases hx'
                exact hP.fill _ i I l.data l.zero d hI (B.All.leafAt b hh _ l hb) (zero_blank l) hd1
          · intro j J w hj hJ hr path
            obtain ⟨r1, r2⟩ := hr path
            obtain ⟨p1, p2, p3⟩ := hl path
            have key : ∀ l, b.leafAt path = some l → ∃ d, b'.leafAt path = some ⟨l.object, d⟩ ∧
                d.getitem J = l.data.getitem J := by
              intro l hb
              cases hvl : v.leafAt path with
              | none =>
                obtain ⟨d, hd1, hd2⟩ := p3 l hb hvl
                exact ⟨d, hd2, hP.fillOther i I l.data l.zero d hI (B.All.leafAt b hh _ l hb) hd1 j J hj hJ⟩
              | some l' =>
                obtain ⟨d, hd1, hd2⟩ := p2 l l' hb hvl
                exact ⟨d, hd2, hP.other i I l.data l'.data d hI (B.All.leafAt b hh _ l hb) hd1 j J hj hJ⟩
            simp only [Val.leafAt] at r1 r2 ⊢
            refine ⟨?_, ?_⟩
            · intro x hx'
              obtain ⟨y, hy1, hy2⟩ := r1 x hx'
              obtain ⟨d, hd1, hd2⟩ := key y hy1
              exact ⟨_, hd1, by rw [hd2]; exact hy2⟩
            · intro hx' y hy
              cases hb : b.leafAt path with
              | none => rw [p1 hb] at hy; simp at hy
              | some l =>
                obtain ⟨d, hd1, hd2⟩ := key l hb
                rw [hd1] at hy
                cases hy
                obtain ⟨x, hx1, hx2⟩ := r2 hx' l hb
                exact ⟨x, by rw [hd2]; exact hx1, hx2⟩
          · intro path
            obtain ⟨p1, p2, p3⟩ := hl path
            simp only [Val.leafAt]
            cases hb : b.leafAt path with
            | none => rw [p1 hb]
            | some l =>
              cases hvl : v.leafAt path with
              | none => obtain ⟨d, _, hd2⟩ := p3 l hb hvl; rw [hd2]; rfl
              | some l' => obtain ⟨d, _, hd2⟩ := p2 l l' hb hvl; rw [hd2]; rfl
        · simp at hx

/-- State of the padding loop before the batch number `k`. -/
def PadInv (size : Nat) (places : List Index) (vs : List (Option Val)) (k : Nat) : Option Val → Prop
  | none => ∀ j, j < k → ∀ v, vs[j]? = some v → v = none
  | some h => h.All (Rows size) ∧
      (∀ (j : Nat) (J : Index) (v : Option Val), places[j]? = some J → vs[j]? = some v →
        ReadsAt J (if j < k then v else none) h) ∧
      ∀ path l', h.leafAt path = some l' → ∃ (j : Nat) (v : Val) (l : Leaf), vs[j]? = some (some v) ∧ v.leafAt path = some l ∧ l.Kind l'

theorem padLoop_spec {stack : Bool} {vs : List (Option Val)}
    (hfits : ∀ (i : Nat) (v : Val), vs[i]? = some (some v) → v.All (fits i)) (m k : Nat)
    (hm : m + k = (places.zip vs).length) (h out : Option Val)
    (hloop : padLoop size stack ((places.zip vs).drop k) h = .ok out) (hinv : PadInv size places vs k h) :
    PadInv size places vs (places.zip vs).length out := by
  induction m generalizing k h with
  | zero =>
    have : k = (places.zip vs).length := by omega
    subst this
    rw [List.drop_length] at hloop
    cases hloop
    exact hinv
  | succ m ih =>
    have hk : k < (places.zip vs).length := by omega
    have hk' := hk
    rw [List.length_zip] at hk'
    have hI : places[k]? = some places[k] := List.getElem?_eq_getElem (by omega)
    have hV : vs[k]? = some vs[k] := List.getElem?_eq_getElem (by omega)
    rw [List.drop_eq_getElem_cons hk, List.getElem_zip] at hloop
    generalize places[k] = I at hloop hI
    generalize hvk : vs[k] = w at hloop hV
    -- one assignment to a holder in which later places are blank
    have step : ∀ (h : Val) (v : Val), w = some v → h.All (Rows size) →
        (∀ (j : Nat) (J : Index) (v : Option Val), places[j]? = some J → vs[j]? = some v →
          ReadsAt J (if j < k then v else none) h) →
        (∀ path l', h.leafAt path = some l' → ∃ (j : Nat) (v : Val) (l : Leaf), vs[j]? = some (some v) ∧ v.leafAt path = some l ∧ l.Kind l') →
        ∀ h', h.setitem I v = .ok h' → PadInv size places vs (k + 1) (some h') := by
      intro h v hw hall hreads hdom h' hs
      obtain ⟨s1, s2, s3, s4⟩ := Val.setitem_spec hP hI hall (hfits k v (by rw [hV, hw])) hs
      refine ⟨s1, ?_, ?_⟩
      · intro j J u hJ hu
        by_cases hjk : j = k
        · subst hjk
          rw [if_pos (by omega)]
          rw [hI] at hJ
          rw [hV] at hu
          cases hJ
          cases hu
          rw [hw]
          exact s2
        · have := s3 j J _ hjk hJ (hreads j J u hJ hu)
          by_cases hlt : j < k
          · rw [if_pos hlt] at this
            rwa [if_pos (by omega)]
          · rw [if_neg hlt] at this
            rwa [if_neg (by omega)]
      · intro path l' hl'
        have e := s4 path
        rw [hl'] at e
        cases hl : h.leafAt path with
        | none => rw [hl] at e; cases e
        | some l =>
          rw [hl] at e
          simp only [Option.map_some, Option.some.injEq] at e
          obtain ⟨j, u, l0, d1, d2, d3⟩ := hdom path l hl
          exact ⟨j, u, l0, d1, d2, by unfold Leaf.Kind at d3 ⊢; rw [e]; exact d3⟩
    cases w with
    | none =>
      rw [padLoop] at hloop
      refine ih (k + 1) (by omega) h hloop ?_
      cases h with
      | none =>
        intro j hj v hv
        by_cases hjk : j = k
        · subst hjk; rw [hV] at hv; cases hv; rfl
        · exact hinv j (by omega) v hv
      | some h =>
        obtain ⟨i1, i2, i3⟩ := hinv
        refine ⟨i1, ?_, i3⟩
        intro j J v hJ hv
        have := i2 j J v hJ hv
        by_cases hjk : j = k
        · subst hjk
          rw [hV] at hv
          cases hv
          simpa using this
        · by_cases hlt : j < k
          · rw [if_pos hlt] at this; rwa [if_pos (by omega)]
          · rw [if_neg hlt] at this; rwa [if_neg (by omega)]
    | some v =>
      cases h with
      | none =>
        rw [padLoop] at hloop
        cases hc : v.create size stack with
        | error e => rw [hc] at hloop; cases hloop
        | ok h0 =>
          cases hs : h0.setitem I v with
          | error e => rw [hc] at hloop; simp only [bind, Except.bind, hs] at hloop; cases hloop
          | ok h1 =>
            rw [hc] at hloop
            simp only [bind, Except.bind, hs] at hloop
            obtain ⟨c1, c2, c3⟩ := Val.create_spec hc
            refine ih (k + 1) (by omega) (some h1) hloop (step h0 v rfl c1 ?_ ?_ h1 hs)
            · intro j J u hJ hu
              have : (if j < k then u else none) = none := by
                split_ifs with hlt
                · exact hinv j hlt u hu
                · rfl
              rw [this]
              exact blank_reads hP c1 (fun path l' h => (c3 path l' h).1) hJ
            · intro path l' hl'
              obtain ⟨-, l, hl, hk⟩ := c3 path l' hl'
              exact ⟨k, v, l, hV, hl, hk⟩
      | some h =>
        rw [padLoop] at hloop
        cases hs : h.setitem I v with
        | error e => simp only [bind, Except.bind, hs] at hloop; cases hloop
        | ok h1 =>
          simp only [bind, Except.bind, hs] at hloop
          obtain ⟨i1, i2, i3⟩ := hinv
          exact ih (k + 1) (by omega) (some h1) hloop (step h v rfl i1 i2 i3 h1 hs)

end merge

theorem mapM_id_some {vs : List (Option Val)} {fs : List Val} (h : vs.mapM id = some fs) : vs = fs.map some := by
  induction vs generalizing fs with
  | nil => simp at h; subst h; rfl
  | cons v vs ih =>
    rw [List.mapM_cons] at h
    cases v with
    | none => simp at h
    | some v =>
      cases hr : vs.mapM id with
      | none => simp [hr] at h
      | some r =>
        simp [hr] at h
        subst h
        rw [List.map_cons, ← ih hr]

theorem mapM_id_none {vs : List (Option Val)} (h : vs.mapM id = none) : none ∈ vs := by
  induction vs with
  | nil => simp at h
  | cons v vs ih =>
    rw [List.mapM_cons] at h
    cases v with
    | none => simp
    | some v =>
      cases hr : vs.mapM id with
      | none => exact List.mem_cons_of_mem _ (ih hr)
      | some r => simp [hr] at h

theorem full_leafAt (v : Option Val) (path : List String) :
    ((full v).bind fun v => v.leafAt path) = v.bind fun v => v.leafAt path := by
  unfold full
  split
  · cases path <;> simp [Val.leafAt, B.leafAt]
  · rfl

theorem full_eq_some {v : Option Val} {w : Val} (h : full v = some w) : v = some w ∧ w ≠ .sub .nil := by
  unfold full at h
  split at h
  · simp at h
  · rename_i hne
    subst h
    refine ⟨rfl, ?_⟩
    intro he
    subst he
    exact hne rfl

/-- The entry of one key of the merged batch reads back every batch's entry of that key. -/
theorem mergeKey_spec {size : Nat} {places : List Index} {fits : Nat → D → Prop} (hP : Places size places fits)
    {stack : Bool} {shared : List Val → Except Err Val} {vs : List (Option Val)} (hlen : places.length = vs.length)
    (hne : vs ≠ [])
    (hfits : ∀ (i : Nat) (v : Val), vs[i]? = some (some v) → v.All (fits i))
    (hshared : ∀ fs h, vs = fs.map some → (∀ v ∈ fs, v ≠ .sub .nil) → shared fs = .ok h →
      h.All (Rows size) ∧
      (∀ (j : Nat) (J : Index) (v : Option Val), places[j]? = some J → vs[j]? = some v → ReadsAt J v h) ∧
      ∀ path l', h.leafAt path = some l' → ∃ (j : Nat) (v : Val) (l : Leaf), vs[j]? = some (some v) ∧ v.leafAt path = some l ∧ l.Kind l')
    (h : Val) (hm : mergeKey size stack places shared vs = .ok h) :
    h.All (Rows size) ∧
    (∀ (j : Nat) (J : Index) (v : Option Val), places[j]? = some J → vs[j]? = some v → ReadsAt J v h) ∧
    ∀ path l', h.leafAt path = some l' → ∃ (j : Nat) (v : Val) (l : Leaf), vs[j]? = some (some v) ∧ v.leafAt path = some l ∧ l.Kind l' := by
  unfold mergeKey at hm
  have hempty : ∀ h : Val, h = .sub .nil → (∀ v ∈ vs, full v = none) → h.All (Rows size) ∧
      (∀ (j : Nat) (J : Index) (v : Option Val), places[j]? = some J → vs[j]? = some v → ReadsAt J v h) ∧
      ∀ path l', h.leafAt path = some l' → ∃ (j : Nat) (v : Val) (l : Leaf), vs[j]? = some (some v) ∧ v.leafAt path = some l ∧ l.Kind l' := by
    intro h hh hall
    subst hh
    have hnl : ∀ path, (Val.sub .nil).leafAt path = none := by
      intro path; cases path <;> simp [Val.leafAt, B.leafAt]
    refine ⟨trivial, ?_, ?_⟩
    · intro j J v _ hv path
      rw [← full_leafAt, hall v (List.mem_of_getElem? hv)]
      exact ⟨by simp, by simp [hnl]⟩
    · intro path l' hp
      rw [hnl] at hp
      simp at hp
  split at hm
  · rename_i fs hfs
    have h1 := mapM_id_some hfs
    have h2 : vs = fs.map some := by
      apply List.ext_getElem?
      intro j
      have := congrArg (·[j]?) h1
      simp only [List.getElem?_map] at this ⊢
      cases hv : vs[j]? with
      | none => rw [hv] at this; simpa using this
      | some v =>
        rw [hv, Option.map_some] at this
        cases hf : fs[j]? with
        | none => rw [hf] at this; simp at this
        | some f =>
          rw [hf] at this
          simp only [Option.map_some, Option.some.injEq] at this ⊢
          exact (full_eq_some this).1
    apply hshared fs h h2 _ hm
    intro v hv
    obtain ⟨j, hj, rfl⟩ := List.getElem_of_mem hv
    have := congrArg (·[j]?) h1
    have hj2 : j < vs.length := by rw [h2]; simpa using hj
    simp only [List.getElem?_map, List.getElem?_eq_getElem hj, List.getElem?_eq_getElem hj2, Option.map_some,
      Option.some.injEq] at this
    exact (full_eq_some this).2
  · split at hm
    · rename_i hall
      cases hm
      apply hempty _ rfl
      intro v hv
      have := List.all_eq_true.mp hall (full v) (List.mem_map_of_mem hv)
      simpa using this
    · rename_i hall
      cases hp : padLoop size stack (places.zip (vs.map full)) none with
      | error e => simp only [bind, Except.bind, hp] at hm; cases hm
      | ok out =>
        simp only [bind, Except.bind, hp] at hm
        have hspec := padLoop_spec hP (vs := vs.map full) (stack := stack)
          (by
            intro i v hv
            rw [List.getElem?_map, Option.map_eq_some_iff] at hv
            obtain ⟨w, hw1, hw2⟩ := hv
            exact hfits i v (by rw [hw1, (full_eq_some hw2).1]))
          (places.zip (vs.map full)).length 0 (by omega) none out (by simpa using hp)
          (by intro j hj; omega)
        have hl : (places.zip (vs.map full)).length = vs.length := by simp [hlen]
        rw [hl] at hspec
        cases out with
        | none =>
          simp only at hm
          cases hm
          apply hempty _ rfl
          intro v hv
          obtain ⟨j, hj, rfl⟩ := List.getElem_of_mem hv
          exact hspec j hj _ (by rw [List.getElem?_map, List.getElem?_eq_getElem hj]; rfl)
        | some o =>
          simp only at hm
          cases hm
          obtain ⟨s1, s2, s3⟩ := hspec
          refine ⟨s1, ?_, ?_⟩
          · intro j J v hJ hv path
            have := s2 j J (full v) hJ (by rw [List.getElem?_map, hv]; rfl)
            rw [if_pos (List.getElem?_eq_some_iff.mp hv).1] at this
            have := this path
            rwa [full_leafAt] at this
          · intro path l' hp
            obtain ⟨j, v, l, hv, hvp⟩ := s3 path l' hp
            rw [List.getElem?_map, Option.map_eq_some_iff] at hv
            obtain ⟨w, hw1, hw2⟩ := hv
            exact ⟨j, v, l, by rw [hw1, (full_eq_some hw2).1], hvp⟩

theorem build_spec {f : String → Except Err Val} {ks : List String} {b : B} (h : build f ks = .ok b) :
    b.keys = ks ∧ (∀ k, k ∈ ks → ∃ v, f k = .ok v ∧ b.get? k = some v) ∧
    ∀ P : D → Prop, (∀ k ∈ ks, ∀ v, f k = .ok v → v.All P) → b.All P := by
  induction ks generalizing b with
  | nil => cases h; exact ⟨rfl, by simp, fun _ _ => trivial⟩
  | cons k ks ih =>
    rw [build] at h
    cases hv : f k with
    | error e => rw [hv] at h; cases h
    | ok v =>
      cases hr : build f ks with
      | error e => simp only [bind, Except.bind, hv, hr] at h; cases h
      | ok r =>
        simp only [bind, Except.bind, hv, hr] at h
        cases h
        obtain ⟨h1, h2, h3⟩ := ih hr
        have hget : ∀ key, (B.cons k v r).get? key = if k = key then some v else r.get? key := by
          intro key
          cases v <;> simp [B.cons, B.get?]
        refine ⟨?_, ?_, ?_⟩
        · cases v <;> simp [B.cons, B.keys, h1]
        · intro key hkey
          rw [hget]
          split_ifs with he
          · subst he; exact ⟨v, hv, rfl⟩
          · rw [List.mem_cons] at hkey
            rcases hkey with rfl | hkey
            · exact absurd rfl he
            · exact h2 key hkey
        · intro P hPk
          have hr' := h3 P (fun key hkey => hPk key (by simp [hkey]))
          have hv' := hPk k (by simp) v hv
          cases v with
          | leaf l => exact ⟨hv', hr'⟩
          | sub c => exact ⟨hv', hr'⟩

theorem mem_allKeys {bs : List B} {k : String} : k ∈ allKeys bs ↔ ∃ b ∈ bs, k ∈ b.keys := by
  unfold allKeys
  rw [List.mem_dedup, List.mem_flatMap]

/-- What a merged batch has to satisfy. -/
def Merged (size : Nat) (places : List Index) (bs : List B) (out : B) : Prop :=
  out.Tall size ∧
  (∀ (j : Nat) (J : Index) (b : B), places[j]? = some J → bs[j]? = some b → ReadsAt J (some (.sub b)) (.sub out)) ∧
  ∀ path l', out.leafAt path = some l' → ∃ b ∈ bs, ∃ l, b.leafAt path = some l ∧ l.Kind l'

/-- From single keys to the whole batch. -/
theorem merged_of_keys {size : Nat} {places : List Index} {bs : List B}
    {f : String → Except Err Val} {out : B} (hb : build f (allKeys bs) = .ok out)
    (hkey : ∀ k ∈ allKeys bs, ∀ h, f k = .ok h → h.All (Rows size) ∧
      (∀ (j : Nat) (J : Index) (v : Option Val), places[j]? = some J → (bs.map (B.get? k))[j]? = some v → ReadsAt J v h) ∧
      ∀ path l', h.leafAt path = some l' →
        ∃ (j : Nat) (v : Val) (l : Leaf), (bs.map (B.get? k))[j]? = some (some v) ∧ v.leafAt path = some l ∧ l.Kind l') :
    Merged size places bs out := by
  obtain ⟨h1, h2, h3⟩ := build_spec hb
  refine ⟨h3 _ fun k hk v hv => (hkey k hk v hv).1, ?_, ?_⟩
  · intro j J b hJ hbj path
    simp only [Option.bind_some, Val.leafAt]
    cases path with
    | nil => simp [B.leafAt_nil]
    | cons k path =>
      rw [B.leafAt_cons, B.leafAt_cons]
      by_cases hk : k ∈ allKeys bs
      · obtain ⟨v, hv1, hv2⟩ := h2 k hk
        rw [hv2, Option.bind_some]
        exact (hkey k hk v hv1).2.1 j J (b.get? k) hJ (by rw [List.getElem?_map, hbj]; rfl) path
      · have hb' : b.get? k = none := by
          have : ¬ (b.get? k).isSome := by
            rw [B.get?_isSome]
            intro hk'
            exact hk (mem_allKeys.mpr ⟨b, List.mem_of_getElem? hbj, hk'⟩)
          simpa using this
        have ho : out.get? k = none := by
          have : ¬ (out.get? k).isSome := by
            rw [B.get?_isSome, h1]
            exact hk
          simpa using this
        rw [hb', ho]
        exact ⟨by simp, by simp⟩
  · intro path l' hp
    cases path with
    | nil => rw [B.leafAt_nil] at hp; simp at hp
    | cons k path =>
      have hk : k ∈ allKeys bs := by
        rw [← h1]
        exact B.mem_keys_of_leafAt hp
      obtain ⟨v, hv1, hv2⟩ := h2 k hk
      rw [B.leafAt_cons, hv2, Option.bind_some] at hp
      obtain ⟨j, w, l, hw, hwp, hkd⟩ := (hkey k hk v hv1).2.2 path l' hp
      rw [List.getElem?_map, Option.map_eq_some_iff] at hw
      obtain ⟨b, hbj, hbk⟩ := hw
      exact ⟨b, List.mem_of_getElem? hbj, l, by rw [B.leafAt_cons, hbk]; exact hwp, hkd⟩

theorem allLeaves_some {vs : List Val} {ls : List Leaf} (h : allLeaves vs = some ls) : vs = ls.map .leaf := by
  unfold allLeaves at h
  induction vs generalizing ls with
  | nil => simp at h; subst h; rfl
  | cons v vs ih =>
    rw [List.mapM_cons] at h
    cases v with
    | sub _ => simp at h
    | leaf l =>
      rw [Option.bind_eq_bind, Option.bind_some, Option.bind_eq_bind, Option.bind_eq_some_iff] at h
      obtain ⟨r, hr, h⟩ := h
      simp only [Option.pure_def, Option.some.injEq] at h
      subst h
      rw [List.map_cons, ← ih hr]

theorem allSubs_some {vs : List Val} {cs : List B} (h : allSubs vs = some cs) : vs = cs.map .sub := by
  unfold allSubs at h
  induction vs generalizing cs with
  | nil => simp at h; subst h; rfl
  | cons v vs ih =>
    rw [List.mapM_cons] at h
    cases v with
    | leaf _ => simp at h
    | sub l =>
      rw [Option.bind_eq_bind, Option.bind_some, Option.bind_eq_bind, Option.bind_eq_some_iff] at h
      obtain ⟨r, hr, h⟩ := h
      simp only [Option.pure_def, Option.some.injEq] at h
      subst h
      rw [List.map_cons, ← ih hr]

theorem depth_get? {b c : B} {k : String} (h : b.get? k = some (.sub c)) : c.depth < b.depth := by
  induction b with
  | nil => simp [B.get?] at h
  | leaf key l rest ih =>
    simp only [B.get?] at h
    split_ifs at h
    · simp at h
    · simpa [B.depth] using ih h
  | sub key b rest _ ih =>
    simp only [B.get?] at h
    simp only [B.depth]
    split_ifs at h
    · cases h; omega
    · have := ih h; omega

/-- A leaf that every place reads back. -/
theorem leaf_reads {size : Nat} {places : List Index} {ls : List Leaf} {l : Leaf} (hrows : Rows size l.data)
    (hget : ∀ (j : Nat) (J : Index) (x : Leaf), places[j]? = some J → ls[j]? = some x → l.data.getitem J = .ok x.data)
    (hne : ls ≠ []) (hkind : l.object = ls.any Leaf.object) {vs : List (Option Val)} (hvs : vs = (ls.map Val.leaf).map some) :
    (Val.leaf l).All (Rows size) ∧
    (∀ (j : Nat) (J : Index) (v : Option Val), places[j]? = some J → vs[j]? = some v → ReadsAt J v (.leaf l)) ∧
    ∀ path l', (Val.leaf l).leafAt path = some l' →
      ∃ (j : Nat) (v : Val) (x : Leaf), vs[j]? = some (some v) ∧ v.leafAt path = some x ∧ x.Kind l' := by
  subst hvs
  refine ⟨hrows, ?_, ?_⟩
  · intro j J v hJ hv path
    rw [List.map_map, List.getElem?_map, Option.map_eq_some_iff] at hv
    obtain ⟨x, hx, rfl⟩ := hv
    cases path with
    | nil =>
      refine ⟨?_, by simp [Val.leafAt]⟩
      intro y hy
      simp only [Function.comp, Option.bind_some, Val.leafAt, Option.some.injEq] at hy
      subst hy
      exact ⟨l, rfl, hget j J x hJ hx⟩
    | cons _ _ => exact ⟨by simp [Val.leafAt], by simp [Val.leafAt]⟩
  · intro path l' hp
    cases path with
    | cons _ _ => simp [Val.leafAt] at hp
    | nil =>
      simp only [Val.leafAt, Option.some.injEq] at hp
      subst hp
      cases hany : ls.any Leaf.object with
      | true =>
        obtain ⟨x, hx, hxo⟩ := List.any_eq_true.mp hany
        obtain ⟨j, hj⟩ := List.getElem?_of_mem hx
        exact ⟨j, .leaf x, x, by simp [hj], rfl, Or.inl (by rw [hkind, hany, hxo])⟩
      | false =>
        cases ls with
        | nil => simp at hne
        | cons x ls =>
          refine ⟨0, .leaf x, x, rfl, rfl, Or.inl ?_⟩
          rw [hkind, hany]
          rw [List.any_cons, Bool.or_eq_false_iff] at hany
          exact hany.1.symm

/-- A nested batch that every place reads back. -/
theorem sub_reads {size : Nat} {places : List Index} {cs : List B} {c : B} (hm : Merged size places cs c)
    {vs : List (Option Val)} (hvs : vs = (cs.map Val.sub).map some) :
    (Val.sub c).All (Rows size) ∧
    (∀ (j : Nat) (J : Index) (v : Option Val), places[j]? = some J → vs[j]? = some v → ReadsAt J v (.sub c)) ∧
    ∀ path l', (Val.sub c).leafAt path = some l' →
      ∃ (j : Nat) (v : Val) (x : Leaf), vs[j]? = some (some v) ∧ v.leafAt path = some x ∧ x.Kind l' := by
  subst hvs
  obtain ⟨h1, h2, h3⟩ := hm
  refine ⟨h1, ?_, ?_⟩
  · intro j J v hJ hv
    rw [List.map_map, List.getElem?_map, Option.map_eq_some_iff] at hv
    obtain ⟨x, hx, rfl⟩ := hv
    exact h2 j J x hJ hx
  · intro path l' hp
    simp only [Val.leafAt] at hp
    obtain ⟨b, hb, x, hbp, hk⟩ := h3 path l' hp
    obtain ⟨j, hj, rfl⟩ := List.getElem_of_mem hb
    exact ⟨j, .sub cs[j], x, by simp [hj], by simpa only [Val.leafAt] using hbp, hk⟩

end Verif.Batch
