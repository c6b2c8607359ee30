import Verif.Spec.Hdf5
import Mathlib.Tactic.SplitIfs

/-! Lemmas about saving to and loading from HDF5. -/

namespace Verif.Hdf5

variable {α : Type}

theorem get?_append (x y : F α) (k : Key) : (x.append y).get? k = (x.get? k).or (y.get? k) := by
  induction x with
  | nil => simp [F.append, F.get?]
  | atom key a rest ih =>
    simp only [F.append, F.get?]
    split_ifs
    · rfl
    · exact ih
  | node key b c rest _ ih =>
    simp only [F.append, F.get?]
    split_ifs
    · rfl
    · exact ih

theorem get?_isSome (x : F α) (k : Key) : (x.get? k).isSome ↔ k ∈ x.keys := by
  induction x with
  | nil => simp [F.get?, F.keys]
  | atom key a rest ih =>
    simp only [F.get?, F.keys, List.mem_cons]
    split_ifs with h
    · simp [h]
    · rw [ih]; constructor
      · exact Or.inr
      · rintro (rfl | h')
        · exact absurd rfl h
        · exact h'
  | node key b c rest _ ih =>
    simp only [F.get?, F.keys, List.mem_cons]
    split_ifs with h
    · simp [h]
    · rw [ih]; constructor
      · exact Or.inr
      · rintro (rfl | h')
        · exact absurd rfl h
        · exact h'

theorem get?_eq_none {x : F α} {k : Key} (h : k ∉ x.keys) : x.get? k = none := by
  rw [← get?_isSome] at h
  simpa using h

theorem attr?_setAttr (g : G α) (k key : Key) (v : Attr) :
    (g.setAttr k v).attr? key = if k = key then some v else g.attr? key := by
  induction g with
  | nil => simp [G.setAttr, G.attr?]
  | attr k' w rest ih =>
    simp only [G.setAttr]
    split_ifs with h1 h2 h2
    · subst h1; subst h2; simp [G.attr?]
    · subst h1; simp [G.attr?, h2]
    · subst h2; simp only [G.attr?, if_neg h1, ih, if_true]
    · simp only [G.attr?, ih, if_neg h2]
  | data _ _ _ rest ih => simpa [G.setAttr, G.attr?] using ih
  | group _ _ rest _ ih => simpa [G.setAttr, G.attr?] using ih

theorem child?_setAttr (g : G α) (k : Key) (v : Attr) (s : String) : (g.setAttr k v).child? s = g.child? s := by
  induction g with
  | nil => simp [G.setAttr, G.child?]
  | attr k' w rest ih =>
    simp only [G.setAttr]
    split_ifs
    · simp [G.child?]
    · simpa [G.child?] using ih
  | data _ _ _ rest ih => simp only [G.setAttr, G.child?, ih]
  | group _ _ rest _ ih => simp only [G.setAttr, G.child?, ih]

theorem attr?_add (i : Item α) (s : String) (g : G α) (k : Key) : (i.add s g).attr? k = g.attr? k := by
  cases i <;> rfl

theorem child?_add (i : Item α) (s t : String) (g : G α) : (i.add s g).child? t = if s = t then some i else g.child? t := by
  cases i <;> simp [Item.add, G.child?]

theorem create_one (g : G α) (s : String) (i : Item α) (h : g.child? s = none) : g.create [s] i = some (i.add s g) := by
  simp only [G.create, h]

/-- What the group has to contain for an entry. -/
def Stored (cd : Codec α) (inBatch : Bool) (g : G α) (s : String) : Entry α → Prop
  | .atom (.num _) => g.child? s = none
  | .atom a => g.child? s = some (cd.dataset a)
  | .node b c => ∃ sub, toHdf5 cd b c (fresh inBatch b) = some sub ∧ g.child? s = some (.group sub)

/-- The number under an entry. -/
def Entry.num? : Entry α → Option Int
  | .atom (.num x) => some x
  | _ => none

theorem toHdf5_spec (cd : Codec α) (inBatch : Bool) (x : F α) (hx : x.OK inBatch) (g : G α)
    (hg : ∀ s, [s] ∈ x.keys → g.child? s = none) :
    ∃ g', toHdf5 cd inBatch x g = some g' ∧
      (∀ k, g'.attr? k = match (x.get? k).bind Entry.num? with | some v => some (.num v) | none => g.attr? k) ∧
      (∀ s e, x.get? [s] = some e → Stored cd inBatch g' s e) ∧
      (∀ s, x.get? [s] = none → g'.child? s = g.child? s) := by
  induction x generalizing g inBatch with
  | nil => exact ⟨g, rfl, fun _ => rfl, by simp [F.get?], fun _ _ => rfl⟩
  | atom k a rest ih =>
    obtain ⟨hk, hp, hrest⟩ := hx
    by_cases hnum : ∃ v, a = .num v
    · obtain ⟨v, rfl⟩ := hnum
      obtain ⟨g', h1, h2, h3, h4⟩ := ih inBatch hrest (g.setAttr k (.num v)) (by
        intro s hs
        rw [child?_setAttr]
        exact hg s (by simp [F.keys, hs]))
      refine ⟨g', h1, ?_, ?_, ?_⟩
      · intro key
        rw [h2, attr?_setAttr]
        simp only [F.get?]
        split_ifs with he
        · subst he
          rw [get?_eq_none hk]
          rfl
        · rfl
      · intro s e he
        simp only [F.get?] at he
        split_ifs at he with hks
        · cases he
          have hn := get?_eq_none hk
          rw [hks] at hn
          simp only [Stored]
          rw [h4 s hn, child?_setAttr]
          exact hg s (by simp [F.keys, hks])
        · exact h3 s e he
      · intro s he
        simp only [F.get?] at he
        split_ifs at he with hks
        rw [h4 s he, child?_setAttr]
    · obtain ⟨s, rfl⟩ : ∃ s, k = [s] := by
        cases a with
        | num v => exact absurd ⟨v, rfl⟩ hnum
        | tensor _ => exact hp
        | arr _ => exact hp
        | obj _ _ => exact hp.1
      have hgs := hg s (by simp [F.keys])
      have hto : toHdf5 cd inBatch (.atom [s] a rest) g = toHdf5 cd inBatch rest ((cd.dataset a).add s g) := by
        cases a with
        | num v => exact absurd ⟨v, rfl⟩ hnum
        | tensor _ => simp only [toHdf5, create_one g s _ hgs, Option.bind_some]
        | arr _ => simp only [toHdf5, create_one g s _ hgs, Option.bind_some]
        | obj _ _ => simp only [toHdf5, create_one g s _ hgs, Option.bind_some]
      obtain ⟨g', h1, h2, h3, h4⟩ := ih inBatch hrest ((cd.dataset a).add s g) (by
        intro t ht
        rw [child?_add, if_neg]
        · exact hg t (by simp [F.keys, ht])
        · rintro rfl
          exact hk ht)
      refine ⟨g', by rw [hto, h1], ?_, ?_, ?_⟩
      · intro key
        rw [h2, attr?_add]
        simp only [F.get?]
        split_ifs with he
        · subst he
          rw [get?_eq_none hk]
          cases a with
          | num v => exact absurd ⟨v, rfl⟩ hnum
          | tensor _ => rfl
          | arr _ => rfl
          | obj _ _ => rfl
        · rfl
      · intro t e he
        simp only [F.get?] at he
        split_ifs at he with hks
        · cases he
          simp only [List.cons.injEq, and_true] at hks
          subst hks
          have := h4 s (get?_eq_none hk)
          rw [child?_add, if_pos rfl] at this
          cases a with
          | num v => exact absurd ⟨v, rfl⟩ hnum
          | tensor _ => exact this
          | arr _ => exact this
          | obj _ _ => exact this
        · exact h3 t e he
      · intro t he
        simp only [F.get?] at he
        split_ifs at he with hks
        rw [h4 t he, child?_add, if_neg]
        rintro rfl
        exact hks rfl
  | node k b c rest ihc ih =>
    obtain ⟨hk, ⟨s, rfl⟩, hb, hc, hrest⟩ := hx
    have hgs := hg s (by simp [F.keys])
    obtain ⟨sub, hsub, _⟩ := ihc b hc (fresh inBatch b) (by
      intro t _
      unfold fresh
      split_ifs <;> rfl)
    have hto : toHdf5 cd inBatch (.node [s] b c rest) g = toHdf5 cd inBatch rest ((Item.group sub).add s g) := by
      simp only [toHdf5, hsub, Option.bind_some, create_one g s _ hgs]
    obtain ⟨g', h1, h2, h3, h4⟩ := ih inBatch hrest ((Item.group sub).add s g) (by
      intro t ht
      rw [child?_add, if_neg]
      · exact hg t (by simp [F.keys, ht])
      · rintro rfl
        exact hk ht)
    refine ⟨g', by rw [hto, h1], ?_, ?_, ?_⟩
    · intro key
      rw [h2, attr?_add]
      simp only [F.get?]
      split_ifs with he
      · subst he
        rw [get?_eq_none hk]
        rfl
      · rfl
    · intro t e he
      simp only [F.get?] at he
      split_ifs at he with hks
      · cases he
        simp only [List.cons.injEq, and_true] at hks
        subst hks
        have := h4 s (get?_eq_none hk)
        rw [child?_add, if_pos rfl] at this
        exact ⟨sub, hsub, this⟩
      · exact h3 t e he
    · intro t he
      simp only [F.get?] at he
      split_ifs at he with hks
      rw [h4 t he, child?_add, if_neg]
      rintro rfl
      exact hks rfl

/-- The dictionary entry for an item. -/
def Item.entry (cd : Codec α) : Item α → Entry α
  | .data t x => .atom (cd.load t x)
  | .group c => .node c.isBatch (if c.isBatch then (c.load cd).toBatch else c.load cd)

theorem get?_children (cd : Codec α) (g : G α) (k : Key) :
    (g.children cd).get? k = match k with | [s] => (g.child? s).map (Item.entry cd) | _ => none := by
  have hone : ∀ (s : String) (k : Key), (∀ t, k = [t] → s ≠ t) → ¬ [s] = k := by
    intro s k h he
    exact h s he.symm rfl
  induction g with
  | nil => rcases k with _ | ⟨s, _ | ⟨_, _⟩⟩ <;> rfl
  | attr _ _ rest ih => simpa only [G.children, G.child?] using ih
  | data n t x rest ih =>
    simp only [G.children, F.get?, ih]
    rcases k with _ | ⟨s, _ | ⟨_, _⟩⟩
    · simp
    · simp only [List.cons.injEq, and_true, G.child?]
      split_ifs <;> rfl
    · simp
  | group n c rest _ ih =>
    simp only [G.children, F.get?, ih]
    rcases k with _ | ⟨s, _ | ⟨_, _⟩⟩
    · simp
    · simp only [List.cons.injEq, and_true, G.child?]
      by_cases hn : n = s
      · simp only [if_pos hn, Option.map_some, Item.entry, G.load]
      · simp only [if_neg hn]
    · simp

theorem get?_attrs (g : G α) (k : Key) (hk : k ≠ marker) :
    g.attrs.get? k = (g.attr? k).map fun v => .atom (match v with | .num x => .num x | .text _ => .obj "str" 0) := by
  induction g with
  | nil => rfl
  | attr key v rest ih =>
    cases v <;>
    · simp only [G.attrs, G.attr?]
      split_ifs with h1 h2 h2
      · exact absurd (h2.symm.trans h1) hk
      · exact ih
      · simp [F.get?, h2]
      · simp only [F.get?, if_neg h2, ih]
  | data _ _ _ rest ih => simpa only [G.attrs, G.attr?] using ih
  | group _ _ rest _ ih => simpa only [G.attrs, G.attr?] using ih

theorem get?_attrs_marker (g : G α) : g.attrs.get? marker = none := by
  induction g with
  | nil => rfl
  | attr key v rest ih =>
    cases v <;>
    · simp only [G.attrs]
      split_ifs with h1
      · exact ih
      · simp only [F.get?, if_neg h1, ih]
  | data _ _ _ rest ih => simpa only [G.attrs] using ih
  | group _ _ rest _ ih => simpa only [G.attrs] using ih

/-- Turning an entry of a loaded dictionary into one of a batch. -/
def Entry.toBatch : Entry α → Entry α
  | .node false c => .node true c.toBatch
  | e => e

theorem get?_toBatch (x : F α) (k : Key) : x.toBatch.get? k = (x.get? k).map Entry.toBatch := by
  induction x with
  | nil => rfl
  | atom key a rest ih =>
    simp only [F.toBatch, F.get?]
    split_ifs
    · rfl
    · exact ih
  | node key b c rest _ ih =>
    cases b <;>
    · simp only [F.toBatch, F.get?]
      split_ifs
      · rfl
      · exact ih

/-- A loaded dictionary as the entries of a batch or of a dictionary. -/
def norm (inBatch : Bool) (x : F α) : F α := if inBatch then x.toBatch else x

theorem OK.atom {x : F α} {inBatch : Bool} (hx : x.OK inBatch) {k : Key} {a : Atom α} (h : x.get? k = some (.atom a)) :
    Plain k a := by
  induction x with
  | nil => simp [F.get?] at h
  | atom key b rest ih =>
    simp only [F.get?] at h
    split_ifs at h with he
    · cases h; exact he ▸ hx.2.1
    · exact ih hx.2.2 h
  | node key b c rest _ ih =>
    simp only [F.get?] at h
    split_ifs at h with he
    · cases h
    · exact ih hx.2.2.2.2 h

theorem OK.node {x : F α} {inBatch : Bool} (hx : x.OK inBatch) {k : Key} {b : Bool} {c : F α}
    (h : x.get? k = some (.node b c)) : (∃ s, k = [s]) ∧ (inBatch = true → b = true) ∧ c.OK b := by
  induction x with
  | nil => simp [F.get?] at h
  | atom key a rest ih =>
    simp only [F.get?] at h
    split_ifs at h with he
    · cases h
    · exact ih hx.2.2 h
  | node key b' c' rest _ ih =>
    simp only [F.get?] at h
    split_ifs at h with he
    · cases h; exact he ▸ ⟨hx.2.1, hx.2.2.1, hx.2.2.2.1⟩
    · exact ih hx.2.2.2.2 h

theorem no_marker {x : F α} {inBatch : Bool} (hx : x.OK inBatch) : (x.get? marker).bind Entry.num? = none := by
  cases h : x.get? marker with
  | none => rfl
  | some e =>
    cases e with
    | node _ _ => rfl
    | atom a =>
      cases a with
      | num v => exact absurd rfl (OK.atom hx h)
      | tensor _ => rfl
      | arr _ => rfl
      | obj _ _ => rfl

theorem fresh_child (m b : Bool) (s : String) : (fresh m b : G α).child? s = none := by
  unfold fresh
  split_ifs <;> rfl

theorem fresh_attr (m b : Bool) (k : Key) (hk : k ≠ marker) : (fresh m b : G α).attr? k = none := by
  unfold fresh
  split_ifs
  · simp [G.attr?, Ne.symm hk]
  · rfl

theorem saved_isBatch (cd : Codec α) {x : F α} {m b : Bool} (hx : x.OK b) {g : G α}
    (h : toHdf5 cd b x (fresh m b) = some g) : g.isBatch = (b && !m) := by
  obtain ⟨g', h1, h2, _, _⟩ := toHdf5_spec cd b x hx (fresh m b) (fun s _ => fresh_child m b s)
  rw [h] at h1
  cases h1
  unfold G.isBatch
  rw [h2, no_marker hx]
  cases b <;> cases m <;> simp [fresh, G.attr?]

theorem load_dataset (cd : Codec α) (hcd : ∀ a, cd.unpickle (cd.pickle a) = a) {k : Key} {a : Atom α} (h : Plain k a) :
    Item.entry cd (cd.dataset a) = .atom a := by
  cases a with
  | tensor x => simp [Codec.dataset, Item.entry, Codec.load]
  | arr x =>
    simp only [Codec.dataset]
    split_ifs
    · simp [Item.entry, Codec.load]
    · simp [Item.entry, Codec.load, hcd]
  | num x => simp [Codec.dataset, Item.entry, Codec.load, hcd]
  | obj cls x =>
    obtain ⟨_, h1, h2⟩ := h
    simp [Codec.dataset, Item.entry, Codec.load, hcd, h1, h2]

/-- One level of loading what was saved. -/
theorem load_get? (cd : Codec α) (hcd : ∀ a, cd.unpickle (cd.pickle a) = a) (key : Key) (x : F α)
    (inBatch m : Bool) (hx : x.OK inBatch) (g : G α) (h : toHdf5 cd inBatch x (fresh m inBatch) = some g) :
    (x.get? key = none → (norm inBatch (g.load cd)).get? key = none) ∧
    (∀ a, x.get? key = some (.atom a) → (norm inBatch (g.load cd)).get? key = some (.atom a)) ∧
    (∀ b c, x.get? key = some (.node b c) → ∃ sub, toHdf5 cd b c (fresh inBatch b) = some sub ∧
      (norm inBatch (g.load cd)).get? key = some (.node b (norm b (sub.load cd)))) := by
  obtain ⟨g', h1, h2, h3, h4⟩ := toHdf5_spec cd inBatch x hx (fresh m inBatch) (fun s _ => fresh_child m inBatch s)
  rw [h] at h1
  cases h1
  have hnorm : ∀ y : F α, (norm inBatch y).get? key = (y.get? key).map fun e => if inBatch then e.toBatch else e := by
    intro y
    unfold norm
    cases inBatch with
    | true => simpa using get?_toBatch y key
    | false => simp
  have hload : (g.load cd).get? key = ((g.children cd).get? key).or (g.attrs.get? key) := get?_append _ _ _
  refine ⟨?_, ?_, ?_⟩
  · intro hn
    have hc : (g.children cd).get? key = none := by
      rw [get?_children]
      rcases key with _ | ⟨s, _ | ⟨_, _⟩⟩
      · rfl
      · simp only
        rw [h4 s hn, fresh_child]
        rfl
      · rfl
    have ha : g.attrs.get? key = none := by
      by_cases hk : key = marker
      · rw [hk]; exact get?_attrs_marker g
      · rw [get?_attrs g key hk, h2, hn]
        simp [fresh_attr m inBatch key hk]
    rw [hnorm, hload, hc, ha]
    rfl
  · intro a hn
    have hp := OK.atom hx hn
    have key' : (g.load cd).get? key = some (.atom a) := by
      rw [hload, get?_children]
      by_cases hnum : ∃ v, a = .num v
      · obtain ⟨v, rfl⟩ := hnum
        have ha : g.attrs.get? key = some (.atom (.num v)) := by
          rw [get?_attrs g key hp, h2, hn]
          rfl
        rw [ha]
        rcases key with _ | ⟨s, _ | ⟨_, _⟩⟩
        · rfl
        · have := h3 s _ hn
          simp only [Stored] at this
          simp [this]
        · rfl
      · have hs : ∃ s, key = [s] := by
          cases a with
          | num v => exact absurd ⟨v, rfl⟩ hnum
          | tensor _ => exact hp
          | arr _ => exact hp
          | obj _ _ => exact hp.1
        obtain ⟨s, rfl⟩ := hs
        have hst : g.child? s = some (cd.dataset a) := by
          have := h3 s _ hn
          cases a with
          | num v => exact absurd ⟨v, rfl⟩ hnum
          | tensor _ => exact this
          | arr _ => exact this
          | obj _ _ => exact this
        simp only [hst, Option.map_some, load_dataset cd hcd hp, Option.some_or]
    rw [hnorm, key']
    cases inBatch <;> rfl
  · intro b c hn
    obtain ⟨⟨s, rfl⟩, hb, hc⟩ := OK.node hx hn
    obtain ⟨sub, hsub, hchild⟩ := h3 s _ hn
    refine ⟨sub, hsub, ?_⟩
    have hib := saved_isBatch cd hc hsub
    rw [hnorm, hload, get?_children]
    simp only [hchild, Option.map_some, Option.some_or, Item.entry, hib]
    cases inBatch with
    | true =>
      rw [hb rfl]
      rfl
    | false => cases b <;> rfl

/-- Loading what was saved: at every path the same is found. -/
theorem load_find (cd : Codec α) (hcd : ∀ a, cd.unpickle (cd.pickle a) = a) (path : List Key) (key : Key) (x : F α)
    (inBatch m : Bool) (hx : x.OK inBatch) (g : G α) (h : toHdf5 cd inBatch x (fresh m inBatch) = some g) :
    (norm inBatch (g.load cd)).find key path = x.find key path := by
  induction path generalizing key x inBatch m g with
  | nil =>
    obtain ⟨h1, h2, h3⟩ := load_get? cd hcd key x inBatch m hx g h
    simp only [F.find]
    cases hk : x.get? key with
    | none => rw [h1 hk]
    | some e =>
      cases e with
      | atom a => rw [h2 a hk]
      | node b c =>
        obtain ⟨sub, _, hsub⟩ := h3 b c hk
        rw [hsub]
        cases b <;> rfl
  | cons key' path ih =>
    obtain ⟨h1, h2, h3⟩ := load_get? cd hcd key x inBatch m hx g h
    simp only [F.find]
    cases hk : x.get? key with
    | none => rw [h1 hk]
    | some e =>
      cases e with
      | atom a => rw [h2 a hk]
      | node b c =>
        obtain ⟨sub, hto, hsub⟩ := h3 b c hk
        rw [hsub]
        exact ih key' c b inBatch (OK.node hx hk).2.2 sub hto

end Verif.Hdf5
