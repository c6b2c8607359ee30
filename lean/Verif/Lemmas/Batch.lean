import Verif.Spec.Batch
import Mathlib.Tactic.SplitIfs
import Mathlib.Data.List.Basic

/-! Lemmas about single batches: lookups, indexing, assignment. -/

namespace Verif.Batch

theorem B.leafAt_nil (b : B) : b.leafAt [] = none := by cases b <;> simp [B.leafAt]

theorem B.leafAt_cons (b : B) (k : String) (path : List String) :
    b.leafAt (k :: path) = (b.get? k).bind fun v => v.leafAt path := by
  induction b with
  | nil => simp [B.leafAt, B.get?]
  | leaf key l rest ih =>
    simp only [B.leafAt, B.get?]
    split_ifs with h1 h2
    · subst h2; simp [Val.leafAt]
    · cases path with
      | nil => simp at h2
      | cons _ _ => simp [Val.leafAt]
    · exact ih
  | sub key b rest _ ih =>
    simp only [B.leafAt, B.get?]
    split_ifs with h1
    · simp [Val.leafAt]
    · exact ih

theorem B.subAt_nil (b : B) : b.subAt [] = some b := by cases b <;> simp [B.subAt]

/-- The nested batch at a path below an entry. -/
def Val.subAt : Val → List String → Option B
  | .leaf _, _ => none
  | .sub b, path => b.subAt path

theorem B.subAt_cons (b : B) (k : String) (path : List String) :
    b.subAt (k :: path) = (b.get? k).bind fun v => v.subAt path := by
  induction b with
  | nil => simp [B.subAt, B.get?]
  | leaf key l rest ih =>
    simp only [B.subAt, B.get?]
    split_ifs with h1
    · simp [Val.subAt]
    · exact ih
  | sub key b rest _ ih =>
    simp only [B.subAt, B.get?]
    split_ifs with h1
    · simp [Val.subAt]
    · exact ih

theorem B.get?_isSome (b : B) (k : String) : (b.get? k).isSome ↔ k ∈ b.keys := by
  induction b with
  | nil => simp [B.get?, B.keys]
  | leaf key l rest ih =>
    simp only [B.get?, B.keys, List.mem_cons]
    split_ifs with h
    · simp [h]
    · rw [ih]; constructor
      · exact Or.inr
      · rintro (rfl | h')
        · exact absurd rfl h
        · exact h'
  | sub key b rest _ ih =>
    simp only [B.get?, B.keys, List.mem_cons]
    split_ifs with h
    · simp [h]
    · rw [ih]; constructor
      · exact Or.inr
      · rintro (rfl | h')
        · exact absurd rfl h
        · exact h'

theorem B.mem_keys_of_leafAt {b : B} {k : String} {path : List String} {l : Leaf} (h : b.leafAt (k :: path) = some l) :
    k ∈ b.keys := by
  rw [B.leafAt_cons, Option.bind_eq_some_iff] at h
  obtain ⟨v, hv, _⟩ := h
  rw [← B.get?_isSome, hv]; rfl

/-! ### All -/

/-- A property of all values below an entry. -/
def Val.All (P : D → Prop) : Val → Prop
  | .leaf l => P l.data
  | .sub b => b.All P

theorem B.All.get? {P : D → Prop} {b : B} (h : b.All P) {k : String} {v : Val} (hv : b.get? k = some v) : v.All P := by
  induction b with
  | nil => simp [B.get?] at hv
  | leaf key l rest ih =>
    simp only [B.All] at h
    simp only [B.get?] at hv
    split_ifs at hv
    · cases hv; exact h.1
    · exact ih h.2 hv
  | sub key b rest _ ih =>
    simp only [B.All] at h
    simp only [B.get?] at hv
    split_ifs at hv
    · cases hv; exact h.1
    · exact ih h.2 hv

theorem B.All.leafAt {P : D → Prop} (b : B) (h : b.All P) (path : List String) (l : Leaf) (hl : b.leafAt path = some l) :
    P l.data := by
  induction b generalizing path with
  | nil => cases path <;> simp [B.leafAt] at hl
  | leaf key x rest ih =>
    cases path with
    | nil => simp [B.leafAt] at hl
    | cons k path =>
      simp only [B.leafAt] at hl
      split_ifs at hl
      · cases hl; exact h.1
      · exact ih h.2 _ hl
  | sub key b rest ihb ih =>
    cases path with
    | nil => simp [B.leafAt] at hl
    | cons k path =>
      simp only [B.leafAt] at hl
      split_ifs at hl
      · exact ihb h.1 _ hl
      · exact ih h.2 _ hl

theorem Val.All.leafAt {P : D → Prop} (v : Val) (h : v.All P) (path : List String) (l : Leaf)
    (hl : v.leafAt path = some l) : P l.data := by
  cases v with
  | leaf x =>
    cases path with
    | nil => simp only [Val.leafAt, Option.some.injEq] at hl; subst hl; exact h
    | cons _ _ => simp [Val.leafAt] at hl
  | sub b =>
    simp only [Val.leafAt] at hl
    exact B.All.leafAt b h path l hl

theorem B.All.mono {P Q : D → Prop} (hPQ : ∀ d, P d → Q d) {b : B} (h : b.All P) : b.All Q := by
  induction b with
  | nil => trivial
  | leaf k l rest ih => exact ⟨hPQ _ h.1, ih h.2⟩
  | sub k b rest ihb ih => exact ⟨ihb h.1, ih h.2⟩

/-! ### Indexing -/

/-- Indexing a batch all of whose values can be indexed: every value is indexed, the paths stay. -/
theorem getLoop_spec (index : Index) (b : B) (h : b.All fun d => ∃ x, d.getitem index = .ok x) :
    ∃ r, b.getLoop index = .ok r ∧ r.keys = b.keys ∧
      (∀ path, b.leafAt path = none → r.leafAt path = none) ∧
      (∀ path, ∀ l, b.leafAt path = some l → ∃ x, l.data.getitem index = .ok x ∧ r.leafAt path = some ⟨l.object, x⟩) ∧
      (∀ path, (r.subAt path).isSome = (b.subAt path).isSome) := by
  induction b with
  | nil =>
    refine ⟨.nil, rfl, rfl, fun _ h => h, ?_, fun _ => rfl⟩
    intro path l hl
    cases path <;> simp [B.leafAt] at hl
  | leaf k l rest ih =>
    obtain ⟨⟨x, hx⟩, hrest⟩ := h
    obtain ⟨r, h1, h2, h3, h4, h5⟩ := ih hrest
    have hne : ∀ o, l.data ≠ .none ∨ o := by
      intro o
      left
      intro he
      rw [he] at hx
      simp [D.getitem] at hx
    have hloop : (B.leaf k l rest).getLoop index = .ok (.leaf k ⟨l.object, x⟩ r) := by
      rw [B.getLoop]
      split
      · rename_i he
        rcases hne False with h | h
        · exact absurd he h
        · exact h.elim
      · rw [hx, h1]; rfl
    refine ⟨_, hloop, by simp [B.keys, h2], ?_, ?_, ?_⟩
    · intro path hp
      cases path with
      | nil => simp [B.leafAt]
      | cons key path =>
        simp only [B.leafAt] at hp ⊢
        split_ifs at hp ⊢
        · rfl
        · exact h3 _ hp
    · intro path l' hl'
      cases path with
      | nil => simp [B.leafAt] at hl'
      | cons key path =>
        simp only [B.leafAt] at hl' ⊢
        split_ifs at hl' ⊢
        · cases hl'; exact ⟨x, hx, rfl⟩
        · exact h4 _ _ hl'
    · intro path
      cases path with
      | nil => simp [B.subAt]
      | cons key path =>
        simp only [B.subAt]
        split_ifs
        · rfl
        · exact h5 _
  | sub k b rest ihb ih =>
    obtain ⟨hb, hrest⟩ := h
    obtain ⟨r, h1, h2, h3, h4, h5⟩ := ih hrest
    obtain ⟨s, g1, g2, g3, g4, g5⟩ := ihb hb
    refine ⟨.sub k s r, by rw [B.getLoop, g1, h1]; rfl, by simp [B.keys, h2], ?_, ?_, ?_⟩
    · intro path hp
      cases path with
      | nil => simp [B.leafAt]
      | cons key path =>
        simp only [B.leafAt] at hp ⊢
        split_ifs at hp ⊢
        · exact g3 _ hp
        · exact h3 _ hp
    · intro path l' hl'
      cases path with
      | nil => simp [B.leafAt] at hl'
      | cons key path =>
        simp only [B.leafAt] at hl' ⊢
        split_ifs at hl' ⊢
        · exact g4 _ _ hl'
        · exact h4 _ _ hl'
    · intro path
      cases path with
      | nil => simp [B.subAt]
      | cons key path =>
        simp only [B.subAt]
        split_ifs
        · exact g5 _
        · exact h5 _

theorem getitem_of_ne {b : B} (h : b.keys ≠ []) (index : Index) : b.getitem index = b.getLoop index := by
  cases b with
  | nil => simp [B.keys] at h
  | leaf => rfl
  | sub => rfl

/-! ### Assignment -/

theorem setLoop_keys (index : Index) (v b : B) : (B.setLoop index v b).1.keys = b.keys := by
  induction b generalizing v with
  | nil => rfl
  | leaf k l rest ih =>
    simp only [B.setLoop]
    split
    · rfl
    · simp [B.keys, ih]
  | sub k b rest ihb ih =>
    simp only [B.setLoop]
    split
    · rfl
    · simp [B.keys, ih]

/-- After an assignment without exception, every value is the old one with the new one's rows assigned, or with the
rows filled where the new batch has no value. -/
theorem setLoop_leafAt (index : Index) (v b b' : B) (h : B.setLoop index v b = (b', none)) (path : List String) :
    (b.leafAt path = none → b'.leafAt path = none) ∧
    (∀ l l', b.leafAt path = some l → v.leafAt path = some l' →
      ∃ d, l.data.setitem index l'.data = .ok d ∧ b'.leafAt path = some ⟨l.object, d⟩) ∧
    (∀ l, b.leafAt path = some l → v.leafAt path = none →
      ∃ d, l.data.setfill index l.zero = .ok d ∧ b'.leafAt path = some ⟨l.object, d⟩) := by
  induction b generalizing v b' path with
  | nil =>
    simp only [B.setLoop, Prod.mk.injEq, and_true] at h
    subst h
    refine ⟨fun h => h, ?_, ?_⟩
    · intro l l' hl; cases path <;> simp [B.leafAt] at hl
    · intro l hl; cases path <;> simp [B.leafAt] at hl
  | leaf k l rest ih =>
    simp only [B.setLoop] at h
    split at h
    · simp at h
    · rename_i d hd
      simp only [Prod.mk.injEq] at h
      obtain ⟨rfl, h⟩ := h
      have ih' := ih v (B.setLoop index v rest).1 (by rw [← h])
      cases path with
      | nil => exact ⟨fun _ => by simp [B.leafAt], by simp [B.leafAt], by simp [B.leafAt]⟩
      | cons key path =>
        obtain ⟨i1, i2, i3⟩ := ih' (key :: path)
        simp only [B.leafAt]
        split_ifs with h1 h2
        · subst h1
          subst h2
          refine ⟨by simp, ?_, ?_⟩
          · intro x l' hx hv
            cases hx
            rw [B.leafAt_cons] at hv
            cases hg : v.get? k with
            | none => rw [hg] at hv; simp at hv
            | some w =>
              rw [hg] at hv hd
              cases w with
              | leaf lw =>
                simp only [Option.bind_some, Val.leafAt, Option.some.injEq] at hv
                subst hv
                exact ⟨d, hd, rfl⟩
              | sub _ => simp at hd
          · intro x hx hv
            cases hx
            rw [B.leafAt_cons] at hv
            cases hg : v.get? k with
            | none => rw [hg] at hd; exact ⟨d, hd, rfl⟩
            | some w =>
              rw [hg] at hv hd
              cases w with
              | leaf lw => simp [Val.leafAt] at hv
              | sub _ => simp at hd
        · exact ⟨fun _ => rfl, by simp, by simp⟩
        · exact ⟨i1, i2, i3⟩
  | sub k b rest ihb ih =>
    simp only [B.setLoop] at h
    split at h
    · simp at h
    · rename_i c hc
      simp only [Prod.mk.injEq] at h
      obtain ⟨rfl, h⟩ := h
      have ih' := ih v (B.setLoop index v rest).1 (by rw [← h])
      cases path with
      | nil => exact ⟨fun _ => by simp [B.leafAt], by simp [B.leafAt], by simp [B.leafAt]⟩
      | cons key path =>
        obtain ⟨i1, i2, i3⟩ := ih' (key :: path)
        simp only [B.leafAt]
        split_ifs with h1
        · subst h1
          cases hg : v.get? k with
          | none =>
            rw [hg] at hc
            obtain ⟨j1, j2, j3⟩ := ihb .nil c hc path
            refine ⟨j1, ?_, ?_⟩
            · intro x l' hx hv; rw [B.leafAt_cons, hg] at hv; simp at hv
            · intro x hx _
              exact j3 x hx (by cases path <;> simp [B.leafAt])
          | some w =>
            rw [hg] at hc
            cases w with
            | leaf _ => simp at hc
            | sub v' =>
              simp only at hc
              split_ifs at hc
              · obtain ⟨j1, j2, j3⟩ := ihb v' c hc path
                refine ⟨j1, ?_, ?_⟩
                · intro x l' hx hv; rw [B.leafAt_cons, hg] at hv; exact j2 x l' hx hv
                · intro x hx hv; rw [B.leafAt_cons, hg] at hv; exact j3 x hx hv
              · simp at hc
        · exact ⟨i1, i2, i3⟩

/-- Every value of the assigned batch found its place. -/
theorem setLoop_dom (index : Index) (v b b' : B) (h : B.setLoop index v b = (b', none)) (k : String)
    (path : List String) (l : Leaf) (hk : k ∈ b.keys) (hl : v.leafAt (k :: path) = some l) :
    (b.leafAt (k :: path)).isSome := by
  induction b generalizing v b' k path with
  | nil => simp [B.keys] at hk
  | leaf key x rest ih =>
    simp only [B.setLoop] at h
    split at h
    · simp at h
    · rename_i d hd
      simp only [Prod.mk.injEq] at h
      obtain ⟨rfl, h⟩ := h
      simp only [B.leafAt]
      split_ifs with h1 h2
      · rfl
      · subst h1
        rw [B.leafAt_cons] at hl
        cases hg : v.get? key with
        | none => rw [hg] at hl; simp at hl
        | some w =>
          rw [hg] at hl hd
          cases w with
          | leaf _ =>
            cases path with
            | nil => simp at h2
            | cons _ _ => simp [Val.leafAt] at hl
          | sub _ => simp at hd
      · rw [B.keys, List.mem_cons] at hk
        rcases hk with rfl | hk
        · exact absurd rfl h1
        · exact ih v _ (by rw [← h]) k path hk hl
  | sub key b rest ihb ih =>
    simp only [B.setLoop] at h
    split at h
    · simp at h
    · rename_i c hc
      simp only [Prod.mk.injEq] at h
      obtain ⟨rfl, h⟩ := h
      simp only [B.leafAt]
      split_ifs with h1
      · subst h1
        rw [B.leafAt_cons] at hl
        cases hg : v.get? key with
        | none => rw [hg] at hl; simp at hl
        | some w =>
          rw [hg] at hl hc
          cases w with
          | leaf _ => simp at hc
          | sub v' =>
            simp only [Option.bind_some, Val.leafAt] at hl
            simp only at hc
            split_ifs at hc with hsub
            · cases path with
              | nil => rw [B.leafAt_nil] at hl; simp at hl
              | cons k2 path => exact ihb v' c hc k2 path (hsub (B.mem_keys_of_leafAt hl)) hl
            · simp at hc
      · rw [B.keys, List.mem_cons] at hk
        rcases hk with rfl | hk
        · exact absurd rfl h1
        · exact ih v _ (by rw [← h]) k path hk hl

/-- All values of the result have the property, if assignment and filling establish it. -/
theorem setLoop_all {P Q : D → Prop} (index : Index) (hset : ∀ d v d', P d → d.setitem index v = .ok d' → Q d')
    (hfill : ∀ d z d', P d → d.setfill index z = .ok d' → Q d') (v b b' : B) (hb : b.All P)
    (h : B.setLoop index v b = (b', none)) : b'.All Q := by
  induction b generalizing v b' with
  | nil =>
    simp only [B.setLoop, Prod.mk.injEq, and_true] at h
    subst h
    trivial
  | leaf k l rest ih =>
    simp only [B.setLoop] at h
    split at h
    · simp at h
    · rename_i d hd
      simp only [Prod.mk.injEq] at h
      obtain ⟨rfl, h⟩ := h
      refine ⟨?_, ih v _ hb.2 (by rw [← h])⟩
      cases hg : v.get? k with
      | none => rw [hg] at hd; exact hfill _ _ _ hb.1 hd
      | some w =>
        rw [hg] at hd
        cases w with
        | leaf _ => exact hset _ _ _ hb.1 hd
        | sub _ => simp at hd
  | sub k b rest ihb ih =>
    simp only [B.setLoop] at h
    split at h
    · simp at h
    · rename_i c hc
      simp only [Prod.mk.injEq] at h
      obtain ⟨rfl, h⟩ := h
      refine ⟨?_, ih v _ hb.2 (by rw [← h])⟩
      cases hg : v.get? k with
      | none => rw [hg] at hc; exact ihb _ _ hb.1 hc
      | some w =>
        rw [hg] at hc
        cases w with
        | leaf _ => simp at hc
        | sub v' =>
          simp only at hc
          split_ifs at hc
          · exact ihb _ _ hb.1 hc
          · simp at hc

/-- Assignment succeeds when the new batch fits and all array assignments succeed. -/
theorem setLoop_ok (index : Index) (v b : B) (hwf : b.WF)
    (hset : ∀ path l l', b.leafAt path = some l → v.leafAt path = some l' → ∃ d, l.data.setitem index l'.data = .ok d)
    (hfill : ∀ path l, b.leafAt path = some l → ∃ d, l.data.setfill index l.zero = .ok d)
    (hfits : ∀ k ∈ b.keys, ∀ path, ((v.leafAt (k :: path)).isSome → (b.leafAt (k :: path)).isSome) ∧
      ((v.subAt (k :: path)).isSome → (b.subAt (k :: path)).isSome)) :
    (B.setLoop index v b).2 = none := by
  induction b generalizing v with
  | nil => rfl
  | leaf k l rest ih =>
    simp only [B.WF] at hwf
    have hk : ∀ k' ∈ rest.keys, k ≠ k' := fun k' hk' he => hwf.1 (he ▸ hk')
    have hrest : (B.setLoop index v rest).2 = none := by
      apply ih v hwf.2
      · intro path x x' hx hx'
        cases path with
        | nil => rw [B.leafAt_nil] at hx; simp at hx
        | cons k' path =>
          refine hset (k' :: path) x x' ?_ hx'
          simp only [B.leafAt]
          rw [if_neg (hk k' (B.mem_keys_of_leafAt hx))]
          exact hx
      · intro path x hx
        cases path with
        | nil => rw [B.leafAt_nil] at hx; simp at hx
        | cons k' path =>
          refine hfill (k' :: path) x ?_
          simp only [B.leafAt]
          rw [if_neg (hk k' (B.mem_keys_of_leafAt hx))]
          exact hx
      · intro k' hk' path
        have := hfits k' (by simp [B.keys, hk']) path
        simpa only [B.leafAt, B.subAt, if_neg (hk k' hk')] using this
    have hb : (B.leaf k l rest).leafAt [k] = some l := by simp [B.leafAt]
    cases hg : v.get? k with
    | none =>
      obtain ⟨d, hd⟩ := hfill [k] l hb
      simp [B.setLoop, hg, hd, hrest]
    | some w =>
      cases w with
      | leaf l' =>
        obtain ⟨d, hd⟩ := hset [k] l l' hb (by rw [B.leafAt_cons, hg]; simp [Val.leafAt])
        simp [B.setLoop, hg, hd, hrest]
      | sub b' =>
        have := (hfits k (by simp [B.keys]) []).2 (by rw [B.subAt_cons, hg]; simp [Val.subAt, B.subAt_nil])
        simp [B.subAt] at this
  | sub k b rest ihb ih =>
    simp only [B.WF] at hwf
    have hk : ∀ k' ∈ rest.keys, k ≠ k' := fun k' hk' he => hwf.1 (he ▸ hk')
    have hrest : (B.setLoop index v rest).2 = none := by
      apply ih v hwf.2.2
      · intro path x x' hx hx'
        cases path with
        | nil => rw [B.leafAt_nil] at hx; simp at hx
        | cons k' path =>
          refine hset (k' :: path) x x' ?_ hx'
          simp only [B.leafAt]
          rw [if_neg (hk k' (B.mem_keys_of_leafAt hx))]
          exact hx
      · intro path x hx
        cases path with
        | nil => rw [B.leafAt_nil] at hx; simp at hx
        | cons k' path =>
          refine hfill (k' :: path) x ?_
          simp only [B.leafAt]
          rw [if_neg (hk k' (B.mem_keys_of_leafAt hx))]
          exact hx
      · intro k' hk' path
        have := hfits k' (by simp [B.keys, hk']) path
        simpa only [B.leafAt, B.subAt, if_neg (hk k' hk')] using this
    cases hg : v.get? k with
    | none =>
      have hc : (B.setLoop index .nil b).2 = none := by
        apply ihb .nil hwf.2.1
        · intro path x x' _ hx'; cases path <;> simp [B.leafAt] at hx'
        · intro path x hx; exact hfill (k :: path) x (by simpa [B.leafAt] using hx)
        · intro k' _ path; simp [B.leafAt, B.subAt]
      obtain ⟨c, hc'⟩ : ∃ c, B.setLoop index .nil b = (c, none) := ⟨_, Prod.ext rfl hc⟩
      simp [B.setLoop, hg, hc', hrest]
    | some w =>
      cases w with
      | leaf l' =>
        have := (hfits k (by simp [B.keys]) []).1 (by rw [B.leafAt_cons, hg]; simp [Val.leafAt])
        simp only [B.leafAt, if_true, B.leafAt_nil] at this
        simp at this
      | sub v' =>
        have hsub : v'.keys ⊆ b.keys := by
          intro k' hk'
          rw [← B.get?_isSome] at hk' ⊢
          obtain ⟨w, hw⟩ := Option.isSome_iff_exists.mp hk'
          cases w with
          | leaf x =>
            have := (hfits k (by simp [B.keys]) [k']).1 (by
              rw [B.leafAt_cons, hg, Option.bind_some, Val.leafAt, B.leafAt_cons, hw]; simp [Val.leafAt])
            simp only [B.leafAt, if_true] at this
            rw [B.leafAt_cons] at this
            cases hb : b.get? k' with
            | none => rw [hb] at this; simp at this
            | some _ => rfl
          | sub x =>
            have := (hfits k (by simp [B.keys]) [k']).2 (by
              rw [B.subAt_cons, hg, Option.bind_some, Val.subAt, B.subAt_cons, hw]; simp [Val.subAt, B.subAt_nil])
            simp only [B.subAt, if_true] at this
            rw [B.subAt_cons] at this
            cases hb : b.get? k' with
            | none => rw [hb] at this; simp at this
            | some _ => rfl
        have hc : (B.setLoop index v' b).2 = none := by
          apply ihb v' hwf.2.1
          · intro path x x' hx hx'
            refine hset (k :: path) x x' (by simpa [B.leafAt] using hx) ?_
            rw [B.leafAt_cons, hg]
            exact hx'
          · intro path x hx; exact hfill (k :: path) x (by simpa [B.leafAt] using hx)
          · intro k' _ path
            have := hfits k (by simp [B.keys]) (k' :: path)
            rw [B.leafAt_cons, B.subAt_cons, hg] at this
            simpa only [Option.bind_some, Val.leafAt, Val.subAt, B.leafAt, B.subAt, if_true] using this
        obtain ⟨c, hc'⟩ : ∃ c, B.setLoop index v' b = (c, none) := ⟨_, Prod.ext rfl hc⟩
        simp [B.setLoop, hg, hsub, hc', hrest]

end Verif.Batch
