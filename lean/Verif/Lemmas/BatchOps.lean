import Verif.Model.BatchOps
import Verif.Lemmas.BatchUse

/-! Lemmas for the operations of `Model/BatchOps.lean`. -/

namespace Verif.Batch

/-! ### Setting an entry -/

theorem B.get?_cons (k key : String) (v : Val) (rest : B) :
    (B.cons k v rest).get? key = if k = key then some v else rest.get? key := by
  cases v <;> rfl

theorem B.keys_cons (k : String) (v : Val) (rest : B) : (B.cons k v rest).keys = k :: rest.keys := by
  cases v <;> rfl

theorem B.get?_set (b : B) (key k : String) (v : Val) :
    (b.set key v).get? k = if k = key then some v else b.get? k := by
  induction b with
  | nil =>
    simp only [B.set, B.get?_cons, B.get?]
    by_cases h : key = k
    · rw [if_pos h, if_pos h.symm]
    · rw [if_neg h, if_neg (Ne.symm h)]
  | leaf k' l rest ih =>
    simp only [B.set]
    by_cases h : k' = key
    · subst h
      rw [if_pos rfl, B.get?_cons]
      by_cases h2 : k' = k
      · rw [if_pos h2, if_pos h2.symm]
      · rw [if_neg h2, if_neg (Ne.symm h2), B.get?, if_neg h2]
    · rw [if_neg h, B.get?, B.get?, ih]
      by_cases h2 : k' = k
      · rw [if_pos h2, if_neg (by rw [← h2]; exact h), if_pos h2]
      · rw [if_neg h2, if_neg h2]
  | sub k' l rest _ ih =>
    simp only [B.set]
    by_cases h : k' = key
    · subst h
      rw [if_pos rfl, B.get?_cons]
      by_cases h2 : k' = k
      · rw [if_pos h2, if_pos h2.symm]
      · rw [if_neg h2, if_neg (Ne.symm h2), B.get?, if_neg h2]
    · rw [if_neg h, B.get?, B.get?, ih]
      by_cases h2 : k' = k
      · rw [if_pos h2, if_neg (by rw [← h2]; exact h), if_pos h2]
      · rw [if_neg h2, if_neg h2]

theorem B.mem_keys_set (b : B) (key k : String) (v : Val) : k ∈ (b.set key v).keys ↔ k = key ∨ k ∈ b.keys := by
  rw [← B.get?_isSome, B.get?_set, ← B.get?_isSome]
  by_cases h : k = key <;> simp [h]

/-- Keys of an entry occur once. -/
def Val.WF : Val → Prop
  | .leaf _ => True
  | .sub b => b.WF

theorem B.wf_cons {k : String} {v : Val} {rest : B} (hv : v.WF) (hk : k ∉ rest.keys) (hr : rest.WF) : (B.cons k v rest).WF := by
  cases v with
  | leaf l => exact ⟨hk, hr⟩
  | sub b => exact ⟨hk, hv, hr⟩

theorem B.wf_set {b : B} {key : String} {v : Val} (hb : b.WF) (hv : v.WF) : (b.set key v).WF := by
  induction b with
  | nil => exact B.wf_cons hv (by simp [B.keys]) trivial
  | leaf k l rest ih =>
    simp only [B.set]
    split_ifs with h
    · exact B.wf_cons hv hb.1 hb.2
    · refine ⟨?_, ih hb.2⟩
      rw [B.mem_keys_set, not_or]
      exact ⟨h, hb.1⟩
  | sub k c rest _ ih =>
    simp only [B.set]
    split_ifs with h
    · exact B.wf_cons hv hb.1 hb.2.2
    · refine ⟨?_, hb.2.1, ih hb.2.2⟩
      rw [B.mem_keys_set, not_or]
      exact ⟨h, hb.1⟩

theorem B.get?_wf {b : B} (hb : b.WF) {k : String} {v : Val} (h : b.get? k = some v) : v.WF := by
  induction b with
  | nil => simp [B.get?] at h
  | leaf k' l rest ih =>
    simp only [B.get?] at h
    split_ifs at h
    · cases h; trivial
    · exact ih hb.2 h
  | sub k' c rest _ ih =>
    simp only [B.get?] at h
    split_ifs at h
    · cases h; exact hb.2.1
    · exact ih hb.2.2 h

theorem B.get?_none {b : B} {k : String} : b.get? k = none ↔ k ∉ b.keys := by
  rw [← B.get?_isSome]
  cases b.get? k <;> simp

/-! ### All values -/

theorem B.all_of_leafAt {P : D → Prop} {b : B} (hb : b.WF) (h : ∀ path l, b.leafAt path = some l → P l.data) : b.All P := by
  induction b with
  | nil => trivial
  | leaf k l rest ih =>
    refine ⟨h [k] l (by simp [B.leafAt]), ih hb.2 ?_⟩
    intro path l' hl'
    cases path with
    | nil => rw [B.leafAt_nil] at hl'; cases hl'
    | cons key path =>
      apply h (key :: path) l'
      have hne : k ≠ key := by rintro rfl; exact hb.1 (B.mem_keys_of_leafAt hl')
      simp only [B.leafAt, if_neg hne]
      exact hl'
  | sub k c rest ihc ih =>
    refine ⟨ihc hb.2.1 ?_, ih hb.2.2 ?_⟩
    · intro path l hl
      exact h (k :: path) l (by simpa [B.leafAt] using hl)
    · intro path l' hl'
      cases path with
      | nil => rw [B.leafAt_nil] at hl'; cases hl'
      | cons key path =>
        apply h (key :: path) l'
        have hne : k ≠ key := by rintro rfl; exact hb.1 (B.mem_keys_of_leafAt hl')
        simp only [B.leafAt, if_neg hne]
        exact hl'

theorem getLoop_wf {I : Index} {b r : B} (hb : b.WF) (h : b.getLoop I = .ok r) : r.WF ∧ r.keys = b.keys := by
  induction b generalizing r with
  | nil => cases h; exact ⟨trivial, rfl⟩
  | leaf k l rest ih =>
    have key : ∃ l' r', rest.getLoop I = .ok r' ∧ r = .leaf k l' r' := by
      rw [B.getLoop] at h
      split at h
      · cases hr : rest.getLoop I with
        | error e => rw [hr] at h; cases h
        | ok r' => rw [hr] at h; cases h; exact ⟨_, _, rfl, rfl⟩
      · cases hx : l.data.getitem I with
        | error e => rw [hx] at h; cases h
        | ok x =>
          cases hr : rest.getLoop I with
          | error e => rw [hx, hr] at h; cases h
          | ok r' => rw [hx, hr] at h; cases h; exact ⟨_, _, rfl, rfl⟩
    obtain ⟨l', r', hr', rfl⟩ := key
    obtain ⟨h1, h2⟩ := ih hb.2 hr'
    exact ⟨⟨by rw [h2]; exact hb.1, h1⟩, by simp [B.keys, h2]⟩
  | sub k c rest ihc ih =>
    rw [B.getLoop] at h
    cases hx : c.getLoop I with
    | error e => rw [hx] at h; cases h
    | ok x =>
      cases hr : rest.getLoop I with
      | error e => rw [hx, hr] at h; cases h
      | ok r' =>
        rw [hx, hr] at h
        cases h
        obtain ⟨h1, h2⟩ := ih hb.2.2 hr
        exact ⟨⟨by rw [h2]; exact hb.1, (ihc hb.2.1 hx).1, h1⟩, by simp [B.keys, h2]⟩

theorem getLoop_all {P Q : D → Prop} {I : Index} (h : ∀ d x, P d → d.getitem I = .ok x → Q x) (hn : ¬ P .none) {b r : B}
    (hb : b.All P) (hr : b.getLoop I = .ok r) : r.All Q := by
  induction b generalizing r with
  | nil => cases hr; trivial
  | leaf k l rest ih =>
    rw [B.getLoop] at hr
    split at hr
    · rename_i hl
      have := hb.1
      rw [hl] at this
      exact absurd this hn
    · cases hx : l.data.getitem I with
      | error e => rw [hx] at hr; cases hr
      | ok x =>
        cases hr' : rest.getLoop I with
        | error e => rw [hx, hr'] at hr; cases hr
        | ok r' => rw [hx, hr'] at hr; cases hr; exact ⟨h _ _ hb.1 hx, ih hb.2 hr'⟩
  | sub k c rest ihc ih =>
    rw [B.getLoop] at hr
    cases hx : c.getLoop I with
    | error e => rw [hx] at hr; cases hr
    | ok x =>
      cases hr' : rest.getLoop I with
      | error e => rw [hx, hr'] at hr; cases hr
      | ok r' => rw [hx, hr'] at hr; cases hr; exact ⟨ihc hb.1 hx, ih hb.2 hr'⟩

theorem getitem_wf {I : Index} {b r : B} (hb : b.WF) (h : b.getitem I = .ok r) : r.WF ∧ r.keys = b.keys := by
  cases b with
  | nil => cases h
  | leaf _ _ _ => exact getLoop_wf hb h
  | sub _ _ _ => exact getLoop_wf hb h

/-! ### At least one dimension -/

theorem atleast1d_spec (b : B) : b.atleast1d.keys = b.keys ∧ (b.WF → b.atleast1d.WF) ∧
    (∀ path, b.atleast1d.leafAt path = (b.leafAt path).map fun l => ⟨l.object, l.data.atleast1d⟩) ∧
    ∀ path, (b.atleast1d.subAt path).isSome = (b.subAt path).isSome := by
  induction b with
  | nil => exact ⟨rfl, fun h => h, fun p => by cases p <;> rfl, fun p => by cases p <;> rfl⟩
  | leaf k l rest ih =>
    obtain ⟨h1, h2, h3, h4⟩ := ih
    refine ⟨by simp [B.atleast1d, B.keys, h1], fun h => ⟨by rw [h1]; exact h.1, h2 h.2⟩, ?_, ?_⟩
    · intro path
      cases path with
      | nil => rfl
      | cons key path =>
        simp only [B.atleast1d, B.leafAt]
        split_ifs
        · rfl
        · rfl
        · exact h3 _
    · intro path
      cases path with
      | nil => rfl
      | cons key path =>
        simp only [B.atleast1d, B.subAt]
        split_ifs
        · rfl
        · exact h4 _
  | sub k c rest ihc ih =>
    obtain ⟨h1, h2, h3, h4⟩ := ih
    obtain ⟨g1, g2, g3, g4⟩ := ihc
    refine ⟨by simp [B.atleast1d, B.keys, h1], fun h => ⟨by rw [h1]; exact h.1, g2 h.2.1, h2 h.2.2⟩, ?_, ?_⟩
    · intro path
      cases path with
      | nil => rfl
      | cons key path =>
        simp only [B.atleast1d, B.leafAt]
        split_ifs
        · exact g3 _
        · exact h3 _
    · intro path
      cases path with
      | nil => rfl
      | cons key path =>
        simp only [B.atleast1d, B.subAt]
        split_ifs
        · exact g4 _
        · exact h4 _

theorem hasnull_iff {b : B} (hb : b.WF) : b.hasnull = true ↔ ∃ path l, b.leafAt path = some l ∧ l.data.hasnull = true := by
  induction b with
  | nil =>
    simp only [B.hasnull, Bool.false_eq_true, false_iff, not_exists, not_and]
    intro path l hl
    cases path <;> simp [B.leafAt] at hl
  | leaf k l rest ih =>
    simp only [B.hasnull, Bool.or_eq_true, ih hb.2]
    constructor
    · rintro (h | ⟨path, l', hl, h⟩)
      · exact ⟨[k], l, by simp [B.leafAt], h⟩
      · refine ⟨path, l', ?_, h⟩
        cases path with
        | nil => rw [B.leafAt_nil] at hl; cases hl
        | cons key path =>
          have hne : k ≠ key := by rintro rfl; exact hb.1 (B.mem_keys_of_leafAt hl)
          simp only [B.leafAt, if_neg hne]
          exact hl
    · rintro ⟨path, l', hl, h⟩
      cases path with
      | nil => simp [B.leafAt] at hl
      | cons key path =>
        simp only [B.leafAt] at hl
        split_ifs at hl
        · cases hl; exact Or.inl h
        · exact Or.inr ⟨_, _, hl, h⟩
  | sub k c rest ihc ih =>
    simp only [B.hasnull, Bool.or_eq_true, ih hb.2.2, ihc hb.2.1]
    constructor
    · rintro (⟨path, l', hl, h⟩ | ⟨path, l', hl, h⟩)
      · exact ⟨k :: path, l', by simpa [B.leafAt] using hl, h⟩
      · refine ⟨path, l', ?_, h⟩
        cases path with
        | nil => rw [B.leafAt_nil] at hl; cases hl
        | cons key path =>
          have hne : k ≠ key := by rintro rfl; exact hb.1 (B.mem_keys_of_leafAt hl)
          simp only [B.leafAt, if_neg hne]
          exact hl
    · rintro ⟨path, l', hl, h⟩
      cases path with
      | nil => simp [B.leafAt] at hl
      | cons key path =>
        simp only [B.leafAt] at hl
        split_ifs at hl
        · exact Or.inl ⟨_, _, hl, h⟩
        · exact Or.inr ⟨_, _, hl, h⟩

/-! ### Emptying -/

theorem emptyAt_spec (index : Option Index) (b : B) (hb : b.All fun d => ∀ z, ∃ x, d.emptyEntry index z = .ok x) :
    ∃ r, b.emptyAt index = .ok r ∧ r.keys = b.keys ∧ (∀ path, b.leafAt path = none → r.leafAt path = none) ∧
      ∀ path l, b.leafAt path = some l → ∃ x, l.data.emptyEntry index l.zero = .ok x ∧ r.leafAt path = some ⟨l.object, x⟩ := by
  induction b with
  | nil => exact ⟨.nil, rfl, rfl, fun _ h => h, fun path l hl => by cases path <;> simp [B.leafAt] at hl⟩
  | leaf k l rest ih =>
    obtain ⟨r, h1, h2, h3, h4⟩ := ih hb.2
    obtain ⟨x, hx⟩ := hb.1 l.zero
    refine ⟨.leaf k ⟨l.object, x⟩ r, by simp only [B.emptyAt, hx, h1, bind, Except.bind], by simp [B.keys, h2], ?_, ?_⟩
    · intro path hp
      cases path with
      | nil => rfl
      | cons key path =>
        simp only [B.leafAt] at hp ⊢
        split_ifs at hp ⊢
        · rfl
        · exact h3 _ hp
    · intro path l' hp
      cases path with
      | nil => simp [B.leafAt] at hp
      | cons key path =>
        simp only [B.leafAt] at hp ⊢
        split_ifs at hp ⊢
        · cases hp; exact ⟨x, hx, rfl⟩
        · exact h4 _ _ hp
  | sub k c rest ihc ih =>
    obtain ⟨r, h1, h2, h3, h4⟩ := ih hb.2
    obtain ⟨s, g1, g2, g3, g4⟩ := ihc hb.1
    refine ⟨.sub k s r, by simp only [B.emptyAt, g1, h1, bind, Except.bind], by simp [B.keys, h2], ?_, ?_⟩
    · intro path hp
      cases path with
      | nil => rfl
      | cons key path =>
        simp only [B.leafAt] at hp ⊢
        split_ifs at hp ⊢
        · exact g3 _ hp
        · exact h3 _ hp
    · intro path l' hp
      cases path with
      | nil => simp [B.leafAt] at hp
      | cons key path =>
        simp only [B.leafAt] at hp ⊢
        split_ifs at hp ⊢
        · exact g4 _ _ hp
        · exact h4 _ _ hp

/-! ### Assignments that fail half-way -/

/-- A value that was left alone, assigned or filled. -/
def Touched (I : Index) (d d' : D) : Prop :=
  d' = d ∨ (∃ v, d.setitem I v = .ok d') ∨ ∃ z, d.setfill I z = .ok d'

/-- Whatever happens, an assignment leaves, assigns or fills every value. -/
theorem setLoop_touched (I : Index) (v b : B) :
    (B.setLoop I v b).1.keys = b.keys ∧ (b.WF → (B.setLoop I v b).1.WF) ∧
    (∀ path, b.leafAt path = none → (B.setLoop I v b).1.leafAt path = none) ∧
    (∀ path l, b.leafAt path = some l → ∃ d, (B.setLoop I v b).1.leafAt path = some ⟨l.object, d⟩ ∧ Touched I l.data d) ∧
    ∀ path, ((B.setLoop I v b).1.subAt path).map B.keys = (b.subAt path).map B.keys := by
  induction b generalizing v with
  | nil =>
    exact ⟨rfl, fun h => h, fun _ h => h, fun path l hl => by cases path <;> simp [B.leafAt] at hl, fun _ => rfl⟩
  | leaf k l rest ih =>
    obtain ⟨h1, h2, h3, h4, h5⟩ := ih v
    simp only [B.setLoop]
    split
    · exact ⟨rfl, fun h => h, fun _ h => h, fun path l' hl => ⟨l'.data, hl, Or.inl rfl⟩, fun _ => rfl⟩
    · rename_i d hd
      have ht : Touched I l.data d := by
        cases hg : v.get? k with
        | none => rw [hg] at hd; exact Or.inr (Or.inr ⟨_, hd⟩)
        | some w =>
          rw [hg] at hd
          cases w with
          | leaf l' => exact Or.inr (Or.inl ⟨_, hd⟩)
          | sub _ => cases hd
      refine ⟨by simp [B.keys, h1], fun h => ⟨by rw [h1]; exact h.1, h2 h.2⟩, ?_, ?_, ?_⟩
      · intro path hp
        cases path with
        | nil => rfl
        | cons key path =>
          simp only [B.leafAt] at hp ⊢
          split_ifs at hp ⊢
          · rfl
          · exact h3 _ hp
      · intro path l' hp
        cases path with
        | nil => simp [B.leafAt] at hp
        | cons key path =>
          simp only [B.leafAt] at hp ⊢
          split_ifs at hp ⊢
          · cases hp; exact ⟨d, rfl, ht⟩
          · exact h4 _ _ hp
      · intro path
        cases path with
        | nil => simp [B.subAt, B.keys, h1]
        | cons key path =>
          simp only [B.subAt]
          split_ifs
          · rfl
          · exact h5 _
  | sub k c rest ihc ih =>
    obtain ⟨h1, h2, h3, h4, h5⟩ := ih v
    have hc : ∀ x : B × Option Err, (x = (c, some .valueError) ∨ ∃ v', x = B.setLoop I v' c) →
        x.1.keys = c.keys ∧ (c.WF → x.1.WF) ∧ (∀ path, c.leafAt path = none → x.1.leafAt path = none) ∧
        (∀ path l, c.leafAt path = some l → ∃ d, x.1.leafAt path = some ⟨l.object, d⟩ ∧ Touched I l.data d) ∧
        ∀ path, (x.1.subAt path).map B.keys = (c.subAt path).map B.keys := by
      rintro x (rfl | ⟨v', rfl⟩)
      · exact ⟨rfl, fun h => h, fun _ h => h, fun path l' hl => ⟨l'.data, hl, Or.inl rfl⟩, fun _ => rfl⟩
      · exact ihc v'
    have hnew : ∀ x : B × Option Err, x = (match v.get? k with
        | some (.sub v') => if v'.keys ⊆ c.keys then B.setLoop I v' c else (c, some .valueError)
        | some (.leaf _) => (c, some .valueError)
        | none => B.setLoop I .nil c) → (x = (c, some .valueError) ∨ ∃ v', x = B.setLoop I v' c) := by
      rintro x rfl
      cases v.get? k with
      | none => exact Or.inr ⟨_, rfl⟩
      | some w =>
        cases w with
        | leaf _ => exact Or.inl rfl
        | sub v' =>
          simp only
          split_ifs
          · exact Or.inr ⟨_, rfl⟩
          · exact Or.inl rfl
    simp only [B.setLoop]
    split
    · rename_i b' e heq
      obtain ⟨g1, g2, g3, g4, g5⟩ := hc (b', some e) (hnew _ heq.symm)
      refine ⟨rfl, fun h => ⟨h.1, g2 h.2.1, h.2.2⟩, ?_, ?_, ?_⟩
      · intro path hp
        cases path with
        | nil => rfl
        | cons key path =>
          simp only [B.leafAt] at hp ⊢
          split_ifs at hp ⊢
          · exact g3 _ hp
          · exact hp
      · intro path l' hp
        cases path with
        | nil => simp [B.leafAt] at hp
        | cons key path =>
          simp only [B.leafAt] at hp ⊢
          split_ifs at hp ⊢
          · exact g4 _ _ hp
          · exact ⟨l'.data, hp, Or.inl rfl⟩
      · intro path
        cases path with
        | nil => rfl
        | cons key path =>
          simp only [B.subAt]
          split_ifs
          · exact g5 _
          · rfl
    · rename_i b' heq
      obtain ⟨g1, g2, g3, g4, g5⟩ := hc (b', none) (hnew _ heq.symm)
      refine ⟨by simp [B.keys, h1], fun h => ⟨by rw [h1]; exact h.1, g2 h.2.1, h2 h.2.2⟩, ?_, ?_, ?_⟩
      · intro path hp
        cases path with
        | nil => rfl
        | cons key path =>
          simp only [B.leafAt] at hp ⊢
          split_ifs at hp ⊢
          · exact g3 _ hp
          · exact h3 _ hp
      · intro path l' hp
        cases path with
        | nil => simp [B.leafAt] at hp
        | cons key path =>
          simp only [B.leafAt] at hp ⊢
          split_ifs at hp ⊢
          · exact g4 _ _ hp
          · exact h4 _ _ hp
      · intro path
        cases path with
        | nil => simp [B.subAt, B.keys, h1]
        | cons key path =>
          simp only [B.subAt]
          split_ifs
          · exact g5 _
          · exact h5 _

/-- If no array is given a batch and all array assignments succeed, the only exception is a `ValueError`. -/
theorem setLoop_err (I : Index) (v b : B) (hwf : b.WF)
    (hset : ∀ path l l', b.leafAt path = some l → v.leafAt path = some l' → ∃ d, l.data.setitem I l'.data = .ok d)
    (hfill : ∀ path l, b.leafAt path = some l → ∃ d, l.data.setfill I l.zero = .ok d)
    (hsub : ∀ path, (b.leafAt path).isSome → v.subAt path = none) :
    (B.setLoop I v b).2 = none ∨ (B.setLoop I v b).2 = some .valueError := by
  induction b generalizing v with
  | nil => exact Or.inl rfl
  | leaf k l rest ih =>
    have lift : ∀ path l', rest.leafAt path = some l' → (B.leaf k l rest).leafAt path = some l' := by
      intro path l' hl
      cases path with
      | nil => rw [B.leafAt_nil] at hl; cases hl
      | cons key path =>
        have hne : k ≠ key := by rintro rfl; exact hwf.1 (B.mem_keys_of_leafAt hl)
        simp only [B.leafAt, if_neg hne]
        exact hl
    have hr := ih v hwf.2 (fun path x x' hx hx' => hset path x x' (lift path x hx) hx')
      (fun path x hx => hfill path x (lift path x hx))
      (fun path hx => hsub path (by
        obtain ⟨x, hx⟩ := Option.isSome_iff_exists.mp hx
        rw [lift path x hx]; rfl))
    have hl : (B.leaf k l rest).leafAt [k] = some l := by simp [B.leafAt]
    cases hg : v.get? k with
    | none =>
      obtain ⟨d, hd⟩ := hfill [k] l hl
      simp only [B.setLoop, hg, hd]
      exact hr
    | some w =>
      cases w with
      | leaf l' =>
        obtain ⟨d, hd⟩ := hset [k] l l' hl (by rw [B.leafAt_cons, hg]; simp [Val.leafAt])
        simp only [B.setLoop, hg, hd]
        exact hr
      | sub c =>
        have := hsub [k] (by rw [hl]; rfl)
        rw [B.subAt_cons, hg] at this
        simp [Val.subAt, B.subAt_nil] at this
  | sub k c rest ihc ih =>
    have lift : ∀ path l', rest.leafAt path = some l' → (B.sub k c rest).leafAt path = some l' := by
      intro path l' hl
      cases path with
      | nil => rw [B.leafAt_nil] at hl; cases hl
      | cons key path =>
        have hne : k ≠ key := by rintro rfl; exact hwf.1 (B.mem_keys_of_leafAt hl)
        simp only [B.leafAt, if_neg hne]
        exact hl
    have hr := ih v hwf.2.2 (fun path x x' hx hx' => hset path x x' (lift path x hx) hx')
      (fun path x hx => hfill path x (lift path x hx))
      (fun path hx => hsub path (by
        obtain ⟨x, hx⟩ := Option.isSome_iff_exists.mp hx
        rw [lift path x hx]; rfl))
    have hnil : ∀ path : List String, (B.nil).leafAt path = none := by intro path; cases path <;> rfl
    have hc : ∀ v' : B, (∀ path l', v'.leafAt path = some l' → v.leafAt (k :: path) = some l') →
        (∀ path, v.subAt (k :: path) = none → v'.subAt path = none ∨ path = []) →
        (B.setLoop I v' c).2 = none ∨ (B.setLoop I v' c).2 = some .valueError := by
      intro v' h1 h2
      refine ihc v' hwf.2.1 ?_ ?_ ?_
      · intro path x x' hx hx'
        exact hset (k :: path) x x' (by simpa [B.leafAt] using hx) (h1 path x' hx')
      · intro path x hx
        exact hfill (k :: path) x (by simpa [B.leafAt] using hx)
      · intro path hx
        have := hsub (k :: path) (by simpa [B.leafAt] using hx)
        rcases h2 path this with h | h
        · exact h
        · subst h; rw [B.leafAt_nil] at hx; simp at hx
    have hfin : ∀ x : B × Option Err, (x.2 = none ∨ x.2 = some .valueError) →
        ((match x with
          | (b', some e) => (B.sub k b' rest, some e)
          | (b', none) => (B.sub k b' (B.setLoop I v rest).1, (B.setLoop I v rest).2)) : B × Option Err).2 = none ∨
        ((match x with
          | (b', some e) => (B.sub k b' rest, some e)
          | (b', none) => (B.sub k b' (B.setLoop I v rest).1, (B.setLoop I v rest).2)) : B × Option Err).2 = some .valueError := by
      rintro ⟨b', _ | e⟩ h
      · exact hr
      · simpa using h
    cases hg : v.get? k with
    | none =>
      simp only [B.setLoop, hg]
      apply hfin
      refine hc .nil (fun path l' hl => by rw [hnil] at hl; cases hl) ?_
      intro path _
      cases path with
      | nil => exact Or.inr rfl
      | cons _ _ => exact Or.inl rfl
    | some w =>
      cases w with
      | leaf l' =>
        exact Or.inr (by simp only [B.setLoop, hg])
      | sub v' =>
        simp only [B.setLoop, hg]
        apply hfin
        split_ifs
        · refine hc v' ?_ ?_
          · intro path l' hl; rw [B.leafAt_cons, hg]; exact hl
          · intro path h; rw [B.subAt_cons, hg] at h; exact Or.inl h
        · exact Or.inr rfl

/-! ### Creating and allocating -/

theorem Leaf.create_stack (size : Nat) (l : Leaf) : ∃ x, l.create size true = .ok x := by
  unfold Leaf.create D.create
  split <;> exact ⟨_, rfl⟩

theorem Leaf.create_rows (size k : Nat) (l : Leaf) (h : Rows k l.data) : ∃ x, l.create size false = .ok x := by
  obtain ⟨rows, hr, _⟩ := h
  unfold Leaf.create D.create
  rw [hr]
  exact ⟨_, rfl⟩

/-- Creating storage succeeds: when stacking, or for arrays. -/
def Creatable (stack : Bool) (d : D) : Prop := stack = true ∨ ∃ k, Rows k d

theorem Leaf.create_ok {size : Nat} {stack : Bool} {l : Leaf} (h : Creatable stack l.data) : ∃ x, l.create size stack = .ok x := by
  rcases h with rfl | ⟨k, h⟩
  · exact Leaf.create_stack size l
  · cases stack with
    | true => exact Leaf.create_stack size l
    | false => exact Leaf.create_rows size k l h

theorem B.create_ok {size : Nat} {stack : Bool} {b : B} (h : b.All (Creatable stack)) : ∃ x, b.create size stack = .ok x := by
  induction b with
  | nil => exact ⟨_, rfl⟩
  | leaf k l rest ih =>
    obtain ⟨x, hx⟩ := Leaf.create_ok (size := size) h.1
    obtain ⟨r, hr⟩ := ih h.2
    exact ⟨.leaf k x r, by rw [B.create, hx, hr]; rfl⟩
  | sub k c rest ihc ih =>
    obtain ⟨x, hx⟩ := ihc h.1
    obtain ⟨r, hr⟩ := ih h.2
    exact ⟨.sub k x r, by rw [B.create, hx, hr]; rfl⟩

theorem B.create_more {size : Nat} {stack : Bool} {b b' : B} (h : b.create size stack = .ok b') :
    b'.keys = b.keys ∧ (b.WF → b'.WF) ∧ ∀ path, (b'.subAt path).map B.keys = (b.subAt path).map B.keys := by
  induction b generalizing b' with
  | nil => cases h; exact ⟨rfl, fun h => h, fun _ => rfl⟩
  | leaf k l rest ih =>
    rw [B.create] at h
    cases hx : l.create size stack with
    | error e => rw [hx] at h; cases h
    | ok x =>
      cases hr : rest.create size stack with
      | error e => rw [hx, hr] at h; cases h
      | ok r =>
        rw [hx, hr] at h
        cases h
        obtain ⟨h1, h2, h3⟩ := ih hr
        refine ⟨by simp [B.keys, h1], fun h => ⟨by rw [h1]; exact h.1, h2 h.2⟩, ?_⟩
        intro path
        cases path with
        | nil => simp [B.subAt, B.keys, h1]
        | cons key path =>
          simp only [B.subAt]
          split_ifs
          · rfl
          · exact h3 _
  | sub k c rest ihc ih =>
    rw [B.create] at h
    cases hx : c.create size stack with
    | error e => rw [hx] at h; cases h
    | ok x =>
      cases hr : rest.create size stack with
      | error e => rw [hx, hr] at h; cases h
      | ok r =>
        rw [hx, hr] at h
        cases h
        obtain ⟨h1, h2, h3⟩ := ih hr
        obtain ⟨_, g2, g3⟩ := ihc hx
        refine ⟨by simp [B.keys, h1], fun h => ⟨by rw [h1]; exact h.1, g2 h.2.1, h2 h.2.2⟩, ?_⟩
        intro path
        cases path with
        | nil => simp [B.subAt, B.keys, h1]
        | cons key path =>
          simp only [B.subAt]
          split_ifs
          · exact g3 _
          · exact h3 _

/-- What allocation does with the entry of one key. -/
def AllocKey (size : Nat) (stack : Bool) (m v m' : Option Val) : Prop :=
  match v, m with
  | none, m => m' = m
  | some v, none => ∃ x, v.create size stack = .ok x ∧ m' = some x
  | some (.leaf l), some (.sub .nil) => ∃ x, l.create size stack = .ok x ∧ m' = some (.leaf x)
  | some (.sub b), some (.sub c) => ∃ x, c.alloc size stack b = .ok x ∧ m' = some (.sub x)
  | some _, some w => m' = some w

/-- Allocation treats every key of the batch, and only those. -/
theorem alloc_get? {size : Nat} {stack : Bool} {m v m' : B} (hv : v.WF) (h : m.alloc size stack v = .ok m') (k : String) :
    AllocKey size stack (m.get? k) (v.get? k) (m'.get? k) := by
  induction v generalizing m with
  | nil => rw [B.alloc] at h; cases h; simp [AllocKey, B.get?]
  | leaf key l rest ih =>
    have step : ∃ w : B, AllocKey size stack (m.get? key) (some (.leaf l)) (w.get? key) ∧ (∀ k', k' ≠ key → w.get? k' = m.get? k') ∧
        w.alloc size stack rest = .ok m' := by
      rw [B.alloc] at h
      cases hg : m.get? key with
      | none =>
        rw [hg] at h
        simp only at h
        cases hx : l.create size stack with
        | error e => rw [hx] at h; cases h
        | ok x =>
          rw [hx] at h
          refine ⟨m.set key (.leaf x), ?_, fun k' hk' => by rw [B.get?_set, if_neg hk'], h⟩
          simp only [AllocKey, Val.create, B.get?_set, if_true]
          exact ⟨_, by rw [hx]; rfl, rfl⟩
      | some w =>
        rw [hg] at h
        cases w with
        | leaf l' => exact ⟨m, by simp [AllocKey, hg], fun _ _ => rfl, h⟩
        | sub c =>
          cases c with
          | nil =>
            simp only at h
            cases hx : l.create size stack with
            | error e => rw [hx] at h; cases h
            | ok x =>
              rw [hx] at h
              refine ⟨m.set key (.leaf x), ?_, fun k' hk' => by rw [B.get?_set, if_neg hk'], h⟩
              simp only [AllocKey, B.get?_set, if_true]
              exact ⟨x, hx, rfl⟩
          | leaf _ _ _ => exact ⟨m, by simp [AllocKey, hg], fun _ _ => rfl, h⟩
          | sub _ _ _ => exact ⟨m, by simp [AllocKey, hg], fun _ _ => rfl, h⟩
    obtain ⟨w, h1, h2, h3⟩ := step
    have := ih hv.2 h3
    by_cases hk : key = k
    · subst hk
      rw [B.get?_none.mpr hv.1] at this
      simp only [AllocKey] at this
      rw [this]
      simpa [B.get?] using h1
    · rw [h2 k (Ne.symm hk)] at this
      simpa [B.get?, hk] using this
  | sub key c rest _ ih =>
    have step : ∃ w : B, AllocKey size stack (m.get? key) (some (.sub c)) (w.get? key) ∧ (∀ k', k' ≠ key → w.get? k' = m.get? k') ∧
        w.alloc size stack rest = .ok m' := by
      rw [B.alloc] at h
      cases hg : m.get? key with
      | none =>
        rw [hg] at h
        simp only at h
        cases hx : c.create size stack with
        | error e => rw [hx] at h; cases h
        | ok x =>
          rw [hx] at h
          refine ⟨m.set key (.sub x), ?_, fun k' hk' => by rw [B.get?_set, if_neg hk'], h⟩
          simp only [AllocKey, Val.create, B.get?_set, if_true]
          exact ⟨_, by rw [hx]; rfl, rfl⟩
      | some w =>
        rw [hg] at h
        cases w with
        | leaf l' => exact ⟨m, by simp [AllocKey, hg], fun _ _ => rfl, h⟩
        | sub d =>
          simp only at h
          cases hx : d.alloc size stack c with
          | error e => rw [hx] at h; cases h
          | ok x =>
            rw [hx] at h
            refine ⟨m.set key (.sub x), ?_, fun k' hk' => by rw [B.get?_set, if_neg hk'], h⟩
            simp only [AllocKey, B.get?_set, if_true]
            exact ⟨x, hx, rfl⟩
    obtain ⟨w, h1, h2, h3⟩ := step
    have := ih hv.2.2 h3
    by_cases hk : key = k
    · subst hk
      rw [B.get?_none.mpr hv.1] at this
      simp only [AllocKey] at this
      rw [this]
      simpa [B.get?] using h1
    · rw [h2 k (Ne.symm hk)] at this
      simpa [B.get?, hk] using this

theorem alloc_ok {size : Nat} {stack : Bool} {m v : B} (h : v.All (Creatable stack)) : ∃ m', m.alloc size stack v = .ok m' := by
  induction v generalizing m with
  | nil => exact ⟨m, by rw [B.alloc]⟩
  | leaf key l rest ih =>
    obtain ⟨x, hx⟩ := Leaf.create_ok (size := size) h.1
    rw [B.alloc]
    cases hg : m.get? key with
    | none => rw [hx]; exact ih h.2
    | some w =>
      cases w with
      | leaf l' => exact ih h.2
      | sub c =>
        cases c with
        | nil => simp only [hx]; exact ih h.2
        | leaf _ _ _ => exact ih h.2
        | sub _ _ _ => exact ih h.2
  | sub key c rest ihc ih =>
    obtain ⟨x, hx⟩ := B.create_ok (size := size) h.1
    rw [B.alloc]
    cases hg : m.get? key with
    | none => rw [hx]; exact ih h.2
    | some w =>
      cases w with
      | leaf l' => exact ih h.2
      | sub d =>
        obtain ⟨y, hy⟩ := ihc h.1 (m := d)
        simp only [hy]
        exact ih h.2

theorem alloc_wf {size : Nat} {stack : Bool} {m v m' : B} (hm : m.WF) (hv : v.WF) (h : m.alloc size stack v = .ok m') : m'.WF := by
  induction v generalizing m m' with
  | nil => rw [B.alloc] at h; cases h; exact hm
  | leaf key l rest ih =>
    rw [B.alloc] at h
    cases hg : m.get? key with
    | none =>
      rw [hg] at h
      simp only at h
      cases hx : l.create size stack with
      | error e => rw [hx] at h; cases h
      | ok x =>
        rw [hx] at h
        exact ih (m := m.set key (.leaf x)) (B.wf_set hm trivial) hv.2 h
    | some w =>
      rw [hg] at h
      cases w with
      | leaf l' => exact ih hm hv.2 h
      | sub c =>
        cases c with
        | nil =>
          simp only at h
          cases hx : l.create size stack with
          | error e => rw [hx] at h; cases h
          | ok x =>
            rw [hx] at h
            exact ih (m := m.set key (.leaf x)) (B.wf_set hm trivial) hv.2 h
        | leaf _ _ _ => exact ih hm hv.2 h
        | sub _ _ _ => exact ih hm hv.2 h
  | sub key c rest ihc ih =>
    rw [B.alloc] at h
    cases hg : m.get? key with
    | none =>
      rw [hg] at h
      simp only at h
      cases hx : c.create size stack with
      | error e => rw [hx] at h; cases h
      | ok x =>
        rw [hx] at h
        exact ih (m := m.set key (.sub x)) (B.wf_set hm ((B.create_more hx).2.1 hv.2.1)) hv.2.2 h
    | some w =>
      rw [hg] at h
      cases w with
      | leaf l' => exact ih hm hv.2.2 h
      | sub d =>
        simp only at h
        cases hx : d.alloc size stack c with
        | error e => rw [hx] at h; cases h
        | ok x =>
          rw [hx] at h
          have hd : d.WF := B.get?_wf hm hg
          exact ih (m := m.set key (.sub x)) (B.wf_set hm (ihc hd hv.2.1 hx)) hv.2.2 h

/-- No value meets a nested batch with entries: the batch `v` can be stored in `m` once its new keys are allocated. -/
def Compatible (m v : B) : Prop :=
  ∀ path, ((v.leafAt path).isSome → m.subAt path = none ∨ m.subAt path = some .nil) ∧
    ((v.subAt path).isSome → m.leafAt path = none)

theorem val_leafAt_none_of_sub {w : Val} {path : List String} (h : (w.subAt path).isSome) : w.leafAt path = none := by
  induction path generalizing w with
  | nil =>
    cases w with
    | leaf l => simp [Val.subAt] at h
    | sub b => simp [Val.leafAt, B.leafAt_nil]
  | cons k path ih =>
    cases w with
    | leaf l => simp [Val.subAt] at h
    | sub b =>
      simp only [Val.subAt, B.subAt_cons] at h
      simp only [Val.leafAt, B.leafAt_cons]
      cases hg : b.get? k with
      | none => rfl
      | some v => rw [hg] at h; exact ih h

/-- After allocation all old values are as before, the new ones are blank with `size` rows, and the batch fits. -/
theorem alloc_spec (size : Nat) (stack : Bool) (path : List String) {m v m' : B} (hv : v.WF) (hc : Compatible m v)
    (h : m.alloc size stack v = .ok m') :
    (∀ l, m.leafAt path = some l → m'.leafAt path = some l) ∧
    (∀ l, m.leafAt path = none → m'.leafAt path = some l → Rows size l.data ∧ Blank l.object l.data) ∧
    ((v.leafAt path).isSome → (m'.leafAt path).isSome) ∧ ((v.subAt path).isSome → (m'.subAt path).isSome) := by
  induction path generalizing m v m' with
  | nil => simp [B.leafAt_nil, B.subAt_nil]
  | cons k path ih =>
    have hk := alloc_get? hv h k
    simp only [B.leafAt_cons, B.subAt_cons]
    cases hvk : v.get? k with
    | none =>
      rw [hvk] at hk
      simp only [AllocKey] at hk
      rw [hk]
      simp only [Option.bind_none, Option.isSome_none, Bool.false_eq_true, false_implies, and_self, and_true]
      exact ⟨fun _ h => h, fun l h1 h2 => by rw [h1] at h2; cases h2⟩
    | some x =>
      rw [hvk] at hk
      cases hmk : m.get? k with
      | none =>
        rw [hmk] at hk
        simp only [AllocKey] at hk
        obtain ⟨y, hy, hm'⟩ := hk
        rw [hm']
        obtain ⟨c1, c2, c3⟩ := Val.create_spec hy
        simp only [Option.bind_none, Option.bind_some]
        refine ⟨by simp, ?_, ?_, ?_⟩
        · intro l _ hl
          exact ⟨Val.All.leafAt y c1 path l hl, (c3 path l hl).1⟩
        · intro hp; rw [c2]; exact hp
        · intro hp
          cases x with
          | leaf l => simp [Val.subAt] at hp
          | sub b =>
            rw [Val.create] at hy
            cases hb : b.create size stack with
            | error e => rw [hb] at hy; cases hy
            | ok b' =>
              rw [hb] at hy
              cases hy
              have := (B.create_more hb).2.2 path
              simp only [Val.subAt] at hp ⊢
              cases hs : b'.subAt path with
              | none => rw [hs] at this; cases hs' : b.subAt path with
                | none => rw [hs'] at hp; simp at hp
                | some _ => rw [hs'] at this; simp at this
              | some _ => rfl
      | some w =>
        rw [hmk] at hk
        have hc1 := hc [k]
        rw [B.leafAt_cons, B.leafAt_cons, B.subAt_cons, B.subAt_cons, hvk, hmk] at hc1
        simp only [Option.bind_some] at hc1
        cases x with
        | leaf l =>
          cases w with
          | leaf l' =>
            simp only [AllocKey] at hk
            rw [hk]
            simp only [Option.bind_some]
            refine ⟨fun _ h => h, fun l'' h1 h2 => (by rw [h1] at h2; cases h2), ?_, by simp [Val.subAt]⟩
            cases path <;> simp [Val.leafAt]
          | sub c =>
            have hcn : c = .nil := by
              have := hc1.1 (by simp [Val.leafAt])
              simpa [Val.subAt, B.subAt_nil] using this
            subst hcn
            simp only [AllocKey] at hk
            obtain ⟨y, hy, hm'⟩ := hk
            rw [hm']
            obtain ⟨c1, c2, c3⟩ := Val.create_spec (v := .leaf l) (h := .leaf y) (size := size) (stack := stack)
              (by rw [Val.create, hy]; rfl)
            simp only [Option.bind_some]
            refine ⟨?_, ?_, ?_, by simp [Val.subAt]⟩
            · intro l' hl'; cases path <;> simp [Val.leafAt, B.leafAt] at hl'
            · intro l' _ hl'
              exact ⟨Val.All.leafAt _ c1 path l' hl', (c3 path l' hl').1⟩
            · intro hp; rw [c2]; exact hp
        | sub b =>
          cases w with
          | leaf l' =>
            have := hc1.2 (by simp [Val.subAt, B.subAt_nil])
            simp [Val.leafAt] at this
          | sub c =>
            simp only [AllocKey] at hk
            obtain ⟨y, hy, hm'⟩ := hk
            rw [hm']
            have hcc : Compatible c b := by
              intro p
              have := hc (k :: p)
              rw [B.leafAt_cons, B.leafAt_cons, B.subAt_cons, B.subAt_cons, hvk, hmk] at this
              exact this
            simp only [Option.bind_some, Val.leafAt, Val.subAt]
            exact ih (B.get?_wf hv hvk) hcc hy

/-- Allocation adds no values but those of the batch. -/
theorem alloc_new (size : Nat) (stack : Bool) (path : List String) {m v m' : B} (hv : v.WF) (hc : Compatible m v)
    (h : m.alloc size stack v = .ok m') (hp : (m'.leafAt path).isSome) : (m.leafAt path).isSome ∨ (v.leafAt path).isSome := by
  induction path generalizing m v m' with
  | nil => rw [B.leafAt_nil] at hp; cases hp
  | cons k path ih =>
    have hk := alloc_get? hv h k
    simp only [B.leafAt_cons] at hp ⊢
    cases hvk : v.get? k with
    | none =>
      rw [hvk] at hk
      simp only [AllocKey] at hk
      rw [hk] at hp
      exact Or.inl hp
    | some x =>
      rw [hvk] at hk
      cases hmk : m.get? k with
      | none =>
        rw [hmk] at hk
        simp only [AllocKey] at hk
        obtain ⟨y, hy, hm'⟩ := hk
        rw [hm'] at hp
        right
        obtain ⟨_, c2, _⟩ := Val.create_spec hy
        simpa [c2] using hp
      | some w =>
        rw [hmk] at hk
        cases x with
        | leaf l =>
          cases w with
          | leaf l' =>
            simp only [AllocKey] at hk
            rw [hk] at hp
            exact Or.inl hp
          | sub c =>
            have hc1 := (hc [k]).1
            rw [B.leafAt_cons, B.subAt_cons, hvk, hmk] at hc1
            have hcn : c = .nil := by
              have := hc1 (by simp [Val.leafAt])
              simpa [Val.subAt, B.subAt_nil] using this
            subst hcn
            simp only [AllocKey] at hk
            obtain ⟨y, _, hm'⟩ := hk
            rw [hm'] at hp
            right
            cases path with
            | nil => rfl
            | cons _ _ => simp [Val.leafAt] at hp
        | sub b =>
          cases w with
          | leaf l' =>
            have hc1 := (hc [k]).2
            rw [B.leafAt_cons, B.subAt_cons, hvk, hmk] at hc1
            have := hc1 (by simp [Val.subAt, B.subAt_nil])
            simp [Val.leafAt] at this
          | sub c =>
            simp only [AllocKey] at hk
            obtain ⟨y, hy, hm'⟩ := hk
            rw [hm'] at hp
            have hcc : Compatible c b := by
              intro p
              have := hc (k :: p)
              rw [B.leafAt_cons, B.leafAt_cons, B.subAt_cons, B.subAt_cons, hvk, hmk] at this
              exact this
            exact ih (B.get?_wf hv hvk) hcc hy hp

end Verif.Batch
