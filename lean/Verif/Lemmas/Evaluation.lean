import Verif.Lemmas.Logger
import Verif.Spec.Evaluation

/-!
Lemmas for reading logged data: the dictionaries that are read have no empty dictionaries in them and no key twice, and what the paths in
the log tell about the keys in them.
-/

namespace Verif.Evaluation

open Verif.Logger

variable {V : Type}

/-- No empty dictionaries, no key twice. -/
inductive Solid : Tree V → Prop
  | leaf (vs : List V) : Solid (.leaf vs)
  | node (kids : List (Str × Tree V)) : kids ≠ [] → (kids.map (·.1)).Nodup → (∀ kv ∈ kids, Solid kv.2) → Solid (.node kids)

/-- The same for the entries of a dictionary, which may be empty. -/
def SolidAll (d : List (Str × Tree V)) : Prop := (d.map (·.1)).Nodup ∧ ∀ kv ∈ d, Solid kv.2

theorem assign_ne_nil {A B : Type} [DecidableEq A] (k : A) (v : B) (l : List (A × B)) : assign k v l ≠ [] := by
  cases l with
  | nil => simp [assign]
  | cons a l => simp only [assign]; split_ifs <;> simp

theorem mem_assign {A B : Type} [DecidableEq A] (k : A) (v : B) (l : List (A × B)) :
    ∀ x ∈ assign k v l, x = (k, v) ∨ x ∈ l := by
  induction l with
  | nil => intro x hx; simp [assign] at hx; exact Or.inl hx
  | cons a l ih =>
    intro x hx
    simp only [assign] at hx
    split_ifs at hx with h
    · rcases List.mem_cons.1 hx with h | h
      · exact Or.inl h
      · exact Or.inr (List.mem_cons_of_mem _ h)
    · rcases List.mem_cons.1 hx with h | h
      · exact Or.inr (h ▸ List.mem_cons_self ..)
      · rcases ih x h with h | h
        · exact Or.inl h
        · exact Or.inr (List.mem_cons_of_mem _ h)

theorem mem_keys_assign {A B : Type} [DecidableEq A] (k : A) (v : B) (l : List (A × B)) :
    ∀ x ∈ (assign k v l).map (·.1), x = k ∨ x ∈ l.map (·.1) := by
  intro x hx
  obtain ⟨y, hy, rfl⟩ := List.mem_map.1 hx
  rcases mem_assign k v l y hy with h | h
  · left; rw [h]
  · exact Or.inr (List.mem_map_of_mem h)

theorem assign_nodup {A B : Type} [DecidableEq A] (k : A) (v : B) (l : List (A × B)) (h : (l.map (·.1)).Nodup) :
    ((assign k v l).map (·.1)).Nodup := by
  induction l with
  | nil => simp [assign]
  | cons a l ih =>
    rw [List.map_cons, List.nodup_cons] at h
    simp only [assign]
    split_ifs with e
    · rw [List.map_cons, List.nodup_cons]
      exact ⟨by rw [← e]; exact h.1, h.2⟩
    · rw [List.map_cons, List.nodup_cons]
      refine ⟨?_, ih h.2⟩
      intro hm
      rcases mem_keys_assign k v l _ hm with h' | h'
      · exact e h'
      · exact h.1 h'

theorem find_mem {A B : Type} [DecidableEq A] (k : A) (v : B) (l : List (A × B)) (h : find k l = some v) : (k, v) ∈ l := by
  induction l with
  | nil => simp [find] at h
  | cons a l ih =>
    obtain ⟨a1, a2⟩ := a
    simp only [find] at h
    split_ifs at h with e
    · simp only [Option.some.injEq] at h
      rw [e, h]; exact List.mem_cons_self ..
    · exact List.mem_cons_of_mem _ (ih h)

theorem find_of_mem {A B : Type} [DecidableEq A] (k : A) (v : B) (l : List (A × B)) (hn : (l.map (·.1)).Nodup) (h : (k, v) ∈ l) :
    find k l = some v := by
  induction l with
  | nil => simp at h
  | cons a l ih =>
    obtain ⟨a1, a2⟩ := a
    rw [List.map_cons, List.nodup_cons] at hn
    rcases List.mem_cons.1 h with h | h
    · simp only [Prod.mk.injEq] at h
      simp [find, h.1, h.2]
    · have : a1 ≠ k := by
        rintro rfl
        exact hn.1 (List.mem_map.2 ⟨_, h, rfl⟩)
      simp only [find, if_neg this]
      exact ih hn.2 h

theorem SolidAll.assign {d : List (Str × Tree V)} (h : SolidAll d) (k : Str) (t : Tree V) (ht : Solid t) :
    SolidAll (assign k t d) := by
  refine ⟨assign_nodup _ _ _ h.1, ?_⟩
  intro x hx
  rcases mem_assign k t d x hx with h' | h'
  · rw [h']; exact ht
  · exact h.2 x h'

theorem addPath_solid (vs : List V) (p : List Str) (d d' : List (Str × Tree V)) (h : SolidAll d) (hp : p ≠ [])
    (e : addPath vs p d = some d') : SolidAll d' ∧ d' ≠ [] := by
  induction p generalizing d d' with
  | nil => exact absurd rfl hp
  | cons k p ih =>
    cases p with
    | nil =>
      simp only [addPath, Option.some.injEq] at e
      subst e
      exact ⟨h.assign k _ (.leaf vs), assign_ne_nil _ _ _⟩
    | cons k' p =>
      simp only [addPath] at e
      split at e
      · obtain ⟨sub, hs, rfl⟩ := Option.map_eq_some_iff.1 e
        have := ih [] sub ⟨by simp, by simp⟩ (by simp) hs
        exact ⟨h.assign k _ (.node _ this.2 this.1.1 this.1.2), assign_ne_nil _ _ _⟩
      · next sub0 hf =>
        obtain ⟨sub, hs, rfl⟩ := Option.map_eq_some_iff.1 e
        have hsub : Solid (.node sub0) := h.2 _ (find_mem _ _ _ hf)
        cases hsub with
        | node _ _ h1 h2 =>
          have := ih sub0 sub ⟨h1, h2⟩ (by simp) hs
          exact ⟨h.assign k _ (.node _ this.2 this.1.1 this.1.2), assign_ne_nil _ _ _⟩
      · simp at e

theorem split_ne_nil (s : Str) : split s ≠ [] := by
  induction s with
  | nil => simp [split]
  | cons c s ih =>
    simp only [split]
    split_ifs
    · simp
    · split <;> simp

theorem addTags_solid (file : List (Event V)) (ts : List Str) (d d' : List (Str × Tree V)) (h : SolidAll d)
    (e : addTags file ts d = some d') : SolidAll d' := by
  induction ts generalizing d with
  | nil =>
    simp only [addTags, Option.some.injEq] at e
    exact e ▸ h
  | cons t ts ih =>
    simp only [addTags] at e
    obtain ⟨d1, h1, h2⟩ := Option.bind_eq_some_iff.1 e
    exact ih d1 (addPath_solid _ _ _ _ h (split_ne_nil t) h1).1 h2

theorem restoreLogged_solid (file : List (Event V)) (d : List (Str × Tree V)) (e : restoreLogged file = some d) : SolidAll d :=
  addTags_solid file _ [] d ⟨by simp, by simp⟩ e

/-- Every key of a solid dictionary leads to an array. -/
theorem Solid.path {t : Tree V} (h : Solid t) (k : Str) (d : List (Str × Tree V)) (hf : find k d = some t) :
    ∃ p, (treeAt d (k :: p)).isSome := by
  induction h generalizing k d with
  | leaf vs => exact ⟨[], by simp [treeAt, hf]⟩
  | node kids h1 h2 _ ih =>
    cases kids with
    | nil => exact absurd rfl h1
    | cons a kids =>
      obtain ⟨p, hp⟩ := ih a (List.mem_cons_self ..) a.1 (a :: kids) (by obtain ⟨a1, a2⟩ := a; simp [find])
      exact ⟨a.1 :: p, by simpa [treeAt, hf] using hp⟩

/-- A key on the path to an array below it is a key of a dictionary. -/
theorem treeAt_node {d : List (Str × Tree V)} {k k' : Str} {p : List Str} (h : (treeAt d (k :: k' :: p)).isSome) :
    ∃ kids, find k d = some (.node kids) ∧ treeAt kids (k' :: p) = treeAt d (k :: k' :: p) := by
  simp only [treeAt] at h ⊢
  cases hf : find k d with
  | none => rw [hf] at h; simp at h
  | some t =>
    rw [hf] at h
    cases t with
    | leaf vs => simp at h
    | node kids => exact ⟨kids, rfl, rfl⟩

theorem treeAt_leaf {d : List (Str × Tree V)} {k : Str} {vs : List V} (h : treeAt d [k] = some vs) : find k d = some (.leaf vs) := by
  simp only [treeAt] at h
  cases hf : find k d with
  | none => rw [hf] at h; simp at h
  | some t =>
    rw [hf] at h
    cases t with
    | leaf ws => simp at h; rw [h]
    | node kids => simp at h

theorem treeAt_sub {d kids : List (Str × Tree V)} {k : Str} (h : find k d = some (.node kids)) (p : List Str) (hp : p ≠ []) :
    treeAt d (k :: p) = treeAt kids p := by
  cases p with
  | nil => exact absurd rfl hp
  | cons a p => simp only [treeAt, h]

theorem find_head {d : List (Str × Tree V)} {k : Str} {p : List Str} (h : (treeAt d (k :: p)).isSome) : ∃ t, find k d = some t := by
  cases p with
  | nil =>
    obtain ⟨vs, hv⟩ := Option.isSome_iff_exists.1 h
    exact ⟨_, treeAt_leaf hv⟩
  | cons a p =>
    obtain ⟨kids, hk, _⟩ := treeAt_node h
    exact ⟨_, hk⟩

/-- What `from_data_dict` makes of a dictionary with nothing but fields, all of which can be converted. -/
theorem mapM_convert (d : List (Str × Tree V)) (h : ∀ kv ∈ d, (convert kv).isSome) :
    ∃ fs, fromDataDict d = some fs ∧ ∀ k, find k fs = (find k d).bind fun t => (convert (k, t)).map (·.2) := by
  unfold fromDataDict
  induction d with
  | nil => exact ⟨[], rfl, fun k => rfl⟩
  | cons a d ih =>
    obtain ⟨fs, h1, h2⟩ := ih fun kv hkv => h kv (List.mem_cons_of_mem _ hkv)
    obtain ⟨f, hf⟩ := Option.isSome_iff_exists.1 (h a (List.mem_cons_self ..))
    refine ⟨f :: fs, ?_, ?_⟩
    · rw [List.mapM_cons, hf, h1]; rfl
    · intro k
      have hk : f.1 = a.1 := by
        simp only [convert] at hf
        split_ifs at hf
        split at hf
        · simp only [Option.some.injEq] at hf; rw [← hf]
        · obtain ⟨x, _, rfl⟩ := Option.map_eq_some_iff.1 hf; rfl
      obtain ⟨f1, f2⟩ := f
      obtain ⟨a1, a2⟩ := a
      simp only at hk
      subst hk
      simp only [find]
      by_cases e : f1 = k
      · subst e
        simp [hf]
      · rw [if_neg e, if_neg e]
        exact h2 k

theorem mapM_unknown (d : List (Str × Tree V)) (kv : Str × Tree V) (h : kv ∈ d) (hk : kv.1 ∉ fieldNames) : fromDataDict d = none := by
  unfold fromDataDict
  induction d with
  | nil => simp at h
  | cons a d ih =>
    rw [List.mapM_cons]
    rcases List.mem_cons.1 h with h | h
    · subst h
      simp [convert, hk]
    · rw [ih h]
      cases convert a <;> rfl

/-! ### Statistics in logs -/

theorem toDigits_inj {i j : Nat} (h : Nat.toDigits 10 i = Nat.toDigits 10 j) : i = j := by
  have := congrArg (fun l => Nat.ofDigitChars 10 l 0) h
  simpa [Nat.ofDigitChars_ten_toDigits] using this

theorem goodKey_digits (i : Nat) : GoodKey (Nat.toDigits 10 i) := by
  refine ⟨Nat.toDigits_ne_nil, ?_⟩
  intro h
  have := Nat.isDigit_of_mem_toDigits (by decide) (by decide) h
  revert this
  decide

theorem Summary.dict_good (s : Summary V) : s.dict.Good := by
  simp only [Summary.dict, Dict.Good, Val.Good, Dict.keys]
  refine ⟨?_, ?_, trivial, ?_, ?_, trivial, ?_, ?_, trivial, ?_, ?_, trivial, trivial⟩ <;>
    first | (unfold GoodKey; decide) | decide

theorem dimsDict_keys (l : List (Summary V)) (i : Nat) : ∀ k ∈ (dimsDict i l).keys, ∃ j, i ≤ j ∧ k = Nat.toDigits 10 j := by
  induction l generalizing i with
  | nil => simp [dimsDict, Dict.keys]
  | cons s l ih =>
    intro k hk
    simp only [dimsDict, Dict.keys, List.mem_cons] at hk
    rcases hk with h | h
    · exact ⟨i, le_refl _, h⟩
    · obtain ⟨j, hj, e⟩ := ih (i + 1) k h
      exact ⟨j, by omega, e⟩

theorem dimsDict_good (l : List (Summary V)) (i : Nat) : (dimsDict i l).Good := by
  induction l generalizing i with
  | nil => trivial
  | cons s l ih =>
    refine ⟨goodKey_digits i, ?_, s.dict_good, ih (i + 1)⟩
    intro h
    obtain ⟨j, hj, e⟩ := dimsDict_keys l (i + 1) _ h
    have := toDigits_inj e
    omega

theorem Stats.dict_good (s : Stats V) : s.dict.Good := by
  cases h : s.stds with
  | none =>
    simp only [Stats.dict, h, Dict.Good, Val.Good, Dict.keys]
    refine ⟨?_, ?_, trivial, ?_, ?_, trivial, ?_, ?_, trivial, ?_, ?_, trivial, ?_, ?_, trivial, ?_, ?_, s.returns.dict_good, ?_, ?_,
      trivial, ?_, ?_, s.lens.dict_good, ?_, ?_, trivial, ?_, ?_, trivial, trivial⟩ <;>
      first | (unfold GoodKey; decide +kernel) | decide +kernel
  | some l =>
    simp only [Stats.dict, h, Dict.Good, Val.Good, Dict.keys]
    refine ⟨?_, ?_, trivial, ?_, ?_, trivial, ?_, ?_, trivial, ?_, ?_, trivial, ?_, ?_, trivial, ?_, ?_, s.returns.dict_good, ?_, ?_,
      trivial, ?_, ?_, s.lens.dict_good, ?_, ?_, trivial, ?_, ?_, dimsDict_good l 0, trivial⟩ <;>
      first | (unfold GoodKey; decide +kernel) | decide +kernel

/-- The paths of the numbers in a summary. -/
theorem Summary.at?_shape (s : Summary V) (p : List Str) (h : (s.dict.at? p).isSome) :
    ∃ m ∈ [wMean, wStd, wMax, wMin], p = [m] := by
  match p with
  | [] => simp [Summary.dict, Dict.at?] at h
  | a :: p =>
    simp only [Summary.dict, Dict.at?] at h
    have key : ∀ v : V, (Val.at? (.num v) p).isSome → p = [] := by
      intro v hv
      cases p with
      | nil => rfl
      | cons b p => simp [Val.at?] at hv
    split_ifs at h with h1 h2 h3 h4
    · exact ⟨a, by simp [h1], by rw [key _ h]⟩
    · exact ⟨a, by simp [h2], by rw [key _ h]⟩
    · exact ⟨a, by simp [h3], by rw [key _ h]⟩
    · exact ⟨a, by simp [h4], by rw [key _ h]⟩
    · simp at h

theorem dimsDict_shape (l : List (Summary V)) (i : Nat) (p : List Str) (h : ((dimsDict i l).at? p).isSome) :
    ∃ k, ∃ m ∈ [wMean, wStd, wMax, wMin], p = [k, m] := by
  induction l generalizing i with
  | nil => cases p <;> simp [dimsDict, Dict.at?] at h
  | cons s l ih =>
    match p with
    | [] => simp [dimsDict, Dict.at?] at h
    | a :: p =>
      simp only [dimsDict, Dict.at?] at h
      split_ifs at h with h1
      · simp only [Val.at?] at h
        obtain ⟨m, hm, e⟩ := s.at?_shape p h
        exact ⟨a, m, hm, by rw [e]⟩
      · exact ih (i + 1) h

/-- The paths of the numbers in the statistics of episodes. -/
inductive Shape (dist : Prop) : List Str → Prop
  | num (k : Str) : k ∈ [wEpisodes, wSteps, wTime, wSpeed] → Shape dist [k]
  | sum (k m : Str) : k ∈ [wReturnsStat, wLensStat] → m ∈ [wMean, wStd, wMax, wMin] → Shape dist [k, m]
  | dim (k m : Str) : dist → m ∈ [wMean, wStd, wMax, wMin] → Shape dist [wStdsStat, k, m]

theorem Stats.at?_shape (s : Stats V) (p : List Str) (h : (s.dict.at? p).isSome) : Shape (s.stds.isSome = true) p := by
  match p with
  | [] => simp [Stats.dict, Dict.at?] at h
  | a :: p =>
    simp only [Stats.dict, Dict.at?] at h
    have key : ∀ v : V, (Val.at? (.num v) p).isSome → p = [] := by
      intro v hv
      cases p with
      | nil => rfl
      | cons b p => simp [Val.at?] at hv
    have karr : ¬ (Val.at? (.arr : Val V) p).isSome := by simp [Val.at?]
    have koth : ¬ (Val.at? (.other : Val V) p).isSome := by simp [Val.at?]
    split_ifs at h with h1 h2 h3 h4 h5 h6 h7 h8
    · rw [key _ h]; exact .num a (by simp [h1])
    · rw [key _ h]; exact .num a (by simp [h2])
    · rw [key _ h]; exact .num a (by simp [h3])
    · rw [key _ h]; exact .num a (by simp [h4])
    · exact absurd h karr
    · simp only [Val.at?] at h
      obtain ⟨m, hm, e⟩ := s.returns.at?_shape p h
      rw [e]; exact .sum a m (by simp [h6]) hm
    · exact absurd h karr
    · simp only [Val.at?] at h
      obtain ⟨m, hm, e⟩ := s.lens.at?_shape p h
      rw [e]; exact .sum a m (by simp [h8]) hm
    · cases hs : s.stds with
      | none =>
        simp only [hs, Dict.at?] at h
        split_ifs at h with h9 h10
        · exact absurd h koth
        · exact absurd h koth
        · simp at h
      | some l =>
        simp only [hs, Dict.at?] at h
        split_ifs at h with h9 h10
        · exact absurd h karr
        · simp only [Val.at?] at h
          obtain ⟨k, m, hm, e⟩ := dimsDict_shape l 0 p h
          rw [e, ← h10]; exact .dim k m rfl hm
        · simp at h

theorem Shape.mono {P Q : Prop} (h : P → Q) {p : List Str} (hp : Shape P p) : Shape Q p := by
  cases hp with
  | num k hk => exact .num k hk
  | sum k m hk hm => exact .sum k m hk hm
  | dim k m hd hm => exact .dim k m (h hd) hm

theorem Shape.prefix {P Q : Prop} {p q : List Str} (hp : Shape P p) (hq : Shape Q q) (h : p <+: q) : p = q := by
  have disj : ∀ k, k ∈ [wEpisodes, wSteps, wTime, wSpeed] → k ∉ [wReturnsStat, wLensStat] ∧ k ≠ wStdsStat := by decide +kernel
  have disj' : ∀ k, k ∈ [wReturnsStat, wLensStat] → k ≠ wStdsStat := by decide +kernel
  cases hp with
  | num k hk =>
    cases hq with
    | num k' hk' => exact h.eq_of_length rfl
    | sum k' m hk' hm =>
      have e : k = k' := by simpa using h
      exact absurd (e ▸ hk') (disj k hk).1
    | dim k' m hd hm =>
      have e : k = wStdsStat := by simpa using h
      exact absurd e (disj k hk).2
  | sum k m hk hm =>
    cases hq with
    | num k' hk' => have := h.length_le; simp at this
    | sum k' m hk' hm => exact h.eq_of_length rfl
    | dim k' m' hd hm' =>
      have e : k = wStdsStat ∧ m = k' := by simpa using h
      exact absurd e.1 (disj' k hk)
  | dim k m hd hm =>
    cases hq with
    | num k' hk' => have := h.length_le; simp at this
    | sum k' m hk' hm => have := h.length_le; simp at this
    | dim k' m' hd hm' => exact h.eq_of_length rfl

theorem Shape.ne_env {P : Prop} {p : List Str} (h : Shape P p) (q : List Str) : ¬ ([wEnvStep] <+: p) ∧ p ≠ wEnvStep :: q := by
  have e1 : wEnvStep ∉ [wEpisodes, wSteps, wTime, wSpeed] := by decide +kernel
  have e2 : wEnvStep ∉ [wReturnsStat, wLensStat] := by decide +kernel
  have e3 : wStdsStat ≠ wEnvStep := by decide +kernel
  cases h with
  | num k hk =>
    have : k ≠ wEnvStep := fun e => e1 (e ▸ hk)
    simp [this, Ne.symm this]
  | sum k m hk hm =>
    have : k ≠ wEnvStep := fun e => e2 (e ▸ hk)
    simp [this, Ne.symm this]
  | dim k m hd hm => simp [e3, e3.symm]

variable [IntCast V]

theorem Item.stats_write (it : Item V) (b : Bool) (x : Int × Stats V) (h : it.stats b = some x) :
    it.write = ⟨scopeName b, wEnvStep, x.1, x.2.dict⟩ := by
  cases it with
  | train y s =>
    cases b with
    | false => simp only [Item.stats, Bool.false_eq_true, if_false, Option.some.injEq] at h; subst h; rfl
    | true => simp [Item.stats] at h
  | test y s =>
    cases b with
    | false => simp [Item.stats] at h
    | true => simp only [Item.stats, if_true, Option.some.injEq] at h; subst h; rfl
  | other w => simp [Item.stats] at h

theorem scopeName_good (b : Bool) : GoodKey (scopeName b) := by
  cases b <;> (unfold GoodKey; decide +kernel)

theorem scopeName_inj : ∀ b b', scopeName b = scopeName b' → b = b' := by decide +kernel

/-- Each call is one of statistics or another one. -/
theorem Item.cases' (it : Item V) : (∃ b x, it.stats b = some x) ∨ ∃ w, it = .other w := by
  cases it with
  | train y s => exact Or.inl ⟨false, (y, s), rfl⟩
  | test y s => exact Or.inl ⟨true, (y, s), rfl⟩
  | other w => exact Or.inr ⟨w, rfl⟩

theorem Item.write_good (log : List (Item V)) (h : LogOk log) (it : Item V) (hi : it ∈ log) : it.write.Good := by
  rcases it.cases' with ⟨b, x, hx⟩ | ⟨w, rfl⟩
  · rw [it.stats_write b x hx]
    refine ⟨scopeName_good b, by show GoodKey wEnvStep; unfold GoodKey; decide +kernel, x.2.dict_good, ?_⟩
    by_contra hne
    exact ((x.2.at?_shape _ (Option.isSome_iff_ne_none.2 hne)).ne_env []).2 rfl
  · exact (h.good w hi).1

/-- The paths at which a call records something begin with its scope. -/
theorem Write.at?_scope (w : Write V) (p : List Str) (h : (w.at? p).isSome) : ∃ q, p = w.scope :: q := by
  simp only [Write.at?] at h
  split_ifs at h with e
  · exact ⟨_, e⟩
  · split at h
    · next s q =>
      split_ifs at h with e
      · exact ⟨q, by rw [e]⟩
      · simp at h
    · simp at h

/-- What a call of statistics records. -/
theorem stats_at? (b : Bool) (x : Int × Stats V) (q : List Str) :
    (Write.mk (scopeName b) wEnvStep x.1 x.2.dict).at? (scopeName b :: q) =
      if q = [wEnvStep] then some (x.1 : V) else x.2.dict.at? q := by
  simp [Write.at?]

theorem stats_prefix (b : Bool) (x y : Int × Stats V) (q r : List Str)
    (h1 : ((Write.mk (scopeName b) wEnvStep x.1 x.2.dict).at? (scopeName b :: q)).isSome)
    (h2 : ((Write.mk (scopeName b) wEnvStep y.1 y.2.dict).at? (scopeName b :: r)).isSome) (h : q <+: r) : q = r := by
  rw [stats_at?] at h1 h2
  split_ifs at h1 h2 with e1 e2 e3
  · rw [e1, e2]
  · rw [e1] at h
    exact absurd h ((y.2.at?_shape _ h2).ne_env []).1
  · have hs := x.2.at?_shape _ h1
    rw [e3] at h
    have : q = [] ∨ q = [wEnvStep] := by
      cases q with
      | nil => exact Or.inl rfl
      | cons a q =>
        have := h.length_le
        simp only [List.length_cons, List.length_nil] at this
        exact Or.inr (h.eq_of_length (by simp only [List.length_cons, List.length_nil]; omega))
    rcases this with e | e
    · rw [e] at hs; cases hs
    · exact absurd e e1
  · exact (x.2.at?_shape _ h1).prefix (y.2.at?_shape _ h2) h

theorem log_prefix (log : List (Item V)) (h : LogOk log) : ∀ w ∈ log.map Item.write, ∀ w' ∈ log.map Item.write, ∀ p q,
    (w.at? p).isSome → (w'.at? q).isSome → p <+: q → p = q := by
  intro w hw w' hw' p q h1 h2 hpq
  obtain ⟨it, hit, rfl⟩ := List.mem_map.1 hw
  obtain ⟨it', hit', rfl⟩ := List.mem_map.1 hw'
  obtain ⟨p', rfl⟩ := Write.at?_scope _ _ h1
  obtain ⟨q', rfl⟩ := Write.at?_scope _ _ h2
  obtain ⟨hs, hpq'⟩ : it.write.scope = it'.write.scope ∧ p' <+: q' := by simpa using hpq
  have hother : ∀ w b, Item.other w ∈ log → w.scope ≠ scopeName b := by
    intro w b hw
    cases b
    · exact (h.good w hw).2.1
    · exact (h.good w hw).2.2
  rcases it.cases' with ⟨b, x, hx⟩ | ⟨w, rfl⟩
  · rw [it.stats_write b x hx] at h1 hs ⊢
    rcases it'.cases' with ⟨b', y, hy⟩ | ⟨w', rfl⟩
    · rw [it'.stats_write b' y hy] at h2 hs ⊢
      have := scopeName_inj _ _ hs
      subst this
      rw [stats_prefix b x y p' q' h1 h2 hpq']
    · exact absurd hs.symm (hother w' b hit')
  · rcases it'.cases' with ⟨b', y, hy⟩ | ⟨w', rfl⟩
    · rw [it'.stats_write b' y hy] at hs
      exact absurd hs (hother w b' hit)
    · exact h.free w w' hit hit' _ _ h1 h2 hpq

/-- The values a run has recorded at a path of a scope. -/
theorem log_values (log : List (Item V)) (h : LogOk log) (b : Bool) (q : List Str) :
    (log.map Item.write).filterMap (fun w => w.at? (scopeName b :: q)) =
      (points b log).filterMap fun x => if q = [wEnvStep] then some (x.1 : V) else x.2.dict.at? q := by
  have hother : ∀ w, Item.other w ∈ log → w.scope ≠ scopeName b := by
    intro w hw
    cases b
    · exact (h.good w hw).2.1
    · exact (h.good w hw).2.2
  have : ∀ l : List (Item V), (∀ it ∈ l, it ∈ log) → (l.map Item.write).filterMap (fun w => w.at? (scopeName b :: q)) =
      (points b l).filterMap fun x => if q = [wEnvStep] then some (x.1 : V) else x.2.dict.at? q := by
    intro l
    induction l with
    | nil => intro _; rfl
    | cons it l ih =>
      intro hl
      have ih := ih fun it' h' => hl it' (List.mem_cons_of_mem _ h')
      have hcons : List.filterMap (fun w : Write V => w.at? (scopeName b :: q)) (it.write :: l.map Item.write) =
          (it.write.at? (scopeName b :: q)).toList ++ (l.map Item.write).filterMap (fun w => w.at? (scopeName b :: q)) := by
        rw [List.filterMap_cons]
        cases it.write.at? (scopeName b :: q) <;> rfl
      rw [List.map_cons, hcons, ih]
      unfold points
      rw [List.filterMap_cons]
      cases hs : it.stats b with
      | some x =>
        simp only
        rw [List.filterMap_cons, it.stats_write b x hs, stats_at?]
        cases (if q = [wEnvStep] then some (x.1 : V) else x.2.dict.at? q) <;> rfl
      | none =>
        have : it.write.at? (scopeName b :: q) = none := by
          by_contra hne
          obtain ⟨q', e⟩ := Write.at?_scope _ _ (Option.isSome_iff_ne_none.2 hne)
          simp only [List.cons.injEq] at e
          rcases it.cases' with ⟨b', x, hx⟩ | ⟨w, rfl⟩
          · rw [it.stats_write b' x hx] at e
            have := scopeName_inj _ _ e.1
            subst this
            rw [hs] at hx
            simp at hx
          · exact hother w (hl _ (List.mem_cons_self ..)) e.1.symm
        rw [this]
        simp
  exact this log fun _ h => h

end Verif.Evaluation
