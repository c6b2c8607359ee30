import Verif.Lemmas.BatchOps
import Verif.Props.Batch

/-! Properties C173-C177, C180: concatenating onto a batch, iterating, dropping, emptying, setting and allocating. -/

namespace Verif.Batch

/-! ### C173: concatenating and stacking onto a batch -/

theorem mergeKeyInto_none (size : Nat) (st : Bool) (places : List Index) (shared : List Val → Except Err Val)
    (vs : List (Option Val)) : mergeKeyInto none size st places shared vs = mergeKey size st places shared vs := rfl

theorem mergeKeyInto_complete (own : Option Val) (size : Nat) (st : Bool) (places : List Index) (shared : List Val → Except Err Val)
    (vs : List (Option Val)) (h : (∀ v ∈ vs, (full v).isSome) ∨ ∀ v ∈ vs, full v = none) :
    mergeKeyInto own size st places shared vs = mergeKey size st places shared vs := by
  unfold mergeKeyInto mergeKey
  rcases h with h | h
  · have : ∃ fs, (vs.map full).mapM id = some fs := by
      clear places
      induction vs with
      | nil => exact ⟨[], rfl⟩
      | cons v vs ih =>
        obtain ⟨fs, hfs⟩ := ih fun w hw => h w (by simp [hw])
        obtain ⟨x, hx⟩ := Option.isSome_iff_exists.mp (h v (by simp))
        exact ⟨x :: fs, by rw [List.map_cons, List.mapM_cons, hfs, hx]; rfl⟩
    obtain ⟨fs, hfs⟩ := this
    rw [hfs]
  · have : (vs.map full).all Option.isNone := by
      rw [List.all_eq_true]
      intro v hv
      obtain ⟨w, hw, rfl⟩ := List.mem_map.mp hv
      rw [h w hw]; rfl
    cases (vs.map full).mapM id with
    | some fs => rfl
    | none => simp only; rw [if_pos this, if_pos this]

/-- `x.cat_(ys)` makes `x` the concatenation of `x` and `ys`, and `x.stack_(ys)` makes it the stack. -/
def C173 : Prop :=
  (∀ (x : B) (ys : List B) (n : Nat), x.WF → (∀ y ∈ ys, y.WF) → x.len = .ok n → 0 < n →
    ∀ r, cat (x :: ys) = .ok r → ∃ r', catInto x ys = .ok r' ∧ SameData r r') ∧
  (∀ (x : B) (ys : List B), x.WF → (∀ y ∈ ys, y.WF) → x.keys ≠ [] → (∃ y ∈ ys, y.keys ≠ []) →
    ∀ r, stack (x :: ys) = .ok r → ∃ r', stackInto x ys = .ok r' ∧ SameData r r')

/-- The key `a` of the batch is reserved (an empty batch) in the batch to be appended: it keeps its two rows while `c` gets
three, whereas `Batch.cat` pads it. -/
theorem C173_cat_violated : ¬ C173 := by
  rintro ⟨h, _⟩
  obtain ⟨r', hr', hs⟩ := h (.leaf "a" ⟨false, .arr [.num 1, .num 2]⟩ (.leaf "c" ⟨false, .arr [.num 1, .num 2]⟩ .nil))
    [.sub "a" .nil (.leaf "c" ⟨false, .arr [.num 3]⟩ .nil)] 2 (by simp [B.WF, B.keys]) (by simp [B.WF, B.keys]) rfl (by decide)
    (.leaf "a" ⟨false, .arr [.num 1, .num 2, .num 0]⟩ (.leaf "c" ⟨false, .arr [.num 1, .num 2, .num 3]⟩ .nil)) rfl
  have h2 : catInto (.leaf "a" ⟨false, .arr [.num 1, .num 2]⟩ (.leaf "c" ⟨false, .arr [.num 1, .num 2]⟩ .nil))
    [.sub "a" .nil (.leaf "c" ⟨false, .arr [.num 3]⟩ .nil)] =
    .ok (.leaf "a" ⟨false, .arr [.num 1, .num 2]⟩ (.leaf "c" ⟨false, .arr [.num 1, .num 2, .num 3]⟩ .nil)) := rfl
  rw [h2] at hr'
  cases hr'
  have := hs ["a"]
  simp [B.leafAt] at this

/-- A reserved key of the batch cannot be filled by appending. -/
theorem C173_reserved_violated : catInto (.sub "a" .nil (.leaf "c" ⟨false, .arr [.num 1, .num 2]⟩ .nil))
      [.leaf "a" ⟨false, .arr [.num 7]⟩ (.leaf "c" ⟨false, .arr [.num 3]⟩ .nil)] = .error .valueError ∧
    cat [.sub "a" .nil (.leaf "c" ⟨false, .arr [.num 1, .num 2]⟩ .nil),
      .leaf "a" ⟨false, .arr [.num 7]⟩ (.leaf "c" ⟨false, .arr [.num 3]⟩ .nil)] =
    .ok (.leaf "a" ⟨false, .arr [.num 0, .num 0, .num 7]⟩ (.leaf "c" ⟨false, .arr [.num 1, .num 2, .num 3]⟩ .nil)) := ⟨rfl, rfl⟩

/-- Stacking onto a row with a key that the other batch does not have fails, although `Batch.stack` pads it. -/
theorem C173_stack_violated : stackInto (.leaf "a" ⟨false, .num 1⟩ (.leaf "c" ⟨false, .num 2⟩ .nil))
      [.leaf "c" ⟨false, .num 3⟩ .nil] = .error .indexError ∧
    stack [.leaf "a" ⟨false, .num 1⟩ (.leaf "c" ⟨false, .num 2⟩ .nil), .leaf "c" ⟨false, .num 3⟩ .nil] =
    .ok (.leaf "a" ⟨false, .arr [.num 1, .num 0]⟩ (.leaf "c" ⟨false, .arr [.num 2, .num 3]⟩ .nil)) := ⟨rfl, rfl⟩

theorem build_congr {f g : String → Except Err Val} {ks : List String} (h : ∀ k ∈ ks, f k = g k) : build f ks = build g ks := by
  induction ks with
  | nil => rfl
  | cons k ks ih => rw [build, build, h k (by simp), ih fun k' hk' => h k' (by simp [hk'])]

/-- A key is complete if all batches have a value or a non-empty nested batch there, or none has. -/
def CompleteKey (k : String) (bs : List B) : Prop :=
  (∀ b ∈ bs, ∃ v, b.get? k = some v ∧ v ≠ .sub .nil) ∨ ∀ b ∈ bs, b.get? k = none ∨ b.get? k = some (.sub .nil)

theorem CompleteKey.full {k : String} {bs : List B} (h : CompleteKey k bs) :
    (∀ v ∈ bs.map (B.get? k), (full v).isSome) ∨ ∀ v ∈ bs.map (B.get? k), full v = none := by
  rcases h with h | h
  · left
    intro v hv
    obtain ⟨b, hb, rfl⟩ := List.mem_map.mp hv
    obtain ⟨v, hv, hne⟩ := h b hb
    rw [hv]
    cases v with
    | leaf l => rfl
    | sub c =>
      cases c with
      | nil => simp at hne
      | leaf _ _ _ => rfl
      | sub _ _ _ => rfl
  · right
    intro v hv
    obtain ⟨b, hb, rfl⟩ := List.mem_map.mp hv
    rcases h b hb with h | h <;> rw [h] <;> rfl

/-- If every key of `x` is complete among the non-empty batches, `x.cat_(ys)` is `Batch.cat([x] + ys)`, exceptions
included. -/
theorem C173_cat_partial (x : B) (ys : List B) (n : Nat) (hn : x.len = .ok n) (hpos : 0 < n) (hys : ∃ y ∈ ys, y.keys ≠ [])
    (hc : ∀ k ∈ x.keys, CompleteKey k (x :: ys.filter fun y => y.keys ≠ [])) : catInto x ys = cat (x :: ys) := by
  have hx : x.keys ≠ [] := by
    intro hk
    rw [keys_eq_nil] at hk
    subst hk
    simp [B.len, B.lens, Except.map] at hn
    omega
  unfold catInto cat
  simp only [hn, bind, Except.bind]
  rw [List.filter_cons_of_pos (by simpa using hx)]
  cases hf : ys.filter fun y => y.keys ≠ [] with
  | nil =>
    obtain ⟨y, hy, hk⟩ := hys
    have : y ∈ ys.filter fun y => y.keys ≠ [] := List.mem_filter.mpr ⟨hy, by simpa using hk⟩
    rw [hf] at this
    simp at this
  | cons y rest =>
    rw [hf] at hc
    simp only [hpos, if_true]
    by_cases hs : ((y :: rest).all fun c => x.sameStructure (((x :: ys).map B.depth).foldl max 0 + 1) c) = true
    · rw [if_pos hs, if_pos hs]
      cases hl : (y :: rest).mapM B.len with
      | error e =>
        rw [List.mapM_cons, hn, hl]
        rfl
      | ok lens =>
        have hl' : (x :: y :: rest).mapM B.len = .ok (n :: lens) := by rw [List.mapM_cons, hn, hl]; rfl
        rw [hl']
        simp only
        rw [if_pos hx, if_pos hx, catAux]
        apply build_congr
        intro k _
        by_cases hk : k ∈ x.keys
        · exact mergeKeyInto_complete _ _ _ _ _ _ (hc k hk).full
        · have : x.get? k = none := by
            rw [← Option.not_isSome_iff_eq_none, B.get?_isSome]; exact hk
          rw [this]
          rfl
    · rw [if_neg hs, if_neg hs]

/-- Appending only empty batches leaves the batch as it is. -/
theorem C173_empty_partial (x : B) (ys : List B) (n : Nat) (hn : x.len = .ok n) (hys : ∀ y ∈ ys, y.keys = []) :
    catInto x ys = .ok x ∧ stackInto x ys = .ok x := by
  have : (ys.filter fun y => y.keys ≠ []) = [] := by
    rw [List.filter_eq_nil_iff]
    intro y hy
    simp [hys y hy]
  unfold catInto stackInto
  simp only [hn, bind, Except.bind, this, if_true, and_self]

/-- Likewise for stacking. -/
theorem C173_stack_partial (x : B) (ys : List B) (hx : x.keys ≠ []) (hys : ∃ y ∈ ys, y.keys ≠ [])
    (hc : ∀ k ∈ x.keys, CompleteKey k (x :: ys.filter fun y => y.keys ≠ [])) : stackInto x ys = stack (x :: ys) := by
  unfold stackInto stack
  simp only [stackAux]
  rw [List.filter_cons_of_pos (by simpa using hx)]
  have hne : (ys.filter fun y => y.keys ≠ []) ≠ [] := by
    obtain ⟨y, hy, hk⟩ := hys
    exact List.ne_nil_of_mem (List.mem_filter.mpr ⟨hy, by simpa using hk⟩)
  rw [if_neg hne, if_pos hx, if_neg (show ¬ (x :: ys.filter fun y => y.keys ≠ []) = [] by simp)]
  apply build_congr
  intro k _
  by_cases hk : k ∈ x.keys
  · exact mergeKeyInto_complete _ _ _ _ _ _ (hc k hk).full
  · have : x.get? k = none := by
      rw [← Option.not_isSome_iff_eq_none, B.get?_isSome]; exact hk
    rw [this]
    rfl

example : ∀ k ∈ (exRows [1, 2]).keys, CompleteKey k (exRows [1, 2] :: [exRows [3]].filter fun y => y.keys ≠ []) := by
  intro k hk
  left
  simp only [exRows, B.keys, List.mem_cons, List.not_mem_nil, or_false] at hk
  intro b hb
  simp only [exRows, B.keys, ne_eq, reduceCtorEq, not_false_eq_true, decide_true, List.filter_cons_of_pos, List.filter_nil,
    List.mem_cons, List.not_mem_nil, or_false] at hb
  rcases hk with rfl | rfl <;> rcases hb with rfl | rfl <;> simp [B.get?]
example : (exRows [1, 2]).len = .ok 2 := rfl

/-! ### C174: iterating over the rows -/

/-- Iterating over a batch gives its rows, as many as its length. -/
def C174 : Prop := ∀ (b : B) (n : Nat), b.WF → b.len = .ok n → ∃ rs, b.rows = .ok rs ∧ rs.length = n

/-- A batch without entries has no rows. -/
theorem C174_none (b : B) : b.keys = [] → b.rows = .ok [] := by
  intro h
  unfold B.rows
  rw [if_pos h]

/-- A batch whose nested batch has no rows has the length of the other entries, but its rows cannot be read. -/
theorem C174_violated : ¬ C174 := by
  intro h
  obtain ⟨rs, hrs, _⟩ := h (.leaf "a" ⟨false, .arr [.num 1, .num 2]⟩ (.sub "n" (.leaf "b" ⟨false, .arr []⟩ .nil) .nil)) 2
    (by simp [B.WF, B.keys]) rfl
  have h2 : (B.leaf "a" ⟨false, .arr [.num 1, .num 2]⟩ (.sub "n" (.leaf "b" ⟨false, .arr []⟩ .nil) .nil)).rows =
    .error .indexError := rfl
  rw [h2] at hrs
  cases hrs

theorem mapM_except_ok {α β : Type} (f : α → Except Err β) (xs : List α) (h : ∀ x ∈ xs, ∃ y, f x = .ok y) :
    ∃ ys, xs.mapM f = .ok ys ∧ ys.length = xs.length ∧ ∀ (i : Nat) (x : α), xs[i]? = some x → ∃ y, ys[i]? = some y ∧ f x = .ok y := by
  induction xs with
  | nil => exact ⟨[], rfl, rfl, by simp⟩
  | cons x xs ih =>
    obtain ⟨y, hy⟩ := h x (by simp)
    obtain ⟨ys, h1, h2, h3⟩ := ih fun z hz => h z (by simp [hz])
    refine ⟨y :: ys, by rw [List.mapM_cons, hy, h1]; rfl, by simp [h2], ?_⟩
    intro i z hz
    cases i with
    | zero => simp only [List.getElem?_cons_zero, Option.some.injEq] at hz ⊢; subst hz; exact ⟨y, rfl, hy⟩
    | succ i => rw [List.getElem?_cons_succ] at hz ⊢; exact h3 i z hz

theorem row_spec {b : B} {n i : Nat} (hb : b.Tall n) (hne : b.keys ≠ []) (hi : i < n) :
    ∃ r, b.getitem (.one (i : Int)) = .ok r ∧ (∀ path, b.leafAt path = none → r.leafAt path = none) ∧
      (∀ path l, b.leafAt path = some l → ∃ rows x, l.data = .arr rows ∧ rows[i]? = some x ∧ r.leafAt path = some ⟨l.object, x⟩) ∧
      r.keys = b.keys ∧ ∀ path, (r.subAt path).isSome = (b.subAt path).isSome := by
  have hp : pos n (i : Int) = some i := pos_natCast hi
  obtain ⟨r, hr, hk, h1, h2, h3⟩ := getLoop_spec (.one (i : Int)) b
    (B.All.mono (fun d hd => by obtain ⟨rows, rfl, hrows⟩ := hd; exact ⟨_, getitem_one hrows hp⟩) hb)
  refine ⟨r, by rw [getitem_of_ne hne, hr], h1, ?_, hk, h3⟩
  intro path l hl
  obtain ⟨rows, hrows, hlen⟩ := B.All.leafAt b hb path l hl
  obtain ⟨x, hx1, hx2⟩ := h2 path l hl
  rw [hrows, getitem_one hlen hp] at hx1
  cases hx1
  exact ⟨rows, _, hrows, List.getElem?_eq_getElem (by omega), hx2⟩

/-- Iterating over a batch all of whose values have `n` rows gives `n` rows; row `i` has entry `i` of every value, at the
same path, and nothing else. -/
theorem C174_rows_partial (b : B) (n : Nat) (hb : b.Tall n) (hleaf : ∃ path, (b.leafAt path).isSome) :
    ∃ rs, b.rows = .ok rs ∧ rs.length = n ∧ ∀ (i : Nat) (r : B), rs[i]? = some r →
      (∀ path, (r.leafAt path).isSome = (b.leafAt path).isSome) ∧
      ∀ path l, b.leafAt path = some l → ∃ rows x, l.data = .arr rows ∧ rows[i]? = some x ∧ r.leafAt path = some ⟨l.object, x⟩ := by
  have hne : b.keys ≠ [] := by obtain ⟨p, hp⟩ := hleaf; exact keys_of_leaf hp
  have hlen : b.len = .ok n := len_of_lens hb hleaf
  obtain ⟨rs, h1, h2, h3⟩ := mapM_except_ok (fun i : Nat => b.getitem (.one (i : Int))) (List.range n)
    (fun i hi => by obtain ⟨r, hr, _⟩ := row_spec hb hne (List.mem_range.mp hi); exact ⟨r, hr⟩)
  refine ⟨rs, ?_, by simpa using h2, ?_⟩
  · unfold B.rows
    rw [if_neg hne, hlen]
    exact h1
  · intro i r hr
    have hi : i < n := by
      have := (List.getElem?_eq_some_iff.mp hr).1
      simpa [h2] using this
    obtain ⟨y, hy1, hy2⟩ := h3 i i (by simp [hi])
    rw [hr] at hy1
    cases hy1
    obtain ⟨r', hr', g1, g2, _⟩ := row_spec hb hne hi
    rw [hy2] at hr'
    cases hr'
    refine ⟨?_, g2⟩
    intro path
    cases hl : b.leafAt path with
    | none => rw [g1 path hl]
    | some l => obtain ⟨_, _, _, _, h⟩ := g2 path l hl; rw [h]; rfl

theorem rows_spec {b : B} {n : Nat} (hb : b.Tall n) (hleaf : ∃ path, (b.leafAt path).isSome) :
    ∃ rs, b.rows = .ok rs ∧ rs.length = n ∧ ∀ (i : Nat) (r : B), rs[i]? = some r → i < n ∧ b.getitem (.one (i : Int)) = .ok r := by
  have hne : b.keys ≠ [] := by obtain ⟨p, hp⟩ := hleaf; exact keys_of_leaf hp
  have hlen : b.len = .ok n := len_of_lens hb hleaf
  obtain ⟨rs, h1, h2, h3⟩ := mapM_except_ok (fun i : Nat => b.getitem (.one (i : Int))) (List.range n)
    (fun i hi => by obtain ⟨r, hr, _⟩ := row_spec hb hne (List.mem_range.mp hi); exact ⟨r, hr⟩)
  refine ⟨rs, ?_, by simpa using h2, ?_⟩
  · unfold B.rows
    rw [if_neg hne, hlen]
    exact h1
  · intro i r hr
    have hi : i < n := by
      have := (List.getElem?_eq_some_iff.mp hr).1
      simpa [h2] using this
    obtain ⟨y, hy1, hy2⟩ := h3 i i (by simp [hi])
    rw [hr] at hy1
    cases hy1
    exact ⟨hi, hy2⟩

theorem rows_shape {b r : B} {n i : Nat} (hb : b.Tall n) (hne : b.keys ≠ []) (hi : i < n) (h : b.getitem (.one (i : Int)) = .ok r) :
    SameShape b r := by
  obtain ⟨r', hr', g1, g2, _, g4⟩ := row_spec hb hne hi
  rw [h] at hr'
  cases hr'
  intro path
  refine ⟨?_, by rw [g4 path]⟩
  cases hl : b.leafAt path with
  | none => rw [g1 path hl]
  | some l => obtain ⟨_, _, _, _, h⟩ := g2 path l hl; rw [h]; simp

/-- Stacking the rows of a batch gives back its data. -/
theorem C174_stack_partial (b : B) (n : Nat) (hb : b.Tall n) (hn : 0 < n) (hleaf : ∃ path, (b.leafAt path).isSome) :
    ∃ rs out, b.rows = .ok rs ∧ stack rs = .ok out ∧ SameData b out := by
  have hne : b.keys ≠ [] := by obtain ⟨p, hp⟩ := hleaf; exact keys_of_leaf hp
  obtain ⟨rs, h1, h2, h3⟩ := rows_spec hb hleaf
  have hmem : ∀ r ∈ rs, ∃ i : Nat, i < n ∧ b.getitem (.one (i : Int)) = .ok r := by
    intro r hr
    obtain ⟨i, hi⟩ := List.getElem?_of_mem hr
    exact ⟨i, h3 i r hi⟩
  have hrs : rs ≠ [] := by intro h; rw [h] at h2; simp at h2; omega
  have hk : ∀ r ∈ rs, r.keys ≠ [] := by
    intro r hr
    obtain ⟨i, hi, hg⟩ := hmem r hr
    obtain ⟨r', hr', _, _, hk, _⟩ := row_spec hb hne hi
    rw [hg] at hr'
    cases hr'
    rw [hk]
    exact hne
  obtain ⟨out, ho1, ho2⟩ := C47_stack_same rs hrs hk (by
    intro r hr c hc
    obtain ⟨i, hi, hg⟩ := hmem r hr
    obtain ⟨j, hj, hg'⟩ := hmem c hc
    have s1 := rows_shape hb hne hi hg
    have s2 := rows_shape hb hne hj hg'
    intro path
    exact ⟨(s1 path).1.symm.trans (s2 path).1, (s1 path).2.symm.trans (s2 path).2⟩)
  have hot := (C47_stack rs out hrs hk ho1).1
  rw [h2] at hot
  have key : ∀ i < n, ∃ r q, b.getitem (.one (i : Int)) = .ok r ∧ out.getitem (.one (i : Int)) = .ok q ∧ SameData r q := by
    intro i hi
    have hri : rs[i]? = some rs[i] := List.getElem?_eq_getElem (by omega)
    obtain ⟨q, hq1, hq2⟩ := ho2 i rs[i] hri
    exact ⟨_, q, (h3 i _ hri).2, hq1, hq2⟩
  have hok : out.keys ≠ [] := by
    intro h
    rw [keys_eq_nil] at h
    obtain ⟨_, _, _, hq, _⟩ := key 0 hn
    rw [h] at hq
    cases hq
  refine ⟨rs, out, h1, ho1, ?_⟩
  have row : ∀ i < n, ∀ path, ((b.leafAt path).isSome = (out.leafAt path).isSome) ∧
      ∀ l l', b.leafAt path = some l → out.leafAt path = some l' → ∃ rows rows', l.data = .arr rows ∧ l'.data = .arr rows' ∧
        rows[i]? = rows'[i]? := by
    intro i hi path
    obtain ⟨r, q, hr, hq, hs⟩ := key i hi
    obtain ⟨r', hr', g1, g2, _⟩ := row_spec hb hne hi
    rw [hr] at hr'
    cases hr'
    obtain ⟨q', hq', k1, k2, _⟩ := row_spec hot hok hi
    rw [hq] at hq'
    cases hq'
    have := hs path
    cases hl : b.leafAt path with
    | none =>
      rw [g1 path hl] at this
      cases hl' : out.leafAt path with
      | none => simp
      | some l' => obtain ⟨_, _, _, _, h⟩ := k2 path l' hl'; rw [h] at this; simp at this
    | some l =>
      obtain ⟨rows, x, e1, e2, e3⟩ := g2 path l hl
      rw [e3] at this
      cases hl' : out.leafAt path with
      | none => rw [k1 path hl'] at this; simp at this
      | some l' =>
        obtain ⟨rows', x', f1, f2, f3⟩ := k2 path l' hl'
        rw [f3] at this
        simp only [Option.map_some, Option.some.injEq] at this
        refine ⟨rfl, ?_⟩
        intro m m' hm hm'
        cases hm
        cases hm'
        exact ⟨rows, rows', e1, f1, by rw [e2, f2, this]⟩
  intro path
  cases hl : b.leafAt path with
  | none =>
    have := (row 0 hn path).1
    rw [hl] at this
    cases hl' : out.leafAt path with
    | none => rfl
    | some _ => rw [hl'] at this; simp at this
  | some l =>
    have := (row 0 hn path).1
    rw [hl] at this
    cases hl' : out.leafAt path with
    | none => rw [hl'] at this; simp at this
    | some l' =>
      obtain ⟨rows, hr, hlr⟩ := B.All.leafAt b hb path l hl
      obtain ⟨rows', hr', hlr'⟩ := B.All.leafAt out hot path l' hl'
      simp only [Option.map_some, Option.some.injEq]
      rw [hr, hr']
      congr 1
      apply List.ext_getElem?
      intro i
      by_cases hi : i < n
      · obtain ⟨_, _, e1, e2, e3⟩ := (row i hi path).2 l l' hl hl'
        rw [hr] at e1
        rw [hr'] at e2
        cases e1
        cases e2
        exact e3
      · rw [List.getElem?_eq_none (by omega), List.getElem?_eq_none (by omega)]

theorem many_spec {b : B} {n : Nat} (hb : b.Tall n) (hne : b.keys ≠ []) (ps : List Nat) (hps : ∀ p ∈ ps, p < n) :
    ∃ r, b.getitem (.many (ps.map fun p : Nat => (p : Int))) = .ok r ∧ r.Tall ps.length ∧ r.keys = b.keys ∧
      (∀ path, b.leafAt path = none → r.leafAt path = none) ∧
      ∀ path l, b.leafAt path = some l → ∃ rows rows', l.data = .arr rows ∧ r.leafAt path = some ⟨l.object, .arr rows'⟩ ∧
        rows'.length = ps.length ∧ ∀ (t p : Nat), ps[t]? = some p → rows'[t]? = rows[p]? := by
  have hpos : positions n (ps.map fun p : Nat => (p : Int)) = some ps := by
    refine positions_of (by simp) ?_
    intro t p i hp hi
    rw [List.getElem?_map, hp] at hi
    simp only [Option.map_some, Option.some.injEq] at hi
    exact ⟨hps p (List.mem_of_getElem? hp), by rw [← hi, if_neg (by omega)]⟩
  have hread : ∀ rows : List D, rows.length = n → (D.arr rows).getitem (.many (ps.map fun p : Nat => (p : Int))) =
      .ok (.arr (ps.filterMap fun p => rows[p]?)) := by
    rintro rows rfl
    simp only [D.getitem, hpos]
  have hmap : ∀ rows : List D, rows.length = n → (ps.filterMap fun p => rows[p]?).length = ps.length ∧
      ∀ (t p : Nat), ps[t]? = some p → (ps.filterMap fun p => rows[p]?)[t]? = rows[p]? := by
    intro rows hlen
    clear hpos hread
    induction ps with
    | nil => simp
    | cons q ps ih =>
      have hq := List.getElem?_eq_getElem (l := rows) (i := q) (by rw [hlen]; exact hps q (by simp))
      obtain ⟨i1, i2⟩ := ih fun q hq => hps q (by simp [hq])
      rw [List.filterMap_cons_some hq]
      refine ⟨by simp [i1], ?_⟩
      intro t p ht
      cases t with
      | zero =>
        simp only [List.getElem?_cons_zero, Option.some.injEq] at ht ⊢
        subst ht
        exact hq.symm
      | succ t =>
        rw [List.getElem?_cons_succ] at ht ⊢
        exact i2 t p ht
  obtain ⟨r, hr, hk, h1, h2, _⟩ := getLoop_spec (.many (ps.map fun p : Nat => (p : Int))) b
    (B.All.mono (fun d hd => by obtain ⟨rows, rfl, hrows⟩ := hd; exact ⟨_, hread rows hrows⟩) hb)
  refine ⟨r, by rw [getitem_of_ne hne, hr], ?_, hk, h1, ?_⟩
  · refine getLoop_all (P := Rows n) ?_ (by rintro ⟨_, h, _⟩; cases h) hb hr
    rintro d x ⟨rows, rfl, hrows⟩ hx
    rw [hread rows hrows] at hx
    cases hx
    exact ⟨_, rfl, (hmap rows hrows).1⟩
  · intro path l hl
    obtain ⟨rows, hrows, hlen⟩ := B.All.leafAt b hb path l hl
    obtain ⟨x, hx1, hx2⟩ := h2 path l hl
    rw [hrows, hread rows hlen] at hx1
    cases hx1
    exact ⟨rows, _, hrows, hx2, hmap rows hlen⟩

/-- Selecting from a selection is selecting once: `b[is][js]` has the data of `b[[is[j] for j in js]]`. -/
theorem C174_index_partial (b : B) (n : Nat) (is js ks : List Nat) (hb : b.Tall n) (hne : b.keys ≠ []) (his : ∀ i ∈ is, i < n)
    (hlen : ks.length = js.length) (hks : ∀ (t j : Nat), js[t]? = some j → ∃ i, is[j]? = some i ∧ ks[t]? = some i) :
    ∃ r r' s, b.getitem (.many (is.map fun p : Nat => (p : Int))) = .ok r ∧
      r.getitem (.many (js.map fun p : Nat => (p : Int))) = .ok r' ∧
      b.getitem (.many (ks.map fun p : Nat => (p : Int))) = .ok s ∧ SameData r' s ∧ r'.Tall js.length := by
  have hjs : ∀ j ∈ js, j < is.length := by
    intro j hj
    obtain ⟨t, ht⟩ := List.getElem?_of_mem hj
    obtain ⟨i, hi, _⟩ := hks t j ht
    exact (List.getElem?_eq_some_iff.mp hi).1
  have hks' : ∀ k ∈ ks, k < n := by
    intro k hk
    obtain ⟨t, ht⟩ := List.getElem?_of_mem hk
    have htl : t < js.length := by rw [← hlen]; exact (List.getElem?_eq_some_iff.mp ht).1
    obtain ⟨i, hi1, hi2⟩ := hks t js[t] (List.getElem?_eq_getElem htl)
    rw [ht] at hi2
    cases hi2
    exact his k (List.mem_of_getElem? hi1)
  obtain ⟨r, hr, ht, hk, a1, a2⟩ := many_spec hb hne is his
  obtain ⟨r', hr', ht', hk', b1, b2⟩ := many_spec ht (by rw [hk]; exact hne) js hjs
  obtain ⟨s, hs, _, _, c1, c2⟩ := many_spec hb hne ks hks'
  refine ⟨r, r', s, hr, hr', hs, ?_, ht'⟩
  intro path
  cases hl : b.leafAt path with
  | none => rw [b1 path (a1 path hl), c1 path hl]
  | some l =>
    obtain ⟨rows, rows1, e1, e2, e3, e4⟩ := a2 path l hl
    obtain ⟨_, rows2, f1, f2, f3, f4⟩ := b2 path _ e2
    obtain ⟨_, rows3, g1, g2, g3, g4⟩ := c2 path l hl
    rw [e1] at g1
    cases g1
    cases f1
    rw [f2, g2]
    simp only [Option.map_some, Option.some.injEq, D.arr.injEq]
    apply List.ext_getElem?
    intro t
    by_cases htl : t < js.length
    · obtain ⟨i, hi1, hi2⟩ := hks t js[t] (List.getElem?_eq_getElem htl)
      rw [f4 t _ (List.getElem?_eq_getElem htl), e4 _ i hi1, g4 t i hi2]
    · rw [List.getElem?_eq_none (by omega), List.getElem?_eq_none (by omega)]

example : (exRows [1, 2, 3]).Tall 3 := ⟨⟨_, rfl, rfl⟩, ⟨⟨_, rfl, rfl⟩, trivial⟩, trivial⟩
example : ((exRows [1, 2, 3]).leafAt ["n", "b"]).isSome := rfl
/-- `is = [2, 0]`, `js = [1, 1, 0]`. -/
example : ∀ (t j : Nat), [1, 1, 0][t]? = some j → ∃ i, [2, 0][j]? = some i ∧ [0, 0, 2][t]? = some i := by
  intro t j h
  rcases t with _ | _ | _ | t <;> simp at h <;> subst h <;> simp

/-! ### C175: dropping rows with missing values -/

/-- A missing value (`None` or NaN) somewhere in the value. -/
inductive Missing : D → Prop
  | here : Missing .none
  | inside (rows : List D) (r : D) (hr : r ∈ rows) (h : Missing r) : Missing (.arr rows)

mutual
theorem hasnull_missing : (d : D) → (d.hasnull = true ↔ Missing d)
  | .none => ⟨fun _ => .here, fun _ => by rw [D.hasnull]⟩
  | .num _ => ⟨fun h => by simp [D.hasnull] at h, fun h => by cases h⟩
  | .obj _ => ⟨fun h => by simp [D.hasnull] at h, fun h => by cases h⟩
  | .arr rows => by
    rw [D.hasnull, hasnulls_missing rows]
    exact ⟨fun ⟨r, hr, h⟩ => .inside rows r hr h, fun h => by cases h with | inside _ r hr h => exact ⟨r, hr, h⟩⟩
theorem hasnulls_missing : (rows : List D) → (D.hasnulls rows = true ↔ ∃ r ∈ rows, Missing r)
  | [] => by simp [D.hasnulls]
  | r :: rows => by
    rw [D.hasnulls, Bool.or_eq_true, hasnull_missing r, hasnulls_missing rows]
    simp
end

/-- Row `i` of the batch has no missing value. -/
def CompleteRow (b : B) (i : Nat) : Prop :=
  ∀ path l rows x, b.leafAt path = some l → l.data = .arr rows → rows[i]? = some x → ¬ Missing x

/-- `out` has the rows `ks` of `b`, in this order, at the same paths. -/
def Selects (b : B) (ks : List Nat) (out : B) : Prop :=
  (∀ path, (out.leafAt path).isSome = (b.leafAt path).isSome) ∧
  ∀ path l rows, b.leafAt path = some l → l.data = .arr rows → ∃ rows', (out.leafAt path).map Leaf.data = some (.arr rows') ∧
    rows'.length = ks.length ∧ ∀ (t i : Nat), ks[t]? = some i → rows'[t]? = rows[i]?

/-- `dropnull` gives the rows without missing values, in order. -/
def C175 : Prop :=
  ∀ (b : B) (n : Nat), b.WF → b.Tall n → (∃ path, (b.leafAt path).isSome) →
    ∃ out ks, b.dropnull = .ok out ∧ ks.Pairwise (· < ·) ∧ (∀ i, i ∈ ks ↔ i < n ∧ CompleteRow b i) ∧ Selects b ks out

/-- Rows of more than one number are flattened: two rows of two numbers become four rows. -/
theorem C175_flattened_violated : ¬ C175 := by
  intro h
  obtain ⟨out, ks, h1, h2, h3, h4⟩ := h (.leaf "a" ⟨false, .arr [.arr [.num 1, .num 2], .arr [.num 3, .num 4]]⟩ .nil) 2
    (by simp [B.WF, B.keys]) ⟨⟨_, rfl, rfl⟩, trivial⟩ ⟨["a"], rfl⟩
  have e : (B.leaf "a" ⟨false, .arr [.arr [.num 1, .num 2], .arr [.num 3, .num 4]]⟩ .nil).dropnull =
    .ok (.leaf "a" ⟨false, .arr [.num 1, .num 2, .num 3, .num 4]⟩ .nil) := rfl
  rw [e] at h1
  cases h1
  obtain ⟨rows', e1, e2, _⟩ := h4.2 ["a"] _ _ rfl rfl
  have e3 : rows' = [.num 1, .num 2, .num 3, .num 4] := by
    simp only [B.leafAt, if_true, Option.map_some, Option.some.injEq, D.arr.injEq] at e1
    exact e1.symm
  rw [e3] at e2
  rcases ks with _ | ⟨a, _ | ⟨b, _ | ⟨c, ks⟩⟩⟩
  · simp at e2
  · simp at e2
  · simp at e2
  · have hc := ((h3 c).mp (by simp)).1
    simp only [List.pairwise_cons, List.mem_cons, forall_eq_or_imp] at h2
    have h5 := h2.1.1
    have h6 := h2.2.1.1
    omega

/-- If every row has a missing value the result has no keys at all. -/
theorem C175_keys_violated : (B.leaf "a" ⟨false, .arr [.none]⟩ .nil).dropnull = .ok .nil := rfl

/-- For batches of one-dimensional arrays with at least one complete row. -/
theorem C175_partial (b : B) (n : Nat) (hwf : b.WF) (hb : b.Tall n) (hleaf : ∃ path, (b.leafAt path).isSome)
    (hscalar : ∀ path l rows, b.leafAt path = some l → l.data = .arr rows → ∀ x ∈ rows, ∀ xs, x ≠ .arr xs)
    (hone : ∃ i < n, CompleteRow b i) :
    ∃ out ks, b.dropnull = .ok out ∧ ks.Pairwise (· < ·) ∧ (∀ i, i ∈ ks ↔ i < n ∧ CompleteRow b i) ∧ Selects b ks out ∧
      out.len = .ok ks.length := by
  have hne : b.keys ≠ [] := by obtain ⟨p, hp⟩ := hleaf; exact keys_of_leaf hp
  obtain ⟨rs, h1, h2, h3⟩ := rows_spec hb hleaf
  -- the rows as a function of the position
  have hrs : rs = (List.range n).map fun i => rs[i]?.getD .nil := by
    apply List.ext_getElem?
    intro i
    rw [List.getElem?_map]
    by_cases hi : i < n
    · rw [List.getElem?_range hi, Option.map_some, List.getElem?_eq_getElem (by omega)]; rfl
    · rw [List.getElem?_eq_none (by omega), List.getElem?_eq_none (by simp; omega)]; rfl
  generalize hg : (fun i : Nat => rs[i]?.getD .nil) = g at hrs
  have hrow : ∀ i < n, b.getitem (.one (i : Int)) = .ok (g i) := by
    intro i hi
    subst hg
    have hri := List.getElem?_eq_getElem (l := rs) (i := i) (by omega)
    simp only [hri, Option.getD_some]
    exact (h3 i _ hri).2
  have hspec : ∀ i < n, (∀ path, b.leafAt path = none → (g i).leafAt path = none) ∧
      (∀ path l, b.leafAt path = some l → ∃ rows x, l.data = .arr rows ∧ rows[i]? = some x ∧
        (g i).leafAt path = some ⟨l.object, x⟩) ∧ (g i).keys = b.keys ∧ ∀ path, ((g i).subAt path).isSome = (b.subAt path).isSome := by
    intro i hi
    obtain ⟨r, hr, a1, a2, a3, a4⟩ := row_spec hb hne hi
    rw [hrow i hi] at hr
    cases hr
    exact ⟨a1, a2, a3, a4⟩
  have hnull : ∀ i < n, (g i).hasnull = false ↔ CompleteRow b i := by
    intro i hi
    obtain ⟨a1, a2, _⟩ := hspec i hi
    rw [← Bool.not_eq_true, hasnull_iff (getitem_wf hwf (hrow i hi)).1]
    constructor
    · intro h path l rows x hl hr hx hm
      obtain ⟨rows', x', e1, e2, e3⟩ := a2 path l hl
      rw [hr] at e1
      cases e1
      rw [hx] at e2
      cases e2
      exact h ⟨path, _, e3, (hasnull_missing x).mpr hm⟩
    · rintro h ⟨path, l', hl', hm⟩
      cases hl : b.leafAt path with
      | none => rw [a1 path hl] at hl'; cases hl'
      | some l =>
        obtain ⟨rows, x, e1, e2, e3⟩ := a2 path l hl
        rw [e3] at hl'
        cases hl'
        exact h path l rows x hl e1 e2 ((hasnull_missing x).mp hm)
  set ks := (List.range n).filter fun i => !(g i).hasnull with hks
  have hmem : ∀ i, i ∈ ks ↔ i < n ∧ CompleteRow b i := by
    intro i
    rw [hks, List.mem_filter, List.mem_range]
    constructor
    · rintro ⟨hi, h⟩; exact ⟨hi, (hnull i hi).mp (by simpa using h)⟩
    · rintro ⟨hi, h⟩; exact ⟨hi, by simpa using (hnull i hi).mpr h⟩
  have hkept : (rs.filter fun r => !r.hasnull).map B.atleast1d = ks.map fun i => (g i).atleast1d := by
    conv_lhs => rw [hrs]
    rw [List.filter_map, List.map_map]
    rfl
  have hksne : ks ≠ [] := by
    obtain ⟨i, hi, hc⟩ := hone
    exact List.ne_nil_of_mem ((hmem i).mpr ⟨hi, hc⟩)
  -- each kept row, with its entries as arrays of one row
  have hone' : ∀ i < n, (∀ path, b.leafAt path = none → (g i).atleast1d.leafAt path = none) ∧
      (∀ path l, b.leafAt path = some l → ∃ rows x, l.data = .arr rows ∧ rows[i]? = some x ∧
        (g i).atleast1d.leafAt path = some ⟨l.object, .arr [x]⟩) ∧ (g i).atleast1d.keys = b.keys ∧
      (∀ path, ((g i).atleast1d.subAt path).isSome = (b.subAt path).isSome) ∧ (g i).atleast1d.WF ∧ (g i).atleast1d.Tall 1 := by
    intro i hi
    obtain ⟨a1, a2, a3, a4⟩ := hspec i hi
    obtain ⟨c1, c2, c3, c4⟩ := atleast1d_spec (g i)
    have hw : (g i).atleast1d.WF := c2 (getitem_wf hwf (hrow i hi)).1
    have hl2 : ∀ path l, b.leafAt path = some l → ∃ rows x, l.data = .arr rows ∧ rows[i]? = some x ∧
        (g i).atleast1d.leafAt path = some ⟨l.object, .arr [x]⟩ := by
      intro path l hl
      obtain ⟨rows, x, e1, e2, e3⟩ := a2 path l hl
      refine ⟨rows, x, e1, e2, ?_⟩
      rw [c3, e3]
      have := hscalar path l rows hl e1 x (List.mem_of_getElem? e2)
      cases x with
      | arr xs => exact absurd rfl (this xs)
      | num _ => rfl
      | none => rfl
      | obj _ => rfl
    have hl1 : ∀ path, b.leafAt path = none → (g i).atleast1d.leafAt path = none := by
      intro path hl
      rw [c3, a1 path hl]; rfl
    refine ⟨hl1, hl2, by rw [c1, a3], fun path => by rw [c4, a4], hw, ?_⟩
    apply B.all_of_leafAt hw
    intro path l' hl'
    cases hl : b.leafAt path with
    | none => rw [hl1 path hl] at hl'; cases hl'
    | some l =>
      obtain ⟨_, x, _, _, e3⟩ := hl2 path l hl
      rw [e3] at hl'
      cases hl'
      exact ⟨_, rfl, rfl⟩
  have hkn : ∀ i ∈ ks, i < n := fun i hi => ((hmem i).mp hi).1
  set cs := ks.map fun i => (g i).atleast1d with hcs
  have hcmem : ∀ c ∈ cs, ∃ i, i < n ∧ c = (g i).atleast1d := by
    intro c hc
    obtain ⟨i, hi, rfl⟩ := List.mem_map.mp hc
    exact ⟨i, hkn i hi, rfl⟩
  have hshape : ∀ c ∈ cs, SameShape b c := by
    intro c hc
    obtain ⟨i, hi, rfl⟩ := hcmem c hc
    obtain ⟨a1, a2, _, a4, _⟩ := hone' i hi
    intro path
    refine ⟨?_, by rw [a4]⟩
    cases hl : b.leafAt path with
    | none => rw [a1 path hl]
    | some l => obtain ⟨_, _, _, _, h⟩ := a2 path l hl; rw [h]; simp
  have hcne : cs ≠ [] := by simpa [hcs] using hksne
  have hck : ∀ c ∈ cs, c.keys ≠ [] := by
    intro c hc
    obtain ⟨i, hi, rfl⟩ := hcmem c hc
    rw [(hone' i hi).2.2.1]
    exact hne
  have hcb : ∀ (t m : Nat) (c : B), cs[t]? = some c → (List.replicate ks.length 1)[t]? = some m → c.WF ∧ c.len = .ok m ∧ c.Tall m := by
    intro t m c hc hm
    obtain ⟨i, hi, rfl⟩ := hcmem c (List.mem_of_getElem? hc)
    have hm1 : m = 1 := List.eq_of_mem_replicate (List.mem_of_getElem? hm)
    subst hm1
    obtain ⟨_, a2, _, _, a5, a6⟩ := hone' i hi
    refine ⟨a5, len_of_lens a6 ?_, a6⟩
    obtain ⟨path, hp⟩ := hleaf
    obtain ⟨l, hl⟩ := Option.isSome_iff_exists.mp hp
    obtain ⟨_, _, _, _, h⟩ := a2 path l hl
    exact ⟨path, by rw [h]; rfl⟩
  have hlen : (List.replicate ks.length 1).length = cs.length := by simp [hcs]
  obtain ⟨out, ho1, ho2, ho3⟩ := C47_cat_same cs (List.replicate ks.length 1) hcne hck (fun c hc d hd path =>
    ⟨(hshape c hc path).1.symm.trans (hshape d hd path).1, (hshape c hc path).2.symm.trans (hshape d hd path).2⟩) hlen hcb
  obtain ⟨hot, _, _⟩ := C47_cat cs (List.replicate ks.length 1) out hcne hck hlen hcb ho1
  have hsum : (List.replicate ks.length 1).sum = ks.length := by simp
  rw [hsum] at ho2 hot
  -- one kept row read from the result
  have hread : ∀ (t i : Nat), ks[t]? = some i → ∃ r, out.getitem (.slice t (t + 1)) = .ok r ∧ SameData (g i).atleast1d r := by
    intro t i hti
    have htl := (List.getElem?_eq_some_iff.mp hti).1
    obtain ⟨r, hr1, hr2⟩ := ho3 t 1 (g i).atleast1d (by rw [hcs, List.getElem?_map, hti]; rfl) (by simp [htl])
    have hsumt : ((List.replicate ks.length 1).take t).sum = t := by
      rw [List.take_replicate, Nat.min_eq_left (Nat.le_of_lt htl)]
      simp
    rw [hsumt] at hr1
    exact ⟨r, by simpa using hr1, hr2⟩
  have hok : out.keys ≠ [] := by
    obtain ⟨i, hi⟩ := List.exists_mem_of_ne_nil ks hksne
    obtain ⟨t, ht⟩ := List.getElem?_of_mem hi
    obtain ⟨r, hr, _⟩ := hread t i ht
    intro h
    rw [keys_eq_nil] at h
    rw [h] at hr
    cases hr
  have hslice : ∀ t : Nat, ∃ r, out.getitem (.slice t (t + 1)) = .ok r ∧ (∀ path, out.leafAt path = none → r.leafAt path = none) ∧
      ∀ path l, out.leafAt path = some l → ∃ rows, l.data = .arr rows ∧
        r.leafAt path = some ⟨l.object, .arr ((rows.take (t + 1)).drop t)⟩ := by
    intro t
    obtain ⟨r, hr, _, k1, k2, _⟩ := getLoop_spec (.slice t (t + 1)) out
      (B.All.mono (fun d hd => by obtain ⟨rows, rfl, _⟩ := hd; exact ⟨_, rfl⟩) hot)
    refine ⟨r, by rw [getitem_of_ne hok, hr], k1, ?_⟩
    intro path l hl
    obtain ⟨rows, hrows, _⟩ := B.All.leafAt out hot path l hl
    obtain ⟨x, hx1, hx2⟩ := k2 path l hl
    rw [hrows] at hx1
    cases hx1
    exact ⟨rows, hrows, hx2⟩
  have hboth : ∀ (t i : Nat), ks[t]? = some i → ∀ path, (out.leafAt path).isSome = (b.leafAt path).isSome ∧
      ∀ l l', b.leafAt path = some l → out.leafAt path = some l' → ∃ rows rows', l.data = .arr rows ∧ l'.data = .arr rows' ∧
        rows'[t]? = rows[i]? := by
    intro t i hti path
    obtain ⟨r, hr1, hr2⟩ := hread t i hti
    obtain ⟨r', hr', k1, k2⟩ := hslice t
    rw [hr1] at hr'
    cases hr'
    obtain ⟨a1, a2, _⟩ := hone' i (hkn i (List.mem_of_getElem? hti))
    have hs := hr2 path
    cases hl : b.leafAt path with
    | none =>
      rw [a1 path hl] at hs
      cases hl' : out.leafAt path with
      | none => simp
      | some l' => obtain ⟨_, _, h⟩ := k2 path l' hl'; rw [h] at hs; simp at hs
    | some l =>
      obtain ⟨rows, x, e1, e2, e3⟩ := a2 path l hl
      rw [e3] at hs
      cases hl' : out.leafAt path with
      | none => rw [k1 path hl'] at hs; simp at hs
      | some l' =>
        obtain ⟨rows', f1, f2⟩ := k2 path l' hl'
        rw [f2] at hs
        simp only [Option.map_some, Option.some.injEq, D.arr.injEq] at hs
        refine ⟨rfl, ?_⟩
        intro m m' hm hm'
        cases hm
        cases hm'
        refine ⟨rows, rows', e1, f1, ?_⟩
        have := congrArg (fun l : List D => l[0]?) hs
        simp only [List.getElem?_cons_zero, List.getElem?_drop, List.getElem?_take] at this
        rw [if_pos (by omega)] at this
        rw [e2, this]
        rfl
  obtain ⟨i0, hi0⟩ := List.exists_mem_of_ne_nil ks hksne
  obtain ⟨t0, ht0⟩ := List.getElem?_of_mem hi0
  refine ⟨out, ks, ?_, ?_, hmem, ⟨fun path => (hboth t0 i0 ht0 path).1, ?_⟩, ho2⟩
  · unfold B.dropnull
    simp only [h1, bind, Except.bind]
    rw [hkept]
    exact ho1
  · exact List.Pairwise.filter _ List.pairwise_lt_range
  · intro path l rows hl hr
    have hs := (hboth t0 i0 ht0 path).1
    rw [hl] at hs
    obtain ⟨l', hl'⟩ := Option.isSome_iff_exists.mp (by simpa using hs)
    obtain ⟨rows', hr', hlen'⟩ := B.All.leafAt out hot path l' hl'
    refine ⟨rows', by rw [hl', Option.map_some, hr'], hlen', ?_⟩
    intro t i hti
    obtain ⟨_, _, e1, e2, e3⟩ := (hboth t i hti path).2 l l' hl hl'
    rw [hr] at e1
    rw [hr'] at e2
    cases e1
    cases e2
    exact e3

/-- Two columns, with missing values in different rows. -/
def exNulls : B := .leaf "a" ⟨false, .arr [.num 1, .none, .num 3, .num 4]⟩ (.sub "n" (.leaf "b" ⟨true, .arr [.obj 1, .obj 2, .none, .obj 3]⟩ .nil) .nil)

example : exNulls.dropnull = .ok (.leaf "a" ⟨false, .arr [.num 1, .num 4]⟩ (.sub "n" (.leaf "b" ⟨true, .arr [.obj 1, .obj 3]⟩ .nil) .nil)) := rfl
example : exNulls.WF ∧ exNulls.Tall 4 := ⟨by simp [exNulls, B.WF, B.keys], ⟨⟨_, rfl, rfl⟩, ⟨⟨_, rfl, rfl⟩, trivial⟩, trivial⟩⟩
example : CompleteRow exNulls 0 := by
  intro path l rows x hl hr hx
  rcases path with _ | ⟨k, _ | ⟨k', path⟩⟩ <;> simp only [exNulls, B.leafAt] at hl <;> (try split_ifs at hl) <;>
    (try cases hl) <;> cases hr <;> cases hx <;> exact fun h => by cases h
example : ∀ path l rows, exNulls.leafAt path = some l → l.data = .arr rows → ∀ x ∈ rows, ∀ xs, x ≠ .arr xs := by
  intro path l rows hl hr x hx xs h
  subst h
  rcases path with _ | ⟨k, _ | ⟨k', path⟩⟩ <;> simp only [exNulls, B.leafAt] at hl <;> (try split_ifs at hl) <;>
    (try cases hl) <;> cases hr <;> simp at hx

/-! ### C176: emptying rows -/

/-- Without an index every value becomes zero or `None`; keys, paths and lengths stay. -/
theorem C176_all (b : B) : ∃ r, b.emptyAt none = .ok r ∧ r.keys = b.keys ∧
    (∀ path, (r.leafAt path).isSome = (b.leafAt path).isSome) ∧
    ∀ path l l', b.leafAt path = some l → r.leafAt path = some l' →
      (Blank l'.object l'.data ∨ l.data = .none ∧ l'.data = .none) ∧ ∀ n, Rows n l.data → Rows n l'.data := by
  have hok : ∀ (d z : D), ∃ x, d.emptyEntry none z = .ok x := by
    intro d z
    cases d with
    | num _ => exact ⟨_, rfl⟩
    | none => exact ⟨_, rfl⟩
    | obj _ => exact ⟨_, rfl⟩
    | arr rows => exact ⟨_, rfl⟩
  have hfills : ∀ (z : D) (rows : List D), (D.fills z rows).length = rows.length := by
    intro z rows
    induction rows with
    | nil => rfl
    | cons r rows ih => rw [D.fills, List.length_cons, ih, List.length_cons]
  obtain ⟨r, h1, h2, h3, h4⟩ := emptyAt_spec none b (B.All.mono (P := fun _ => True) (fun d _ => hok d) (all_true b))
  refine ⟨r, h1, h2, ?_, ?_⟩
  · intro path
    cases hl : b.leafAt path with
    | none => rw [h3 path hl]
    | some l => obtain ⟨x, _, hx⟩ := h4 path l hl; rw [hx]; rfl
  · intro path l l' hl hl'
    obtain ⟨x, hx1, hx2⟩ := h4 path l hl
    rw [hx2] at hl'
    cases hl'
    cases hd : l.data with
    | num _ => rw [hd] at hx1; cases hx1; exact ⟨Or.inl (zero_blank l), fun n hn => by obtain ⟨_, h, _⟩ := hn; cases h⟩
    | none => rw [hd] at hx1; cases hx1; exact ⟨Or.inr ⟨rfl, rfl⟩, fun n hn => hn⟩
    | obj _ => rw [hd] at hx1; cases hx1; exact ⟨Or.inl (zero_blank l), fun n hn => by obtain ⟨_, h, _⟩ := hn; cases h⟩
    | arr rows =>
      rw [hd] at hx1
      simp only [D.emptyEntry, D.emptyAt, Except.ok.injEq] at hx1
      subst hx1
      refine ⟨Or.inl (fill_blank (zero_blank l) _), ?_⟩
      rintro n ⟨rows', h, hn⟩
      cases h
      exact ⟨_, by rw [D.fill], by rw [hfills, hn]⟩

theorem empty_many {b : B} {n : Nat} {index : Index} {ps : List Nat} (hb : b.Tall n)
    (h : ∀ rows : List D, rows.length = n → ∀ z, (D.arr rows).setfill index z =
      .ok (.arr (ps.foldl (fun r p => r.modify p (D.fill z)) rows))) :
    ∃ r, b.emptyAt (some index) = .ok r ∧ r.keys = b.keys ∧ (∀ path, (r.leafAt path).isSome = (b.leafAt path).isSome) ∧
      ∀ path l rows, b.leafAt path = some l → l.data = .arr rows → ∃ rows', r.leafAt path = some ⟨l.object, .arr rows'⟩ ∧
        rows'.length = rows.length ∧ (∀ (p : Nat) (x : D), p ∈ ps → rows'[p]? = some x → Blank l.object x) ∧
        ∀ q, q ∉ ps → rows'[q]? = rows[q]? := by
  obtain ⟨r, h1, h2, h3, h4⟩ := emptyAt_spec (some index) b (B.All.mono (fun d hd z => by
    obtain ⟨rows, rfl, hrows⟩ := hd
    exact ⟨_, h rows hrows z⟩) hb)
  refine ⟨r, h1, h2, ?_, ?_⟩
  · intro path
    cases hl : b.leafAt path with
    | none => rw [h3 path hl]
    | some l => obtain ⟨x, _, hx⟩ := h4 path l hl; rw [hx]; rfl
  · intro path l rows hl hr
    obtain ⟨x, hx1, hx2⟩ := h4 path l hl
    obtain ⟨rows0, e1, hlen⟩ := B.All.leafAt b hb path l hl
    rw [hr] at e1
    cases e1
    rw [hr] at hx1
    simp only [D.emptyEntry, D.emptyAt, h rows hlen, Except.ok.injEq] at hx1
    subst hx1
    exact ⟨_, hx2, fillRows_length _ _ _, fun p x hp hx => fillRows_at _ (zero_blank l) rows ps p hp x hx,
      fun q hq => fillRows_other _ rows ps q hq⟩

/-- With an integer index exactly that row becomes zero or `None`. -/
theorem C176_one (b : B) (n : Nat) (i : Int) (p : Nat) (hb : b.Tall n) (hp : p < n) (hi : (p : Int) = if i < 0 then i + n else i) :
    ∃ r, b.emptyAt (some (.one i)) = .ok r ∧ r.keys = b.keys ∧ (∀ path, (r.leafAt path).isSome = (b.leafAt path).isSome) ∧
      ∀ path l rows, b.leafAt path = some l → l.data = .arr rows → ∃ rows', r.leafAt path = some ⟨l.object, .arr rows'⟩ ∧
        rows'.length = rows.length ∧ (∀ x, rows'[p]? = some x → Blank l.object x) ∧ ∀ q, q ≠ p → rows'[q]? = rows[q]? := by
  obtain ⟨r, h1, h2, h3, h4⟩ := empty_many (index := .one i) (ps := [p]) hb
    (fun rows hr z => setfill_one hr (pos_iff.mpr ⟨hp, hi⟩) z)
  refine ⟨r, h1, h2, h3, ?_⟩
  intro path l rows hl hr
  obtain ⟨rows', e1, e2, e3, e4⟩ := h4 path l rows hl hr
  exact ⟨rows', e1, e2, fun x hx => e3 p x (by simp) hx, fun q hq => e4 q (by simpa using hq)⟩

/-- With an array of positions exactly those rows become zero or `None`, however often they occur. -/
theorem C176_many (b : B) (n : Nat) (is : List Int) (ps : List Nat) (hb : b.Tall n) (hlen : ps.length = is.length)
    (hps : ∀ (t p : Nat) (i : Int), ps[t]? = some p → is[t]? = some i → p < n ∧ (p : Int) = if i < 0 then i + n else i) :
    ∃ r, b.emptyAt (some (.many is)) = .ok r ∧ r.keys = b.keys ∧ (∀ path, (r.leafAt path).isSome = (b.leafAt path).isSome) ∧
      ∀ path l rows, b.leafAt path = some l → l.data = .arr rows → ∃ rows', r.leafAt path = some ⟨l.object, .arr rows'⟩ ∧
        rows'.length = rows.length ∧ (∀ (p : Nat) (x : D), p ∈ ps → rows'[p]? = some x → Blank l.object x) ∧
        ∀ q, q ∉ ps → rows'[q]? = rows[q]? :=
  empty_many hb fun rows hr z => by
    subst hr
    simp only [D.setfill, positions_of hlen hps]

example : (exRows [1, 2, 3]).emptyAt (some (.many [-1, 0])) =
  .ok (.leaf "a" ⟨false, .arr [.num 0, .num 2, .num 0]⟩
    (.sub "n" (.leaf "b" ⟨false, .arr [.arr [.num 0, .num 0], .arr [.num 2, .num 7], .arr [.num 0, .num 0]]⟩ .nil) .nil)) := rfl
example : ∀ (t p : Nat) (i : Int), [2, 0][t]? = some p → [-1, 0][t]? = some i → p < 3 ∧ (p : Int) = if i < 0 then i + (3 : Nat) else i := by
  intro t p i hp hi
  rcases t with _ | _ | t <;> simp at hp hi <;> subst hp hi <;> decide

/-! ### C177: setting an array at a key -/

theorem setArray_set (b : B) (arr : Leaf) (key : String) (index : Option Index) (fill : Except Err D) :
    (∃ e, b.setArray arr key index fill = (b, some e)) ∨ ∃ l, (b.setArray arr key index fill).1 = b.set key (.leaf l) := by
  unfold B.setArray
  cases index with
  | none =>
    simp only
    split
    · split_ifs
      · exact Or.inr ⟨_, rfl⟩
      · exact Or.inl ⟨_, rfl⟩
    · exact Or.inl ⟨_, rfl⟩
  | some i =>
    simp only
    split
    · split
      · exact Or.inl ⟨_, rfl⟩
      · exact Or.inl ⟨_, rfl⟩
      · split
        · exact Or.inr ⟨_, rfl⟩
        · exact Or.inr ⟨_, rfl⟩
    · exact Or.inl ⟨_, rfl⟩
    · split
      · exact Or.inr ⟨_, rfl⟩
      · exact Or.inl ⟨_, rfl⟩

theorem leafAt_set_other (b : B) (key k : String) (v : Val) (h : k ≠ key) (path : List String) :
    (b.set key v).leafAt (k :: path) = b.leafAt (k :: path) := by
  rw [B.leafAt_cons, B.leafAt_cons, B.get?_set, if_neg h]

theorem leafAt_set_same (b : B) (key : String) (l : Leaf) : (b.set key (.leaf l)).leafAt [key] = some l := by
  rw [B.leafAt_cons, B.get?_set, if_pos rfl]; rfl

/-- Whatever the outcome, the other keys keep their values. -/
theorem C177_frame (b : B) (arr : Leaf) (key : String) (index : Option Index) (fill : Except Err D) (k : String) (h : k ≠ key)
    (path : List String) : (b.setArray arr key index fill).1.leafAt (k :: path) = b.leafAt (k :: path) := by
  rcases setArray_set b arr key index fill with ⟨e, he⟩ | ⟨l, hl⟩
  · rw [he]
  · rw [hl, leafAt_set_other _ _ _ _ h]

theorem writeMany {n : Nat} {is : List Int} {ps : List Nat} (hlen : ps.length = is.length)
    (hps : ∀ (t p : Nat) (i : Int), ps[t]? = some p → is[t]? = some i → p < n ∧ (p : Int) = if i < 0 then i + n else i)
    (hnd : ps.Nodup) (rows vs : List D) (hr : rows.length = n) (hv : vs.length = is.length) :
    ∃ rows', (D.arr rows).setitem (.many is) (.arr vs) = .ok (.arr rows') ∧ rows'.length = n ∧
      (∀ (t p : Nat), ps[t]? = some p → rows'[p]? = vs[t]?) ∧ ∀ q, q ∉ ps → rows'[q]? = rows[q]? := by
  subst hr
  have hpos := positions_of hlen hps
  refine ⟨writeRows rows ps vs, ?_, writeRows_length _ _ _, ?_, fun q hq => writeRows_other _ _ _ _ hq⟩
  · simp only [D.setitem, hpos]
    rw [if_pos (by omega)]
  · intro t p ht
    exact writeRows_at rows ps vs hnd (positions_spec hpos).2.1 (by omega) t p ht

/-- A new key with an index: the given rows at the given positions, the default value at the others. -/
theorem C177_new (b : B) (n : Nat) (object : Bool) (vs : List D) (key : String) (is : List Int) (ps : List Nat) (z : D)
    (hb : b.len = .ok n) (hkey : key ∉ b.keys) (hlen : ps.length = is.length)
    (hps : ∀ (t p : Nat) (i : Int), ps[t]? = some p → is[t]? = some i → p < n ∧ (p : Int) = if i < 0 then i + n else i)
    (hnd : ps.Nodup) (hv : vs.length = is.length) :
    ∃ b' rows', b.setArray ⟨object, .arr vs⟩ key (some (.many is)) (.ok z) = (b', none) ∧
      b'.leafAt [key] = some ⟨object, .arr rows'⟩ ∧ rows'.length = n ∧
      (∀ (t p : Nat), ps[t]? = some p → rows'[p]? = vs[t]?) ∧ ∀ q < n, q ∉ ps → rows'[q]? = some z := by
  obtain ⟨rows', h1, h2, h3, h4⟩ := writeMany hlen hps hnd (List.replicate n z) vs (by simp) hv
  refine ⟨b.set key (.leaf ⟨object, .arr rows'⟩), rows', ?_, leafAt_set_same _ _ _, h2, h3, ?_⟩
  · simp only [B.setArray, B.get?_none.mpr hkey, hb, h1]
  · intro q hq hqp
    rw [h4 q hqp]
    simp [hq]

/-- An existing key with an index: the given rows at the given positions, the others unchanged. -/
theorem C177_existing (b : B) (n : Nat) (l arr : Leaf) (rows vs : List D) (key : String) (is : List Int) (ps : List Nat)
    (fill : Except Err D) (hl : b.leafAt [key] = some l) (hr : l.data = .arr rows) (hn : rows.length = n)
    (ha : arr.data = .arr vs) (hlen : ps.length = is.length)
    (hps : ∀ (t p : Nat) (i : Int), ps[t]? = some p → is[t]? = some i → p < n ∧ (p : Int) = if i < 0 then i + n else i)
    (hnd : ps.Nodup) (hv : vs.length = is.length) :
    ∃ b' rows', b.setArray arr key (some (.many is)) fill = (b', none) ∧
      b'.leafAt [key] = some ⟨l.object, .arr rows'⟩ ∧ rows'.length = n ∧
      (∀ (t p : Nat), ps[t]? = some p → rows'[p]? = vs[t]?) ∧ ∀ q, q ∉ ps → rows'[q]? = rows[q]? := by
  obtain ⟨rows', h1, h2, h3, h4⟩ := writeMany hlen hps hnd rows vs hn hv
  have hg : b.get? key = some (.leaf l) := by
    rw [B.leafAt_cons] at hl
    cases hg : b.get? key with
    | none => rw [hg] at hl; cases hl
    | some v =>
      rw [hg] at hl
      cases v with
      | leaf l' => simp only [Option.bind_some, Val.leafAt, Option.some.injEq] at hl; rw [hl]
      | sub c => simp [Val.leafAt, B.leafAt_nil] at hl
  refine ⟨b.set key (.leaf ⟨l.object, .arr rows'⟩), rows', ?_, leafAt_set_same _ _ _, h2, h3, h4⟩
  simp only [B.setArray, hg, hr, ha, h1]

/-- Without an index the array becomes the value of the key if it has as many rows as the batch; otherwise nothing
changes and a `ValueError` is raised. -/
theorem C177_whole (b : B) (n : Nat) (object : Bool) (vs : List D) (key : String) (fill : Except Err D) (hb : b.len = .ok n) :
    (vs.length = n → ∃ b', b.setArray ⟨object, .arr vs⟩ key none fill = (b', none) ∧ b'.leafAt [key] = some ⟨object, .arr vs⟩) ∧
    (vs.length ≠ n → b.setArray ⟨object, .arr vs⟩ key none fill = (b, some .valueError)) := by
  refine ⟨?_, ?_⟩
  · intro h
    exact ⟨b.set key (.leaf ⟨object, .arr vs⟩), by simp only [B.setArray, hb, if_pos h], leafAt_set_same _ _ _⟩
  · intro h
    simp only [B.setArray, hb, if_neg h]

/-- With an index, a nested batch is not overwritten. -/
theorem C177_nested (b c : B) (arr : Leaf) (key : String) (index : Index) (fill : Except Err D) (h : b.subAt [key] = some c) :
    b.setArray arr key (some index) fill = (b, some .valueError) := by
  rw [B.subAt_cons] at h
  cases hg : b.get? key with
  | none => rw [hg] at h; cases h
  | some v =>
    cases v with
    | leaf l => rw [hg] at h; simp [Val.subAt] at h
    | sub c' => simp only [B.setArray, hg]

/-- Setting an array either succeeds or leaves the batch as it was. -/
def C177 : Prop := ∀ (b : B) (arr : Leaf) (key : String) (index : Option Index) (fill : Except Err D) (b' : B) (e : Err),
  b.setArray arr key index fill = (b', some e) → b' = b

/-- A new key stays in the batch, with the default value in all rows, if the index is out of range. -/
theorem C177_violated : ¬ C177 := by
  intro h
  have := h (exRows [1, 2]) ⟨false, .arr [.num 5]⟩ "c" (some (.many [2])) (.ok (.num 0))
    (.leaf "a" ⟨false, .arr [.num 1, .num 2]⟩ (.sub "n" (.leaf "b" ⟨false, .arr [.arr [.num 1, .num 7], .arr [.num 2, .num 7]]⟩ .nil)
      (.leaf "c" ⟨false, .arr [.num 0, .num 0]⟩ .nil))) .indexError rfl
  have := congrArg B.keys this
  simp [exRows, B.keys] at this

/-- A failure changes nothing if the key exists already or no index is given. -/
theorem C177_partial (b b' : B) (arr : Leaf) (key : String) (index : Option Index) (fill : Except Err D) (e : Err)
    (hk : key ∈ b.keys ∨ index = none) (h : b.setArray arr key index fill = (b', some e)) : b' = b := by
  unfold B.setArray at h
  cases index with
  | none =>
    simp only at h
    split at h
    · split_ifs at h
      · cases h
      · cases h; rfl
    · cases h; rfl
  | some i =>
    have hk : key ∈ b.keys := by simpa using hk
    simp only at h
    split at h
    · rename_i hg
      exact absurd hk (B.get?_none.mp hg)
    · cases h; rfl
    · split at h
      · cases h
      · cases h; rfl

example : (exRows [1, 2, 3]).setArray ⟨false, .arr [.num 8, .num 9]⟩ "c" (some (.many [2, 0])) (.ok (.num 5)) =
  (.leaf "a" ⟨false, .arr [.num 1, .num 2, .num 3]⟩ (.sub "n" (.leaf "b" ⟨false, .arr [.arr [.num 1, .num 7], .arr [.num 2, .num 7],
    .arr [.num 3, .num 7]]⟩ .nil) (.leaf "c" ⟨false, .arr [.num 9, .num 5, .num 8]⟩ .nil)), none) := rfl
example : "c" ∉ (exRows [1, 2, 3]).keys ∧ (exRows [1, 2, 3]).len = .ok 3 := ⟨by simp [exRows, B.keys], rfl⟩
example : (exRows [1, 2, 3]).subAt ["n"] = some (.leaf "b" ⟨false, .arr [.arr [.num 1, .num 7], .arr [.num 2, .num 7], .arr [.num 3, .num 7]]⟩ .nil) := rfl

/-! ### C180: writing to storage with new keys -/

/-- A value that was left alone, assigned or filled keeps its rows at the positions that are not selected. -/
theorem touched_rows {n : Nat} {I : Index} {Q : Nat → Prop}
    (hI : ∀ q, Q q → ∀ rows : List D, rows.length = n →
      (∀ (v rows' : D), (D.arr rows).setitem I v = .ok rows' → ∃ r, rows' = .arr r ∧ r.length = n ∧ r[q]? = rows[q]?) ∧
      (∀ (z rows' : D), (D.arr rows).setfill I z = .ok rows' → ∃ r, rows' = .arr r ∧ r.length = n ∧ r[q]? = rows[q]?))
    {rows : List D} (hr : rows.length = n) {d : D} (ht : Touched I (.arr rows) d) (q : Nat) (hq : Q q) :
    ∃ r, d = .arr r ∧ r.length = n ∧ r[q]? = rows[q]? := by
  rcases ht with rfl | ⟨v, hv⟩ | ⟨z, hz⟩
  · exact ⟨rows, rfl, hr, rfl⟩
  · exact (hI q hq rows hr).1 v d hv
  · exact (hI q hq rows hr).2 z d hz

/-- Writing `v` into the storage `m` of `n` slots: the written slots read `v`, all other slots keep their data and are zero
at the new paths, and nothing is lost. -/
def Written (n : Nat) (m v r : B) (I : Index) (untouched : Nat → Prop) : Prop :=
  r.WF ∧ r.Tall n ∧ (∃ x, r.getitem I = .ok x ∧ Reads v x) ∧
  (∀ path, (r.leafAt path).isSome = ((m.leafAt path).isSome || (v.leafAt path).isSome)) ∧
  ∀ path l', r.leafAt path = some l' → ∃ rows', l'.data = .arr rows' ∧ ∀ q, untouched q →
    (∀ l rows, m.leafAt path = some l → l.data = .arr rows → rows'[q]? = rows[q]?) ∧
    (m.leafAt path = none → ∀ x, rows'[q]? = some x → Blank l'.object x)

theorem bufWrite_spec {n : Nat} {I : Index} {fits : Nat → D → Prop} {stack : Bool} (hP : Places n [I] fits)
    {Q : Nat → Prop} (hI : ∀ q, Q q → ∀ rows : List D, rows.length = n →
      (∀ (v rows' : D), (D.arr rows).setitem I v = .ok rows' → ∃ r, rows' = .arr r ∧ r.length = n ∧ r[q]? = rows[q]?) ∧
      (∀ (z rows' : D), (D.arr rows).setfill I z = .ok rows' → ∃ r, rows' = .arr r ∧ r.length = n ∧ r[q]? = rows[q]?))
    {m v : B} (hm : m.WF) (hv : v.WF) (ht : m.Tall n) (hf : v.All (fits 0)) (hcr : v.All (Creatable stack))
    (hleaf : ∃ path, (v.leafAt path).isSome) (hc : Compatible m v) :
    ∃ r, bufWrite n stack I m v = .ok r ∧ Written n m v r I Q := by
  have hvk : v.keys ≠ [] := by obtain ⟨p, hp⟩ := hleaf; exact keys_of_leaf hp
  -- the result of a successful assignment
  have done : ∀ m1 r : B, m1.WF → m1.Tall n → m1.setitem I v = (r, none) →
      (∀ path, (m1.leafAt path).isSome = ((m.leafAt path).isSome || (v.leafAt path).isSome)) →
      (∀ path l1, m1.leafAt path = some l1 → ∃ rows1, l1.data = .arr rows1 ∧ ∀ q, Q q →
        (∀ l rows, m.leafAt path = some l → l.data = .arr rows → rows1[q]? = rows[q]?) ∧
        (m.leafAt path = none → ∀ x, rows1[q]? = some x → Blank l1.object x)) → Written n m v r I Q := by
    intro m1 r hw1 ht1 hset hdom hrows
    have hne1 : m1.keys ≠ [] := by
      obtain ⟨p, hp⟩ := hleaf
      exact keys_of_leaf (b := m1) (path := p) (by rw [hdom p, hp]; simp)
    obtain ⟨a1, a2, a3⟩ := setitem_reads hP ht1 hf hne1 hset
    have hr : r = (B.setLoop I v m1).1 := by
      unfold B.setitem at hset
      split_ifs at hset
      · rw [hset]
      · cases hset
    obtain ⟨_, t2, _, t4, _⟩ := setLoop_touched I v m1
    rw [← hr] at t2 t4
    refine ⟨t2 hw1, a1, a2, fun path => by rw [a3, hdom], ?_⟩
    intro path l' hl'
    obtain ⟨l1, hl1⟩ := Option.isSome_iff_exists.mp (by rw [← a3 path, hl']; rfl : (m1.leafAt path).isSome = true)
    obtain ⟨d, hd1, hd2⟩ := t4 path l1 hl1
    rw [hl'] at hd1
    cases hd1
    obtain ⟨rows1, e1, e2⟩ := hrows path l1 hl1
    have hlen1 : rows1.length = n := by
      obtain ⟨rows2, f1, f2⟩ := B.All.leafAt m1 ht1 path l1 hl1
      rw [e1] at f1; cases f1; exact f2
    rw [e1] at hd2
    obtain ⟨rows', hrows', _⟩ := B.All.leafAt r a1 path _ hl'
    simp only at hrows'
    subst hrows'
    refine ⟨rows', rfl, ?_⟩
    intro q hq
    obtain ⟨rr, g1, g2, g3⟩ := touched_rows hI hlen1 hd2 q hq
    cases g1
    obtain ⟨k1, k2⟩ := e2 q hq
    exact ⟨fun l rows hl hlr => by rw [g3, k1 l rows hl hlr], fun hn x hx => k2 hn x (by rw [← g3]; exact hx)⟩
  -- the first attempt
  have hfit0 : ∀ path l, m.leafAt path = some l → Rows n l.data := fun path l hl => B.All.leafAt m ht path l hl
  have hfitv : ∀ path l, v.leafAt path = some l → fits 0 l.data := fun path l hl => B.All.leafAt v hf path l hl
  have hsubs : ∀ path, (m.leafAt path).isSome → v.subAt path = none := by
    intro path hp
    by_contra hne
    have := (hc path).2 (by cases h : v.subAt path with | none => exact absurd h hne | some _ => rfl)
    rw [this] at hp
    simp at hp
  have first : ∃ m1, (m.setitem I v = (m1, none) ∨ m.setitem I v = (m1, some .valueError)) ∧ m1.keys = m.keys ∧ m1.WF ∧ m1.Tall n ∧
      (∀ path, (m1.leafAt path).isSome = (m.leafAt path).isSome) ∧
      (∀ path, (m1.subAt path).map B.keys = (m.subAt path).map B.keys) ∧
      ∀ path l l1, m.leafAt path = some l → m1.leafAt path = some l1 → Touched I l.data l1.data := by
    unfold B.setitem
    split_ifs with hs
    · obtain ⟨t1, t2, t3, t4, t5⟩ := setLoop_touched I v m
      refine ⟨(B.setLoop I v m).1, ?_, t1, t2 hm, ?_, ?_, t5, ?_⟩
      · have := setLoop_err I v m hm
          (fun path l l' hl hl' => hP.setOk 0 I l.data l'.data rfl (hfit0 path l hl) (hfitv path l' hl'))
          (fun path l hl => hP.fillOk 0 I l.data l.zero rfl (hfit0 path l hl)) hsubs
        rcases this with h | h
        · exact Or.inl (Prod.ext rfl h)
        · exact Or.inr (Prod.ext rfl h)
      · apply B.all_of_leafAt (t2 hm)
        intro path l1 hl1
        cases hl : m.leafAt path with
        | none => rw [t3 path hl] at hl1; cases hl1
        | some l =>
          obtain ⟨d, hd1, hd2⟩ := t4 path l hl
          rw [hl1] at hd1
          cases hd1
          rcases hd2 with h | ⟨w, h⟩ | ⟨z, h⟩
          · simp only at h ⊢; rw [h]; exact hfit0 path l hl
          · exact hP.rows 0 I l.data w d rfl (hfit0 path l hl) h
          · exact hP.fillRows 0 I l.data z d rfl (hfit0 path l hl) h
      · intro path
        cases hl : m.leafAt path with
        | none => rw [t3 path hl]
        | some l => obtain ⟨d, hd1, _⟩ := t4 path l hl; rw [hd1]; rfl
      · intro path l l1 hl hl1
        obtain ⟨d, hd1, hd2⟩ := t4 path l hl
        rw [hl1] at hd1
        cases hd1
        exact hd2
    · refine ⟨m, Or.inr rfl, rfl, hm, ht, fun _ => rfl, fun _ => rfl, ?_⟩
      intro path l l1 hl hl1
      rw [hl] at hl1
      cases hl1
      exact Or.inl rfl
  obtain ⟨m1, hset, hk1, hw1, ht1, hdom1, hsub1, htouch⟩ := first
  have hrows1 : ∀ path l1, m1.leafAt path = some l1 → ∃ rows1, l1.data = .arr rows1 ∧ ∀ q, Q q →
      (∀ l rows, m.leafAt path = some l → l.data = .arr rows → rows1[q]? = rows[q]?) ∧
      (m.leafAt path = none → ∀ x, rows1[q]? = some x → Blank l1.object x) := by
    intro path l1 hl1
    obtain ⟨rows1, e1, e2⟩ := B.All.leafAt m1 ht1 path l1 hl1
    refine ⟨rows1, e1, ?_⟩
    intro q hq
    refine ⟨?_, ?_⟩
    · intro l rows hl hr
      have hlen : rows.length = n := by
        obtain ⟨rows2, f1, f2⟩ := hfit0 path l hl
        rw [hr] at f1; cases f1; exact f2
      have := htouch path l l1 hl hl1
      rw [hr, e1] at this
      obtain ⟨rr, g1, _, g3⟩ := touched_rows hI hlen this q hq
      cases g1
      exact g3
    · intro hn
      have := hdom1 path
      rw [hl1, hn] at this
      simp at this
  rcases hset with hset | hset
  · -- no new keys
    refine ⟨m1, by simp only [bufWrite, hset], ?_⟩
    by_cases hmk : m.keys = []
    · exfalso
      rw [keys_eq_nil] at hmk
      subst hmk
      unfold B.setitem at hset
      rw [if_neg (by
        intro hs
        obtain ⟨k, hk⟩ := List.exists_mem_of_ne_nil _ hvk
        have := hs hk
        simp [B.keys] at this)] at hset
      cases hset
    · obtain ⟨a1, a2, a3⟩ := setitem_reads hP ht hf hmk hset
      refine ⟨hw1, ht1, a2, ?_, hrows1⟩
      intro path
      rw [a3]
      cases hl : m.leafAt path with
      | some l => simp
      | none =>
        cases hlv : v.leafAt path with
        | none => rfl
        | some lv =>
          exfalso
          obtain ⟨x, hx, hread⟩ := a2
          obtain ⟨l', hl', _⟩ := (hread path).1 lv hlv
          have hm1n : m1.leafAt path = none := by
            have := hdom1 path
            rw [hl] at this
            cases h : m1.leafAt path with
            | none => rfl
            | some _ => rw [h] at this; simp at this
          obtain ⟨x', hx', _, g1, _⟩ := getLoop_spec I m1 (B.All.mono (fun d hd => hP.get 0 I d rfl hd) ht1)
          rw [getitem_of_ne (by rw [hk1]; exact hmk), hx'] at hx
          cases hx
          rw [g1 path hm1n] at hl'
          cases hl'
  · -- new keys: allocate and write again
    have hc1 : Compatible m1 v := by
      intro path
      refine ⟨?_, ?_⟩
      · intro hp
        have := hsub1 path
        rcases (hc path).1 hp with h | h
        · rw [h] at this
          left
          cases h1 : m1.subAt path with
          | none => rfl
          | some _ => rw [h1] at this; cases this
        · rw [h] at this
          right
          cases h1 : m1.subAt path with
          | none => rw [h1] at this; cases this
          | some y =>
            rw [h1] at this
            simp only [Option.map_some, Option.some.injEq, B.keys] at this
            rw [keys_eq_nil.mp this]
      · intro hp
        have := hdom1 path
        rw [(hc path).2 hp] at this
        cases h1 : m1.leafAt path with
        | none => rfl
        | some _ => rw [h1] at this; cases this
    -- storage with the new keys
    have alloc : ∃ m2, (if m1.keys = [] then v.create n stack else m1.alloc n stack v) = .ok m2 ∧ m2.WF ∧ m2.Tall n ∧ Fits v m2 ∧
        (∀ path l, m1.leafAt path = some l → m2.leafAt path = some l) ∧
        (∀ path l, m1.leafAt path = none → m2.leafAt path = some l → Blank l.object l.data) ∧
        ∀ path, (m2.leafAt path).isSome = ((m1.leafAt path).isSome || (v.leafAt path).isSome) := by
      by_cases hmk : m1.keys = []
      · obtain ⟨m2, hm2⟩ := B.create_ok (size := n) hcr
        rw [keys_eq_nil] at hmk
        subst hmk
        obtain ⟨c1, c2, c3⟩ := Val.create_spec (v := .sub v) (h := .sub m2) (size := n) (stack := stack) (by rw [Val.create, hm2]; rfl)
        obtain ⟨d1, d2, d3⟩ := B.create_more hm2
        have hnil : ∀ path : List String, (B.nil).leafAt path = none := by intro path; cases path <;> rfl
        refine ⟨m2, by simpa [B.keys] using hm2, d2 hv, c1, ?_, ?_, ?_, ?_⟩
        · intro path
          refine ⟨fun hp => by have := c2 path; simp only [Val.leafAt] at this; rw [this]; exact hp, ?_⟩
          intro hp
          have := d3 path
          cases h2 : m2.subAt path with
          | some _ => rfl
          | none =>
            rw [h2] at this
            cases h3 : v.subAt path with
            | none => rw [h3] at hp; cases hp
            | some _ => rw [h3] at this; cases this
        · intro path l hl; rw [hnil] at hl; cases hl
        · intro path l _ hl; exact (c3 path l (by simpa only [Val.leafAt] using hl)).1
        · intro path
          have := c2 path
          simp only [Val.leafAt] at this
          rw [this, hnil]; simp
      · obtain ⟨m2, hm2⟩ := alloc_ok (size := n) (m := m1) hcr
        have hspec := fun path => alloc_spec n stack path hv hc1 hm2
        have hw2 := alloc_wf hw1 hv hm2
        refine ⟨m2, by rw [if_neg hmk]; exact hm2, hw2, ?_, fun path => ⟨(hspec path).2.2.1, (hspec path).2.2.2⟩,
          fun path => (hspec path).1, fun path l hn hl => ((hspec path).2.1 l hn hl).2, ?_⟩
        · apply B.all_of_leafAt hw2
          intro path l hl
          cases h1 : m1.leafAt path with
          | none => exact ((hspec path).2.1 l h1 hl).1
          | some l1 =>
            rw [(hspec path).1 l1 h1] at hl
            cases hl
            exact B.All.leafAt m1 ht1 path _ h1
        · intro path
          cases h1 : m1.leafAt path with
          | some l1 => rw [(hspec path).1 l1 h1]; simp
          | none =>
            cases h2 : v.leafAt path with
            | some lv => have := (hspec path).2.2.1 (by rw [h2]; rfl); rw [this]; simp
            | none =>
              cases h3 : m2.leafAt path with
              | none => rfl
              | some l2 =>
                have := alloc_new n stack path hv hc1 hm2 (by rw [h3]; rfl)
                rw [h1, h2] at this
                simp at this
    obtain ⟨m2, hm2, hw2, ht2, hfit2, hold, hnew, hdom2⟩ := alloc
    obtain ⟨r, hr⟩ := setitem_ok hP hw2 ht2 hf hfit2
    have hw : bufWrite n stack I m v = .ok r := by
      simp only [bufWrite, hset, bind, Except.bind]
      by_cases hmk : m1.keys = []
      · rw [if_pos hmk] at hm2 ⊢
        simp only [hm2, hr]
      · rw [if_neg hmk] at hm2 ⊢
        simp only [hm2, hr]
    refine ⟨r, hw, ?_⟩
    apply done m2 r hw2 ht2 hr
    · intro path; rw [hdom2, hdom1]
    · intro path l2 hl2
      cases h1 : m1.leafAt path with
      | some l1 =>
        rw [hold path l1 h1] at hl2
        cases hl2
        exact hrows1 path _ h1
      | none =>
        have hb := hnew path l2 h1 hl2
        obtain ⟨rows2, e1, e2⟩ := B.All.leafAt m2 ht2 path l2 hl2
        have hmn : m.leafAt path = none := by
          have := hdom1 path
          rw [h1] at this
          cases h : m.leafAt path with
          | none => rfl
          | some _ => rw [h] at this; cases this
        refine ⟨rows2, e1, ?_⟩
        intro q _
        refine ⟨fun l rows hl => (by rw [hmn] at hl; cases hl), ?_⟩
        intro _ x hx
        rw [e1] at hb
        exact hb.rows x (List.mem_of_getElem? hx)

/-- Writing one transition: it succeeds for every transition that is compatible with the storage, whatever keys it has or
lacks; the slot reads the transition, all other slots keep their data and are zero at the new keys. -/
theorem C180_one (m v : B) (n : Nat) (i : Int) (p : Nat) (hm : m.WF) (hv : v.WF) (ht : m.Tall n) (hp : p < n)
    (hi : (p : Int) = if i < 0 then i + n else i) (hleaf : ∃ path, (v.leafAt path).isSome) (hc : Compatible m v) :
    ∃ r, bufWrite n true (.one i) m v = .ok r ∧ Written n m v r (.one i) (fun q => q ≠ p) :=
  bufWrite_spec (one_places (pos_iff.mpr ⟨hp, hi⟩))
    (fun q hq rows hr => one_untouched (pos_iff.mpr ⟨hp, hi⟩) hq rows hr) hm hv ht (all_true v)
    (B.All.mono (P := fun _ => True) (fun _ _ => Or.inl rfl) (all_true v)) hleaf hc

/-- Writing the transitions of several environments at once, to different slots. -/
theorem C180_many (m v : B) (n : Nat) (is : List Int) (ps : List Nat) (hm : m.WF) (hv : v.WF) (ht : m.Tall n)
    (hlen : ps.length = is.length)
    (hps : ∀ (t p : Nat) (i : Int), ps[t]? = some p → is[t]? = some i → p < n ∧ (p : Int) = if i < 0 then i + n else i)
    (hnd : ps.Nodup) (hvt : v.Tall is.length) (hleaf : ∃ path, (v.leafAt path).isSome) (hc : Compatible m v) :
    ∃ r, bufWrite n false (.many is) m v = .ok r ∧ Written n m v r (.many is) (fun q => q ∉ ps) :=
  bufWrite_spec (many_places (positions_of hlen hps) hnd)
    (fun q hq rows hr => many_untouched (positions_of hlen hps) hq rows hr) hm hv ht hvt
    (B.All.mono (fun _ hd => Or.inr ⟨_, hd⟩) hvt) hleaf hc

/-- Writing to empty storage. -/
example : bufWrite 3 true (.one 0) .nil (exRow 5 6) =
  .ok (.leaf "a" ⟨false, .arr [.num 5, .num 0, .num 0]⟩ (.sub "n" (.leaf "b" ⟨false, .arr [.arr [.num 6, .num 7], .arr [.num 0, .num 0],
    .arr [.num 0, .num 0]]⟩ .nil) .nil)) := rfl
/-- A transition with a new key and without an old one. -/
example : bufWrite 2 true (.one 1) (.leaf "a" ⟨false, .arr [.num 5, .num 6]⟩ (.leaf "b" ⟨false, .arr [.num 1, .num 1]⟩ .nil))
    (.leaf "a" ⟨false, .num 8⟩ (.leaf "c" ⟨false, .num 9⟩ .nil)) =
  .ok (.leaf "a" ⟨false, .arr [.num 5, .num 8]⟩ (.leaf "b" ⟨false, .arr [.num 1, .num 0]⟩ (.leaf "c" ⟨false, .arr [.num 0, .num 9]⟩ .nil))) := rfl
example : Compatible (exRows [1, 2]) (exRow 5 6) := by
  intro path
  rcases path with _ | ⟨k, _ | ⟨k', path⟩⟩ <;> simp only [exRows, exRow, B.leafAt, B.subAt] <;> (try split_ifs) <;> simp

end Verif.Batch
