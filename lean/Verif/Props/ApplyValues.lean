import Verif.Model.ApplyValues
import Verif.Spec.BatchTree
import Mathlib.Algebra.Order.Field.Rat
import Mathlib.Tactic.SplitIfs

/-! Properties C261 and C262: transforming the values of a batch in place, and `to_at_least_2d`. -/

namespace Verif.ApplyValues

open Verif.BatchTree

variable {α : Type}

/-! ### Specification -/

/-- What one finds under a path of keys. -/
def read (h : Heap α) : List (String × Cell α) → List String → Option α
  | _, [] => none
  | d, k :: path => match d.lookup k with
    | none => none
    | some (.leaf a) => if path = [] then some a else none
    | some (.ref i) => read h (h.dict i) path

/-- The value of `batch.k1.k2...` for the batch at an address. -/
def Heap.get (h : Heap α) (addr : Nat) (path : List String) : Option α := read h (h.dict addr) path

/-- The entries `d` have the content `b`. -/
def Content (h : Heap α) : List (String × Cell α) → T α → Prop
  | [], .nil => True
  | (k, .leaf a) :: d, .leaf k' a' rest => k = k' ∧ a = a' ∧ Content h d rest
  | (k, .ref i) :: d, .sub k' b rest => k = k' ∧ i < h.next ∧ Content h (h.dict i) b ∧ Content h d rest
  | _, _ => False

/-! ### Lemmas -/

theorem read_nil (h : Heap α) (d : List (String × Cell α)) : read h d [] = none := by cases d <;> rfl

theorem leafAt_nil (b : T α) : b.leafAt [] = none := by cases b <;> rfl

theorem read_leaf (h : Heap α) (k : String) (a : α) (d : List (String × Cell α)) (key : String) (path : List String) :
    read h ((k, .leaf a) :: d) (key :: path) = if k = key then (if path = [] then some a else none) else read h d (key :: path) := by
  simp only [read, List.lookup_cons]
  by_cases e : k = key
  · simp [e]
  · have e' : (key == k) = false := by simpa using Ne.symm e
    simp [e, e']

theorem read_ref (h : Heap α) (k : String) (i : Nat) (d : List (String × Cell α)) (key : String) (path : List String) :
    read h ((k, .ref i) :: d) (key :: path) = if k = key then read h (h.dict i) path else read h d (key :: path) := by
  simp only [read, List.lookup_cons]
  by_cases e : k = key
  · simp [e]
  · have e' : (key == k) = false := by simpa using Ne.symm e
    simp [e, e']

theorem read_content (h : Heap α) (d : List (String × Cell α)) (b : T α) (hc : Content h d b) (path : List String) :
    read h d path = b.leafAt path := by
  induction b generalizing d path with
  | nil =>
    cases d with
    | nil => cases path <;> rfl
    | cons c d => cases c.2 <;> simp [Content] at hc
  | leaf k a rest ih =>
    match d, hc with
    | (k', .leaf a') :: d', hc =>
      obtain ⟨rfl, rfl, hc'⟩ := hc
      cases path with
      | nil => rw [read_nil, leafAt_nil]
      | cons key path => rw [read_leaf, ih d' hc']; rfl
  | sub k b rest ihb ih =>
    match d, hc with
    | (k', .ref i) :: d, hc =>
      obtain ⟨rfl, _, hb, hc⟩ := hc
      cases path with
      | nil => rw [read_nil, leafAt_nil]
      | cons key path => rw [read_ref, ih d hc, ihb _ hb]; rfl

theorem entries_frame (f : α → α) (b : T α) (h : Heap α) :
    h.next ≤ (entries f b h).2.next ∧ ∀ i < h.next, (entries f b h).2.dict i = h.dict i := by
  induction b generalizing h with
  | nil => exact ⟨le_refl _, fun _ _ => rfl⟩
  | leaf k a rest ih => exact ih h
  | sub k b rest ihb ih =>
    have h1 := ihb h
    have h2 := ih ((entries f b h).2.new (entries f b h).1).2
    simp only [Heap.new] at h2
    simp only [entries, Heap.new]
    refine ⟨by omega, fun i hi => ?_⟩
    rw [h2.2 i (by omega), if_neg (by omega)]
    exact h1.2 i hi

theorem entries_read (f : α → α) (b : T α) (h : Heap α) (H : Heap α)
    (hH : ∀ i, h.next ≤ i → i < (entries f b h).2.next → H.dict i = (entries f b h).2.dict i) (path : List String) :
    read H (entries f b h).1 path = (b.leafAt path).map f := by
  induction b generalizing h path with
  | nil => cases path <;> rfl
  | leaf k a rest ih =>
    cases path with
    | nil => rw [read_nil, leafAt_nil]; rfl
    | cons key path =>
      simp only [entries, read_leaf, T.leafAt]
      rw [ih h hH]
      split_ifs <;> rfl
  | sub k b rest ihb ih =>
    cases path with
    | nil => rw [read_nil, leafAt_nil]; rfl
    | cons key path =>
      have f1 := entries_frame f b h
      have f2 := entries_frame f rest ((entries f b h).2.new (entries f b h).1).2
      simp only [Heap.new] at f2
      simp only [entries, Heap.new] at hH
      simp only [entries, read_ref, T.leafAt, Heap.new]
      have e : H.dict (entries f b h).2.next = (entries f b h).1 := by
        rw [hH _ f1.1 (by omega), f2.2 _ (by omega)]
        simp
      rw [ih _ fun i h1 h2 => hH i (by simp only at h1; omega) h2, e, ihb h fun i h1 h2 => by
        rw [hH i h1 (by omega), f2.2 i (by omega), if_neg (by omega)]]
      split_ifs <;> rfl

/-! ### C261 -/

/-- C261, the batch itself: after `apply_values_transform(f, inplace=True)` (and so after `to_numpy_` and `to_torch_`) every value of the batch, nested
ones included, is that of the function, and no others exist. Missing: nested batches held elsewhere, see `C261_violated`. -/
theorem C261_batch_partial (f : α → α) (h : Heap α) (addr : Nat) (ha : addr < h.next) (b : T α) (hb : Content h (h.dict addr) b)
    (path : List String) : (applyInPlace f addr b h).get addr path = (h.get addr path).map f := by
  have f1 := entries_frame f b h
  rw [Heap.get, Heap.get, read_content h _ b hb]
  simp only [applyInPlace, if_true]
  exact entries_read f b h _ (fun i h1 _ => by simp only; rw [if_neg (by omega)]) path

/-- C261, with `inplace=False`: the result is a new batch with all values transformed, and all batches that existed before are as they were. -/
theorem C261_copy (f : α → α) (h : Heap α) (addr : Nat) (b : T α) (hb : Content h (h.dict addr) b) :
    (∀ path, (applyCopy f b h).2.get (applyCopy f b h).1 path = (h.get addr path).map f) ∧ h.next ≤ (applyCopy f b h).1 ∧
    ∀ i < h.next, (applyCopy f b h).2.dict i = h.dict i := by
  have f1 := entries_frame f b h
  refine ⟨fun path => ?_, f1.1, fun i hi => ?_⟩
  · rw [Heap.get, Heap.get, read_content h _ b hb]
    simp only [applyCopy, Heap.new, if_true]
    exact entries_read f b h _ (fun i _ h2 => by simp only; rw [if_neg (by omega)]) path
  · simp only [applyCopy, Heap.new]
    rw [if_neg (by omega)]
    exact f1.2 i hi

/-- With `inplace=True` every other batch in memory stays as it was, nested ones included. -/
theorem C261_others (f : α → α) (h : Heap α) (addr : Nat) (b : T α) (i : Nat) (hi : i < h.next) (hne : i ≠ addr) :
    (applyInPlace f addr b h).dict i = h.dict i := by
  simp only [applyInPlace]
  rw [if_neg hne]
  exact (entries_frame f b h).2 i hi

/-- The batch 0 with an array and a nested batch 1. -/
def exHeap : Heap Nat :=
  ⟨2, fun i => if i = 0 then [("rew", .leaf 5), ("obs", .ref 1)] else if i = 1 then [("pos", .leaf 7)] else []⟩

/-- Its content. -/
def exContent : T Nat := .leaf "rew" 5 (.sub "obs" (.leaf "pos" 7 .nil) .nil)

example : Content exHeap (exHeap.dict 0) exContent ∧
    (applyInPlace (· + 1) 0 exContent exHeap).get 0 ["obs", "pos"] = some 8 ∧ (applyInPlace (· + 1) 0 exContent exHeap).get 0 ["rew"] = some 6 ∧
    (applyInPlace (· + 1) 0 exContent exHeap).get 1 ["pos"] = some 7 := by
  refine ⟨?_, ?_, ?_, ?_⟩ <;> simp [Content, exHeap, exContent, applyInPlace, entries, Heap.new, Heap.get, read, List.lookup]

/-- The full property: `inplace=True` transforms the batch and its nested batches in place, so that it makes no difference whether one reads
`x.obs.pos` or `o.pos` for `o = x.obs`. -/
def C261 : Prop :=
  ∀ (f : Nat → Nat) (h : Heap Nat) (addr : Nat) (b : T Nat), addr < h.next → Content h (h.dict addr) b →
    (∀ path, (applyInPlace f addr b h).get addr path = (h.get addr path).map f) ∧
    ∀ k i, (k, Cell.ref i) ∈ h.dict addr → ∀ path, (applyInPlace f addr b h).get i path = (h.get i path).map f

/-- It fails for a nested batch that one keeps. -/
theorem C261_violated : ¬ C261 := by
  intro h
  have h1 := (h (· + 1) exHeap 0 exContent (by decide) (by simp [Content, exHeap, exContent])).2 "obs" 1 (by simp [exHeap]) ["pos"]
  simp [exHeap, exContent, applyInPlace, entries, Heap.new, Heap.get, read, List.lookup] at h1

/-! ### C262 -/

section twoD

variable {F : Type} [Field F]

theorem mapV_leafAt {α : Type} (f : α → α) (b : T α) (path : List String) : (mapV f b).leafAt path = (b.leafAt path).map f := by
  induction b generalizing path with
  | nil => cases path <;> rfl
  | leaf k a rest ih =>
    cases path with
    | nil => rfl
    | cons key path =>
      simp only [mapV, T.leafAt, ih]
      split_ifs <;> rfl
  | sub k b rest ihb ih =>
    cases path with
    | nil => rfl
    | cons key path =>
      simp only [mapV, T.leafAt, ih, ihb]
      split_ifs <;> rfl

theorem set_leafAt {α : Type} (k : String) (a : α) (b : T α) (path : List String) :
    (b.set k (.leaf a)).leafAt path = match path with
      | [] => none
      | key :: p => if k = key then (if p = [] then some a else none) else b.leafAt (key :: p) := by
  induction b generalizing path with
  | nil => cases path <;> rfl
  | leaf k' a' rest ih =>
    cases path with
    | nil => exact leafAt_nil _
    | cons key p =>
      simp only [T.set]
      by_cases e : k' = k
      · subst e
        simp only [if_true, T.leafAt]
        split_ifs <;> rfl
      · simp only [e, if_false, T.leafAt, ih]
        by_cases e2 : k' = key
        · subst e2
          simp [Ne.symm e]
        · simp [e2]
  | sub k' b' rest _ ih =>
    cases path with
    | nil => exact leafAt_nil _
    | cons key p =>
      simp only [T.set]
      by_cases e : k' = k
      · subst e
        simp only [if_true, T.leafAt]
        split_ifs <;> rfl
      · simp only [e, if_false, T.leafAt, ih]
        by_cases e2 : k' = key
        · subst e2
          simp [Ne.symm e]
        · simp [e2]

theorem leafAt_key {α : Type} {b : T α} {key : String} {p : List String} (h : key ∉ b.keys) : b.leafAt (key :: p) = none := by
  induction b with
  | nil => rfl
  | leaf k a rest ih =>
    simp only [T.keys, List.mem_cons, not_or] at h
    simp only [T.leafAt, if_neg (Ne.symm h.1)]
    exact ih h.2
  | sub k b rest _ ih =>
    simp only [T.keys, List.mem_cons, not_or] at h
    simp only [T.leafAt, if_neg (Ne.symm h.1)]
    exact ih h.2

/-- What the second loop does to the entries. -/
theorem fixDists_leafAt (b r out : T (Val F)) (hwf : b.WF) (h : fixDists b r = .ok out) (path : List String) :
    (∀ k d, path = [k] → b.leafAt [k] = some (.dist d) → ∃ d', d.atLeast2d = .ok d' ∧ out.leafAt path = some (.dist d')) ∧
    ((∀ k d, path = [k] → b.leafAt [k] ≠ some (.dist d)) → (∀ k p, path = k :: p → p ≠ [] → ∀ d, b.leafAt [k] ≠ some (.dist d)) →
      out.leafAt path = r.leafAt path) := by
  induction b generalizing r with
  | nil =>
    simp only [fixDists, Except.ok.injEq] at h
    subst h
    exact ⟨fun k d _ h => by simp [T.leafAt] at h, fun _ _ => rfl⟩
  | leaf k v rest ih =>
    obtain ⟨hk, hwf⟩ := hwf
    have keep : ∀ (hv : ∀ d, v ≠ .dist d) (_ : fixDists rest r = .ok out), (∀ k' d, path = [k'] → (T.leaf k v rest).leafAt [k'] = some (.dist d) →
        ∃ d', d.atLeast2d = .ok d' ∧ out.leafAt path = some (.dist d')) ∧
        ((∀ k' d, path = [k'] → (T.leaf k v rest).leafAt [k'] ≠ some (.dist d)) →
          (∀ k' p, path = k' :: p → p ≠ [] → ∀ d, (T.leaf k v rest).leafAt [k'] ≠ some (.dist d)) → out.leafAt path = r.leafAt path) := by
      intro hv h
      obtain ⟨h1, h2⟩ := ih r hwf h
      have e : ∀ k' d, (T.leaf k v rest).leafAt [k'] = some (.dist d) ↔ rest.leafAt [k'] = some (.dist d) := by
        intro k' d
        by_cases e : k = k'
        · subst e
          simp [T.leafAt, leafAt_key hk, hv d]
        · simp [T.leafAt, e]
      refine ⟨fun k' d hp hd => h1 k' d hp ((e k' d).1 hd), fun g1 g2 => h2 (fun k' d hp hd => g1 k' d hp ((e k' d).2 hd))
        fun k' p hp hne d hd => g2 k' p hp hne d ((e k' d).2 hd)⟩
    cases v with
    | arr s d => exact keep (by simp) h
    | boxed d => exact keep (by simp) h
    | dist d0 =>
      simp only [fixDists] at h
      cases hd0 : d0.atLeast2d with
      | error e => simp [hd0] at h
      | ok d1 =>
        simp only [hd0] at h
        obtain ⟨h1, h2⟩ := ih _ hwf h
        refine ⟨fun k' d hp hd => ?_, fun g1 g2 => ?_⟩
        · by_cases e : k = k'
          · subst e
            simp only [T.leafAt, if_true, Option.some.injEq, Val.dist.injEq] at hd
            subst hd
            refine ⟨d1, hd0, ?_⟩
            rw [h2 (fun k2 d hp2 => by
              rw [hp] at hp2; cases hp2; rw [leafAt_key hk]; simp) (fun k2 p hp2 hne => by
              rw [hp] at hp2; cases hp2; exact absurd rfl hne), hp, set_leafAt]
            simp
          · refine h1 k' d hp ?_
            simpa [T.leafAt, e] using hd
        · have h2' := h2 (fun k' d hp hd => g1 k' d hp (by
              have : k ≠ k' := fun e => by subst e; rw [leafAt_key hk] at hd; cases hd
              simpa [T.leafAt, this] using hd)) (fun k' p hp hne d hd => g2 k' p hp hne d (by
              have : k ≠ k' := fun e => by subst e; rw [leafAt_key hk] at hd; cases hd
              simpa [T.leafAt, this] using hd))
          rw [h2', set_leafAt]
          cases path with
          | nil => exact (leafAt_nil _).symm
          | cons key p =>
            have : k ≠ key := by
              intro e
              subst e
              cases p with
              | nil => exact g1 k d0 rfl (by simp [T.leafAt])
              | cons x p => exact g2 k (x :: p) rfl (by simp) d0 (by simp [T.leafAt])
            simp [this]
  | sub k c rest _ ih =>
    obtain ⟨hk, _, hwf⟩ := hwf
    simp only [fixDists] at h
    obtain ⟨h1, h2⟩ := ih r hwf h
    have e : ∀ k' d, (T.sub k c rest).leafAt [k'] = some (.dist d) ↔ rest.leafAt [k'] = some (.dist d) := by
      intro k' d
      by_cases e : k = k'
      · subst e
        simp [T.leafAt, leafAt_key hk, leafAt_nil]
      · simp [T.leafAt, e]
    exact ⟨fun k' d hp hd => h1 k' d hp ((e k' d).1 hd), fun g1 g2 => h2 (fun k' d hp hd => g1 k' d hp ((e k' d).2 hd))
      fun k' p hp hne d hd => g2 k' p hp hne d ((e k' d).2 hd)⟩

/-- C262, arrays: `to_at_least_2d` gives every array, nested ones included, at least two dimensions by putting dimensions of size 1 in front, and keeps the
numbers. -/
theorem C262_arrays (b out : T (Val F)) (hwf : b.WF) (h : toAtLeast2d b = .ok out) (path : List String) (s : List Nat) (d : List F)
    (hp : b.leafAt path = some (.arr s d)) :
    ∃ s', out.leafAt path = some (.arr s' d) ∧ s' = List.replicate (2 - s.length) 1 ++ s ∧ 2 ≤ s'.length := by
  have hk : out.leafAt path = (mapV atLeast2d b).leafAt path := by
    refine (fixDists_leafAt b _ out hwf h path).2 ?_ ?_
    · intro k d' e
      subst e
      rw [hp]; simp
    · intro k p e hne d' hd
      subst e
      have : ∀ c : T (Val F), c.leafAt [k] = some (.dist d') → c.leafAt (k :: p) = none := by
        intro c
        induction c with
        | nil => intro _; rfl
        | leaf k' v rest ih =>
          by_cases e : k' = k
          · simp [T.leafAt, e, hne]
          · simpa [T.leafAt, e] using ih
        | sub k' c' rest _ ih =>
          by_cases e : k' = k
          · simp [T.leafAt, e, leafAt_nil]
          · simpa [T.leafAt, e] using ih
      rw [this b hd] at hp
      cases hp
  rw [hk, mapV_leafAt, hp]
  match s with
  | [] => exact ⟨[1, 1], rfl, rfl, by simp⟩
  | [n] => exact ⟨[1, n], rfl, rfl, by simp⟩
  | n :: m :: s => exact ⟨n :: m :: s, rfl, by simp, by simp⟩

/-- C262, distributions that are entries of the batch itself are given a batch dimension as by `dist_to_atleast_2d` (see C201). Missing: distributions in nested
batches, see `C262_violated`. -/
theorem C262_dists_partial (b out : T (Val F)) (hwf : b.WF) (h : toAtLeast2d b = .ok out) (k : String) (d : Dists.Dist F)
    (hp : b.leafAt [k] = some (.dist d)) : ∃ d', d.atLeast2d = .ok d' ∧ out.leafAt [k] = some (.dist d') :=
  (fixDists_leafAt b _ out hwf h [k]).1 k d rfl hp

/-- C262 fails for distributions in nested batches: they are put into an array of objects. -/
theorem C262_violated (d : Dists.Dist F) :
    ∃ out, toAtLeast2d (.sub "policy" (.leaf "dist" (.dist d) .nil) .nil) = .ok out ∧ out.leafAt ["policy", "dist"] = some (.boxed d) :=
  ⟨_, rfl, rfl⟩

example : toAtLeast2d (F := ℚ) (.leaf "rew" (.arr [] [3]) (.sub "obs" (.leaf "pos" (.arr [2] [1, 2]) .nil)
    (.leaf "dist" (.dist (.cat (.r1 [1 / 4, 3 / 4]))) .nil))) =
    .ok (.leaf "rew" (.arr [1, 1] [3]) (.sub "obs" (.leaf "pos" (.arr [1, 2] [1, 2]) .nil)
      (.leaf "dist" (.dist (.cat (.r2 [[1 / 4, 3 / 4]]))) .nil))) := by
  have h : (Dists.Dist.cat (.r1 [1 / 4, (3 / 4 : ℚ)])).atLeast2d = .ok (.cat (.r2 [[1 / 4, 3 / 4]])) := by
    simp only [Dists.Dist.atLeast2d]
    decide +kernel
  simp only [toAtLeast2d, fixDists, mapV, atLeast2d, h]
  rfl

end twoD

end Verif.ApplyValues
