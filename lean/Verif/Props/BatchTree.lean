import Verif.Spec.BatchTree
import Mathlib.Tactic.SplitIfs
import Mathlib.Data.Rat.Cast.Defs
import Mathlib.Tactic.NormNum

/-! Properties C172, C178, C179: arithmetic on batches, copying, conversion to tensors. -/

namespace Verif.BatchTree

variable {α β : Type}

/-! ### Lemmas -/

theorem T.leafAt_nil (b : T α) : b.leafAt [] = none := by cases b <;> rfl

theorem T.mem_keys {b : T α} {k : String} {path : List String} {a : α} (hl : b.leafAt (k :: path) = some a) : k ∈ b.keys := by
  induction b with
  | nil => simp [T.leafAt] at hl
  | leaf k' _ rest ih =>
    simp only [T.leafAt] at hl
    split_ifs at hl with e
    · simp [T.keys, e]
    · exact List.mem_cons_of_mem _ (ih hl)
  | sub k' _ rest _ ih =>
    simp only [T.leafAt] at hl
    split_ifs at hl with e
    · simp [T.keys, e]
    · exact List.mem_cons_of_mem _ (ih hl)

theorem SameOrder.keys {b : T α} {c : T β} (h : SameOrder b c) : b.keys = c.keys := by
  induction b generalizing c with
  | nil => cases c <;> simp_all [SameOrder, T.keys]
  | leaf k _ rest ih =>
    cases c with
    | leaf k' _ rest' => simp only [SameOrder] at h; simp [T.keys, h.1, ih h.2]
    | nil => simp [SameOrder] at h
    | sub _ _ _ => simp [SameOrder] at h
  | sub k _ rest _ ih =>
    cases c with
    | sub k' _ rest' => simp only [SameOrder] at h; simp [T.keys, h.1, ih h.2.2]
    | nil => simp [SameOrder] at h
    | leaf _ _ _ => simp [SameOrder] at h

theorem T.leafAt_none {b : T α} {k : String} {path : List String} (h : k ∉ b.keys) : b.leafAt (k :: path) = none := by
  cases hl : b.leafAt (k :: path) with
  | none => rfl
  | some a => exact absurd (T.mem_keys hl) h

/-- A function that succeeds on all values is applied at every path. -/
theorem mapE_ok (f : α → Except Err β) (b : T α) (hwf : b.WF) (h : ∀ path a, b.leafAt path = some a → ∃ x, f a = .ok x) :
    ∃ r, b.mapE f = .ok r ∧ r.keys = b.keys ∧ (∀ path, b.leafAt path = none → r.leafAt path = none) ∧
      (∀ path a, b.leafAt path = some a → ∃ x, f a = .ok x ∧ r.leafAt path = some x) ∧
      ∀ path, r.isSub path = b.isSub path := by
  induction b with
  | nil =>
    refine ⟨.nil, rfl, rfl, fun p _ => by cases p <;> rfl, ?_, fun p => by cases p <;> rfl⟩
    intro path a hl
    cases path <;> simp [T.leafAt] at hl
  | leaf k a rest ih =>
    obtain ⟨x, hx⟩ := h [k] a (by simp [T.leafAt])
    obtain ⟨r, hr, hk, h1, h2, h3⟩ := ih hwf.2 (by
      intro path a' hl
      cases path with
      | nil => rw [T.leafAt_nil] at hl; cases hl
      | cons key path =>
        apply h (key :: path) a'
        have hne : k ≠ key := by
          rintro rfl
          exact hwf.1 (T.mem_keys hl)
        simp only [T.leafAt, if_neg hne]
        exact hl)
    refine ⟨.leaf k x r, by simp [T.mapE, hx, hr, bind, Except.bind], by simp [T.keys, hk], ?_, ?_, ?_⟩
    · intro path hp
      cases path with
      | nil => rfl
      | cons key path =>
        simp only [T.leafAt] at hp ⊢
        split_ifs at hp ⊢ with e1 e2
        · rfl
        · exact h1 _ hp
    · intro path a' hp
      cases path with
      | nil => simp [T.leafAt] at hp
      | cons key path =>
        simp only [T.leafAt] at hp ⊢
        split_ifs at hp ⊢ with e1 e2
        · cases hp; exact ⟨x, hx, rfl⟩
        · exact h2 _ _ hp
    · intro path
      cases path with
      | nil => rfl
      | cons key path =>
        simp only [T.isSub]
        split_ifs with e
        · rfl
        · exact h3 _
  | sub k b rest ihb ih =>
    obtain ⟨rb, hrb, hkb, b1, b2, b3⟩ := ihb hwf.2.1 (by
      intro path a' hl
      exact h (k :: path) a' (by simp [T.leafAt, hl]))
    obtain ⟨r, hr, hk, h1, h2, h3⟩ := ih hwf.2.2 (by
      intro path a' hl
      cases path with
      | nil => rw [T.leafAt_nil] at hl; cases hl
      | cons key path =>
        apply h (key :: path) a'
        have hne : k ≠ key := by
          rintro rfl
          exact hwf.1 (T.mem_keys hl)
        simp only [T.leafAt, if_neg hne]
        exact hl)
    refine ⟨.sub k rb r, by simp [T.mapE, hrb, hr, bind, Except.bind], by simp [T.keys, hk], ?_, ?_, ?_⟩
    · intro path hp
      cases path with
      | nil => rfl
      | cons key path =>
        simp only [T.leafAt] at hp ⊢
        split_ifs at hp ⊢ with e1
        · exact b1 _ hp
        · exact h1 _ hp
    · intro path a' hp
      cases path with
      | nil => simp [T.leafAt] at hp
      | cons key path =>
        simp only [T.leafAt] at hp ⊢
        split_ifs at hp ⊢ with e1
        · exact b2 _ _ hp
        · exact h2 _ _ hp
    · intro path
      cases path with
      | nil => rfl
      | cons key path =>
        simp only [T.isSub]
        split_ifs with e
        · exact b3 _
        · exact h3 _

/-- A nested batch of arrays, for the examples. -/
def exT (a : Arr) (b : Arr) : T Arr := .leaf "a" a (.sub "n" (.leaf "b" b .nil) (.sub "e" .nil .nil))

/-! ### C172: arithmetic -/

/-- The sum of two batches with the same keys (in whatever order) and arrays of the same length, and the sum, product and
quotient of a batch and a number, are computed value by value. -/
def C172 : Prop :=
  (∀ a b : T Arr, a.WF → b.WF → SameShape a b →
    (∀ path x y, a.leafAt path = some x → b.leafAt path = some y → x.vals.length = y.vals.length) →
    ∃ r, T.add a b = .ok r ∧ ∀ path, (r.leafAt path).map Arr.vals =
      (a.leafAt path).bind fun x => (b.leafAt path).map fun y => List.zipWith (· + ·) x.vals y.vals) ∧
  (∀ (a : T Arr) (c : Num), a.WF →
    (∃ r, a.withNum (Arr.addNum c) = .ok r ∧
      ∀ path, (r.leafAt path).map Arr.vals = (a.leafAt path).map fun x => x.vals.map fun v => v + c.val) ∧
    (∃ r, a.withNum (Arr.mulNum c) = .ok r ∧
      ∀ path, (r.leafAt path).map Arr.vals = (a.leafAt path).map fun x => x.vals.map fun v => v * c.val) ∧
    (c.val ≠ 0 → ∃ r, a.withNum (Arr.divNum c) = .ok r ∧
      ∀ path, (r.leafAt path).map Arr.vals = (a.leafAt path).map fun x => x.vals.map fun v => v / c.val))

/-- Two batches with the keys `a` and `b` in different order: the value of `a` is added to that of `b`. -/
theorem C172_order_violated : ∃ a b : T Arr, a.WF ∧ b.WF ∧ SameShape a b ∧
    ∃ r, T.add a b = .ok r ∧ a.leafAt ["a"] = some (.ints [1]) ∧ b.leafAt ["a"] = some (.ints [10]) ∧
      r.leafAt ["a"] = some (.ints [21]) := by
  refine ⟨.leaf "a" (.ints [1]) (.leaf "b" (.ints [2]) .nil), .leaf "b" (.ints [20]) (.leaf "a" (.ints [10]) .nil), ?_, ?_, ?_,
    .leaf "a" (.ints [21]) (.leaf "b" (.ints [12]) .nil), by decide, by decide, by decide, by decide⟩
  · simp [T.WF, T.keys]
  · simp [T.WF, T.keys]
  · intro path
    rcases path with _ | ⟨k, _ | ⟨k', path⟩⟩
    · simp [T.leafAt, T.isSub]
    · simp only [T.leafAt, T.isSub]
      by_cases h1 : "a" = k <;> by_cases h2 : "b" = k <;> simp [h1, h2]
    · simp only [T.leafAt, T.isSub]
      by_cases h1 : "a" = k <;> by_cases h2 : "b" = k <;> simp [h1, h2]

/-- A batch of integers cannot be divided by a number. -/
theorem C172_division_violated (k : String) (xs : List Int) (c : Num) :
    (T.leaf k (.ints xs) .nil).withNum (Arr.divNum c) = .error .typeError := by
  simp [T.withNum, T.mapE, Arr.divNum, bind, Except.bind]

theorem C172_violated : ¬ C172 := by
  rintro ⟨_, h⟩
  obtain ⟨_, _, h3⟩ := h (.leaf "a" (.ints [4]) .nil) (.int 2) (by simp [T.WF, T.keys])
  obtain ⟨r, hr, _⟩ := h3 (by simp [Num.val])
  rw [C172_division_violated] at hr
  cases hr

theorem addArr_ok {x y : Arr} (hlen : x.vals.length = y.vals.length) (hk : ∀ xs ys, ¬ (x = .ints xs ∧ y = .floats ys)) :
    ∃ z, x.addArr y = .ok z ∧ z.vals = List.zipWith (· + ·) x.vals y.vals := by
  cases x with
  | ints xs =>
    cases y with
    | ints ys =>
      simp only [Arr.vals, List.length_map] at hlen
      refine ⟨.ints (List.zipWith (· + ·) xs ys), by simp [Arr.addArr, hlen], ?_⟩
      simp only [Arr.vals, List.zipWith_map, List.map_zipWith]
      congr 1
      funext a b
      push_cast
      rfl
    | floats ys => exact absurd ⟨rfl, rfl⟩ (hk xs ys)
  | floats xs =>
    cases y with
    | ints ys =>
      simp only [Arr.vals, List.length_map] at hlen
      exact ⟨.floats (List.zipWith (fun (x : Rat) (y : Int) => x + (y : Rat)) xs ys), by simp [Arr.addArr, hlen],
        by simp only [Arr.vals, List.zipWith_map_right]⟩
    | floats ys =>
      simp only [Arr.vals] at hlen
      exact ⟨.floats (List.zipWith (· + ·) xs ys), by simp [Arr.addArr, hlen], rfl⟩

theorem add_same {a b : T Arr} (ha : a.WF) (hs : SameOrder a b)
    (hlen : ∀ path x y, a.leafAt path = some x → b.leafAt path = some y → x.vals.length = y.vals.length)
    (hkind : ∀ path xs ys, ¬ (a.leafAt path = some (.ints xs) ∧ b.leafAt path = some (.floats ys))) :
    ∃ r, T.add a b = .ok r ∧ SameOrder r a ∧ ∀ path, (r.leafAt path).map Arr.vals =
      (a.leafAt path).bind fun x => (b.leafAt path).map fun y => List.zipWith (· + ·) x.vals y.vals := by
  induction a generalizing b with
  | nil =>
    cases b with
    | nil => exact ⟨.nil, by simp [T.add], trivial, fun p => by cases p <;> rfl⟩
    | leaf _ _ _ => simp [SameOrder] at hs
    | sub _ _ _ => simp [SameOrder] at hs
  | leaf k x rest ih =>
    cases b with
    | nil => simp [SameOrder] at hs
    | sub _ _ _ => simp [SameOrder] at hs
    | leaf k' y rest' =>
      simp only [SameOrder] at hs
      obtain ⟨rfl, hs⟩ := hs
      have hk' : k ∉ rest'.keys := by rw [← hs.keys]; exact ha.1
      obtain ⟨z, hz, hzv⟩ := addArr_ok (hlen [k] x y (by simp [T.leafAt]) (by simp [T.leafAt]))
        (fun xs ys h => hkind [k] xs ys (by simp [T.leafAt, h.1, h.2]))
      have lift : ∀ {path : List String} {u : Arr}, rest.leafAt path = some u →
          (T.leaf k x rest).leafAt path = some u ∧ ∀ v, rest'.leafAt path = some v → (T.leaf k y rest').leafAt path = some v := by
        intro path u hu
        cases path with
        | nil => rw [T.leafAt_nil] at hu; cases hu
        | cons key path =>
          have hne : k ≠ key := by rintro rfl; exact ha.1 (T.mem_keys hu)
          exact ⟨by simpa only [T.leafAt, if_neg hne] using hu, fun v hv => by simpa only [T.leafAt, if_neg hne] using hv⟩
      obtain ⟨r, hr, ho, hv⟩ := ih ha.2 hs (fun path u v hu hv => hlen path u v (lift hu).1 ((lift hu).2 v hv))
        (fun path xs ys h => hkind path xs ys ⟨(lift h.1).1, (lift h.1).2 _ h.2⟩)
      refine ⟨.leaf k z r, by simp [T.add, hz, hr, bind, Except.bind], ⟨rfl, ho⟩, ?_⟩
      intro path
      cases path with
      | nil => rfl
      | cons key path =>
        simp only [T.leafAt]
        split_ifs with e1 e2
        · simp [hzv]
        · rfl
        · exact hv _
  | sub k x rest ihx ih =>
    cases b with
    | nil => simp [SameOrder] at hs
    | leaf _ _ _ => simp [SameOrder] at hs
    | sub k' y rest' =>
      simp only [SameOrder] at hs
      obtain ⟨rfl, hsx, hs⟩ := hs
      have hk' : k ∉ rest'.keys := by rw [← hs.keys]; exact ha.1
      obtain ⟨z, hz, hoz, hzv⟩ := ihx ha.2.1 hsx
        (fun path u v hu hv => hlen (k :: path) u v (by simpa [T.leafAt] using hu) (by simpa [T.leafAt] using hv))
        (fun path xs ys h => hkind (k :: path) xs ys ⟨by simpa [T.leafAt] using h.1, by simpa [T.leafAt] using h.2⟩)
      have lift : ∀ {path : List String} {u : Arr}, rest.leafAt path = some u →
          (T.sub k x rest).leafAt path = some u ∧ ∀ v, rest'.leafAt path = some v → (T.sub k y rest').leafAt path = some v := by
        intro path u hu
        cases path with
        | nil => rw [T.leafAt_nil] at hu; cases hu
        | cons key path =>
          have hne : k ≠ key := by rintro rfl; exact ha.1 (T.mem_keys hu)
          exact ⟨by simpa only [T.leafAt, if_neg hne] using hu, fun v hv => by simpa only [T.leafAt, if_neg hne] using hv⟩
      obtain ⟨r, hr, ho, hv⟩ := ih ha.2.2 hs (fun path u v hu hv => hlen path u v (lift hu).1 ((lift hu).2 v hv))
        (fun path xs ys h => hkind path xs ys ⟨(lift h.1).1, (lift h.1).2 _ h.2⟩)
      refine ⟨.sub k z r, ?_, ⟨rfl, hoz, ho⟩, ?_⟩
      · cases x with
        | nil =>
          cases y with
          | nil => simp only [T.add] at hz; cases hz; simp [T.add, hr, bind, Except.bind]
          | leaf _ _ _ => simp [SameOrder] at hsx
          | sub _ _ _ => simp [SameOrder] at hsx
        | leaf _ _ _ => simp [T.add, hz, hr, bind, Except.bind]
        | sub _ _ _ => simp [T.add, hz, hr, bind, Except.bind]
      · intro path
        cases path with
        | nil => rfl
        | cons key path =>
          simp only [T.leafAt]
          split_ifs with e1
          · exact hzv _
          · exact hv _

/-- Batches with the same keys in the same order, at all levels: the sum exists, has these keys, and is computed value by
value, unless a float array is to be added to an integer array. -/
theorem C172_add_partial (a b : T Arr) (ha : a.WF) (hs : SameOrder a b)
    (hlen : ∀ path x y, a.leafAt path = some x → b.leafAt path = some y → x.vals.length = y.vals.length)
    (hkind : ∀ path xs ys, ¬ (a.leafAt path = some (.ints xs) ∧ b.leafAt path = some (.floats ys))) :
    ∃ r, T.add a b = .ok r ∧ SameOrder r a ∧ ∀ path, (r.leafAt path).map Arr.vals =
      (a.leafAt path).bind fun x => (b.leafAt path).map fun y => List.zipWith (· + ·) x.vals y.vals :=
  add_same ha hs hlen hkind

example : (exT (.ints [1, 2]) (.floats [3])).WF ∧ SameOrder (exT (.ints [1, 2]) (.floats [3])) (exT (.ints [5, 7]) (.ints [4])) := by
  simp [exT, T.WF, T.keys, SameOrder]
example : (T.add (exT (.ints [1, 2]) (.floats [3])) (exT (.ints [5, 7]) (.ints [4]))).toOption =
    some (exT (.ints [6, 9]) (.floats [7])) := by decide +kernel

/-- The entries of a batch in order. -/
def slots {α : Type} : T α → List (Entry α)
  | .nil => []
  | .leaf _ a rest => .leaf a :: slots rest
  | .sub _ b rest => .sub b :: slots rest

/-- How an entry of a sum is made of those of the summands. -/
inductive Summed : Entry Arr → Entry Arr → Entry Arr → Prop
  | arrays (x y z : Arr) : x.vals.length = y.vals.length → (∀ xs ys, ¬ (x = .ints xs ∧ y = .floats ys)) →
      z.vals = List.zipWith (· + ·) x.vals y.vals → Summed (.leaf x) (.leaf y) (.leaf z)
  | nested (a b r : T Arr) : T.add a b = .ok r → Summed (.sub a) (.sub b) (.sub r)
  | empty (e : Entry Arr) : Summed (.sub .nil) e (.sub .nil)

theorem addArr_inv {x y z : Arr} (h : x.addArr y = .ok z) : Summed (.leaf x) (.leaf y) (.leaf z) := by
  have hlen : x.vals.length = y.vals.length := by
    cases x <;> cases y <;> simp only [Arr.addArr] at h
    · split_ifs at h with e
      simpa [Arr.vals] using e
    · cases h
    · split_ifs at h with e
      simpa [Arr.vals] using e
    · split_ifs at h with e
      simpa [Arr.vals] using e
  have hk : ∀ xs ys, ¬ (x = .ints xs ∧ y = .floats ys) := by
    rintro xs ys ⟨rfl, rfl⟩
    simp only [Arr.addArr] at h
    cases h
  obtain ⟨z', h1, h2⟩ := addArr_ok hlen hk
  rw [h1] at h
  cases h
  exact .arrays _ _ _ hlen hk h2

/-- A sum exists only if the two batches have the same number of entries at every level, arrays (of equal lengths, and no floats for integers) in the places of
arrays and batches in the places of batches; nothing is dropped. Empty nested batches of the left side stay empty. -/
theorem C172_add_only (a b r : T Arr) (h : T.add a b = .ok r) :
    r.keys = a.keys ∧ (slots b).length = (slots a).length ∧
      ∀ (i : Nat) (x y : Entry Arr), (slots a)[i]? = some x → (slots b)[i]? = some y → ∃ z, (slots r)[i]? = some z ∧ Summed x y z := by
  have step : ∀ (x y z : Entry Arr) (as bs rs : List (Entry Arr)), Summed x y z →
      (bs.length = as.length ∧ ∀ (i : Nat) (x y : Entry Arr), as[i]? = some x → bs[i]? = some y → ∃ z, rs[i]? = some z ∧ Summed x y z) →
      (y :: bs).length = (x :: as).length ∧
        ∀ (i : Nat) (x' y' : Entry Arr), (x :: as)[i]? = some x' → (y :: bs)[i]? = some y' → ∃ z', (z :: rs)[i]? = some z' ∧ Summed x' y' z' := by
    intro x y z as bs rs h1 h2
    refine ⟨by simp [h2.1], ?_⟩
    intro i x' y' hx hy
    cases i with
    | zero => cases hx; cases hy; exact ⟨z, rfl, h1⟩
    | succ i => exact h2.2 i x' y' hx hy
  induction a generalizing b r with
  | nil =>
    cases b with
    | nil => cases h; exact ⟨rfl, rfl, by intro i x y hx; simp [slots] at hx⟩
    | leaf k y rest => simp [T.add] at h
    | sub k y rest => simp [T.add] at h
  | leaf k x rest ih =>
    cases b with
    | nil => simp [T.add] at h
    | sub k y rest => simp [T.add] at h
    | leaf k' y rest' =>
      simp only [T.add, bind, Except.bind] at h
      cases h1 : x.addArr y with
      | error e => rw [h1] at h; cases h
      | ok z =>
        rw [h1] at h
        simp only at h
        cases h2 : T.add rest rest' with
        | error e => rw [h2] at h; cases h
        | ok r' =>
          rw [h2] at h
          cases h
          obtain ⟨i1, i2⟩ := ih _ _ h2
          exact ⟨by simp [T.keys, i1], step _ _ _ _ _ _ (addArr_inv h1) i2⟩
  | sub k x rest _ ih =>
    cases b with
    | nil => simp [T.add] at h
    | leaf k' y rest' =>
      cases x with
      | leaf _ _ _ => simp [T.add] at h
      | sub _ _ _ => simp [T.add] at h
      | nil =>
        simp only [T.add, bind, Except.bind] at h
        cases h2 : T.add rest rest' with
        | error e => rw [h2] at h; cases h
        | ok r' =>
          rw [h2] at h
          cases h
          obtain ⟨i1, i2⟩ := ih _ _ h2
          exact ⟨by simp [T.keys, i1], step _ _ _ _ _ _ (.empty _) i2⟩
    | sub k' y rest' =>
      have hx : ∃ z r', Summed (.sub x) (.sub y) (.sub z) ∧ T.add rest rest' = .ok r' ∧ r = .sub k z r' := by
        cases x with
        | nil =>
          simp only [T.add, bind, Except.bind] at h
          cases h2 : T.add rest rest' with
          | error e => rw [h2] at h; cases h
          | ok r' => rw [h2] at h; cases h; exact ⟨_, _, .empty _, rfl, rfl⟩
        | leaf k1 a1 r1 =>
          simp only [T.add.eq_def (.sub k _ rest), bind, Except.bind] at h
          cases h1 : T.add (.leaf k1 a1 r1) y with
          | error e => rw [h1] at h; cases h
          | ok z =>
            rw [h1] at h
            cases h2 : T.add rest rest' with
            | error e => rw [h2] at h; cases h
            | ok r' => rw [h2] at h; cases h; exact ⟨_, _, .nested _ _ _ h1, rfl, rfl⟩
        | sub k1 a1 r1 =>
          simp only [T.add.eq_def (.sub k _ rest), bind, Except.bind] at h
          cases h1 : T.add (.sub k1 a1 r1) y with
          | error e => rw [h1] at h; cases h
          | ok z =>
            rw [h1] at h
            cases h2 : T.add rest rest' with
            | error e => rw [h2] at h; cases h
            | ok r' => rw [h2] at h; cases h; exact ⟨_, _, .nested _ _ _ h1, rfl, rfl⟩
      obtain ⟨z, r', hz, h2, rfl⟩ := hx
      obtain ⟨i1, i2⟩ := ih _ _ h2
      exact ⟨by simp [T.keys, i1], step _ _ _ _ _ _ hz i2⟩

example : (T.add (exT (.ints [1, 2]) (.floats [3])) (exT (.ints [5]) (.ints [4]))).toOption = none ∧
    (T.add (exT (.ints [1, 2]) (.floats [3])) .nil).toOption = none := by decide +kernel

theorem withNum_spec (op : Arr → Except Err Arr) (g : Rat → Rat) (a : T Arr) (ha : a.WF)
    (h : ∀ path x, a.leafAt path = some x → ∃ y, op x = .ok y ∧ y.vals = x.vals.map g) :
    ∃ r, a.withNum op = .ok r ∧ ∀ path, (r.leafAt path).map Arr.vals = (a.leafAt path).map fun x => x.vals.map g := by
  obtain ⟨r, hr, _, h1, h2, _⟩ := mapE_ok op a ha (fun path x hx => by obtain ⟨y, hy, _⟩ := h path x hx; exact ⟨y, hy⟩)
  refine ⟨r, hr, ?_⟩
  intro path
  cases hl : a.leafAt path with
  | none => rw [h1 path hl]; rfl
  | some x =>
    obtain ⟨y, hy, hyl⟩ := h2 path x hl
    obtain ⟨y', hy', hv⟩ := h path x hl
    rw [hy] at hy'
    cases hy'
    rw [hyl]
    simp [hv]

/-- The sum and the product of a batch and a number are computed value by value, unless a float meets an integer array. -/
theorem C172_number_partial (a : T Arr) (c : Num) (ha : a.WF)
    (hkind : ∀ path xs x, a.leafAt path = some (.ints xs) → c ≠ .float x) :
    (∃ r, a.withNum (Arr.addNum c) = .ok r ∧
      ∀ path, (r.leafAt path).map Arr.vals = (a.leafAt path).map fun x => x.vals.map fun v => v + c.val) ∧
    (∃ r, a.withNum (Arr.mulNum c) = .ok r ∧
      ∀ path, (r.leafAt path).map Arr.vals = (a.leafAt path).map fun x => x.vals.map fun v => v * c.val) := by
  refine ⟨withNum_spec _ _ a ha ?_, withNum_spec _ _ a ha ?_⟩
  · intro path x hx
    cases x with
    | ints xs =>
      cases c with
      | int c => exact ⟨_, rfl, by simp [Arr.vals, Num.val]⟩
      | float c => exact absurd rfl (hkind path xs c hx)
    | floats xs => cases c <;> exact ⟨_, rfl, by simp [Arr.vals, Num.val]⟩
  · intro path x hx
    cases x with
    | ints xs =>
      cases c with
      | int c => exact ⟨_, rfl, by simp [Arr.vals, Num.val]⟩
      | float c => exact absurd rfl (hkind path xs c hx)
    | floats xs => cases c <;> exact ⟨_, rfl, by simp [Arr.vals, Num.val]⟩

/-- The quotient of a batch of floats and a number other than zero is computed value by value. -/
theorem C172_division_partial (a : T Arr) (c : Num) (ha : a.WF) (_hc : c.val ≠ 0)
    (hkind : ∀ path xs, a.leafAt path ≠ some (.ints xs)) :
    ∃ r, a.withNum (Arr.divNum c) = .ok r ∧
      ∀ path, (r.leafAt path).map Arr.vals = (a.leafAt path).map fun x => x.vals.map fun v => v / c.val := by
  refine withNum_spec _ _ a ha ?_
  intro path x hx
  cases x with
  | ints xs => exact absurd hx (hkind path xs)
  | floats xs => cases c <;> exact ⟨_, rfl, by simp [Arr.vals, Num.val]⟩

example : ((exT (.floats [1, 2]) (.floats [3])).withNum (Arr.divNum (.int 2))).toOption =
    some (exT (.floats [1 / 2, 1]) (.floats [3 / 2])) := by decide +kernel
example : ((exT (.ints [1, 2]) (.floats [3])).withNum (Arr.mulNum (.int 2))).toOption =
    some (exT (.ints [2, 4]) (.floats [6])) := by decide +kernel

/-! ### C178: copying and pickling -/

/-- A copy of a batch (by `copy.deepcopy` or by pickling) is the same batch. -/
def C178 : Prop :=
  ∀ (truth : Arr → Except Err Bool) (b : T Arr), b.WF → T.restore truth b = .ok b

/-- The truth value of an array: an array of several entries has none. -/
def arrTruth : Arr → Except Err Bool
  | .ints [x] => .ok (x ≠ 0)
  | .floats [x] => .ok (x ≠ 0)
  | .ints [] => .ok false
  | .floats [] => .ok false
  | _ => .error .valueError

/-- The entry `batch_dict` is lost in the copy. -/
theorem C178_violated : ¬ C178 := by
  intro h
  have := h arrTruth (.leaf "batch_dict" (.ints [1, 2]) (.leaf "a" (.ints [3]) .nil)) (by simp [T.WF, T.keys])
  have h2 : (T.restore arrTruth (.leaf "batch_dict" (.ints [1, 2]) (.leaf "a" (.ints [3]) .nil))).toOption =
    some (.leaf "a" (.ints [3]) .nil) := by decide +kernel
  rw [this] at h2
  exact absurd h2 (by decide +kernel)

/-- The values of a nested batch `batch_dict` appear at the top level of the copy. -/
theorem C178_nested_violated : (T.restore arrTruth (.sub "batch_dict" (.leaf "x" (.ints [1, 2]) .nil)
    (.leaf "a" (.ints [3]) .nil))).toOption = some (.leaf "x" (.ints [1, 2]) (.leaf "a" (.ints [3]) .nil)) := by decide +kernel

/-- A nested batch `copy` is lost in the copy. -/
theorem C178_copy_nested_violated : (T.restore arrTruth (.sub "copy" (.leaf "x" (.ints [1, 2]) .nil)
    (.leaf "a" (.ints [3]) .nil))).toOption = some (.leaf "a" (.ints [3]) .nil) := by decide +kernel

/-- A batch with the entry `copy` either cannot be copied or loses the entry. -/
theorem C178_copy_violated (truth : α → Except Err Bool) (b r : T α) (hk : "copy" ∈ b.keys)
    (hd : ∀ d, b.get? "batch_dict" ≠ some (.sub d)) (h : T.restore truth b = .ok r) : "copy" ∉ r.keys := by
  have hset : ∀ (x : T α) (k : String) (v : Entry α), (x.set k v).keys ⊆ x.keys ++ [k] := by
    intro x k v
    induction x with
    | nil => cases v <;> simp [T.set, T.keys]
    | leaf k' a rest ih =>
      simp only [T.set]
      split_ifs with e
      · cases v <;> simp [T.keys]
      · intro y hy
        simp only [T.keys, List.mem_cons] at hy
        rcases hy with rfl | hy
        · simp [T.keys]
        · have := ih hy
          simp only [T.keys, List.cons_append, List.mem_cons]
          exact Or.inr this
    | sub k' a rest _ ih =>
      simp only [T.set]
      split_ifs with e
      · cases v <;> simp [T.keys]
      · intro y hy
        simp only [T.keys, List.mem_cons] at hy
        rcases hy with rfl | hy
        · simp [T.keys]
        · have := ih hy
          simp only [T.keys, List.cons_append, List.mem_cons]
          exact Or.inr this
  have hupd : ∀ (c x : T α), (x.update c).keys ⊆ x.keys ++ c.keys := by
    intro c
    induction c with
    | nil => intro x; simp [T.update, T.keys]
    | leaf k a rest ih =>
      intro x y hy
      have := ih (x.set k (.leaf a)) (by simpa only [T.update] using hy)
      rw [List.mem_append] at this
      rcases this with h | h
      · have := hset x k _ h
        simp only [List.mem_append, List.mem_singleton] at this
        simp only [T.keys, List.mem_append, List.mem_cons]
        tauto
      · simp only [T.keys, List.mem_append, List.mem_cons]; tauto
    | sub k a rest _ ih =>
      intro x y hy
      have := ih (x.set k (.sub a)) (by simpa only [T.update] using hy)
      rw [List.mem_append] at this
      rcases this with h | h
      · have := hset x k _ h
        simp only [List.mem_append, List.mem_singleton] at this
        simp only [T.keys, List.mem_append, List.mem_cons]
        tauto
      · simp only [T.keys, List.mem_append, List.mem_cons]; tauto
  have hwo : ∀ x : T α, "copy" ∉ (x.without ["copy", "batch_dict"]).keys := by
    intro x
    induction x with
    | nil => simp [T.without, T.keys]
    | leaf k a rest ih =>
      simp only [T.without]
      split_ifs with e
      · exact ih
      · simp only [T.keys, List.mem_cons, not_or]
        refine ⟨?_, ih⟩
        rintro rfl
        simp at e
    | sub k a rest _ ih =>
      simp only [T.without]
      split_ifs with e
      · exact ih
      · simp only [T.keys, List.mem_cons, not_or]
        refine ⟨?_, ih⟩
        rintro rfl
        simp at e
  unfold T.restore at h
  simp only at h
  split_ifs at h with hself
  split at h
  · cases h
  · cases h
    intro hm
    have := hupd _ _ hm
    rw [List.mem_append] at this
    rcases this with h1 | h1
    · simp [T.keys] at h1
    · exact hwo b h1

example : "copy" ∈ (T.leaf "copy" (Arr.ints [1]) (.leaf "a" (.ints [3]) .nil)).keys ∧
    (T.restore arrTruth (.leaf "copy" (.ints [1]) (.leaf "a" (.ints [3]) .nil))).toOption = some (.leaf "a" (.ints [3]) .nil) := by
  decide +kernel

/-- Adding an entry at the end. -/
def T.append (b c : T α) : T α :=
  match b with
  | .nil => c
  | .leaf k a rest => .leaf k a (rest.append c)
  | .sub k x rest => .sub k x (rest.append c)

theorem T.set_append (b : T α) (k : String) (v : Entry α) (h : k ∉ b.keys) :
    b.set k v = b.append (match v with | .leaf a => .leaf k a .nil | .sub x => .sub k x .nil) := by
  induction b with
  | nil => cases v <;> rfl
  | leaf k' a rest ih =>
    simp only [T.keys, List.mem_cons, not_or] at h
    simp only [T.set, T.append, if_neg (Ne.symm h.1), ih h.2]
  | sub k' a rest _ ih =>
    simp only [T.keys, List.mem_cons, not_or] at h
    simp only [T.set, T.append, if_neg (Ne.symm h.1), ih h.2]

theorem T.append_assoc (b c d : T α) : (b.append c).append d = b.append (c.append d) := by
  induction b with
  | nil => rfl
  | leaf _ _ _ ih => simp only [T.append, ih]
  | sub _ _ _ _ ih => simp only [T.append, ih]

theorem T.keys_append (b c : T α) : (b.append c).keys = b.keys ++ c.keys := by
  induction b with
  | nil => rfl
  | leaf _ _ _ ih => simp only [T.append, T.keys, ih, List.cons_append]
  | sub _ _ _ _ ih => simp only [T.append, T.keys, ih, List.cons_append]

theorem T.update_append (b c : T α) (hc : c.WF) (h : ∀ k ∈ c.keys, k ∉ b.keys) : b.update c = b.append c := by
  induction c generalizing b with
  | nil =>
    simp only [T.update]
    induction b with
    | nil => rfl
    | leaf k a rest ih => simp only [T.append]; rw [← ih (by simp [T.keys])]
    | sub k a rest _ ih => simp only [T.append]; rw [← ih (by simp [T.keys])]
  | leaf k a rest ih =>
    simp only [T.update]
    rw [T.set_append _ _ _ (h k (by simp [T.keys])), ih _ hc.2, T.append_assoc]
    · rfl
    · intro k' hk'
      rw [T.keys_append]
      simp only [List.mem_append, T.keys, List.mem_singleton, not_or]
      exact ⟨h k' (by simp [T.keys, hk']), by rintro rfl; exact hc.1 hk'⟩
  | sub k a rest _ ih =>
    simp only [T.update]
    rw [T.set_append _ _ _ (h k (by simp [T.keys])), ih _ hc.2.2, T.append_assoc]
    · rfl
    · intro k' hk'
      rw [T.keys_append]
      simp only [List.mem_append, T.keys, List.mem_singleton, not_or]
      exact ⟨h k' (by simp [T.keys, hk']), by rintro rfl; exact hc.1 hk'⟩

theorem T.without_self (b : T α) (ks : List String) (h : ∀ k ∈ b.keys, k ∉ ks) : b.without ks = b := by
  induction b with
  | nil => rfl
  | leaf k a rest ih =>
    simp only [T.keys, List.mem_cons, forall_eq_or_imp] at h
    simp only [T.without, if_neg h.1, ih h.2]
  | sub k a rest _ ih =>
    simp only [T.keys, List.mem_cons, forall_eq_or_imp] at h
    simp only [T.without, if_neg h.1, ih h.2]

theorem T.get?_none (b : T α) (k : String) (h : k ∉ b.keys) : b.get? k = none := by
  induction b with
  | nil => rfl
  | leaf k' a rest ih =>
    simp only [T.keys, List.mem_cons, not_or] at h
    simp only [T.get?, if_neg (Ne.symm h.1), ih h.2]
  | sub k' a rest _ ih =>
    simp only [T.keys, List.mem_cons, not_or] at h
    simp only [T.get?, if_neg (Ne.symm h.1), ih h.2]

/-- Without the three keys at the top level the copy is the same batch, with the entries in the same order, whatever keys
the nested batches have. -/
theorem C178_partial (truth : α → Except Err Bool) (b : T α) (hb : b.WF)
    (h : "self" ∉ b.keys ∧ "copy" ∉ b.keys ∧ "batch_dict" ∉ b.keys) : T.restore truth b = .ok b := by
  unfold T.restore
  rw [if_neg h.1, T.get?_none b _ h.2.1, T.get?_none b _ h.2.2, T.without_self]
  · simp only
    rw [T.update_append _ _ hb (by simp [T.keys])]
    rfl
  · intro k hk hm
    simp only [List.mem_cons, List.not_mem_nil, or_false] at hm
    rcases hm with rfl | rfl
    · exact h.2.1 hk
    · exact h.2.2 hk

example : (T.restore arrTruth (.leaf "a" (.ints [3]) (.sub "n" (.leaf "copy" (.ints [1, 2]) .nil) .nil))).toOption =
    some (.leaf "a" (.ints [3]) (.sub "n" (.leaf "copy" (.ints [1, 2]) .nil) .nil)) := by decide +kernel

/-! ### C179: conversion to tensors -/

/-- What a value is after a conversion that was asked to give a type and a device. -/
def IsTensor {δ : Type} (dtype : Option String) (device : Device) (v w : V δ) (cast : String → String → δ → δ) : Prop :=
  ∃ t d, (v = .np t d ∨ ∃ dev, v = .torch t dev d) ∧
    w = .torch (dtype.getD t) device (if dtype.getD t = t then d else cast t (dtype.getD t) d)

/-- `batch.to_torch(dtype, device)` of a batch of numbers converts every value to a tensor of the type and on the
device, nested values included. -/
def C179 : Prop :=
  ∀ (cast : String → String → List Rat → List Rat) (dtype : Option String) (device : Device) (b : T (V (List Rat))), b.WF →
    (∀ t d, cast t t d = d) → b.All (fun v => v ≠ .npObject ∧ v ≠ .none) →
    ∃ r, toTorch cast dtype device b = .ok r ∧ (∀ path, (r.leafAt path).isSome = (b.leafAt path).isSome) ∧
      ∀ path v, b.leafAt path = some v → ∃ w, r.leafAt path = some w ∧ IsTensor dtype device v w cast

/-- The type is not applied to NumPy arrays. -/
theorem C179_violated : ¬ C179 := by
  intro h
  obtain ⟨r, hr, _, h2⟩ := h (fun _ _ d => d) (some "float32") ⟨"cpu", none⟩ (.leaf "a" (.np "float64" [1]) .nil)
    (by simp [T.WF, T.keys]) (by simp) (by
      intro path v hv
      rcases path with _ | ⟨k, path⟩
      · simp [T.leafAt] at hv
      · simp only [T.leafAt] at hv
        split_ifs at hv
        cases hv
        simp)
  obtain ⟨w, hw, t, d, hv, hw'⟩ := h2 ["a"] (.np "float64" [1]) (by simp [T.leafAt])
  simp only [toTorch, T.mapE, toTorchVal, bind, Except.bind] at hr
  cases hr
  simp only [T.leafAt, if_true, Option.some.injEq] at hw
  subst hw
  simp at hw'

/-- Asked for no type, or for a batch of tensors: every value becomes a tensor of the type, on the device (the index of
the device included). -/
theorem C179_partial {δ : Type} (cast : String → String → δ → δ) (dtype : Option String) (device : Device) (b : T (V δ))
    (hwf : b.WF) (hcast : ∀ t d, cast t t d = d) (hb : b.All fun v => v ≠ .npObject ∧ v ≠ .none)
    (hd : dtype = none ∨ b.All fun v => ∀ t d, v = .np t d → dtype = some t) :
    ∃ r, toTorch cast dtype device b = .ok r ∧ (∀ path, (r.leafAt path).isSome = (b.leafAt path).isSome) ∧
      ∀ path v, b.leafAt path = some v → ∃ w, r.leafAt path = some w ∧ IsTensor dtype device v w cast := by
  have key : ∀ path v, b.leafAt path = some v → ∃ w, toTorchVal cast dtype device v = .ok w ∧ IsTensor dtype device v w cast := by
    intro path v hv
    have hv1 := hb path v hv
    cases v with
    | npObject => exact absurd rfl hv1.1
    | none => exact absurd rfl hv1.2
    | np t d =>
      refine ⟨_, rfl, t, d, Or.inl rfl, ?_⟩
      rcases hd with rfl | hd
      · simp
      · rw [hd path _ hv t d rfl]; simp
    | torch t dev d =>
      simp only [toTorchVal]
      by_cases hc : (dtype.isSome ∧ dtype ≠ some t) ∨ dev.type ≠ device.type ∨ device.index ≠ dev.index
      · rw [if_pos hc]
        cases dtype with
        | none => exact ⟨_, rfl, t, d, Or.inr ⟨dev, rfl⟩, by simp⟩
        | some t' =>
          refine ⟨_, rfl, t, d, Or.inr ⟨dev, rfl⟩, ?_⟩
          simp only [Option.getD_some]
          split_ifs with e
          · subst e; rw [hcast]
          · rfl
      · rw [if_neg hc]
        simp only [not_or, not_and, not_not] at hc
        obtain ⟨h1, h2, h3⟩ := hc
        have hdev : dev = device := by
          cases dev; cases device
          simp only at h2 h3
          rw [h2, h3]
        refine ⟨_, rfl, t, d, Or.inr ⟨dev, rfl⟩, ?_⟩
        cases dtype with
        | none => simp [hdev]
        | some t' =>
          have := h1 rfl
          simp only [Option.some.injEq] at this
          simp [hdev, this]
  obtain ⟨r, hr, _, h1, h2, _⟩ := mapE_ok (toTorchVal cast dtype device) b hwf
    (fun path v hv => by obtain ⟨w, hw, _⟩ := key path v hv; exact ⟨w, hw⟩)
  refine ⟨r, hr, ?_, ?_⟩
  · intro path
    cases hl : b.leafAt path with
    | none => rw [h1 path hl]
    | some v => obtain ⟨w, _, hw⟩ := h2 path v hl; rw [hw]; rfl
  · intro path v hv
    obtain ⟨w, hw, hwl⟩ := h2 path v hv
    obtain ⟨w', hw', ht⟩ := key path v hv
    rw [hw] at hw'
    cases hw'
    exact ⟨w, hwl, ht⟩

example : (toTorch (fun _ _ (d : List Int) => d) none ⟨"cuda", some 0⟩
    (.leaf "a" (.np "float64" [1]) (.sub "n" (.leaf "b" (.torch "int64" ⟨"cpu", none⟩ [2]) .nil) .nil))).toOption =
    some (.leaf "a" (.torch "float64" ⟨"cuda", some 0⟩ [1]) (.sub "n" (.leaf "b" (.torch "int64" ⟨"cuda", some 0⟩ [2]) .nil) .nil)) := by
  decide +kernel

/-- The conversion of a single array by the function `to_torch` does apply the type, so the same array is converted to
different types on its own and as part of a batch. -/
theorem C179_single {δ : Type} (cast : String → String → δ → δ) (dtype : Option String) (device : Device) (v : V δ)
    (hcast : ∀ t d, cast t t d = d) (hv : v ≠ .npObject ∧ v ≠ .none) :
    ∃ w, toTorchOne cast dtype device v = .ok w ∧ IsTensor dtype device v w cast := by
  cases v with
  | npObject => exact absurd rfl hv.1
  | none => exact absurd rfl hv.2
  | np t d =>
    cases dtype with
    | none => exact ⟨_, rfl, t, d, Or.inl rfl, by simp⟩
    | some t' =>
      refine ⟨_, rfl, t, d, Or.inl rfl, ?_⟩
      simp only [Option.getD_some]
      split_ifs with e
      · subst e; rw [hcast]
      · rfl
  | torch t dev d =>
    cases dtype with
    | none => exact ⟨_, rfl, t, d, Or.inr ⟨dev, rfl⟩, by simp⟩
    | some t' =>
      refine ⟨_, rfl, t, d, Or.inr ⟨dev, rfl⟩, ?_⟩
      simp only [Option.getD_some]
      split_ifs with e
      · subst e; rw [hcast]
      · rfl

/-- A batch with a value `None` or an array of objects cannot be converted. -/
theorem C179_objects {δ : Type} (cast : String → String → δ → δ) (dtype : Option String) (device : Device) (k : String)
    (rest : T (V δ)) : toTorch cast dtype device (.leaf k .none rest) = .error .attributeError ∧
    toTorch cast dtype device (.leaf k .npObject rest) = .error .typeError := by
  simp [toTorch, T.mapE, toTorchVal, bind, Except.bind]

/-- Converting to tensors and back gives arrays with the same data and types, at the same places. -/
theorem C179_roundtrip {δ : Type} (cast : String → String → δ → δ) (device : Device) (b r : T (V δ)) (hwf : b.WF)
    (hcast : ∀ t d, cast t t d = d) (hb : b.All fun v => ∃ t d, v = .np t d)
    (h : toTorch cast none device b = .ok r) (hr : r.WF) :
    ∃ b', toNumpy r = .ok b' ∧ ∀ path, b'.leafAt path = b.leafAt path := by
  obtain ⟨r', hr', h1, h2⟩ := C179_partial cast none device b hwf hcast
    (by intro path v hv; obtain ⟨t, d, rfl⟩ := hb path v hv; simp) (Or.inl rfl)
  rw [h] at hr'
  cases hr'
  obtain ⟨b', hb', _, g1, g2, _⟩ := mapE_ok (fun v : V δ => Except.ok (toNumpyVal v)) r hr (fun _ v _ => ⟨_, rfl⟩)
  refine ⟨b', hb', ?_⟩
  intro path
  cases hl : b.leafAt path with
  | none =>
    apply g1
    have := h1 path
    rw [hl] at this
    simpa using this
  | some v =>
    obtain ⟨t, d, rfl⟩ := hb path v hl
    obtain ⟨w, hw, t', d', hv, hw'⟩ := h2 path _ hl
    obtain ⟨x, hx, hx'⟩ := g2 path w hw
    rw [hx']
    rcases hv with hv | ⟨_, hv⟩
    · cases hv
      cases hx
      rw [hw']
      simp [toNumpyVal]
    · cases hv

end Verif.BatchTree
