import Verif.Model.Dist
import Mathlib.Algebra.BigOperators.Intervals
import Mathlib.Data.Rat.Defs
import Mathlib.Algebra.Field.Rat
import Mathlib.Algebra.Order.Ring.Rat
import Mathlib.Tactic.Ring
import Mathlib.Tactic.SplitIfs

/-! Properties C199-C201: action distributions, their slices and their standard deviations. -/

namespace Verif.Dists

open Verif.Stats

variable {F : Type} [Field F]

/-! What a distribution means. -/

/-- The law of one action: a choice among numbered actions, or independent normal numbers with their locations and scales. -/
inductive Law (F : Type)
  | choice (probs : List F)
  | normals (params : List (F × F))
deriving DecidableEq

/-- The law of the action drawn from a distribution for a single observation. -/
def Dist.whole : Dist F → Option (Law F)
  | .cat (.r1 p) => some (.choice p)
  | .normal (.r0 a) (.r0 b) => some (.normals [(a, b)])
  | .normal (.r1 l) (.r1 s) => some (.normals (l.zip s))
  | .indep b _ => b.whole
  | _ => none

/-- The law of the `i`-th action drawn from a distribution for a batch of observations. -/
def Dist.row : Dist F → Nat → Option (Law F)
  | .cat (.r2 m), i => m[i]?.map .choice
  | .normal (.r1 l) (.r1 s), i => (l.zip s)[i]?.map fun p => .normals [p]
  | .normal (.r2 l) (.r2 s), i => (l.zip s)[i]?.map fun p => .normals (p.1.zip p.2)
  | .indep b _, i => b.row i
  | _, _ => none

/-- A distribution for a batch of `n` observations. -/
inductive Rows : Dist F → Nat → Prop
  | cat {m : List (List F)} (h : ∀ p ∈ m, p.sum = 1) : Rows (.cat (.r2 m)) m.length
  | scalars {l s : List F} (h : s.length = l.length) : Rows (.normal (.r1 l) (.r1 s)) l.length
  | vectors {l s : List (List F)} (h : s.length = l.length) : Rows (.normal (.r2 l) (.r2 s)) l.length
  | indep {b : Dist F} {n k : Nat} (h : Rows b n) (hk : k < b.batchShape.length) : Rows (.indep b k) n

/-- The position meant by a Python index into `n` rows. -/
def position (n : Nat) (i : Int) : Nat := if i < 0 then (n + i).toNat else i.toNat

/-! Picking entries. -/

theorem pos_ok {n : Nat} {i : Int} (h : -(n : Int) ≤ i ∧ i < n) : pos n i = .ok (position n i) ∧ position n i < n := by
  unfold pos position
  by_cases h0 : i < 0
  · rw [if_neg (show ¬ (0 ≤ i ∧ i < (n : Int)) by omega), if_pos (show i < 0 ∧ -i ≤ (n : Int) by omega), if_pos h0]
    exact ⟨rfl, by omega⟩
  · rw [if_pos (show 0 ≤ i ∧ i < (n : Int) by omega), if_neg h0]
    exact ⟨rfl, by omega⟩

theorem pos_error {n : Nat} {i : Int} (h : ¬ (-(n : Int) ≤ i ∧ i < n)) : pos n i = .error .index := by
  unfold pos
  rw [if_neg (by omega), if_neg (by omega)]

theorem pick_ok {α : Type} {l : List α} {i : Int} (h : -(l.length : Int) ≤ i ∧ i < l.length) :
    ∃ x, pick l i = .ok x ∧ l[position l.length i]? = some x := by
  obtain ⟨h1, h2⟩ := pos_ok h
  refine ⟨l[position l.length i], ?_, List.getElem?_eq_getElem h2⟩
  rw [pick, h1]
  simp only [List.getElem?_eq_getElem h2]

theorem pick_error {α : Type} {l : List α} {i : Int} (h : ¬ (-(l.length : Int) ≤ i ∧ i < l.length)) :
    pick l i = .error .index := by rw [pick, pos_error h]

theorem picks_ok {α : Type} {l : List α} : ∀ {is : List Int}, (∀ i ∈ is, -(l.length : Int) ≤ i ∧ i < l.length) →
    ∃ xs, picks l is = .ok xs ∧ xs.length = is.length ∧
      ∀ j : Nat, xs[j]? = is[j]?.bind fun i => l[position l.length i]? := by
  intro is
  induction is with
  | nil => intro _; exact ⟨[], rfl, rfl, fun j => by simp⟩
  | cons i is ih =>
    intro h
    obtain ⟨x, h1, h2⟩ := pick_ok (h i (by simp))
    obtain ⟨xs, h3, h4, h5⟩ := ih fun i hi => h i (List.mem_cons_of_mem _ hi)
    refine ⟨x :: xs, by simp only [picks, h1, h3], by simp [h4], ?_⟩
    intro j
    cases j with
    | zero => simp [h2]
    | succ j => simpa using h5 j

theorem picks_mem {α : Type} {l : List α} : ∀ {is : List Int} {xs : List α}, picks l is = .ok xs → ∀ x ∈ xs, x ∈ l := by
  intro is
  induction is with
  | nil => intro xs h; injection h with h; subst h; simp
  | cons i is ih =>
    intro xs h
    rw [picks] at h
    cases hp : pick l i with
    | error e => rw [hp] at h; cases h
    | ok x =>
      rw [hp] at h
      cases hq : picks l is with
      | error e => rw [hq] at h; cases h
      | ok ys =>
        rw [hq] at h
        injection h with h
        subst h
        intro y hy
        rcases List.mem_cons.1 hy with rfl | hy
        · rw [pick] at hp
          cases hk : pos l.length i with
          | error e => rw [hk] at hp; cases hp
          | ok k =>
            rw [hk] at hp
            simp only at hp
            cases hl : l[k]? with
            | none => rw [hl] at hp; cases hp
            | some z => rw [hl] at hp; injection hp with hp; subst hp; exact List.mem_of_getElem? hl
        · exact ih hq y hy

theorem normalise_one {p : List F} (h : p.sum = 1) : normalise p = p := by
  rw [normalise, h]
  simp

theorem normalise_all {m : List (List F)} (h : ∀ p ∈ m, p.sum = 1) : m.map normalise = m := by
  have : m.map normalise = m.map id := List.map_congr_left fun p hp => normalise_one (h p hp)
  rw [this, List.map_id]

/-! Slices. -/

theorem slice_item {d : Dist F} {n : Nat} (H : Rows d n) {i : Int} (h : -(n : Int) ≤ i ∧ i < n) :
    ∃ d', d.slice (.int i) = .ok d' ∧ d'.whole = d.row (position n i) ∧ (d.row (position n i)).isSome ∧
      d'.batchShape.length + 1 = d.batchShape.length := by
  induction H with
  | @cat m hm =>
    obtain ⟨x, h1, h2⟩ := pick_ok h
    refine ⟨.cat (.r1 x), ?_, ?_, ?_, ?_⟩
    · simp only [Dist.slice, Ten.getitem, h1, Except.map, mkCat]
      rw [normalise_one (hm x (List.mem_of_getElem? h2))]
    · simp [Dist.whole, Dist.row, h2]
    · simp [Dist.row, h2]
    · simp [Dist.batchShape, Ten.shape]
  | @scalars l s hs =>
    obtain ⟨x, h1, h2⟩ := pick_ok h
    obtain ⟨y, h3, h4⟩ := pick_ok (l := s) (i := i) (by rw [hs]; exact h)
    rw [hs] at h4
    refine ⟨.normal (.r0 x) (.r0 y), ?_, ?_, ?_, ?_⟩
    · simp only [Dist.slice, Ten.getitem, h1, h3, Except.map]
    · simp [Dist.whole, Dist.row, List.getElem?_zip_eq_some, h2, h4, List.zip, List.getElem?_zipWith]
    · simp [Dist.row, h2, h4, List.zip, List.getElem?_zipWith]
    · simp [Dist.batchShape, Ten.shape]
  | @vectors l s hs =>
    obtain ⟨x, h1, h2⟩ := pick_ok h
    obtain ⟨y, h3, h4⟩ := pick_ok (l := s) (i := i) (by rw [hs]; exact h)
    rw [hs] at h4
    refine ⟨.normal (.r1 x) (.r1 y), ?_, ?_, ?_, ?_⟩
    · simp only [Dist.slice, Ten.getitem, h1, h3, Except.map]
    · simp [Dist.whole, Dist.row, h2, h4, List.zip, List.getElem?_zipWith]
    · simp [Dist.row, h2, h4, List.zip, List.getElem?_zipWith]
    · simp [Dist.batchShape, Ten.shape]
  | @indep b n k hb hk ih =>
    obtain ⟨d', h1, h2, h3, h4⟩ := ih h
    refine ⟨.indep d' k, ?_, h2, h3, ?_⟩
    · simp only [Dist.slice, h1, mkIndep]
      rw [if_neg (by omega)]
    · simp only [Dist.batchShape, List.length_take]; omega

theorem slice_items {d : Dist F} {n : Nat} (H : Rows d n) {is : List Int} (h : ∀ i ∈ is, -(n : Int) ≤ i ∧ i < n) :
    ∃ d', d.slice (.arr is) = .ok d' ∧ Rows d' is.length ∧ d'.batchShape.length = d.batchShape.length ∧
      ∀ j : Nat, d'.row j = is[j]?.bind fun i => d.row (position n i) := by
  induction H with
  | @cat m hm =>
    obtain ⟨xs, h1, h2, h3⟩ := picks_ok h
    have hx : ∀ p ∈ xs, p.sum = 1 := fun p hp => hm p (picks_mem h1 p hp)
    refine ⟨.cat (.r2 xs), ?_, h2 ▸ Rows.cat hx, by simp [Dist.batchShape, Ten.shape], ?_⟩
    · simp only [Dist.slice, Ten.getitem, h1, Except.map, mkCat]
      rw [normalise_all hx]
    · intro j
      simp only [Dist.row, h3]
      cases is[j]? <;> simp
  | @scalars l s hs =>
    obtain ⟨xs, h1, h2, h3⟩ := picks_ok h
    obtain ⟨ys, g1, g2, g3⟩ := picks_ok (l := s) (is := is) (by rw [hs]; exact h)
    refine ⟨.normal (.r1 xs) (.r1 ys), ?_, h2 ▸ Rows.scalars (by omega), by simp [Dist.batchShape, Ten.shape], ?_⟩
    · simp only [Dist.slice, Ten.getitem, h1, g1, Except.map]
    · intro j
      rw [hs] at g3
      simp only [Dist.row, List.zip, List.getElem?_zipWith, h3, g3]
      cases is[j]? <;> simp
  | @vectors l s hs =>
    obtain ⟨xs, h1, h2, h3⟩ := picks_ok h
    obtain ⟨ys, g1, g2, g3⟩ := picks_ok (l := s) (is := is) (by rw [hs]; exact h)
    refine ⟨.normal (.r2 xs) (.r2 ys), ?_, h2 ▸ Rows.vectors (by omega), by simp [Dist.batchShape, Ten.shape], ?_⟩
    · simp only [Dist.slice, Ten.getitem, h1, g1, Except.map]
    · intro j
      rw [hs] at g3
      simp only [Dist.row, List.zip, List.getElem?_zipWith, h3, g3]
      cases is[j]? <;> simp
  | @indep b n k hb hk ih =>
    obtain ⟨d', h1, h2, h3, h4⟩ := ih h
    refine ⟨.indep d' k, ?_, .indep h2 (by omega), ?_, h4⟩
    · simp only [Dist.slice, h1, mkIndep]
      rw [if_neg (by omega)]
    · simp only [Dist.batchShape, List.length_take]; omega

theorem rows_len {d : Dist F} {n : Nat} (H : Rows d n) : ∃ t, d.batchShape = n :: t := by
  induction H with
  | cat h => exact ⟨[], rfl⟩
  | scalars h => exact ⟨[], rfl⟩
  | vectors h => exact ⟨_, rfl⟩
  | @indep b n k h hk ih =>
    obtain ⟨t, ht⟩ := ih
    obtain ⟨j, hj⟩ : ∃ j, (n :: t).length - k = j + 1 := ⟨(n :: t).length - k - 1, by rw [ht] at hk; omega⟩
    exact ⟨t.take j, by rw [Dist.batchShape, ht, hj, List.take_succ_cons]⟩

/-- C200. Row `i` of a batch has the distribution that the batch has in row `i`. -/
theorem C200_item {d : Dist F} {n : Nat} (H : Rows d n) {i : Int} (h : -(n : Int) ≤ i ∧ i < n) :
    ∃ d' law, d.slice (.int i) = .ok d' ∧ d'.whole = some law ∧ d.row (position n i) = some law := by
  obtain ⟨d', h1, h2, h3, _⟩ := slice_item H h
  obtain ⟨law, hl⟩ := Option.isSome_iff_exists.1 h3
  exact ⟨d', law, h1, h2.trans hl, hl⟩

/-- C200. Selecting rows selects their distributions, in the order of the indices; the result can be sliced again. -/
theorem C200_rows {d : Dist F} {n : Nat} (H : Rows d n) {is : List Int} (h : ∀ i ∈ is, -(n : Int) ≤ i ∧ i < n) :
    ∃ d', d.slice (.arr is) = .ok d' ∧ Rows d' is.length ∧ d'.len = .ok is.length ∧
      ∀ j : Nat, d'.row j = is[j]?.bind fun i => d.row (position n i) := by
  obtain ⟨d', h1, h2, _, h4⟩ := slice_items H h
  obtain ⟨t, ht⟩ := rows_len h2
  exact ⟨d', h1, h2, by rw [Dist.len, ht], h4⟩

/-- C200. An index outside the batch is an error. -/
theorem C200_outside {d : Dist F} {n : Nat} (H : Rows d n) {i : Int} (h : ¬ (-(n : Int) ≤ i ∧ i < n)) :
    d.slice (.int i) = .error .index := by
  induction H with
  | cat hm => simp only [Dist.slice, Ten.getitem, pick_error h, Except.map]
  | scalars hs => simp only [Dist.slice, Ten.getitem, pick_error h, Except.map]
  | vectors hs => simp only [Dist.slice, Ten.getitem, pick_error h, Except.map]
  | indep hb hk ih => simp only [Dist.slice, ih h]

/-- Three Gaussians of two dimensions. -/
def gauss : Dist ℚ := .indep (.normal (.r2 [[1, 2], [3, 4], [5, 6]]) (.r2 [[1, 1], [2, 1], [1, 3]])) 1

example : Rows gauss 3 := .indep (.vectors rfl) (by decide)

example : (gauss.slice (.arr [2, -3])).toOption = some (.indep (.normal (.r2 [[5, 6], [1, 2]]) (.r2 [[1, 3], [1, 1]])) 1) ∧
    gauss.row 2 = some (.normals [(5, 1), (6, 3)]) ∧
    (gauss.slice (.int (-1))).toOption = some (.indep (.normal (.r1 [5, 6]) (.r1 [1, 3])) 1) := by decide +kernel

theorem sum_div_list (l : List F) (c : F) : (l.map fun x => x / c).sum = l.sum / c := by
  induction l with
  | nil => simp
  | cons a l ih => simp [ih, add_div]

/-- C200: `Categorical(probs=...)` of weights with non-zero sums is a distribution for as many observations as there are rows; the
probabilities of a row sum to 1 and are proportional to the weights. -/
theorem C200_weights (m : List (List F)) (h : ∀ p ∈ m, p.sum ≠ 0) : ∃ d, mkCat (.r2 m) = .ok d ∧ Rows d m.length ∧
    ∀ i p, m[i]? = some p → ∃ q, d.row i = some (.choice q) ∧ q.sum = 1 ∧ q.map (· * p.sum) = p := by
  have hsum : ∀ p ∈ m, (normalise p).sum = 1 := fun p hp => by
    rw [normalise, sum_div_list, div_self (h p hp)]
  refine ⟨_, rfl, ?_, ?_⟩
  · have := Rows.cat (m := m.map normalise) (by simpa using hsum)
    rwa [List.length_map] at this
  · intro i p hp
    have hm := List.mem_of_getElem? hp
    refine ⟨normalise p, by simp [Dist.row, hp], hsum p hm, ?_⟩
    rw [normalise, List.map_map]
    conv_rhs => rw [← List.map_id p]
    refine List.map_congr_left fun x _ => ?_
    simp [h p hm]

example : (mkCat (.r2 [[1, 3], [5, 5]]) : Except Err (Dist ℚ)).toOption = some (.cat (.r2 [[1/4, 3/4], [1/2, 1/2]])) := by decide +kernel

/-- C201. A distribution that has a batch dimension is left alone. -/
theorem C201_batched {d : Dist F} {n : Nat} (H : Rows d n) : d.atLeast2d = .ok d := by
  obtain ⟨t, ht⟩ := rows_len H
  unfold Dist.atLeast2d
  rw [if_pos (by rw [ht]; simp)]

/-- C201, for a distribution over numbered actions and for a single normal number. Missing: vectors, see `C201_violated`. -/
theorem C201_single_partial {d : Dist F} (h : (∃ p, d = .cat (.r1 p) ∧ p.sum = 1) ∨ ∃ a b, d = .normal (.r0 a) (.r0 b)) :
    ∃ d', d.atLeast2d = .ok d' ∧ Rows d' 1 ∧ d'.row 0 = d.whole := by
  rcases h with ⟨p, rfl, hp⟩ | ⟨a, b, rfl⟩
  · refine ⟨.cat (.r2 [p]), ?_, Rows.cat (m := [p]) (by simpa using hp), rfl⟩
    unfold Dist.atLeast2d
    rw [if_neg (by simp [Dist.batchShape, Ten.shape])]
    simp [Ten.unsqueeze, mkCat, normalise_one hp]
  · refine ⟨.normal (.r1 [a]) (.r1 [b]), ?_, Rows.scalars (l := [a]) (s := [b]) rfl, rfl⟩
    unfold Dist.atLeast2d
    rw [if_neg (by simp [Dist.batchShape, Ten.shape])]
    simp [Ten.unsqueeze]

/-- C201 fails for the usual distribution of continuous actions: it is returned as it is, without a batch dimension. -/
theorem C201_violated (l s : List F) :
    let d : Dist F := .indep (.normal (.r1 l) (.r1 s)) 1
    d.atLeast2d = .ok d ∧ d.whole = some (.normals (l.zip s)) ∧ d.len = .error .type ∧ ¬ Rows d 1 := by
  intro d
  refine ⟨?_, rfl, by simp [d, Dist.len, Dist.batchShape, Ten.shape], ?_⟩
  · have hd : ¬ d.batchShape.length > 0 := by simp [d, Dist.batchShape, Ten.shape]
    have hb : (Dist.normal (.r1 l) (.r1 s)).batchShape.length > 0 := by simp [Dist.batchShape, Ten.shape]
    unfold Dist.atLeast2d
    rw [if_neg hd]
    simp only [d]
    unfold Dist.atLeast2d
    rw [if_pos hb]
    simp [mkIndep, Dist.batchShape, Ten.shape]
  · intro H
    obtain ⟨t, ht⟩ := rows_len H
    simp [d, Dist.batchShape, Ten.shape] at ht

example : ((Dist.cat (.r1 [1/4, 3/4]) : Dist ℚ).atLeast2d).toOption = some (.cat (.r2 [[1/4, 3/4]])) := by decide +kernel

/-! Standard deviations. -/

/-- The mean of a choice among the numbers 0, 1, ... -/
def choiceMean (p : List F) : F := ∑ k ∈ Finset.range p.length, p.getD k 0 * k

/-- Its variance. -/
def choiceVar (p : List F) : F := ∑ k ∈ Finset.range p.length, p.getD k 0 * ((k : F) - choiceMean p) ^ 2

/-- The standard deviations of the components of an action. -/
def Law.stds (sqrt : F → F) : Law F → List F
  | .choice p => [sqrt (choiceVar p)]
  | .normals ps => ps.map Prod.snd

/-- The distributions have actions of `w` components (as one dimension of the tensors). -/
inductive Width : Dist F → Nat → Prop
  | cat {m : List (List F)} : Width (.cat (.r2 m)) 1
  | vectors {l s : List (List F)} {w : Nat} (h : ∀ p ∈ l.zip s, p.1.length = w ∧ p.2.length = w) : Width (.normal (.r2 l) (.r2 s)) w
  | indep {l s : List (List F)} {w k : Nat} (h : Width (.normal (.r2 l) (.r2 s)) w) : Width (.indep (.normal (.r2 l) (.r2 s)) k) w

/-- What `pred_dist_std_array` should contain: one row for every step of every environment, in order. -/
def expected (sqrt : F → F) (steps : List (Nat × Option (Dist F))) : List (List F) :=
  steps.flatMap fun x => match x.2 with
    | none => []
    | some d => (List.range x.1).filterMap fun i => (d.row i).map (Law.stds sqrt)

theorem zipIdx_sum (f : F → Nat → F) : ∀ (p : List F) (k : Nat),
    ((p.zipIdx k).map fun x => f x.1 x.2).sum = ∑ i ∈ Finset.range p.length, f (p.getD i 0) (k + i) := by
  intro p
  induction p with
  | nil => intro k; simp
  | cons a p ih =>
    intro k
    rw [List.zipIdx_cons, List.map_cons, List.sum_cons, ih, List.length_cons, Finset.sum_range_succ']
    rw [add_comm]
    congr 1
    apply Finset.sum_congr rfl
    intro i _
    rw [List.getD_cons_succ, show k + 1 + i = k + (i + 1) by omega]

theorem catStd_eq (sqrt : F → F) (p : List F) : catStd sqrt p = sqrt (choiceVar p) := by
  have h1 := zipIdx_sum (fun a (k : Nat) => a * (k : F)) p 0
  simp only [Nat.zero_add] at h1
  have h2 := zipIdx_sum (fun a (k : Nat) => a * ((k : F) - choiceMean p) ^ 2) p 0
  simp only [Nat.zero_add] at h2
  unfold catStd
  rw [show (p.zipIdx.map fun x => x.1 * (x.2 : F)).sum = choiceMean p from h1]
  simp only
  rw [h2, choiceVar]

theorem filterMap_range {α : Type} (l : List α) : (List.range l.length).filterMap (fun i => l[i]?) = l := by
  induction l using List.reverseRecOn with
  | nil => simp
  | append_singleton l x ih =>
    have e : (List.range l.length).filterMap (fun i => (l ++ [x])[i]?) = (List.range l.length).filterMap fun i => l[i]? := by
      apply List.filterMap_congr
      intro i hi
      rw [List.getElem?_append_left (List.mem_range.1 hi)]
    rw [List.length_append, List.length_singleton, List.range_succ, List.filterMap_append, e, ih]
    simp

theorem filterMap_range_map {α β : Type} (l : List α) (n : Nat) (hn : l.length = n) (f : α → β) :
    (List.range n).filterMap (fun i => l[i]?.map f) = l.map f := by
  subst hn
  have := filterMap_range (l.map f)
  simpa using this

/-- The rows computed for one step. -/
theorem stddev_rows (sqrt : F → F) {d : Dist F} {n w : Nat} (H : Rows d n) (W : Width d w) :
    ∃ m, d.stddev sqrt = .ok (.r2 m) ∧ m = ((List.range n).filterMap fun i => (d.row i).map (Law.stds sqrt)) ∧
      m.length = n ∧ ∀ row ∈ m, row.length = w := by
  have vec : ∀ (l s : List (List F)), s.length = l.length → (∀ p ∈ l.zip s, p.1.length = w ∧ p.2.length = w) →
      s = ((List.range l.length).filterMap fun i => ((Dist.normal (.r2 l) (.r2 s)).row i).map (Law.stds sqrt)) ∧
      ∀ row ∈ s, row.length = w := by
    intro l s hs hw
    constructor
    · have e : ∀ i : Nat, ((Dist.normal (.r2 l) (.r2 s)).row i).map (Law.stds sqrt) =
          (l.zip s)[i]?.map fun p => (p.1.zip p.2).map Prod.snd := by
        intro i
        simp only [Dist.row, Option.map_map]
        cases (l.zip s)[i]? <;> rfl
      simp only [e]
      rw [filterMap_range_map (l.zip s) l.length (by simp [hs])]
      have e2 : (l.zip s).map (fun p => (p.1.zip p.2).map Prod.snd) = (l.zip s).map Prod.snd := by
        apply List.map_congr_left
        intro p hp
        rw [List.map_snd_zip (by rw [(hw p hp).1, (hw p hp).2])]
      rw [e2, List.map_snd_zip (by omega)]
    · intro row hrow
      obtain ⟨i, hi⟩ := List.mem_iff_getElem?.1 hrow
      have hlt : i < s.length := by
        by_contra hc
        rw [List.getElem?_eq_none (by omega)] at hi; cases hi
      have hl : l[i]? = some l[i] := List.getElem?_eq_getElem (by omega)
      exact (hw (l[i], row) (List.mem_iff_getElem?.2 ⟨i, by simp [List.zip, List.getElem?_zipWith, hl, hi]⟩)).2
  cases W with
  | @cat m =>
    cases H
    refine ⟨m.map fun p => [catStd sqrt p], rfl, ?_, by simp, by simp⟩
    simp only [Dist.row, Option.map_map]
    rw [filterMap_range_map m m.length rfl]
    apply List.map_congr_left
    intro p _
    simp [Law.stds, catStd_eq]
  | @vectors l s w hw =>
    cases H with
    | vectors hs =>
      obtain ⟨h1, h2⟩ := vec l s hs hw
      exact ⟨s, rfl, h1, hs, h2⟩
  | @indep l s w k hw =>
    cases H with
    | indep hb hk =>
      cases hb with
      | vectors hs =>
        cases hw with
        | vectors hw =>
          obtain ⟨h1, h2⟩ := vec l s hs hw
          exact ⟨s, rfl, h1, hs, h2⟩

theorem columns_of {a : List (List F)} {w : Nat} (ha : a ≠ []) (h : ∀ row ∈ a, row.length = w) : (Ten.r2 a).shape.getD 1 0 = w := by
  cases a with
  | nil => exact absurd rfl ha
  | cons r a => simpa [Ten.shape] using h r (by simp)

/-- C199, for actions of a fixed number of components in a dimension of their own: after any number of steps, the number of steps is
right, and `pred_dist_std_array` has the standard deviations of all actions, one row for each, in order. Missing: normal
distributions of plain numbers, see `C199_violated`. -/
theorem C199_rows_partial (sqrt : F → F) (w : Nat) (steps : List (Nat × Option (Dist F)))
    (H : ∀ x ∈ steps, ∀ d, x.2 = some d → 0 < x.1 ∧ Rows d x.1 ∧ Width d w) :
    ∃ c, ({} : CollectStats F).updates sqrt steps = .ok c ∧ c.steps = (steps.map Prod.fst).sum ∧
      c.stds.getD [] = expected sqrt steps ∧ (c.stds = none ↔ ∀ x ∈ steps, x.2 = none) ∧
      ∀ row ∈ expected sqrt steps, row.length = w := by
  have key : ∀ (steps : List (Nat × Option (Dist F))) (c : CollectStats F),
      (∀ x ∈ steps, ∀ d, x.2 = some d → 0 < x.1 ∧ Rows d x.1 ∧ Width d w) →
      (∀ a, c.stds = some a → a ≠ [] ∧ ∀ row ∈ a, row.length = w) →
      ∃ c', c.updates sqrt steps = .ok c' ∧ c'.steps = c.steps + (steps.map Prod.fst).sum ∧
        c'.stds.getD [] = c.stds.getD [] ++ expected sqrt steps ∧ (c'.stds = none ↔ c.stds = none ∧ ∀ x ∈ steps, x.2 = none) ∧
        ∀ row ∈ expected sqrt steps, row.length = w := by
    intro steps
    induction steps with
    | nil => intro c _ _; exact ⟨c, rfl, by simp, by simp [expected], by simp, by simp [expected]⟩
    | cons x steps ih =>
      obtain ⟨n, o⟩ := x
      intro c hx hc
      cases o with
      | none =>
        obtain ⟨c', h1, h2, h3, h4, h5⟩ := ih { c with steps := c.steps + n } (fun x hx' => hx x (List.mem_cons_of_mem _ hx')) hc
        refine ⟨c', by simp only [CollectStats.updates, CollectStats.update]; exact h1, by rw [h2]; simp [Nat.add_assoc], ?_, ?_, ?_⟩
        · rw [h3]; simp [expected]
        · rw [h4]; simp
        · simpa [expected] using h5
      | some d =>
        obtain ⟨hn, hr, hw⟩ := hx (n, some d) (by simp) d rfl
        obtain ⟨m, m1, m2, m3, m4⟩ := stddev_rows sqrt hr hw
        have hm : m ≠ [] := by rintro rfl; simp at m3; omega
        have hexp : expected sqrt ((n, some d) :: steps) = m ++ expected sqrt steps := by
          rw [expected, List.flatMap_cons, m2]; rfl
        have step : c.update sqrt n (some d) = .ok ⟨c.steps + n, some (c.stds.getD [] ++ m)⟩ := by
          simp only [CollectStats.update, m1, Ten.atLeast2d]
          cases hs : c.stds with
          | none => rfl
          | some a =>
            obtain ⟨ha1, ha2⟩ := hc a hs
            simp only [concat, columns_of ha1 ha2, columns_of hm m4, if_true]
            rfl
        obtain ⟨c', h1, h2, h3, h4, h5⟩ := ih ⟨c.steps + n, some (c.stds.getD [] ++ m)⟩
          (fun x hx' => hx x (List.mem_cons_of_mem _ hx')) (by
            intro a ha
            injection ha with ha
            subst ha
            refine ⟨by simp [hm], ?_⟩
            intro row hrow
            rcases List.mem_append.1 hrow with hrow | hrow
            · cases hs : c.stds with
              | none => rw [hs] at hrow; simp at hrow
              | some a => rw [hs] at hrow; exact (hc a hs).2 row hrow
            · exact m4 row hrow)
        refine ⟨c', by simp only [CollectStats.updates, step]; exact h1, by rw [h2]; simp [Nat.add_assoc], ?_, ?_, ?_⟩
        · rw [h3, hexp]; simp
        · rw [h4]; simp
        · rw [hexp]
          intro row hrow
          rcases List.mem_append.1 hrow with hrow | hrow
          · exact m4 row hrow
          · exact h5 row hrow
  obtain ⟨c, h1, h2, h3, h4, h5⟩ := key steps {} H (by intro a ha; cases ha)
  exact ⟨c, h1, by simpa using h2, by simpa using h3, by simpa using h4, h5⟩

/-- C199. The summaries are by component of the action: one for each, of the values of this component over all steps. -/
theorem C199_summaries [LinearOrder F] (sqrt : F → F) (c : CollectStats F) (a : List (List F)) (w : Nat) (hc : c.stds = some a)
    (ha : a ≠ []) (hw : 0 < w) (hrow : ∀ row ∈ a, row.length = w) :
    ∃ l, c.stdStats sqrt = some l ∧ l.length = w ∧
      ∀ j : Nat, j < w → l[j]? = some (summarise sqrt (a.map fun row => row.getD j 0)) := by
  have hcol := columns_of ha hrow
  have hlen : 0 < a.length := List.length_pos_iff.2 ha
  have ht : transpose a = (List.range w).map fun j => a.map fun row => row.getD j 0 := by rw [transpose, hcol]
  refine ⟨(transpose a).map (summarise sqrt), ?_, by simp [ht], ?_⟩
  · unfold CollectStats.stdStats
    rw [hc]
    simp only [hcol]
    rw [if_neg (Nat.mul_ne_zero (by omega) (by omega))]
  · intro j hj
    simp [ht, hj]

/-- Two steps: three environments with a choice among three actions, then two. -/
def exSteps : List (Nat × Option (Dist ℚ)) :=
  [(3, some (.cat (.r2 [[1/2, 0, 1/2], [1, 0, 0], [0, 1/2, 1/2]]))), (4, none), (2, some (.cat (.r2 [[0, 0, 1], [1/4, 1/2, 1/4]])))]

example : ∀ x ∈ exSteps, ∀ d, x.2 = some d → 0 < x.1 ∧ Rows d x.1 ∧ Width d 1 := by
  intro x hx d hd
  simp only [exSteps, List.mem_cons, List.not_mem_nil, or_false] at hx
  rcases hx with rfl | rfl | rfl
  · cases hd; exact ⟨by decide, Rows.cat (by decide +kernel), .cat⟩
  · cases hd
  · cases hd; exact ⟨by decide, Rows.cat (by decide +kernel), .cat⟩

example : (({} : CollectStats ℚ).updates id exSteps).toOption.map (fun c => (c.steps, c.stds)) =
    some (9, some [[1], [0], [1/4], [0], [1/2]]) := by decide +kernel

example : (({} : CollectStats ℚ).updates id [(2, some (.normal (.r2 [[0, 0], [0, 0]]) (.r2 [[1, 2], [3, 4]])))]).toOption.map
    (fun c => (c.stdStats id).map fun l => l.map fun s => (s.min, s.max)) = some (some [(1, 3), (2, 4)]) := by decide +kernel

/-- C199 fails for normal distributions of plain numbers, one for each environment: the standard deviations of the environments end
up as components of one action, and the next step with another number of environments raises an error. -/
theorem C199_violated : ∃ (d d' : Dist ℚ) (c : CollectStats ℚ), Rows d 2 ∧ Rows d' 1 ∧
    ({} : CollectStats ℚ).updates id [(2, some d)] = .ok c ∧ c.stds = some [[5, 7]] ∧ expected id [(2, some d)] = [[5], [7]] ∧
    ({} : CollectStats ℚ).updates id [(2, some d), (1, some d')] = .error .value := by
  refine ⟨.normal (.r1 [0, 0]) (.r1 [5, 7]), .normal (.r1 [0]) (.r1 [5]), ⟨2, some [[5, 7]]⟩, .scalars (l := [0, 0]) rfl,
    .scalars (l := [0]) rfl, rfl, rfl, by decide +kernel, rfl⟩

end Verif.Dists
