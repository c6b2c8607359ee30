import Verif.Lemmas.EvaluationRun
import Mathlib.Algebra.Order.Ring.Int
import Mathlib.Data.Int.Cast.Lemmas
import Mathlib.Algebra.Order.Ring.Cast

/-!
Properties C169 to C171: the evaluation of several runs.
-/

set_option linter.unusedSectionVars false

namespace Verif.Evaluation

open Verif.Logger

variable {V : Type}

/-- The rows of a scope. -/
def Result.rows (res : Result V) (test : Bool) : List (List V) := if test then res.testRows else res.trainRows

/-- The environment steps of a scope. -/
def Result.steps (res : Result V) (test : Bool) : List V := if test then res.testSteps else res.trainSteps

/-- The learning curve of a run: environment steps and mean returns. -/
def curve [IntCast V] (test : Bool) (log : List (Item V)) : List (V × V) := (points test log).map fun x => ((x.1 : V), x.2.returns.mean)

/-- The number of points of the shortest learning curve. -/
def IsShortest (test : Bool) (runs : List (List (Item V))) (n : Nat) : Prop :=
  (∃ r ∈ runs, (points test r).length = n) ∧ ∀ r ∈ runs, n ≤ (points test r).length

/-- The environment steps of all runs are the same up to the end of the shortest. -/
def SameSteps (test : Bool) (runs : List (List (Item V))) (n : Nat) : Prop :=
  ∀ r ∈ runs, ∀ r' ∈ runs, ((points test r).take n).map (·.1) = ((points test r').take n).map (·.1)

/-! ### Helper lemmas -/

theorem minLen_spec (rows : List (List V)) (n : Nat) (h1 : ∃ r ∈ rows, r.length = n) (h2 : ∀ r ∈ rows, n ≤ r.length) :
    minLen rows = some n := by
  cases rows with
  | nil => simp at h1
  | cons r rows =>
    simp only [minLen, Option.some.injEq]
    have key : ∀ (l : List (List V)) (m : Nat), (m = n ∨ ∃ r ∈ l, r.length = n) → n ≤ m → (∀ r ∈ l, n ≤ r.length) →
        l.foldl (fun n r => min n r.length) m = n := by
      intro l
      induction l with
      | nil => intro m h _ _; simpa using h
      | cons a l ih =>
        intro m h hm hl
        have ha := hl a (List.mem_cons_self ..)
        refine ih (min m a.length) ?_ (le_min hm ha) fun r hr => hl r (List.mem_cons_of_mem _ hr)
        rcases h with h | ⟨r, hr, h⟩
        · left; omega
        · rcases List.mem_cons.1 hr with h' | h'
          · left; subst h'; omega
          · exact Or.inr ⟨r, h', h⟩
    refine key rows r.length ?_ (h2 r (List.mem_cons_self ..)) fun r hr => h2 r (List.mem_cons_of_mem _ hr)
    obtain ⟨x, hx, e⟩ := h1
    rcases List.mem_cons.1 hx with h | h
    · left; rw [← h, e]
    · exact Or.inr ⟨x, h, e⟩

/-- Increasing natural numbers: the `i`-th is at least `i`. -/
theorem takeWhile_length_le (l : List Int) (hl : l.Pairwise (· < ·)) (c : Int) (hc : ∀ x ∈ l, c ≤ x) (m : Nat) :
    ((l.takeWhile fun x => decide (x < c + m)).length) ≤ m := by
  induction l generalizing c m with
  | nil => simp
  | cons a l ih =>
    rw [List.pairwise_cons] at hl
    by_cases h : a < c + m
    · rw [List.takeWhile_cons_of_pos (by simpa using h), List.length_cons]
      have ha := hc a (List.mem_cons_self ..)
      obtain ⟨m', rfl⟩ : ∃ m', m = m' + 1 := ⟨m - 1, by omega⟩
      have := ih hl.2 (c + 1) (fun x hx => by have := hl.1 x hx; omega) m'
      rw [show c + 1 + (m' : Int) = c + ((m' + 1 : Nat) : Int) by push_cast; ring] at this
      omega
    · rw [List.takeWhile_cons_of_neg (by simpa using h)]
      simp

theorem takeWhile_take (l : List Int) (p : Int → Bool) (k : Nat) (h : (l.takeWhile p).length ≤ k) :
    (l.take k).takeWhile p = l.takeWhile p := by
  induction l generalizing k with
  | nil => simp
  | cons a l ih =>
    by_cases hp : p a = true
    · rw [List.takeWhile_cons_of_pos hp, List.length_cons] at h
      obtain ⟨k', rfl⟩ : ∃ k', k = k' + 1 := ⟨k - 1, by omega⟩
      rw [List.take_succ_cons, List.takeWhile_cons_of_pos hp, List.takeWhile_cons_of_pos hp, ih k' (by omega)]
    · rw [List.takeWhile_cons_of_neg hp]
      cases k with
      | zero => simp
      | succ k => rw [List.take_succ_cons, List.takeWhile_cons_of_neg hp]

theorem take_filter (l : List Int) (hl : l.Pairwise (· < ·)) (m : Int) {B : Type} (pts : List (Int × B)) (hp : pts.map (·.1) = l) :
    pts.take (l.takeWhile fun x => decide (x < m)).length = pts.filter fun x => decide (x.1 < m) := by
  induction pts generalizing l with
  | nil => subst hp; simp
  | cons a pts ih =>
    subst hp
    rw [List.map_cons, List.pairwise_cons] at hl
    by_cases h : a.1 < m
    · rw [List.map_cons, List.takeWhile_cons_of_pos (by simpa using h), List.filter_cons_of_pos (by simpa using h), List.length_cons,
        List.take_succ_cons, ih _ hl.2 rfl]
    · rw [List.map_cons, List.takeWhile_cons_of_neg (by simpa using h), List.filter_cons_of_neg (by simpa using h)]
      simp only [List.length_nil, List.take_zero]
      symm
      rw [List.filter_eq_nil_iff]
      intro x hx
      have := hl.1 x.1 (List.mem_map_of_mem hx)
      simp only [decide_eq_true_eq]
      omega

section
variable [Ring V] [LinearOrder V] [IsStrictOrderedRing V]

theorem searchSorted_cast (l : List Int) (m : Nat) :
    searchSorted (l.map fun x : Int => (x : V)) m = (l.takeWhile fun x => decide (x < (m : Int))).length := by
  unfold searchSorted
  have h : ∀ x : Int, ((x : V) < (m : V)) ↔ x < (m : Int) := by
    intro x
    rw [← Int.cast_natCast (R := V) m]
    exact Int.cast_lt
  induction l with
  | nil => rfl
  | cons a l ih =>
    rw [List.map_cons]
    by_cases hp : a < (m : Int)
    · rw [List.takeWhile_cons_of_pos (by simpa using (h a).2 hp), List.takeWhile_cons_of_pos (by simpa using hp), List.length_cons,
        List.length_cons, ih]
    · rw [List.takeWhile_cons_of_neg (by simpa using fun e => hp ((h a).1 e)), List.takeWhile_cons_of_neg (by simpa using hp)]
      rfl

/-- The runs which are read, and how they are cut. -/
theorem load_runs (runs : List (List (Item V))) (h : ∀ r ∈ runs, LogOk r ∧ Plain r) (last : List (Item V)) (hl : runs.getLast? = some last)
    (m : Option Nat) (k : Bool → Nat) (st : Bool → List V)
    (hc : ∀ b, cut (runs.map fun r => (points b r).map fun x => x.2.returns.mean)
      (some (.arr ((points b last).map fun x => (x.1 : V)))) m = some (k b, st b)) :
    ∃ res, load (runs.map runDir) m = some res ∧
      ∀ b, res.rows b = runs.map (fun r => ((points b r).map fun x => x.2.returns.mean).take (k b)) ∧ res.steps b = st b := by
  unfold load
  rw [loadEntries_runs runs h, Option.bind_some, hl]
  simp only [Option.map_some, Option.some_or, List.nil_append, finish, hc true, hc false, Option.bind_some]
  refine ⟨_, rfl, ?_⟩
  intro b
  cases b <;> simp [Result.rows, Result.steps]

theorem zip_row (l : List (Int × Stats V)) (l' : List (Int × Stats V)) (k n : Nat) (hk : k ≤ n)
    (hs : (l'.take n).map (·.1) = (l.take n).map (·.1)) :
    ((l'.map fun x => (x.1 : V)).take k).zip ((l.map fun x => x.2.returns.mean).take k) =
      (l.take k).map fun x => ((x.1 : V), x.2.returns.mean) := by
  have : (l'.map fun x => (x.1 : V)).take k = (l.map fun x => (x.1 : V)).take k := by
    have h := congrArg (fun z => (z.map fun x : Int => (x : V)).take k) hs
    simp only [← List.map_take, List.map_map, List.take_take] at h
    rw [min_eq_left hk] at h
    rw [← List.map_take, ← List.map_take]
    exact h
  rw [this, ← List.map_take, ← List.map_take, List.zip_map']

/-! ### C169: the table -/

/-- The table of a scope is right: for each run there is a row with a point for each environment step, and these are the points of the
learning curve of the run that are kept. -/
def TableOk (res : Result V) (runs : List (List (Item V))) (test : Bool) (keep : List (Int × Stats V) → List (Int × Stats V)) : Prop :=
  (res.rows test).length = runs.length ∧
    ∀ (i : Nat) (r : List (Item V)), runs[i]? = some r → ∃ row, (res.rows test)[i]? = some row ∧ row.length = (res.steps test).length ∧
      (res.steps test).zip row = (keep (points test r)).map fun x => ((x.1 : V), x.2.returns.mean)

/-- C169, full statement: if all the runs in a directory have logged training and test episodes and can be read, the table holds, for each
run, the points of its learning curve, up to the length of the shortest. -/
def C169 (V : Type) [Ring V] [LinearOrder V] [IsStrictOrderedRing V] : Prop :=
  ∀ (runs : List (List (Item V))) (res : Result V), (∀ r ∈ runs, LogOk r ∧ Plain r) → load (runs.map runDir) none = some res →
    ∀ b n, IsShortest b runs n → TableOk res runs b fun l => l.take n

/-- C169, for runs with the same environment steps up to the end of the shortest: the directory is read, and the table is right.
Missing in `C169`: runs with different environment steps; see `C169_violated`. -/
theorem C169_same_partial (runs : List (List (Item V))) (hne : runs ≠ []) (h : ∀ r ∈ runs, LogOk r ∧ Plain r) (n : Bool → Nat)
    (hn : ∀ b, IsShortest b runs (n b)) (hs : ∀ b, SameSteps b runs (n b)) :
    ∃ res, load (runs.map runDir) none = some res ∧ ∀ b, TableOk res runs b fun l => l.take (n b) := by
  obtain ⟨last, hl⟩ : ∃ last, runs.getLast? = some last := Option.isSome_iff_exists.1 (by simpa using hne)
  have hlm : last ∈ runs := List.mem_of_getLast? hl
  have hc : ∀ b, cut (runs.map fun r => (points b r).map fun x => x.2.returns.mean)
      (some (.arr ((points b last).map fun x => (x.1 : V)))) none = some (n b, ((points b last).map fun x => (x.1 : V)).take (n b)) := by
    intro b
    unfold cut
    rw [minLen_spec _ (n b)]
    · rfl
    · obtain ⟨r, hr, e⟩ := (hn b).1
      exact ⟨_, List.mem_map_of_mem hr, by simpa using e⟩
    · intro row hrow
      obtain ⟨r, hr, rfl⟩ := List.mem_map.1 hrow
      simpa using (hn b).2 r hr
  obtain ⟨res, hres, hrows⟩ := load_runs runs h last hl none n _ hc
  refine ⟨res, hres, ?_⟩
  intro b
  obtain ⟨h1, h2⟩ := hrows b
  refine ⟨by rw [h1, List.length_map], ?_⟩
  intro i r hi
  have hr : r ∈ runs := List.mem_of_getElem? hi
  refine ⟨((points b r).map fun x => x.2.returns.mean).take (n b), ?_, ?_, ?_⟩
  · rw [h1, List.getElem?_map, hi]; rfl
  · have e1 := (hn b).2 r hr
    have e2 := (hn b).2 last hlm
    rw [h2]
    simp only [List.length_take, List.length_map]
    omega
  · rw [h2]
    exact zip_row (points b r) (points b last) (n b) (n b) (le_refl _) (hs b last hlm r hr)

/-- C169. Entries of the directory that are hidden, and those that are no directories, are of no effect, whatever is in them. -/
theorem C169_ignored (entries : List (Entry V)) (m : Option Nat) :
    load entries m = load (entries.filter fun e => !e.hidden && e.isDir) m := by
  have key : ∀ (es : List (Entry V)) (acc : Acc V), loadEntries acc es = loadEntries acc (es.filter fun e => !e.hidden && e.isDir) := by
    intro es
    induction es with
    | nil => intro acc; rfl
    | cons e es ih =>
      intro acc
      by_cases h : e.hidden = true ∨ e.isDir = false
      · have hf : (!e.hidden && e.isDir) = false := by rcases h with h | h <;> simp [h]
        rw [List.filter_cons_of_neg (by simp [hf])]
        simp only [loadEntries, loadEntry, if_pos h, Option.bind_some]
        exact ih acc
      · have hf : (!e.hidden && e.isDir) = true := by
          push Not at h
          simp [h]
        rw [List.filter_cons_of_pos (by simpa using hf)]
        simp only [loadEntries]
        congr 1
        funext a
        exact ih a
  unfold load
  rw [key]

/-- C169, without condition on the environment steps: the rows are the returns of the runs in their order, cut to the length of the
shortest; the environment steps are those of the run which is read last. -/
theorem C169_rows (runs : List (List (Item V))) (last : List (Item V)) (hl : runs.getLast? = some last)
    (h : ∀ r ∈ runs, LogOk r ∧ Plain r) (n : Bool → Nat) (hn : ∀ b, IsShortest b runs (n b)) :
    ∃ res, load (runs.map runDir) none = some res ∧ ∀ b,
      res.rows b = runs.map (fun r => ((curve b r).map (·.2)).take (n b)) ∧ res.steps b = ((curve b last).map (·.1)).take (n b) := by
  have hc : ∀ b, cut (runs.map fun r => (points b r).map fun x => x.2.returns.mean)
      (some (.arr ((points b last).map fun x => (x.1 : V)))) none = some (n b, ((points b last).map fun x => (x.1 : V)).take (n b)) := by
    intro b
    unfold cut
    rw [minLen_spec _ (n b)]
    · rfl
    · obtain ⟨r, hr, e⟩ := (hn b).1
      exact ⟨_, List.mem_map_of_mem hr, by simpa using e⟩
    · intro row hrow
      obtain ⟨r, hr, rfl⟩ := List.mem_map.1 hrow
      simpa using (hn b).2 r hr
  obtain ⟨res, hres, hrows⟩ := load_runs runs h last hl none n _ hc
  refine ⟨res, hres, fun b => ?_⟩
  obtain ⟨h1, h2⟩ := hrows b
  rw [h1, h2]
  simp only [curve, List.map_map]
  exact ⟨rfl, rfl⟩

end

/-- Statistics with a given mean return. -/
def exStats (m : Int) (stds : Option (List (Summary Int)) := none) : Stats Int :=
  { episodes := 1, steps := 10, time := 1, speed := 10, returns := ⟨m, 0, m, m⟩, lens := ⟨10, 0, 10, 10⟩, stds := stds }

/-- A run with points every `d` steps, with another call in between. -/
def exRun (d m : Int) : List (Item Int) :=
  [.test 0 (exStats m), .train d (exStats (m + 1)), .other ⟨wUpdate, wGradientStep, 1, .cons ['l'] (.num 5) .nil⟩,
   .test d (exStats (m + 2)), .train (2 * d) (exStats (m + 3)), .test (2 * d) (exStats (m + 4))]

theorem exRun_ok (d m : Int) : LogOk (exRun d m) ∧ Plain (exRun d m) := by
  refine ⟨⟨?_, ?_⟩, ⟨by simp [exRun, points, Item.stats], by simp [exRun, points, Item.stats], ?_⟩⟩
  · intro w hw
    simp only [exRun, List.mem_cons, Item.other.injEq, reduceCtorEq, false_or, List.not_mem_nil, or_false] at hw
    subst hw
    refine ⟨⟨?_, ?_, ⟨?_, ?_, trivial, trivial⟩, ?_⟩, by decide, by decide⟩ <;>
      first | (unfold GoodKey; decide +kernel) | decide +kernel | rfl
  · intro w w' hw hw'
    simp only [exRun, List.mem_cons, Item.other.injEq, reduceCtorEq, false_or, List.not_mem_nil, or_false] at hw hw'
    subst hw hw'
    have key : ∀ p, ((Write.mk wUpdate wGradientStep 1 (.cons ['l'] (.num (5 : Int)) .nil)).at? p).isSome →
        p = [wUpdate, wGradientStep] ∨ p = [wUpdate, ['l']] := by
      intro p hp
      obtain ⟨q, rfl⟩ := Write.at?_scope _ _ hp
      simp only [Write.at?] at hp
      split_ifs at hp with e1
      · exact Or.inl e1
      · right
        cases q with
        | nil => simp [Dict.at?] at hp
        | cons a q =>
          simp only [Dict.at?, if_true] at hp
          split_ifs at hp with e2
          · cases q with
            | nil => rw [e2]
            | cons b q => simp [Val.at?] at hp
          · simp at hp
    intro p q hp hq hpq
    rcases key p hp with rfl | rfl <;> rcases key q hq with rfl | rfl <;> first | rfl | (revert hpq; decide +kernel)
  · intro b x hx
    cases b
    · simp only [exRun, points, Item.stats, List.filterMap_cons, List.filterMap_nil, List.mem_cons, List.not_mem_nil, or_false,
        Bool.false_eq_true, if_false] at hx
      rcases hx with rfl | rfl <;> rfl
    · simp only [exRun, points, Item.stats, List.filterMap_cons, List.filterMap_nil, List.mem_cons, List.not_mem_nil, or_false,
        if_true] at hx
      rcases hx with rfl | rfl | rfl <;> rfl

example : ∃ res, load ([exRun 10 1, exRun 10 2].map runDir) none = some res ∧ res.rows true = [[1, 3, 5], [2, 4, 6]] ∧
    res.steps true = [0, 10, 20] ∧ res.rows false = [[2, 4], [3, 5]] ∧ res.steps false = [10, 20] := by
  obtain ⟨res, h1, h2⟩ := C169_rows [exRun 10 1, exRun 10 2] (exRun 10 2) rfl
    (by intro r hr; simp only [List.mem_cons, List.not_mem_nil, or_false] at hr; rcases hr with rfl | rfl <;> exact exRun_ok _ _)
    (fun b => if b then 3 else 2) (by
      intro b
      cases b <;> exact ⟨⟨exRun 10 1, by simp, rfl⟩, by simp; exact ⟨le_refl _, le_refl _⟩⟩)
  refine ⟨res, h1, (h2 true).1, (h2 true).2, (h2 false).1, (h2 false).2⟩

/-- C169 is violated: if the runs have tested at different steps, the steps of the run read last stand above the returns of all. -/
theorem C169_violated : ¬ C169 Int := by
  intro h
  have hok : ∀ r ∈ [exRun 10 1, exRun 30 2], LogOk r ∧ Plain r := by
    intro r hr; simp only [List.mem_cons, List.not_mem_nil, or_false] at hr; rcases hr with rfl | rfl <;> exact exRun_ok _ _
  have hn : ∀ b, IsShortest b [exRun 10 1, exRun 30 2] (if b then 3 else 2) := by
    intro b
    cases b <;> exact ⟨⟨exRun 10 1, by simp, rfl⟩, by simp; exact ⟨le_refl _, le_refl _⟩⟩
  obtain ⟨res, h1, h2⟩ := C169_rows [exRun 10 1, exRun 30 2] (exRun 30 2) rfl hok (fun b => if b then 3 else 2) hn
  obtain ⟨_, h3⟩ := h _ res hok h1 true 3 (hn true)
  obtain ⟨row, e1, _, e2⟩ := h3 0 (exRun 10 1) rfl
  rw [(h2 true).1] at e1
  simp only [List.map_cons, List.getElem?_cons_zero, Option.some.injEq] at e1
  rw [(h2 true).2, ← e1] at e2
  revert e2
  decide +kernel

/-! ### C170: the maximum number of environment steps -/

section
variable [Ring V] [LinearOrder V] [IsStrictOrderedRing V]

/-- C170, full statement: with `max_env_step`, the table holds the points up to this number of steps, within the length of the shortest
run. -/
def C170 (V : Type) [Ring V] [LinearOrder V] [IsStrictOrderedRing V] : Prop :=
  ∀ (runs : List (List (Item V))) (res : Result V) (m : Nat), (∀ r ∈ runs, LogOk r ∧ Plain r) → load (runs.map runDir) (some m) = some res →
    (∀ r ∈ runs, ∀ b, ((points b r).map (·.1)).Pairwise (· < ·) ∧ ∀ x ∈ points b r, 0 ≤ x.1) →
    ∀ b n, IsShortest b runs n → SameSteps b runs n → TableOk res runs b fun l => (l.take n).filter fun x => decide (x.1 ≤ m)

/-- C170, what holds: the table holds the points before the given number of steps.
Missing in `C170`: the point at exactly this number of steps; see `C170_violated`. -/
theorem C170_below_partial (runs : List (List (Item V))) (hne : runs ≠ []) (m : Nat) (h : ∀ r ∈ runs, LogOk r ∧ Plain r)
    (hinc : ∀ r ∈ runs, ∀ b, ((points b r).map (·.1)).Pairwise (· < ·) ∧ ∀ x ∈ points b r, 0 ≤ x.1) (n : Bool → Nat)
    (hn : ∀ b, IsShortest b runs (n b)) (hs : ∀ b, SameSteps b runs (n b)) :
    ∃ res, load (runs.map runDir) (some m) = some res ∧
      ∀ b, TableOk res runs b fun l => (l.take (n b)).filter fun x => decide (x.1 < m) := by
  obtain ⟨last, hl⟩ : ∃ last, runs.getLast? = some last := Option.isSome_iff_exists.1 (by simpa using hne)
  have hlm : last ∈ runs := List.mem_of_getLast? hl
  -- the number of columns
  obtain ⟨k, hk⟩ : ∃ k : Bool → Nat, ∀ b, k b =
      ((((points b last).take (n b)).map (·.1)).takeWhile fun x => decide (x < (m : Int))).length := ⟨_, fun _ => rfl⟩
  have hkn : ∀ b, k b ≤ n b := by
    intro b
    rw [hk]
    refine le_trans (List.takeWhile_prefix _).length_le ?_
    simp
  have hkm : ∀ b, k b ≤ m := by
    intro b
    have hp := (hinc last hlm b).1
    have := takeWhile_length_le (((points b last).take (n b)).map (·.1))
      (by rw [List.map_take]; exact hp.sublist (List.take_sublist _ _)) 0
      (by
        intro x hx
        obtain ⟨y, hy, rfl⟩ := List.mem_map.1 hx
        exact (hinc last hlm b).2 y (List.mem_of_mem_take hy)) m
    rw [hk]
    simpa using this
  have hmin : ∀ b, minLen (runs.map fun r => (points b r).map fun x => x.2.returns.mean) = some (n b) := by
    intro b
    apply minLen_spec
    · obtain ⟨r, hr, e⟩ := (hn b).1
      exact ⟨_, List.mem_map_of_mem hr, by simpa using e⟩
    · intro row hrow
      obtain ⟨r, hr, rfl⟩ := List.mem_map.1 hrow
      simpa using (hn b).2 r hr
  have hc : ∀ b, cut (runs.map fun r => (points b r).map fun x => x.2.returns.mean)
      (some (.arr ((points b last).map fun x => (x.1 : V)))) (some m) =
        some (k b, ((points b last).map fun x => (x.1 : V)).take (k b)) := by
    intro b
    unfold cut
    rw [hmin b]
    cases m with
    | zero =>
      have : k b = 0 := Nat.le_zero.1 (hkm b)
      simp [capLen, this]
    | succ m =>
      have hss : searchSorted ((((points b last).map fun x => (x.1 : V))).take (min (n b) (m + 1))) (m + 1) = k b := by
        have : (((points b last).map fun x => (x.1 : V))).take (min (n b) (m + 1)) =
            ((((points b last).take (n b)).map (·.1)).take (m + 1)).map fun x : Int => (x : V) := by
          rw [← List.map_take, ← List.map_take, List.take_take, List.map_map, min_comm]
          rfl
        rw [this, searchSorted_cast, takeWhile_take, hk]
        rw [← hk]; exact hkm b
      simp only [capLen, hss, List.take_take]
      rw [min_eq_left (le_min (hkn b) (hkm b))]
  obtain ⟨res, hres, hrows⟩ := load_runs runs h last hl (some m) k _ hc
  refine ⟨res, hres, ?_⟩
  intro b
  obtain ⟨h1, h2⟩ := hrows b
  refine ⟨by rw [h1, List.length_map], ?_⟩
  intro i r hi
  have hr : r ∈ runs := List.mem_of_getElem? hi
  refine ⟨((points b r).map fun x => x.2.returns.mean).take (k b), ?_, ?_, ?_⟩
  · rw [h1, List.getElem?_map, hi]; rfl
  · have e1 := (hn b).2 r hr
    have e2 := (hn b).2 last hlm
    have e3 := hkn b
    rw [h2]
    simp only [List.length_take, List.length_map]
    omega
  · rw [h2, zip_row (points b r) (points b last) (k b) (n b) (hkn b) (hs b last hlm r hr)]
    congr 1
    have := take_filter (((points b last).take (n b)).map (·.1))
      (by rw [List.map_take]; exact (hinc last hlm b).1.sublist (List.take_sublist _ _)) m ((points b r).take (n b))
      (hs b r hr last hlm)
    rw [← hk, List.take_take, min_eq_left (hkn b)] at this
    exact this

end

theorem exRun_inc (d m : Int) (hd : 0 < d) (b : Bool) :
    ((points b (exRun d m)).map (·.1)).Pairwise (· < ·) ∧ ∀ x ∈ points b (exRun d m), 0 ≤ x.1 := by
  cases b
  · simp only [exRun, points, Item.stats, List.filterMap_cons, List.filterMap_nil, List.map_cons, List.map_nil, Bool.false_eq_true,
      if_false, List.pairwise_cons, List.mem_cons, List.not_mem_nil, or_false, List.Pairwise.nil, and_true]
    refine ⟨⟨by intro a ha; omega, by simp⟩, ?_⟩
    rintro x (rfl | rfl) <;> simp only <;> omega
  · simp only [exRun, points, Item.stats, List.filterMap_cons, List.filterMap_nil, List.map_cons, List.map_nil,
      if_true, List.pairwise_cons, List.mem_cons, List.not_mem_nil, or_false, List.Pairwise.nil, and_true]
    refine ⟨⟨by intro a ha; omega, by intro a ha; omega, by simp⟩, ?_⟩
    rintro x (rfl | rfl | rfl) <;> simp only <;> omega

/-- C170 is violated: with tests at 0, 10 and 20 steps and `max_env_step=20`, the last is left out. -/
theorem C170_violated : ¬ C170 Int := by
  intro h
  have hok : ∀ r ∈ [exRun 10 1], LogOk r ∧ Plain r := by
    intro r hr; simp only [List.mem_cons, List.not_mem_nil, or_false] at hr; rw [hr]; exact exRun_ok _ _
  have hn : ∀ b, IsShortest b [exRun 10 1] (if b then 3 else 2) := by
    intro b
    cases b <;> exact ⟨⟨exRun 10 1, by simp, rfl⟩, by simp; exact le_refl _⟩
  have hs : ∀ b, SameSteps b [exRun 10 1] (if b then 3 else 2) := by
    intro b r hr r' hr'
    simp only [List.mem_cons, List.not_mem_nil, or_false] at hr hr'
    rw [hr, hr']
  have hinc : ∀ r ∈ [exRun 10 1], ∀ b, ((points b r).map (·.1)).Pairwise (· < ·) ∧ ∀ x ∈ points b r, 0 ≤ x.1 := by
    intro r hr; simp only [List.mem_cons, List.not_mem_nil, or_false] at hr; rw [hr]; exact exRun_inc 10 1 (by decide)
  obtain ⟨res, h1, h2⟩ := C170_below_partial [exRun 10 1] (by simp) 20 hok hinc (fun b => if b then 3 else 2) hn hs
  obtain ⟨_, h3⟩ := h _ res 20 hok h1 hinc true 3 (hn true) (hs true)
  obtain ⟨_, h4⟩ := h2 true
  obtain ⟨row, e1, _, e2⟩ := h3 0 (exRun 10 1) rfl
  obtain ⟨row', e1', _, e2'⟩ := h4 0 (exRun 10 1) rfl
  rw [e1] at e1'
  simp only [Option.some.injEq] at e1'
  rw [← e1', e2] at e2'
  revert e2'
  decide +kernel

/-! ### C171: which runs can be read -/

section
variable [Ring V] [LinearOrder V] [IsStrictOrderedRing V]

/-- C171, full statement: a directory in which all runs have logged test episodes can be read. -/
def C171 (V : Type) [Ring V] [LinearOrder V] [IsStrictOrderedRing V] : Prop :=
  ∀ runs : List (List (Item V)), runs ≠ [] → (∀ r ∈ runs, LogOk r ∧ points true r ≠ []) → (load (runs.map runDir) none).isSome

/-- C171, for runs with training data whose policies have no action distribution: the directory can be read, with or without a maximum
number of steps.
Missing in `C171`: policies with distributions and runs without training data (offline learning); see `C171_dist` and `C171_no_train`. -/
theorem C171_plain_partial (runs : List (List (Item V))) (hne : runs ≠ []) (h : ∀ r ∈ runs, LogOk r ∧ Plain r) (m : Option Nat) :
    (load (runs.map runDir) m).isSome := by
  obtain ⟨last, hl⟩ : ∃ last, runs.getLast? = some last := Option.isSome_iff_exists.1 (by simpa using hne)
  have hc : ∀ b, ∃ k st, cut (runs.map fun r => (points b r).map fun x => x.2.returns.mean)
      (some (.arr ((points b last).map fun x => (x.1 : V)))) m = some (k, st) := by
    intro b
    cases runs with
    | nil => exact absurd rfl hne
    | cons r runs =>
      simp only [cut, List.map_cons, minLen]
      split <;> exact ⟨_, _, rfl⟩
  obtain ⟨k, hk⟩ := Classical.skolem.1 hc
  obtain ⟨st, hst⟩ := Classical.skolem.1 hk
  obtain ⟨res, hres, _⟩ := load_runs runs h last hl m k st hst
  rw [hres]; rfl

/-- C171, the converse for policies with distributions: if one run in the directory has logged the standard deviations of a distribution
over actions (with at least one dimension), reading the directory raises an error. -/
theorem C171_dist (runs runs' : List (List (Item V))) (r : List (Item V)) (h : LogOk r) (ht : points true r ≠ [])
    (hd : ∃ b, ∃ x ∈ points b r, ∃ s l, x.2.stds = some (s :: l)) (m : Option Nat) :
    load ((runs ++ r :: runs').map runDir) m = none := by
  obtain ⟨b, x, hx, s, l, hs⟩ := hd
  unfold load
  rw [List.map_append, List.map_cons, loadEntries_none _ _ _ (loadEntry_dist r h ht b x hx s l hs)]
  rfl

/-- C171, the converse for runs with test data and no training data. -/
theorem C171_no_train (runs runs' : List (List (Item V))) (r : List (Item V)) (h : LogOk r) (ht : points true r ≠ [])
    (hr : points false r = []) (m : Option Nat) :
    load ((runs ++ r :: runs').map runDir) m = none := by
  unfold load
  rw [List.map_append, List.map_cons, loadEntries_none _ _ _ (loadEntry_no_train r h ht hr)]
  rfl

end

/-- A run of a policy with distributions. -/
def distRun : List (Item Int) := [.test 0 (exStats 1), .train 10 (exStats 2 (some [⟨1, 0, 1, 1⟩])), .test 10 (exStats 3)]

theorem distRun_ok : LogOk distRun := ⟨by simp [distRun], by simp [distRun]⟩

/-- C171 is violated. -/
theorem C171_violated : ¬ C171 Int := by
  intro h
  have h1 := h [distRun] (by simp) (by
    intro r hr; simp only [List.mem_cons, List.not_mem_nil, or_false] at hr; rw [hr]
    exact ⟨distRun_ok, by simp [distRun, points, Item.stats]⟩)
  have h2 := C171_dist [] [] distRun distRun_ok (by simp [distRun, points, Item.stats])
    ⟨false, (10, exStats 2 (some [⟨1, 0, 1, 1⟩])), by simp [distRun, points, Item.stats], _, _, rfl⟩ none
  rw [List.nil_append] at h2
  rw [h2] at h1
  simp at h1

/-- The callback which lowers epsilon in DQN also makes the data unreadable: it writes `train/train/eps`. -/
example : (load [runDir [.test 0 (exStats 1), .train 10 (exStats 2), .other ⟨wTrain, wEnvStep, 20, epsData 1⟩]] none).isNone = true ∧
    (load [runDir [.test 0 (exStats 1), .train 10 (exStats 2)]] none).isSome = true := by decide +kernel

end Verif.Evaluation
