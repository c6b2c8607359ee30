import Verif.Lemmas.TrainerTrace
import Mathlib.Tactic.Linarith

/-!
Lemmas about the number of training steps in an epoch.
-/

namespace Verif.Trainer

set_option linter.unusedSectionVars false

variable {ω V F P : Type}

theorem updates_cons_collect (b : Bool) (e : Nat) (n : Int) (s : CStats V) (l : List (Ev V F P)) :
    updates (.collect b e n s :: l) = updates l := rfl

theorem updates_cons_test (why : Why) (b : Bool) (e : Nat) (n : Int) (raw s : CStats V) (x : F) (p : P) (l : List (Ev V F P)) :
    updates (.test why b e n raw s x p :: l) = updates l := rfl

/-- A training step makes one collection; a number of updates that is one for on-policy training follows unless training stops. -/
theorem Block.one {c : Cfg ω V F P} (htrain : c.hasTrain = true) {t t' : T ω V F P} {o : Option (CStats V)} {stop : Bool}
    {evs : List (Ev V F P)} (h : Block c t o stop evs t') :
    collected evs = [advance o] ∧ (c.kind = .onpolicy → updates evs = if stop then 0 else 1) := by
  have key : ∀ (n k : Nat) (g : Int), Upd c n k g → c.kind = .onpolicy → k = 1 := by
    intro n k g hu hk
    unfold Upd at hu
    rw [hk] at hu
    exact hu.1
  cases h with
  | offline w k g ht hu => rw [htrain] at ht; cases ht
  | plain w s k g ht hu hno =>
    refine ⟨congrArg (List.cons _) (collected_updates k true), fun hk => ?_⟩
    rw [updates_cons_collect, updates_updates, key _ _ _ hu hk]
    rfl
  | tested w s r p k g ht hu hyes hno =>
    refine ⟨congrArg (List.cons _) (collected_updates k true), fun hk => ?_⟩
    rw [updates_cons_collect, updates_cons_test, updates_updates, key _ _ _ hu hk]
    rfl
  | stopped w s r p ht hyes hyes' => exact ⟨rfl, fun _ => rfl⟩

theorem Rounds.count {c : Cfg ω V F P} (htrain : c.hasTrain = true) {n : Int} {t t' : T ω V F P}
    {os : List (Option (CStats V))} {evss : List (List (Ev V F P))} (h : Rounds c n t os evss t') (hflag : t.stopFlag = false) :
    (os ≠ [] → n + ((collected evss.flatten).dropLast.sum : Nat) < c.stepPerEpoch) ∧
      (t'.stopFlag = false → c.stepPerEpoch ≤ n + ((collected evss.flatten).sum : Nat)) ∧
      (os ≠ [] → collected evss.flatten ≠ []) ∧
      (c.kind = .onpolicy → updates evss.flatten ≤ (collected evss.flatten).length ∧
        (t'.stopFlag = false → updates evss.flatten = (collected evss.flatten).length)) := by
  induction h with
  | done n t h => exact ⟨by simp, fun _ => by simpa [collected] using h, by simp, fun _ => ⟨by simp [updates], fun _ => rfl⟩⟩
  | stop n t t' o evs h hb =>
    obtain ⟨h1, h2⟩ := hb.one htrain
    simp only [List.flatten_cons, List.flatten_nil, List.append_nil, h1]
    refine ⟨fun _ => by simpa using h, fun hf => by simp at hf, fun _ => by simp, fun hk => ?_⟩
    rw [h2 hk]
    simp
  | more n t t' t'' o os evs evss h hb hr ih =>
    obtain ⟨h1, h2⟩ := hb.one htrain
    obtain ⟨i1, i2, i3, i4⟩ := ih rfl
    simp only [List.flatten_cons, collected_append, h1, List.singleton_append, updates_append]
    refine ⟨fun _ => ?_, fun hf => ?_, fun _ => by simp, fun hk => ?_⟩
    · by_cases ho : os = []
      · subst ho
        cases hr
        simpa [collected] using h
      · rw [List.dropLast_cons_of_ne_nil (i3 ho), List.sum_cons]
        have := i1 ho
        push_cast
        omega
    · have := i2 hf
      rw [List.sum_cons]
      push_cast
      omega
    · obtain ⟨j1, j2⟩ := i4 hk
      rw [h2 hk, List.length_cons]
      refine ⟨by simp; omega, fun hf => ?_⟩
      rw [j2 hf]
      simp
      omega

variable [LT F] [DecidableRel (α := F) (· < ·)]

/-- The collections and updates of an epoch. -/
theorem next_count (c : Cfg ω V F P) (htrain : c.hasTrain = true) (fuel : Nat) (t t' : T ω V F P) (y : EpochStats V F P)
    (h : next c fuel t = some (t', .ok (some y))) :
    collected y.trace ≠ [] ∧ ((collected y.trace).dropLast.sum : Nat) < c.stepPerEpoch ∧
      (¬ StoppedEarly c.stopFn c.out.mean y.trace → c.stepPerEpoch ≤ ((collected y.trace).sum : Nat)) ∧
      (c.kind = .onpolicy → updates y.trace ≤ (collected y.trace).length ∧
        (¬ StoppedEarly c.stopFn c.out.mean y.trace → updates y.trace = (collected y.trace).length)) := by
  obtain ⟨os, evss, mid, tail, he⟩ := next_ok c fuel t t' y h
  obtain ⟨r1, r2, r3, r4⟩ := he.rounds.count htrain he.flag
  obtain ⟨f1, _, f3, _, _⟩ := he.finish.counted
  have e1 : collected y.trace = collected evss.flatten := by rw [he.trace, collected_append, f1, List.append_nil]
  have e2 : updates y.trace = updates evss.flatten := by rw [he.trace, updates_append, f3, Nat.add_zero]
  have e3 : ¬ StoppedEarly c.stopFn c.out.mean y.trace → mid.stopFlag = false := by
    intro hn
    rw [he.early] at hn
    simpa using hn
  rw [e1, e2]
  refine ⟨r3 he.some_round, by simpa using r1 he.some_round, fun hn => by simpa using r2 (e3 hn), fun hk => ?_⟩
  exact ⟨(r4 hk).1, fun hn => (r4 hk).2 (e3 hn)⟩

/-- Every result of an iteration is the result of a call of `next`. -/
theorem Iterating.mem_next {c : Cfg ω V F P} {t0 t : T ω V F P} {ys : List (EpochStats V F P)} (h : Iterating c t0 ys t) :
    ∀ y ∈ ys, ∃ fuel t1 t2, Verif.Trainer.next c fuel t1 = some (t2, .ok (some y)) := by
  induction h with
  | start rc rb t hr => simp
  | next fuel ys y t t' h hn ih =>
    intro z hz
    rcases List.mem_append.1 hz with hz | hz
    · exact ih z hz
    · have : z = y := by simpa using hz
      exact ⟨fuel, t, t', this ▸ hn⟩

end Verif.Trainer
