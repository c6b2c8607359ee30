import Verif.Model.Trainer

/-!
Vocabulary for the properties of the trainers.
-/

namespace Verif.Trainer

variable {ω V F P : Type}

/-- The stop function is given and accepts a value. -/
def Accepts (stop : Option (F → Bool)) (x : F) : Prop := ∃ f, stop = some f ∧ f x = true

/-- Training was stopped early: a training collection with a complete episode was accepted by the stop function, and so was the
test made right after it. -/
def StoppedEarly (stop : Option (F → Bool)) (mean : V → F) (tr : List (Ev V F P)) : Prop :=
  ∃ pre post b e n s why b' e' n' raw r score p,
    tr = pre ++ Ev.collect b e n s :: Ev.test why b' e' n' raw r score p :: post ∧
      0 < s.episodes ∧ Accepts stop (mean s.returns) ∧ Accepts stop (mean r.returns)

/-- The stop function succeeded in an epoch: training was stopped early, or it accepted the best reward after the test at the end. -/
def Succeeded (stop : Option (F → Bool)) (mean : V → F) (y : EpochStats V F P) : Prop :=
  StoppedEarly stop mean y.trace ∨ (y.testStat.isSome ∧ Accepts stop y.bestReward)

/-- A trainer is iterated over: `t0` is its state before the iteration started, `ys` are the results so far and `t` is
its state now. -/
inductive Iterating [LT F] [DecidableRel (α := F) (· < ·)] (c : Cfg ω V F P) (t0 : T ω V F P) :
    List (EpochStats V F P) → T ω V F P → Prop
  | start (resetCollectors resetBuffer : Bool) (t : T ω V F P)
      (h : reset c resetCollectors resetBuffer t0 = (t, .ok ())) : Iterating c t0 [] t
  | next (fuel : Nat) (ys : List (EpochStats V F P)) (y : EpochStats V F P) (t t' : T ω V F P) (h : Iterating c t0 ys t)
      (hn : next c fuel t = some (t', .ok (some y))) : Iterating c t0 (ys ++ [y]) t'

/-- A test that counts for the best score: score, epoch, statistics and policy. -/
structure Candidate (V F P : Type) where
  score : F
  epoch : Nat
  stats : CStats V
  policy : P

/-- The initial test and the tests at the end of epochs. -/
def candidates (tr : List (Ev V F P)) : List (Candidate V F P) :=
  tr.filterMap fun
    | .test .early _ _ _ _ _ _ _ => none
    | .test _ _ epoch _ _ stats score policy => some ⟨score, epoch, stats, policy⟩
    | _ => none

/-- The policies given to `save_best_fn`. -/
def saved (tr : List (Ev V F P)) : List P :=
  tr.filterMap fun
    | .saveBest p => some p
    | _ => none

/-- The steps of the training collections. -/
def collected (tr : List (Ev V F P)) : List Nat :=
  tr.filterMap fun
    | .collect _ _ _ s => some s.steps
    | _ => none

/-- The episodes of the training collections. -/
def collectedEpisodes (tr : List (Ev V F P)) : List Nat :=
  tr.filterMap fun
    | .collect _ _ _ s => some s.episodes
    | _ => none

/-- The number of calls of the policy's update. -/
def updates (tr : List (Ev V F P)) : Nat :=
  (tr.filter fun
    | .update _ => true
    | _ => false).length

/-- Collections (with their number of steps) and updates, in order. -/
def work (tr : List (Ev V F P)) : List (Option Nat) :=
  tr.filterMap fun
    | .collect _ _ _ s => some (some s.steps)
    | .update _ => some none
    | _ => none

/-- The initial tests. -/
def initialTests (tr : List (Ev V F P)) : Nat :=
  (tr.filter fun
    | .test .initial _ _ _ _ _ _ _ => true
    | _ => false).length

/-- The statistics are those of a collection, with the reward metric (if there is one) applied to the returns. -/
structure Metered (metric : Option (V → V)) (raw s : CStats V) : Prop where
  steps : s.steps = raw.steps
  episodes : s.episodes = raw.episodes
  plain : metric = none → s.returns = raw.returns
  applied : ∀ f, metric = some f → s.returns = f raw.returns

/-- `n` is the integer nearest to `x`, and the even one if there are two. -/
def Nearest (x : ℚ) (n : ℤ) : Prop := |x - n| ≤ 1 / 2 ∧ (|x - n| = 1 / 2 → Even n)

end Verif.Trainer
