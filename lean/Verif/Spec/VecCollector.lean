import Verif.Model.VecCollector

/-!
Specification for collecting from wrapped vector environments: uses of a collector, and the comparison of what is stored with and
without the wrapper.
-/

namespace Verif.VecCollector

open Verif.Collector (StepOut Env Row World Policy HiddenKind Err Stats)

variable {W Θ σ A O O' R I H K : Type}

/-- A call of a collector. -/
inductive Op (K : Type)
  | reset (buffer stats : Bool) (kw : K)
  | collect (nStep nEpisode : Option Int) (random before : Bool) (kw : K) (fuel : Nat)

/-- Do one call; `none`: an exception was raised, or the loop has not ended. -/
def applyOp (c : Setup A O I H) (V : VecEnv W A O R I K) (s : Col W A O R I H) : Op K → Option (Col W A O R I H)
  | .reset buffer stats kw => some (reset c V buffer stats kw s)
  | .collect nStep nEpisode random before kw fuel =>
    match collect c V nStep nEpisode random before kw fuel s with
    | some (.ok (s', _)) => some s'
    | _ => none

/-- Do calls in order. -/
def use (c : Setup A O I H) (V : VecEnv W A O R I K) : List (Op K) → Col W A O R I H → Option (Col W A O R I H)
  | [], s => some s
  | op :: ops, s => (applyOp c V s op).bind (use c V ops)

/-- The same calls of the collector of `Collector.lean`. -/
def useCollector (c : Collector.Cfg σ A O R I H K) : List (Op K) → Collector.Col σ A O R I H → Option (Collector.Col σ A O R I H)
  | [], s => some s
  | .reset buffer stats kw :: ops, s => useCollector c ops (Collector.reset c buffer stats kw s)
  | .collect nStep nEpisode random before kw fuel :: ops, s =>
    match Collector.collect c nStep nEpisode random before kw fuel s with
    | some (.ok (s', _)) => useCollector c ops s'
    | _ => none

/-- The configuration of `Collector.lean` with the same settings and the given environments. -/
def Setup.cfg (c : Setup A O I H) (E : Env σ A O R I K) : Collector.Cfg σ A O R I H K where
  env := E
  policy := c.policy
  envNum := c.envNum
  noise := c.noise
  share := false
  hiddenKind := c.hiddenKind
  zeroHidden := c.zeroHidden
  isAsync := c.isAsync

/-- An environment whose observations are changed by a function. -/
def mapObs (f : O → O') (E : Env σ A O R I K) : Env σ A O' R I K where
  step x a := let p := E.step x a; (p.1, ⟨f p.2.obs, p.2.rew, p.2.terminated, p.2.truncated, p.2.info⟩)
  reset kw x := let p := E.reset kw x; (p.1, f p.2.1, p.2.2)

/-- A vector environment which keeps the list of all batches of observations it has returned. -/
def VecEnv.recording (V : VecEnv W A O R I K) : VecEnv (W × List (List O)) A O R I K := V.observing fun batches obs => (batches ++ [obs], obs)

/-- A stored transition with and without the wrapper: all but the observations is the same, and the observations are related by `shown`. -/
structure SameRow (shown : O → O' → Prop) (raw : Row O A R I) (row : Row O' A R I) : Prop where
  given : row.given = raw.given
  act : row.act = raw.act
  applied : row.applied = raw.applied
  rew : row.out.rew = raw.out.rew
  terminated : row.out.terminated = raw.out.terminated
  truncated : row.out.truncated = raw.out.truncated
  info : row.out.info = raw.out.info
  obs : shown raw.obs row.obs
  obsNext : shown raw.out.obs row.out.obs

/-- The same rounds for the same environments, with transitions that are the same up to `shown`. -/
def SameLog (shown : O → O' → Prop) (raw : List (List (Nat × Row O A R I))) (log : List (List (Nat × Row O' A R I))) : Prop :=
  List.Forall₂ (List.Forall₂ fun p q => q.1 = p.1 ∧ SameRow shown p.2 q.2) raw log

/-- A vector environment returns one result per environment it is called for. -/
def VecEnv.Sized (V : VecEnv W A O R I K) : Prop :=
  (∀ acts w, (V.step acts w).2.length = acts.length) ∧ ∀ kw ids w, (V.reset kw ids w).2.length = ids.length

/-- A call of `collect` is given exactly one of `n_step` and `n_episode`. -/
def Op.Single : Op K → Prop
  | .reset _ _ _ => True
  | .collect nStep nEpisode _ _ _ _ => nStep.isSome ≠ nEpisode.isSome

/-- Calls as in `Collector.Usage`, after the buffer has been reset: no environment is reset in the middle of an episode whose transitions stay in the
buffer. `atStart`: all environments are at the start of an episode. -/
def Proper (envNum : Nat) : Bool → List (Op K) → Prop
  | _, [] => True
  | _, .reset true _ _ :: ops => Proper envNum true ops
  | atStart, .reset false _ _ :: ops => atStart = true ∧ Proper envNum true ops
  | atStart, .collect (some _) none _ before _ _ :: ops => (before = true → atStart = true) ∧ Proper envNum false ops
  | atStart, .collect none (some n) _ before _ _ :: ops =>
    (atStart = true ∨ (envNum : Int) ≤ n) ∧ (before = true → atStart = true) ∧ Proper envNum true ops
  | _, _ => False

end Verif.VecCollector
