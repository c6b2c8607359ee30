import Mathlib.Algebra.Group.Defs

/-!
Model of `tianshou/env/pettingzoo_env.py`: `PettingZooEnv`.

Simplifications. The wrapped environment is an arbitrary deterministic state machine with the interface of PettingZoo's `AECEnv`
(its random numbers are part of its state; it does not raise). `last()` of PettingZoo returns what belongs to the agent that is
selected: this is trusted, as PettingZoo is not part of the repository. Spaces are only compared, and a space is discrete with `n`
actions or something else. Masks are lists of integers. `close`, `render` and `seed` are not modelled.
-/

namespace Verif.PettingZoo

variable {S G A O R I P : Type}

/-- An observation of the wrapped environment: a dictionary with the keys `observation` and `action_mask`, or anything else. -/
inductive Raw (O : Type)
  | masked (observation : O) (actionMask : List Int)
  | plain (observation : O)
deriving DecidableEq, Repr

/-- A space of actions, as far as `PettingZooEnv` looks at it. -/
inductive Space (P : Type)
  | discrete (n : Nat)
  | other (space : P)
deriving DecidableEq, Repr

/-- The wrapped environment (`AECEnv` of PettingZoo). `rewards` is the dictionary of the rewards of the last step. -/
structure Aec (S G A O R I P : Type) where
  possible : List G
  actionSpace : G → Space P
  observationSpace : G → P
  reset : S → S
  step : S → A → S
  selection : S → G
  observe : S → G → Raw O
  terminated : S → G → Bool
  truncated : S → G → Bool
  info : S → G → I
  rewards : S → List (G × R)

/-- The exceptions. -/
inductive Err
  | index
  | assertion
  | key
  | attribute
deriving DecidableEq, Repr

/-- The observation dictionary given to the user, lines 76-93 and 102-115; without the key `mask` if there is no mask. -/
structure View (G O : Type) where
  agentId : G
  obs : O
  mask : Option (List Bool)
deriving DecidableEq, Repr

/-- The wrapper, lines 38-69: the state of the wrapped environment, the first agent's action space and the list `self.rewards`. -/
structure Wrapper (S R P : Type) where
  inner : S
  actionSpace : Space P
  rewards : List R

variable [DecidableEq G]

/-- Lines 42-45: `self.agent_idx`. -/
def agentIdx (agents : List G) : G → Option Nat :=
  agents.zipIdx.foldl (fun d p g => if g = p.1 then some p.2 else d g) fun _ => none

/-- Lines 74-93 and 100-115: the observation dictionary in a state. -/
def view (e : Aec S G A O R I P) (space : Space P) (s : S) : Except Err (View G O) :=
  match e.observe s (e.selection s) with
  | .masked o m => .ok ⟨e.selection s, o, some (m.map fun x => decide (x = 1))⟩
  | .plain o =>
    match space with
    | .discrete _ =>
      match e.actionSpace (e.selection s) with
      | .discrete n => .ok ⟨e.selection s, o, some (List.replicate n true)⟩
      | .other _ => .error .attribute
    | .other _ => .ok ⟨e.selection s, o, none⟩

/-- `reset`, lines 71-95. -/
def Wrapper.reset (e : Aec S G A O R I P) (w : Wrapper S R P) : Except Err (Wrapper S R P × View G O × I) :=
  let s := e.reset w.inner
  (view e w.actionSpace s).map fun v => ({ w with inner := s }, v, e.info s (e.selection s))

/-- `__init__`, lines 38-69, for an environment in a given state. -/
def make [Zero R] [DecidableEq P] (e : Aec S G A O R I P) (s : S) : Except Err (Wrapper S R P) :=
  match e.possible with
  | [] => .error .index
  | first :: _ =>
    if ¬ e.possible.all (fun g => decide (e.observationSpace g = e.observationSpace first)) then .error .assertion
    else if ¬ e.possible.all (fun g => decide (e.actionSpace g = e.actionSpace first)) then .error .assertion
    else
      let w : Wrapper S R P := ⟨s, e.actionSpace first, List.replicate e.possible.length 0⟩
      (w.reset e).map fun p => p.1

/-- What `step` returns; the rewards are the list object `self.rewards` itself, see `Memory` below. -/
structure Result (G O R I : Type) where
  view : View G O
  rewards : List R
  terminated : Bool
  truncated : Bool
  info : I

/-- Lines 117-118: the loop over the reported rewards. -/
def writeRewards (agents : List G) : List (G × R) → List R → Except Err (List R)
  | [], rew => .ok rew
  | (g, r) :: rest, rew =>
    match agentIdx agents g with
    | none => .error .key
    | some i => writeRewards agents rest (rew.set i r)

/-- `step`, lines 97-119. -/
def Wrapper.step (e : Aec S G A O R I P) (w : Wrapper S R P) (a : A) : Except Err (Wrapper S R P × Result G O R I) :=
  let s := e.step w.inner a
  match view e w.actionSpace s with
  | .error x => .error x
  | .ok v =>
    match writeRewards e.possible (e.rewards s) w.rewards with
    | .error x => .error x
    | .ok rew =>
      .ok (⟨s, w.actionSpace, rew⟩, ⟨v, rew, e.terminated s (e.selection s), e.truncated s (e.selection s), e.info s (e.selection s)⟩)

/-- A call of the user. -/
inductive Call (A : Type)
  | reset
  | step (a : A)

/-- A sequence of calls; the wrapper and the rewards returned by the calls of `step`, in order, as they read when they are returned. -/
def Wrapper.run (e : Aec S G A O R I P) (w : Wrapper S R P) : List (Call A) → Except Err (Wrapper S R P × List (List R))
  | [] => .ok (w, [])
  | .reset :: rest =>
    match w.reset e with
    | .error x => .error x
    | .ok p => p.1.run e rest
  | .step a :: rest =>
    match w.step e a with
    | .error x => .error x
    | .ok p =>
      match p.1.run e rest with
      | .error x => .error x
      | .ok q => .ok (q.1, p.2.rewards :: q.2)

/-- How the rewards returned by the steps read at the end of a sequence of calls, line 119: every step returns the same list object
`self.rewards`, whose content is that of the wrapper now. -/
def Wrapper.readLater (w : Wrapper S R P) (returned : List (List R)) : List (List R) := returned.map fun _ => w.rewards

end Verif.PettingZoo
