import Mathlib.Data.List.Basic

/-!
Model of the attributes and the action spaces of environments in workers: `tianshou/env/worker/dummy.py`, `subproc.py`, `ray.py`,
`base.py` and the calls of `tianshou/env/venvs.py` that use them.

Simplifications: no call is made while an environment is being stepped and none after `close` (see `Verif/Model/VecEnv.lean` for
the checks). Attributes of an object are a dictionary. Of gymnasium (0.28, outside the repository) the rules of `Wrapper` are used:
an attribute that a wrapper does not have itself is looked up in the environment inside, except for names that begin with an
underscore, which raise `AttributeError`; `unwrapped` is the innermost environment. A random generator is given by the last seed
and the number of draws since. Of ray (outside the repository): an actor handle has the methods of the class of the actor only, so
`self.env.seed` on ray.py:70 raises `AttributeError`.
-/

namespace Verif.EnvAttr

variable {V A : Type}

/-- The attributes of one object. -/
abbrev Attrs (V : Type) := List (String × V)

/-- Reading from a dictionary. -/
def Attrs.get? (d : Attrs V) (key : String) : Option V := (d.find? fun p => p.1 == key).map Prod.snd

/-- Writing to a dictionary. -/
def Attrs.put (d : Attrs V) (key : String) (v : V) : Attrs V := (key, v) :: d.filter fun p => p.1 != key

/-- The state of a random generator: the seed it was given last (`none`: entropy of the system) and the draws since. -/
structure Gen where
  seed : Option Int
  drawn : Nat
deriving DecidableEq, Repr

/-- An environment: the attributes of its wrappers, outermost first, those of the innermost environment, the generator of its
action space, and the seeds it was reset with (`none`: reset without a seed). -/
structure Env (V : Type) where
  wrappers : List (Attrs V)
  base : Attrs V
  space : Gen
  resets : List (Option Int)
deriving DecidableEq, Repr

/-- Whether a name begins with an underscore. -/
def isPrivate (key : String) : Bool := key.toList.head? == some '_'

/-- `getattr(env, key)`; `none` is `AttributeError`. -/
def lookup (key : String) : List (Attrs V) → Attrs V → Option V
  | [], base => base.get? key
  | w :: ws, base =>
    match w.get? key with
    | some v => some v
    | none => if isPrivate key then none else lookup key ws base

/-- dummy.py:18, subproc.py:132, ray.py:23. -/
def Env.getattr (e : Env V) (key : String) : Option V := lookup key e.wrappers e.base

/-- `setattr(env.unwrapped, key, value)`, dummy.py:21, subproc.py:134, ray.py:20. -/
def Env.setattr (e : Env V) (key : String) (v : V) : Env V := { e with base := e.base.put key v }

/-- The worker classes. -/
inductive Kind
  | dummy
  | subproc
  | ray
deriving DecidableEq, Repr

/-- A worker: its environment and `self.action_space`, base.py:18. For a dummy worker that is the action space of the environment
itself; otherwise a copy, made when the worker was made, of which `own` is the generator. -/
structure Worker (V : Type) where
  env : Env V
  own : Gen
deriving DecidableEq, Repr

/-- What reading an attribute gives. -/
inductive Reply (V : Type)
  | value (v : V)
  | pyNone
  | attributeError
deriving DecidableEq, Repr

/-- `get_env_attr` of the workers, dummy.py:17-18, subproc.py:131-132 and 173-175, ray.py:22-23 and 36-37. -/
def Worker.getEnvAttr (kind : Kind) (w : Worker V) (key : String) : Reply V :=
  match w.env.getattr key, kind with
  | some v, _ => .value v
  | none, .subproc => .pyNone
  | none, _ => .attributeError

/-- `set_env_attr` of the workers, dummy.py:20-21, subproc.py:133-134 and 177-178, ray.py:19-20 and 39-40. -/
def Worker.setEnvAttr (w : Worker V) (key : String) (v : V) : Worker V := { w with env := w.env.setattr key v }

/-- How a call of the vector environment fails. -/
inductive Err
  | attribute
  | index
  | value
deriving DecidableEq, Repr

/-- `get_env_attr`, venvs.py:131-152: the list over the ids. -/
def getEnvAttr (kind : Kind) (ws : List (Worker V)) (key : String) : List Nat → Except Err (List (Reply V))
  | [] => .ok []
  | j :: ids =>
    match ws[j]? with
    | none => .error .index
    | some w =>
      match w.getEnvAttr kind key with
      | .attributeError => .error .attribute
      | r =>
        match getEnvAttr kind ws key ids with
        | .error e => .error e
        | .ok rs => .ok (r :: rs)

/-- `set_env_attr`, venvs.py:154-177: the loop over the ids (which exist, otherwise `IndexError` half-way). -/
def setEnvAttr (ws : List (Worker V)) (key : String) (v : V) : List Nat → List (Worker V)
  | [] => ws
  | j :: ids => setEnvAttr (ws.modify j fun w => w.setEnvAttr key v) key v ids

/-- `seed` of the workers with the seed `s`, base.py:71-72, dummy.py:43-49, subproc.py:123-129 and 256-259, ray.py:67-73. `legacy`
says what the environment's own method `seed` does to its action space, if there is such a method. -/
def Worker.seed (kind : Kind) (legacy : Option (Option Int → Gen → Gen)) (s : Option Int) (w : Worker V) : Worker V :=
  match kind, legacy with
  | .dummy, some f => { w with env := { w.env with space := f s ⟨s, 0⟩ } }
  | .dummy, none => { w with env := { w.env with space := ⟨s, 0⟩, resets := w.env.resets ++ [s] } }
  | .subproc, some f => { env := { w.env with space := f s w.env.space }, own := ⟨s, 0⟩ }
  | .subproc, none => { env := { w.env with space := ⟨s, 0⟩, resets := w.env.resets ++ [s] }, own := ⟨s, 0⟩ }
  | .ray, _ => { env := { w.env with resets := w.env.resets ++ [s] }, own := ⟨s, 0⟩ }

/-- `seed` of the vector environment with an integer, venvs.py:334-342: environment `i` gets `s + i`. -/
def seedInt (kind : Kind) (legacy : Option (Option Int → Gen → Gen)) (s : Int) (ws : List (Worker V)) : List (Worker V) :=
  ws.zipIdx.map fun p => p.1.seed kind legacy (some (s + (p.2 : Int)))

/-- `send(None, seed=s)` of the workers, dummy.py:36-38, subproc.py:214-219, ray.py:56-59, and the reset it asks for. -/
def Worker.resetSeed (kind : Kind) (s : Option Int) (w : Worker V) : Worker V :=
  match kind with
  | .dummy => { w with env := { w.env with resets := w.env.resets ++ [s] } }
  | .subproc => { env := { w.env with resets := w.env.resets ++ [s] }, own := ⟨s, 0⟩ }
  | .ray => { w with env := { w.env with resets := w.env.resets ++ [s] } }

/-- `reset(seed=s)` of the vector environment, venvs.py:195-216. -/
def resetInt (kind : Kind) (s : Int) (ws : List (Worker V)) : List (Worker V) := ws.map (Worker.resetSeed kind (some s))

/-- `venv.action_space`, venvs.py:118-129, as a collector keeps it (collector.py:335): for dummy workers the spaces of the
environments themselves (nothing is copied, so nothing is recorded here), for the others copies, sent by the workers. -/
def takeSpaces (ws : List (Worker V)) : List Gen := ws.map fun w => w.env.space

/-- `self._action_space[i].sample()`, collector.py:688-690. `rand s k` is the `k`-th sample with the seed `s`. The result: the
workers and the copies afterwards, and the action; `none`: `IndexError`. -/
def sample (rand : Option Int → Nat → A) (kind : Kind) (ws : List (Worker V)) (taken : List Gen) (i : Nat) :
    Option (List (Worker V) × List Gen × A) :=
  match kind with
  | .dummy =>
    match ws[i]? with
    | none => none
    | some w =>
      some (ws.set i { w with env := { w.env with space := { w.env.space with drawn := w.env.space.drawn + 1 } } }, taken,
        rand w.env.space.seed w.env.space.drawn)
  | _ =>
    match taken[i]? with
    | none => none
    | some g => some (ws, taken.set i { g with drawn := g.drawn + 1 }, rand g.seed g.drawn)

/-- The actions of a collection with `random=True`: `ids` are the environments that act, in order. -/
def samples (rand : Option Int → Nat → A) (kind : Kind) (ws : List (Worker V)) (taken : List Gen) : List Nat → Option (List A)
  | [] => some []
  | i :: ids =>
    match sample rand kind ws taken i with
    | none => none
    | some (ws', taken', a) => (samples rand kind ws' taken' ids).map (a :: ·)

end Verif.EnvAttr
