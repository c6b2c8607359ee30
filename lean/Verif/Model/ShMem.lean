import Mathlib.Data.List.Nodup

/-!
Model of vectorised environments with shared memory: `SubprocVectorEnv(..., share_memory=True)` and `ShmemVectorEnv`, that
is `ShArray`, `_setup_buf`, `_worker` and `SubprocEnvWorker` (`tianshou/env/worker/subproc.py` lines 33-275) below
`BaseVectorEnv.reset` and `step` (`tianshou/env/venvs.py` lines 195-322) in synchronous mode.

Simplifications. The entries of an array are given as a list. An array handed out by an environment has the type of the
entries that its space announces, so that `np.copyto` converts nothing; copying an array of another shape is taken to fail
(NumPy would accept some of them by broadcasting). Spaces are boxes (anything whose elements are arrays), `Discrete` spaces
(whose elements are numbers, not arrays) and dictionaries of spaces; tuples are left out. The processes of all workers
handle their command before the first reply is read, which is one of the possible orders; if all ids are different the
order makes no difference. Everything else an environment returns besides the observation is one value.
-/

namespace Verif.ShMem

mutual
/-- Nested Python dictionaries: an object, or a dictionary. -/
inductive Tree (α : Type)
  | leaf (a : α)
  | dict (f : Forest α)
deriving DecidableEq, Repr
/-- The items of a Python dictionary. -/
inductive Forest (α : Type)
  | nil
  | cons (key : String) (t : Tree α) (rest : Forest α)
deriving DecidableEq, Repr
end

namespace Forest
variable {α : Type}

/-- `d.items()`. -/
def items : Forest α → List (String × Tree α)
  | nil => []
  | cons k t r => (k, t) :: r.items

/-- `d.get(k)`. -/
def get? (key : String) : Forest α → Option (Tree α)
  | nil => none
  | cons k t r => if k = key then some t else r.get? key

/-- `d[k] = t` for a key that is there. -/
def put (key : String) (x : Tree α) : Forest α → Forest α
  | nil => nil
  | cons k t r => if k = key then cons k x r else cons k t (r.put key x)

end Forest

/-- A gymnasium space that is no dictionary: the elements of a box of a shape are arrays of that shape; those of a
`Discrete` space are numbers. -/
inductive Space
  | box (shape : List Nat)
  | discrete
deriving DecidableEq, Repr

/-- An observation that is no dictionary. -/
inductive Value (V : Type)
  | array (shape : List Nat) (entries : List V)
  | number (v : V)
deriving DecidableEq, Repr

/-- `subproc.py` lines 50-55: a `ShArray`. -/
structure ShArray (V : Type) where
  shape : List Nat
  entries : List V
deriving DecidableEq, Repr

variable {V σ A R : Type}

/-- `subproc.py` lines 51-55: a new `ShArray` has `np.prod(shape)` entries, all zero. -/
def ShArray.new (zero : V) (shape : List Nat) : ShArray V := ⟨shape, List.replicate shape.prod zero⟩

/-- `subproc.py` lines 57-61: `save`. -/
def ShArray.save (a : ShArray V) (shape : List Nat) (entries : List V) : Option (ShArray V) :=
  if shape = a.shape then some ⟨a.shape, entries⟩ else none

mutual
/-- `subproc.py` lines 68-74: `_setup_buf`. The shape of a `Discrete` space is `()`. -/
def setup (zero : V) : Tree Space → Tree (ShArray V)
  | .leaf (.box shape) => .leaf (.new zero shape)
  | .leaf .discrete => .leaf (.new zero [])
  | .dict f => .dict (setupItems zero f)
/-- `subproc.py` line 70: the comprehension over the items of the dictionary. -/
def setupItems (zero : V) : Forest Space → Forest (ShArray V)
  | .nil => .nil
  | .cons k s r => .cons k (setup zero s) (setupItems zero r)
end

mutual
/-- `subproc.py` lines 83-94: `_encode_obs`. An array is saved in a `ShArray`, the items of a dictionary one by one; in all
other cases nothing happens. -/
def encode : Tree (Value V) → Tree (ShArray V) → Option (Tree (ShArray V))
  | .leaf (.array shape entries), .leaf m => (m.save shape entries).map .leaf
  | .dict o, .dict m => (encodeItems o m).map .dict
  | _, m => some m
/-- `subproc.py` lines 92-94: the loop over the keys of the observation; `none` also stands for the `KeyError`. -/
def encodeItems : Forest (Value V) → Forest (ShArray V) → Option (Forest (ShArray V))
  | .nil, m => some m
  | .cons k o r, m =>
    match m.get? k with
    | none => none
    | some x =>
      match encode o x with
      | none => none
      | some y => encodeItems r (m.put k y)
end

mutual
/-- `subproc.py` lines 63-65 and 180-192: `get` and `_decode_obs`. -/
def decode : Tree (ShArray V) → Tree (Value V)
  | .leaf m => .leaf (.array m.shape m.entries)
  | .dict f => .dict (decodeItems f)
/-- `subproc.py` line 189: the comprehension over the items of the dictionary. -/
def decodeItems : Forest (ShArray V) → Forest (Value V)
  | .nil => .nil
  | .cons k m r => .cons k (decode m) (decodeItems r)
end

/-- A worker: the state of the environment in its process, and the shared memory if there is one (`buffer`,
`subproc.py` lines 154-161). -/
structure Worker (σ V : Type) where
  env : σ
  memory : Option (Tree (ShArray V))
deriving DecidableEq

/-- `subproc.py` lines 144-171: a new worker for an environment with the given observation space. -/
def Worker.new (share : Bool) (zero : V) (space : Tree Space) (env : σ) : Worker σ V :=
  ⟨env, if share then some (setup zero space) else none⟩

/-- `subproc.py` lines 105-116: the process handles `step` or `reset`. With shared memory the observation is written there
and `None` is sent in its place. `run` is the environment: its new state, the observation, and the rest. -/
def Worker.handle (run : A → σ → σ × Tree (Value V) × R) (c : A) (w : Worker σ V) :
    Option (Worker σ V × Option (Tree (Value V)) × R) :=
  match w.memory with
  | none => some ({ w with env := (run c w.env).1 }, some (run c w.env).2.1, (run c w.env).2.2)
  | some m => (encode (run c w.env).2.1 m).map fun m' => (⟨(run c w.env).1, some m'⟩, none, (run c w.env).2.2)

/-- What a call returns as the observation of an environment: an object of its own, or views on the memory of a worker. -/
inductive Ret (V : Type)
  | own (o : Tree (Value V))
  | views (worker : Nat)
deriving DecidableEq, Repr

/-- What one sees when looking at a returned observation while the workers are in the given state. -/
def Ret.look (ws : List (Worker σ V)) : Ret V → Option (Tree (Value V))
  | .own o => some o
  | .views i => (ws[i]?.bind Worker.memory).map decode

/-- `venvs.py` lines 212-214, 281-287: every command goes to its worker; the replies, in order. -/
def handleAll (run : A → σ → σ × Tree (Value V) × R) : List (Nat × A) → List (Worker σ V) →
    Option (List (Worker σ V) × List (Nat × Option (Tree (Value V)) × R))
  | [], ws => some (ws, [])
  | (i, c) :: t, ws =>
    match ws[i]? with
    | none => none
    | some w =>
      match w.handle run c with
      | none => none
      | some (w', o, r) => (handleAll run t (ws.set i w')).map fun p => (p.1, (i, o, r) :: p.2)

/-- `subproc.py` lines 222-238: `recv` returns the observation from the reply, or views on the memory. -/
def recvObs (i : Nat) : Option (Tree (Value V)) → Ret V
  | some o => .own o
  | none => .views i

/-- `np.stack(obs_list)` (`venvs.py` lines 229-232, 312-315) makes an array of the entries if all observations are arrays of
one shape, or all are numbers: then it copies. Otherwise the result is an array of objects, which are the observations
themselves. Here: the observation at which it looks is a number or an array of shape `shape`. -/
def hasShape (shape : List Nat) : Option (Tree (Value V)) → Bool
  | some (.leaf (.array s _)) => s == shape
  | some (.leaf (.number _)) => shape == []
  | _ => false

/-- `venvs.py` lines 229-232, 312-315: the observations of the result, with what is seen when stacking them. -/
def stack (ws : List (Worker σ V)) (obs : List (Ret V)) : List (Ret V) :=
  match (obs.map (Ret.look ws)).head? with
  | some (some (.leaf (.array shape _))) =>
    if (obs.map (Ret.look ws)).all (hasShape shape) then (obs.map (Ret.look ws)).filterMap fun o => o.map .own else obs
  | some (some (.leaf (.number _))) =>
    if (obs.map (Ret.look ws)).all (hasShape []) then (obs.map (Ret.look ws)).filterMap fun o => o.map .own else obs
  | _ => obs

/-- `venvs.py` lines 195-235 and 237-322: `reset(ids, ...)` or `step(actions, ids)`, in synchronous mode. `calls` pairs each
id with what is asked of the environment (an action, or the arguments of `reset`). -/
def call (run : A → σ → σ × Tree (Value V) × R) (calls : List (Nat × A)) (ws : List (Worker σ V)) :
    Option (List (Worker σ V) × List (Ret V × R)) :=
  (handleAll run calls ws).map fun p =>
    (p.1, (stack p.1 (p.2.map fun q => recvObs q.1 q.2.1)).zip (p.2.map fun q => q.2.2))

end Verif.ShMem
