import Mathlib.Data.List.Basic

/-!
Model of the creation of environments in `tianshou/highlevel/env.py`.

Simplifications: an environment is given by its observation and action space (`E` records what else `create_env` gave); making
environments and workers does not raise. Shapes are lists; of a box only the upper bounds of the first axis are kept.
-/

namespace Verif.EnvFactory

/-- `EnvMode`, env.py:58-63. -/
inductive Mode
  | train
  | test
  | watch
deriving DecidableEq, Repr

/-- `VectorEnvType`, env.py:66-79. -/
inductive VenvType
  | dummy
  | subproc
  | shmem
  | shmemFork
  | ray
  | shmemAuto
deriving DecidableEq, Repr

/-- How the environments of a vector environment are run. -/
inductive Run
  | sequential
  | processes (shareMemory fork : Bool)
  | ray
  | envpool
deriving DecidableEq, Repr

/-- A gymnasium space. `box shape highs`: `highs` are the entries of `space.high` (along the first axis). -/
inductive Space (K : Type)
  | discrete (n : Nat)
  | box (shape : List Nat) (highs : List K)
  | multiDiscrete (nvec : List Nat)
  | dict
deriving DecidableEq, Repr

/-- Exceptions. -/
inductive Err
  | attribute
  | value
  | index
  | unsupported
deriving DecidableEq, Repr

/-- A vector environment: how it runs, its environments, and the seeds they were given (`none`: not seeded). -/
structure Venv (E : Type) where
  run : Run
  envs : List E
  seeds : List (Option Int)
deriving DecidableEq, Repr

variable {E K : Type}

/-- `VectorEnvType.create_venv`, env.py:81-103: a list of environments made by the factories. -/
def VenvType.run (windows : Bool) : VenvType → Run
  | .dummy => .sequential
  | .subproc => .processes false false
  | .shmem => .processes true false
  | .shmemFork => .processes true true
  | .shmemAuto => if windows then .processes true false else .processes true true
  | .ray => .ray

/-- What a factory is given by the user: the type of the vector environments, the seeds, and whether there is an `envpool_factory`;
`EnvFactoryRegistered.__init__`, env.py:420-456. `createEnv mode` makes one environment. -/
structure Factory (E : Type) where
  venvType : VenvType
  createEnv : Mode → E
  trainSeed : Int
  testSeed : Int
  envpool : Bool
  windows : Bool

/-- `EnvFactory.create_venv`, env.py:372-385. -/
def Factory.createVenvBase (f : Factory E) (n : Nat) (mode : Mode) : Venv E :=
  if mode = .watch then ⟨.sequential, [f.createEnv mode], [none]⟩
  else ⟨f.venvType.run f.windows, List.replicate n (f.createEnv mode), List.replicate n none⟩

/-- `EnvFactoryRegistered.create_venv`, env.py:486-501, with `EnvPoolFactory.create_venv`, env.py:338-355 (environment `i` of an
envpool is seeded with `seed + i`), and `BaseVectorEnv.seed` with an integer (venvs.py:338-342). -/
def Factory.createVenv (f : Factory E) (n : Nat) (mode : Mode) : Venv E :=
  let seed := if mode = .train then f.trainSeed else f.testSeed
  if f.envpool then ⟨.envpool, List.replicate n (f.createEnv mode), (List.range n).map fun i : Nat => some (seed + (i : Int))⟩
  else
    let v := f.createVenvBase n mode
    { v with seeds := (List.range v.envs.length).map fun i : Nat => some (seed + (i : Int)) }

/-- `space.shape or space.n`, env.py:254, 282, 283: an integer is a list of one entry here. A box with the empty shape and a
dictionary have no attribute `n`. -/
def shapeOrN : Space K → Except Err (List Nat)
  | .discrete n => .ok [n]
  | .box [] _ => .error .attribute
  | .box (d :: ds) _ => .ok (d :: ds)
  | .multiDiscrete [] => .error .attribute
  | .multiDiscrete (x :: xs) => .ok [(x :: xs).length]
  | .dict => .error .attribute

/-- `Environments`, env.py:106-122, with the attributes of its two subclasses, env.py:209 and 282-283. -/
structure Environments (E K : Type) where
  discrete : Bool
  env : E
  trainEnvs : Venv E
  testEnvs : Venv E
  watchEnv : Option (Venv E)
  stateShape : List Nat
  actionShape : List Nat
  maxAction : Option K
deriving DecidableEq, Repr

/-- `ContinuousEnvironments._get_continuous_env_info`, env.py:245-259: the shape of the observations, that of the actions, and the
maximum action. -/
def continuousInfo (obs act : Space K) : Except Err (List Nat × List Nat × K) :=
  match act with
  | .box shape highs =>
    match shapeOrN obs with
    | .error e => .error e
    | .ok state =>
      match highs with
      | [] => .error .index
      | h :: _ => .ok (state, shape, h)
  | _ => .error .value

/-- `EnvFactory.create_envs`, env.py:387-413, with `EnvType.from_env`, env.py:47-55; `obsSpace` and `actSpace` are those of an
environment. -/
def Factory.createEnvs (f : Factory E) (obsSpace actSpace : E → Space K) (numTrain numTest : Nat) (createWatch : Bool) :
    Except Err (Environments E K) :=
  let env := f.createEnv .train
  let train := f.createVenv numTrain .train
  let test := f.createVenv numTest .test
  let watch := if createWatch then some (f.createVenv 1 .watch) else none
  match actSpace env with
  | .discrete n =>
    match shapeOrN (obsSpace env) with
    | .error e => .error e
    | .ok state => .ok ⟨true, env, train, test, watch, state, [n], none⟩
  | .box shape highs =>
    match continuousInfo (obsSpace env) (Space.box shape highs) with
    | .error e => .error e
    | .ok (state, action, m) => .ok ⟨false, env, train, test, watch, state, action, some m⟩
  | _ => .error .unsupported

end Verif.EnvFactory
