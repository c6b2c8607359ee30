import Mathlib.Data.List.Basic
import Mathlib.Logic.Function.Basic

/-!
Model of experiment builders: `tianshou/highlevel/experiment.py`, lines 500-693 (`ExperimentBuilder`) and 694-1020 (actors and critics), with
`agent.py`, lines 88-92 and 136-143, `trainer.py`, lines 75-81, and lines 184-200 of `experiment.py` (`Experiment.__init__`).

The experiment configuration, the sampling configuration and the callbacks are objects that are known by reference; the maps in `Mem` give
their contents. Factories and parameters are values `V`, since neither builders nor experiments change them. Simplifications: the
classes of builders differ in the number of critics and the default parameters only (`Builder.new`); the name is given explicitly (by default
it contains the time); the object through which a critic gets the actor (`ActorFuture`) is left out, see `Factories.lean`.
-/

namespace Verif.Builder

variable {C S V : Type}

/-- `TrainerCallbacks`, trainer.py:75-81. -/
structure Callbacks (V : Type) where
  train : Option V := none
  test : Option V := none
  stop : Option V := none
deriving DecidableEq, Repr

/-- The objects; those with numbers below `next` exist. -/
structure Mem (C S V : Type) where
  config : Nat → C
  sampling : Nat → S
  callbacks : Nat → Callbacks V
  next : Nat

/-- A builder, experiment.py:500-523, with the fields of the mixins, lines 694-700, 826-829 and 1026-1034. -/
structure Bld (V : Type) where
  config : Nat
  sampling : Nat
  callbacks : Nat
  logger : Option V := none
  optim : Option V := none
  wrapper : Option V := none
  name : V
  actor : Option V := none
  critics : List (Option V)
  params : V
deriving DecidableEq, Repr

/-- An experiment with its agent factory. -/
structure Exper (V : Type) where
  config : Nat
  sampling : Nat
  callbacks : Nat
  logger : Option V
  optim : Option V
  wrapper : Option V
  name : V
  actor : Option V
  critics : List (Option V)
  params : V
deriving DecidableEq, Repr

/-- Everything the user has made. -/
structure World (C S V : Type) where
  mem : Mem C S V
  builders : List (Bld V)
  experiments : List (Nat × Exper V)

/-- What the user does with a builder. The default parameters of `with_…_default` are part of the value. -/
inductive Op (C S V : Type)
  | logger (v : V)
  | optim (v : V)
  | wrapper (v : V)
  | name (v : V)
  | actor (v : V)
  | critic (i : Nat) (v : V)
  | commonCritic (v : V)
  | params (v : V)
  | trainCallback (v : V)
  | testCallback (v : V)
  | stopCallback (v : V)
  | setConfig (c : C)
  | setSampling (s : S)
  | editConfig (f : C → C)
  | editSampling (f : S → S)

/-- `__init__`, lines 500-523: the configurations are given, the callbacks are new. -/
def new (m : Mem C S V) (c : C) (s : S) (nCritics : Nat) (name params : V) : Mem C S V × Bld V :=
  ({ config := Function.update m.config m.next c
     sampling := Function.update m.sampling m.next s
     callbacks := Function.update m.callbacks m.next {}
     next := m.next + 1 },
   { config := m.next, sampling := m.next, callbacks := m.next, name := name, critics := List.replicate nCritics none, params := params })

/-- The methods and properties of a builder, lines 528-632, 702-735, 831-851, 865-981 and 1037-1039. A new configuration object is one that
no builder has yet. -/
def apply (m : Mem C S V) (b : Bld V) : Op C S V → Mem C S V × Bld V
  | .logger v => (m, { b with logger := some v })
  | .optim v => (m, { b with optim := some v })
  | .wrapper v => (m, { b with wrapper := some v })
  | .name v => (m, { b with name := v })
  | .actor v => (m, { b with actor := some v })
  | .critic i v => (m, { b with critics := b.critics.set i (some v) })
  | .commonCritic v => (m, { b with critics := b.critics.map fun _ => some v })
  | .params v => (m, { b with params := v })
  | .trainCallback v => ({ m with callbacks := Function.update m.callbacks b.callbacks { m.callbacks b.callbacks with train := some v } }, b)
  | .testCallback v => ({ m with callbacks := Function.update m.callbacks b.callbacks { m.callbacks b.callbacks with test := some v } }, b)
  | .stopCallback v => ({ m with callbacks := Function.update m.callbacks b.callbacks { m.callbacks b.callbacks with stop := some v } }, b)
  | .setConfig c => ({ m with config := Function.update m.config m.next c, next := m.next + 1 }, { b with config := m.next })
  | .setSampling s => ({ m with sampling := Function.update m.sampling m.next s, next := m.next + 1 }, { b with sampling := m.next })
  | .editConfig f => ({ m with config := Function.update m.config b.config (f (m.config b.config)) }, b)
  | .editSampling f => ({ m with sampling := Function.update m.sampling b.sampling (f (m.sampling b.sampling)) }, b)

/-- `copy`, lines 525-526: a deep copy. -/
def copy (m : Mem C S V) (b : Bld V) : Mem C S V × Bld V :=
  ({ config := Function.update m.config m.next (m.config b.config)
     sampling := Function.update m.sampling m.next (m.sampling b.sampling)
     callbacks := Function.update m.callbacks m.next (m.callbacks b.callbacks)
     next := m.next + 1 },
   { b with config := m.next, sampling := m.next, callbacks := m.next })

/-- `build`, lines 645-662. -/
def build (b : Bld V) : Exper V :=
  ⟨b.config, b.sampling, b.callbacks, b.logger, b.optim, b.wrapper, b.name, b.actor, b.critics, b.params⟩

/-- The loop of `build_seeded_collection`, lines 679-684: `seed i` is the edit of the experiment configuration, `shift i` that of the sampling
configuration (lines 681-682), `rename` the new name (line 684). -/
def buildSeeded (m : Mem C S V) (b : Bld V) (seed : Nat → C → C) (shift : Nat → S → S) (rename : V → C → S → V) :
    List Nat → Mem C S V × List (Exper V)
  | [] => (m, [])
  | i :: rest =>
    let (m, b') := copy m b
    let (m, b') := apply m b' (.editConfig (seed i))
    let (m, b') := apply m b' (.editSampling (shift i))
    let e := build b'
    let e := { e with name := rename e.name (m.config e.config) (m.sampling e.sampling) }
    let p := buildSeeded m b seed shift rename rest
    (p.1, e :: p.2)

/-- What the user does. -/
inductive Act (C S V : Type)
  | new (c : C) (s : S) (nCritics : Nat) (name params : V)
  | op (i : Nat) (o : Op C S V)
  | copy (i : Nat)
  | build (i : Nat)

/-- One action; actions on builders that do not exist do nothing. -/
def World.act (w : World C S V) : Act C S V → World C S V
  | .new c s n name params =>
    let p := Builder.new w.mem c s n name params
    { w with mem := p.1, builders := w.builders ++ [p.2] }
  | .op i o =>
    match w.builders[i]? with
    | none => w
    | some b =>
      let p := apply w.mem b o
      { w with mem := p.1, builders := w.builders.set i p.2 }
  | .copy i =>
    match w.builders[i]? with
    | none => w
    | some b =>
      let p := Builder.copy w.mem b
      { w with mem := p.1, builders := w.builders ++ [p.2] }
  | .build i =>
    match w.builders[i]? with
    | none => w
    | some b => { w with experiments := w.experiments ++ [(i, Builder.build b)] }

/-- Several actions. -/
def World.run (w : World C S V) (acts : List (Act C S V)) : World C S V := acts.foldl World.act w

end Verif.Builder
