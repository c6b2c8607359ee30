import Verif.Model.Builder

/-! Specification vocabulary: the settings of a builder or an experiment, as they are at the moment, and what each call is meant to do. -/

namespace Verif.Builder

variable {C S V : Type}

/-- All settings. -/
structure Settings (C S V : Type) where
  config : C
  sampling : S
  callbacks : Callbacks V
  logger : Option V
  optim : Option V
  wrapper : Option V
  name : V
  actor : Option V
  critics : List (Option V)
  params : V
deriving DecidableEq, Repr

def Bld.settings (m : Mem C S V) (b : Bld V) : Settings C S V :=
  ⟨m.config b.config, m.sampling b.sampling, m.callbacks b.callbacks, b.logger, b.optim, b.wrapper, b.name, b.actor, b.critics, b.params⟩

/-- The settings an experiment would run with now. -/
def Exper.settings (m : Mem C S V) (e : Exper V) : Settings C S V :=
  ⟨m.config e.config, m.sampling e.sampling, m.callbacks e.callbacks, e.logger, e.optim, e.wrapper, e.name, e.actor, e.critics, e.params⟩

/-- The settings of a new builder. -/
def fresh (c : C) (s : S) (nCritics : Nat) (name params : V) : Settings C S V :=
  ⟨c, s, {}, none, none, none, name, none, List.replicate nCritics none, params⟩

/-- What a call is meant to do: it changes the setting it names. -/
def meant (x : Settings C S V) : Op C S V → Settings C S V
  | .logger v => { x with logger := some v }
  | .optim v => { x with optim := some v }
  | .wrapper v => { x with wrapper := some v }
  | .name v => { x with name := v }
  | .actor v => { x with actor := some v }
  | .critic i v => { x with critics := x.critics.set i (some v) }
  | .commonCritic v => { x with critics := x.critics.map fun _ => some v }
  | .params v => { x with params := v }
  | .trainCallback v => { x with callbacks := { x.callbacks with train := some v } }
  | .testCallback v => { x with callbacks := { x.callbacks with test := some v } }
  | .stopCallback v => { x with callbacks := { x.callbacks with stop := some v } }
  | .setConfig c => { x with config := c }
  | .setSampling s => { x with sampling := s }
  | .editConfig f => { x with config := f x.config }
  | .editSampling f => { x with sampling := f x.sampling }

/-- The settings the builders are meant to have, after some actions. -/
def intended : List (Settings C S V) → List (Act C S V) → List (Settings C S V)
  | xs, [] => xs
  | xs, .new c s n name params :: rest => intended (xs ++ [fresh c s n name params]) rest
  | xs, .op i o :: rest => intended (xs.modify i fun x => meant x o) rest
  | xs, .copy i :: rest => intended (xs ++ (xs[i]?).toList) rest
  | xs, .build _ :: rest => intended xs rest

/-- Calls that put something into an object of the builder, instead of replacing it. -/
def Op.inPlace : Op C S V → Bool
  | .trainCallback _ | .testCallback _ | .stopCallback _ | .editConfig _ | .editSampling _ => true
  | _ => false

/-- Actions that put something into an object of builder `i`. -/
def Act.inPlace (i : Nat) : Act C S V → Bool
  | .op j o => j == i && o.inPlace
  | _ => false

/-- Before anything is done. -/
def World.start (m : Mem C S V) : World C S V := ⟨m, [], []⟩

end Verif.Builder
