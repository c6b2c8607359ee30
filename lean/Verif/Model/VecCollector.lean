import Verif.Model.Collector
import Verif.Model.Stats

/-!
Model of `Collector` (`tianshou/data/collector.py` lines 520-1076) with an arbitrary vector environment, in particular with
`VectorEnvNormObs` (`tianshou/env/venv_wrappers.py` lines 69-121), whose observations depend on the other environments.

In `Collector.lean` the vector environment is given by independent environments. Here it is a state with two functions, `step` and
`reset`, for the environments with given ids. The rest is the same code with the same simplifications; observations are values (no
views of shared memory), and the record of decisions is left out.
-/

namespace Verif.VecCollector

open Verif.Collector (StepOut Env Row World Policy HiddenKind Err Decision Stats whereTrue writeAt dropAt truthy surplus stops validates stepEnvs resetEnvs)

variable {W Θ σ A O O' R I H K : Type}

/-- A vector environment as the collector uses it: `env.step(actions, ids)` (line 844) and `env.reset(ids, **kwargs)` (lines 413, 934). -/
structure VecEnv (W A O R I K : Type) where
  step : List (Nat × A) → W → W × List (StepOut O R I)
  reset : K → List Nat → W → W × List (O × I)

/-- A vector environment without wrappers (`env/venvs.py` lines 215-355, see C51). -/
def ofEnv (E : Env σ A O R I K) : VecEnv (World σ O) A O R I K := ⟨stepEnvs E, resetEnvs E⟩

/-- `VectorEnvNormObs.reset` and `VectorEnvNormObs.step`, `venv_wrappers.py` lines 81-112, where `observe` is what is done with the observations and
the statistics (`NormObs.observe`). Everything but the observations is passed on. -/
def VecEnv.observing (V : VecEnv W A O R I K) (observe : Θ → List O → Θ × List O') : VecEnv (W × Θ) A O' R I K where
  step acts w :=
    let p := V.step acts w.1
    let q := observe w.2 (p.2.map StepOut.obs)
    ((p.1, q.1), List.zipWith (fun o x => ⟨o, x.rew, x.terminated, x.truncated, x.info⟩) q.2 p.2)
  reset kw ids w :=
    let p := V.reset kw ids w.1
    let q := observe w.2 (p.2.map Prod.fst)
    ((p.1, q.1), q.2.zip (p.2.map Prod.snd))

/-- The policy and the settings of a collector, as in `Collector.Cfg`. -/
structure Setup (A O I H : Type) where
  policy : Policy A O I H
  envNum : Nat
  noise : Bool
  hiddenKind : HiddenKind
  zeroHidden : H
  isAsync : Bool

/-- `_compute_action_policy_hidden`, lines 677-740. -/
def decide (c : Setup A O I H) (random : Bool) (calls : Nat) (ready : List Nat) (obs : List O) (info : List I) (hidden : Option (List H)) : Decision A H :=
  if random then
    let x := ready.map (c.policy.sample calls)
    ⟨x.map c.policy.mapActionInverse, x, none⟩
  else
    let p := c.policy.forward calls obs info hidden
    let act := if c.noise then c.policy.noise calls p.1 obs else p.1
    ⟨act, act.map c.policy.mapAction, p.2⟩

/-- `_reset_hidden_state_based_on_type`, lines 1063-1076. -/
def resetHidden (c : Setup A O I H) (ps : List Nat) (hidden : Option (List H)) : Option (List H) :=
  match c.hiddenKind with
  | .tensor => hidden
  | .arrayOrBatch => hidden.map fun l => writeAt l ps (ps.map fun _ => c.zeroHidden)

/-- The variables of the loop of `_collect`, lines 797-832. -/
structure Loop (W A O R I H : Type) where
  world : W
  ready : List Nat
  lastObs : List O
  lastInfo : List I
  lastHidden : Option (List H)
  stepCount : Nat
  numEpisodes : Nat
  calls : Nat
  log : List (List (Nat × Row O A R I))

/-- One round of the loop of `Collector._collect`, lines 833-1027. -/
def iter (c : Setup A O I H) (V : VecEnv W A O R I K) (nEpisode : Option Int) (random : Bool) (kw : K) (s : Loop W A O R I H) : Except Err (Loop W A O R I H) :=
  let d := decide c random s.calls s.ready s.lastObs s.lastInfo s.lastHidden
  if d.actNormalized.length ≠ s.ready.length then .error .assertion
  else if s.ready = [] then .error .value
  else
    let p := V.step (s.ready.zip d.actNormalized) s.world
    let outs := p.2
    let rows := ((s.lastObs.zip s.lastInfo).zip ((d.act.zip d.actNormalized).zip outs)).map fun q => Row.mk q.1.1 q.1.2 q.2.1.1 q.2.1.2 q.2.2
    let doneIdx := whereTrue (outs.map StepOut.done)
    let global := doneIdx.filterMap fun i => s.ready[i]?
    let p2 := if doneIdx = [] then (p.1, []) else V.reset kw global p.1
    let numEpisodes := s.numEpisodes + doneIdx.length
    let lastObs := writeAt (outs.map StepOut.obs) doneIdx (p2.2.map Prod.fst)
    let lastInfo := writeAt (outs.map StepOut.info) doneIdx (p2.2.map Prod.snd)
    let ignore := if doneIdx = [] then [] else surplus nEpisode s.ready.length numEpisodes doneIdx
    .ok
      { world := p2.1
        ready := dropAt s.ready ignore
        lastObs := dropAt lastObs ignore
        lastInfo := dropAt lastInfo ignore
        lastHidden := (resetHidden c doneIdx d.hidden).map fun l => dropAt l ignore
        stepCount := s.stepCount + s.ready.length
        numEpisodes := numEpisodes
        calls := s.calls + 1
        log := s.log ++ [s.ready.zip rows] }

/-- The loop, lines 824-1032, for at most `fuel` rounds; `none`: it has not ended by then. -/
def run (c : Setup A O I H) (V : VecEnv W A O R I K) (nStep nEpisode : Option Int) (random : Bool) (kw : K) :
    Nat → Loop W A O R I H → Option (Except Err (Loop W A O R I H))
  | 0, _ => none
  | fuel + 1, s =>
    match iter c V nEpisode random kw s with
    | .error e => some (.error e)
    | .ok s' =>
      if stops nStep nEpisode s'.stepCount s'.numEpisodes then some (.ok s')
      else run c V nStep nEpisode random kw fuel s'

/-- A collector: lines 333, 610-612. -/
structure Col (W A O R I H : Type) where
  world : W
  preObs : Option (List O) := none
  preInfo : Option (List I) := none
  preHidden : Option (List H) := none
  collectStep : Nat := 0
  collectEpisode : Nat := 0
  calls : Nat := 0
  log : List (List (Nat × Row O A R I)) := []

/-- `Collector.reset_env`, lines 664-675 with 407-420. -/
def resetEnv (c : Setup A O I H) (V : VecEnv W A O R I K) (kw : K) (s : Col W A O R I H) : Col W A O R I H :=
  let p := V.reset kw (List.range c.envNum) s.world
  { s with
    world := p.1
    preObs := some (p.2.map Prod.fst)
    preInfo := some (p.2.map Prod.snd)
    preHidden := none }

/-- `reset`, lines 376-397. -/
def reset (c : Setup A O I H) (V : VecEnv W A O R I K) (resetBuffer resetStats : Bool) (kw : K) (s : Col W A O R I H) : Col W A O R I H :=
  let s := resetEnv c V kw s
  let s := if resetBuffer then { s with log := [] } else s
  if resetStats then { s with collectStep := 0, collectEpisode := 0 } else s

/-- Lines 784-795: the environments to start with. -/
def initialReady (c : Setup A O I H) (nStep nEpisode : Option Int) : Option (List Nat) :=
  match nStep, nEpisode with
  | some _, _ => some (List.range c.envNum)
  | none, some n => some (List.range (min (c.envNum : Int) n).toNat)
  | none, none => none

/-- The variables with which the loop starts, lines 797-822. -/
def start (ready : List Nat) (preObs : List O) (preInfo : List I) (s : Col W A O R I H) : Loop W A O R I H where
  world := s.world
  ready := ready
  lastObs := ready.filterMap fun i => preObs[i]?
  lastInfo := ready.filterMap fun i => preInfo[i]?
  lastHidden := s.preHidden.map fun h => ready.filterMap fun i => h[i]?
  stepCount := 0
  numEpisodes := 0
  calls := s.calls
  log := s.log

/-- What is done after the loop, lines 1034-1061. -/
def finish (c : Setup A O I H) (V : VecEnv W A O R I K) (nStep nEpisode : Option Int) (kw : K) (s : Col W A O R I H) (l : Loop W A O R I H) :
    Col W A O R I H × Stats :=
  let s' : Col W A O R I H :=
    { s with
      world := l.world
      collectStep := s.collectStep + l.stepCount
      collectEpisode := s.collectEpisode + l.numEpisodes
      calls := l.calls
      log := l.log }
  let stats : Stats := ⟨l.stepCount, l.numEpisodes⟩
  if truthy nStep then ({ s' with preObs := some l.lastObs, preInfo := some l.lastInfo, preHidden := l.lastHidden }, stats)
  else if truthy nEpisode then (resetEnv c V kw s', stats)
  else (s', stats)

/-- `Collector._collect`, lines 743-1061. -/
def collectAux (c : Setup A O I H) (V : VecEnv W A O R I K) (nStep nEpisode : Option Int) (random : Bool) (kw : K) (fuel : Nat)
    (s : Col W A O R I H) : Option (Except Err (Col W A O R I H × Stats)) :=
  if c.isAsync then some (.error .value)
  else
    match initialReady c nStep nEpisode, s.preObs, s.preInfo with
    | none, _, _ => some (.error .runtime)
    | some ready, some preObs, some preInfo =>
      match run c V nStep nEpisode random kw fuel (start ready preObs preInfo s) with
      | none => none
      | some (.error e) => some (.error e)
      | some (.ok l) => some (.ok (finish c V nStep nEpisode kw s l))
    | some _, _, _ => some (.error .value)

/-- `collect`, lines 433-496. -/
def collect (c : Setup A O I H) (V : VecEnv W A O R I K) (nStep nEpisode : Option Int) (random resetBefore : Bool) (kw : K) (fuel : Nat)
    (s : Col W A O R I H) : Option (Except Err (Col W A O R I H × Stats)) :=
  if !validates nStep nEpisode then some (.error .value)
  else collectAux c V nStep nEpisode random kw fuel (if resetBefore then reset c V false true kw s else s)

end Verif.VecCollector
