/-!
Model of `tianshou/data/collector.py`: `BaseCollector` (lines 296-517), `Collector` (lines 520-1076),
`AsyncCollector` (lines 1079-1357) and `EpisodeRolloutHookMerged` (lines 1475-1513).

Simplifications. An environment is a deterministic state machine (its random numbers are part of its state; it does not raise).
The vector environment is given by its environments: that a step or reset reaches the environments with the given
ids and returns their results in order is C51. The policy is arbitrary: it may answer every call differently; only its mapping of
actions to the environment's range works action by action. The calls of `buffer.add` are kept in a log; what the
buffer makes of them is modelled in `Manager.lean`. Not modelled: rendering, times, statistics taken from the buffer,
NaN checks, step hooks, episode hooks (which change nothing the loop reads), and errors raised by the buffer.
-/

namespace Verif.Collector

/-- What an environment returns from `step`. -/
structure StepOut (O R I : Type) where
  obs : O
  rew : R
  terminated : Bool
  truncated : Bool
  info : I
deriving DecidableEq, Repr

/-- Line 851: `done = np.logical_or(terminated, truncated)`. -/
def StepOut.done {O R I : Type} (x : StepOut O R I) : Bool := x.terminated || x.truncated

/-- An environment; `K` are the keyword arguments of `reset`. -/
structure Env (σ A O R I K : Type) where
  step : σ → A → σ × StepOut O R I
  reset : K → σ → σ × O × I

/-- One transition handed to the buffer (lines 853-867). `given` is the info the policy saw together with the observation and
`applied` is the action given to the environment; they are no part of the batch and only kept here so that theorems can
speak about them. -/
structure Row (O A R I : Type) where
  obs : O
  given : I
  act : A
  applied : A
  out : StepOut O R I
deriving DecidableEq, Repr

/-- The observation of one environment as held by the collector: its value, or (for `ShmemVectorEnv` with dictionary
observations, `env/worker/subproc.py` lines 63-65 and 180-192) a view on the memory the environment writes to. -/
inductive Cell (O : Type)
  | val (o : O)
  | view (e : Nat)
deriving DecidableEq, Repr

/-- The value of an observation now. -/
def Cell.read {O : Type} (mem : Nat → O) : Cell O → O
  | .val o => o
  | .view e => mem e

/-- The environments and the memory they write observations to. -/
structure World (σ O : Type) where
  envs : Nat → σ
  mem : Nat → O

/-- The policy and the action space. The first argument of `forward`, `noise` and `sample` counts the iterations, so that
every call may give another result. -/
structure Policy (A O I H : Type) where
  forward : Nat → List O → List I → Option (List H) → List A × Option (List H)
  noise : Nat → List A → List O → List A
  mapAction : A → A
  mapActionInverse : A → A
  sample : Nat → Nat → A

/-- How hidden states are stored (lines 1068-1075). -/
inductive HiddenKind
  | tensor
  | arrayOrBatch
deriving DecidableEq, Repr

/-- The environments, the policy and the settings of a collector. `share` says that observations are views. -/
structure Cfg (σ A O R I H K : Type) where
  env : Env σ A O R I K
  policy : Policy A O I H
  envNum : Nat
  noise : Bool
  share : Bool
  hiddenKind : HiddenKind
  zeroHidden : H
  isAsync : Bool

/-- The exceptions. -/
inductive Err
  | value
  | runtime
  | assertion
  | index
  | type
  | hangs
deriving DecidableEq, Repr

variable {σ A O R I H K : Type}

/-- Replace the value at one argument. -/
def upd {α : Type} (f : Nat → α) (i : Nat) (x : α) : Nat → α := fun j => if j = i then x else f j

/-- Line 844: `env.step(actions, ids)` for synchronous environments. -/
def stepEnvs (E : Env σ A O R I K) : List (Nat × A) → World σ O → World σ O × List (StepOut O R I)
  | [], w => (w, [])
  | (e, a) :: t, w =>
    let p := E.step (w.envs e) a
    let r := stepEnvs E t ⟨upd w.envs e p.1, upd w.mem e p.2.obs⟩
    (r.1, p.2 :: r.2)

/-- Lines 413, 934: `env.reset(ids, **kwargs)`. -/
def resetEnvs (E : Env σ A O R I K) (kw : K) : List Nat → World σ O → World σ O × List (O × I)
  | [], w => (w, [])
  | e :: t, w =>
    let p := E.reset kw (w.envs e)
    let r := resetEnvs E kw t ⟨upd w.envs e p.1, upd w.mem e p.2.1⟩
    (r.1, p.2 :: r.2)

/-- How the collector gets to hold an observation of environment `e`. -/
def Cfg.cell (c : Cfg σ A O R I H K) (e : Nat) (o : O) : Cell O := if c.share then .view e else .val o

/-- What `_compute_action_policy_hidden` returns (lines 731-740), as far as it is used. -/
structure Decision (A H : Type) where
  act : List A
  actNormalized : List A
  hidden : Option (List H)

/-- `_compute_action_policy_hidden`, lines 677-740. -/
def decide (c : Cfg σ A O R I H K) (random : Bool) (calls : Nat) (ready : List Nat) (obs : List O) (info : List I)
    (hidden : Option (List H)) : Decision A H :=
  if random then
    let x := ready.map (c.policy.sample calls)
    ⟨x.map c.policy.mapActionInverse, x, none⟩
  else
    let p := c.policy.forward calls obs info hidden
    let act := if c.noise then c.policy.noise calls p.1 obs else p.1
    ⟨act, act.map c.policy.mapAction, p.2⟩

/-- Positions at which an entry is true: `np.where(done)[0]`, line 915. -/
def whereTrue (l : List Bool) : List Nat := (List.range l.length).filter fun i => l.getD i false

/-- `array[positions] = values`. -/
def writeAt {α : Type} (l : List α) : List Nat → List α → List α
  | p :: ps, x :: xs => writeAt (l.set p x) ps xs
  | _, _ => l

/-- `array[mask]`, where the mask is false at the given positions (lines 1018-1027). -/
def dropAt {α : Type} (l : List α) (ps : List Nat) : List α :=
  (l.zipIdx.filter fun q => !ps.contains q.2).map Prod.fst

/-- `_reset_hidden_state_based_on_type`, lines 1063-1076. Indexing a tensor with an index array copies, so `zero_()` changes the
copy only. -/
def resetHidden (c : Cfg σ A O R I H K) (ps : List Nat) (hidden : Option (List H)) : Option (List H) :=
  match c.hiddenKind with
  | .tensor => hidden
  | .arrayOrBatch => hidden.map fun l => writeAt l ps (ps.map fun _ => c.zeroHidden)

/-- A record of one decision: for which environments, which recurrent states were given to the policy and returned by it, and
which environments ended an episode in the following step. It is no part of the code and only kept so that theorems can
speak about it. -/
structure Call (H : Type) where
  ids : List Nat
  given : Option (List H)
  returned : Option (List H)
  done : List Bool
deriving DecidableEq, Repr

/-- The variables of the loop of `_collect`; `asked` is the record of decisions, where `none` stands for a reset of all
environments. -/
structure Loop (σ A O R I H : Type) where
  world : World σ O
  ready : List Nat
  lastObs : List (Cell O)
  lastInfo : List I
  lastHidden : Option (List H)
  stepCount : Nat
  numEpisodes : Nat
  calls : Nat
  log : List (List (Nat × Row O A R I))
  asked : List (Option (Call H))

/-- `if n`: given and not zero. -/
def truthy (n : Option Int) : Bool :=
  match n with
  | none => false
  | some k => k ≠ 0

/-- Lines 1009-1019: the positions that are dropped after a step in which the environments at positions `doneIdx` finished. -/
def surplus (nEpisode : Option Int) (readyNum numEpisodes : Nat) (doneIdx : List Nat) : List Nat :=
  match nEpisode with
  | none => []
  | some n => if n = 0 then [] else doneIdx.take ((readyNum : Int) - (n - (numEpisodes : Int))).toNat

/-- One round of the loop of `Collector._collect`, lines 833-1027. The batch is built after the step (line 853), so views on
observations are read then. -/
def iter (c : Cfg σ A O R I H K) (nEpisode : Option Int) (random : Bool) (kw : K) (s : Loop σ A O R I H) :
    Except Err (Loop σ A O R I H) :=
  let d := decide c random s.calls s.ready (s.lastObs.map (Cell.read s.world.mem)) s.lastInfo s.lastHidden
  if d.actNormalized.length ≠ s.ready.length then .error .assertion
  else if s.ready = [] then .error .value
  else
    let p := stepEnvs c.env (s.ready.zip d.actNormalized) s.world
    let outs := p.2
    let obs := s.lastObs.map (Cell.read p.1.mem)
    let rows := ((obs.zip s.lastInfo).zip ((d.act.zip d.actNormalized).zip outs)).map fun q =>
      Row.mk q.1.1 q.1.2 q.2.1.1 q.2.1.2 q.2.2
    let doneIdx := whereTrue (outs.map StepOut.done)
    let global := doneIdx.filterMap fun i => s.ready[i]?
    let p2 := resetEnvs c.env kw global p.1
    let numEpisodes := s.numEpisodes + doneIdx.length
    let lastObs := writeAt ((s.ready.zip outs).map fun q => c.cell q.1 q.2.obs) doneIdx
      ((global.zip p2.2).map fun q => c.cell q.1 q.2.1)
    let lastInfo := writeAt (outs.map StepOut.info) doneIdx (p2.2.map Prod.snd)
    let ignore := if doneIdx = [] then [] else surplus nEpisode s.ready.length numEpisodes doneIdx
    .ok
      { world := p2.1
        ready := dropAt s.ready ignore
        lastObs := dropAt lastObs ignore
        lastInfo := dropAt lastInfo ignore
        lastHidden := (resetHidden c doneIdx d.hidden).map fun l => dropAt l ignore
        stepCount := s.stepCount + s.ready.length
        numEpisodes := numEpisodes
        calls := s.calls + 1
        log := s.log ++ [s.ready.zip rows]
        asked := s.asked ++ [some ⟨s.ready, s.lastHidden, d.hidden, outs.map StepOut.done⟩] }

/-- Lines 1029-1032: the condition to leave the loop. -/
def stops (nStep nEpisode : Option Int) (stepCount numEpisodes : Nat) : Bool :=
  (match nStep with
    | none => false
    | some n => n ≠ 0 && (stepCount : Int) ≥ n) ||
  (match nEpisode with
    | none => false
    | some n => n ≠ 0 && (numEpisodes : Int) ≥ n)

/-- The loop, lines 824-1032, for at most `fuel` rounds; `none`: it has not ended by then. -/
def run (c : Cfg σ A O R I H K) (nStep nEpisode : Option Int) (random : Bool) (kw : K) :
    Nat → Loop σ A O R I H → Option (Except Err (Loop σ A O R I H))
  | 0, _ => none
  | fuel + 1, s =>
    match iter c nEpisode random kw s with
    | .error e => some (.error e)
    | .ok s' =>
      if stops nStep nEpisode s'.stepCount s'.numEpisodes then some (.ok s')
      else run c nStep nEpisode random kw fuel s'

/-- A collector: lines 333, 610-612. `log` are the calls of `buffer.add` since the buffer was last reset. -/
structure Col (σ A O R I H : Type) where
  world : World σ O
  preObs : Option (List (Cell O)) := none
  preInfo : Option (List I) := none
  preHidden : Option (List H) := none
  collectStep : Nat := 0
  collectEpisode : Nat := 0
  calls : Nat := 0
  log : List (List (Nat × Row O A R I)) := []
  asked : List (Option (Call H)) := []

/-- `Collector.reset_env`, lines 664-675 with 407-420. -/
def resetEnv (c : Cfg σ A O R I H K) (kw : K) (s : Col σ A O R I H) : Col σ A O R I H :=
  let ids := List.range c.envNum
  let p := resetEnvs c.env kw ids s.world
  { s with
    world := p.1
    preObs := some ((ids.zip p.2).map fun q => c.cell q.1 q.2.1)
    preInfo := some (p.2.map Prod.snd)
    preHidden := none
    asked := s.asked ++ [none] }

/-- `reset`, lines 376-397. -/
def reset (c : Cfg σ A O R I H K) (resetBuffer resetStats : Bool) (kw : K) (s : Col σ A O R I H) : Col σ A O R I H :=
  let s := resetEnv c kw s
  let s := if resetBuffer then { s with log := [] } else s
  if resetStats then { s with collectStep := 0, collectEpisode := 0 } else s

/-- The result of a collection: `n_collected_steps` and `n_collected_episodes` (lines 171-176 and 192-200, called
in lines 883 and 984). -/
structure Stats where
  steps : Nat
  episodes : Nat
deriving DecidableEq, Repr

/-- `_validate_n_step_n_episode`, lines 498-517: `true` if no error is raised. -/
def validates (nStep nEpisode : Option Int) : Bool :=
  !(!truthy nStep && !truthy nEpisode) && !(nStep.isNone && nEpisode.isNone)

/-- Lines 784-795: the environments to start with. -/
def initialReady (c : Cfg σ A O R I H K) (nStep nEpisode : Option Int) : Option (List Nat) :=
  match nStep, nEpisode with
  | some _, _ => some (List.range c.envNum)
  | none, some n => some (List.range (min (c.envNum : Int) n).toNat)
  | none, none => none

/-- `Collector._collect`, lines 743-1061. -/
def collectAux (c : Cfg σ A O R I H K) (nStep nEpisode : Option Int) (random : Bool) (kw : K) (fuel : Nat)
    (s : Col σ A O R I H) : Option (Except Err (Col σ A O R I H × Stats)) :=
  if c.isAsync then some (.error .value)
  else
    match initialReady c nStep nEpisode, s.preObs, s.preInfo with
    | none, _, _ => some (.error .runtime)
    | some ready, some preObs, some preInfo =>
      let l : Loop σ A O R I H :=
        { world := s.world
          ready := ready
          lastObs := ready.filterMap fun i => preObs[i]?
          lastInfo := ready.filterMap fun i => preInfo[i]?
          lastHidden := s.preHidden.map fun h => ready.filterMap fun i => h[i]?
          stepCount := 0
          numEpisodes := 0
          calls := s.calls
          log := s.log
          asked := s.asked }
      match run c nStep nEpisode random kw fuel l with
      | none => none
      | some (.error e) => some (.error e)
      | some (.ok l) =>
        let s' : Col σ A O R I H :=
          { s with
            world := l.world
            collectStep := s.collectStep + l.stepCount
            collectEpisode := s.collectEpisode + l.numEpisodes
            calls := l.calls
            log := l.log
            asked := l.asked }
        let stats : Stats := ⟨l.stepCount, l.numEpisodes⟩
        if truthy nStep then
          some (.ok ({ s' with preObs := some l.lastObs, preInfo := some l.lastInfo, preHidden := l.lastHidden }, stats))
        else if truthy nEpisode then some (.ok (resetEnv c kw s', stats))
        else some (.ok (s', stats))
    | some _, _, _ => some (.error .value)

/-- `collect`, lines 433-496. -/
def collect (c : Cfg σ A O R I H K) (nStep nEpisode : Option Int) (random resetBefore : Bool) (kw : K) (fuel : Nat)
    (s : Col σ A O R I H) : Option (Except Err (Col σ A O R I H × Stats)) :=
  if !validates nStep nEpisode then some (.error .value)
  else collectAux c nStep nEpisode random kw fuel (if resetBefore then reset c false true kw s else s)

/-- `EpisodeRolloutHookMerged.__call__`, lines 1494-1513: the dictionaries (or `None`) returned by the hooks, in order, are
merged. `none` is the `KeyError`. A dictionary is a list of distinct keys with values. -/
def mergeHooks {V : Type} (check : Bool) (outputs : List (Option (List (String × V)))) :
    Option (Option (List (String × V))) :=
  let rec loop : List (Option (List (String × V))) → List (String × V) → Option (List (String × V))
    | [], result => some result
    | none :: t, result => loop t result
    | some new :: t, result =>
      if check && new.any (fun p => !result.any fun q => q.1 == p.1) then none
      else loop t (result.filter (fun q => !new.any fun p => p.1 == q.1) ++ new)
  (loop outputs []).map fun result => if result.isEmpty then none else some result

end Verif.Collector
