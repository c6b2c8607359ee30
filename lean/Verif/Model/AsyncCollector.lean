import Verif.Model.Collector

/-!
Model of `AsyncCollector` in `tianshou/data/collector.py` (lines 1079-1357).

Simplifications, besides those of `Model/Collector.lean`. Which of the pending steps have been completed when the vector
environment looks (`env/venvs.py` lines 297-299) is the parameter `wait`; that only pending steps, at least one and each once, are
returned is C50. A pending step is carried out when its result is fetched: environments do not influence each other, so
this cannot be told from carrying it out at once. Observations are values (no shared memory). A collector on which an
exception was raised is not used any more.
-/

namespace Verif.Collector

variable {σ A O R I H K : Type}

/-- An asynchronous collector. `entry`: the policy's result contains a non-empty batch "policy" (lines 716-727). `store`: what
remains of an action written into an array of floats (lines 1118, 1229), `none` if it does not fit. `junk`: the value of
uninitialised memory. `wait k pending`: the environments whose results are returned in call `k`. -/
structure ACfg (σ A O R I H K : Type) where
  base : Cfg σ A O R I H K
  entry : Bool
  store : A → Option A
  junk : A
  wait : Nat → List Nat → List Nat

/-- The variables of the loop of `AsyncCollector._collect`, and the pending steps of the vector environment (`waiting`,
`sent`). -/
structure ALoop (σ A O R I H : Type) where
  world : World σ O
  waiting : List Nat
  sent : Nat → A
  ready : List Nat
  lastObs : List O
  lastInfo : List I
  lastHidden : Option (List H)
  curObs : List O
  curInfo : List I
  curHidden : Option (List H)
  curAct : List A
  known : Bool
  stepCount : Nat
  numEpisodes : Nat
  calls : Nat
  log : List (List (Nat × Row O A R I))

/-- Sending actions to environments, `env/venvs.py` lines 290-296. -/
def sendAll (sent : Nat → A) : List (Nat × A) → Nat → A
  | [] => sent
  | (e, a) :: t => sendAll (upd sent e a) t

/-- Lines 1234-1247: saving the hidden state. -/
def saveHidden (ready : List Nat) (new cur : Option (List H)) : Option (List H) :=
  match new, cur with
  | none, h => h
  | some l, none => some l
  | some l, some h => some (writeAt h ready l)

/-- One round of the loop, lines 1200-1336. -/
def aiter (c : ACfg σ A O R I H K) (random : Bool) (kw : K) (s : ALoop σ A O R I H) : Except Err (ALoop σ A O R I H) :=
  let d := decide c.base random s.calls s.ready s.lastObs s.lastInfo s.lastHidden
  match d.act.mapM c.store with
  | none => .error .value
  | some stored =>
    if d.act.length ≠ s.ready.length then .error .value
    else if s.ready.any s.waiting.contains then .error .assertion
    else
      let known := s.known || (!random && (c.entry || d.hidden.isSome))
      let curAct := writeAt s.curAct s.ready stored
      let curHidden := saveHidden s.ready d.hidden s.curHidden
      let sent := sendAll s.sent (s.ready.zip d.actNormalized)
      let pending := s.waiting ++ s.ready
      if pending = [] then .error .hangs
      else
        let got := c.wait s.calls pending
        let p := stepEnvs c.base.env (got.map fun e => (e, sent e)) s.world
        let outs := p.2
        if !known then .error .index
        else
          match curHidden with
          | none => .error .type
          | some h =>
            if got.any fun e => Nat.ble h.length e then .error .index
            else
              let rows := (((got.filterMap fun e => s.curObs[e]?).zip (got.filterMap fun e => s.curInfo[e]?)).zip
                (((got.filterMap fun e => curAct[e]?).zip (got.map sent)).zip outs)).map fun q =>
                  Row.mk q.1.1 q.1.2 q.2.1.1 q.2.1.2 q.2.2
              let doneIdx := whereTrue (outs.map StepOut.done)
              let global := doneIdx.filterMap fun i => got[i]?
              let p2 := resetEnvs c.base.env kw global p.1
              let lastObs := writeAt (outs.map StepOut.obs) doneIdx (p2.2.map Prod.fst)
              let lastInfo := writeAt (outs.map StepOut.info) doneIdx (p2.2.map Prod.snd)
              let lastHidden := resetHidden c.base doneIdx (some (got.filterMap fun e => h[e]?))
              .ok
                { world := p2.1
                  waiting := pending.filter fun e => !got.contains e
                  sent := sent
                  ready := got
                  lastObs := lastObs
                  lastInfo := lastInfo
                  lastHidden := lastHidden
                  curObs := writeAt s.curObs got lastObs
                  curInfo := writeAt s.curInfo got lastInfo
                  curHidden := lastHidden.map fun l => writeAt h got l
                  curAct := curAct
                  known := known
                  stepCount := s.stepCount + got.length
                  numEpisodes := s.numEpisodes + doneIdx.length
                  calls := s.calls + 1
                  log := s.log ++ [got.zip rows] }

/-- The loop, lines 1200-1341, for at most `fuel` rounds. -/
def arun (c : ACfg σ A O R I H K) (nStep nEpisode : Option Int) (random : Bool) (kw : K) :
    Nat → ALoop σ A O R I H → Option (Except Err (ALoop σ A O R I H))
  | 0, _ => none
  | fuel + 1, s =>
    match aiter c random kw s with
    | .error e => some (.error e)
    | .ok s' =>
      if stops nStep nEpisode s'.stepCount s'.numEpisodes then some (.ok s')
      else arun c nStep nEpisode random kw fuel s'

/-- An asynchronous collector, lines 1109-1119. -/
structure ACol (σ A O R I H : Type) where
  world : World σ O
  waiting : List Nat
  sent : Nat → A
  ready : List Nat
  curObs : Option (List O)
  curInfo : Option (List I)
  curHidden : Option (List H)
  curAct : List A
  known : Bool
  collectStep : Nat
  collectEpisode : Nat
  calls : Nat
  log : List (List (Nat × Row O A R I))

/-- `__init__`, lines 1085-1119. -/
def abuilt (c : ACfg σ A O R I H K) (w : World σ O) : ACol σ A O R I H :=
  { world := w
    waiting := []
    sent := fun _ => c.junk
    ready := List.range c.base.envNum
    curObs := none
    curInfo := none
    curHidden := none
    curAct := List.replicate c.base.envNum c.junk
    known := false
    collectStep := 0
    collectEpisode := 0
    calls := 0
    log := [] }

/-- `reset_env`, lines 1154-1162: results of pending steps are fetched once and dropped; then all environments are
reset, which is refused if some step is still pending (`env/venvs.py` lines 186-191 and 208-209). -/
def aresetEnv (c : ACfg σ A O R I H K) (kw : K) (s : ACol σ A O R I H) :
    Except Err (World σ O × List (O × I)) :=
  let got := if s.waiting = [] then [] else c.wait s.calls s.waiting
  let w := (stepEnvs c.base.env (got.map fun e => (e, s.sent e)) s.world).1
  if s.waiting.all got.contains then .ok (resetEnvs c.base.env kw (List.range c.base.envNum) w)
  else .error .assertion

/-- `reset`, lines 1121-1152 with 376-397. -/
def areset (c : ACfg σ A O R I H K) (resetBuffer resetStats : Bool) (kw : K) (s : ACol σ A O R I H) :
    Except Err (ACol σ A O R I H) :=
  match aresetEnv c kw s with
  | .error e => .error e
  | .ok p =>
    .ok
      { world := p.1
        waiting := []
        sent := s.sent
        ready := List.range c.base.envNum
        curObs := some (p.2.map Prod.fst)
        curInfo := some (p.2.map Prod.snd)
        curHidden := none
        curAct := List.replicate c.base.envNum c.junk
        known := false
        collectStep := if resetStats then 0 else s.collectStep
        collectEpisode := if resetStats then 0 else s.collectEpisode
        calls := s.calls + 1
        log := if resetBuffer then [] else s.log }

/-- `_collect`, lines 1164-1357. -/
def acollectAux (c : ACfg σ A O R I H K) (nStep nEpisode : Option Int) (random : Bool) (kw : K) (fuel : Nat)
    (s : ACol σ A O R I H) : Option (Except Err (ACol σ A O R I H × Stats)) :=
  match s.curObs, s.curInfo with
  | some curObs, some curInfo =>
    let l : ALoop σ A O R I H :=
      { world := s.world
        waiting := s.waiting
        sent := s.sent
        ready := s.ready
        lastObs := s.ready.filterMap fun e => curObs[e]?
        lastInfo := s.ready.filterMap fun e => curInfo[e]?
        lastHidden := s.curHidden.map fun h => s.ready.filterMap fun e => h[e]?
        curObs := curObs
        curInfo := curInfo
        curHidden := s.curHidden
        curAct := s.curAct
        known := s.known
        stepCount := 0
        numEpisodes := 0
        calls := s.calls
        log := s.log }
    match arun c nStep nEpisode random kw fuel l with
    | none => none
    | some (.error e) => some (.error e)
    | some (.ok l) =>
      some (.ok
        ({ world := l.world
           waiting := l.waiting
           sent := l.sent
           ready := l.ready
           curObs := some l.curObs
           curInfo := some l.curInfo
           curHidden := l.curHidden
           curAct := l.curAct
           known := l.known
           collectStep := s.collectStep + l.stepCount
           collectEpisode := s.collectEpisode + l.numEpisodes
           calls := l.calls
           log := l.log }, ⟨l.stepCount, l.numEpisodes⟩))
  | _, _ => some (.error .runtime)

/-- `collect`, lines 433-496. -/
def acollect (c : ACfg σ A O R I H K) (nStep nEpisode : Option Int) (random resetBefore : Bool) (kw : K) (fuel : Nat)
    (s : ACol σ A O R I H) : Option (Except Err (ACol σ A O R I H × Stats)) :=
  if !validates nStep nEpisode then some (.error .value)
  else if resetBefore then
    match areset c false true kw s with
    | .error e => some (.error e)
    | .ok s => acollectAux c nStep nEpisode random kw fuel s
  else acollectAux c nStep nEpisode random kw fuel s

end Verif.Collector
