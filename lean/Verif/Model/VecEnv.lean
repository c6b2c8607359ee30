import Mathlib.Data.List.Dedup

/-!
Model of the vectorised environments: `tianshou/env/venvs.py` (`BaseVectorEnv`, lines 76-362) over the workers of
`tianshou/env/worker/dummy.py` (`DummyEnvWorker`, lines 11-64) and `tianshou/env/worker/subproc.py` (`_worker`, lines
73-138, and `SubprocEnvWorker`, lines 141-274).

Simplifications. An environment is a deterministic state machine that answers every request (its random numbers are part
of its state; it does not raise). Environment ids are natural numbers: the negative ids that Python's indexing would accept
in synchronous mode are not modelled. Stacking the rows of a result into arrays (`np.stack`), the
copy of the action space kept by a worker, and `RayEnvWorker` are not modelled; shared memory is the
subject of `Verif.Model.ShMem`. The field `sent` of a worker is no part of
the code: it records the requests handed to the environment, in order, so that theorems can speak about them, and nothing
in the model reads it.
-/

namespace Verif.VecEnv

/-- What can be asked of an environment (`subproc.py` lines 99-136): commands of the pipe. `A` are actions, `K` keyword
arguments, `X` attribute values. -/
inductive Req (A K X : Type)
  | step (a : A)
  | reset (kw : K)
  | render (kw : K)
  | seed (s : Option Int)
  | getattr (key : String)
  | setattr (key : String) (value : X)
deriving DecidableEq, Repr

/-- `subproc.py` lines 132-133: setting an attribute is the only command without a reply. -/
def Req.silent {A K X : Type} : Req A K X → Bool
  | .setattr _ _ => true
  | _ => false

/-- How an environment in a given state answers a request: its new state and its reply. -/
abbrev Handler (σ A K X ρ : Type) := σ → Req A K X → σ × ρ

/-- A worker. `env` is the state of its environment; `inbox` and `outbox` are the two directions of the pipe of a
`SubprocEnvWorker` (`subproc.py` line 152); `result` is the attribute of a `DummyEnvWorker` (`dummy.py` lines 37-41). -/
structure Worker (σ A K X ρ : Type) where
  env : σ
  inbox : List (Req A K X) := []
  outbox : List ρ := []
  result : Option ρ := none
  sent : List (Req A K X) := []
deriving Repr

/-- The class of the workers of a vector environment. -/
inductive Kind
  | dummy
  | subproc
deriving DecidableEq, Repr

variable {σ A K X ρ : Type}

namespace Worker

/-- `subproc.py` lines 99-136: the process of a worker handles the next command, if there is one. -/
def progress (h : Handler σ A K X ρ) (w : Worker σ A K X ρ) : Worker σ A K X ρ :=
  match w.inbox with
  | [] => w
  | r :: rest =>
    let p := h w.env r
    { w with
      env := p.1
      inbox := rest
      outbox := if r.silent then w.outbox else w.outbox ++ [p.2] }

/-- `parent_remote.recv()`: take the next reply from the pipe, waiting for the process to handle commands (at most `fuel`)
until there is one. `none`: there will never be one and the call blocks for ever. -/
def await (h : Handler σ A K X ρ) : Nat → Worker σ A K X ρ → Worker σ A K X ρ × Option ρ
  | 0, w =>
    match w.outbox with
    | x :: xs => ({ w with outbox := xs }, some x)
    | [] => (w, none)
  | fuel + 1, w =>
    match w.outbox with
    | x :: xs => ({ w with outbox := xs }, some x)
    | [] => await h fuel (w.progress h)

/-- `dummy.py` lines 37-41 and `subproc.py` lines 214-220: `send`. A `DummyEnvWorker` acts at once and keeps the result. -/
def send (kind : Kind) (h : Handler σ A K X ρ) (r : Req A K X) (w : Worker σ A K X ρ) : Worker σ A K X ρ :=
  match kind with
  | .dummy =>
    let p := h w.env r
    { w with env := p.1, result := some p.2, sent := w.sent ++ [r] }
  | .subproc => { w with inbox := w.inbox ++ [r], sent := w.sent ++ [r] }

/-- `base.py` lines 38-47 and `subproc.py` lines 222-238: `recv`. -/
def recv (kind : Kind) (h : Handler σ A K X ρ) (w : Worker σ A K X ρ) : Worker σ A K X ρ × Option ρ :=
  match kind with
  | .dummy => (w, w.result)
  | .subproc => w.await h w.inbox.length

/-- `dummy.py` lines 17-18, 43-52 and `subproc.py` lines 173-175, 256-263: `get_env_attr`, `seed` and `render` hand
over a request and return what comes back. -/
def ask (kind : Kind) (h : Handler σ A K X ρ) (r : Req A K X) (w : Worker σ A K X ρ) : Worker σ A K X ρ × Option ρ :=
  match kind with
  | .dummy =>
    let p := h w.env r
    ({ w with env := p.1, sent := w.sent ++ [r] }, some p.2)
  | .subproc => (w.send .subproc h r).recv .subproc h

/-- `dummy.py` lines 20-21 and `subproc.py` lines 177-178: `set_env_attr` expects no reply. -/
def tell (kind : Kind) (h : Handler σ A K X ρ) (r : Req A K X) (w : Worker σ A K X ρ) : Worker σ A K X ρ :=
  match kind with
  | .dummy => { w with env := (h w.env r).1, sent := w.sent ++ [r] }
  | .subproc => w.send .subproc h r

end Worker

/-- How a call can fail. `hangs` is no exception: the call does not return (under the given schedule). -/
inductive Err
  | assertion
  | value
  | index
  | key
  | runtime
  | hangs
deriving DecidableEq, Repr

/-- `venvs.py` lines 76-109: the attributes of a vector environment. A connection in `waiting_conn` is given by the
position of its worker; of `timeout` we keep whether there is one. -/
structure Venv (σ A K X ρ : Type) where
  kind : Kind
  workers : List (Worker σ A K X ρ)
  waitNum : Nat
  timeout : Bool
  isAsync : Bool
  waitingConn : List Nat := []
  waitingId : List Nat := []
  readyId : List Nat
  closed : Bool := false
deriving Repr

/-- What happens while a call of `wait` is blocked: the process of worker `i` handles a command; `connection.wait` reports
workers that have a reply, in some order (at least one, or it would not return; reporting none here changes nothing); the
time is over. -/
inductive Tick
  | run (i : Nat)
  | poll (order : List Nat)
  | expire
deriving DecidableEq, Repr

/-- The argument of `seed` (`venvs.py` lines 324-341). -/
inductive Seed
  | none
  | int (s : Int)
  | list (l : List Int)
deriving DecidableEq, Repr

namespace Venv

/-- `venvs.py` lines 76-109: the constructor. -/
def make (kind : Kind) (envs : List σ) (waitNum : Option Nat) (timeout : Option Int) : Except Err (Venv σ A K X ρ) :=
  if envs.length = 0 then .error .index
  else
    let wn := match waitNum with
      | none => envs.length
      | some 0 => envs.length
      | some (k + 1) => k + 1
    if ¬ (1 ≤ wn ∧ wn ≤ envs.length) then .error .assertion
    else if (match timeout with | none => false | some t => decide (t ≤ 0)) then .error .assertion
    else .ok
      { kind := kind
        workers := envs.map fun s => { env := s }
        waitNum := wn
        timeout := timeout.isSome
        isAsync := decide (wn ≠ envs.length) || timeout.isSome
        readyId := List.range envs.length }

/-- `venvs.py` lines 178-184: `_wrap_id`. A single id is given here as a list with one element. -/
def wrapId (ids : Option (List Nat)) (v : Venv σ A K X ρ) : List Nat :=
  match ids with
  | none => List.range v.workers.length
  | some l => l

/-- `venvs.py` lines 186-191: `_assert_id`. -/
def idsOk (ids : List Nat) (v : Venv σ A K X ρ) : Bool :=
  ids.all fun i => !(v.waitingId.contains i) && v.readyId.contains i

/-- The process of worker `i` handles a command, if it has one. -/
def runWorker (h : Handler σ A K X ρ) (i : Nat) (v : Venv σ A K X ρ) : Venv σ A K X ρ :=
  match v.workers[i]? with
  | none => v
  | some w => { v with workers := v.workers.set i (w.progress h) }

/-- `venvs.py` lines 212-213, 281-282: hand requests to workers, one after the other. -/
def sendAll (h : Handler σ A K X ρ) : List (Nat × Req A K X) → Venv σ A K X ρ → Venv σ A K X ρ × Except Err Unit
  | [], v => (v, .ok ())
  | (j, r) :: t, v =>
    match v.workers[j]? with
    | none => (v, .error .index)
    | some w => sendAll h t { v with workers := v.workers.set j (w.send v.kind h r) }

/-- `venvs.py` lines 214, 283-287: receive from workers, one after the other, each result with the id of its environment. -/
def recvAll (h : Handler σ A K X ρ) : List Nat → Venv σ A K X ρ → Venv σ A K X ρ × Except Err (List (Nat × ρ))
  | [], v => (v, .ok [])
  | j :: t, v =>
    match v.workers[j]? with
    | none => (v, .error .index)
    | some w =>
      let p := w.recv v.kind h
      let v' := { v with workers := v.workers.set j p.1 }
      match p.2 with
      | none => (v', .error .hangs)
      | some x =>
        match recvAll h t v' with
        | (v'', .ok rows) => (v'', .ok ((j, x) :: rows))
        | (v'', .error e) => (v'', .error e)

/-- `venvs.py` lines 152, 342, 351: ask workers, one after the other. -/
def askAll (h : Handler σ A K X ρ) : List (Nat × Req A K X) → Venv σ A K X ρ → Venv σ A K X ρ × Except Err (List ρ)
  | [], v => (v, .ok [])
  | (j, r) :: t, v =>
    match v.workers[j]? with
    | none => (v, .error .index)
    | some w =>
      let p := w.ask v.kind h r
      let v' := { v with workers := v.workers.set j p.1 }
      match p.2 with
      | none => (v', .error .hangs)
      | some x =>
        match askAll h t v' with
        | (v'', .ok xs) => (v'', .ok (x :: xs))
        | (v'', .error e) => (v'', .error e)

/-- `venvs.py` lines 175-176: tell workers, one after the other. -/
def tellAll (h : Handler σ A K X ρ) : List (Nat × Req A K X) → Venv σ A K X ρ → Venv σ A K X ρ × Except Err Unit
  | [], v => (v, .ok ())
  | (j, r) :: t, v =>
    match v.workers[j]? with
    | none => (v, .error .index)
    | some w => tellAll h t { v with workers := v.workers.set j (w.tell v.kind h r) }

/-- `venvs.py` lines 131-152: `get_env_attr`. -/
def getEnvAttr (h : Handler σ A K X ρ) (key : String) (ids : Option (List Nat)) (v : Venv σ A K X ρ) :
    Venv σ A K X ρ × Except Err (List ρ) :=
  if v.closed then (v, .error .assertion)
  else if v.isAsync && !v.idsOk (v.wrapId ids) then (v, .error .assertion)
  else askAll h ((v.wrapId ids).map fun j => (j, .getattr key)) v

/-- `venvs.py` lines 155-176: `set_env_attr`. -/
def setEnvAttr (h : Handler σ A K X ρ) (key : String) (value : X) (ids : Option (List Nat)) (v : Venv σ A K X ρ) :
    Venv σ A K X ρ × Except Err Unit :=
  if v.closed then (v, .error .assertion)
  else if v.isAsync && !v.idsOk (v.wrapId ids) then (v, .error .assertion)
  else tellAll h ((v.wrapId ids).map fun j => (j, .setattr key value)) v

/-- `venvs.py` lines 195-235: `reset`. -/
def reset (h : Handler σ A K X ρ) (kw : K) (ids : Option (List Nat)) (v : Venv σ A K X ρ) :
    Venv σ A K X ρ × Except Err (List (Nat × ρ)) :=
  if v.closed then (v, .error .assertion)
  else if v.isAsync && !v.idsOk (v.wrapId ids) then (v, .error .assertion)
  else
    match sendAll h ((v.wrapId ids).map fun j => (j, .reset kw)) v with
    | (v', .error e) => (v', .error e)
    | (v', .ok ()) =>
      match recvAll h (v.wrapId ids) v' with
      | (v'', .error e) => (v'', .error e)
      | (v'', .ok rows) => (v'', if rows.isEmpty then .error .index else .ok rows)

/-- `venvs.py` lines 292-295: hand out the actions of an asynchronous step, noting who is stepping. -/
def sendStep (h : Handler σ A K X ρ) : List (Nat × A) → Venv σ A K X ρ → Venv σ A K X ρ × Except Err Unit
  | [], v => (v, .ok ())
  | (j, a) :: t, v =>
    match v.workers[j]? with
    | none => (v, .error .index)
    | some w =>
      sendStep h t
        { v with
          workers := v.workers.set j (w.send v.kind h (.step a))
          waitingConn := v.waitingConn ++ [j]
          waitingId := v.waitingId ++ [j] }

/-- Whether worker `j` has a reply in its pipe. -/
def hasReply (v : Venv σ A K X ρ) (j : Nat) : Bool :=
  match v.workers[j]? with
  | none => false
  | some w => !w.outbox.isEmpty

/-- `subproc.py` lines 195-212, called in the loop of `venvs.py` lines 297-299, with `remain` for `remain_conns` and
`ready` for `ready_conns`. `connection.wait` raises a `KeyError` when a connection is listed twice. When the time is over and
nothing is ready, `wait` returns an empty list and is called again with the same connections; without connections it
returns an empty list for ever. -/
def pollLoop (h : Handler σ A K X ρ) :
    List Tick → List Nat → List Nat → Venv σ A K X ρ → Venv σ A K X ρ × Except Err (List Nat)
  | [], remain, ready, v =>
    if remain.length > 0 ∧ ready.length < v.waitNum then (v, .error .hangs)
    else (v, if ready.length = 0 then .error .hangs else .ok ready)
  | tick :: ts, remain, ready, v =>
    if remain.length > 0 ∧ ready.length < v.waitNum then
      match tick with
      | .run i => pollLoop h ts remain ready (v.runWorker h i)
      | .poll order =>
        if ¬ remain.Nodup then (v, .error .key)
        else
          let ready' := ready ++ (order.filter fun j => remain.contains j && v.hasReply j).dedup
          pollLoop h ts (remain.filter fun j => !ready'.contains j) ready' v
      | .expire => if v.timeout && decide (ready.length > 0) then (v, .ok ready) else pollLoop h ts remain ready v
    else (v, if ready.length = 0 then .error .hangs else .ok ready)

/-- `venvs.py` lines 302-310: take one connection off the waiting lists and receive its result. -/
def takeOne (h : Handler σ A K X ρ) (conn : Nat) (v : Venv σ A K X ρ) : Venv σ A K X ρ × Except Err (Nat × ρ) :=
  let k := v.waitingConn.idxOf conn
  match v.waitingId[k]?, v.workers[conn]? with
  | some id, some w =>
    let p := w.recv v.kind h
    let v' := { v with
      workers := v.workers.set conn p.1
      waitingConn := v.waitingConn.eraseIdx k
      waitingId := v.waitingId.eraseIdx k }
    match p.2 with
    | none => (v', .error .hangs)
    | some x => ({ v' with readyId := v'.readyId ++ [id] }, .ok (id, x))
  | _, _ => (v, .error .value)

/-- `venvs.py` lines 300-310: the loop over `ready_conns`, when that list is one of its own. -/
def takeAll (h : Handler σ A K X ρ) : List Nat → Venv σ A K X ρ → Venv σ A K X ρ × Except Err (List (Nat × ρ))
  | [], v => (v, .ok [])
  | c :: t, v =>
    match takeOne h c v with
    | (v', .error e) => (v', .error e)
    | (v', .ok row) =>
      match takeAll h t v' with
      | (v'', .error e) => (v'', .error e)
      | (v'', .ok rows) => (v'', .ok (row :: rows))

/-- `venvs.py` lines 300-310 for `DummyEnvWorker`: its `wait` (`dummy.py` lines 29-36) returns the list `waiting_conn` itself,
from which the loop removes the connections it visits. Python's iterator keeps a position `i` in the list, so it passes
over the connection that moves into the place of a removed one. `fuel` bounds the number of turns, each of which makes the list
shorter. -/
def drain (h : Handler σ A K X ρ) : Nat → Nat → Venv σ A K X ρ → Venv σ A K X ρ × Except Err (List (Nat × ρ))
  | 0, _, v => (v, .ok [])
  | fuel + 1, i, v =>
    match v.waitingConn[i]? with
    | none => (v, .ok [])
    | some c =>
      match takeOne h c v with
      | (v', .error e) => (v', .error e)
      | (v', .ok row) =>
        match drain h fuel (i + 1) v' with
        | (v'', .error e) => (v'', .error e)
        | (v'', .ok rows) => (v'', .ok (row :: rows))

/-- `venvs.py` lines 297-310: wait for results and take them. -/
def collect (h : Handler σ A K X ρ) (ticks : List Tick) (v : Venv σ A K X ρ) :
    Venv σ A K X ρ × Except Err (List (Nat × ρ)) :=
  match v.kind with
  | .dummy => if v.waitingConn.length = 0 then (v, .error .hangs) else drain h v.waitingConn.length 0 v
  | .subproc =>
    match pollLoop h ticks v.waitingConn [] v with
    | (v', .error e) => (v', .error e)
    | (v', .ok ready) => takeAll h ready v'

/-- `venvs.py` lines 237-322: `step`. An empty result raises a `ValueError` (line 311). -/
def step (h : Handler σ A K X ρ) (action : Option (List A)) (ids : Option (List Nat)) (ticks : List Tick)
    (v : Venv σ A K X ρ) : Venv σ A K X ρ × Except Err (List (Nat × ρ)) :=
  let id := v.wrapId ids
  if v.closed then (v, .error .assertion)
  else if !v.isAsync then
    match action with
    | none => (v, .error .value)
    | some acts =>
      if acts.length ≠ id.length then (v, .error .assertion)
      else
        match sendAll h (id.zip (acts.map .step)) v with
        | (v', .error e) => (v', .error e)
        | (v', .ok ()) =>
          match recvAll h id v' with
          | (v'', .error e) => (v'', .error e)
          | (v'', .ok rows) => (v'', if rows.isEmpty then .error .value else .ok rows)
  else
    match action with
    | none => collect h ticks v
    | some acts =>
      if !v.idsOk id then (v, .error .assertion)
      else if acts.length ≠ id.length then (v, .error .assertion)
      else
        match sendStep h (id.zip acts) v with
        | (v', .error e) => (v', .error e)
        | (v', .ok ()) => collect h ticks { v' with readyId := v'.readyId.filter fun x => !id.contains x }

/-- `venvs.py` lines 335-341: the seed of each environment. -/
def seedList (s : Seed) (v : Venv σ A K X ρ) : List (Option Int) :=
  match s with
  | .none => List.replicate v.workers.length Option.none
  | .int s => (List.range v.workers.length).map fun i : Nat => some (s + (i : Int))
  | .list l => l.map some

/-- `venvs.py` lines 324-342: `seed`. The strict `zip` raises a `ValueError` at the end of the shorter list, after the
workers before it have been seeded. -/
def seed (h : Handler σ A K X ρ) (s : Seed) (v : Venv σ A K X ρ) : Venv σ A K X ρ × Except Err (List ρ) :=
  if v.closed then (v, .error .assertion)
  else
    match askAll h ((List.range v.workers.length).zip ((v.seedList s).map .seed)) v with
    | (v', .error e) => (v', .error e)
    | (v', .ok xs) => (v', if v.workers.length ≠ (v.seedList s).length then .error .value else .ok xs)

/-- `venvs.py` lines 344-351: `render`. -/
def render (h : Handler σ A K X ρ) (kw : K) (v : Venv σ A K X ρ) : Venv σ A K X ρ × Except Err (List ρ) :=
  if v.closed then (v, .error .assertion)
  else if v.isAsync && decide (v.waitingId.length > 0) then (v, .error .runtime)
  else askAll h ((List.range v.workers.length).map fun j => (j, .render kw)) v

/-- `venvs.py` lines 353-362: `close`. What becomes of the workers is not modelled. -/
def close (v : Venv σ A K X ρ) : Venv σ A K X ρ × Except Err Unit :=
  if v.closed then (v, .error .assertion) else ({ v with closed := true }, .ok ())

end Venv

end Verif.VecEnv
