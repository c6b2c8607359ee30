import Verif.Model.VecEnv

/-!
Model of closing a vector environment: `tianshou/env/venvs.py` lines 353-362, `tianshou/env/worker/base.py` lines 82-86, `dummy.py` lines 54-55,
`subproc.py` lines 116-119 and 265-274. `Verif.Model.VecEnv` keeps of `close` only the attribute `is_closed`; here the workers are closed, too.

Simplifications. Replies fit into the pipe. `RayEnvWorker` (which waits for the environment) is not modelled. `closedIn` is no part of the code: it
records the states in which the method `close` of the environment was called, in order.
-/

namespace Verif.VecEnv

variable {σ A K X ρ : Type}

/-- A worker with its attribute `is_closed` (`base.py` line 16). -/
structure CWorker (σ A K X ρ : Type) where
  worker : Worker σ A K X ρ
  isClosed : Bool := false
  closedIn : List σ := []

/-- A vector environment whose workers can be closed: `flags` and `closedIn` are those of the workers. -/
structure CVenv (σ A K X ρ : Type) where
  venv : Venv σ A K X ρ
  flags : List Bool
  closedIn : List (List σ)

/-- The process of a worker handles all commands in its pipe, one after the other. -/
def Worker.finish (h : Handler σ A K X ρ) : Nat → Worker σ A K X ρ → Worker σ A K X ρ
  | 0, w => w
  | fuel + 1, w => Worker.finish h fuel (w.progress h)

/-- `dummy.py` lines 54-55: `self.env.close()`; `subproc.py` lines 265-274: the command `close` comes after those that are in the pipe, the process handles
them all, closes its environment and ends; `recv` returns the first reply, which may be that to an earlier command; `join` waits for the end. -/
def CWorker.closeEnv (kind : Kind) (h : Handler σ A K X ρ) (w : CWorker σ A K X ρ) : CWorker σ A K X ρ :=
  match kind with
  | .dummy => { w with closedIn := w.closedIn ++ [w.worker.env] }
  | .subproc =>
    { w with
      worker := w.worker.finish h w.worker.inbox.length
      closedIn := w.closedIn ++ [(w.worker.finish h w.worker.inbox.length).env] }

/-- `base.py` lines 82-86: `close`. -/
def CWorker.close (kind : Kind) (h : Handler σ A K X ρ) (w : CWorker σ A K X ρ) : CWorker σ A K X ρ :=
  if w.isClosed then w else CWorker.closeEnv kind h { w with isClosed := true }

/-- The workers of a vector environment. -/
def CVenv.workers (c : CVenv σ A K X ρ) : List (CWorker σ A K X ρ) :=
  c.venv.workers.mapIdx fun i w => ⟨w, c.flags.getD i false, c.closedIn.getD i []⟩

/-- `venvs.py` lines 353-362: `close`. -/
def CVenv.close (h : Handler σ A K X ρ) (c : CVenv σ A K X ρ) : CVenv σ A K X ρ × Except Err Unit :=
  if c.venv.closed then (c, .error .assertion)
  else
    let ws := c.workers.map (CWorker.close c.venv.kind h)
    (⟨{ c.venv with workers := ws.map CWorker.worker, closed := true }, ws.map CWorker.isClosed, ws.map CWorker.closedIn⟩, .ok ())

/-- A new vector environment. -/
def CVenv.new (v : Venv σ A K X ρ) : CVenv σ A K X ρ := ⟨v, v.workers.map fun _ => false, v.workers.map fun _ => []⟩

/-- The calls of a vector environment. -/
inductive Call (A K X : Type)
  | step (action : Option (List A)) (ids : Option (List Nat)) (ticks : List Tick)
  | reset (kw : K) (ids : Option (List Nat))
  | getEnvAttr (key : String) (ids : Option (List Nat))
  | setEnvAttr (key : String) (value : X) (ids : Option (List Nat))
  | seed (s : Seed)
  | render (kw : K)
  | close

/-- A call that returned or failed; what it returned is not kept. -/
def outcome {α : Type} (r : Except Err α) : Except Err Unit :=
  match r with
  | .ok _ => .ok ()
  | .error e => .error e

/-- A call of the vector environment. -/
def CVenv.call (h : Handler σ A K X ρ) (c : CVenv σ A K X ρ) : Call A K X → CVenv σ A K X ρ × Except Err Unit
  | .step action ids ticks => ({ c with venv := (c.venv.step h action ids ticks).1 }, outcome (c.venv.step h action ids ticks).2)
  | .reset kw ids => ({ c with venv := (c.venv.reset h kw ids).1 }, outcome (c.venv.reset h kw ids).2)
  | .getEnvAttr key ids => ({ c with venv := (c.venv.getEnvAttr h key ids).1 }, outcome (c.venv.getEnvAttr h key ids).2)
  | .setEnvAttr key x ids => ({ c with venv := (c.venv.setEnvAttr h key x ids).1 }, outcome (c.venv.setEnvAttr h key x ids).2)
  | .seed s => ({ c with venv := (c.venv.seed h s).1 }, outcome (c.venv.seed h s).2)
  | .render kw => ({ c with venv := (c.venv.render h kw).1 }, outcome (c.venv.render h kw).2)
  | .close => c.close h

/-- What can happen to a vector environment: a call, or the process of worker `i` handles a command. -/
inductive CEvent (A K X : Type)
  | call (c : Call A K X)
  | run (i : Nat)

/-- A sequence of events, with the outcomes of the calls. -/
def CVenv.events (h : Handler σ A K X ρ) : CVenv σ A K X ρ → List (CEvent A K X) → CVenv σ A K X ρ × List (Except Err Unit)
  | c, [] => (c, [])
  | c, .call x :: es => ((CVenv.events h (c.call h x).1 es).1, (c.call h x).2 :: (CVenv.events h (c.call h x).1 es).2)
  | c, .run i :: es => CVenv.events h { c with venv := c.venv.runWorker h i } es

end Verif.VecEnv
