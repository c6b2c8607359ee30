import Verif.Model.VecEnv

/-!
What C50-C53 say about a vector environment: an environment on its own is a machine that serves the requests handed to it
one after the other; a history of calls, with the results it has delivered.
-/

namespace Verif.VecEnv

variable {σ A K X ρ : Type}

/-- The state of an environment that started in state `s` and has served the requests `l`. -/
def after (h : Handler σ A K X ρ) (s : σ) (l : List (Req A K X)) : σ :=
  l.foldl (fun s r => (h s r).1) s

/-- The reply of an environment that started in state `s` and has served the requests `l` to one more request. -/
def replyTo (h : Handler σ A K X ρ) (s : σ) (l : List (Req A K X)) (r : Req A K X) : ρ :=
  (h (after h s l) r).2

/-- The replies to those of the requests `l` that are steps, in order, for an environment that started in state `s`. -/
def stepReplies (h : Handler σ A K X ρ) (s : σ) : List (Req A K X) → List ρ
  | [] => []
  | .step a :: t => (h s (.step a)).2 :: stepReplies h (h s (.step a)).1 t
  | r :: t => stepReplies h (h s r).1 t

/-- The results that belong to environment `i`. -/
def deliveredTo (i : Nat) (rows : List (Nat × ρ)) : List ρ :=
  (rows.filter fun row => row.1 == i).map Prod.snd

/-- The requests environment `i` has been handed so far. -/
def Venv.sentTo (v : Venv σ A K X ρ) (i : Nat) : List (Req A K X) :=
  match v.workers[i]? with
  | none => []
  | some w => w.sent

/-- The arguments `ids` of a call on `v` name each environment at most once and, in synchronous mode, name environments that
exist. -/
def Venv.Names (v : Venv σ A K X ρ) (ids : Option (List Nat)) : Prop :=
  (v.wrapId ids).Nodup ∧ (v.isAsync = false → ∀ i ∈ v.wrapId ids, i < v.workers.length)

/-- `History h s0 v rows`: a vector environment over environments that started in the states `s0` can be in state `v` after
having delivered the step results `rows`. Calls may succeed or raise; a call that never returns ends the history. Between
calls the processes of the workers go on. `seed` is called only when no environment is being stepped. -/
inductive History (h : Handler σ A K X ρ) (s0 : List σ) : Venv σ A K X ρ → List (Nat × ρ) → Prop
  | make {kind wn timeout v} : Venv.make kind s0 wn timeout = .ok v → History h s0 v []
  | run {v rows} (i : Nat) : History h s0 v rows → History h s0 (v.runWorker h i) rows
  | step {v rows action ids ticks v' new} : History h s0 v rows → v.Names ids →
      v.step h action ids ticks = (v', .ok new) → History h s0 v' (rows ++ new)
  | stepRaises {v rows action ids ticks v' e} : History h s0 v rows → v.Names ids →
      v.step h action ids ticks = (v', .error e) → e ≠ .hangs → History h s0 v' rows
  | reset {v rows kw ids v' r} : History h s0 v rows → v.Names ids →
      v.reset h kw ids = (v', r) → r ≠ .error .hangs → History h s0 v' rows
  | getEnvAttr {v rows key ids v' r} : History h s0 v rows → v.Names ids →
      v.getEnvAttr h key ids = (v', r) → r ≠ .error .hangs → History h s0 v' rows
  | setEnvAttr {v rows key value ids v' r} : History h s0 v rows → v.Names ids →
      v.setEnvAttr h key value ids = (v', r) → History h s0 v' rows
  | seed {v rows s v' r} : History h s0 v rows → v.waitingId = [] →
      v.seed h s = (v', r) → r ≠ .error .hangs → History h s0 v' rows
  | render {v rows kw v' r} : History h s0 v rows →
      v.render h kw = (v', r) → r ≠ .error .hangs → History h s0 v' rows
  | close {v rows v' r} : History h s0 v rows → v.close = (v', r) → History h s0 v' rows

/-- `AnyHistory h s0 v`: as `History`, for arbitrary calls, except that a call of `step` names each environment at most
once. -/
inductive AnyHistory (h : Handler σ A K X ρ) (s0 : List σ) : Venv σ A K X ρ → Prop
  | make {kind wn timeout v} : Venv.make kind s0 wn timeout = .ok v → AnyHistory h s0 v
  | run {v} (i : Nat) : AnyHistory h s0 v → AnyHistory h s0 (v.runWorker h i)
  | step {v action ids ticks v' r} : AnyHistory h s0 v → (v.wrapId ids).Nodup →
      v.step h action ids ticks = (v', r) → r ≠ .error .hangs → AnyHistory h s0 v'
  | reset {v kw ids v' r} : AnyHistory h s0 v → v.reset h kw ids = (v', r) → r ≠ .error .hangs → AnyHistory h s0 v'
  | getEnvAttr {v key ids v' r} : AnyHistory h s0 v →
      v.getEnvAttr h key ids = (v', r) → r ≠ .error .hangs → AnyHistory h s0 v'
  | setEnvAttr {v key value ids v' r} : AnyHistory h s0 v → v.setEnvAttr h key value ids = (v', r) → AnyHistory h s0 v'
  | seed {v s v' r} : AnyHistory h s0 v → v.seed h s = (v', r) → r ≠ .error .hangs → AnyHistory h s0 v'
  | render {v kw v' r} : AnyHistory h s0 v → v.render h kw = (v', r) → r ≠ .error .hangs → AnyHistory h s0 v'
  | close {v v' r} : AnyHistory h s0 v → v.close = (v', r) → AnyHistory h s0 v'

end Verif.VecEnv
