import Mathlib.Analysis.Real.Sqrt
import Mathlib.Algebra.BigOperators.Group.List.Basic

/-!
Model of `tianshou/utils/optim.py`, `tianshou/utils/lr_scheduler.py`, and of the twin critics of `tianshou/policy/modelfree/td3.py` and
`sac.py` with their optimizers.

Simplifications. Every number in a parameter tensor is a parameter of its own, with a number for its identity; numbers are real and
finite. Backward passes and the steps of the optimizers of torch are arbitrary functions.
-/

namespace Verif.Optim

/-! ### One step -/

/-- Values and gradients (`.grad`, `None` if absent) of all parameters. -/
structure Mem where
  value : Nat → ℝ
  grad : Nat → Option ℝ

/-- An optimizer of torch: the parameters it holds and its step, which sees its own state, and values and gradients of its own parameters
(in their order), and gives the new values. -/
structure Opt (S : Type) where
  params : List Nat
  step : S → List (ℝ × Option ℝ) → S × List ℝ

/-- `optim.zero_grad()` (gradients are set to `None`). -/
def zeroGrad {S : Type} (o : Opt S) (m : Mem) : Mem := { m with grad := fun i => if i ∈ o.params then none else m.grad i }

/-- Adding a gradient to the one that is there. -/
def addGrad : Option ℝ → Option ℝ → Option ℝ
  | none, g => g
  | some a, none => some a
  | some a, some b => some (a + b)

/-- `loss.backward()`; `d v i` is the derivative of the loss at the values `v`, `none` if the loss does not depend on parameter `i`. -/
def backward (d : (Nat → ℝ) → Nat → Option ℝ) (m : Mem) : Mem := { m with grad := fun i => addGrad (m.grad i) (d m.value i) }

/-- The norm of the gradients of some parameters, as `nn.utils.clip_grad_norm_` computes it (the square root of the sum of squares, gradients
that are `None` are left out). -/
noncomputable def gradNorm (ps : List Nat) (g : Nat → Option ℝ) : ℝ := Real.sqrt ((ps.map fun i => ((g i).getD 0) ^ 2).sum)

/-- `nn.utils.clip_grad_norm_(parameters, max_norm)` of torch. -/
noncomputable def clipGrad (ps : List Nat) (maxNorm : ℝ) (m : Mem) : Mem :=
  let coef := min (maxNorm / (gradNorm ps m.grad + 1 / 1000000)) 1
  { m with grad := fun i => if i ∈ ps then (m.grad i).map (coef * ·) else m.grad i }

/-- Writing the new values of parameters. -/
def assignAll : List Nat → List ℝ → (Nat → ℝ) → Nat → ℝ
  | i :: is, x :: xs, v => assignAll is xs fun j => if j = i then x else v j
  | _, _, v => v

/-- `optim.step()`. -/
def optStep {S : Type} (o : Opt S) (s : S) (m : Mem) : S × Mem :=
  let r := o.step s (o.params.map fun i => (m.value i, m.grad i))
  (r.1, { m with value := assignAll o.params r.2 m.value })

/-- Errors. -/
inductive Err
  | value
  | type
deriving DecidableEq, Repr

/-- `optim_step`, `utils/optim.py` lines 8-30: the state afterwards, and whether an error was raised. `module`: `None`, or the parameters of
the module; a module without a truth value of its own counts as true (`nn.Sequential()` and the like with no elements do not, and are as
good as `None` here). -/
noncomputable def optimStep {S : Type} (d : (Nat → ℝ) → Nat → Option ℝ) (o : Opt S) (module : Option (List Nat)) (maxGradNorm : Option ℝ)
    (s : S) (m : Mem) : (S × Mem) × Except Err Unit :=
  let m := backward d (zeroGrad o m)
  match maxGradNorm with
  | none => (optStep o s m, .ok ())
  | some c =>
    if c = 0 then (optStep o s m, .ok ())
    else
      match module with
      | none => ((s, m), .error .value)
      | some ps => (optStep o s (clipGrad ps c m), .ok ())

/-! ### Several schedulers -/

/-- A scheduler of torch: its attributes (without the optimizer) and, for `LambdaLR` and `MultiplicativeLR`, the list of functions in
`lr_lambdas`, where `none` is something that cannot be called. -/
structure Sched (A F : Type) where
  attrs : A
  lambdas : Option (List (Option F))

/-- The state of a scheduler. -/
structure SchedState (A F : Type) where
  attrs : A
  lambdas : Option (List (Option F))

/-- `state_dict` of torch: the attributes without the optimizer; in place of functions there is `None`, and in place of other objects that
can be called, a dictionary. -/
def Sched.stateDict {A F : Type} (s : Sched A F) : SchedState A F := ⟨s.attrs, s.lambdas.map fun l => l.map fun _ => none⟩

/-- `s.__dict__.update(sd)`, `lr_scheduler.py` line 40: all attributes that occur in `sd` are replaced. -/
def Sched.update {A F : Type} (s : Sched A F) (sd : SchedState A F) : Sched A F :=
  ⟨sd.attrs, match sd.lambdas with | some l => some l | none => s.lambdas⟩

/-- `load_state_dict` of the schedulers of torch themselves: functions are kept. -/
def Sched.loadTorch {A F : Type} (s : Sched A F) (sd : SchedState A F) : Sched A F := ⟨sd.attrs, s.lambdas⟩

/-- All functions, if they can be called. -/
def callable {F : Type} : List (Option F) → Option (List F)
  | [] => some []
  | none :: _ => none
  | some f :: l => (callable l).map (f :: ·)

/-- `step` of a scheduler: `adv` is what torch does with the attributes; a function that cannot be called raises a `TypeError`. -/
def Sched.step {A F : Type} (adv : A → List F → A) (s : Sched A F) : Except Err (Sched A F) :=
  match callable (s.lambdas.getD []) with
  | some fs => .ok { s with attrs := adv s.attrs fs }
  | none => .error .type

/-- `MultipleLRSchedulers.step`, `lr_scheduler.py` lines 21-24: the schedulers afterwards, and whether an error was raised. -/
def stepAll {A F : Type} (adv : A → List F → A) : List (Sched A F) → List (Sched A F) × Except Err Unit
  | [] => ([], .ok ())
  | s :: ss =>
    match s.step adv with
    | .ok s' => let r := stepAll adv ss; (s' :: r.1, r.2)
    | .error e => (s :: ss, .error e)

/-- Several steps. -/
def stepTimes {A F : Type} (adv : A → List F → A) : Nat → List (Sched A F) → List (Sched A F) × Except Err Unit
  | 0, ss => (ss, .ok ())
  | n + 1, ss =>
    match stepAll adv ss with
    | (ss', .ok _) => stepTimes adv n ss'
    | (ss', .error e) => (ss', .error e)

/-- `MultipleLRSchedulers.state_dict`, lines 26-31. -/
def stateDicts {A F : Type} (ss : List (Sched A F)) : List (SchedState A F) := ss.map Sched.stateDict

/-- `MultipleLRSchedulers.load_state_dict`, lines 33-40; `zip(strict=True)` raises when one list ends, after the updates before. -/
def loadAll {A F : Type} : List (Sched A F) → List (SchedState A F) → List (Sched A F) × Except Err Unit
  | [], [] => ([], .ok ())
  | [], _ :: _ => ([], .error .value)
  | s :: ss, [] => (s :: ss, .error .value)
  | s :: ss, d :: ds => let r := loadAll ss ds; (s.update d :: r.1, r.2)

/-! ### Cloning -/

/-- An optimizer as an object: its class, the defaults, the groups of parameters with their options, and the state. `C` options, `T`
state. -/
structure Optimizer (C T : Type) where
  cls : Nat
  defaults : C
  groups : List (List Nat × C)
  state : Option T

/-- Constructing an optimizer of a class on parameters: one group with the options given. -/
def construct {C T : Type} (cls : Nat) (params : List Nat) (options : C) : Optimizer C T := ⟨cls, options, [(params, options)], none⟩

/-- `clone_optimizer`, `utils/optim.py` lines 48-69; `standard`: the list in lines 33-43. -/
def cloneOptimizer {C T : Type} (standard : List Nat) (o : Optimizer C T) (newParams : List Nat) : Except Err (Optimizer C T) :=
  if o.cls ∈ standard then .ok (construct o.cls newParams o.defaults) else .error .value

/-! ### Twin critics -/

/-- A critic with its target network and its optimizer: parameters, parameters of the copy, state and options of the optimizer. -/
structure Critic (W T C : Type) where
  net : W
  old : W
  opt : T
  cfg : C

/-- The two critics. -/
structure Twin (W T C : Type) where
  one : Critic W T C
  two : Critic W T C

/-- A critic and its optimizer as given by the user. -/
structure Given (W T C : Type) where
  net : W
  opt : T
  cfg : C
  defaults : C

/-- The critics in `TD3Policy.__init__` (`td3.py` lines 102-108, with `ddpg.py` for the first) and `SACPolicy.__init__` (`sac.py` lines
131-135). `fresh` is the state of a new optimizer. For TD3 a second critic without its optimizer raises; SAC clones the optimizer of the
first (`requireOpt = false`). -/
def Twin.new {W T C : Type} (fresh : T) (requireOpt : Bool) (first : Given W T C) (critic2 : Option W) (optim2 : Option (T × C)) :
    Except Err (Twin W T C) :=
  if critic2.isSome ∧ optim2.isNone ∧ requireOpt = true then .error .value
  else
    let net2 := critic2.getD first.net
    let opt2 := optim2.getD (fresh, first.defaults)
    .ok { one := ⟨first.net, first.net, first.opt, first.cfg⟩, two := ⟨net2, net2, opt2.1, opt2.2⟩ }

/-- One call of `learn` as far as the critics are concerned (`td3.py` lines 143-163, `sac.py` lines 226-249): `fit` is `_mse_optimizer`
(`ddpg.py` lines 182-197) for the targets, given networks, optimizer state and options; then `sync_weight` if `sync` (TD3 with
`update_actor_freq`); `soft` is `soft_update`. The targets are computed before from the two target networks, as
`min` of their values for all rows `X`. -/
def Twin.learn {W T C X : Type} (q : W → X → ℝ) (fit : C → (X → ℝ) → W → T → W × T) (soft : W → W → W) (target : X → ℝ → ℝ) (sync : Bool)
    (t : Twin W T C) : Twin W T C :=
  let y := fun x => target x (min (q t.one.old x) (q t.two.old x))
  let a := fit t.one.cfg y t.one.net t.one.opt
  let b := fit t.two.cfg y t.two.net t.two.opt
  { one := { t.one with net := a.1, opt := a.2, old := if sync then soft t.one.old a.1 else t.one.old }
    two := { t.two with net := b.1, opt := b.2, old := if sync then soft t.two.old b.1 else t.two.old } }

/-- A sequence of calls; each has its own data (targets and losses) and may synchronise or not. -/
def Twin.learns {W T C X : Type} (q : W → X → ℝ) (soft : W → W → W) :
    List ((C → (X → ℝ) → W → T → W × T) × (X → ℝ → ℝ) × Bool) → Twin W T C → Twin W T C
  | [], t => t
  | c :: cs, t => Twin.learns q soft cs (t.learn q c.1 soft c.2.1 c.2.2)

end Verif.Optim
