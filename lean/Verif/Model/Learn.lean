import Verif.Model.Optim

/-!
Model of the bodies of `learn` of the policies of tianshou as sequences of backward passes and optimizer steps: which gradients are cleared,
which loss is differentiated when, which optimizer makes a step, and when the target networks are moved.

Simplifications. Parameters, values and gradients as in `Model/Optim.lean`: every number in a parameter tensor is a parameter of its own, with
a number for its identity; networks may share parameters. A loss is given by its derivatives by all parameters, as a function of the values of
all parameters (those of target networks and `log_alpha` included) at the time the networks are evaluated; the contents of the losses are
modelled elsewhere. What torch reports as an error (a backward pass through parameters that were written since) does not occur in the model.
Statistics, priorities and counters are left out here.
-/

namespace Verif.Learn

open Verif.Optim

/-- Parameters with their gradients, and the state of every optimizer. -/
structure World (S : Type) where
  mem : Mem
  opt : Nat → S

/-- An optimizer of torch, with a number for its identity. -/
structure Optimizer (S : Type) extends Opt S where
  id : Nat

/-- The derivatives of a loss by all parameters, at given values; `none` if there is no path to the parameter. -/
abbrev Loss := (Nat → ℝ) → Nat → Option ℝ

variable {S : Type}

/-- `optim.zero_grad()`. -/
def World.zero (o : Optimizer S) (w : World S) : World S := { w with mem := zeroGrad o.toOpt w.mem }

/-- `loss.backward()`, for a loss with the derivatives `g`. -/
def World.back (g : Nat → Option ℝ) (w : World S) : World S := { w with mem := backward (fun _ => g) w.mem }

/-- `optim.step()`. -/
def World.step (o : Optimizer S) (w : World S) : World S :=
  let r := optStep o.toOpt (w.opt o.id) w.mem
  ⟨r.2, fun k => if k = o.id then r.1 else w.opt k⟩

/-- `nn.utils.clip_grad_norm_(module.parameters(), c)`. -/
noncomputable def World.clip (ps : List Nat) (c : ℝ) (w : World S) : World S := { w with mem := clipGrad ps c w.mem }

/-- Assigning values to parameters, without gradients (`sync_weight`, `_set_from_flat_params`). -/
def World.assign (f : (Nat → ℝ) → Nat → ℝ) (w : World S) : World S := { w with mem := { w.mem with value := f w.mem.value } }

/-! ### Policies with one optimizer -/

/-- `learn` of `modelfree/dqn.py` 212-234, `c51.py` 119-137, `qrdqn.py` 107-131, `iqn.py` 133-161, `bdq.py` 165-184,
`imitation/discrete_cql.py` 91-118, `discrete_crr.py` 113-146 (`due`: it is time to renew the target network), and of `imitation/base.py`
103-115 (`due = false`). -/
def dqnLearn (due : Bool) (sync : (Nat → ℝ) → Nat → ℝ) (loss : Loss) (o : Optimizer S) (w : World S) : World S :=
  let w := if due then w.assign sync else w
  let w := w.zero o
  let g := loss w.mem.value
  (w.back g).step o

/-- `DiscreteBCQPolicy.learn`, `imitation/discrete_bcq.py` 156-172: gradients are cleared after the networks have been evaluated. -/
def discreteBcqLearn (due : Bool) (sync : (Nat → ℝ) → Nat → ℝ) (loss : Loss) (o : Optimizer S) (w : World S) : World S :=
  let w := if due then w.assign sync else w
  let g := loss w.mem.value
  ((w.zero o).back g).step o

/-- `PGPolicy.learn`, `modelfree/pg.py` 219-231, one minibatch. -/
def pgMini (loss : Loss) (o : Optimizer S) (w : World S) : World S :=
  let w := w.zero o
  let g := loss w.mem.value
  (w.back g).step o

/-- `PGPolicy.learn`, `modelfree/pg.py` 218-231: in each repetition the losses of all minibatches, which are drawn anew. -/
def pgLearn (epochs : List (List Loss)) (o : Optimizer S) (w : World S) : World S :=
  epochs.foldl (fun w ls => ls.foldl (fun w l => pgMini l o w) w) w

/-- `A2CPolicy.learn`, `modelfree/a2c.py` 171-190, and `PPOPolicy.learn`, `modelfree/ppo.py` 184-223, one minibatch: `ps` are the parameters
of actor and critic, `maxNorm` is `max_grad_norm`; zero counts as none. -/
noncomputable def a2cMini (ps : List Nat) (maxNorm : Option ℝ) (loss : Loss) (o : Optimizer S) (w : World S) : World S :=
  let g := loss w.mem.value
  let w := (w.zero o).back g
  let w := match maxNorm with
    | none => w
    | some c => if c = 0 then w else w.clip ps c
  w.step o

/-- `A2CPolicy.learn`, `modelfree/a2c.py` 169-194, and `PPOPolicy.learn`, `modelfree/ppo.py` 180-228. In each repetition the losses of the
minibatches; they may depend on the values of the parameters at the start of the repetition (`recompute_advantage`, lines 181-182). -/
noncomputable def a2cLearn (ps : List Nat) (maxNorm : Option ℝ) (epochs : List ((Nat → ℝ) → List Loss)) (o : Optimizer S) (w : World S) :
    World S :=
  epochs.foldl (fun w ls => (ls w.mem.value).foldl (fun w l => a2cMini ps maxNorm l o w) w) w

/-- The critic's part in `NPGPolicy.learn`, `modelfree/npg.py` 164-170, and `TRPOPolicy.learn`, `modelfree/trpo.py` 176-182: `iters`
steps. -/
def criticIters (loss : Loss) (o : Optimizer S) : Nat → World S → World S
  | 0, w => w
  | n + 1, w =>
    let g := loss w.mem.value
    criticIters loss o n (((w.zero o).back g).step o)

/-- `NPGPolicy.learn`, `modelfree/npg.py` 134-170, and `TRPOPolicy.learn`, `modelfree/trpo.py` 112-182, one minibatch: the actor's parameters
are computed without gradients being stored (`torch.autograd.grad`) and assigned. -/
def npgMini (iters : Nat) (actor : (Nat → ℝ) → Nat → ℝ) (loss : Loss) (o : Optimizer S) (w : World S) : World S :=
  criticIters loss o iters (w.assign actor)

/-- `NPGPolicy.learn`, `modelfree/npg.py` 132-174, and `TRPOPolicy.learn`, `modelfree/trpo.py` 111-187: all minibatches of all
repetitions. -/
def npgLearn (iters : Nat) (minis : List (((Nat → ℝ) → Nat → ℝ) × Loss)) (o : Optimizer S) (w : World S) : World S :=
  minis.foldl (fun w m => npgMini iters m.1 m.2 o w) w

/-! ### Policies with several optimizers -/

/-- `FQFPolicy.learn`, `modelfree/fqf.py` 156-211: both losses come from one evaluation of the networks. -/
def fqfLearn (due : Bool) (sync : (Nat → ℝ) → Nat → ℝ) (fraction quantile : Loss) (oF o : Optimizer S) (w : World S) : World S :=
  let w := if due then w.assign sync else w
  let gQ := quantile w.mem.value
  let gF := fraction w.mem.value
  let w := ((w.zero oF).back gF).step oF
  ((w.zero o).back gQ).step o

/-- `DDPGPolicy._mse_optimizer`, `modelfree/ddpg.py` 188-196. -/
def mseOptimizer (loss : Loss) (o : Optimizer S) (w : World S) : World S :=
  let g := loss w.mem.value
  ((w.zero o).back g).step o

/-- `DDPGPolicy.learn`, `modelfree/ddpg.py` 199-208. -/
def ddpgLearn (sync : (Nat → ℝ) → Nat → ℝ) (critic actor : Loss) (oC oA : Optimizer S) (w : World S) : World S :=
  let w := mseOptimizer critic oC w
  let g := actor w.mem.value
  let w := ((w.zero oA).back g).step oA
  w.assign sync

/-- `TD3Policy.learn`, `modelfree/td3.py` 143-158, and `TD3BCPolicy.learn`, `imitation/td3_bc.py` 107-125; `due`: the actor is updated in this
call. -/
def td3Learn (due : Bool) (sync : (Nat → ℝ) → Nat → ℝ) (critic critic2 actor : Loss) (oC oC2 oA : Optimizer S) (w : World S) : World S :=
  let w := mseOptimizer critic oC w
  let w := mseOptimizer critic2 oC2 w
  if due then
    let g := actor w.mem.value
    let w := ((w.zero oA).back g).step oA
    w.assign sync
  else w

/-- `REDQPolicy.learn`, `modelfree/redq.py` 195-227, with a fixed `alpha` (otherwise there is an error, C103); `due`: the actor is updated in
this call. -/
def redqLearn (due : Bool) (sync : (Nat → ℝ) → Nat → ℝ) (critic actor : Loss) (oC oA : Optimizer S) (w : World S) : World S :=
  let g := critic w.mem.value
  let w := ((w.zero oC).back g).step oC
  let w :=
    if due then
      let g := actor w.mem.value
      ((w.zero oA).back g).step oA
    else w
  w.assign sync

/-- `SACPolicy.learn`, `modelfree/sac.py` 226-254, and `DiscreteSACPolicy.learn`, `modelfree/discrete_sac.py` 130-174; `auto`: `alpha` is
tuned, with the log-probabilities (or entropies) from the evaluation for the actor's loss. -/
def sacLearn (auto : Bool) (sync : (Nat → ℝ) → Nat → ℝ) (critic critic2 actor alpha : Loss) (oC oC2 oA oAl : Optimizer S) (w : World S) :
    World S :=
  let w := mseOptimizer critic oC w
  let w := mseOptimizer critic2 oC2 w
  let gA := actor w.mem.value
  let gAl := alpha w.mem.value
  let w := ((w.zero oA).back gA).step oA
  let w := if auto then ((w.zero oAl).back gAl).step oAl else w
  w.assign sync

/-- `CQLPolicy.learn`, `imitation/cql.py` 250-392: `auto`, `lagrange`: `alpha`, `cql_alpha` are tuned; `psC`, `psC2` are the parameters of the
critics and `c` is `clip_grad`. The losses of the critics and of `cql_alpha` come from one evaluation of the networks. -/
noncomputable def cqlLearn (auto lagrange : Bool) (psC psC2 : List Nat) (c : ℝ) (sync : (Nat → ℝ) → Nat → ℝ)
    (actor alpha cqlAlpha critic critic2 : Loss) (oA oAl oL oC oC2 : Optimizer S) (w : World S) : World S :=
  let gA := actor w.mem.value
  let gAl := alpha w.mem.value
  let w := ((w.zero oA).back gA).step oA
  let w := if auto then ((w.zero oAl).back gAl).step oAl else w
  let gC := critic w.mem.value
  let gC2 := critic2 w.mem.value
  let gL := cqlAlpha w.mem.value
  let w := if lagrange then ((w.zero oL).back gL).step oL else w
  let w := (((w.zero oC).back gC).clip psC c).step oC
  let w := (((w.zero oC2).back gC2).clip psC2 c).step oC2
  w.assign sync

/-- `BCQPolicy.learn`, `imitation/bcq.py` 157-228. -/
def bcqLearn (sync : (Nat → ℝ) → Nat → ℝ) (vae critic critic2 actor : Loss) (oV oC oC2 oA : Optimizer S) (w : World S) : World S :=
  let gV := vae w.mem.value
  let w := ((w.zero oV).back gV).step oV
  let gC := critic w.mem.value
  let gC2 := critic2 w.mem.value
  let w := (w.zero oC).zero oC2
  let w := (w.back gC).back gC2
  let w := (w.step oC).step oC2
  let gA := actor w.mem.value
  let w := ((w.zero oA).back gA).step oA
  w.assign sync

/-- `GAILPolicy.learn`, `imitation/gail.py` 169-188: steps of the discriminator, one for each part of the batch, then `learn` of PPO. -/
noncomputable def gailLearn (discs : List Loss) (oD : Optimizer S) (ps : List Nat) (maxNorm : Option ℝ)
    (epochs : List ((Nat → ℝ) → List Loss)) (o : Optimizer S) (w : World S) : World S :=
  a2cLearn ps maxNorm epochs o (discs.foldl (fun w l => mseOptimizer l oD w) w)

/-- `ICMPolicy`, `modelbased/icm.py` 134-136 and 153-169: the model is evaluated in `process_fn`, the policy inside learns (`inner`), then the
model does. -/
def icmLearn (inner : World S → World S) (model : Loss) (o : Optimizer S) (w : World S) : World S :=
  let g := model w.mem.value
  let w := inner w
  ((w.zero o).back g).step o

end Verif.Learn
