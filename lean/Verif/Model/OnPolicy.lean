import Verif.Model.Returns
import Verif.Model.Stats
import Verif.Model.Batch
import Mathlib.Analysis.Real.Sqrt

/-!
Model of the preparation of data for learning in `tianshou/policy/modelfree/pg.py`, `a2c.py`, `ppo.py` and `npg.py`, and of the loop over
repetitions and minibatches of `PPOPolicy.learn`.

Simplifications. Numbers are real. Networks are functions of the rows they are given; buffers are given by what is read from them
(`Returns.View`). Conversions between arrays and tensors are left out.
-/

namespace Verif.OnPolicy

open Verif.Returns Verif.Stats

variable {O A P X : Type}

/-- A row of the batch. -/
structure Row (O A : Type) where
  step : BRow ℝ
  obs : O
  obsNext : O
  act : A

/-- The parameters of the policy: `discount_factor`, `gae_lambda`, `reward_normalization`, `max_batchsize`, and `_eps` (`1e-8`, pg.py 125);
`isClose` is the outcome of `np.isclose(gae_lambda, 1.0)`. -/
structure Cfg where
  gamma : ℝ
  lam : ℝ
  rewNorm : Bool
  maxBatch : Int
  eps : ℝ
  isClose : Bool

/-- The loops over `batch.split(self.max_batchsize, shuffle=False, merge_last=True)` with `torch.cat` (a2c.py 124-130, ppo.py 160-163, npg.py
117-120): a network is evaluated on the minibatches and the outcomes are put one after the other. `none` is an exception: a
size that is not allowed, or nothing to concatenate. -/
def inParts (maxBatch : Int) (net : List X → List A) (rows : List X) : Option (List A) :=
  match Batch.split rows.length maxBatch (List.range rows.length) true with
  | .error _ => none
  | .ok [] => none
  | .ok parts => some (parts.map fun p => net (p.filterMap fun i => rows[i]?)).flatten

/-- `np.sqrt(self.ret_rms.var + self._eps)`. -/
noncomputable def scale (c : Cfg) (rms : RMS Unit ℝ) : ℝ := Real.sqrt (rms.var () + c.eps)

/-- What `_compute_returns` adds to the batch: `v_s`, `returns`, `adv`. -/
structure Prepared where
  v : List ℝ
  returns : List ℝ
  adv : List ℝ

/-- `_compute_returns`, a2c.py 118-156, with the statistics of the returns afterwards. -/
noncomputable def computeReturns (c : Cfg) (critic : List O → List ℝ) (w : View ℝ) (rows : List (Row O A)) (indices : List Nat)
    (rms : RMS Unit ℝ) : Option (Prepared × RMS Unit ℝ) :=
  (inParts c.maxBatch critic (rows.map Row.obs)).bind fun v =>
    (inParts c.maxBatch critic (rows.map Row.obsNext)).bind fun v' =>
      let vs := if c.rewNorm then v.map (· * scale c rms) else v
      let vs' := if c.rewNorm then v'.map (· * scale c rms) else v'
      (computeEpisodicReturn w (rows.map Row.step) indices (some vs') (some vs) c.gamma c.lam c.isClose).map fun r =>
        if c.rewNorm then (⟨v, r.1.map (· / scale c rms), r.2⟩, rms.update (r.1.map fun x _ => x))
        else (⟨v, r.1, r.2⟩, rms)

/-- `PGPolicy.process_fn`, pg.py 128-176: the returns, and the statistics afterwards. -/
noncomputable def pgReturns (c : Cfg) (w : View ℝ) (steps : List (BRow ℝ)) (indices : List Nat) (rms : RMS Unit ℝ) :
    Option (List ℝ × RMS Unit ℝ) :=
  (computeEpisodicReturn w steps indices (some (indices.map fun _ => rms.mean ())) none c.gamma 1 true).map fun r =>
    if c.rewNorm then (r.1.map fun x => (x - rms.mean ()) / scale c rms, rms.update (r.1.map fun x _ => x))
    else (r.1, rms)

/-- A minibatch row of `PPOPolicy.learn`, with `logp_old`. -/
structure Used (O A : Type) where
  row : Row O A
  v : ℝ
  ret : ℝ
  adv : ℝ
  logp : ℝ

/-- The rows of a minibatch, `batch[indices]`: entries of the arrays at the given positions. -/
def pick (rows : List (Row O A)) (p : Prepared) (logp : List ℝ) (idx : List Nat) : List (Used O A) :=
  idx.filterMap fun i =>
    match rows[i]?, p.v[i]?, p.returns[i]?, p.adv[i]?, logp[i]? with
    | some r, some v, some ret, some adv, some l => some ⟨r, v, ret, adv, l⟩
    | _, _, _, _, _ => none

/-- The state of a policy: parameters of the networks (with the state of the optimizer) and the statistics of returns. -/
structure St (P : Type) where
  net : P
  rms : RMS Unit ℝ

/-- `PPOPolicy.process_fn`, ppo.py 149-166. `critic` and `logProb` are the networks with given parameters; `logProb` gives all log-probabilities
of a minibatch, row after row (the tensors are flattened). -/
noncomputable def process (c : Cfg) (critic : P → List O → List ℝ) (logProb : P → List (Row O A) → List ℝ) (w : View ℝ) (rows : List (Row O A))
    (indices : List Nat) (s : St P) : Option (Prepared × List ℝ × St P) :=
  (computeReturns c (critic s.net) w rows indices s.rms).bind fun r =>
    (inParts c.maxBatch (logProb s.net) rows).map fun l => (r.1, l, { s with rms := r.2 })

/-- What a repetition has used: the state at its start (before recomputing), and its minibatches. -/
structure Repeat (O A P : Type) where
  start : St P
  minibatches : List (List (Used O A))

/-- The loop over minibatches, ppo.py 183-227: `train` is one optimizer step. -/
def minibatchLoop (train : P → List (Used O A) → P) (net : P) : List (List (Used O A)) → P
  | [] => net
  | m :: ms => minibatchLoop train (train net m) ms

/-- The loop over repetitions, ppo.py 178-231, from repetition `step` on; `perms` are the random permutations. `batchSize` is `batch_size`, where
`None` and 0 stand for the whole batch. The result: the repetitions, and the state at the end. -/
noncomputable def learnLoop (c : Cfg) (recompute : Bool) (critic : P → List O → List ℝ) (train : P → List (Used O A) → P) (w : View ℝ)
    (rows : List (Row O A)) (indices : List Nat) (logp : List ℝ) (batchSize : Int) :
    Nat → List (List Nat) → Prepared → St P → Option (List (Repeat O A P) × St P)
  | _, [], _, s => some ([], s)
  | step, perm :: perms, p, s =>
    (if recompute ∧ 0 < step then computeReturns c (critic s.net) w rows indices s.rms else some (p, s.rms)).bind fun r =>
      match Batch.split rows.length (if batchSize = 0 then -1 else batchSize) perm true with
      | .error _ => none
      | .ok parts =>
        let ms := parts.map (pick rows r.1 logp)
        (learnLoop c recompute critic train w rows indices logp batchSize (step + 1) perms r.1
          ⟨minibatchLoop train s.net ms, r.2⟩).map fun x => (⟨s, ms⟩ :: x.1, x.2)

/-- An update: `process_fn` and `learn`. -/
noncomputable def update (c : Cfg) (recompute : Bool) (critic : P → List O → List ℝ) (logProb : P → List (Row O A) → List ℝ)
    (train : P → List (Used O A) → P) (w : View ℝ) (rows : List (Row O A)) (indices : List Nat) (batchSize : Int) (perms : List (List Nat))
    (s : St P) : Option (List (Repeat O A P) × St P) :=
  (process c critic logProb w rows indices s).bind fun r =>
    learnLoop c recompute critic train w rows indices r.2.1 batchSize 0 perms r.1 r.2.2

/-- Entry `j` of `logp - logp_old` for one row of `logp` (broadcasting of a tensor with `rows × width` entries and one with `rows` entries, which is
taken for a single row): one column is repeated, and so is a single old entry. -/
def logRatioAt (new old : List ℝ) (j : Nat) : Option ℝ :=
  match (if new.length = 1 then new[0]? else new[j]?), (if old.length = 1 then old[0]? else old[j]?) with
  | some a, some b => some (a - b)
  | _, _ => none

/-- `dist.log_prob(minibatch.act) - minibatch.logp_old`, ppo.py 191, for a distribution with one log-probability per row (`inl`) or one for each
component of the action (`inr`, e.g. `Normal` without `Independent`); `old` is `logp_old` of the minibatch, with one entry per row.
`none` is the error for tensors that do not fit. -/
def logRatios (new : List ℝ ⊕ List (List ℝ)) (old : List ℝ) : Option (List (List ℝ)) :=
  match new with
  | .inl l => if l.length = old.length then some (List.zipWith (fun a b => [a - b]) l old) else none
  | .inr ls => ls.mapM fun l =>
    if l.length = old.length ∨ l.length = 1 ∨ old.length = 1 then
      (List.range (max l.length old.length)).mapM (logRatioAt l old)
    else none

end Verif.OnPolicy
