import Mathlib.Data.Rat.Floor
import Mathlib.Algebra.Order.Floor.Ring
import Verif.Model.Batch

/-!
Model of the trainers in `tianshou/trainer/base.py` and of `test_episode` in `tianshou/trainer/utils.py`.

Simplifications. Whatever the collectors, the policy, the environments, the logger and the user's `train_fn` and `test_fn` do is a
state machine on an arbitrary type of worlds (`Outside`), so a collection or an update may give another result each time; these
calls do not raise. `stop_fn`, `compute_score_fn` and `reward_metric` are functions of their argument, `save_best_fn` and
`save_checkpoint_fn` do not change anything. Numbers are not rounded, NaN does not occur. Not modelled: times,
progress bars, printing, moving averages of the losses, `last_rew`, `last_len`, and logging other than the checkpoints.
-/

namespace Verif.Trainer

/-- The statistics of a collection; `returns` stands for `returns` and the statistics computed from it. -/
structure CStats (V : Type) where
  steps : Nat
  episodes : Nat
  returns : V
deriving DecidableEq, Repr

/-- Everything the trainer calls. The argument `training` is the value of `policy.is_within_training_step` during the call; epoch and
environment step are given to `train_fn` and `test_fn`. -/
structure Outside (ω V F P : Type) where
  /-- `train_fn` and `train_collector.collect`, lines 496-501. -/
  collect : (training : Bool) → (epoch : Nat) → (envStep : Int) → ω → ω × CStats V
  /-- `collector.reset`, `test_fn` and `collector.collect`, `utils.py` lines 27-30. -/
  test : (training : Bool) → (epoch : Nat) → (envStep : Int) → ω → ω × CStats V
  /-- `policy.update`. -/
  update : (training : Bool) → ω → ω
  /-- `train_collector.reset_buffer(keep_statistics=True)`. -/
  resetBuffer : ω → ω
  /-- Lines 257-261. -/
  resetCollectors : (buffer : Bool) → ω → ω
  /-- The length of the buffer of the training collector, or of the given buffer. -/
  bufLen : ω → Nat
  /-- `train_collector.buffer.hasnull()`. -/
  hasNull : ω → Bool
  /-- What `save_best_fn` is given. -/
  policy : ω → P
  /-- `logger.restore_data()`. -/
  restore : ω → Nat × Int × Nat
  /-- `returns_stat.mean` and `returns_stat.std`. -/
  mean : V → F
  std : V → F

/-- The three trainers. -/
inductive Kind
  | offline
  | offpolicy (updatePerStep : ℚ)
  | onpolicy
deriving DecidableEq

/-- The arguments of the constructor, lines 152-178. `samePolicy`: the policy of the training collector is the trainer's. -/
structure Cfg (ω V F P : Type) where
  out : Outside ω V F P
  kind : Kind
  maxEpoch : Int
  stepPerEpoch : Int
  batchSize : Option Int
  episodePerTest : Option Int
  hasTrain : Bool
  hasTest : Bool
  hasBuffer : Bool
  testAsync : Bool
  samePolicy : Bool
  stopFn : Option (F → Bool)
  scoreFn : Option (CStats V → F)
  rewardMetric : Option (V → V)
  saveBest : Bool
  resume : Bool

/-- The exceptions: `AssertionError`, `ValueError`, `MalformedBufferError`, `UnboundLocalError`. -/
inductive Err
  | assertion
  | value
  | malformed
  | unbound
deriving DecidableEq, Repr

/-- From where a test was made: `reset`, the end of an epoch, or the check for an early stop. -/
inductive Why
  | initial
  | epochEnd
  | early
deriving DecidableEq, Repr

/-- What the trainer does to the outside. `training` is `policy.is_within_training_step` at that time; the statistics of a collection
or test are those after the reward metric was applied (if it was). -/
inductive Ev (V F P : Type)
  | resetCollectors (buffer : Bool)
  | collect (training : Bool) (epoch : Nat) (envStep : Int) (stats : CStats V)
  | update (training : Bool)
  | test (why : Why) (training : Bool) (epoch : Nat) (envStep : Int) (raw stats : CStats V) (score : F) (policy : P)
  | saveBest (policy : P)
  | checkpoint (epoch : Nat) (envStep : Int) (gradientStep : Int)
deriving DecidableEq, Repr

/-- A trainer, lines 179-245. `within` is `policy.is_within_training_step`; `log` records what was done. -/
structure T (ω V F P : Type) where
  world : ω
  bestScore : F
  bestReward : F
  bestStd : F
  bestEpoch : Nat
  startEpoch : Nat
  gradientStep : Int
  envStep : Int
  envEpisode : Nat
  testInTrain : Bool
  epoch : Nat
  stopFlag : Bool
  iterNum : Nat
  within : Bool
  log : List (Ev V F P)

variable {ω V F P : Type}

/-- A trainer as constructed, lines 179-245. -/
def init [Zero F] (testInTrain : Bool) (w : ω) : T ω V F P :=
  { world := w
    bestScore := 0
    bestReward := 0
    bestStd := 0
    bestEpoch := 0
    startEpoch := 0
    gradientStep := 0
    envStep := 0
    envEpisode := 0
    testInTrain := testInTrain
    epoch := 0
    stopFlag := false
    iterNum := 0
    within := false
    log := [] }

/-- Lines 222-229: `compute_score_fn`. -/
def Cfg.score (c : Cfg ω V F P) (s : CStats V) : F :=
  match c.scoreFn with
  | none => c.out.mean s.returns
  | some f => f s

/-- `reward_metric`, if one is given. -/
def Cfg.metric (c : Cfg ω V F P) (s : CStats V) : CStats V :=
  match c.rewardMetric with
  | none => s
  | some f => { s with returns := f s.returns }

/-- `self.stop_fn and self.stop_fn(x)`. -/
def Cfg.accepts (c : Cfg ω V F P) (x : F) : Bool :=
  match c.stopFn with
  | none => false
  | some f => f x

/-- `test_episode`, `utils.py` lines 17-38. -/
def testEpisode (c : Cfg ω V F P) (why : Why) (epoch : Nat) (withMetric : Bool) (t : T ω V F P) :
    T ω V F P × Except Err (CStats V) :=
  let r := c.out.test t.within epoch t.envStep t.world
  let s := if withMetric then c.metric r.2 else r.2
  let t := { t with
    world := r.1
    log := t.log ++ [.test why t.within epoch t.envStep r.2 s (c.score s) (c.out.policy r.1)] }
  if 0 < r.2.episodes then (t, .ok s) else (t, .error .assertion)

/-- Calls of `save_best_fn`. -/
def callSaveBest (c : Cfg ω V F P) (t : T ω V F P) : T ω V F P :=
  if c.saveBest then { t with log := t.log ++ [.saveBest (c.out.policy t.world)] } else t

/-- Lines 265-272 of `reset`. -/
def resetCounters (c : Cfg ω V F P) (t : T ω V F P) : T ω V F P :=
  let t := { t with envStep := 0 }
  if c.resume then
    let r := c.out.restore t.world
    { t with startEpoch := r.1, envStep := r.2.1, gradientStep := r.2.2 }
  else t

/-- Lines 277-283 of `reset`. -/
def resetOutside (c : Cfg ω V F P) (resetCollectors resetBuffer : Bool) (t : T ω V F P) : T ω V F P :=
  let t :=
    if resetCollectors then
      { t with world := c.out.resetCollectors resetBuffer t.world, log := t.log ++ [.resetCollectors resetBuffer] }
    else t
  if c.hasTrain && (!c.samePolicy || !c.hasTest) then { t with testInTrain := false } else t

/-- Lines 304-309 of `reset`. -/
def resetFinish (c : Cfg ω V F P) (t : T ω V F P) : T ω V F P :=
  let t := callSaveBest c t
  { t with epoch := t.startEpoch, stopFlag := false, iterNum := 0 }

/-- `reset`, lines 263-309. -/
def reset (c : Cfg ω V F P) (resetCollectors resetBuffer : Bool) (t : T ω V F P) : T ω V F P × Except Err Unit :=
  let t := resetOutside c resetCollectors resetBuffer (resetCounters c t)
  if c.hasTest then
    if c.episodePerTest.isNone || c.testAsync then (t, .error .assertion)
    else
      match testEpisode c .initial t.startEpoch true t with
      | (t, .error e) => (t, .error e)
      | (t, .ok s) =>
        (resetFinish c { t with
          bestEpoch := t.startEpoch
          bestReward := c.out.mean s.returns
          bestStd := c.out.std s.returns
          bestScore := c.score s }, .ok ())
  else (resetFinish c t, .ok ())

/-- Python's `round` to an integer: to the nearest one, and to the even one of two nearest. -/
def pyRound (x : ℚ) : Int :=
  let f := ⌊x⌋
  if x - f < 1 / 2 then f
  else if 1 / 2 < x - f then f + 1
  else if f % 2 = 0 then f else f + 1

/-- `_sample_and_update`, lines 645-653. -/
def sampleAndUpdate (c : Cfg ω V F P) (t : T ω V F P) : T ω V F P :=
  { t with
    gradientStep := t.gradientStep + 1
    world := c.out.update t.within t.world
    log := t.log ++ [.update t.within] }

/-- The loop of lines 709-716. -/
def sampleLoop (c : Cfg ω V F P) : Nat → T ω V F P → T ω V F P
  | 0, t => t
  | n + 1, t => sampleLoop c n (sampleAndUpdate c t)

/-- Lines 758-762: by how much the on-policy trainer increases its counter, for a buffer of the given length. -/
def onpolicySteps (batchSize : Option Int) (len : Nat) : Int :=
  match batchSize with
  | none => 2
  | some b => if 0 < b then 1 + ⌊((len : ℚ) - 1 / 10) / b⌋ else 1

/-- `tianshou/policy/modelfree/pg.py` lines 218-221 (and the same in `a2c.py` 169-171 and `ppo.py` 178-183): the number of optimizer steps
`learn` makes on a batch of the given length. How the rows are shuffled does not matter for their number. -/
def learnSteps (batchSize : Option Int) (repetitions len : Nat) : Except Batch.Err Nat :=
  let size := match batchSize with
    | none => -1
    | some b => if b = 0 then -1 else b
  (Batch.split len size (List.range len) true).map fun parts => repetitions * parts.length

/-- `policy_update_fn` of the three trainers, lines 666-675, 690-718 and 732-778. -/
def policyUpdate (c : Cfg ω V F P) (steps : Nat) (t : T ω V F P) : T ω V F P × Except Err Unit :=
  match c.kind with
  | .offline =>
    if c.hasBuffer && 0 < c.out.bufLen t.world then (sampleAndUpdate c t, .ok ()) else (t, .error .assertion)
  | .offpolicy ratio =>
    if !c.hasTrain then (t, .error .assertion)
    else
      let n := pyRound (ratio * steps)
      if n = 0 then (t, .error .value)
      else if n < 0 then (t, .error .unbound)
      else (sampleLoop c n.toNat t, .ok ())
  | .onpolicy =>
    if !c.hasTrain then (t, .error .assertion)
    else
      let w := c.out.update t.within t.world
      ({ t with
        gradientStep := t.gradientStep + onpolicySteps c.batchSize (c.out.bufLen w)
        world := c.out.resetBuffer w
        log := t.log ++ [.update t.within] }, .ok ())

/-- `_collect_training_data`, lines 489-529. -/
def collectTrain (c : Cfg ω V F P) (t : T ω V F P) : T ω V F P × Except Err (CStats V) :=
  if c.episodePerTest.isNone then (t, .error .assertion)
  else
    let r := c.out.collect t.within t.epoch t.envStep t.world
    let s := if 0 < r.2.episodes then c.metric r.2 else r.2
    let t := { t with world := r.1, log := t.log ++ [.collect t.within t.epoch t.envStep s] }
    if c.out.hasNull r.1 then (t, .error .malformed)
    else ({ t with envStep := t.envStep + s.steps, envEpisode := t.envEpisode + s.episodes }, .ok s)

/-- Line 558: `self.episode_per_test is not None and self.episode_per_test > 0`. -/
def Cfg.testsEpisodes (c : Cfg ω V F P) : Bool :=
  match c.episodePerTest with
  | none => false
  | some n => 0 < n

/-- Lines 551-572 inside the `with` statement. -/
def earlyTest (c : Cfg ω V F P) (s : CStats V) (t : T ω V F P) : T ω V F P × Except Err Bool :=
  if 0 < s.episodes && t.testInTrain && c.accepts (c.out.mean s.returns) then
    if !c.hasTest then (t, .error .assertion)
    else if !c.testsEpisodes then (t, .error .assertion)
    else
      match testEpisode c .early t.epoch false t with
      | (t, .error e) => (t, .error e)
      | (t, .ok r) =>
        if c.accepts (c.out.mean r.returns) then
          ({ t with bestReward := c.out.mean r.returns, bestStd := c.out.std r.returns, bestScore := c.score r }, .ok true)
        else (t, .ok false)
  else (t, .ok false)

/-- `policy_within_training_step`, `tianshou/utils/torch_utils.py` lines 25-43: the flag is restored however the body ends. -/
def withFlag {α : Type} (enabled : Bool) (body : T ω V F P → T ω V F P × Except Err α) (t : T ω V F P) :
    T ω V F P × Except Err α :=
  let r := body { t with within := enabled }
  ({ r.1 with within := t.within }, r.2)

/-- `training_step` inside the `with` statement, lines 468-487. The result: the statistics if there is a training collector, and
whether to stop. -/
def trainingBody (c : Cfg ω V F P) (t : T ω V F P) : T ω V F P × Except Err (Option (CStats V) × Bool) :=
  if c.hasTrain then
    match collectTrain c t with
    | (t, .error e) => (t, .error e)
    | (t, .ok s) =>
      match withFlag false (earlyTest c s) t with
      | (t, .error e) => (t, .error e)
      | (t, .ok true) => (t, .ok (some s, true))
      | (t, .ok false) =>
        match policyUpdate c s.steps t with
        | (t, .error e) => (t, .error e)
        | (t, .ok ()) => (t, .ok (some s, false))
  else if !c.hasBuffer then (t, .error .assertion)
  else
    match policyUpdate c 0 t with
    | (t, .error e) => (t, .error e)
    | (t, .ok ()) => (t, .ok (none, false))

/-- `training_step`, lines 458-487. -/
def trainingStep (c : Cfg ω V F P) (t : T ω V F P) : T ω V F P × Except Err (Option (CStats V) × Bool) :=
  withFlag true (trainingBody c) t

/-- The loop of lines 333-370, for at most `fuel` rounds. The result says whether there was a round. -/
def trainLoop (c : Cfg ω V F P) : Nat → Int → Bool → T ω V F P → Option (T ω V F P × Except Err Bool)
  | 0, _, _, _ => none
  | fuel + 1, steps, ran, t =>
    if steps < c.stepPerEpoch ∧ t.stopFlag = false then
      match trainingStep c t with
      | (t, .error e) => some (t, .error e)
      | (t, .ok (some s, stop)) =>
        if stop then some ({ t with stopFlag := stop }, .ok true)
        else trainLoop c fuel (steps + s.steps) true { t with stopFlag := stop }
      | (t, .ok (none, stop)) =>
        if c.out.bufLen t.world = 0 then some ({ t with stopFlag := stop }, .error .assertion)
        else trainLoop c fuel (steps + 1) true { t with stopFlag := stop }
    else some (t, .ok ran)

/-- Lines 433-440 of `test_step`. -/
def updateBest [LT F] [DecidableRel (α := F) (· < ·)] (c : Cfg ω V F P) (s : CStats V) (t : T ω V F P) : T ω V F P :=
  if t.bestScore < c.score s then
    callSaveBest c { t with
      bestScore := c.score s
      bestEpoch := t.epoch
      bestReward := c.out.mean s.returns
      bestStd := c.out.std s.returns }
  else t

/-- `test_step`, lines 417-456. (`best_epoch` is never negative.) -/
def testStep [LT F] [DecidableRel (α := F) (· < ·)] (c : Cfg ω V F P) (t : T ω V F P) :
    T ω V F P × Except Err (CStats V × Bool) :=
  if c.episodePerTest.isNone then (t, .error .assertion)
  else
    match testEpisode c .epochEnd t.epoch true t with
    | (t, .error e) => (t, .error e)
    | (t, .ok s) =>
      let t := updateBest c s t
      (t, .ok (s, c.accepts t.bestReward))

/-- `EpochStats`, lines 409-415, as far as it is determined by the trainer; `trace` is what was done in the epoch. -/
structure EpochStats (V F P : Type) where
  epoch : Nat
  testStat : Option (CStats V)
  gradientStep : Int
  bestScore : F
  bestReward : F
  bestStd : F
  trace : List (Ev V F P)

/-- Lines 378-381: for offline training, the number of samples used so far. -/
def offlineStep (c : Cfg ω V F P) (t : T ω V F P) : T ω V F P :=
  let b : Int := match c.batchSize with
    | none => c.out.bufLen t.world
    | some b => if b = 0 then c.out.bufLen t.world else b
  { t with envStep := t.gradientStep * b }

/-- Lines 383-393. -/
def evaluate [LT F] [DecidableRel (α := F) (· < ·)] (c : Cfg ω V F P) (t : T ω V F P) :
    T ω V F P × Except Err (Option (CStats V)) :=
  if t.stopFlag then (t, .ok none)
  else
    let t := { t with log := t.log ++ [.checkpoint t.epoch t.envStep t.gradientStep] }
    if c.hasTest then
      match testStep c t with
      | (t, .error e) => (t, .error e)
      | (t, .ok (s, stop)) => ({ t with stopFlag := stop }, .ok (some s))
    else (t, .ok none)

/-- Lines 377-415, after the loop. -/
def finishEpoch [LT F] [DecidableRel (α := F) (· < ·)] (c : Cfg ω V F P) (from_ : Nat) (ran : Bool) (t : T ω V F P) :
    T ω V F P × Except Err (EpochStats V F P) :=
  if !c.hasTrain && !c.hasBuffer then (t, .error .assertion)
  else
    match evaluate c (if c.hasTrain then t else offlineStep c t) with
    | (t, .error e) => (t, .error e)
    | (t, .ok s) =>
      if ran then
        (t, .ok
          { epoch := t.epoch
            testStat := s
            gradientStep := t.gradientStep
            bestScore := t.bestScore
            bestReward := t.bestReward
            bestStd := t.bestStd
            trace := t.log.drop from_ })
      else (t, .error .unbound)

/-- `__next__`, lines 315-415; `.ok none` is `StopIteration`. -/
def next [LT F] [DecidableRel (α := F) (· < ·)] (c : Cfg ω V F P) (fuel : Nat) (t : T ω V F P) :
    Option (T ω V F P × Except Err (Option (EpochStats V F P))) :=
  let t := { t with epoch := t.epoch + 1, iterNum := t.iterNum + 1 }
  if 1 < t.iterNum ∧ (c.maxEpoch < t.epoch ∨ t.stopFlag = true) then some (t, .ok none)
  else
    match trainLoop c fuel 0 false t with
    | none => none
    | some (t', .error e) => some (t', .error e)
    | some (t', .ok ran) =>
      match finishEpoch c t.log.length ran t' with
      | (t', .error e) => some (t', .error e)
      | (t', .ok y) => some (t', .ok (some y))

/-- Consuming the iterator, for at most `n` calls of `__next__`. -/
def drain [LT F] [DecidableRel (α := F) (· < ·)] (c : Cfg ω V F P) (fuel : Nat) :
    Nat → T ω V F P → Option (T ω V F P × Except Err (List (EpochStats V F P)))
  | 0, _ => none
  | n + 1, t =>
    match next c fuel t with
    | none => none
    | some (t, .error e) => some (t, .error e)
    | some (t, .ok none) => some (t, .ok [])
    | some (t, .ok (some y)) =>
      match drain c fuel n t with
      | none => none
      | some (t, .error e) => some (t, .error e)
      | some (t, .ok ys) => some (t, .ok (y :: ys))

/-- A `for` loop over the trainer: `__iter__` (lines 311-313) and `__next__`. -/
def iterate [LT F] [DecidableRel (α := F) (· < ·)] (c : Cfg ω V F P) (fuel n : Nat) (t : T ω V F P) :
    Option (T ω V F P × Except Err (List (EpochStats V F P))) :=
  match reset c true false t with
  | (t, .error e) => some (t, .error e)
  | (t, .ok ()) => drain c fuel n t

/-- `run`, lines 614-643. -/
def run [LT F] [DecidableRel (α := F) (· < ·)] (c : Cfg ω V F P) (resetPrior resetBuffer : Bool) (fuel n : Nat)
    (t : T ω V F P) : Option (T ω V F P × Except Err (List (EpochStats V F P))) :=
  if resetPrior then
    match reset c true resetBuffer t with
    | (t, .error e) => some (t, .error e)
    | (t, .ok ()) => iterate c fuel n t
  else iterate c fuel n t

end Verif.Trainer
