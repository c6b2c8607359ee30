import Verif.Model.Factories
import Verif.Model.Collector
import Verif.Model.Ppo
import Verif.Props.NetOut
import Mathlib.Analysis.SpecialFunctions.Log.Basic
import Mathlib.Analysis.SpecialFunctions.Log.NegMulLog
import Mathlib.Tactic.Linarith
import Mathlib.Tactic.FieldSimp
import Mathlib.Tactic.Ring

/-!
# Properties C160-C164, C166 and C167: factories of the high-level interface
-/

set_option linter.unusedSectionVars false

namespace Verif.Factories

/-! ### C160: networks of the default factories -/

section

variable {A : Type}

/-- The hidden sizes of an actor network. -/
def ActorNet.hidden : ActorNet A → List Nat
  | .deterministic h _ | .gaussian h _ _ _ | .discrete h _ _ => h

/-- The activation function of the hidden layers of an actor network. -/
def ActorNet.activation : ActorNet A → A
  | .deterministic _ a | .gaussian _ a _ _ | .discrete _ a _ => a

/-- C160 for actors: the network made has the hidden sizes and the activation function that were asked for. -/
def C160 (relu : A) (f : ActorDefault A) (env : EnvType) : Prop :=
  ∀ n, f.create relu env = .ok n → n.hidden = f.hidden ∧ n.activation = f.activation

/-- C160 for continuous actions: the network is of the type asked for and has the sizes, the activation and the options that were given; algorithms
that do not support continuous actions raise an error. Missing: discrete actions, see `C160_violated`. -/
theorem C160_continuous_partial (relu : A) (f : ActorDefault A) :
    C160 relu f .continuous ∧ (f.actorType = .unsupported ↔ f.create relu .continuous = .error .value) ∧
    (∀ n, f.create relu .continuous = .ok n →
      (f.actorType = .gaussian ∧ n = .gaussian f.hidden f.activation f.unbounded f.conditionedSigma) ∨
      (f.actorType = .deterministic ∧ n = .deterministic f.hidden f.activation)) := by
  obtain ⟨t, h, a, u, c, s⟩ := f
  refine ⟨?_, ?_, ?_⟩
  · intro n hn
    cases t <;> simp only [ActorDefault.create, Except.ok.injEq, reduceCtorEq] at hn <;> subst hn <;> exact ⟨rfl, rfl⟩
  · cases t <;> simp [ActorDefault.create]
  · intro n hn
    cases t <;> simp only [ActorDefault.create, Except.ok.injEq, reduceCtorEq] at hn <;> subst hn <;> simp

/-- C160 for critics: they have the sizes and the activation that were given, for continuous and for discrete actions; they take the action as input
only if asked to, and have one output, or one for each action if asked to and the actions are discrete. -/
theorem C160_critic (hidden : List Nat) (activation : A) (env : EnvType) (actions : Nat) (useAction last : Bool) :
    (criticDefault hidden activation env actions useAction last).hidden = hidden ∧
    (criticDefault hidden activation env actions useAction last).activation = activation ∧
    (criticDefault hidden activation env actions useAction last).withAction = useAction ∧
    (criticDefault hidden activation env actions useAction last).out = if env = .discrete ∧ last = true then actions else 1 := by
  cases env <;> cases last <;> simp [criticDefault]

/-- C160 fails for discrete actions, in every algorithm, unless the sizes and the activation are the defaults: what was given is ignored. -/
theorem C160_violated (relu : A) (f : ActorDefault A) (h : f.hidden ≠ [64, 64] ∨ f.activation ≠ relu) : ¬ C160 relu f .discrete := by
  intro hc
  have := hc _ rfl
  rcases h with h | h
  · exact h this.1.symm
  · exact h this.2.symm

/-- C160. The function from outputs of the network to distributions fits the network: there is none for deterministic actors, Gaussians for those with
mean and deviation, and for discrete actions outputs after a softmax are taken as probabilities and others as logits. -/
theorem C160_dist (relu : A) (f : ActorDefault A) (env : EnvType) (n : ActorNet A) (hn : f.create relu env = .ok n) :
    f.distFn relu env = .ok (match n with
      | .deterministic _ _ => none
      | .gaussian _ _ _ _ => some .gaussians
      | .discrete _ _ s => some (if s then .probs else .logits)) := by
  obtain ⟨t, h, a, u, c, s⟩ := f
  cases env <;> cases t <;> simp only [ActorDefault.create, Except.ok.injEq, reduceCtorEq] at hn <;> subst hn <;>
    simp [ActorDefault.distFn, ActorDefault.create, ActorNet.distFn]

/-- A Gaussian actor with two hidden layers, and the same factory for discrete actions. -/
example : (ActorDefault.mk .gaussian [128, 32] "tanh" false true true).create "relu" .continuous = .ok (.gaussian [128, 32] "tanh" false true) ∧
    (ActorDefault.mk .gaussian [128, 32] "tanh" false true true).create "relu" .discrete = .ok (.discrete [64, 64] "relu" true) := by
  decide +kernel

end

/-! ### C161: probabilities of discrete actions -/

section

theorem softmax_sum_one (x : List ℝ) (hx : x ≠ []) : (NetOut.softmax x).sum = 1 := (NetOut.C142_softmax x hx).2.2.1

/-- C161 for the policies with a distribution function (PG, A2C, PPO, NPG, TRPO), for every default actor, with softmax or without: the probabilities of
the actions are the softmax of the outputs of the last layer. -/
theorem C161_policy_partial {A : Type} (relu : A) (f : ActorDefault A) (x : List ℝ) (hx : x ≠ []) : policyProbs relu f x = some (NetOut.softmax x) := by
  obtain ⟨t, h, a, u, c, s⟩ := f
  cases s
  · simp [policyProbs, ActorDefault.create, ActorDefault.distFn, ActorNet.distFn, DistFn.probabilities, actorOut]
  · simp [policyProbs, ActorDefault.create, ActorDefault.distFn, ActorNet.distFn, DistFn.probabilities, actorOut, softmax_sum_one x hx]

/-- C161 for discrete SAC: the probabilities of the actions are the softmax of the outputs of the last layer. -/
def C161 {A : Type} (relu : A) (f : ActorDefault A) (x : List ℝ) : Prop := discreteSacProbs relu f x = some (NetOut.softmax x)

/-- For an actor without softmax, which none of the methods of the builder makes, C161 holds for discrete SAC. -/
theorem C161_logits_partial {A : Type} (relu : A) (f : ActorDefault A) (hf : f.softmax = false) (x : List ℝ) : C161 relu f x := by
  obtain ⟨t, h, a, u, c, s⟩ := f
  subst hf
  rfl

theorem log_sub_lt {a b : ℝ} (ha : 0 < a) (hab : a < b) (hb : b ≤ 1) : b - a < Real.log b - Real.log a := by
  have hb0 : 0 < b := ha.trans hab
  have h1 : Real.log (a / b) < a / b - 1 := Real.log_lt_sub_one_of_pos (div_pos ha hb0) (by rw [Ne, div_eq_one_iff_eq hb0.ne']; exact hab.ne)
  rw [Real.log_div ha.ne' hb0.ne'] at h1
  have h2 : b - a ≤ 1 - a / b := by
    rw [le_sub_iff_add_le, ← sub_nonneg]
    have : 1 - (b - a + a / b) = (b - a) * (1 - b) / b := by field_simp; ring
    rw [this]
    exact div_nonneg (mul_nonneg (by linarith) (by linarith)) hb0.le
  linarith

theorem softmax_mem (x : List ℝ) (hx : x ≠ []) (p : ℝ) (hp : p ∈ NetOut.softmax x) : 0 < p ∧ p ≤ 1 := by
  obtain ⟨_, h2, h3, _⟩ := NetOut.C142_softmax x hx
  refine ⟨h2 p hp, ?_⟩
  rw [← h3]
  exact List.single_le_sum (fun y hy => (h2 y hy).le) p hp

/-- C161 fails for discrete SAC with the actor of the builder for all outputs that are not all the same. Moreover, whatever the weights of the network,
no action can become more than `e` times as likely as another. -/
theorem C161_violated {A : Type} (relu : A) (t : ActorType) (hidden : List Nat) (act : A) (u c : Bool) (x : List ℝ) (hx : x ≠ []) :
    ((∃ a ∈ x, ∃ b ∈ x, a ≠ b) → ¬ C161 relu (builderActor t hidden act u c) x) ∧
    ∃ q, discreteSacProbs relu (builderActor t hidden act u c) x = some q ∧ q.length = x.length ∧ ∀ a ∈ q, ∀ b ∈ q, a ≤ Real.exp 1 * b := by
  have hd : discreteSacProbs relu (builderActor t hidden act u c) x = some (NetOut.softmax (NetOut.softmax x)) := rfl
  have hne : NetOut.softmax x ≠ [] := by
    intro h
    have := (NetOut.C142_softmax x hx).1
    rw [h] at this
    exact hx (List.length_eq_zero_iff.1 this.symm)
  have hs2 : 0 < ((NetOut.softmax x).map Real.exp).sum :=
    NetOut.sum_exp_pos _ hne
  constructor
  · rintro ⟨a, ha, b, hb, hab⟩ hc
    unfold C161 at hc
    rw [hd] at hc
    have hc := Option.some.inj hc
    have hs := NetOut.sum_exp_pos x hx
    have key : ∀ a ∈ x, Real.log (Real.exp a / (x.map Real.exp).sum) - Real.exp a / (x.map Real.exp).sum =
        - Real.log ((NetOut.softmax x).map Real.exp).sum := by
      intro a ha
      have h1 : ∀ y, NetOut.softmax y = y.map fun z => Real.exp z / (y.map Real.exp).sum := fun _ => rfl
      obtain ⟨i, hi, rfl⟩ := List.mem_iff_getElem.1 ha
      have h2 : (NetOut.softmax (NetOut.softmax x))[i]? = (NetOut.softmax x)[i]? := by rw [hc]
      rw [h1 (NetOut.softmax x), List.getElem?_map] at h2
      have h3 : (NetOut.softmax x)[i]? = some (Real.exp x[i] / (x.map Real.exp).sum) := by
        rw [h1 x, List.getElem?_map, List.getElem?_eq_getElem hi]
        rfl
      rw [h3] at h2
      simp only [Option.map_some, Option.some.injEq] at h2
      generalize Real.exp x[i] / (x.map Real.exp).sum = p at h2 ⊢
      generalize ((NetOut.softmax x).map Real.exp).sum = S at h2 hs2 ⊢
      rw [← h2, Real.log_div (Real.exp_pos _).ne' hs2.ne', Real.log_exp, h2]
      ring
    have hmem : ∀ a ∈ x, Real.exp a / (x.map Real.exp).sum ∈ NetOut.softmax x := fun a ha => List.mem_map.2 ⟨a, ha, rfl⟩
    have hlt : ∀ a ∈ x, ∀ b ∈ x, ¬ a < b := by
      intro a ha b hb h
      have h1 : Real.exp a / (x.map Real.exp).sum < Real.exp b / (x.map Real.exp).sum :=
        div_lt_div_of_pos_right (Real.exp_lt_exp.2 h) hs
      have h2 := log_sub_lt (softmax_mem x hx _ (hmem a ha)).1 h1 (softmax_mem x hx _ (hmem b hb)).2
      have h3 := key a ha
      have h4 := key b hb
      linarith
    rcases lt_or_gt_of_ne hab with h | h
    · exact hlt a ha b hb h
    · exact hlt b hb a ha h
  · refine ⟨_, hd, by simp [NetOut.softmax], ?_⟩
    intro a ha b hb
    obtain ⟨p, hp, rfl⟩ := List.mem_map.1 ha
    obtain ⟨q, hq, rfl⟩ := List.mem_map.1 hb
    rw [← mul_div_assoc, ← Real.exp_add]
    refine div_le_div_of_nonneg_right (Real.exp_le_exp.2 ?_) hs2.le
    have h1 := (softmax_mem x hx p hp).2
    have h2 := (softmax_mem x hx q hq).1
    linarith

/-- C161 for one action is not violated, for two different outputs it is. -/
example : ¬ C161 () (builderActor .unsupported [64] () false false) [0, 1000] :=
  (C161_violated () .unsupported [64] () false false [0, 1000] (by simp)).1 ⟨0, by simp, 1000, by simp, by norm_num⟩

end

/-! ### C162: critics that reuse the actor -/

section

/-- C162: actor and critic can be made, and the critic is built on the actor made with it. -/
def C162 (h : Heap) (e : Exp) : Prop := ∃ a, (e.create h).1 = .ok (a, .onActor a)

/-- A builder told to reuse the actor for the critic, after `k` copies, and the memory. -/
def builderAfter (h : Heap) : Nat → Builder × Heap
  | 0 => ((newBuilder h).1.useActor, (newBuilder h).2)
  | k + 1 => (builderAfter h k).1.copy (builderAfter h k).2

theorem builderAfter_fits (h : Heap) (k : Nat) :
    (builderAfter h k).1.reuse = some (builderAfter h k).1.future ∧ (builderAfter h k).1.future < (builderAfter h k).2.futures.length := by
  induction k with
  | zero => simp [builderAfter, newBuilder, Builder.useActor]
  | succ k ih =>
    obtain ⟨h1, h2⟩ := ih
    simp [builderAfter, Builder.copy, h1]

/-- C162 for experiments made by a builder, or by copies of it as in `build_seeded_collection`, and run without having been pickled, whatever happened
between (other experiments made and run, also from the same builder); and the actor is a new one. Missing: pickled experiments, see `C162_violated`. -/
theorem C162_built_partial (h : Heap) (k : Nat) (h' : Heap) (hh : (builderAfter h k).2.futures.length ≤ h'.futures.length) :
    C162 h' (builderAfter h k).1.build ∧ ((builderAfter h k).1.build.create h').1 = .ok (h'.actors, .onActor h'.actors) := by
  obtain ⟨h1, h2⟩ := builderAfter_fits h k
  have : ((builderAfter h k).1.build.create h').1 = .ok (h'.actors, .onActor h'.actors) := by
    have h3 : (builderAfter h k).1.future < h'.futures.length := lt_of_lt_of_le h2 hh
    simp [Builder.build, Exp.create, h1, List.getD_eq_getElem?_getD, h3]
  exact ⟨⟨_, this⟩, this⟩

/-- Without reuse, pickled or not, actor and critic can be made and have nothing in common. -/
theorem C162_own (h : Heap) (e : Exp) (he : e.criticFuture = none) :
    (e.create h).1 = .ok (h.actors, .own) ∧ ((e.pickle h).1.create (e.pickle h).2).1 = .ok ((e.pickle h).2.actors, .own) := by
  constructor
  · simp [Exp.create, he]
  · simp [Exp.pickle, Exp.create, he]

/-- C162 fails for every experiment with reuse that has been pickled, whatever the memory: if the experiment had not been run before it was pickled, an
error is raised; if it had been, the critic is built on a copy of the actor of that run, not on the new actor. -/
theorem C162_violated (h : Heap) (e : Exp) (r : Nat) (he : e.criticFuture = some r) :
    ¬ C162 (e.pickle h).2 (e.pickle h).1 ∧
    (h.futures.getD r none = none → ((e.pickle h).1.create (e.pickle h).2).1 = .error .value) ∧
    ∀ a, h.futures.getD r none = some a → ∃ b c, ((e.pickle h).1.create (e.pickle h).2).1 = .ok (b, .onActor c) ∧ c < b := by
  have h1 : h.futures.getD r none = none → ((e.pickle h).1.create (e.pickle h).2).1 = .error .value := by
    intro hn
    have hn' : h.futures[r]?.getD none = none := hn
    simp [Exp.pickle, he, copyContents, hn', Exp.create, List.getElem?_append]
  have h2 : ∀ a, h.futures.getD r none = some a → ∃ b c, ((e.pickle h).1.create (e.pickle h).2).1 = .ok (b, .onActor c) ∧ c < b := by
    intro a ha
    have ha' : h.futures[r]?.getD none = some a := ha
    refine ⟨h.actors + 1, h.actors, ?_, by omega⟩
    simp [Exp.pickle, he, copyContents, ha', Exp.create, List.getElem?_append]
  refine ⟨?_, h1, h2⟩
  rintro ⟨a, hc⟩
  cases hr : h.futures.getD r none with
  | none =>
    rw [h1 hr] at hc
    exact absurd hc (by simp)
  | some a' =>
    obtain ⟨b, c, hbc, hlt⟩ := h2 a' hr
    rw [hbc] at hc
    simp only [Except.ok.injEq, Prod.mk.injEq, Critic.onActor.injEq] at hc
    omega

/-- A builder and an experiment: run works; saved and restored it fails. -/
example : let (b, h) := builderAfter ⟨0, []⟩ 0
    (b.build.create h).1 = .ok (0, .onActor 0) ∧ ((b.build.pickle h).1.create (b.build.pickle h).2).1 = .error .value := by decide +kernel

end

/-! ### C163: configuration of trainers and collectors -/

section

variable {F : Type}

/-- C163: the trainer collects as the configuration says. -/
def C163 (s : Sampling) (t : TrainerArgs F) : Prop := t.stepPerCollect = s.stepPerCollect ∧ t.episodePerCollect = s.episodePerCollect

/-- C163 for everything else, and for configurations with a number of steps per collection: the trainers get the settings and the callbacks. The trainer
for off-policy algorithms gets no function for checkpoints. Missing: `episode_per_collect`, see `C163_violated`. -/
theorem C163_partial (s : Sampling) (c : Callbacks F) :
    (s.episodePerCollect = none → C163 s (onPolicyTrainer s c) ∧ C163 s (offPolicyTrainer s c)) ∧
    (∀ t ∈ [onPolicyTrainer s c, offPolicyTrainer s c],
      t.maxEpoch = s.numEpochs ∧ t.stepPerEpoch = s.stepPerEpoch ∧ t.episodePerTest = s.testEpisodes ∧ t.batchSize = s.batchSize ∧
      t.stepPerCollect = s.stepPerCollect ∧ t.trainFn = c.train ∧ t.testFn = c.test ∧ t.stopFn = c.stop ∧ t.saveBest = some c.saveBest ∧ t.testInTrain = false) ∧
    (onPolicyTrainer s c).repeatPerCollect = s.repeatPerCollect ∧ (offPolicyTrainer s c).updatePerStep = some s.updatePerStep ∧
    (onPolicyTrainer s c).saveCheckpoint = some c.saveCheckpoint ∧ (offPolicyTrainer s c).saveCheckpoint = none := by
  refine ⟨fun h => ⟨⟨rfl, h.symm⟩, rfl, h.symm⟩, ?_, rfl, rfl, rfl, rfl⟩
  intro t ht
  rcases List.mem_cons.1 ht with rfl | ht
  · exact ⟨rfl, rfl, rfl, rfl, rfl, rfl, rfl, rfl, rfl, rfl⟩
  · obtain rfl := List.mem_singleton.1 ht
    exact ⟨rfl, rfl, rfl, rfl, rfl, rfl, rfl, rfl, rfl, rfl⟩

/-- C163. The buffer has the size and the options of the configuration, and one part for each training environment. -/
theorem C163_buffer (s : Sampling) (n : Nat) :
    (trainBuffer s n).size = s.bufferSize ∧ (trainBuffer s n).stackNum = s.stackNum ∧ (trainBuffer s n).saveOnlyLastObs = s.saveOnlyLastObs ∧
    (trainBuffer s n).ignoreObsNext = s.ignoreObsNext ∧ (1 ≤ n → (trainBuffer s n).parts.getD 1 = n) := by
  refine ⟨rfl, rfl, rfl, rfl, ?_⟩
  intro hn
  simp only [trainBuffer]
  by_cases h : n > 1
  · simp [h]
  · simp [h]
    omega

/-- C163 fails for every configuration with a number of episodes per collection (such configurations have no number of steps, `C156_config`): the trainers
do not get it, so that every call of `collect` in training raises an error, whatever the collector. -/
theorem C163_violated (s : Sampling) (c : Callbacks F) (n : Int) (h1 : s.episodePerCollect = some n) (h2 : s.stepPerCollect = none) :
    ¬ C163 s (onPolicyTrainer s c) ∧ ¬ C163 s (offPolicyTrainer s c) ∧
    ∀ t ∈ [onPolicyTrainer s c, offPolicyTrainer s c], ∀ {σ A O R I H K : Type} (cfg : Collector.Cfg σ A O R I H K) (kw : K) (fuel : Nat)
      (col : Collector.Col σ A O R I H), Collector.collect cfg t.stepPerCollect t.episodePerCollect false false kw fuel col = some (.error .value) := by
  refine ⟨fun h => ?_, fun h => ?_, ?_⟩
  · have := h.2
    rw [h1] at this
    exact absurd this (by simp [onPolicyTrainer])
  · have := h.2
    rw [h1] at this
    exact absurd this (by simp [offPolicyTrainer])
  · intro t ht σ A O R I H K cfg kw fuel col
    have h3 : t.stepPerCollect = none ∧ t.episodePerCollect = none := by
      rcases List.mem_cons.1 ht with rfl | ht
      · exact ⟨h2, rfl⟩
      · obtain rfl := List.mem_singleton.1 ht
        exact ⟨h2, rfl⟩
    rw [h3.1, h3.2]
    rfl

/-- A configuration with ten episodes per collection. -/
example : (Sampling.mk 100 30000 (some 64) 10 none (some 10) (some 2) 1 4096 1 false false).episodePerCollect = some 10 ∧
    trainBuffer (Sampling.mk 100 30000 (some 64) 10 none (some 10) (some 2) 1 4096 1 false false) 8 = ⟨4096, some 8, 1, false, false⟩ := by decide +kernel

end

/-! ### C164: loggers -/

/-- C164: for each documented type of logger, given a project where one is needed, the factory makes a logger with the given interval between saves. -/
def C164 (type : LoggerType) (project : Option String) (n : Int) : Prop :=
  (type = .wandb → project ≠ none) → ∃ f l, LoggerFactory.new type project n = .ok f ∧ f.create = .ok l ∧ l.saveInterval = n

/-- C164 for Weights & Biases, and for Tensorboard with the interval 1; without a project the former raises an error. Missing: other intervals, and
`"pandas"`, see `C164_violated`. -/
theorem C164_partial (project : Option String) (n : Int) :
    C164 .wandb project n ∧ C164 .tensorboard project 1 ∧ LoggerFactory.new .wandb none n = .error .value := by
  refine ⟨fun h => ?_, fun _ => ?_, rfl⟩
  · refine ⟨⟨.wandb, project, n⟩, .wandb n, ?_, rfl, rfl⟩
    simp [LoggerFactory.new, h rfl]
  · exact ⟨⟨.tensorboard, project, 1⟩, .tensorboard 1, by simp [LoggerFactory.new], rfl, rfl⟩

/-- C164 fails for `"pandas"`, for which no logger can be made, and for Tensorboard with any interval but 1. -/
theorem C164_violated (project : Option String) (n : Int) :
    ¬ C164 .pandas project n ∧ (∀ f, LoggerFactory.new .pandas project n = .ok f → f.create = .error .value) ∧ (n ≠ 1 → ¬ C164 .tensorboard project n) := by
  have h1 : ∀ f, LoggerFactory.new .pandas project n = .ok f → f.create = .error .value := by
    intro f hf
    simp only [LoggerFactory.new, reduceCtorEq, false_and, if_false, Except.ok.injEq] at hf
    subst hf
    rfl
  refine ⟨?_, h1, ?_⟩
  · intro hc
    obtain ⟨f, l, hf, hl, _⟩ := hc (by simp)
    rw [h1 f hf] at hl
    exact absurd hl (by simp)
  · intro hn hc
    obtain ⟨f, l, hf, hl, hs⟩ := hc (by simp)
    simp only [LoggerFactory.new, reduceCtorEq, false_and, if_false, Except.ok.injEq] at hf
    subst hf
    simp only [LoggerFactory.create, Except.ok.injEq] at hl
    subst hl
    exact hn hs.symm

example : (LoggerFactory.new .wandb (some "p") 5).toOption = some ⟨.wandb, some "p", 5⟩ ∧
    (LoggerFactory.mk .wandb (some "p") 5).create.toOption = some (.wandb 5) := by decide +kernel

/-! ### C166: automatic tuning of the entropy coefficient -/

section

/-- The entropy of a distribution over finitely many actions. -/
noncomputable def entropy (p : List ℝ) : ℝ := (p.map fun q => -(q * Real.log q)).sum

/-- The entropy of independent Gaussians with the given deviations. -/
noncomputable def gaussianEntropy (sigma : List ℝ) : ℝ := (sigma.map fun s => 1 / 2 + Real.log (2 * Real.pi) / 2 + Real.log s).sum

/-- The target entropy made by the default factory. -/
noncomputable def target (s : ActionShape) : ℝ := match autoAlpha (K := ℝ) s with | .auto t _ => t | .fixed _ => 0

/-- C166: there are policies whose entropy is at most the target entropy, so that the coefficient is not lowered in every step. -/
def C166 : ActionShape → Prop
  | .box shape => ∃ sigma : List ℝ, sigma.length = shape.prod ∧ (∀ s ∈ sigma, 0 < s) ∧ gaussianEntropy sigma ≤ target (.box shape)
  | .discrete n => ∃ p : List ℝ, p.length = n ∧ (∀ q ∈ p, 0 ≤ q) ∧ p.sum = 1 ∧ entropy p ≤ target (.discrete n)

/-- C166 for boxes: Gaussians with the same deviation in all components have the target entropy, which is minus the number of components; the initial
coefficient is 1. Missing: discrete actions, see `C166_violated`. -/
theorem C166_box_partial (shape : List Nat) :
    C166 (.box shape) ∧ target (.box shape) = -(shape.prod : ℝ) ∧
    (∃ s : ℝ, 0 < s ∧ gaussianEntropy (List.replicate shape.prod s) = target (.box shape)) ∧
    (autoAlpha (K := ℝ) (.box shape)).value Real.exp = 1 := by
  have ht : target (.box shape) = -(shape.prod : ℝ) := rfl
  have hg : gaussianEntropy (List.replicate shape.prod (Real.exp (-(3 / 2) - Real.log (2 * Real.pi) / 2))) = target (.box shape) := by
    rw [ht]
    simp only [gaussianEntropy, List.map_replicate, List.sum_replicate, Real.log_exp, nsmul_eq_mul]
    ring
  refine ⟨⟨_, List.length_replicate, ?_, hg.le⟩, ht, ⟨_, Real.exp_pos _, hg⟩, ?_⟩
  · intro s hs
    rw [List.eq_of_mem_replicate hs]
    exact Real.exp_pos _
  · simp [autoAlpha, ActorCritic.Alpha.value]

theorem entropy_nonneg (p : List ℝ) (h0 : ∀ q ∈ p, 0 ≤ q) (h1 : p.sum = 1) : 0 ≤ entropy p := by
  refine List.sum_nonneg ?_
  intro y hy
  obtain ⟨q, hq, rfl⟩ := List.mem_map.1 hy
  have hq1 : q ≤ 1 := h1 ▸ List.single_le_sum h0 q hq
  have := mul_nonneg (h0 q hq) (neg_nonneg.2 (Real.log_nonpos (h0 q hq) hq1))
  linarith

/-- The coefficient after a number of updates of discrete SAC, each with the entropies of its batch. -/
noncomputable def tuned (lr : ℝ) (a : ActorCritic.Alpha ℝ) : List (List ℝ) → ActorCritic.Alpha ℝ
  | [] => a
  | es :: rest => tuned lr (a.discreteStep lr es) rest

/-- C166 fails for all numbers of discrete actions: the target entropy is negative, but no entropy is. Every update of discrete SAC lowers the coefficient,
by the learning rate times the number of actions at least, whatever the policy does. -/
theorem C166_violated (n : Nat) (hn : 0 < n) :
    ¬ C166 (.discrete n) ∧
    ∀ (lr : ℝ) (_ : 0 < lr) (es : List (List ℝ)) (_ : ∀ b ∈ es, b ≠ [] ∧ ∀ e ∈ b, 0 ≤ e),
      (tuned lr (autoAlpha (.discrete n)) es).value Real.exp ≤ Real.exp (-(lr * n * es.length)) := by
  have ht : target (.discrete n) = -(n : ℝ) := rfl
  have hn' : (0 : ℝ) < n := by exact_mod_cast hn
  constructor
  · rintro ⟨p, _, h0, h1, h2⟩
    have := entropy_nonneg p h0 h1
    rw [ht] at h2
    linarith
  · intro lr hlr es hes
    have key : ∀ (es : List (List ℝ)) (l : ℝ), (∀ b ∈ es, b ≠ [] ∧ ∀ e ∈ b, 0 ≤ e) →
        ∃ l', tuned lr (.auto (-(n : ℝ)) l) es = .auto (-(n : ℝ)) l' ∧ l' ≤ l - lr * n * es.length := by
      intro es
      induction es with
      | nil => intro l _; exact ⟨l, rfl, by simp⟩
      | cons b es ih =>
        intro l hb
        obtain ⟨l', h1, h2⟩ := ih (l - lr * ActorCritic.alphaGrad (-(n : ℝ)) (b.map Neg.neg)) fun x hx => hb x (List.mem_cons_of_mem _ hx)
        refine ⟨l', h1, h2.trans ?_⟩
        have hg : (n : ℝ) ≤ ActorCritic.alphaGrad (-(n : ℝ)) (b.map Neg.neg) := by
          obtain ⟨hne, hpos⟩ := hb b (List.mem_cons_self ..)
          have hlen : (0 : ℝ) < b.length := by exact_mod_cast List.length_pos_of_ne_nil hne
          have hsum : ∀ b : List ℝ, (∀ e ∈ b, 0 ≤ e) → (((b.map Neg.neg).map (· + -(n : ℝ))).sum) ≤ -(n * b.length) := by
            intro b
            induction b with
            | nil => intro _; simp
            | cons e b ih =>
              intro h
              have h1 := ih fun x hx => h x (List.mem_cons_of_mem _ hx)
              have h2 := h e (List.mem_cons_self ..)
              simp only [List.map_cons, List.sum_cons, List.length_cons, Nat.cast_add, Nat.cast_one]
              linarith
          have := hsum b hpos
          unfold ActorCritic.alphaGrad Ppo.mean
          rw [le_neg, div_le_iff₀ (by simpa using hlen)]
          simp only [List.length_map]
          linarith
        simp only [List.length_cons, Nat.cast_add, Nat.cast_one]
        nlinarith [mul_le_mul_of_nonneg_left hg hlr.le]
    obtain ⟨l', h1, h2⟩ := key es 0 hes
    have : autoAlpha (K := ℝ) (.discrete n) = .auto (-(n : ℝ)) 0 := rfl
    rw [this, h1]
    exact Real.exp_le_exp.2 (by linarith)

/-- Two actions, equally likely: their entropy is far above the target. -/
example : ¬ C166 (.discrete 2) := (C166_violated 2 (by norm_num)).1

end

/-! ### C167: noise as a fraction of the maximum action -/

section

variable {K : Type} [Field K]

/-- C167: the noise makes the actions in the environment differ from those without noise by the fraction of the maximum action times a standard normal
number, in each component. -/
def C167 (scaling : Bool) (lh : List (K × K)) (fraction : K) : Prop :=
  ∃ sigma, scaled .continuous fraction (lh.map Prod.snd) = .ok sigma ∧
    ∀ (act z : List K), act.length = lh.length → z.length = lh.length → ∀ (i : Nat) (l h a x : K), lh[i]? = some (l, h) → act[i]? = some a → z[i]? = some x →
      (noisyAction scaling lh sigma act z)[i]? = some ((if scaling then Policy.scale1 (l, h) a else a) + fraction * h * x)

theorem noisy_get (scaling : Bool) (lh : List (K × K)) (sigma : K) (act z : List K) (i : Nat) (l h a x : K) (h1 : lh[i]? = some (l, h))
    (h2 : act[i]? = some a) (h3 : z[i]? = some x) :
    (noisyAction scaling lh sigma act z)[i]? = some (if scaling then Policy.scale1 (l, h) (a + sigma * x) else a + sigma * x) := by
  cases scaling <;> simp [noisyAction, List.getElem?_zipWith, h1, h2, h3]

/-- C167 for boxes whose components all have the same upper bound, if actions are not scaled, or if the box is `[-1, 1]` in all components. Environments
with discrete actions raise an error. Missing: everything else, see `C167_violated`. -/
theorem C167_partial [CharZero K] (scaling : Bool) (lh : List (K × K)) (hne : lh ≠ []) (fraction m : K) (hm : ∀ p ∈ lh, p.2 = m)
    (hs : scaling = true → ∀ p ∈ lh, p = (-1, 1)) : C167 scaling lh fraction ∧ scaled .discrete fraction (lh.map Prod.snd) = .error .assertion := by
  refine ⟨?_, rfl⟩
  obtain ⟨p, rest, rfl⟩ := List.exists_cons_of_ne_nil hne
  refine ⟨p.2 * fraction, rfl, ?_⟩
  intro act z _ _ i l h a x h1 h2 h3
  rw [noisy_get scaling _ _ act z i l h a x h1 h2 h3]
  have hp := hm p (List.mem_cons_self ..)
  have hq := hm (l, h) (List.mem_of_getElem? h1)
  simp only at hq
  subst hq
  rw [hp]
  cases scaling with
  | false =>
    simp only [Bool.false_eq_true, if_false, Option.some.injEq]
    ring
  | true =>
    have h4 := hs rfl (l, h) (List.mem_of_getElem? h1)
    simp only [Prod.mk.injEq] at h4
    obtain ⟨rfl, rfl⟩ := h4
    simp only [if_true, Policy.scale1, Option.some.injEq]
    ring_nf

/-- C167 fails with scaling of actions (the default for continuous actions) for every box with the same bounds `-h` and `h` in all components,
unless `h` is 0 or 1: the noise is `h` times too large. It also fails without scaling if some component has another upper bound than the first. -/
theorem C167_violated [CharZero K] (fraction : K) (hf : fraction ≠ 0) :
    (∀ (h : K) (n : Nat), h ≠ 0 → h ≠ 1 → 0 < n → ¬ C167 true (List.replicate n (-h, h)) fraction) ∧
    (∀ (lh : List (K × K)) (p q : K × K), lh[0]? = some p → q ∈ lh → p.2 ≠ q.2 → ¬ C167 false lh fraction) := by
  constructor
  · intro h n h0 h1 hn hc
    obtain ⟨sigma, hs, hc⟩ := hc
    obtain ⟨n, rfl⟩ := Nat.exists_eq_succ_of_ne_zero hn.ne'
    have hsig : sigma = h * fraction := by
      simp only [scaled, if_true, Nat.succ_eq_add_one, List.replicate_succ, List.map_cons, maxAction, Except.map, Except.ok.injEq] at hs
      exact hs.symm
    have h2 := hc (List.replicate (n + 1) 0) (List.replicate (n + 1) 1) (by simp) (by simp) 0 (-h) h 0 1 (by simp) (by simp) (by simp)
    rw [noisy_get true _ _ _ _ 0 (-h) h 0 1 (by simp) (by simp) (by simp), hsig] at h2
    simp only [if_true, Policy.scale1, Option.some.injEq] at h2
    have h3 : fraction * h * (h - 1) = 0 := by
      linear_combination h2
    rcases mul_eq_zero.1 h3 with h3 | h3
    · rcases mul_eq_zero.1 h3 with h3 | h3
      · exact hf h3
      · exact h0 h3
    · exact h1 (sub_eq_zero.1 h3)
  · intro lh p q hp hq hne hc
    obtain ⟨sigma, hs, hc⟩ := hc
    obtain ⟨i, hi, rfl⟩ := List.mem_iff_getElem.1 hq
    have hsig : sigma = p.2 * fraction := by
      cases lh with
      | nil => simp at hp
      | cons p' lh =>
        simp only [List.getElem?_cons_zero, Option.some.injEq] at hp
        subst hp
        simp only [scaled, if_true, List.map_cons, maxAction, Except.map, Except.ok.injEq] at hs
        exact hs.symm
    have h2 := hc (List.replicate lh.length 0) (List.replicate lh.length 1) (by simp) (by simp) i lh[i].1 lh[i].2 0 1 (by simp [hi])
      (by simp [hi]) (by simp [hi])
    rw [noisy_get false _ _ _ _ i lh[i].1 lh[i].2 0 1 (by simp [hi]) (by simp [hi]) (by simp [hi]), hsig] at h2
    simp only [Bool.false_eq_true, if_false, Option.some.injEq] at h2
    have h3 : fraction * (p.2 - lh[i].2) = 0 := by linear_combination h2
    rcases mul_eq_zero.1 h3 with h3 | h3
    · exact hf h3
    · exact hne (sub_eq_zero.1 h3)

/-- A box `[-2, 2]`, as that of Pendulum: the fraction 1/10 gives 4/10 instead of 2/10. -/
example : scaled .continuous (1 / 10 : ℚ) [2] = .ok (2 / 10) ∧ noisyAction true [((-2 : ℚ), 2)] (2 / 10) [0] [1] = [4 / 10] := by decide +kernel

end

/-! ### C168: dual clipping as documented for the parameters of PPO -/

section

variable {K : Type} [Field K] [LinearOrder K] [IsStrictOrderedRing K]

/-- What the documentation of `PPOParams` says the objective of a transition is: the ratio is kept between the lower bound and `1 + eps_clip`, where the
lower bound is `1 - eps_clip`, or `dual_clip` if it is given; the smaller of the objectives with and without this counts. -/
def documented (c : Ppo.Cfg K) (ratio adv : K) : K :=
  min (ratio * adv) (min (max ratio (c.dualClip.getD (1 - c.epsClip))) (1 + c.epsClip) * adv)

/-- C168: the policy can be made, and its objective is the documented one. -/
def C168 (c : Ppo.Cfg K) : Prop := c.valid = true ∧ ∀ ratio adv, Ppo.surrogate c ratio adv = documented c ratio adv

/-- C168 without dual clipping. Missing: dual clipping, see `C168_violated`. -/
theorem C168_none_partial (c : Ppo.Cfg K) (h : c.dualClip = none) : C168 c := by
  refine ⟨by simp [Ppo.Cfg.valid, h], ?_⟩
  intro ratio adv
  simp [Ppo.surrogate, documented, h, Ppo.clamp]

/-- C168 fails for all values of `dual_clip` that the documentation allows (below `1 - eps_clip`): no policy can be made. For all values with which a
policy can be made the objective is not the documented one. -/
theorem C168_violated (c : Ppo.Cfg K) (he : 0 ≤ c.epsClip) (d : K) (hd : c.dualClip = some d) :
    ¬ C168 c ∧ (d < 1 - c.epsClip → c.valid = false) ∧ (c.valid = true → ∃ ratio adv, Ppo.surrogate c ratio adv ≠ documented c ratio adv) := by
  have h1 : d < 1 - c.epsClip → c.valid = false := by
    intro h
    simp only [Ppo.Cfg.valid, hd, decide_eq_false_iff_not, not_lt]
    linarith
  have h2 : c.valid = true → ∃ ratio adv, Ppo.surrogate c ratio adv ≠ documented c ratio adv := by
    intro hv
    have hd1 : 1 < d := by simpa [Ppo.Cfg.valid, hd] using hv
    -- a bad action with a large ratio: the documented objective has no lower bound
    refine ⟨1 + c.epsClip + d, -1, ?_⟩
    have h3 : Ppo.surrogate c (1 + c.epsClip + d) (-1) = -d := by
      simp only [Ppo.surrogate, hd]
      rw [if_pos (by norm_num)]
      refine (max_eq_right ((min_le_left _ _).trans ?_)).trans (by ring)
      linarith
    have h4 : documented c (1 + c.epsClip + d) (-1) ≤ -(1 + c.epsClip + d) := by
      refine (min_le_left _ _).trans ?_
      linarith
    rw [h3]
    intro h
    linarith
  refine ⟨?_, h1, h2⟩
  rintro ⟨hv, hc⟩
  obtain ⟨r, a, hne⟩ := h2 hv
  exact hne (hc r a)

/-- A typical value according to the documentation. -/
example : (Ppo.Cfg.mk (1 / 5 : ℚ) (some (3 / 10)) false (1 / 2) 0).valid = false := by decide +kernel

end

end Verif.Factories
