import Mathlib.Algebra.Order.Ring.Nat
import Mathlib.Tactic.Common
import Verif.Model.Modules

/-!
C190: training and evaluation modes of the networks of a policy. C191: saving and loading with state dictionaries.
-/

namespace Verif.Modules

variable {P X : Type}

/-! ### Specification -/

/-- All modules of the network are in the mode. -/
def Net.In (n : Net P) (mode : Bool) : Prop := ∀ b ∈ n.modes, b = mode

/-- The networks given by the user, by name, in a policy. -/
def ownNets (k : Kind) (nets : List (String × Net P)) : List (Net P) := (nets.filter fun n => n.1 ∈ k.own).map Prod.snd

/-- The target networks. -/
def targetNets (k : Kind) (nets : List (String × Net P)) : List (Net P) := (nets.filter fun n => n.1 ∈ k.targets.map Prod.fst).map Prod.snd

mutual
/-- The policy, the policies in it and all networks are in the given mode; target networks are in evaluation mode. -/
def Pol.In (mode : Bool) : Pol P X → Prop
  | .base k t nets _ => t = mode ∧ (∀ n ∈ ownNets k nets, n.In mode) ∧ ∀ n ∈ targetNets k nets, n.In false
  | .icm t inner model _ => t = mode ∧ inner.In mode ∧ model.In mode
  | .multi t agents _ => t = mode ∧ agents.In mode

def Pols.In (mode : Bool) : Pols P X → Prop
  | .nil => True
  | .cons _ p rest => p.In mode ∧ rest.In mode
end

mutual
/-- The policy is new: made by the constructors, from networks in any modes. `ok` is a condition on the classes and the networks given, `managers` allows managers. -/
inductive New (ok : Kind → (String → Net P) → Prop) (managers : Prop) : Pol P X → Prop
  | base (k : Kind) (given : String → Net P) (e : X) : ok k given → New ok managers (Pol.new k given e)
  | icm (inner : Pol P X) (model : Net P) (e : X) : New ok managers inner → New ok managers (.icm true inner model e)
  | multi (agents : Pols P X) (e : X) : managers → News ok managers agents → New ok managers (.multi true agents e)

inductive News (ok : Kind → (String → Net P) → Prop) (managers : Prop) : Pols P X → Prop
  | nil : News ok managers .nil
  | cons (a : String) (p : Pol P X) (rest : Pols P X) : New ok managers p → News ok managers rest → News ok managers (.cons a p rest)
end

/-- A sequence of events. -/
def Pol.run (p : Pol P X) (es : List (Event P X)) : Pol P X := es.foldl Pol.apply p

/-- The event is an update. -/
def Event.IsUpdate : Event P X → Prop
  | .train _ => False
  | .update _ _ => True

/-- C190: after `policy.train(mode)` (`policy.eval()` for evaluation mode), and also after any updates that follow, the policy and all its networks are in this mode,
except for target networks, which are in evaluation mode. Noisy target networks of Rainbow are left out, they are in training mode on purpose. -/
def C190 : Prop :=
  ∀ (P X : Type) (p : Pol P X), New (fun k given => ∀ t, k = .rainbow t → (given "model").noisy = false) True p →
    ∀ (es us : List (Event P X)) (mode : Bool), (∀ u ∈ us, u.IsUpdate) → (p.run (es ++ .train mode :: us)).In mode

/-- The classes with correct modes. -/
def Fine (k : Kind) (given : String → Net P) : Prop :=
  k ≠ .bcq ∧ k ≠ .crr true ∧ (∀ t, k ≠ .fqf t) ∧ ∀ t, k = .rainbow t → (given "model").noisy = false

/-! ### Proofs for C190 -/

theorem Net.In_train (n : Net P) (mode : Bool) : (n.train mode).In mode := by
  intro b hb
  simp only [Net.train, List.mem_map] at hb
  obtain ⟨_, _, rfl⟩ := hb
  rfl

/-- What stays true of a policy of a fine class: names are those of the class, targets are in evaluation mode, targets of Rainbow are not noisy. -/
def Inv (k : Kind) (nets : List (String × Net P)) : Prop :=
  (∀ n ∈ nets, n.1 ∈ k.own ∨ n.1 ∈ k.targets.map Prod.fst) ∧ (∀ n ∈ targetNets k nets, n.In false) ∧
    ∀ t, k = .rainbow t → ∀ n ∈ nets, n.2.noisy = false

/-- The class is fine. -/
def FineKind (k : Kind) : Prop := k ≠ .bcq ∧ k ≠ .crr true ∧ ∀ t, k ≠ .fqf t

theorem switches_own (k : Kind) (hk : FineKind k) (n : String) (hn : n ∈ k.own) : k.switches n = true := by
  obtain ⟨h1, h2, h3⟩ := hk
  cases k <;> simp_all [Kind.own, Kind.switches] <;> aesop

theorem switches_target (k : Kind) (hk : FineKind k) (n : String) (hn : n ∈ k.targets.map Prod.fst) : k.switches n = false := by
  obtain ⟨h1, h2, h3⟩ := hk
  cases k <;> simp_all [Kind.targets, Kind.switches] <;> aesop

theorem own_not_target (k : Kind) (n : String) (hn : n ∈ k.own) : n ∉ k.targets.map Prod.fst := by
  cases k <;> simp_all [Kind.targets, Kind.own] <;> aesop

/-- The policy, with the policies in it, is of fine classes; there are no managers. -/
def Pol.Good : Pol P X → Prop
  | .base k _ nets _ => FineKind k ∧ Inv k nets
  | .icm _ inner _ _ => inner.Good
  | .multi _ _ _ => False

theorem mem_targetNets {k : Kind} {nets : List (String × Net P)} {n : Net P} :
    n ∈ targetNets k nets ↔ ∃ name, (name, n) ∈ nets ∧ name ∈ k.targets.map Prod.fst := by
  simp only [targetNets, List.mem_map, List.mem_filter, decide_eq_true_eq]
  constructor
  · rintro ⟨⟨a, b⟩, ⟨h1, h2⟩, rfl⟩
    exact ⟨a, h1, by simpa using h2⟩
  · rintro ⟨a, h1, h2⟩
    exact ⟨(a, n), ⟨h1, by simpa using h2⟩, rfl⟩

theorem mem_ownNets {k : Kind} {nets : List (String × Net P)} {n : Net P} :
    n ∈ ownNets k nets ↔ ∃ name, (name, n) ∈ nets ∧ name ∈ k.own := by
  simp only [ownNets, List.mem_map, List.mem_filter, decide_eq_true_eq]
  constructor
  · rintro ⟨⟨a, b⟩, ⟨h1, h2⟩, rfl⟩
    exact ⟨a, h1, by simpa using h2⟩
  · rintro ⟨a, h1, h2⟩
    exact ⟨(a, n), ⟨h1, by simpa using h2⟩, rfl⟩

theorem Good_train (p : Pol P X) (mode : Bool) (h : p.Good) : (p.train mode).Good ∧ (p.train mode).In mode := by
  match p with
  | .base k t nets e =>
    obtain ⟨hk, h1, h2, h3⟩ := h
    have hT : ∀ n ∈ targetNets k (nets.map fun n => (n.1, if k.switches n.1 then n.2.train mode else n.2)), n.In false := by
      intro n hn
      obtain ⟨name, hm, ht⟩ := mem_targetNets.mp hn
      simp only [List.mem_map] at hm
      obtain ⟨m, hm, he⟩ := hm
      simp only [Prod.mk.injEq] at he
      obtain ⟨rfl, rfl⟩ := he
      rw [switches_target k hk _ ht]
      exact h2 _ (mem_targetNets.mpr ⟨m.1, hm, ht⟩)
    refine ⟨⟨hk, ?_, hT, ?_⟩, rfl, ?_, hT⟩
    · intro n hn
      simp only [List.mem_map] at hn
      obtain ⟨m, hm, rfl⟩ := hn
      exact h1 m hm
    · intro t ht n hn
      simp only [List.mem_map] at hn
      obtain ⟨m, hm, rfl⟩ := hn
      have := h3 t ht m hm
      dsimp only
      split_ifs
      · exact this
      · exact this
    · intro n hn
      obtain ⟨name, hm, ht⟩ := mem_ownNets.mp hn
      simp only [List.mem_map] at hm
      obtain ⟨m, hm, he⟩ := hm
      simp only [Prod.mk.injEq] at he
      obtain ⟨rfl, rfl⟩ := he
      rw [switches_own k hk _ ht]
      exact Net.In_train _ _
  | .icm t inner model e =>
    have := Good_train inner mode h
    exact ⟨this.1, rfl, this.2, Net.In_train _ _⟩
  | .multi t a e => exact absurd h (by simp [Pol.Good])

theorem Good_learn (step : P → P) (stepX : X → X) (p : Pol P X) (h : p.Good) : (p.learn step stepX).Good := by
  match p with
  | .base k t nets e =>
    obtain ⟨hk, h1, h2, h3⟩ := h
    have hm : (nets.map fun n => (n.1, k.learnNet step n.1 n.2)) = nets.map fun n => (n.1, { n.2 with params := step n.2.params }) := by
      apply List.map_congr_left
      intro n hn
      simp only [Prod.mk.injEq, true_and]
      rw [Kind.learnNet, if_neg]
      rintro ⟨h5, _, h6⟩
      rw [h3 true h5 n hn] at h6
      exact absurd h6 (by simp)
    simp only [Pol.learn, Pol.Good]
    refine ⟨hk, ?_⟩
    rw [hm]
    refine ⟨?_, ?_, ?_⟩
    · intro n hn
      simp only [List.mem_map] at hn
      obtain ⟨m, hm, rfl⟩ := hn
      exact h1 m hm
    · intro n hn
      obtain ⟨name, hm, ht⟩ := mem_targetNets.mp hn
      simp only [List.mem_map] at hm
      obtain ⟨m, hm, he⟩ := hm
      simp only [Prod.mk.injEq] at he
      obtain ⟨rfl, rfl⟩ := he
      exact h2 m.2 (mem_targetNets.mpr ⟨m.1, hm, ht⟩)
    · intro t ht n hn
      simp only [List.mem_map] at hn
      obtain ⟨m, hm, rfl⟩ := hn
      exact h3 t ht m hm
  | .icm t inner model e => exact Good_learn step stepX inner h
  | .multi t a e => exact absurd h (by simp [Pol.Good])

theorem Good_apply (p : Pol P X) (h : p.Good) (e : Event P X) : (p.apply e).Good := by
  cases e with
  | train m => exact (Good_train p m h).1
  | update s x => exact (Good_train _ _ (Good_learn s x _ (Good_train p true h).1)).1

theorem Good_run (es : List (Event P X)) : ∀ (p : Pol P X), p.Good → (p.run es).Good := by
  induction es with
  | nil => intro p h; exact h
  | cons e es ih => intro p h; exact ih _ (Good_apply p h e)

theorem Good_new (p : Pol P X) (h : New Fine False p) : p.Good := by
  induction h using New.rec (motive_2 := fun _ _ => True) with
  | base k given e hok =>
    obtain ⟨h1, h2, h3, h4⟩ := hok
    refine ⟨⟨h1, h2, h3⟩, ?_, ?_, ?_⟩
    · intro n hn
      simp only [Kind.build, List.mem_append, List.mem_map] at hn
      rcases hn with ⟨a, ha, rfl⟩ | ⟨a, ha, rfl⟩
      · exact .inl ha
      · exact .inr (List.mem_map_of_mem (f := Prod.fst) ha)
    · intro n hn
      obtain ⟨name, hm, ht⟩ := mem_targetNets.mp hn
      simp only [Kind.build, List.mem_append, List.mem_map] at hm
      rcases hm with ⟨a, ha, he⟩ | ⟨a, ha, he⟩
      · simp only [Prod.mk.injEq] at he
        obtain ⟨rfl, rfl⟩ := he
        exact absurd ht (own_not_target k _ ha)
      · simp only [Prod.mk.injEq] at he
        obtain ⟨rfl, rfl⟩ := he
        have : k.evalTargets = true := by cases k <;> simp_all [Kind.evalTargets]
        rw [if_pos this]
        exact Net.In_train _ _
    · intro t ht n hn
      subst ht
      have h5 := h4 t rfl
      cases t <;> simp only [Kind.build, Kind.own, Kind.targets, Kind.evalTargets, List.mem_append, List.mem_map, List.mem_cons, List.not_mem_nil,
        or_false, exists_eq_left, if_true, if_false, Bool.false_eq_true, false_and, exists_false] at hn
      · subst hn; exact h5
      · rcases hn with rfl | rfl
        · exact h5
        · exact h5
  | icm inner model e _ ih => exact ih
  | multi a e hm _ _ => exact hm.elim
  | nil => trivial
  | cons => trivial

theorem training_train (p : Pol P X) (m : Bool) (h : p.Good) : (p.train m).training = m := by
  match p with
  | .base k t nets e => rfl
  | .icm t inner model e => rfl
  | .multi t a e => exact absurd h (by simp [Pol.Good])

theorem training_learn (p : Pol P X) (s : P → P) (x : X → X) : (p.learn s x).training = p.training := by
  match p with
  | .base k t nets e => rfl
  | .icm t inner model e => rfl
  | .multi t a e => rfl

theorem training_update (p : Pol P X) (s : P → P) (x : X → X) (h : p.Good) : (p.update s x).training = p.training :=
  training_train _ _ (Good_learn s x _ (Good_train p true h).1)

theorem In_updates (us : List (Event P X)) (mode : Bool) (hu : ∀ u ∈ us, u.IsUpdate) :
    ∀ (p : Pol P X), p.Good → p.training = mode → p.In mode → (p.run us).In mode := by
  induction us with
  | nil => intro p _ _ h; exact h
  | cons u us ih =>
    intro p hg ht hin
    cases u with
    | train m => exact (hu (.train m) (by simp)).elim
    | update s x =>
      refine ih (fun v hv => hu v (by simp [hv])) (p.update s x) (Good_apply p hg (.update s x)) ?_ ?_
      · rw [training_update p s x hg, ht]
      · have := (Good_train _ p.training (Good_learn s x _ (Good_train p true hg).1)).2
        rw [← ht]
        exact this

/-- **C190, what holds.** For policies of all classes except BCQ, CRR with target networks and FQF, also inside curiosity wrappers: after `train(mode)` and any updates,
the policy and its networks are in this mode, and the target networks are in evaluation mode, whatever the modes were before. -/
theorem C190_partial (p : Pol P X) (h : New Fine False p) (es us : List (Event P X)) (mode : Bool) (hu : ∀ u ∈ us, u.IsUpdate) :
    (p.run (es ++ .train mode :: us)).In mode := by
  have hg := Good_run es p (Good_new p h)
  have : p.run (es ++ .train mode :: us) = ((p.run es).train mode).run us := by
    simp [Pol.run, List.foldl_append, Pol.apply]
  rw [this]
  exact In_updates us mode hu _ (Good_train _ mode hg).1 (training_train _ _ hg) (Good_train _ mode hg).2

/-- A soft actor-critic policy in a curiosity wrapper. -/
example : New (P := Nat) (X := Nat) Fine False (.icm true (Pol.new .sac (fun _ => ⟨3, [true, false], true⟩) 0) ⟨4, [true], false⟩ 1) :=
  .icm _ _ _ (.base _ _ _ ⟨by simp, by simp, by simp, by simp⟩)

/-- The classes that are left out do have policies to which the property applies. -/
example : New (P := Nat) (X := Nat) (fun k given => ∀ t, k = .rainbow t → (given "model").noisy = false) True
    (Pol.new (.fqf true) (fun _ => ⟨3, [true], false⟩) 0) := .base _ _ _ (by simp)

/-- **C190, also in updates.** While `learn` runs inside an update, the networks of the policy are in training mode and the target networks in evaluation mode. -/
theorem C190_learning (p : Pol P X) (h : New Fine False p) (es : List (Event P X)) : ((p.run es).train true).In true :=
  (Good_train _ true (Good_run es p (Good_new p h))).2

/-- The proposal network of FQF stays in the mode in which it was given, through any events: `policy.eval()` does not reach it. -/
theorem C190_fqf (t : Bool) (given : String → Net P) (e : X) (es : List (Event P X)) :
    ∃ (tr : Bool) (nets : List (String × Net P)) (e' : X), (Pol.new (.fqf t) given e).run es = .base (.fqf t) tr nets e' ∧
      ∃ n, ("fraction_model", n) ∈ nets ∧ n.modes = (given "fraction_model").modes := by
  have : ∀ (es : List (Event P X)) (tr : Bool) (nets : List (String × Net P)) (e : X), (∃ n, ("fraction_model", n) ∈ nets ∧ n.modes = (given "fraction_model").modes) →
      ∃ (tr' : Bool) (nets' : List (String × Net P)) (e' : X), (Pol.base (.fqf t) tr nets e).run es = .base (.fqf t) tr' nets' e' ∧
      ∃ n, ("fraction_model", n) ∈ nets' ∧ n.modes = (given "fraction_model").modes := by
    intro es
    induction es with
    | nil => intro tr nets e h; exact ⟨tr, nets, e, rfl, h⟩
    | cons ev es ih =>
      rintro tr nets e ⟨n, hn, hm⟩
      cases ev with
      | train m =>
        refine ih m _ e ⟨n, ?_, hm⟩
        simp only [List.mem_map]
        exact ⟨_, hn, by simp [Kind.switches]⟩
      | update s x =>
        refine ih tr _ (x e) ⟨{ n with params := s n.params }, ?_, hm⟩
        simp only [List.map_map, List.mem_map]
        exact ⟨_, hn, by simp [Kind.switches, Kind.learnNet]⟩
  exact this es _ _ _ ⟨given "fraction_model", by simp [Kind.build, Kind.own], rfl⟩

/-- **C190 is violated.** After `policy.eval()`, a network of an FQF policy that was in training mode is still in training mode. -/
theorem C190_violated : ¬ C190 := by
  intro h
  have := h Nat Nat (Pol.new (.fqf true) (fun _ => ⟨3, [true], false⟩) 0) (.base _ _ _ (by simp)) [] [] false (by simp)
  obtain ⟨_, h2, _⟩ := this
  have := h2 ⟨3, [true], false⟩ (by
    refine mem_ownNets.mpr ⟨"fraction_model", ?_, by simp [Kind.own]⟩
    simp [Kind.build, Kind.own, Kind.switches, Kind.targets]) true (by simp)
  exact absurd this (by simp)

/-- The networks of a new policy: those given to it, under their names, and targets, which are named after the network whose parameters they have. -/
theorem C190_new (k : Kind) (given : String → Net P) (name : String) (n : Net P) (hn : (name, n) ∈ k.build given) :
    (name ∈ k.own ∧ n = given name) ∨ ∃ src ∈ k.own, (name = src ++ "_old" ∨ name = src ++ "_target") ∧ n.params = (given src).params := by
  simp only [Kind.build, List.mem_append, List.mem_map] at hn
  rcases hn with ⟨a, ha, he⟩ | ⟨a, ha, he⟩
  · simp only [Prod.mk.injEq] at he
    obtain ⟨rfl, rfl⟩ := he
    exact .inl ⟨ha, rfl⟩
  · simp only [Prod.mk.injEq] at he
    obtain ⟨rfl, rfl⟩ := he
    refine .inr ⟨a.2, ?_, ?_, by split_ifs <;> rfl⟩
    · cases k <;> simp_all [Kind.own, Kind.targets] <;> aesop
    · cases k <;> simp_all [Kind.targets] <;> aesop

/-- The class has target networks: the on-policy classes have none, for some classes it depends on an argument of the constructor. -/
def KeepsTargets : Kind → Prop
  | .dqn target => target = true
  | .rainbow target => target = true
  | .fqf target => target = true
  | .crr target => target = true
  | .pg | .a2c | .gail => False
  | .discreteBcq | .ddpg | .td3 | .sac | .bcq => True

/-- Nothing is missing from a new policy: the networks given are all there, and those of a class with targets have targets, except for the
fraction model of FQF, the imitator of discrete BCQ and the autoencoder of BCQ; other classes have no targets. -/
theorem C190_complete (k : Kind) (given : String → Net P) :
    (∀ name ∈ k.own, (name, given name) ∈ k.build given) ∧
    (KeepsTargets k → ∀ src ∈ k.own, src ∉ ["fraction_model", "imitator", "vae"] →
      ∃ name n, (name, n) ∈ k.build given ∧ (name = src ++ "_old" ∨ name = src ++ "_target") ∧ n.params = (given src).params) ∧
    (¬ KeepsTargets k → ∀ name n, (name, n) ∈ k.build given → name ∈ k.own ∧ n = given name) := by
  refine ⟨fun name hn => ?_, fun hk src hs hne => ?_, fun hk name n hn => ?_⟩
  · simp only [Kind.build, List.mem_append, List.mem_map]
    exact .inl ⟨name, hn, rfl⟩
  · have : ∃ name, (name, src) ∈ k.targets ∧ (name = src ++ "_old" ∨ name = src ++ "_target") := by
      cases k <;> simp_all [Kind.own, Kind.targets, KeepsTargets] <;> aesop
    obtain ⟨name, h1, h2⟩ := this
    refine ⟨name, if k.evalTargets then (given src).train false else given src, ?_, h2, by split_ifs <;> rfl⟩
    simp only [Kind.build, List.mem_append, List.mem_map]
    refine .inr ⟨(name, src), h1, ?_⟩
    simp
  · have h0 : k.targets = [] := by
      cases k <;> simp_all [Kind.targets, KeepsTargets]
    simp only [Kind.build, h0, List.map_nil, List.append_nil, List.mem_map, Prod.mk.injEq] at hn
    obtain ⟨a, ha, rfl, rfl⟩ := hn
    exact ⟨ha, rfl⟩

/-- TD3 has three targets. -/
example (given : String → Net P) : ∃ name n, (name, n) ∈ Kind.td3.build given ∧ (name = "critic2_old" ∨ name = "critic2_target") ∧
    n.params = (given "critic2").params :=
  (C190_complete .td3 given).2.1 trivial "critic2" (by simp [Kind.own]) (by simp)

/-- The target networks of BCQ and its variational autoencoder stay in the modes in which the networks were given, through any events: neither `policy.eval()` nor the
constructor switches them. -/
theorem C190_bcq (given : String → Net P) (e : X) (es : List (Event P X)) (name src : String)
    (hn : (name, src) ∈ [("actor_perturbation_target", "actor_perturbation"), ("critic_target", "critic"), ("critic2_target", "critic2"), ("vae", "vae")]) :
    ∃ (tr : Bool) (nets : List (String × Net P)) (e' : X), (Pol.new .bcq given e).run es = .base .bcq tr nets e' ∧
      ∃ n, (name, n) ∈ nets ∧ n.modes = (given src).modes := by
  have hs : Kind.bcq.switches name = false := by
    simp only [List.mem_cons, Prod.mk.injEq, List.not_mem_nil, or_false] at hn
    rcases hn with ⟨rfl, _⟩ | ⟨rfl, _⟩ | ⟨rfl, _⟩ | ⟨rfl, _⟩ <;> rfl
  have : ∀ (es : List (Event P X)) (tr : Bool) (nets : List (String × Net P)) (e : X), (∃ n, (name, n) ∈ nets ∧ n.modes = (given src).modes) →
      ∃ (tr' : Bool) (nets' : List (String × Net P)) (e' : X), (Pol.base .bcq tr nets e).run es = .base .bcq tr' nets' e' ∧
      ∃ n, (name, n) ∈ nets' ∧ n.modes = (given src).modes := by
    intro es
    induction es with
    | nil => intro tr nets e h; exact ⟨tr, nets, e, rfl, h⟩
    | cons ev es ih =>
      rintro tr nets e ⟨n, hn, hm⟩
      cases ev with
      | train m =>
        refine ih m _ e ⟨n, ?_, hm⟩
        simp only [List.mem_map]
        exact ⟨_, hn, by simp [hs]⟩
      | update s x =>
        refine ih tr _ (x e) ⟨{ n with params := s n.params }, ?_, hm⟩
        simp only [List.map_map, List.mem_map]
        exact ⟨_, hn, by simp [hs, Kind.learnNet]⟩
  refine this es _ _ _ ⟨given src, ?_, rfl⟩
  simp only [List.mem_cons, Prod.mk.injEq, List.not_mem_nil, or_false] at hn
  rcases hn with ⟨rfl, rfl⟩ | ⟨rfl, rfl⟩ | ⟨rfl, rfl⟩ | ⟨rfl, rfl⟩ <;> simp [Kind.build, Kind.own, Kind.targets, Kind.evalTargets]

/-- The target networks of CRR follow `policy.train(mode)`: while it learns they are in training mode. -/
theorem C190_crr (t tr mode : Bool) (nets : List (String × Net P)) (e : X) :
    ∃ nets', (Pol.base (.crr t) tr nets e).train mode = .base (.crr t) mode nets' e ∧ nets'.length = nets.length ∧ ∀ n ∈ nets', n.2.In mode := by
  refine ⟨_, rfl, by simp, ?_⟩
  intro n hn
  simp only [List.mem_map] at hn
  obtain ⟨m, _, rfl⟩ := hn
  exact Net.In_train _ _

/-- The noisy target network of Rainbow is in training mode after the first update, and stays so, whatever else happens. -/
theorem C190_rainbow (given : String → Net P) (hg : (given "model").noisy = true) (e : X) (es₁ es₂ : List (Event P X)) (s : P → P) (x : X → X) :
    ∃ (tr : Bool) (nets : List (String × Net P)) (e' : X), (Pol.new (.rainbow true) given e).run (es₁ ++ .update s x :: es₂) = .base (.rainbow true) tr nets e' ∧
      ∃ n, ("model_old", n) ∈ nets ∧ n.In true := by
  have h1 : ∀ (es : List (Event P X)) (tr : Bool) (nets : List (String × Net P)) (e : X), (∃ n, ("model_old", n) ∈ nets ∧ n.noisy = true) →
      ∃ (tr' : Bool) (nets' : List (String × Net P)) (e' : X), (Pol.base (.rainbow true) tr nets e).run es = .base (.rainbow true) tr' nets' e' ∧
      ∃ n, ("model_old", n) ∈ nets' ∧ n.noisy = true := by
    intro es
    induction es with
    | nil => intro tr nets e h; exact ⟨tr, nets, e, rfl, h⟩
    | cons ev es ih =>
      rintro tr nets e ⟨n, hn, hm⟩
      cases ev with
      | train m =>
        refine ih m _ e ⟨n, ?_, hm⟩
        simp only [List.mem_map]
        exact ⟨_, hn, by simp [Kind.switches]⟩
      | update s x =>
        refine ih tr _ (x e) ⟨({ n with params := s n.params } : Net P).train true, ?_, hm⟩
        simp only [List.map_map, List.mem_map]
        exact ⟨_, hn, by simp [Kind.switches, Kind.learnNet, hm, Net.train]⟩
  have h2 : ∀ (es : List (Event P X)) (tr : Bool) (nets : List (String × Net P)) (e : X), (∃ n, ("model_old", n) ∈ nets ∧ n.noisy = true ∧ n.In true) →
      ∃ (tr' : Bool) (nets' : List (String × Net P)) (e' : X), (Pol.base (.rainbow true) tr nets e).run es = .base (.rainbow true) tr' nets' e' ∧
      ∃ n, ("model_old", n) ∈ nets' ∧ n.noisy = true ∧ n.In true := by
    intro es
    induction es with
    | nil => intro tr nets e h; exact ⟨tr, nets, e, rfl, h⟩
    | cons ev es ih =>
      rintro tr nets e ⟨n, hn, hm, hi⟩
      cases ev with
      | train m =>
        refine ih m _ e ⟨n, ?_, hm, hi⟩
        simp only [List.mem_map]
        exact ⟨_, hn, by simp [Kind.switches]⟩
      | update s x =>
        refine ih tr _ (x e) ⟨({ n with params := s n.params } : Net P).train true, ?_, hm, Net.In_train _ _⟩
        simp only [List.map_map, List.mem_map]
        exact ⟨_, hn, by simp [Kind.switches, Kind.learnNet, hm, Net.train]⟩
  obtain ⟨tr, nets, e', heq, n, hn, hm⟩ := h1 es₁ true ((Kind.rainbow true).build given) e
    ⟨(given "model").train false, by simp [Kind.build, Kind.own, Kind.targets, Kind.evalTargets], hg⟩
  have hr : (Pol.new (.rainbow true) given e).run (es₁ ++ .update s x :: es₂) =
      (((Pol.new (.rainbow true) given e).run es₁).update s x).run es₂ := by simp [Pol.run, List.foldl_append, Pol.apply]
  rw [hr, show (Pol.new (.rainbow true) given e).run es₁ = _ from heq]
  obtain ⟨tr', nets', e'', h3, m, h4, _, h5⟩ := h2 es₂ tr
    ((((nets.map fun n => (n.1, if (Kind.rainbow true).switches n.1 then n.2.train true else n.2)).map fun n => (n.1, (Kind.rainbow true).learnNet s n.1 n.2))).map
      fun n => (n.1, if (Kind.rainbow true).switches n.1 then n.2.train tr else n.2)) (x e')
    ⟨({ n with params := s n.params } : Net P).train true, by
      simp only [List.map_map, List.mem_map]
      exact ⟨_, hn, by simp [Kind.switches, Kind.learnNet, hm, Net.train]⟩, hm, Net.In_train _ _⟩
  exact ⟨tr', nets', e'', h3, m, h4, h5⟩

/-- The agents are all good. -/
def Pols.Good : Pols P X → Prop
  | .nil => True
  | .cons _ p rest => p.Good ∧ rest.Good

theorem Pols_Good_train : ∀ (a : Pols P X) (mode : Bool), a.Good → (a.train mode).Good ∧ (a.train mode).In mode
  | .nil, _, _ => ⟨trivial, trivial⟩
  | .cons n p rest, mode, h => by
    have h1 := Good_train p mode h.1
    have h2 := Pols_Good_train rest mode h.2
    exact ⟨⟨h1.1, h2.1⟩, h1.2, h2.2⟩

theorem Pols_Good_learn (s : P → P) (x : X → X) : ∀ (a : Pols P X), a.Good → (a.learn s x).Good
  | .nil, _ => trivial
  | .cons _ p rest, h => ⟨Good_learn s x p h.1, Pols_Good_learn s x rest h.2⟩

theorem Pols_Good_new : ∀ (a : Pols P X), News Fine False a → a.Good
  | .nil, _ => trivial
  | .cons _ p rest, h => by
    cases h with
    | cons _ _ _ h1 h2 => exact ⟨Good_new p h1, Pols_Good_new rest h2⟩

/-- **C190 for managers of several agents.** After `manager.train(mode)` the policies of all agents are in this mode. After an update, though, they are all in training
mode, also when the manager had been switched to evaluation mode: it does not keep its own mode, so that the mode to return to is lost. -/
theorem C190_manager (agents : Pols P X) (h : News Fine False agents) (e : X) (es us : List (Event P X)) (mode : Bool) (hu : ∀ u ∈ us, u.IsUpdate) :
    ∃ (a : Pols P X) (e' : X), (Pol.multi true agents e).run (es ++ .train mode :: us) = .multi true a e' ∧ a.In (if us = [] then mode else true) := by
  have h1 : ∀ (es : List (Event P X)) (a : Pols P X) (e : X), a.Good →
      ∃ (a' : Pols P X) (e' : X), (Pol.multi true a e).run es = .multi true a' e' ∧ a'.Good := by
    intro es
    induction es with
    | nil => intro a e h; exact ⟨a, e, rfl, h⟩
    | cons ev es ih =>
      intro a e h
      cases ev with
      | train m => exact ih (a.train m) e (Pols_Good_train a m h).1
      | update s x => exact ih (((a.train true).learn s x).train true) (x e) (Pols_Good_train _ _ (Pols_Good_learn s x _ (Pols_Good_train a true h).1)).1
  have h2 : ∀ (us : List (Event P X)), (∀ u ∈ us, u.IsUpdate) → ∀ (a : Pols P X) (e : X), a.Good → a.In true →
      ∃ (a' : Pols P X) (e' : X), (Pol.multi true a e).run us = .multi true a' e' ∧ a'.In true := by
    intro us
    induction us with
    | nil => intro _ a e _ h; exact ⟨a, e, rfl, h⟩
    | cons ev es ih =>
      intro hu a e h hin
      cases ev with
      | train m => exact (hu (.train m) (by simp)).elim
      | update s x =>
        have := Pols_Good_train _ true (Pols_Good_learn s x _ (Pols_Good_train a true h).1)
        exact ih (fun v hv => hu v (by simp [hv])) (((a.train true).learn s x).train true) (x e) this.1 this.2
  obtain ⟨a, e', h3, h4⟩ := h1 es agents e (Pols_Good_new agents h)
  have hr : (Pol.multi true agents e).run (es ++ .train mode :: us) = (((Pol.multi true agents e).run es).train mode).run us := by
    simp [Pol.run, List.foldl_append, Pol.apply]
  rw [hr, h3]
  have h5 := Pols_Good_train a mode h4
  match us, hu with
  | [], _ => exact ⟨a.train mode, e', rfl, by simpa using h5.2⟩
  | .train m :: us, hu => exact (hu (.train m) (by simp)).elim
  | .update s x :: us, hu =>
    have := Pols_Good_train _ true (Pols_Good_learn s x _ (Pols_Good_train _ true h5.1).1)
    obtain ⟨a', e'', h6, h7⟩ := h2 us (fun v hv => hu v (by simp [hv])) ((((a.train mode).train true).learn s x).train true) (x e') this.1 this.2
    exact ⟨a', e'', h6, by simpa using h7⟩

example : News (P := Nat) (X := Nat) Fine False
    (.cons "player_1" (Pol.new .a2c (fun _ => ⟨3, [true], false⟩) 0) (.cons "player_2" (Pol.new (.dqn true) (fun _ => ⟨3, [true, true], false⟩) 0) .nil)) :=
  .cons _ _ _ (.base _ _ _ ⟨by simp, by simp, by simp, by simp⟩) (.cons _ _ _ (.base _ _ _ ⟨by simp, by simp, by simp, by simp⟩) .nil)

/-! ### State dictionaries -/

/-- The names of the networks of a class. -/
def Kind.names (k : Kind) : List String := k.own ++ k.targets.map Prod.fst

mutual
/-- The two policies are made in the same way: the same classes with the same networks by name; parameters, modes and other attributes may differ. -/
def Pol.Alike : Pol P X → Pol P X → Prop
  | .base k _ nets _, .base k' _ nets' _ => k = k' ∧ nets.map Prod.fst = k.names ∧ nets'.map Prod.fst = k.names
  | .icm _ i _ _, .icm _ i' _ _ => i.Alike i'
  | .multi _ a _, .multi _ a' _ => a.Alike a'
  | _, _ => False

def Pols.Alike : Pols P X → Pols P X → Prop
  | .nil, .nil => True
  | .cons n p rest, .cons n' p' rest' => n = n' ∧ p.Alike p' ∧ rest.Alike rest'
  | _, _ => False
end

mutual
/-- The parameters of all networks of a policy and of the policies in it. -/
def Pol.allParams : Pol P X → List P
  | .base _ _ nets _ => nets.map fun n => n.2.params
  | .icm _ inner model _ => inner.allParams ++ [model.params]
  | .multi _ agents _ => agents.allParams

def Pols.allParams : Pols P X → List P
  | .nil => []
  | .cons _ p rest => p.allParams ++ rest.allParams
end

mutual
/-- All else: modes and attributes that are not networks. -/
def Pol.others : Pol P X → List (Bool × List (List Bool) × X)
  | .base _ t nets e => [(t, nets.map fun n => n.2.modes, e)]
  | .icm t inner model e => inner.others ++ [(t, [model.modes], e)]
  | .multi t agents e => agents.others ++ [(t, [], e)]

def Pols.others : Pols P X → List (Bool × List (List Bool) × X)
  | .nil => []
  | .cons _ p rest => p.others ++ rest.others
end

/-- C191: loading the state dictionary of a policy into another one that was made in the same way gives all networks of the second the parameters of the first. -/
def C191 : Prop :=
  ∀ (P X : Type) (p q : Pol P X), p.Alike q → ∃ q', q.load p.stateDict = some q' ∧ q'.allParams = p.allParams

/-- There are no managers. -/
def Pol.Single : Pol P X → Prop
  | .base _ _ _ _ => True
  | .icm _ inner _ _ => inner.Single
  | .multi _ _ _ => False

theorem names_nodup (k : Kind) : k.names.Nodup := by
  cases k <;> simp [Kind.names, Kind.own, Kind.targets] <;> (try split_ifs <;> simp)

theorem loadNets_spec : ∀ (nets' nets : List (String × Net P)) (d : List (List String × P)),
    nets.map Prod.fst = nets'.map Prod.fst → (∀ n ∈ nets, entry d [n.1] = some n.2.params) →
    ∃ r, loadNets d nets' = some r ∧ r.map (fun n => n.2.params) = nets.map (fun n => n.2.params) ∧
      r.map (fun n => n.2.modes) = nets'.map (fun n => n.2.modes) := by
  intro nets'
  induction nets' with
  | nil =>
    intro nets d h _
    have : nets = [] := by simpa using h
    subst this
    exact ⟨[], rfl, rfl, rfl⟩
  | cons n' ns' ih =>
    intro nets d h hd
    match nets, h, hd with
    | n :: ns, h, hd =>
      simp only [List.map_cons, List.cons.injEq] at h
      obtain ⟨r, h1, h2, h3⟩ := ih ns d h.2 (fun m hm => hd m (by simp [hm]))
      refine ⟨(n'.1, { n'.2 with params := n.2.params }) :: r, ?_, ?_, ?_⟩
      · simp only [loadNets]
        rw [← h.1, hd n (by simp), h1]
        rfl
      · simp [h2]
      · simp [h3]

theorem entry_nets : ∀ (nets : List (String × Net P)), (nets.map Prod.fst).Nodup → ∀ n ∈ nets,
    entry (nets.map fun n => ([n.1], n.2.params)) [n.1] = some n.2.params := by
  intro nets
  induction nets with
  | nil => intro _ n hn; simp at hn
  | cons m ms ih =>
    intro hnd n hn
    simp only [List.map_cons, List.nodup_cons] at hnd
    rcases List.mem_cons.mp hn with rfl | hn
    · simp [entry]
    · have hne : m.1 ≠ n.1 := by
        intro he
        exact hnd.1 (he ▸ List.mem_map_of_mem (f := Prod.fst) hn)
      have := ih hnd.2 n hn
      simp only [entry, List.map_cons, List.find?_cons] at this ⊢
      rw [show (decide ([m.1] = [n.1])) = false by simp [hne]]
      exact this

theorem stateDict_paths (p : Pol P X) : ∀ e ∈ p.stateDict, e.1 ≠ [] := by
  match p with
  | .base k t nets e =>
    intro d hd
    simp only [Pol.stateDict, List.mem_map] at hd
    obtain ⟨n, _, rfl⟩ := hd
    simp
  | .icm t inner model e =>
    intro d hd
    simp only [Pol.stateDict, List.mem_append, List.mem_map, List.mem_singleton] at hd
    rcases hd with ⟨n, _, rfl⟩ | rfl <;> simp
  | .multi t a e => intro d hd; simp [Pol.stateDict] at hd

theorem below_policy (d : List (List String × P)) (h : ∀ e ∈ d, e.1 ≠ []) (m : P) :
    below "policy" (d.map (fun e => ("policy" :: e.1, e.2)) ++ [(["model"], m)]) = d := by
  induction d with
  | nil => simp [below]
  | cons e es ih =>
    have h1 := ih (fun x hx => h x (by simp [hx]))
    have h2 := h e (by simp)
    simp only [below] at h1
    simp only [below, List.map_cons, List.cons_append, List.filterMap_cons]
    rw [if_pos ⟨trivial, h2⟩, h1]

theorem entry_model (d : List (List String × P)) (m : P) :
    entry (d.map (fun e => ("policy" :: e.1, e.2)) ++ [(["model"], m)]) ["model"] = some m := by
  induction d with
  | nil => simp [entry]
  | cons e es ih =>
    simp only [entry] at ih
    simp only [entry, List.map_cons, List.cons_append, List.find?_cons]
    rw [show decide ("policy" :: e.1 = ["model"]) = false by simp]
    exact ih

theorem load_keys (p q : Pol P X) (h : p.Alike q) (hs : p.Single) :
    ∃ q', q.loadKeys p.stateDict = some q' ∧ q'.allParams = p.allParams ∧ q'.others = q.others := by
  match p, q, h with
  | .base k t nets e, .base k' t' nets' e', h =>
    simp only [Pol.Alike] at h
    obtain ⟨rfl, h1, h2⟩ := h
    obtain ⟨r, h3, h4, h5⟩ := loadNets_spec nets' nets (nets.map fun n => ([n.1], n.2.params)) (h1.trans h2.symm)
      (entry_nets nets (h1 ▸ names_nodup k))
    refine ⟨.base k t' r e', ?_, h4, ?_⟩
    · simp only [Pol.loadKeys, Pol.stateDict, h3, Option.map_some]
    · simp only [Pol.others, h5]
  | .icm t i m e, .icm t' i' m' e', h =>
    simp only [Pol.Alike] at h
    obtain ⟨q', h1, h2, h3⟩ := load_keys i i' h hs
    refine ⟨.icm t' q' { m' with params := m.params } e', ?_, ?_, ?_⟩
    · simp only [Pol.loadKeys, Pol.stateDict]
      rw [below_policy _ (stateDict_paths i), h1, entry_model]
      rfl
    · simp [Pol.allParams, h2]
    · simp [Pol.others, h3]
  | .multi _ _ _, .multi _ _ _, _ => exact hs.elim

theorem stateDict_keys (p q : Pol P X) (h : p.Alike q) : p.stateDict.map Prod.fst = q.stateDict.map Prod.fst := by
  match p, q, h with
  | .base k t nets e, .base k' t' nets' e', h =>
    simp only [Pol.Alike] at h
    obtain ⟨rfl, h1, h2⟩ := h
    have : ∀ l : List (String × Net P), (l.map fun n => ([n.1], n.2.params)).map Prod.fst = (l.map Prod.fst).map fun s => [s] := by
      intro l; simp [Function.comp_def]
    simp only [Pol.stateDict]
    rw [this, this, h1, h2]
  | .icm t i m e, .icm t' i' m' e', h =>
    simp only [Pol.Alike] at h
    have ih := stateDict_keys i i' h
    have : ∀ l : List (List String × P), (l.map fun e => ("policy" :: e.1, e.2)).map Prod.fst = (l.map Prod.fst).map fun s => "policy" :: s := by
      intro l; simp [Function.comp_def]
    simp only [Pol.stateDict, List.map_append]
    rw [this, this, ih]
    rfl
  | .multi _ _ _, .multi _ _ _, _ => rfl

/-- **C191, what holds.** For all policies without managers of several agents, loading succeeds and restores the parameters of all networks, target networks and
networks of curiosity wrappers included. All else stays as it was in the second policy: modes, and attributes that are not networks. -/
theorem C191_partial (p q : Pol P X) (h : p.Alike q) (hs : p.Single) :
    ∃ q', q.load p.stateDict = some q' ∧ q'.allParams = p.allParams ∧ q'.others = q.others := by
  obtain ⟨q', h1, h2⟩ := load_keys p q h hs
  refine ⟨q', ?_, h2⟩
  rw [Pol.load, if_pos, h1]
  intro e he
  rw [← stateDict_keys p q h]
  exact List.mem_map_of_mem he

/-- Two policies made in the same way, with a curiosity wrapper. -/
example : (Pol.icm true (Pol.new .td3 (fun n => ⟨n.length, [true], false⟩) 5) ⟨4, [true], false⟩ 1 : Pol Nat Nat).Alike
    (.icm false (Pol.new .td3 (fun _ => ⟨3, [], false⟩) 7) ⟨9, [false], false⟩ 2) := by
  simp [Pol.Alike, Pol.new, Kind.names, Kind.build, Kind.own, Kind.targets]

/-- Being made in the same way is not lost in training. -/
theorem C191_later (p q : Pol P X) (h : p.Alike q) (hs : p.Single) (es fs : List (Event P X)) :
    (p.run es).Alike (q.run fs) ∧ (p.run es).Single := by
  have names_train : ∀ (k : Kind) (m : Bool) (nets : List (String × Net P)),
      (nets.map fun n => (n.1, if k.switches n.1 then n.2.train m else n.2)).map Prod.fst = nets.map Prod.fst := by
    intro k m nets; simp [Function.comp_def]
  have aT : ∀ (p q : Pol P X) (m : Bool), p.Single → p.Alike q → (p.train m).Alike q ∧ (p.train m).Single := by
    intro p
    induction p using Pol.rec (motive_2 := fun _ => True) with
    | base k t nets e =>
      intro q m _ h
      match q, h with
      | .base k' t' nets' e', h =>
        simp only [Pol.Alike] at h
        simp only [Pol.train, Pol.Alike]
        exact ⟨⟨h.1, (names_train k m nets).trans h.2.1, h.2.2⟩, trivial⟩
    | icm t i md e ih =>
      intro q m hs h
      match q, h with
      | .icm t' i' md' e', h =>
        simp only [Pol.Alike] at h
        simp only [Pol.train, Pol.Alike]
        exact ih i' m hs h
    | multi => intro q m hs; exact hs.elim
    | nil => trivial
    | cons => trivial
  have aL : ∀ (p q : Pol P X) (s : P → P) (x : X → X), p.Single → p.Alike q → (p.learn s x).Alike q ∧ (p.learn s x).Single := by
    intro p
    induction p using Pol.rec (motive_2 := fun _ => True) with
    | base k t nets e =>
      intro q s x _ h
      match q, h with
      | .base k' t' nets' e', h =>
        simp only [Pol.Alike] at h
        simp only [Pol.learn, Pol.Alike]
        refine ⟨⟨h.1, ?_, h.2.2⟩, trivial⟩
        rw [← h.2.1]
        simp [Function.comp_def]
    | icm t i md e ih =>
      intro q s x hs h
      match q, h with
      | .icm t' i' md' e', h =>
        simp only [Pol.Alike] at h
        simp only [Pol.learn, Pol.Alike]
        exact ih i' s x hs h
    | multi => intro q s x hs; exact hs.elim
    | nil => trivial
    | cons => trivial
  have sym : ∀ (p q : Pol P X), p.Single → p.Alike q → q.Alike p ∧ q.Single := by
    intro p
    induction p using Pol.rec (motive_2 := fun _ => True) with
    | base k t nets e =>
      intro q _ h
      match q, h with
      | .base k' t' nets' e', h =>
        simp only [Pol.Alike] at h ⊢
        obtain ⟨rfl, h1, h2⟩ := h
        exact ⟨⟨rfl, h2, h1⟩, trivial⟩
    | icm t i md e ih =>
      intro q hs h
      match q, h with
      | .icm t' i' md' e', h =>
        simp only [Pol.Alike] at h ⊢
        exact ih i' hs h
    | multi => intro q hs; exact hs.elim
    | nil => trivial
    | cons => trivial
  have run1 : ∀ (es : List (Event P X)) (p q : Pol P X), p.Single → p.Alike q → (p.run es).Alike q ∧ (p.run es).Single := by
    intro es
    induction es with
    | nil => intro p q hs h; exact ⟨h, hs⟩
    | cons e es ih =>
      intro p q hs h
      cases e with
      | train m =>
        obtain ⟨h1, h2⟩ := aT p q m hs h
        exact ih _ q h2 h1
      | update s x =>
        obtain ⟨h1, h2⟩ := aT p q true hs h
        obtain ⟨h3, h4⟩ := aL _ q s x h2 h1
        obtain ⟨h5, h6⟩ := aT _ q p.training h4 h3
        exact ih _ q h6 h5
  obtain ⟨h1, h2⟩ := run1 es p q hs h
  obtain ⟨h3, h4⟩ := sym _ _ h2 h1
  obtain ⟨h5, h6⟩ := run1 fs q _ h4 h3
  obtain ⟨h7, h8⟩ := sym _ _ h6 h5
  exact ⟨h7, h8⟩

/-- A state dictionary with a key that the policy does not have is refused. -/
theorem C191_refused (q : Pol P X) (d : List (List String × P)) (e : List String × P) (he : e ∈ d) (hn : e.1 ∉ q.stateDict.map Prod.fst) : q.load d = none := by
  rw [Pol.load, if_neg]
  intro h
  exact hn (h e he)

/-- A state dictionary that lacks a network is refused. -/
theorem C191_missing (k : Kind) (t : Bool) (nets : List (String × Net P)) (e : X) (d : List (List String × P)) (n : String × Net P) (hn : n ∈ nets)
    (hd : [n.1] ∉ d.map Prod.fst) : (Pol.base k t nets e).load d = none := by
  have : loadNets d nets = none := by
    induction nets with
    | nil => simp at hn
    | cons m ms ih =>
      simp only [loadNets]
      rcases List.mem_cons.mp hn with rfl | hn
      · have : entry d [n.1] = none := by
          simp only [entry, Option.map_eq_none_iff, List.find?_eq_none]
          intro x hx hc
          exact hd (by simpa using ⟨x.2, by simpa [← (by simpa using hc : x.1 = [n.1])] using hx⟩)
        rw [this]
        rfl
      · rw [ih hn]
        cases entry d [m.1] <;> rfl
  rw [Pol.load]
  split_ifs
  · simp [Pol.loadKeys, this]
  · rfl

/-- For a manager of several agents the state dictionary is empty, and loading it changes nothing, without an error. -/
theorem C191_manager (t t' : Bool) (a b : Pols P X) (e e' : X) :
    (Pol.multi t a e).stateDict = [] ∧ (Pol.multi t' b e').load (Pol.multi t a e).stateDict = some (.multi t' b e') := by
  refine ⟨rfl, ?_⟩
  rw [Pol.load, if_pos (by simp [Pol.stateDict])]
  rfl

/-- **C191 is violated**: by managers of several agents. -/
theorem C191_violated : ¬ C191 := by
  intro h
  obtain ⟨q', h1, h2⟩ := h Nat Nat (.multi true (.cons "a" (Pol.new .pg (fun _ => ⟨3, [true], false⟩) 0) .nil) 0)
    (.multi true (.cons "a" (Pol.new .pg (fun _ => ⟨4, [true], false⟩) 0) .nil) 0)
    (by simp [Pol.Alike, Pols.Alike, Pol.new, Kind.names, Kind.build, Kind.own, Kind.targets])
  rw [(C191_manager _ _ _ _ _ _).2] at h1
  obtain rfl := Option.some.inj h1
  simp [Pol.allParams, Pols.allParams, Pol.new, Kind.build, Kind.own, Kind.targets] at h2

end Verif.Modules
