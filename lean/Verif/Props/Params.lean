import Verif.Model.Params

/-!
# Property C165: parameters of the high-level interface reach the policy
-/

namespace Verif.Params

variable {V : Type}

/-- The fields that hold learning rate scheduler factories, and the optimizer each is for: the only optimizer, or that of the network it is named after. -/
def factoryFields : Algo → List (Opt × String)
  | .pg | .a2c | .ppo | .npg | .trpo | .dqn | .iqn => [(.single, "lr_scheduler_factory")]
  | .ddpg | .redq => [(.actor, "actor_lr_scheduler_factory"), (.critic1, "critic_lr_scheduler_factory")]
  | .sac | .discreteSac | .td3 =>
    [(.actor, "actor_lr_scheduler_factory"), (.critic1, "critic1_lr_scheduler_factory"), (.critic2, "critic2_lr_scheduler_factory")]

/-- The scheduler of the optimizer `o` made by the factory in a field. -/
def made (o : Opt) : Val V → Option (Nat × Opt)
  | .lrFactory i => some (i, o)
  | _ => none

/-- The schedulers to be made: for each factory that is given one scheduler, of its optimizer. -/
def wanted (a : Algo) (v : String → Val V) : List (Nat × Opt) :=
  (factoryFields a).filterMap fun x => made x.1 (v x.2)

/-- The value that reaches the policy for the field `k`: the value the user has given, except that factories are replaced by what they make where the
parameter classes allow a factory, and `"default"` for the scaling of actions by whether the action space is continuous. -/
def reached (continuous : Bool) (k : String) : Val V → Val V
  | .default => if k = "action_scaling" then .bool continuous else .default
  | .alphaFactory i => if k = "alpha" then .alphaOf i else .alphaFactory i
  | .noiseFactory i => if k = "exploration_noise" then .noiseOf i else .noiseFactory i
  | .envFactory i => if k = "policy_noise" ∨ k = "noise_clip" then .envOf i else .envFactory i
  | v => v

/-- The fields that are arguments of the constructor. -/
def kept (a : Algo) : List String := a.fields.filter fun k => (a.required ++ a.optional).contains k

/-- What `create_kwargs` returns. -/
def result (a : Algo) (c : Bool) (v : String → Val V) : Dict V :=
  (kept a).map (fun k => (k, reached c k (v k))) ++ [("lr_scheduler", combine (wanted a v))]

theorem schedulersOf_eq (o : Opt) (v : Val V) (h : v = .absent ∨ ∃ i, v = .lrFactory i) :
    schedulersOf o v = .ok (made o v).toList := by
  rcases h with rfl | ⟨i, rfl⟩ <;> rfl

theorem filterMap_cons_toList {α β : Type} (f : α → Option β) (x : α) (l : List α) : (x :: l).filterMap f = (f x).toList ++ l.filterMap f := by
  cases h : f x <;> simp [h]

theorem changeScaling_eq (c : Bool) (v : Val V) : changeScaling c v = reached c "action_scaling" v := by
  cases v <;> simp [changeScaling, reached]

theorem changeAlpha_eq (c : Bool) (v : Val V) : changeAlpha v = reached c "alpha" v := by
  cases v <;> simp [changeAlpha, reached]

theorem changeNoise_eq (c : Bool) (v : Val V) : changeNoise v = reached c "exploration_noise" v := by
  cases v <;> simp [changeNoise, reached]

theorem changeEnv_eq (c : Bool) (v : Val V) : changeEnv v = reached c "policy_noise" v := by
  cases v <;> simp [changeEnv, reached]

theorem reached_clip (c : Bool) (v : Val V) : reached c "noise_clip" v = reached c "policy_noise" v := by
  cases v <;> simp [reached]

theorem reached_plain (c : Bool) (k : String) (h1 : k ≠ "action_scaling") (h2 : k ≠ "alpha") (h3 : k ≠ "exploration_noise") (h4 : k ≠ "policy_noise")
    (h5 : k ≠ "noise_clip") (v : Val V) : reached c k v = v := by
  cases v <;> simp [reached, h1, h2, h3, h4, h5]

theorem createKwargs_eq (a : Algo) (c : Bool) (v : String → Val V)
    (hv : ∀ x ∈ factoryFields a, v x.2 = .absent ∨ ∃ i, v x.2 = .lrFactory i) : a.createKwargs c v = .ok (result a c v) := by
  cases a <;>
  · simp only [factoryFields, List.forall_mem_cons, List.not_mem_nil, false_implies, implies_true, and_true] at hv
    simp [Algo.createKwargs, Algo.optims, Algo.transformers, Algo.fields, dualTrans, lrTrans, actorCriticTrans, pgFields, gaeFields, sacFields, dqnFields,
      ddpgFields, applyAll, Trans.apply, dropAll, multiLoop, Dict.get, Dict.del, Dict.set, Except.bind, Except.map, schedulersOf_eq, hv, result, kept,
      Algo.required, Algo.optional, reached_plain, changeScaling_eq, changeAlpha_eq c, changeNoise_eq c, changeEnv_eq c,
      reached_clip, wanted, factoryFields, filterMap_cons_toList]

/-- C165. For every algorithm, whatever the values of the parameters, provided that the fields for learning rate scheduler factories hold factories or
`None`: the arguments made from the parameters and those added by the agent factory fit the constructor of the policy, that is none is given twice, all
are known to the constructor and none without default value is missing. -/
theorem C165_fit (a : Algo) (c : Bool) (v : String → Val V) (hv : ∀ x ∈ factoryFields a, v x.2 = .absent ∨ ∃ i, v x.2 = .lrFactory i) :
    ∃ d, a.createKwargs c v = .ok d ∧ (d.keys ++ a.added).Nodup ∧ (∀ k ∈ d.keys ++ a.added, k ∈ a.required ++ a.optional) ∧
      ∀ k ∈ a.required, k ∈ d.keys ++ a.added := by
  refine ⟨_, createKwargs_eq a c v hv, ?_⟩
  have hk : (result a c v).keys = kept a ++ ["lr_scheduler"] := by
    simp [result, Dict.keys, Function.comp_def]
  rw [hk]
  cases a <;> decide +kernel

/-- C165. Every field that is an argument of the constructor arrives with the value given by the user, factories and `"default"` replaced by what
they stand for; the fields that are no arguments are learning rates, the factories of their schedulers, and two sizes of the network of IQN. -/
theorem C165_values (a : Algo) (c : Bool) (v : String → Val V) (d : Dict V) (hd : a.createKwargs c v = .ok d)
    (hv : ∀ x ∈ factoryFields a, v x.2 = .absent ∨ ∃ i, v x.2 = .lrFactory i) (k : String) (hk : k ∈ a.fields) :
    (k ∈ a.required ++ a.optional → (k, reached c k (v k)) ∈ d) ∧
    (k ∉ a.required ++ a.optional →
      k ∈ ["lr", "actor_lr", "critic_lr", "critic1_lr", "critic2_lr"] ∨ (∃ o, (o, k) ∈ factoryFields a) ∨ (a = .iqn ∧ k ∈ ["hidden_sizes", "num_cosines"])) := by
  rw [createKwargs_eq a c v hv] at hd
  obtain rfl := Except.ok.inj hd
  constructor
  · intro h
    refine List.mem_append_left _ (List.mem_map.2 ⟨k, ?_, rfl⟩)
    simpa [kept] using ⟨hk, by simpa using h⟩
  · intro h
    have : ∀ k ∈ a.fields, k ∉ a.required ++ a.optional → k ∈ ["lr", "actor_lr", "critic_lr", "critic1_lr", "critic2_lr"] ∨
        k ∈ (factoryFields a).map Prod.snd ∨ (a = .iqn ∧ k ∈ ["hidden_sizes", "num_cosines"]) := by
      clear h hk k hd hv
      cases a <;> decide +kernel
    rcases this k hk h with h | h | h
    · exact .inl h
    · obtain ⟨⟨o, k'⟩, h1, rfl⟩ := List.mem_map.1 h
      exact .inr (.inl ⟨o, h1⟩)
    · exact .inr (.inr h)

/-- C165. The learning rate schedulers: one for each factory given, for the optimizer of the network the factory is named after, and several combined
into one object. -/
theorem C165_schedulers (a : Algo) (c : Bool) (v : String → Val V) (d : Dict V) (hd : a.createKwargs c v = .ok d)
    (hv : ∀ x ∈ factoryFields a, v x.2 = .absent ∨ ∃ i, v x.2 = .lrFactory i) :
    (∀ x, ("lr_scheduler", x) ∈ d → (wanted a v = [] → x = .absent) ∧ (∀ i o, wanted a v = [(i, o)] → x = .scheduler i o) ∧
      (2 ≤ (wanted a v).length → x = .schedulers (wanted a v))) ∧ "lr_scheduler" ∈ d.keys := by
  rw [createKwargs_eq a c v hv] at hd
  obtain rfl := Except.ok.inj hd
  constructor
  · intro x hx
    have hx : x = combine (wanted a v) := by
      rcases List.mem_append.1 hx with h | h
      · obtain ⟨k, h1, h2⟩ := List.mem_map.1 h
        obtain rfl : k = "lr_scheduler" := congrArg Prod.fst h2
        exact absurd h1 (by cases a <;> decide +kernel)
      · simpa using h
    subst hx
    generalize wanted a v = l
    match l with
    | [] => simp [combine]
    | [(i, o)] => simp [combine]
    | (i, o) :: y :: l => simp [combine]
  · simp [result, Dict.keys]

/-- SAC in a continuous environment with a scheduler for the first critic and automatic `alpha`. -/
example : (Algo.createKwargs (V := Nat) .sac true fun k =>
      if k = "alpha" then .alphaFactory 1 else if k = "critic1_lr_scheduler_factory" then .lrFactory 7
      else if k.endsWith "factory" then .absent else if k = "action_scaling" then .default else .other 0).toOption =
    some [("tau", .other 0), ("gamma", .other 0), ("alpha", .alphaOf 1), ("estimation_step", .other 0), ("exploration_noise", .other 0),
      ("action_scaling", .bool true), ("action_bound_method", .other 0), ("deterministic_eval", .other 0), ("lr_scheduler", .scheduler 7 .critic1)] := by
  decide +kernel

/-- DDPG with two schedulers. -/
example : ((Algo.createKwargs (V := Nat) .ddpg true fun k =>
      if k = "actor_lr_scheduler_factory" then .lrFactory 1 else if k = "critic_lr_scheduler_factory" then .lrFactory 2 else .other 0).toOption.bind
        fun d => (d.get "lr_scheduler").toOption) =
    some (.schedulers [(1, .actor), (2, .critic1)]) := by
  decide +kernel

end Verif.Params
