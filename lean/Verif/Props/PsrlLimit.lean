import Verif.Props.Psrl
import Mathlib.Probability.StrongLaw
import Mathlib.Probability.Independence.InfinitePi
import Verif.Spec.SampleDist

/-!
C247: the posterior of PSRL concentrates at the environment.
-/

namespace Verif.Psrl

open MeasureTheory ProbabilityTheory Filter Topology

/-! ### Specification -/

/-- What happened when `a` was taken in `s`: rewards and next states, in order. -/
def outcomes (rows : List (Row ℝ)) (s a : Nat) : List (ℝ × Nat) := (rows.filter fun r => r.obs = s ∧ r.act = a).map fun r => (r.rew, r.obsNext)

/-- What the environment does is random: `out k` is what happens when `a` is taken in `s` for the `k`-th time; these are independent and have the same distribution. -/
structure Stationary {Ω : Type} [MeasurableSpace Ω] (μ : Measure Ω) (out : Nat → Ω → ℝ × Nat) : Prop where
  indep : Pairwise fun i j => IndepFun (out i) (out j) μ
  ident : ∀ i, IdentDistrib (out i) (out 0) μ μ
  square : Integrable (fun ω => (out 0 ω).1 ^ 2) μ

/-- The data of one run: `cnt i` times `a` was taken in `s` in the first `i` updates, and then the environment did what it does. -/
structure Run (s a : Nat) (out : Nat → ℝ × Nat) (batches : Nat → List (List (Row ℝ))) (cnt : Nat → Nat) : Prop where
  outcomes : ∀ i, outcomes (batches i).flatten s a = (List.range (cnt i)).map out
  forever : Tendsto cnt atTop atTop

/-! ### Lemmas -/

theorem outcomes_rewards (rows : List (Row ℝ)) (s a : Nat) : rewards rows s a = (outcomes rows s a).map Prod.fst := by
  unfold rewards outcomes
  rw [List.map_map]
  rfl

theorem outcomes_seen (rows : List (Row ℝ)) (s a s' : Nat) : seen rows s a s' = (outcomes rows s a).countP fun o => o.2 = s' := by
  unfold seen outcomes
  rw [List.countP_map, List.countP_filter]
  congr 1
  funext r
  simp only [Function.comp_apply, Bool.decide_and]
  cases Decidable.decide (r.obs = s) <;> cases Decidable.decide (r.act = a) <;> cases Decidable.decide (r.obsNext = s') <;> rfl

theorem range_sum (f : Nat → ℝ) (n : Nat) : ((List.range n).map f).sum = ∑ k ∈ Finset.range n, f k := rfl

theorem range_countP (p : Nat → Bool) (n : Nat) : ((List.range n).countP p : ℝ) = ∑ k ∈ Finset.range n, if p k then 1 else 0 := by
  induction n with
  | zero => simp
  | succ n ih =>
    rw [List.range_succ, List.countP_append, Finset.sum_range_succ, Nat.cast_add, ih]
    congr 1
    cases h : p n <;> simp [h]

theorem ratio_limit {x : Nat → ℝ} {l : ℝ} (a b : ℝ) {cnt : Nat → Nat} (hcnt : Tendsto cnt atTop atTop)
    (h : Tendsto (fun n : Nat => x n / n) atTop (𝓝 l)) : Tendsto (fun i => (a + x (cnt i)) / (b + (cnt i : ℝ))) atTop (𝓝 l) := by
  have h1 : Tendsto (fun n : Nat => (a + x n) / (b + (n : ℝ))) atTop (𝓝 l) := by
    have hn : Tendsto (fun n : Nat => (n : ℝ)⁻¹) atTop (𝓝 0) := tendsto_inv_atTop_zero.comp tendsto_natCast_atTop_atTop
    have h2 : Tendsto (fun n : Nat => (a * (n : ℝ)⁻¹ + x n / n) / (b * (n : ℝ)⁻¹ + 1)) atTop (𝓝 ((a * 0 + l) / (b * 0 + 1))) :=
      ((hn.const_mul a).add h).div ((hn.const_mul b).add_const 1) (by norm_num)
    rw [mul_zero, mul_zero, zero_add, zero_add, div_one] at h2
    refine h2.congr' ?_
    filter_upwards [eventually_gt_atTop 0] with n hn0
    have : (n : ℝ) ≠ 0 := by exact_mod_cast hn0.ne'
    field_simp
  exact h1.comp hcnt

theorem learned_var (loop : Bool) (s a : Nat) (bs : List (List (Row ℝ))) (m : Model ℝ) (hb : bs ≠ []) :
    (learned loop m bs).rewVar s a = postVar ((learned loop m bs).rewCount s a)
      ((learned loop m bs).rewSquareSum s a / (learned loop m bs).rewCount s a - (learned loop m bs).rewMean s a ^ 2)
      (learned loop m bs).tiny ((learned loop m bs).stdPrior s a) := by
  induction bs generalizing m with
  | nil => exact absurd rfl hb
  | cons b bs ih =>
    by_cases hb : bs = []
    · subst hb; rfl
    · exact ih (m.learn loop b) hb

theorem postVar_pos {count rawVar tiny std : ℝ} (hc : 0 < count) (hr : 0 < rawVar + tiny) (hs : 0 < std) :
    postVar count rawVar tiny std = some (1 / (count / (rawVar + tiny) + 1 / std ^ 2)) := by
  unfold postVar
  rw [if_neg hr.ne']
  simp only
  rw [if_pos (by positivity)]

/-! ### C247 -/

variable {Ω : Type} [MeasurableSpace Ω] {μ : Measure Ω}

/-- C247 in full, for one run, an action `a` in a state `s` and `nS` states: the posterior means of the reward and of the transition probabilities tend to the environment's, and the
variance of the sampled reward becomes a real number and tends to 0. -/
def Concentrates (m : Nat → Model ℝ) (s a nS : Nat) (mean : ℝ) (prob : Nat → ℝ) : Prop :=
  Tendsto (fun i => (m i).rewMean s a) atTop (𝓝 mean) ∧
  (∀ s' < nS, Tendsto (fun i => (m i).trans s a s' / ∑ s'' ∈ Finset.range nS, (m i).trans s a s'') atTop (𝓝 (prob s'))) ∧
  ∃ v : Nat → ℝ, (∀ᶠ i in atTop, (m i).rewVar s a = some (v i)) ∧ Tendsto v atTop (𝓝 0)

/-- **C247.** With probability 1, whatever the agent does: if the action is taken in the state again and again, the posterior concentrates at the environment. (Missing: states in which
episodes end, with `add_done_loop`, see `C247_violated`.) -/
theorem C247_partial [IsProbabilityMeasure μ] (loop : Bool) (transPrior : Nat → Nat → Nat → ℝ) (meanPrior stdPrior : Nat → Nat → ℝ) (eps tiny : ℝ) (he : 0 < eps)
    (ht : 0 < tiny) (s a nS : Nat) (hsd : 0 < stdPrior s a) (out : Nat → Ω → ℝ × Nat) (hout : Stationary μ out) (hS : ∀ k ω, (out k ω).2 < nS) :
    ∀ᵐ ω ∂μ, ∀ batches cnt, Run s a (fun k => out k ω) batches cnt → (loop = true → ∀ i, ended (batches i).flatten s = 0) →
      Concentrates (fun i => learned loop (Model.new transPrior meanPrior stdPrior eps tiny) (batches i)) s a nS (∫ ω, (out 0 ω).1 ∂μ)
        fun s' => μ.real {ω | (out 0 ω).2 = s'} := by
  have hm1 : Measurable fun o : ℝ × Nat => o.1 := measurable_fst
  have hm2 : Measurable fun o : ℝ × Nat => o.1 ^ 2 := measurable_fst.pow_const 2
  have hm3 : ∀ s', Measurable fun o : ℝ × Nat => if o.2 = s' then (1 : ℝ) else 0 := fun s' =>
    Measurable.ite (measurableSet_eq_fun measurable_snd measurable_const) measurable_const measurable_const
  have hae : ∀ i, AEMeasurable (out i) μ := fun i => (hout.ident i).aemeasurable_fst
  have hint1 : Integrable (fun ω => (out 0 ω).1) μ := by
    have hmem : MemLp (fun ω => (out 0 ω).1) 2 μ := (memLp_two_iff_integrable_sq (hm1.comp_aemeasurable (hae 0)).aestronglyMeasurable).mpr hout.square
    exact hmem.integrable (by norm_num)
  have hint3 : ∀ s', Integrable (fun ω => if (out 0 ω).2 = s' then (1 : ℝ) else 0) μ := fun s' =>
    Integrable.of_bound ((hm3 s').comp_aemeasurable (hae 0)).aestronglyMeasurable 1 (Eventually.of_forall fun ω => by split <;> simp)
  have law : ∀ f : ℝ × Nat → ℝ, Measurable f → Integrable (fun ω => f (out 0 ω)) μ →
      ∀ᵐ ω ∂μ, Tendsto (fun n : ℕ => (∑ k ∈ Finset.range n, f (out k ω)) / n) atTop (𝓝 (∫ ω, f (out 0 ω) ∂μ)) := by
    intro f hf hi
    exact strong_law_ae_real (fun k ω => f (out k ω)) hi (fun i j hij => (hout.indep hij).comp hf hf) fun i => (hout.ident i).comp hf
  filter_upwards [law _ hm1 hint1, law _ hm2 hout.square, ae_all_iff.mpr fun s' => law _ (hm3 s') (hint3 s')] with ω l1 l2 l3
  intro batches cnt hrun hend
  have hk := fun i => by
    have := learned_knows loop (Model.new transPrior meanPrior stdPrior eps tiny) he (batches i) _ [] (new_knows loop transPrior meanPrior stdPrior eps tiny)
    rwa [List.nil_append] at this
  have hz : ∀ i, (if loop = true then (ended (batches i).flatten s : ℝ) else 0) = 0 := by
    intro i
    split
    · rw [hend ‹_› i, Nat.cast_zero]
    · rfl
  have hrew : ∀ i, rewards (batches i).flatten s a = (List.range (cnt i)).map fun k => (out k ω).1 := by
    intro i
    rw [outcomes_rewards, hrun.outcomes, List.map_map]
    rfl
  have hcount : ∀ i, (learned loop (Model.new transPrior meanPrior stdPrior eps tiny) (batches i)).rewCount s a = eps + (cnt i : ℝ) := by
    intro i
    rw [(hk i).count, hz, hrew, List.length_map, List.length_range, add_zero]
    rfl
  have hmean : ∀ i, (learned loop (Model.new transPrior meanPrior stdPrior eps tiny) (batches i)).rewMean s a =
      (meanPrior s a * eps + ∑ k ∈ Finset.range (cnt i), (out k ω).1) / (eps + (cnt i : ℝ)) := by
    intro i
    have h1 := (hk i).mean s a
    have h2 := (count_pos (hk i) he s a).ne'
    rw [hcount] at h1 h2
    rw [eq_div_iff h2, h1, hrew, range_sum]
    rfl
  have lmean := ratio_limit (x := fun n => ∑ k ∈ Finset.range n, (out k ω).1) (meanPrior s a * eps) eps hrun.forever l1
  refine ⟨?_, ?_, ?_⟩
  · simp only [hmean]
    exact lmean
  · intro s' hs'
    have htr : ∀ i s'', (learned loop (Model.new transPrior meanPrior stdPrior eps tiny) (batches i)).trans s a s'' =
        transPrior s a s'' + ∑ k ∈ Finset.range (cnt i), if (out k ω).2 = s'' then (1 : ℝ) else 0 := by
      intro i s''
      rw [(hk i).trans, outcomes_seen, hrun.outcomes, List.countP_map, range_countP]
      have : (if loop = true ∧ s'' = s then (ended (batches i).flatten s : ℝ) else 0) = 0 := by
        split
        · rw [hend (by tauto) i, Nat.cast_zero]
        · rfl
      rw [this, add_zero]
      simp [Model.new]
    have htot : ∀ i, ∑ s'' ∈ Finset.range nS, (learned loop (Model.new transPrior meanPrior stdPrior eps tiny) (batches i)).trans s a s'' =
        ∑ s'' ∈ Finset.range nS, transPrior s a s'' + (cnt i : ℝ) := by
      intro i
      simp only [htr, Finset.sum_add_distrib]
      congr 1
      rw [Finset.sum_comm]
      have : ∀ k, ∑ s'' ∈ Finset.range nS, (if (out k ω).2 = s'' then (1 : ℝ) else 0) = 1 := fun k => by
        rw [Finset.sum_ite_eq, if_pos (Finset.mem_range.mpr (hS k ω))]
      simp [this]
    have hp : μ.real {ω | (out 0 ω).2 = s'} = ∫ ω, (if (out 0 ω).2 = s' then (1 : ℝ) else 0) ∂μ := by
      have hset : NullMeasurableSet {ω | (out 0 ω).2 = s'} μ :=
        (measurable_snd.comp_aemeasurable (hae 0)).nullMeasurableSet_preimage (measurableSet_singleton s')
      have hind : (fun ω => if (out 0 ω).2 = s' then (1 : ℝ) else 0) = Set.indicator {ω | (out 0 ω).2 = s'} fun _ => 1 := by
        funext ω
        simp [Set.indicator]
      rw [hind, integral_indicator₀ hset]
      simp
    show Tendsto _ atTop (𝓝 (μ.real {ω | (out 0 ω).2 = s'}))
    rw [hp]
    refine (ratio_limit (x := fun n => ∑ k ∈ Finset.range n, if (out k ω).2 = s' then (1 : ℝ) else 0) (transPrior s a s')
      (∑ s'' ∈ Finset.range nS, transPrior s a s'') hrun.forever (l3 s')).congr fun i => ?_
    rw [htot, htr]
  · have hsq : ∀ i, (learned loop (Model.new transPrior meanPrior stdPrior eps tiny) (batches i)).rewSquareSum s a =
        0 + ∑ k ∈ Finset.range (cnt i), (out k ω).1 ^ 2 := by
      intro i
      rw [(hk i).square, hrew, List.map_map, zero_add]
      rfl
    have lraw := (ratio_limit (x := fun n => ∑ k ∈ Finset.range n, (out k ω).1 ^ 2) 0 eps hrun.forever l2).sub (lmean.pow 2)
    let raw : Nat → ℝ := fun i => (0 + ∑ k ∈ Finset.range (cnt i), (out k ω).1 ^ 2) / (eps + (cnt i : ℝ)) -
      ((meanPrior s a * eps + ∑ k ∈ Finset.range (cnt i), (out k ω).1) / (eps + (cnt i : ℝ))) ^ 2
    have lraw : Tendsto raw atTop (𝓝 (∫ ω, (out 0 ω).1 ^ 2 ∂μ - (∫ ω, (out 0 ω).1 ∂μ) ^ 2)) := lraw
    have hvar0 : 0 ≤ ∫ ω, (out 0 ω).1 ^ 2 ∂μ - (∫ ω, (out 0 ω).1 ∂μ) ^ 2 := by
      have hmem : MemLp (fun ω => (out 0 ω).1) 2 μ := (memLp_two_iff_integrable_sq (hm1.comp_aemeasurable (hae 0)).aestronglyMeasurable).mpr hout.square
      have := variance_nonneg (fun ω => (out 0 ω).1) μ
      rw [variance_eq_sub hmem] at this
      exact this
    have lpos : ∀ᶠ i in atTop, 0 < raw i + tiny := by
      have h1 := lraw.add_const tiny
      exact h1.eventually (lt_mem_nhds (by linarith))
    have lcnt : Tendsto (fun i => eps + (cnt i : ℝ)) atTop atTop := tendsto_atTop_add_const_left _ _ (tendsto_natCast_atTop_atTop.comp hrun.forever)
    refine ⟨fun i => 1 / ((eps + (cnt i : ℝ)) / (raw i + tiny) + 1 / stdPrior s a ^ 2), ?_, ?_⟩
    · filter_upwards [lpos, hrun.forever.eventually_gt_atTop 0] with i hi hci
      have hne : batches i ≠ [] := by
        intro h0
        have := hrun.outcomes i
        rw [h0] at this
        have := congrArg List.length this
        simp [Psrl.outcomes] at this
        omega
      rw [learned_var loop s a _ _ hne, hcount, hmean, hsq, (hk i).same.2.1, (hk i).same.2.2]
      have hi' : 0 < (0 + ∑ k ∈ Finset.range (cnt i), (out k ω).1 ^ 2) / (eps + (cnt i : ℝ)) -
        ((meanPrior s a * eps + ∑ k ∈ Finset.range (cnt i), (out k ω).1) / (eps + (cnt i : ℝ))) ^ 2 + tiny := hi
      exact postVar_pos (by positivity) hi' hsd
    · have h1 : Tendsto (fun i => (raw i + tiny)⁻¹) atTop (𝓝 (∫ ω, (out 0 ω).1 ^ 2 ∂μ - (∫ ω, (out 0 ω).1 ∂μ) ^ 2 + tiny)⁻¹) :=
        (lraw.add_const tiny).inv₀ (by linarith)
      have h2 : Tendsto (fun i => (eps + (cnt i : ℝ)) / (raw i + tiny) + 1 / stdPrior s a ^ 2) atTop atTop := by
        refine tendsto_atTop_add_const_right _ _ ?_
        simp only [div_eq_mul_inv]
        exact lcnt.atTop_mul_pos (by positivity) h1
      simp only [one_div]
      exact tendsto_inv_atTop_zero.comp (by simpa only [one_div] using h2)

/-- Data of a run: `a` is taken in `s` in every step, and no episode ends. -/
def always (s a : Nat) (out : Nat → ℝ × Nat) (i : Nat) : List (List (Row ℝ)) := [(List.range i).map fun k => ⟨s, a, (out k).2, (out k).1, false⟩]

theorem always_run (s a : Nat) (out : Nat → ℝ × Nat) : Run s a out (always s a out) id := by
  refine ⟨fun i => ?_, tendsto_id⟩
  unfold always outcomes
  rw [List.flatten_singleton, List.filter_eq_self.mpr (by
    intro r hr
    obtain ⟨k, _, rfl⟩ := List.mem_map.mp hr
    simp), List.map_map]
  rfl

/-- Such outcomes exist. Here the next state is decided by a fair coin and the reward is 1 in one case and 0 in the other; so the posterior mean of the reward tends to one half, and that of the
transition probability to state 1 too. -/
example : ∃ (Ω : Type) (_ : MeasurableSpace Ω) (μ : Measure Ω) (_ : IsProbabilityMeasure μ) (out : Nat → Ω → ℝ × Nat), Stationary μ out ∧
    (∀ k ω, (out k ω).2 < 2) ∧ (∀ ω, Run 0 0 (fun k => out k ω) (always 0 0 fun k => out k ω) id) ∧
    (∀ ω i, ended (always 0 0 (fun k => out k ω) i).flatten 0 = 0) ∧ ∫ ω, (out 0 ω).1 ∂μ = 1 / 2 ∧ μ.real {ω | (out 0 ω).2 = 1} = 1 / 2 := by
  let μ : Measure (ℕ → ℝ) := Measure.infinitePi fun _ => Verif.Spec.unit
  let f : ℝ → ℝ × Nat := fun x => if x < 1 / 2 then (1, 1) else (0, 0)
  have hf : Measurable f := Measurable.ite measurableSet_Iio measurable_const measurable_const
  have hset : MeasurableSet {ω : ℕ → ℝ | ω 0 < 1 / 2} := measurableSet_lt (measurable_pi_apply 0) measurable_const
  have hhalf : μ.real {ω | ω 0 < 1 / 2} = 1 / 2 := by
    have h1 : {ω : ℕ → ℝ | ω 0 < 1 / 2} = (fun ω => ω 0) ⁻¹' Set.Iio (1 / 2) := rfl
    have h2 : Verif.Spec.unit (Set.Iio (1 / 2 : ℝ)) = ENNReal.ofReal (1 / 2) := by
      unfold Verif.Spec.unit
      rw [Measure.restrict_apply measurableSet_Iio]
      have : Set.Iio (1 / 2 : ℝ) ∩ Set.Ico 0 1 = Set.Ico 0 (1 / 2) := by
        ext x
        simp only [Set.mem_inter_iff, Set.mem_Iio, Set.mem_Ico]
        constructor
        · rintro ⟨a, b, c⟩; exact ⟨b, a⟩
        · rintro ⟨a, b⟩; exact ⟨b, a, b.trans (by norm_num)⟩
      rw [this, Real.volume_Ico, sub_zero]
    rw [measureReal_def, h1, (measurePreserving_eval_infinitePi (fun _ => Verif.Spec.unit) 0).measure_preimage measurableSet_Iio.nullMeasurableSet, h2,
      ENNReal.toReal_ofReal (by norm_num)]
  refine ⟨ℕ → ℝ, inferInstance, μ, inferInstance, fun k ω => f (ω k), ⟨?_, ?_, ?_⟩, ?_, fun ω => always_run 0 0 _, ?_, ?_, ?_⟩
  · intro i j hij
    exact (iIndepFun_infinitePi (X := fun _ x => f x) fun _ => hf).indepFun hij
  · intro i
    have he : ∀ i, MeasurePreserving (fun ω : ℕ → ℝ => ω i) μ Verif.Spec.unit := fun i => measurePreserving_eval_infinitePi (fun _ => Verif.Spec.unit) i
    have : IdentDistrib (fun ω : ℕ → ℝ => ω i) (fun ω => ω 0) μ μ := ⟨(he i).aemeasurable, (he 0).aemeasurable, by rw [(he i).map_eq, (he 0).map_eq]⟩
    exact this.comp hf
  · refine Integrable.of_bound ((hf.fst.pow_const 2).comp (measurable_pi_apply 0)).aestronglyMeasurable 1 (Eventually.of_forall fun ω => ?_)
    simp only [f]
    split <;> simp
  · intro k ω
    simp only [f]
    split <;> simp
  · intro ω i
    simp [ended, always]
  · have hind : (fun ω : ℕ → ℝ => (f (ω 0)).1) = Set.indicator {ω | ω 0 < 1 / 2} fun _ => 1 := by
      funext ω
      simp only [f, Set.indicator, Set.mem_setOf_eq]
      split <;> rfl
    rw [hind, integral_indicator hset]
    simpa using hhalf
  · have : {ω : ℕ → ℝ | (f (ω 0)).2 = 1} = {ω | ω 0 < 1 / 2} := by
      ext ω
      simp only [f, Set.mem_setOf_eq]
      split <;> simp_all
    rw [this, hhalf]

/-- **C247** fails with `add_done_loop` for a state in which episodes are cut off: `done` is also set by a time limit. In one state, every reward being 1 and every episode cut off after one
step, the posterior mean of the reward stays below one half. -/
theorem C247_violated : ∃ batches cnt, Run 0 0 (fun _ => (1, 0)) batches cnt ∧ ∀ transPrior stdPrior eps tiny, 0 < eps →
    ¬ Concentrates (fun i => learned true (Model.new transPrior (fun _ _ => 0) stdPrior eps tiny) (batches i)) 0 0 1 1 fun _ => 1 := by
  refine ⟨fun i => [List.replicate i ⟨0, 0, 0, 1, true⟩], id, ⟨fun i => ?_, tendsto_id⟩, ?_⟩
  · simp [outcomes, List.map_const']
  · intro transPrior stdPrior eps tiny he hc
    have hm : ∀ i : Nat, (learned true (Model.new transPrior (fun _ _ => 0) stdPrior eps tiny) [List.replicate i ⟨0, 0, 0, 1, true⟩]).rewMean 0 0 ≤ 1 / 2 := by
      intro i
      rw [(C109_posterior_partial true transPrior (fun _ _ => 0) stdPrior eps tiny he [List.replicate i ⟨0, 0, 0, 1, true⟩] 0 0).2]
      have h1 : rewards ([List.replicate i (⟨0, 0, 0, 1, true⟩ : Row ℝ)]).flatten 0 0 = List.replicate i 1 := by
        simp [rewards]
      have h2 : ended ([List.replicate i (⟨0, 0, 0, 1, true⟩ : Row ℝ)]).flatten 0 = i := by
        simp [ended, List.countP_replicate]
      rw [h1, h2]
      simp only [zero_mul, zero_add, List.sum_replicate, List.length_replicate, if_true, nsmul_eq_mul, mul_one]
      rw [div_le_iff₀ (by positivity)]
      linarith
    have := le_of_tendsto' hc.1 hm
    norm_num at this

end Verif.Psrl
