import Verif.Spec.OnPolicy
import Verif.Spec.Stats
import Verif.Lemmas.Stats
import Verif.Props.Returns
import Verif.Props.Stats
import Verif.Props.Batch

/-! Properties of the preparation of data in on-policy algorithms and of the repetitions of PPO (C182–C185). -/

set_option linter.unusedSectionVars false

namespace Verif.OnPolicy

open Verif.Returns Verif.Stats Verif.Spec

variable {O A P X B : Type}

/-! ### Evaluation in parts -/

private theorem filterMap_range (l : List X) : ((List.range l.length).filterMap fun i => l[i]?) = l := by
  induction l using List.reverseRecOn with
  | nil => rfl
  | append_singleton l x ih =>
    rw [List.length_append, List.length_singleton, List.range_succ, List.filterMap_append]
    congr 1
    · conv_rhs => rw [← ih]
      apply List.filterMap_congr
      intro i hi
      rw [List.getElem?_append_left (List.mem_range.1 hi)]
    · simp

private theorem parts_map {net : List X → List B} {f : X → List B} (h : Rowwise net f) (rows : List X) (parts : List (List Nat)) :
    (parts.map fun p => net (p.filterMap fun i => rows[i]?)).flatten = ((parts.flatten.filterMap fun i => rows[i]?).map f).flatten := by
  induction parts with
  | nil => simp
  | cons p ps ih => rw [List.map_cons, List.flatten_cons, ih, h, List.flatten_cons, List.filterMap_append, List.map_append, List.flatten_append]

theorem inParts_rowwise {net : List X → List B} {f : X → List B} (h : Rowwise net f) (rows : List X) (hne : rows ≠ []) {m : Int} (hm : SizeOk m) :
    inParts m net rows = some (rows.map f).flatten := by
  have hpos : 1 ≤ rows.length := List.length_pos_iff.2 hne
  obtain ⟨parts, hp⟩ := Batch.C46_ok rows.length m (List.range rows.length) true (by rcases hm with hm | hm; exacts [.inl hm, .inr ⟨hm, hpos⟩])
  have hf := (Batch.C46_partition _ _ _ _ _ (List.Perm.refl _) hp).1
  unfold inParts
  rw [hp]
  cases parts with
  | nil =>
    simp only [List.flatten_nil] at hf
    have := congrArg List.length hf
    simp at this
    omega
  | cons p ps =>
    simp only [Option.some.injEq]
    rw [parts_map h, hf, filterMap_range]

/-! ### Values, returns and advantages -/

private theorem rows_step (d : Data O A) : d.rows.map Row.step = rows d.n d.rew d.term d.trunc := by
  simp [Data.rows, rows, Data.row, Function.comp_def]

private theorem rows_ne (d : Data O A) (h : 1 ≤ d.n) : d.rows ≠ [] := by
  simp only [Data.rows, ne_eq, List.map_eq_nil_iff, List.range_eq_nil]; omega

private theorem single_flatten (f : X → B) (l : List X) : (l.map fun x => [f x]).flatten = l.map f := by
  induction l with
  | nil => rfl
  | cons x l ih => simp [ih]

private theorem add_eq (w : View ℝ) (n : Nat) (rew v v' : Nat → ℝ) (term trunc : Nat → Bool) (slotOf : Nat → Nat)
    (gamma lam : ℝ) (isClose : Bool) :
    ∃ ret adv, computeEpisodicReturn w (rows n rew term trunc) ((List.range n).map slotOf)
        (some ((List.range n).map v')) (some ((List.range n).map v)) gamma lam isClose = some (ret, adv) ∧
      adv.length = n ∧ ret.length = n ∧
      ∀ t, t < n →
        adv[t]? = some (∑ l ∈ Finset.range (epLast id (endsAt w n term trunc slotOf) t - t + 1), (gamma * lam) ^ l *
          (rew (t + l) + gamma * (if w.terminated (slotOf (t + l)) then 0 else v' (t + l)) - v (t + l))) ∧
        ret[t]? = some ((∑ l ∈ Finset.range (epLast id (endsAt w n term trunc slotOf) t - t + 1), (gamma * lam) ^ l *
          (rew (t + l) + gamma * (if w.terminated (slotOf (t + l)) then 0 else v' (t + l)) - v (t + l))) + v t) := by
  obtain ⟨ret, adv, h1, h2, h3, h4⟩ := C33_gae w n rew v v' term trunc slotOf gamma lam isClose
  refine ⟨ret, adv, h1, h2, h3, fun t ht => ⟨h4 t ht, ?_⟩⟩
  unfold computeEpisodicReturn at h1
  rw [if_neg (by simp)] at h1
  simp only [curValues, Option.some.injEq, Prod.mk.injEq] at h1
  obtain ⟨rfl, rfl⟩ := h1
  rw [List.getElem?_zipWith, h4 t ht]
  simp [ht]

theorem computeReturns_eq (c : Cfg) (hm : SizeOk c.maxBatch) (critic : List O → List ℝ) (f : O → ℝ) (hf : Rowwise critic fun x => [f x])
    (w : View ℝ) (d : Data O A) (hn : 1 ≤ d.n) (rms : RMS Unit ℝ) (hs : factor c rms ≠ 0) :
    ∃ p rms', computeReturns c critic w d.rows d.indices rms = some (p, rms') ∧
      p.v = (List.range d.n).map (fun t => f (d.obs t)) ∧
      p.adv = (List.range d.n).map (d.gae w c.gamma c.lam fun o => factor c rms * f o) ∧
      p.returns = (List.range d.n).map
        (fun t => (d.gae w c.gamma c.lam (fun o => factor c rms * f o) t + factor c rms * f (d.obs t)) / factor c rms) ∧
      rms' = if c.rewNorm then rms.update ((List.range d.n).map fun t _ =>
        d.gae w c.gamma c.lam (fun o => factor c rms * f o) t + factor c rms * f (d.obs t)) else rms := by
  obtain ⟨ret, adv, h1, h2, h3, h4⟩ := add_eq w d.n d.rew (fun t => factor c rms * f (d.obs t)) (fun t => factor c rms * f (d.obsNext t)) d.term
    d.trunc d.slot c.gamma c.lam c.isClose
  have hadv : adv = (List.range d.n).map (d.gae w c.gamma c.lam fun o => factor c rms * f o) := by
    apply List.ext_getElem?
    intro t
    by_cases ht : t < d.n
    · rw [(h4 t ht).1]; simp [ht, Data.gae, Data.last]
    · rw [List.getElem?_eq_none (by omega), List.getElem?_eq_none (by simp; omega)]
  have hret : ret = (List.range d.n).map fun t => d.gae w c.gamma c.lam (fun o => factor c rms * f o) t + factor c rms * f (d.obs t) := by
    apply List.ext_getElem?
    intro t
    by_cases ht : t < d.n
    · rw [(h4 t ht).2]; simp [ht, Data.gae, Data.last]
    · rw [List.getElem?_eq_none (by omega), List.getElem?_eq_none (by simp; omega)]
  have hobs : inParts c.maxBatch critic (d.rows.map Row.obs) = some ((List.range d.n).map fun t => f (d.obs t)) := by
    rw [inParts_rowwise hf _ (by simpa using rows_ne d hn) hm, single_flatten]
    simp [Data.rows, Data.row, Function.comp_def]
  have hobs' : inParts c.maxBatch critic (d.rows.map Row.obsNext) = some ((List.range d.n).map fun t => f (d.obsNext t)) := by
    rw [inParts_rowwise hf _ (by simpa using rows_ne d hn) hm, single_flatten]
    simp [Data.rows, Data.row, Function.comp_def]
  unfold computeReturns
  rw [hobs, hobs']
  simp only [Option.bind_some]
  have e1 : (if c.rewNorm = true then ((List.range d.n).map fun t => f (d.obs t)).map (· * scale c rms) else (List.range d.n).map fun t => f (d.obs t)) =
      (List.range d.n).map fun t => factor c rms * f (d.obs t) := by
    unfold factor scale
    split_ifs
    · simp only [List.map_map]; exact List.map_congr_left fun t _ => by simp [mul_comm]
    · simp
  have e2 : (if c.rewNorm = true then ((List.range d.n).map fun t => f (d.obsNext t)).map (· * scale c rms)
      else (List.range d.n).map fun t => f (d.obsNext t)) = (List.range d.n).map fun t => factor c rms * f (d.obsNext t) := by
    unfold factor scale
    split_ifs
    · simp only [List.map_map]; exact List.map_congr_left fun t _ => by simp [mul_comm]
    · simp
  rw [e1, e2, rows_step, Data.indices, h1, Option.map_some, hret, hadv]
  by_cases hr : c.rewNorm = true
  · rw [if_pos hr, if_pos hr]
    have hsc : scale c rms = factor c rms := by rw [factor, if_pos hr, scale]
    exact ⟨_, _, rfl, rfl, rfl, by simp only [List.map_map, hsc, Function.comp_def], by simp only [List.map_map, Function.comp_def]⟩
  · rw [if_neg hr, if_neg hr]
    have hsc : factor c rms = 1 := by rw [factor, if_neg hr]
    exact ⟨_, _, rfl, rfl, rfl, by simp only [hsc, div_one], rfl⟩

/-! Data for the examples: two rows of one episode that ends with the second; the critic says 10 for the first and 20 for all other observations. -/
private def exData : Data Nat Nat := ⟨2, fun k => k + 1, fun k => k == 1, fun _ => false, id, (· + 1), id, id⟩
private def exView : View ℝ := ⟨fun k => k + 1, fun k => k == 1, fun k => k == 1, [], id⟩
private def exVal (o : Nat) : ℝ := if o = 0 then 10 else 20
private noncomputable def exCfg (rewNorm : Bool) : Cfg := { gamma := 1, lam := 1, rewNorm := rewNorm, maxBatch := 1, eps := 1, isClose := false }
private theorem exRow {X : Type} (g : X → ℝ) : Rowwise (fun l : List X => l.map g) (fun x => [g x]) := fun l => by rw [single_flatten]

/-! ### C182 -/

/-- C182. For networks that treat every row by itself, values, returns and advantages (and the statistics of returns) are the same for all values of
`max_batchsize` that are allowed. -/
theorem C182_same (c : Cfg) (m m' : Int) (hm : SizeOk m) (hm' : SizeOk m') (critic : List O → List ℝ) (f : O → ℝ) (hf : Rowwise critic fun x => [f x])
    (w : View ℝ) (rows : List (Row O A)) (indices : List Nat) (hne : rows ≠ []) (rms : RMS Unit ℝ) :
    computeReturns { c with maxBatch := m } critic w rows indices rms = computeReturns { c with maxBatch := m' } critic w rows indices rms := by
  unfold computeReturns
  simp only
  rw [inParts_rowwise hf _ (by simpa using hne) hm, inParts_rowwise hf _ (by simpa using hne) hm, inParts_rowwise hf _ (by simpa using hne) hm',
    inParts_rowwise hf _ (by simpa using hne) hm']
  rfl

example (w : View ℝ) (rms : RMS Unit ℝ) :
    computeReturns { exCfg true with maxBatch := 1 } (fun l => l.map exVal) w exData.rows exData.indices rms =
      computeReturns { exCfg true with maxBatch := -1 } (fun l => l.map exVal) w exData.rows exData.indices rms :=
  C182_same _ 1 (-1) (.inl le_rfl) (.inr rfl) _ exVal (exRow _) _ _ _ (by simp [exData, Data.rows]) _

/-- C182. The values are the outputs of the critic for the observations, the advantages are the generalised advantage estimates for it, the returns
the sum of the two (without `reward_normalization`), and no statistics are kept. -/
theorem C182_gae (c : Cfg) (hm : SizeOk c.maxBatch) (hr : c.rewNorm = false) (critic : List O → List ℝ) (f : O → ℝ)
    (hf : Rowwise critic fun x => [f x]) (w : View ℝ) (d : Data O A) (hn : 1 ≤ d.n) (rms : RMS Unit ℝ) :
    computeReturns c critic w d.rows d.indices rms = some (
      { v := (List.range d.n).map fun t => f (d.obs t)
        returns := (List.range d.n).map fun t => d.gae w c.gamma c.lam f t + f (d.obs t)
        adv := (List.range d.n).map (d.gae w c.gamma c.lam f) }, rms) := by
  have h1 : factor c rms = 1 := by simp [factor, hr]
  obtain ⟨p, rms', e, e1, e2, e3, e4⟩ := computeReturns_eq c hm critic f hf w d hn rms (by rw [h1]; exact one_ne_zero)
  rw [e]
  cases p
  simp only at e1 e2 e3
  simp only [h1, one_mul, div_one] at e2 e3
  simp only [e1, e2, e3, e4, hr]
  simp

example (rms : RMS Unit ℝ) : (computeReturns (exCfg false) (fun l => l.map exVal) exView exData.rows exData.indices rms).map
    (fun r => (r.1.v, r.1.returns, r.1.adv)) = some ([10, 20], [3, 2], [-7, -18]) := by
  have e0 : exData.last exView 0 = 1 := by decide +kernel
  have e1 : exData.last exView 1 = 1 := by decide +kernel
  rw [C182_gae _ (.inl le_rfl) rfl _ exVal (exRow _) exView exData (by decide)]
  simp [exData, List.range_succ, Data.gae, exVal, exCfg, exView, Finset.sum_range_succ] at e0 e1 ⊢
  simp [e0, e1, Finset.sum_range_succ]
  norm_num

/-- C182. The old log-probabilities of PPO, NPG and TRPO are those of the rows, one row after the other. -/
theorem C182_log_prob (m : Int) (hm : SizeOk m) (logProb : List (Row O A) → List ℝ) (g : Row O A → List ℝ) (hg : Rowwise logProb g)
    (rows : List (Row O A)) (hne : rows ≠ []) : inParts m logProb rows = some (rows.map g).flatten :=
  inParts_rowwise hg rows hne hm

example : inParts 1 (fun l => l.map fun r : Row Nat Nat => (r.act : ℝ)) exData.rows = some [0, 1] := by
  have h := C182_log_prob 1 (.inl le_rfl) (fun l => l.map fun r : Row Nat Nat => (r.act : ℝ)) (fun r => [(r.act : ℝ)]) (exRow _) exData.rows
    (by simp [exData, Data.rows])
  rw [h]
  simp [exData, Data.rows, Data.row, List.range_succ]

/-- C182. An empty batch is an error, and so is every other `max_batchsize`. -/
theorem C182_refused (c : Cfg) (critic : List O → List ℝ) (w : View ℝ) (rows : List (Row O A)) (indices : List Nat) (rms : RMS Unit ℝ)
    (h : rows = [] ∨ ¬ SizeOk c.maxBatch) : computeReturns c critic w rows indices rms = none := by
  have key : inParts c.maxBatch critic (rows.map Row.obs) = none := by
    unfold inParts
    by_cases hs : 1 ≤ (if c.maxBatch = -1 then ((rows.map Row.obs).length : Int) else c.maxBatch)
    · rcases h with rfl | h
      · unfold Batch.split
        simp only [List.map_nil, List.length_nil, Nat.cast_zero] at hs ⊢
        rw [if_pos hs]
        simp [Batch.splitLoop]
      · exfalso
        apply h
        by_cases hm : c.maxBatch = -1
        · exact .inr hm
        · rw [if_neg hm] at hs; exact .inl hs
    · unfold Batch.split
      simp only
      rw [if_neg hs]
  unfold computeReturns
  rw [key]
  rfl

example (w : View ℝ) (rms : RMS Unit ℝ) :
    computeReturns { exCfg false with maxBatch := 0 } (fun l => l.map exVal) w exData.rows exData.indices rms = none :=
  C182_refused _ _ _ _ _ _ (.inr (by unfold SizeOk; decide))

/-! ### C183 -/

private theorem varOf_nonneg (l : List ℝ) : 0 ≤ varOf l := by
  unfold varOf
  apply div_nonneg _ (Nat.cast_nonneg _)
  apply List.sum_nonneg
  intro x hx
  obtain ⟨y, _, rfl⟩ := List.mem_map.1 hx
  positivity

private theorem varSoFar_nonneg (l : List ℝ) : 0 ≤ varSoFar l := by
  unfold varSoFar
  split_ifs
  · exact zero_le_one
  · exact varOf_nonneg l

/-- The statistics are those of the returns `l`. -/
def Seen (rms : RMS Unit ℝ) (l : List ℝ) : Prop := rms.count = l.length ∧ rms.mean () = meanSoFar l ∧ rms.var () = varSoFar l

private theorem seen_update (rms : RMS Unit ℝ) (l l' : List ℝ) (h : Seen rms l) (hne : l' ≠ []) :
    Seen (rms.update (l'.map fun x _ => x)) (l ++ l') := by
  obtain ⟨h1, h2, h3⟩ := h
  have hd : Describes rms (l.map fun x _ => x) := by
    refine ⟨by simpa using h1, fun hl i => ?_⟩
    have hl' : l ≠ [] := by simpa using hl
    rw [meanSoFar, if_neg hl'] at h2
    rw [varSoFar, if_neg hl'] at h3
    simp only [List.map_map, Function.comp_def, List.map_id']
    exact ⟨h2, h3⟩
  have hu := describes_update rms _ (l'.map fun x _ => x) (by simpa using hne) hd
  obtain ⟨g1, g2⟩ := hu
  have hne' : l ++ l' ≠ [] := by simp [hne]
  have g := g2 (by simp [hne]) ()
  rw [← List.map_append] at g
  simp only [List.map_map, Function.comp_def, List.map_id'] at g
  refine ⟨by rw [g1]; simp, ?_, ?_⟩
  · rw [meanSoFar, if_neg hne', g.1]
  · rw [varSoFar, if_neg hne', g.2]

/-- One update as far as the data are concerned. -/
structure Call (O A : Type) where
  view : View ℝ
  critic : List O → List ℝ
  f : O → ℝ
  data : Data O A

/-- Several updates, each with its own data and its own critic. -/
noncomputable def runs (c : Cfg) : List (Call O A) → RMS Unit ℝ → Option (List Prepared × RMS Unit ℝ)
  | [], rms => some ([], rms)
  | x :: xs, rms =>
    (computeReturns c x.critic x.view x.data.rows x.data.indices rms).bind fun r => (runs c xs r.2).map fun q => (r.1 :: q.1, q.2)

/-- What an update with the standard deviation `σ` should give, with the returns `u` that are not normalised. -/
def Normalised (c : Cfg) (x : Call O A) (σ : ℝ) (p : Prepared) (u : List ℝ) : Prop :=
  p.v = (List.range x.data.n).map (fun t => x.f (x.data.obs t)) ∧
  p.adv = (List.range x.data.n).map (x.data.gae x.view c.gamma c.lam fun o => σ * x.f o) ∧
  u = (List.range x.data.n).map (fun t => x.data.gae x.view c.gamma c.lam (fun o => σ * x.f o) t + σ * x.f (x.data.obs t)) ∧
  p.returns = u.map (· / σ)

private theorem runs_spec (c : Cfg) (hr : c.rewNorm = true) (he : 0 < c.eps) (hm : SizeOk c.maxBatch) (calls : List (Call O A))
    (hc : ∀ x ∈ calls, Rowwise x.critic (fun o => [x.f o]) ∧ 1 ≤ x.data.n) (rms : RMS Unit ℝ) (l : List ℝ) (hs : Seen rms l) :
    ∃ (ps : List Prepared) (rms' : RMS Unit ℝ) (us : List (List ℝ)), runs c calls rms = some (ps, rms') ∧ ps.length = calls.length ∧ us.length = calls.length ∧
      (∀ (j : Nat) x p u, calls[j]? = some x → ps[j]? = some p → us[j]? = some u →
        Normalised c x (Real.sqrt (varSoFar (l ++ (us.take j).flatten) + c.eps)) p u) ∧
      Seen rms' (l ++ us.flatten) := by
  induction calls generalizing rms l with
  | nil => exact ⟨[], rms, [], rfl, rfl, rfl, by simp, by simpa using hs⟩
  | cons x xs ih =>
    obtain ⟨hx, hn⟩ := hc x (by simp)
    have hf : factor c rms = Real.sqrt (varSoFar l + c.eps) := by rw [factor, if_pos hr, hs.2.2]
    have hpos : factor c rms ≠ 0 := by
      rw [hf]
      have := varSoFar_nonneg l
      exact (Real.sqrt_pos.2 (by linarith)).ne'
    obtain ⟨p, rms1, e, e1, e2, e3, e4⟩ := computeReturns_eq c hm x.critic x.f hx x.view x.data hn rms hpos
    rw [if_pos hr] at e4
    have hu := seen_update rms l ((List.range x.data.n).map fun t =>
      x.data.gae x.view c.gamma c.lam (fun o => factor c rms * x.f o) t + factor c rms * x.f (x.data.obs t)) hs (by simp; omega)
    rw [List.map_map] at hu
    have e4' : rms1 = rms.update _ := e4
    obtain ⟨ps, rms', us, g1, g2, g3, g4, g5⟩ := ih (fun y hy => hc y (by simp [hy])) rms1 _ (by rw [e4']; exact hu)
    refine ⟨p :: ps, rms', _ :: us, by simp [runs, e, g1], by simp [g2], by simp [g3], ?_, by
      rw [List.flatten_cons, ← List.append_assoc]; exact g5⟩
    intro j y q u hj hp hu'
    cases j with
    | zero =>
      simp only [List.getElem?_cons_zero, Option.some.injEq] at hj hp hu'
      subst hj hp hu'
      simp only [List.take_zero, List.flatten_nil, List.append_nil, ← hf]
      exact ⟨e1, e2, rfl, by rw [e3, List.map_map]; rfl⟩
    | succ j =>
      simp only [List.getElem?_cons_succ] at hj hp hu'
      have := g4 j y q u hj hp hu'
      rwa [List.take_succ_cons, List.flatten_cons, ← List.append_assoc]

/-- C183. A2C (and PPO without `recompute_advantage`, NPG, TRPO) with `reward_normalization`, from a new policy on, for any number of updates: in every
update the outputs of the critic are multiplied by the standard deviation of the returns of all updates before it (1 at first), advantages and
returns are computed from these values, and the returns are divided by the same standard deviation. Afterwards the statistics are those of
the returns of all updates, each counted once. -/
theorem C183_a2c_partial (c : Cfg) (hr : c.rewNorm = true) (he : 0 < c.eps) (hm : SizeOk c.maxBatch) (calls : List (Call O A))
    (hc : ∀ x ∈ calls, Rowwise x.critic (fun o => [x.f o]) ∧ 1 ≤ x.data.n) (clip : Option ℝ) (e : ℝ) :
    ∃ (ps : List Prepared) (rms' : RMS Unit ℝ) (us : List (List ℝ)), runs c calls (RMS.new (fun _ => 0) (fun _ => 1) clip e) = some (ps, rms') ∧ ps.length = calls.length ∧ us.length = calls.length ∧
      (∀ (j : Nat) x p u, calls[j]? = some x → ps[j]? = some p → us[j]? = some u →
        Normalised c x (Real.sqrt (varSoFar (us.take j).flatten + c.eps)) p u) ∧
      rms'.count = us.flatten.length ∧ rms'.mean () = meanSoFar us.flatten ∧ rms'.var () = varSoFar us.flatten := by
  have h := runs_spec c hr he hm calls hc (RMS.new (fun _ => 0) (fun _ => 1) clip e) [] ⟨rfl, by simp [RMS.new, meanSoFar], by simp [RMS.new, varSoFar]⟩
  simpa [Seen] using h

example : ∀ x ∈ [(⟨exView, fun l => l.map exVal, exVal, exData⟩ : Call Nat Nat), ⟨exView, fun l => l.map fun _ => 0, fun _ => 0, exData⟩],
    Rowwise x.critic (fun o => [x.f o]) ∧ 1 ≤ x.data.n := by
  intro x hx
  simp only [List.mem_cons, List.not_mem_nil, or_false] at hx
  rcases hx with rfl | rfl
  · exact ⟨exRow _, by decide⟩
  · exact ⟨exRow _, by decide⟩

/-- C183. The returns of the policy gradient, without normalisation: the Monte-Carlo returns. With it: with the mean of all returns before as the value
of what comes after a truncation, less this mean and divided by the standard deviation; the statistics go on with the returns as they
were before. -/
theorem C183_pg (c : Cfg) (w : View ℝ) (d : Data O A) (rms : RMS Unit ℝ) :
    (c.rewNorm = false → rms.mean () = 0 →
      pgReturns c w (d.rows.map Row.step) d.indices rms = some ((List.range d.n).map (d.monteCarlo w c.gamma 0), rms)) ∧
    (c.rewNorm = true →
      pgReturns c w (d.rows.map Row.step) d.indices rms =
        some ((List.range d.n).map (fun t => (d.monteCarlo w c.gamma (rms.mean ()) t - rms.mean ()) / Real.sqrt (rms.var () + c.eps)),
          rms.update ((List.range d.n).map fun t _ => d.monteCarlo w c.gamma (rms.mean ()) t))) := by
  obtain ⟨ret, adv, h1, h2, h3⟩ := C35_gae w d.n d.rew (some fun _ => rms.mean ()) d.term d.trunc d.slot c.gamma
  have hret : ret = (List.range d.n).map (d.monteCarlo w c.gamma (rms.mean ())) := by
    apply List.ext_getElem?
    intro t
    by_cases ht : t < d.n
    · rw [(h3 t _ ht rfl).2 _ rfl]; simp [ht, Data.monteCarlo, Data.last]
    · rw [List.getElem?_eq_none (by omega), List.getElem?_eq_none (by simp; omega)]
  have hi : (d.indices.map fun _ => rms.mean ()) = (List.range d.n).map fun _ => rms.mean () := by
    rw [Data.indices, List.map_map]; rfl
  simp only [Option.map_some] at h1
  unfold pgReturns
  rw [hi, rows_step, show d.indices = (List.range d.n).map d.slot from rfl, h1, Option.map_some, hret]
  constructor
  · intro hr hz
    rw [if_neg (by simp [hr]), hz]
  · intro hr
    rw [if_pos hr, List.map_map, List.map_map]
    rfl

example : (pgReturns (exCfg true) exView (exData.rows.map Row.step) exData.indices ⟨fun _ => 1, fun _ => 3, 5, Option.none, 0⟩).map Prod.fst =
    some [1, 1 / 2] := by
  have e0 : exData.last exView 0 = 1 := by decide +kernel
  have e1 : exData.last exView 1 = 1 := by decide +kernel
  have h2 : Real.sqrt (3 + 1) = 2 := by rw [show (3 : ℝ) + 1 = 2 ^ 2 by norm_num]; simp
  rw [(C183_pg _ _ _ _).2 rfl]
  simp [exData, List.range_succ, Data.monteCarlo, exCfg, exView, h2] at e0 e1 ⊢
  simp [e0, e1, Finset.sum_range_succ]

/-! ### C184 -/

private noncomputable def prepOf (d : Data O A) (c : Cfg) (w : View ℝ) (f : O → ℝ) (rms : RMS Unit ℝ) : Prepared :=
  ⟨(List.range d.n).map fun t => f (d.obs t),
   (List.range d.n).map (fun t => (d.gae w c.gamma c.lam (fun o => factor c rms * f o) t + factor c rms * f (d.obs t)) / factor c rms),
   (List.range d.n).map (d.gae w c.gamma c.lam fun o => factor c rms * f o)⟩

private theorem update_var_nonneg (rms : RMS Unit ℝ) (l : List ℝ) (h : 0 ≤ rms.var ()) : 0 ≤ (rms.update (l.map fun x _ => x)).var () := by
  unfold RMS.update batchVar
  simp only
  apply div_nonneg _ (by positivity)
  apply add_nonneg
  · apply add_nonneg (by positivity)
    apply mul_nonneg _ (by positivity)
    apply div_nonneg _ (by positivity)
    apply List.sum_nonneg
    intro x hx
    obtain ⟨y, _, rfl⟩ := List.mem_map.1 hx
    positivity
  · positivity

private theorem factor_ne (c : Cfg) (he : 0 < c.eps) (rms : RMS Unit ℝ) (h : 0 ≤ rms.var ()) : factor c rms ≠ 0 := by
  unfold factor
  split_ifs
  · exact (Real.sqrt_pos.2 (by linarith)).ne'
  · exact one_ne_zero

private theorem computeReturns_prep (c : Cfg) (hm : SizeOk c.maxBatch) (he : 0 < c.eps) (critic : List O → List ℝ) (f : O → ℝ)
    (hf : Rowwise critic fun x => [f x]) (w : View ℝ) (d : Data O A) (hn : 1 ≤ d.n) (rms : RMS Unit ℝ) (hv : 0 ≤ rms.var ()) :
    ∃ rms', computeReturns c critic w d.rows d.indices rms = some (prepOf d c w f rms, rms') ∧ 0 ≤ rms'.var () ∧
      rms'.count = rms.count + if c.rewNorm then d.n else 0 := by
  obtain ⟨p, rms', h1, h2, h3, h4, h5⟩ := computeReturns_eq c hm critic f hf w d hn rms (factor_ne c he rms hv)
  refine ⟨rms', by rw [h1]; cases p; simp only at h2 h3 h4; simp only [h2, h3, h4, prepOf], ?_, ?_⟩
  · rw [h5]
    split_ifs
    · have := update_var_nonneg rms ((List.range d.n).map fun t =>
        d.gae w c.gamma c.lam (fun o => factor c rms * f o) t + factor c rms * f (d.obs t)) hv
      rwa [List.map_map] at this
    · exact hv
  · rw [h5]
    split_ifs
    · simp [RMS.update]
    · simp

private theorem pick_eq (d : Data O A) (c : Cfg) (w : View ℝ) (f : O → ℝ) (rms : RMS Unit ℝ) (lp : Nat → ℝ) (idx : List Nat) (h : ∀ k ∈ idx, k < d.n) :
    pick d.rows (prepOf d c w f rms) ((List.range d.n).map lp) idx = idx.map fun k => d.used c w f rms (lp k) k := by
  induction idx with
  | nil => rfl
  | cons k ks ih =>
    have hk := h k (by simp)
    unfold pick at ih ⊢
    rw [List.filterMap_cons, ih fun j hj => h j (by simp [hj])]
    simp [Data.rows, prepOf, hk, Data.used]

private theorem minibatchLoop_eq (train : P → List (Used O A) → P) (net : P) (ms : List (List (Used O A))) :
    minibatchLoop train net ms = ms.foldl train net := by
  induction ms generalizing net with
  | nil => rfl
  | cons m ms ih => rw [minibatchLoop, ih, List.foldl_cons]

/-- The parameters and statistics that advantages, returns and values of repetition `r` come from. -/
def Source (recompute : Bool) (s0 : St P) (r : Nat) (start : St P) : St P := if recompute ∧ 0 < r then start else s0

private theorem learnLoop_spec (c : Cfg) (hm : SizeOk c.maxBatch) (he : 0 < c.eps) (recompute : Bool) (critic : P → List O → List ℝ) (f : P → O → ℝ)
    (hf : ∀ θ, Rowwise (critic θ) fun x => [f θ x]) (train : P → List (Used O A) → P) (w : View ℝ) (d : Data O A) (hn : 1 ≤ d.n) (lp : Nat → ℝ)
    (size : Int) (hsz : 0 ≤ size) (perms : List (List Nat)) (hp : ∀ p ∈ perms, p.Perm (List.range d.n)) (step : Nat) (s0 s : St P)
    (hv : 0 ≤ s.rms.var ()) :
    ∃ reps s', learnLoop c recompute critic train w d.rows d.indices ((List.range d.n).map lp) size step perms (prepOf d c w (f s0.net) s0.rms) s =
        some (reps, s') ∧ reps.length = perms.length ∧
      (∀ rep : Repeat O A P, reps[0]? = some rep → rep.start = s) ∧
      (perms = [] → s' = s) ∧
      (∀ (r : Nat) (rep : Repeat O A P), reps[r]? = some rep →
        ((reps[r + 1]?.map Repeat.start).getD s').net = rep.minibatches.foldl train rep.start.net) ∧
      (∀ (r : Nat) (rep : Repeat O A P) perm, reps[r]? = some rep → perms[r]? = some perm →
        rep.minibatches.flatten = perm.map fun k =>
          let src := Source recompute s0 (step + r) rep.start
          d.used c w (f src.net) src.rms (lp k) k) ∧
      s'.rms.count = s.rms.count + if recompute ∧ c.rewNorm then (perms.length - if step = 0 then 1 else 0) * d.n else 0 := by
  induction perms generalizing step s0 s with
  | nil => exact ⟨[], s, rfl, rfl, by simp, fun _ => rfl, by simp, by simp, by simp⟩
  | cons perm perms ih =>
    have hperm := hp perm (by simp)
    obtain ⟨parts, hparts⟩ := Batch.C46_ok d.n (if size = 0 then -1 else size) perm true (by split_ifs <;> omega)
    have hflat := (Batch.C46_partition _ _ _ _ _ hperm hparts).1
    have hlen : d.rows.length = d.n := by simp [Data.rows]
    have hmem : ∀ part ∈ parts, ∀ k ∈ part, k < d.n := by
      intro part hpart k hk
      have : k ∈ perm := by rw [← hflat]; exact List.mem_flatten.2 ⟨part, hpart, hk⟩
      exact List.mem_range.1 (hperm.subset this)
    have hsrc : ∃ rms', (if recompute = true ∧ 0 < step then computeReturns c (critic s.net) w d.rows d.indices s.rms
        else some (prepOf d c w (f s0.net) s0.rms, s.rms)) =
          some (prepOf d c w (f (Source recompute s0 step s).net) (Source recompute s0 step s).rms, rms') ∧ 0 ≤ rms'.var () ∧
        rms'.count = s.rms.count + if recompute = true ∧ 0 < step ∧ c.rewNorm = true then d.n else 0 := by
      by_cases h : recompute = true ∧ 0 < step
      · rw [if_pos h, Source, if_pos h]
        obtain ⟨rms', g1, g2, g3⟩ := computeReturns_prep c hm he (critic s.net) (f s.net) (hf _) w d hn s.rms hv
        refine ⟨rms', g1, g2, ?_⟩
        rw [g3]
        congr 1
        by_cases hr : c.rewNorm = true
        · rw [if_pos hr, if_pos ⟨h.1, h.2, hr⟩]
        · rw [if_neg hr, if_neg fun h' => hr h'.2.2]
      · rw [if_neg h, Source, if_neg h]
        exact ⟨s.rms, rfl, hv, by rw [if_neg fun h' => h ⟨h'.1, h'.2.1⟩]; rfl⟩
    obtain ⟨rms1, g1, g2, g3⟩ := hsrc
    set src := Source recompute s0 step s with hsrcdef
    set ms := parts.map (pick d.rows (prepOf d c w (f src.net) src.rms) ((List.range d.n).map lp)) with hms
    obtain ⟨reps, s', k1, k2, k3, k4, k5, k6, k7⟩ := ih (fun p h => hp p (by simp [h])) (step + 1) src ⟨minibatchLoop train s.net ms, rms1⟩ g2
    have hmsflat : ms.flatten = perm.map fun k => d.used c w (f src.net) src.rms (lp k) k := by
      have hh : ms = parts.map fun part => part.map fun k => d.used c w (f src.net) src.rms (lp k) k := by
        rw [hms]
        exact List.map_congr_left fun part hpart => pick_eq d c w _ _ lp part (hmem part hpart)
      rw [hh, ← hflat, List.map_flatten]
    refine ⟨⟨s, ms⟩ :: reps, s', ?_, by simp [k2], by simp, by simp, ?_, ?_, ?_⟩
    · unfold learnLoop
      rw [g1]
      simp only [Option.bind_some, hlen, hparts]
      rw [← hms, k1]
      rfl
    · intro r rep hr
      cases r with
      | zero =>
        simp only [List.getElem?_cons_zero, Option.some.injEq] at hr
        subst hr
        simp only [zero_add, List.getElem?_cons_succ]
        cases hreps : reps[0]? with
        | none =>
          have : perms = [] := by
            have : reps = [] := by simpa using hreps
            rw [this] at k2
            exact List.eq_nil_of_length_eq_zero k2.symm
          simp [k4 this, minibatchLoop_eq]
        | some rep => simp [k3 rep hreps, minibatchLoop_eq]
      | succ r =>
        simp only [List.getElem?_cons_succ] at hr ⊢
        exact k5 r rep hr
    · intro r rep pm hr hpm
      cases r with
      | zero =>
        simp only [List.getElem?_cons_zero, Option.some.injEq] at hr hpm
        subst hr hpm
        exact hmsflat
      | succ r =>
        simp only [List.getElem?_cons_succ] at hr hpm
        rw [k6 r rep pm hr hpm]
        have : Source recompute src (step + 1 + r) rep.start = Source recompute s0 (step + (r + 1)) rep.start := by
          rw [show step + 1 + r = step + (r + 1) by omega]
          cases recompute with
          | true => rw [Source, Source, if_pos ⟨rfl, by omega⟩, if_pos ⟨rfl, by omega⟩]
          | false => rw [Source, Source, if_neg (by simp), if_neg (by simp), hsrcdef, Source, if_neg (by simp)]
        simp only [this]
    · rw [k7, g3]
      by_cases hrc : recompute = true ∧ c.rewNorm = true
      · rw [if_pos hrc, if_pos hrc, if_neg (show ¬ step + 1 = 0 by omega)]
        by_cases h0 : step = 0
        · rw [if_pos h0, if_neg (by omega), List.length_cons]
          simp
        · rw [if_neg h0, if_pos (show recompute = true ∧ 0 < step ∧ c.rewNorm = true from ⟨hrc.1, by omega, hrc.2⟩), List.length_cons]
          simp only [Nat.sub_zero]
          ring
      · rw [if_neg hrc, if_neg hrc, if_neg fun h => hrc ⟨h.1, h.2.2⟩]

private theorem process_eq (c : Cfg) (hm : SizeOk c.maxBatch) (he : 0 < c.eps) (critic : P → List O → List ℝ) (f : P → O → ℝ)
    (hf : ∀ θ, Rowwise (critic θ) fun x => [f θ x]) (logProb : P → List (Row O A) → List ℝ) (g : P → Row O A → ℝ)
    (hg : ∀ θ, Rowwise (logProb θ) fun x => [g θ x]) (w : View ℝ) (d : Data O A) (hn : 1 ≤ d.n) (s : St P) (hv : 0 ≤ s.rms.var ()) :
    ∃ rms', process c critic logProb w d.rows d.indices s =
        some (prepOf d c w (f s.net) s.rms, (List.range d.n).map (fun k => g s.net (d.row k)), ⟨s.net, rms'⟩) ∧ 0 ≤ rms'.var () ∧
      rms'.count = s.rms.count + if c.rewNorm then d.n else 0 := by
  obtain ⟨rms', g1, g2, g3⟩ := computeReturns_prep c hm he (critic s.net) (f s.net) (hf _) w d hn s.rms hv
  refine ⟨rms', ?_, g2, g3⟩
  unfold process
  rw [g1, Option.bind_some, inParts_rowwise (hg _) _ (rows_ne d hn) hm, single_flatten]
  simp [Data.rows, Function.comp_def]

/-- C184. An update of PPO: there is one repetition for each permutation, the parameters of the first are those of the policy, those of every other one
(and at the end) are what the optimizer steps of the repetition before, one minibatch after the other, have made of them. In every
repetition each row of the batch is used exactly once. Its values, advantages and returns are those of the critic as it was at the start of
the update; with `recompute_advantage` as it was at the start of the repetition. The old log-probability is that of the same row
for the parameters at the start of the update. -/
theorem C184_repetitions (c : Cfg) (hm : SizeOk c.maxBatch) (he : 0 < c.eps) (recompute : Bool) (critic : P → List O → List ℝ) (f : P → O → ℝ)
    (hf : ∀ θ, Rowwise (critic θ) fun x => [f θ x]) (logProb : P → List (Row O A) → List ℝ) (g : P → Row O A → ℝ)
    (hg : ∀ θ, Rowwise (logProb θ) fun x => [g θ x]) (train : P → List (Used O A) → P) (w : View ℝ) (d : Data O A) (hn : 1 ≤ d.n)
    (size : Int) (hsz : 0 ≤ size) (perms : List (List Nat)) (hp : ∀ p ∈ perms, p.Perm (List.range d.n)) (s : St P) (hv : 0 ≤ s.rms.var ()) :
    ∃ reps s', update c recompute critic logProb train w d.rows d.indices size perms s = some (reps, s') ∧ reps.length = perms.length ∧
      (∀ rep : Repeat O A P, reps[0]? = some rep → rep.start.net = s.net) ∧
      (∀ (r : Nat) (rep : Repeat O A P), reps[r]? = some rep →
        ((reps[r + 1]?.map Repeat.start).getD s').net = rep.minibatches.foldl train rep.start.net) ∧
      (∀ (r : Nat) (rep : Repeat O A P) perm, reps[r]? = some rep → perms[r]? = some perm →
        rep.minibatches.flatten = perm.map fun k =>
          if recompute ∧ 0 < r then d.used c w (f rep.start.net) rep.start.rms (g s.net (d.row k)) k
          else d.used c w (f s.net) s.rms (g s.net (d.row k)) k) := by
  obtain ⟨rms1, g1, g2, g3⟩ := process_eq c hm he critic f hf logProb g hg w d hn s hv
  obtain ⟨reps, s', k1, k2, k3, k4, k5, k6, k7⟩ := learnLoop_spec c hm he recompute critic f hf train w d hn (fun k => g s.net (d.row k)) size hsz perms hp 0 s
    ⟨s.net, rms1⟩ g2
  refine ⟨reps, s', ?_, k2, fun rep h => by rw [k3 rep h], k5, ?_⟩
  · unfold update
    rw [g1, Option.bind_some]
    exact k1
  · intro r rep perm hr hpm
    rw [k6 r rep perm hr hpm]
    apply List.map_congr_left
    intro k _
    simp only [Source, zero_add]
    split_ifs <;> rfl

example : ∃ reps s', update (exCfg true) true (fun (θ : ℝ) l => l.map fun o => θ * exVal o) (fun θ l => l.map fun r : Row Nat Nat => θ - r.act)
      (fun θ m => θ + (m.map Used.adv).sum) exView exData.rows exData.indices 1 [[1, 0], [0, 1], [1, 0]]
      (⟨3, ⟨fun _ => 0, fun _ => 1, 0, Option.none, 0⟩⟩ : St ℝ) = some (reps, s') ∧ reps.length = 3 := by
  obtain ⟨reps, s', h, h', -⟩ := C184_repetitions (exCfg true) (.inl le_rfl) one_pos true (fun (θ : ℝ) l => l.map fun o => θ * exVal o)
    (fun θ o => θ * exVal o) (fun θ => exRow _) (fun θ l => l.map fun r : Row Nat Nat => θ - r.act) (fun θ r => θ - r.act) (fun θ => exRow _)
    (fun θ m => θ + (m.map Used.adv).sum) exView exData (by decide) 1 (by decide) [[1, 0], [0, 1], [1, 0]]
    (by
      intro p hp
      simp only [List.mem_cons, List.not_mem_nil, or_false] at hp
      rcases hp with rfl | rfl | rfl <;> decide)
    ⟨3, ⟨fun _ => 0, fun _ => 1, 0, Option.none, 0⟩⟩ zero_le_one
  exact ⟨reps, s', h, h'⟩

/-- C183 for a whole update of PPO with `reward_normalization`: afterwards the statistics count each return of the batch once more. -/
def C183 : Prop :=
  ∀ (O A P : Type) (c : Cfg) (_ : SizeOk c.maxBatch) (_ : 0 < c.eps) (_ : c.rewNorm = true) (recompute : Bool) (critic : P → List O → List ℝ) (f : P → O → ℝ)
    (_ : ∀ θ, Rowwise (critic θ) fun x => [f θ x]) (logProb : P → List (Row O A) → List ℝ) (g : P → Row O A → ℝ)
    (_ : ∀ θ, Rowwise (logProb θ) fun x => [g θ x]) (train : P → List (Used O A) → P) (w : View ℝ) (d : Data O A) (_ : 1 ≤ d.n)
    (size : Int) (_ : 0 ≤ size) (perms : List (List Nat)) (_ : ∀ p ∈ perms, p.Perm (List.range d.n)) (s s' : St P) (_ : 0 ≤ s.rms.var ())
    (reps : List (Repeat O A P)),
    update c recompute critic logProb train w d.rows d.indices size perms s = some (reps, s') → s'.rms.count = s.rms.count + d.n

/-- C183. What an update of PPO counts: the returns once, or with `recompute_advantage` once for every repetition. -/
theorem C183_recompute (c : Cfg) (hm : SizeOk c.maxBatch) (he : 0 < c.eps) (hr : c.rewNorm = true) (recompute : Bool) (critic : P → List O → List ℝ)
    (f : P → O → ℝ) (hf : ∀ θ, Rowwise (critic θ) fun x => [f θ x]) (logProb : P → List (Row O A) → List ℝ) (g : P → Row O A → ℝ)
    (hg : ∀ θ, Rowwise (logProb θ) fun x => [g θ x]) (train : P → List (Used O A) → P) (w : View ℝ) (d : Data O A) (hn : 1 ≤ d.n)
    (size : Int) (hsz : 0 ≤ size) (perms : List (List Nat)) (hne : perms ≠ []) (hp : ∀ p ∈ perms, p.Perm (List.range d.n)) (s s' : St P)
    (hv : 0 ≤ s.rms.var ()) (reps : List (Repeat O A P))
    (h : update c recompute critic logProb train w d.rows d.indices size perms s = some (reps, s')) :
    s'.rms.count = s.rms.count + if recompute then perms.length * d.n else d.n := by
  obtain ⟨rms1, g1, g2, g3⟩ := process_eq c hm he critic f hf logProb g hg w d hn s hv
  obtain ⟨reps', s'', k1, -, -, -, -, -, k7⟩ := learnLoop_spec c hm he recompute critic f hf train w d hn (fun k => g s.net (d.row k)) size hsz perms hp 0 s
    ⟨s.net, rms1⟩ g2
  unfold update at h
  rw [g1, Option.bind_some, k1] at h
  cases h
  rw [k7, g3, if_pos hr, if_pos rfl]
  cases recompute with
  | false => simp
  | true =>
    rw [if_pos ⟨rfl, hr⟩, if_pos rfl]
    obtain ⟨m, hm⟩ : ∃ m, perms.length = m + 1 := ⟨perms.length - 1, by have := List.length_pos_iff.2 hne; omega⟩
    rw [hm]
    simp only [Nat.add_sub_cancel]
    ring

/-! ### C185 -/

/-- C185. The differences of log-probabilities that PPO turns into ratios: each compares the new and the old log-probability of the same component of the
action of the same row. `new` and `old` say what the distributions say about a row, with one entry for each of `width` components; `logp_old`
is stored flat, and the minibatch takes the entries of its rows. -/
def C185 : Prop :=
  ∀ (n width : Nat) (new old : Nat → List ℝ), 1 ≤ width → (∀ k, (new k).length = width) → (∀ k, (old k).length = width) → ∀ idx : List Nat, (∀ k ∈ idx, k < n) →
    logRatios (.inr (idx.map new)) (idx.filterMap fun k => (((List.range n).map old).flatten)[k]?) =
      some (idx.map fun k => List.zipWith (· - ·) (new k) (old k))

/-- C185 holds for distributions with one log-probability for each row (`Categorical`, `Independent`). -/
theorem C185_partial (n : Nat) (new old : Nat → ℝ) (idx : List Nat) (hidx : ∀ k ∈ idx, k < n) :
    logRatios (.inl (idx.map new)) (idx.filterMap fun k => ((List.range n).map old)[k]?) = some (idx.map fun k => [new k - old k]) := by
  have h : (idx.filterMap fun k => ((List.range n).map old)[k]?) = idx.map old := by
    induction idx with
    | nil => rfl
    | cons k ks ih =>
      rw [List.filterMap_cons, ih fun j hj => hidx j (by simp [hj])]
      simp [hidx k (by simp)]
  rw [h]
  unfold logRatios
  simp [List.zipWith_map, List.zipWith_self]

example : logRatios (.inl [5, 7]) [1, 2] = some [[5 - 1], [7 - 2]] := by
  have := C185_partial 3 (fun k => if k = 2 then 5 else 7) (fun k => if k = 2 then 1 else 2) [2, 0] (by simp)
  simpa [List.range_succ] using this

private theorem mapM_some' {X Y : Type} (f : X → Option Y) (g : X → Y) (l : List X) (h : ∀ x ∈ l, f x = some (g x)) : l.mapM f = some (l.map g) := by
  induction l with
  | nil => rfl
  | cons x xs ih =>
    rw [List.mapM_cons, h x (by simp), ih fun y hy => h y (by simp [hy])]
    rfl

/-- C185. With one column of log-probabilities, each row is compared with all rows of the minibatch: the entry at `(i, j)` is that of row `i`
less the old one of row `j`. -/
theorem C185_column (new old : List ℝ) (hne : old ≠ []) :
    logRatios (.inr (new.map fun x => [x])) old = some (new.map fun x => old.map fun y => x - y) := by
  have hpos := List.length_pos_iff.2 hne
  unfold logRatios
  simp only
  rw [mapM_some' _ (fun l : List ℝ => old.map fun y => (l[0]?).getD 0 - y), List.map_map]
  · rfl
  · intro l hl
    obtain ⟨x, _, rfl⟩ := List.mem_map.1 hl
    rw [if_pos (.inr (.inl rfl)), mapM_some' _ (fun j => x - old.getD j 0)]
    · congr 1
      apply List.ext_getElem?
      intro j
      by_cases hj : j < old.length
      · simp [hj]
      · rw [List.getElem?_eq_none (by simp; omega), List.getElem?_eq_none (by simp; omega)]
    · intro j hj
      have hj : j < old.length := by
        have := List.mem_range.1 hj
        simp only [List.length_singleton] at this
        omega
      unfold logRatioAt
      by_cases h1 : old.length = 1
      · obtain rfl : j = 0 := by omega
        simp [h1]
      · simp [h1, hj]

example : logRatios (.inr [[5], [7]]) [1, 2] = some [[5 - 1, 5 - 2], [7 - 1, 7 - 2]] := C185_column [5, 7] [1, 2] (by simp)

/-- C185. With several columns, a minibatch with a different number of rows (but more than one) is an error. -/
theorem C185_wide (width : Nat) (hw : 2 ≤ width) (new : List (List ℝ)) (hlen : ∀ l ∈ new, l.length = width) (old : List ℝ) (hne : new ≠ [])
    (h1 : old.length ≠ 1) (h2 : old.length ≠ width) : logRatios (.inr new) old = none := by
  cases new with
  | nil => exact absurd rfl hne
  | cons l ls =>
    have hl := hlen l (by simp)
    unfold logRatios
    simp only
    rw [List.mapM_cons, if_neg (by omega)]
    rfl

example : logRatios (.inr [[5, 6], [7, 8], [9, 10]]) [1, 2, 3] = none := C185_wide 2 le_rfl _ (by simp) _ (by simp) (by simp) (by simp)

/-- C185 fails. -/
theorem C185_violated : ¬ C185 := by
  intro h
  have := h 2 1 (fun k => [(k : ℝ)]) (fun k => [(k : ℝ)]) (by norm_num) (by simp) (by simp) [0, 1] (by simp)
  have e : ([0, 1].filterMap fun k => (((List.range 2).map fun k : Nat => [(k : ℝ)]).flatten)[k]?) = [(0 : ℝ), 1] := by
    simp [List.range_succ]
  rw [e, show ([0, 1].map fun k : Nat => [(k : ℝ)]) = [(0 : ℝ), 1].map fun x => [x] by simp, C185_column _ _ (by simp)] at this
  simp at this

/-- C183 fails. -/
theorem C183_violated : ¬ C183 := by
  intro h
  let c : Cfg := { gamma := 1, lam := 1, rewNorm := true, maxBatch := 1, eps := 1, isClose := false }
  let d : Data Unit Unit := ⟨1, fun _ => 0, fun _ => true, fun _ => false, fun _ => (), fun _ => (), fun _ => (), fun _ => 0⟩
  let w : View ℝ := ⟨fun _ => 0, fun _ => true, fun _ => true, [], id⟩
  let s : St Unit := ⟨(), ⟨fun _ => 0, fun _ => 1, 0, Option.none, 0⟩⟩
  have hf : ∀ _ : Unit, Rowwise (fun l : List Unit => l.map fun _ => (0 : ℝ)) (fun _ => [(0 : ℝ)]) := fun _ l => by rw [single_flatten]
  have hg : ∀ _ : Unit, Rowwise (fun l : List (Row Unit Unit) => l.map fun _ => (0 : ℝ)) (fun _ => [(0 : ℝ)]) := fun _ l => by rw [single_flatten]
  have hp : ∀ p ∈ [[0], [0]], p.Perm (List.range d.n) := by simp [d]
  have hm : SizeOk c.maxBatch := .inl (by simp [c])
  have hv : 0 ≤ s.rms.var () := zero_le_one
  obtain ⟨reps, s', k, -⟩ := C184_repetitions c hm one_pos true (fun _ l => l.map fun _ => 0) (fun _ _ => 0) hf
    (fun _ l => l.map fun _ => 0) (fun _ _ => 0) hg (fun _ _ => ()) w d (le_refl 1) 0 (le_refl 0) [[0], [0]] hp s hv
  have e1 := h Unit Unit Unit c hm one_pos rfl true _ _ hf _ _ hg _ w d (le_refl 1) 0 (le_refl 0) _ hp s s' hv reps k
  have e2 := C183_recompute c hm one_pos rfl true _ _ hf _ _ hg _ w d (le_refl 1) 0 (le_refl 0) _ (by simp) hp s s' hv reps k
  rw [e1] at e2
  simp [d] at e2

end Verif.OnPolicy
