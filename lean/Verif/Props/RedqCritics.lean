import Verif.Model.Redq
import Verif.Props.Critics
import Mathlib.Topology.MetricSpace.Contracting

/-!
# What the ensemble of REDQ learns (property C284)
-/

namespace Verif.RedqLoss

open Verif.Returns Verif.ActorCritic Verif.Critics Verif.Policy
open Verif.QLearning (zipWith_ofFn mean_ofFn)

set_option linter.unusedSectionVars false

variable {X : Type} [DecidableEq X] {B E : ℕ}

/-! ### Specification -/

/-- A batch of `B` transitions: the data, and for the next observation an action drawn by the actor with its log-probability. -/
structure Data (X : Type) (B : ℕ) where
  obs : Fin B → X
  act : Fin B → List ℝ
  rew : Fin B → ℝ
  terminated : Fin B → Bool
  next : Fin B → X
  weight : Fin B → ℝ
  nextAct : Fin B → List ℝ
  nextLogProb : Fin B → ℝ

/-- The batch lies in the buffer: `index` are the positions of its rows. -/
structure Data.In (d : Data X B) (w : View ℝ) (inputs : ℕ → X) (index : Fin B → ℕ) : Prop where
  rew : ∀ k, w.rew (index k) = d.rew k
  terminated : ∀ k, w.terminated (index k) = d.terminated k
  next : ∀ k, inputs (index k) = d.next k

/-- The loss of an ensemble `Q'` if the target ensemble is `Q`. -/
noncomputable def Data.loss (d : Data X B) (w : View ℝ) (inputs : ℕ → X) (index : Fin B → ℕ) (useMin : Bool) (subset : List ℕ) (alpha gamma : ℝ)
    (Q Q' : Fin E → X → List ℝ → ℝ) : Option ℝ :=
  RedqLoss.loss useMin alpha (List.ofFn Q) subset (List.ofFn fun k => (d.nextAct k, d.nextLogProb k)) (List.ofFn Q') w inputs (List.ofFn d.obs)
    (List.ofFn d.act) (List.ofFn index) gamma 1 (List.ofFn d.weight)

/-- Training with this batch has settled: no ensemble has a smaller loss. -/
def Data.Settled (d : Data X B) (w : View ℝ) (inputs : ℕ → X) (index : Fin B → ℕ) (useMin : Bool) (subset : List ℕ) (alpha gamma : ℝ)
    (Q : Fin E → X → List ℝ → ℝ) : Prop :=
  ∃ l, d.loss w inputs index useMin subset alpha gamma Q Q = some l ∧ ∀ Q' l', d.loss w inputs index useMin subset alpha gamma Q Q' = some l' → l ≤ l'

/-- The rows with the observation and the action of row `k`. -/
noncomputable def Data.alike (d : Data X B) (k : Fin B) : Finset (Fin B) := Finset.univ.filter fun j => d.obs j = d.obs k ∧ d.act j = d.act k

/-- The action drawn for the next observation was taken in this observation in row `follow k`. -/
def Data.Closed (d : Data X B) (follow : Fin B → Fin B) : Prop :=
  ∀ k, d.terminated k = false → d.obs (follow k) = d.next k ∧ d.act (follow k) = d.nextAct k

/-- The soft values in the data: the (weighted) average, over the rows with this observation and action, of the reward plus the discounted soft value of what
follows. -/
def Data.Soft (d : Data X B) (follow : Fin B → Fin B) (alpha gamma : ℝ) (q : Fin B → ℝ) : Prop :=
  ∀ k, q k * ∑ j ∈ d.alike k, d.weight j = ∑ j ∈ d.alike k, d.weight j *
    (d.rew j + gamma * if d.terminated j then 0 else q (follow j) - alpha * d.nextLogProb j)

/-! ### Weighted least squares -/

theorem weighted_means {K : Type} [DecidableEq K] (key : Fin B → K) (w y mu : Fin B → ℝ) (hw : ∀ k, 0 < w k)
    (hmu : ∀ k, mu k * ∑ j with key j = key k, w j = ∑ j with key j = key k, w j * y j) (f : K → ℝ) :
    ∑ k, (f (key k) - y k) ^ 2 * w k = ∑ k, (mu k - y k) ^ 2 * w k + ∑ k, (f (key k) - mu k) ^ 2 * w k := by
  have hW : ∀ k, 0 < ∑ j with key j = key k, w j := fun k => Finset.sum_pos (fun j _ => hw j) ⟨k, by simp⟩
  have hfilter : ∀ j k, key j = key k → (Finset.univ.filter fun i => key i = key j) = Finset.univ.filter fun i => key i = key k := fun j k h => by rw [h]
  have hconst : ∀ j k, key j = key k → mu j = mu k := fun j k h => by
    have h1 := hmu j
    rw [hfilter j k h, ← hmu k] at h1
    exact mul_right_cancel₀ (hW k).ne' h1
  have hcross : ∑ k, (f (key k) - mu k) * (mu k - y k) * w k = 0 := by
    have e1 : ∑ k, (f (key k) - mu k) * mu k * w k =
        ∑ k, ∑ j, if key j = key k then (f (key k) - mu k) / (∑ i with key i = key k, w i) * w k * (w j * y j) else 0 := by
      refine Finset.sum_congr rfl fun k _ => ?_
      rw [← Finset.sum_filter, ← Finset.mul_sum, ← hmu]
      have := (hW k).ne'
      field_simp
    have e2 : ∑ k, (f (key k) - mu k) * y k * w k =
        ∑ k, ∑ j, if key j = key k then (f (key k) - mu k) / (∑ i with key i = key k, w i) * (w k * y k) * w j else 0 := by
      refine Finset.sum_congr rfl fun k _ => ?_
      rw [← Finset.sum_filter, ← Finset.mul_sum]
      have := (hW k).ne'
      field_simp
    have e3 : ∑ k, (f (key k) - mu k) * mu k * w k = ∑ k, (f (key k) - mu k) * y k * w k := by
      rw [e1, e2, Finset.sum_comm]
      refine Finset.sum_congr rfl fun k _ => Finset.sum_congr rfl fun j _ => ?_
      by_cases h : key k = key j
      · rw [if_pos h, if_pos h.symm, h, hconst k j h]
        ring
      · rw [if_neg h, if_neg (Ne.symm h)]
    have : ∀ k, (f (key k) - mu k) * (mu k - y k) * w k = (f (key k) - mu k) * mu k * w k - (f (key k) - mu k) * y k * w k := fun k => by ring
    simp only [this, Finset.sum_sub_distrib, e3, sub_self]
  have : ∀ k, (f (key k) - y k) ^ 2 * w k = (mu k - y k) ^ 2 * w k + (f (key k) - mu k) ^ 2 * w k + 2 * ((f (key k) - mu k) * (mu k - y k) * w k) :=
    fun k => by ring
  simp only [this, Finset.sum_add_distrib, ← Finset.mul_sum, hcross]
  ring

/-! ### The loss of a batch -/

/-- The target of row `k`. -/
noncomputable def Data.target (d : Data X B) (useMin : Bool) (subset : List ℕ) (alpha gamma : ℝ) (Q : Fin E → X → List ℝ → ℝ) (k : Fin B) : ℝ :=
  d.rew k + gamma * if d.terminated k then 0 else
    redqTarget useMin alpha (List.ofFn fun e => Q e (d.next k) (d.nextAct k)) subset (d.nextLogProb k)

theorem Data.loss_eq (d : Data X B) {w : View ℝ} {inputs : ℕ → X} {index : Fin B → ℕ} (hd : d.In w inputs index) (useMin : Bool) (subset : List ℕ)
    (alpha gamma : ℝ) (Q Q' : Fin E → X → List ℝ → ℝ) : d.loss w inputs index useMin subset alpha gamma Q Q' =
      some ((∑ e, ∑ k, (Q' e (d.obs k) (d.act k) - d.target useMin subset alpha gamma Q k) ^ 2 * d.weight k) / (E * B)) := by
  unfold Data.loss RedqLoss.loss Critics.returns
  rw [returns_rows _ _ _ (fun k => redqTarget useMin alpha (List.ofFn fun e => Q e (d.next k) (d.nextAct k)) subset (d.nextLogProb k)) (by
    unfold RedqLoss.targetQ
    rw [List.map_ofFn, zipWith_ofFn, List.map_ofFn]
    refine congrArg List.ofFn (funext fun k => ?_)
    simp only [Function.comp_apply, List.map_ofFn, hd.next]
    rfl)]
  simp only [Option.map_some, flatten_ofFn, List.map_ofFn, Option.some.injEq]
  have h1 : criticLoss (List.ofFn ((fun c : X → List ℝ → ℝ => List.zipWith c (List.ofFn d.obs) (List.ofFn d.act)) ∘ Q'))
      (List.ofFn fun p => w.rew (index p) + gamma * if w.terminated (index p) then 0 else
        redqTarget useMin alpha (List.ofFn fun e => Q e (d.next p) (d.nextAct p)) subset (d.nextLogProb p)) (List.ofFn d.weight) =
      Ppo.mean (List.ofFn fun e => List.ofFn fun k => (Q' e (d.obs k) (d.act k) - d.target useMin subset alpha gamma Q k) ^ 2 * d.weight k).flatten := by
    unfold criticLoss
    rw [List.map_ofFn]
    refine congrArg (fun l => Ppo.mean (List.flatten l)) (congrArg List.ofFn (funext fun e => ?_))
    simp only [Function.comp_apply, zipWith_ofFn, hd.rew, hd.terminated]
    rfl
  rw [h1]
  unfold Ppo.mean
  rw [List.sum_flatten, List.length_flatten, List.map_ofFn, List.map_ofFn, List.sum_ofFn, List.sum_ofFn]
  simp [List.sum_ofFn]

theorem Data.alike_eq (d : Data X B) (k : Fin B) : d.alike k = Finset.univ.filter fun j => (d.obs j, d.act j) = (d.obs k, d.act k) := by
  ext j
  simp [Data.alike]

theorem Data.weight_pos (d : Data X B) (hw : ∀ k, 0 < d.weight k) (k : Fin B) : 0 < ∑ j ∈ d.alike k, d.weight j :=
  Finset.sum_pos (fun j _ => hw j) ⟨k, by simp [Data.alike]⟩

theorem Data.settled_iff (d : Data X B) {w : View ℝ} {inputs : ℕ → X} {index : Fin B → ℕ} (hd : d.In w inputs index) (hw : ∀ k, 0 < d.weight k)
    (useMin : Bool) (subset : List ℕ) (alpha gamma : ℝ) (Q : Fin E → X → List ℝ → ℝ) :
    d.Settled w inputs index useMin subset alpha gamma Q ↔ ∀ e k, Q e (d.obs k) (d.act k) * ∑ j ∈ d.alike k, d.weight j =
      ∑ j ∈ d.alike k, d.weight j * d.target useMin subset alpha gamma Q j := by
  rcases Nat.eq_zero_or_pos B with rfl | hB
  · refine iff_of_true ⟨_, d.loss_eq hd useMin subset alpha gamma Q Q, fun Q' l' h => ?_⟩ fun e k => k.elim0
    rw [d.loss_eq hd, Option.some.injEq] at h
    rw [← h]
    simp
  rcases Nat.eq_zero_or_pos E with rfl | hE
  · refine iff_of_true ⟨_, d.loss_eq hd useMin subset alpha gamma Q Q, fun Q' l' h => ?_⟩ fun e k => e.elim0
    rw [d.loss_eq hd, Option.some.injEq] at h
    rw [← h]
    simp
  have hEB : (0 : ℝ) < E * B := by positivity
  set y := d.target useMin subset alpha gamma Q with hy
  let mu : Fin B → ℝ := fun k => (∑ j ∈ d.alike k, d.weight j * y j) / ∑ j ∈ d.alike k, d.weight j
  have hmu : ∀ k, mu k * ∑ j ∈ d.alike k, d.weight j = ∑ j ∈ d.alike k, d.weight j * y j := fun k => div_mul_cancel₀ _ (d.weight_pos hw k).ne'
  have hsplit : ∀ g : X → List ℝ → ℝ, ∑ k, (g (d.obs k) (d.act k) - y k) ^ 2 * d.weight k =
      ∑ k, (mu k - y k) ^ 2 * d.weight k + ∑ k, (g (d.obs k) (d.act k) - mu k) ^ 2 * d.weight k := fun g =>
    weighted_means (fun k => (d.obs k, d.act k)) d.weight y mu hw (fun k => by rw [← d.alike_eq]; exact hmu k) fun x => g x.1 x.2
  have hrhs : (∀ e k, Q e (d.obs k) (d.act k) * ∑ j ∈ d.alike k, d.weight j = ∑ j ∈ d.alike k, d.weight j * y j) ↔
      ∀ e k, Q e (d.obs k) (d.act k) = mu k := by
    refine forall_congr' fun e => forall_congr' fun k => ?_
    rw [← hmu]
    exact ⟨fun h => mul_right_cancel₀ (d.weight_pos hw k).ne' h, fun h => by rw [h]⟩
  rw [hrhs]
  unfold Data.Settled
  simp only [d.loss_eq hd, Option.some.injEq, ← hy, hsplit, Finset.sum_add_distrib, Finset.sum_const]
  constructor
  · rintro ⟨l, rfl, h⟩ e k
    have hex : ∀ x : X × List ℝ, ∃ v : ℝ, ∀ k, (d.obs k, d.act k) = x → v = mu k := by
      intro x
      by_cases hx : ∃ k, (d.obs k, d.act k) = x
      · obtain ⟨k, rfl⟩ := hx
        refine ⟨mu k, fun k' hk' => ?_⟩
        have : d.alike k' = d.alike k := by rw [d.alike_eq, d.alike_eq, hk']
        simp only [mu, this]
      · exact ⟨0, fun k hk => absurd ⟨k, hk⟩ hx⟩
    choose v hv using hex
    have := h (fun _ x a => v (x, a)) _ rfl
    rw [div_le_div_iff_of_pos_right hEB, add_le_add_iff_left] at this
    have h0 : ∀ e : Fin E, ∑ k, (v (d.obs k, d.act k) - mu k) ^ 2 * d.weight k = 0 := fun _ =>
      Finset.sum_eq_zero fun k _ => by rw [hv _ k rfl]; ring
    rw [Finset.sum_congr rfl fun e _ => h0 e, Finset.sum_const_zero] at this
    have hnn : ∀ e k, 0 ≤ (Q e (d.obs k) (d.act k) - mu k) ^ 2 * d.weight k := fun e k => mul_nonneg (sq_nonneg _) (hw k).le
    have h1 := le_antisymm this (Finset.sum_nonneg fun e _ => Finset.sum_nonneg fun k _ => hnn e k)
    have h2 := (Finset.sum_eq_zero_iff_of_nonneg fun e _ => Finset.sum_nonneg fun k _ => hnn e k).mp h1 e (Finset.mem_univ e)
    have h3 := (Finset.sum_eq_zero_iff_of_nonneg fun k _ => hnn e k).mp h2 k (Finset.mem_univ k)
    exact sub_eq_zero.mp (pow_eq_zero_iff two_ne_zero |>.mp ((mul_eq_zero.mp h3).resolve_right (hw k).ne'))
  · intro h
    refine ⟨_, rfl, ?_⟩
    rintro Q' l' rfl
    rw [div_le_div_iff_of_pos_right hEB, add_le_add_iff_left]
    refine (Finset.sum_eq_zero fun e _ => Finset.sum_eq_zero fun k _ => ?_).le.trans
      (Finset.sum_nonneg fun e _ => Finset.sum_nonneg fun k _ => mul_nonneg (sq_nonneg _) (hw k).le)
    rw [h e k]
    ring

/-- If all members say the same, it does not matter which of them are asked. -/
theorem redqTarget_const (useMin : Bool) (alpha : ℝ) (q : Fin E → ℝ) (subset : List ℕ) (hne : subset ≠ []) (hlt : ∀ i ∈ subset, i < E) (logp c : ℝ)
    (h : ∀ e, q e = c) : redqTarget useMin alpha (List.ofFn q) subset logp = c - alpha * logp := by
  have hm : (subset.map fun i => (List.ofFn q).getD i 0) = List.replicate subset.length c := by
    rw [List.eq_replicate_iff]
    refine ⟨by simp, fun x hx => ?_⟩
    obtain ⟨i, hi, rfl⟩ := List.mem_map.mp hx
    rw [List.getD_eq_getElem?_getD, List.getElem?_ofFn, dif_pos (hlt i hi), Option.getD_some]
    exact h _
  have hmin : ∀ n, minOf (List.replicate (n + 1) c) = c := by
    intro n
    induction n with
    | zero => rfl
    | succ n ih =>
      rw [List.replicate_succ, List.replicate_succ, minOf, ← List.replicate_succ, ih, min_self]
      simp
  obtain ⟨n, hn⟩ : ∃ n, subset.length = n + 1 := ⟨subset.length - 1, by have := List.length_pos_iff.mpr hne; omega⟩
  unfold redqTarget
  simp only [hm, hn]
  cases useMin
  · have : ((n : ℝ) + 1) ≠ 0 := by positivity
    simp [Ppo.mean, this]
  · simp [hmin]

/-! ### C284 -/

/-- **C284: the members agree.** Once training with a batch has settled, all members of the ensemble say the same about every observation and action of the
batch. -/
theorem C284_agree (d : Data X B) {w : View ℝ} {inputs : ℕ → X} {index : Fin B → ℕ} (hd : d.In w inputs index) (hw : ∀ k, 0 < d.weight k)
    (useMin : Bool) (subset : List ℕ) (alpha gamma : ℝ) (Q : Fin E → X → List ℝ → ℝ) (h : d.Settled w inputs index useMin subset alpha gamma Q)
    (e e' : Fin E) (k : Fin B) : Q e (d.obs k) (d.act k) = Q e' (d.obs k) (d.act k) := by
  rw [d.settled_iff hd hw] at h
  exact mul_right_cancel₀ (d.weight_pos hw k).ne' ((h e k).trans (h e' k).symm)

/-- **C284: soft values.** If the actions drawn for the next observations were taken there in the data, training has settled if and only if every member says the soft
values: for both target modes, whichever members are sampled for the targets. -/
theorem C284_soft (d : Data X B) {w : View ℝ} {inputs : ℕ → X} {index : Fin B → ℕ} (hd : d.In w inputs index) (hw : ∀ k, 0 < d.weight k)
    (follow : Fin B → Fin B) (hf : d.Closed follow) (useMin : Bool) (subset : List ℕ) (hne : subset ≠ []) (hlt : ∀ i ∈ subset, i < E)
    (alpha gamma : ℝ) (hg : 0 ≤ gamma) (hg1 : gamma < 1) (q : Fin B → ℝ) (hq : d.Soft follow alpha gamma q) (Q : Fin E → X → List ℝ → ℝ) :
    d.Settled w inputs index useMin subset alpha gamma Q ↔ ∀ e k, Q e (d.obs k) (d.act k) = q k := by
  have htarget : ∀ r : Fin B → ℝ, (∀ e k, Q e (d.obs k) (d.act k) = r k) → ∀ j, d.target useMin subset alpha gamma Q j =
      d.rew j + gamma * if d.terminated j then 0 else r (follow j) - alpha * d.nextLogProb j := by
    intro r hr j
    unfold Data.target
    cases hj : d.terminated j
    · obtain ⟨h1, h2⟩ := hf j hj
      simp only [Bool.false_eq_true, if_false]
      rw [redqTarget_const useMin alpha _ subset hne hlt _ (r (follow j)) fun e => by rw [← h1, ← h2]; exact hr e _]
    · simp
  constructor
  · intro h
    have hE : 0 < E := by
      obtain ⟨i, hi⟩ := List.exists_mem_of_ne_nil _ hne
      exact lt_of_le_of_lt (Nat.zero_le _) (hlt i hi)
    let r : Fin B → ℝ := fun k => Q ⟨0, hE⟩ (d.obs k) (d.act k)
    have hr : ∀ e k, Q e (d.obs k) (d.act k) = r k := fun e k => C284_agree d hd hw useMin subset alpha gamma Q h e _ k
    rw [d.settled_iff hd hw] at h
    have hsoft : ∀ k, r k * ∑ j ∈ d.alike k, d.weight j = ∑ j ∈ d.alike k, d.weight j *
        (d.rew j + gamma * if d.terminated j then 0 else r (follow j) - alpha * d.nextLogProb j) := fun k => by
      rw [Finset.sum_congr rfl fun j _ => congrArg (d.weight j * ·) (htarget r hr j).symm]
      exact h ⟨0, hE⟩ k
    suffices hrq : r = q by
      intro e k
      rw [hr, hrq]
    rcases Nat.eq_zero_or_pos B with rfl | hB
    · exact funext fun k => k.elim0
    have : Nonempty (Fin B) := ⟨⟨0, hB⟩⟩
    obtain ⟨k0, hk0⟩ := Finite.exists_max fun k => |r k - q k|
    have hle : ∀ k, |r k - q k| ≤ gamma * |r k0 - q k0| := by
      intro k
      have hW := d.weight_pos hw k
      have e1 : (r k - q k) * ∑ j ∈ d.alike k, d.weight j = ∑ j ∈ d.alike k, d.weight j *
          (gamma * if d.terminated j then 0 else r (follow j) - q (follow j)) := by
        rw [sub_mul, hsoft, hq, ← Finset.sum_sub_distrib]
        refine Finset.sum_congr rfl fun j _ => ?_
        cases d.terminated j <;> simp <;> ring
      have e2 : |r k - q k| * ∑ j ∈ d.alike k, d.weight j ≤ ∑ j ∈ d.alike k, d.weight j * (gamma * |r k0 - q k0|) := by
        have e3 : |r k - q k| * ∑ j ∈ d.alike k, d.weight j = |(r k - q k) * ∑ j ∈ d.alike k, d.weight j| := by rw [abs_mul, abs_of_pos hW]
        rw [e3, e1]
        refine (Finset.abs_sum_le_sum_abs _ _).trans (Finset.sum_le_sum fun j _ => ?_)
        rw [abs_mul, abs_of_pos (hw j), abs_mul, abs_of_nonneg hg]
        refine mul_le_mul_of_nonneg_left (mul_le_mul_of_nonneg_left ?_ hg) (hw j).le
        split
        · simp
        · exact hk0 _
      rw [← Finset.sum_mul, mul_comm] at e2
      exact le_of_mul_le_mul_left e2 hW
    have h0 : |r k0 - q k0| = 0 := by
      have := hle k0
      have h1 := abs_nonneg (r k0 - q k0)
      nlinarith
    funext k
    have := hk0 k
    simp only [h0] at this
    exact sub_eq_zero.mp (abs_eq_zero.mp (le_antisymm this (abs_nonneg _)))
  · intro h
    rw [d.settled_iff hd hw]
    intro e k
    rw [h e k, hq k]
    exact Finset.sum_congr rfl fun j _ => by rw [htarget q h j]

/-- **C284**: the soft values exist and are unique. -/
theorem C284_exists (d : Data X B) (hw : ∀ k, 0 < d.weight k) (follow : Fin B → Fin B) (alpha gamma : ℝ) (hg : 0 ≤ gamma) (hg1 : gamma < 1) :
    ∃! q, d.Soft follow alpha gamma q := by
  let F : (Fin B → ℝ) → Fin B → ℝ := fun q k => (∑ j ∈ d.alike k, d.weight j *
    (d.rew j + gamma * if d.terminated j then 0 else q (follow j) - alpha * d.nextLogProb j)) / ∑ j ∈ d.alike k, d.weight j
  have hF : ContractingWith ⟨gamma, hg⟩ F := by
    refine ⟨by exact_mod_cast hg1, LipschitzWith.of_dist_le_mul fun q q' => ?_⟩
    refine (dist_pi_le_iff (mul_nonneg hg dist_nonneg)).mpr fun k => ?_
    have hW := d.weight_pos hw k
    rw [Real.dist_eq, ← sub_div, abs_div, abs_of_pos hW, div_le_iff₀ hW, ← Finset.sum_sub_distrib, Finset.mul_sum]
    refine (Finset.abs_sum_le_sum_abs _ _).trans (Finset.sum_le_sum fun j _ => ?_)
    rw [← mul_sub, abs_mul, abs_of_pos (hw j), mul_comm]
    refine mul_le_mul_of_nonneg_right ?_ (hw j).le
    rw [add_sub_add_left_eq_sub, ← mul_sub, abs_mul, abs_of_nonneg hg]
    refine mul_le_mul_of_nonneg_left ?_ hg
    cases d.terminated j
    · simp only [Bool.false_eq_true, if_false, sub_sub_sub_cancel_right]
      rw [← Real.dist_eq]
      exact dist_le_pi_dist q q' _
    · simp
  have hiff : ∀ q, d.Soft follow alpha gamma q ↔ F q = q := by
    intro q
    unfold Data.Soft
    rw [funext_iff]
    refine forall_congr' fun k => ?_
    rw [div_eq_iff (d.weight_pos hw k).ne', eq_comm]
  refine ⟨hF.fixedPoint F, (hiff _).mpr hF.fixedPoint_isFixedPt, fun q hq => ?_⟩
  exact hF.fixedPoint_unique ((hiff q).mp hq)

/-! ### Example -/

/-- Two transitions of an episode with rewards 1 and 2; the log-probability of the action drawn for the second observation is 1. -/
def exData : Data Bool 2 := ⟨![false, true], ![[0], [0]], ![1, 2], ![false, true], ![true, false], ![1, 3], ![[0], [1]], ![1, 5]⟩

def exView : View ℝ := ⟨fun i => if i = 0 then 1 else 2, fun i => i = 1, fun i => i = 1, [], fun i => if i = 0 then 1 else i⟩

/-- The hypotheses are met: with `alpha = gamma = 1/2`, three members and a subset of two, they learn 2 and 1 + 1/2 * (2 - 1/2). -/
example (useMin : Bool) (Q : Fin 3 → Bool → List ℝ → ℝ) :
    exData.Settled exView (fun i => i = 0) (fun k => k) useMin [2, 0] (1 / 2) (1 / 2) Q ↔ ∀ e k, Q e (exData.obs k) (exData.act k) = ![7 / 4, 2] k := by
  have ha : ∀ k, exData.alike k = {k} := by
    intro k
    ext j
    unfold Data.alike
    rw [Finset.mem_filter, Finset.mem_singleton]
    fin_cases k <;> fin_cases j <;> simp [exData]
  refine C284_soft exData ⟨?_, ?_, ?_⟩ ?_ (fun _ => 1) ?_ useMin [2, 0] (by simp) (by simp) (1 / 2) (1 / 2) (by norm_num) (by norm_num) _ ?_ Q
  · intro k
    fin_cases k <;> simp [exView, exData]
  · intro k
    fin_cases k <;> simp [exView, exData]
  · intro k
    fin_cases k <;> simp [exData]
  · intro k
    fin_cases k <;> simp [exData]
  · intro k hk
    fin_cases k <;> simp [exData] at hk ⊢
  · intro k
    rw [ha]
    fin_cases k <;> simp [exData] <;> norm_num

end Verif.RedqLoss
