import Verif.Props.Imitation
import Verif.Props.CrrActor
import Verif.Props.DiscreteCql

/-! C280: what the curiosity module learns. -/

namespace Verif.Curiosity

open Verif.Imitation Verif.Ppo

open Classical in
section

variable {O : Type} {F A B : ℕ}

/-! ### Specification -/

/-- A batch of transitions. -/
structure Data (O : Type) (A B : ℕ) where
  obs : Fin B → O
  act : Fin B → Fin A
  next : Fin B → O

/-- The rows of the batch. -/
def Data.rows (d : Data O A B) : List (O × Nat × O) := List.ofFn fun k => (d.obs k, (d.act k : Nat), d.next k)

/-- The networks have the sizes with which the module is made: `F` features, `A` actions. -/
structure Sized (m : Icm O) (F A : ℕ) : Prop where
  actions : m.actionDim = A
  feature : ∀ x, (m.feature x).length = F
  forward : ∀ v, (m.forward v).length = F
  inverse : ∀ v, (m.inverse v).length = A

/-- The loss of the module. -/
noncomputable def Data.loss (d : Data O A B) (weight lrScale : ℝ) (m : Icm O) : Option ℝ := (m.loss weight lrScale d.rows).map Prod.fst

/-- No other forward model has a smaller loss. -/
def Data.Forward (d : Data O A B) (F : ℕ) (weight lrScale : ℝ) (m : Icm O) : Prop :=
  ∃ l, d.loss weight lrScale m = some l ∧
    ∀ f : List ℝ → List ℝ, (∀ v, (f v).length = F) → ∃ l', d.loss weight lrScale { m with forward := f } = some l' ∧ l ≤ l'

/-- No other inverse model has a smaller loss. -/
def Data.Inverse (d : Data O A B) (weight lrScale : ℝ) (m : Icm O) : Prop :=
  ∃ l, d.loss weight lrScale m = some l ∧
    ∀ f : List ℝ → List ℝ, (∀ v, (f v).length = A) → ∃ l', d.loss weight lrScale { m with inverse := f } = some l' ∧ l ≤ l'

/-- A feature. -/
def feat (m : Icm O) (x : O) (i : Fin F) : ℝ := (m.feature x).getD i 0

/-- The bonus. -/
noncomputable def bonus (m : Icm O) (x : O) (a : Fin A) (y : O) : ℝ := ((m.row x a y).map Prod.fst).getD 0

/-- The probability that the inverse model gives to an action. -/
noncomputable def guess (m : Icm O) (x : O) (a₀ : Fin A) (y : O) (a : Fin A) : ℝ := prob (((m.row x a₀ y).map Prod.snd).getD []) a

/-- The rows that start from the same features with the same action as the row `k`. -/
noncomputable def Data.alike (d : Data O A B) (m : Icm O) (k : Fin B) : Finset (Fin B) :=
  Finset.univ.filter fun j => m.feature (d.obs j) = m.feature (d.obs k) ∧ d.act j = d.act k

/-- The mean of a feature over where they lead. -/
noncomputable def Data.mean (d : Data O A B) (m : Icm O) (k : Fin B) (i : Fin F) : ℝ :=
  (∑ j ∈ d.alike m k, feat m (d.next j) i) / (d.alike m k).card

/-- The rows that lead from the same to the same features as the row `k`. -/
noncomputable def Data.between (d : Data O A B) (m : Icm O) (k : Fin B) : Finset (Fin B) :=
  Finset.univ.filter fun j => m.feature (d.obs j) = m.feature (d.obs k) ∧ m.feature (d.next j) = m.feature (d.next k)

/-! ### The loss -/

/-- What the forward model gets for a row. -/
def Data.key (d : Data O A B) (m : Icm O) (k : Fin B) : List ℝ := m.feature (d.obs k) ++ hot A (d.act k)

/-- What the inverse model gets for a row. -/
def Data.pair (d : Data O A B) (m : Icm O) (k : Fin B) : List ℝ := m.feature (d.obs k) ++ m.feature (d.next k)

/-- The squared distance of a prediction. -/
noncomputable def dist (F : ℕ) (v : List ℝ) (m : Icm O) (y : O) : ℝ := ∑ i : Fin F, (v.getD i 0 - feat m y i) ^ 2

theorem row_eq (m : Icm O) (hm : Sized m F A) (x : O) (a : Fin A) (y : O) :
    m.row x a y = some (dist F (m.forward (m.feature x ++ hot A a)) m y / 2, m.inverse (m.feature x ++ m.feature y)) := by
  obtain ⟨b, h1, h2, -⟩ := C189_bonus m x y a (by rw [hm.actions]; exact a.isLt) (by rw [hm.forward, hm.feature])
  rw [h1, h2, hm.feature, hm.actions, Finset.sum_range]
  rfl

theorem bonus_eq (m : Icm O) (hm : Sized m F A) (x : O) (a : Fin A) (y : O) :
    bonus m x a y = dist F (m.forward (m.feature x ++ hot A a)) m y / 2 := by
  unfold bonus
  rw [row_eq m hm]
  rfl

theorem guess_eq (m : Icm O) (hm : Sized m F A) (x : O) (a₀ : Fin A) (y : O) (a : Fin A) :
    guess m x a₀ y a = prob (m.inverse (m.feature x ++ m.feature y)) a := by
  unfold guess
  rw [row_eq m hm]
  rfl

/-- The loss of the forward model. -/
noncomputable def Data.fwd (d : Data O A B) (F : ℕ) (m : Icm O) : ℝ := ∑ k, dist F (m.forward (d.key m k)) m (d.next k)

/-- The loss of the inverse model. -/
noncomputable def Data.inv (d : Data O A B) (m : Icm O) : ℝ := ∑ k, -Real.log (prob (m.inverse (d.pair m k)) (d.act k))

theorem Data.loss_eq (d : Data O A B) (weight lrScale : ℝ) (m : Icm O) (hm : Sized m F A) :
    d.loss weight lrScale m = some (((1 - weight) * (d.inv m / B) + weight * (d.fwd F m / 2 / B)) * lrScale) := by
  unfold Data.loss Icm.loss Icm.rows Data.rows
  rw [DiscreteCql.mapM_ofFn _ _ _ fun k => row_eq m hm (d.obs k) (d.act k) (d.next k), Option.bind_some]
  simp only [List.map_ofFn]
  have := Fitting.nll_ofFn (fun k : Fin B => (k, d.act k)) (fun k => m.inverse (d.pair m k)) fun k => hm.inverse _
  simp only [Function.comp_def] at this ⊢
  unfold Data.pair at this
  rw [this, Option.map_some, Option.map_some, QLearning.mean_ofFn]
  simp only [← Finset.sum_div]
  rfl

theorem hot_inj (a b : Fin A) (h : hot A a = hot A b) : a = b := by
  have := congrArg (fun l => l.getD (a : ℕ) 0) h
  unfold hot at this
  simp only [List.getD_eq_getElem?_getD, List.getElem?_map, List.getElem?_range a.isLt, Option.map_some, Option.getD_some, if_true] at this
  by_contra hab
  rw [if_neg fun h => hab (Fin.ext h)] at this
  norm_num at this

theorem Data.key_iff (d : Data O A B) (m : Icm O) (hm : Sized m F A) (j k : Fin B) :
    d.key m j = d.key m k ↔ j ∈ d.alike m k := by
  unfold Data.alike Data.key
  rw [Finset.mem_filter]
  constructor
  · intro h
    have := List.append_inj h (by rw [hm.feature, hm.feature])
    exact ⟨Finset.mem_univ _, this.1, hot_inj _ _ this.2⟩
  · rintro ⟨-, h1, h2⟩
    rw [h1, h2]

theorem Data.pair_iff (d : Data O A B) (m : Icm O) (hm : Sized m F A) (j k : Fin B) :
    d.pair m j = d.pair m k ↔ j ∈ d.between m k := by
  unfold Data.between Data.pair
  rw [Finset.mem_filter]
  constructor
  · intro h
    have := List.append_inj h (by rw [hm.feature, hm.feature])
    exact ⟨Finset.mem_univ _, this.1, this.2⟩
  · rintro ⟨-, h1, h2⟩
    rw [h1, h2]

/-- Means are the best constants: for groups of rows with the same key. -/
theorem group_means {K : Type} [DecidableEq K] (key : Fin B → K) (y mu : Fin B → ℝ)
    (hmu : ∀ k, mu k = (∑ j with key j = key k, y j) / (Finset.univ.filter fun j => key j = key k).card) (f : K → ℝ) :
    ∑ k, (f (key k) - y k) ^ 2 = ∑ k, (mu k - y k) ^ 2 + ∑ k, (f (key k) - mu k) ^ 2 := by
  have hcard : ∀ k, ((Finset.univ.filter fun j => key j = key k).card : ℝ) ≠ 0 := fun k =>
    Nat.cast_ne_zero.mpr (Finset.card_pos.mpr ⟨k, by simp⟩).ne'
  have hconst : ∀ j k, key j = key k → mu j = mu k := fun j k h => by rw [hmu, hmu, h]
  have hcross : ∑ k, (f (key k) - mu k) * (mu k - y k) = 0 := by
    have e1 : ∑ k, (f (key k) - mu k) * mu k =
        ∑ k, ∑ j, if key j = key k then (f (key k) - mu k) * y j / (Finset.univ.filter fun j => key j = key k).card else 0 := by
      refine Finset.sum_congr rfl fun k _ => ?_
      rw [← Finset.sum_filter, ← Finset.sum_div, ← Finset.mul_sum, mul_div_assoc, ← hmu]
    have e2 : ∑ k, (f (key k) - mu k) * y k =
        ∑ j, ∑ k, if key j = key k then (f (key k) - mu k) * y j / (Finset.univ.filter fun j => key j = key k).card else 0 := by
      refine Finset.sum_congr rfl fun j _ => ?_
      rw [← Finset.sum_filter]
      rw [Finset.sum_congr rfl (g := fun _ => (f (key j) - mu j) * y j / (Finset.univ.filter fun i => key i = key j).card)]
      · rw [Finset.sum_const, nsmul_eq_mul]
        have : (Finset.univ.filter fun k => key j = key k) = Finset.univ.filter fun k => key k = key j := by
          ext k
          simp [eq_comm]
        rw [this]
        field_simp [hcard j]
      · intro k hk
        have hk := (Finset.mem_filter.mp hk).2
        rw [hk, hconst j k hk]
    simp only [mul_sub, Finset.sum_sub_distrib]
    rw [e1, e2, Finset.sum_comm, sub_self]
  rw [← Finset.sum_add_distrib, ← sub_eq_zero, ← Finset.sum_sub_distrib]
  rw [← mul_zero (2 : ℝ), ← hcross, Finset.mul_sum]
  exact Finset.sum_congr rfl fun k _ => by ring

theorem Data.fwd_eq (d : Data O A B) (m : Icm O) (hm : Sized m F A) (f : List ℝ → List ℝ) (hf : ∀ v, (f v).length = F) :
    d.fwd F { m with forward := f } = ∑ k, ∑ i : Fin F, (d.mean m k i - feat m (d.next k) i) ^ 2 +
      ∑ k, ∑ i : Fin F, ((f (d.key m k)).getD i 0 - d.mean m k i) ^ 2 := by
  have h : ∀ i : Fin F, ∑ k, ((f (d.key m k)).getD i 0 - feat m (d.next k) i) ^ 2 =
      ∑ k, (d.mean m k i - feat m (d.next k) i) ^ 2 + ∑ k, ((f (d.key m k)).getD i 0 - d.mean m k i) ^ 2 := by
    intro i
    refine group_means (d.key m) (fun k => feat m (d.next k) i) (fun k => d.mean m k i) (fun k => ?_) fun v => (f v).getD i 0
    have : (Finset.univ.filter fun j => d.key m j = d.key m k) = d.alike m k := by
      ext j
      rw [Finset.mem_filter, ← d.key_iff m hm]
      simp
    rw [this]
    rfl
  have e : d.fwd F { m with forward := f } = ∑ k, ∑ i : Fin F, ((f (d.key m k)).getD i 0 - feat m (d.next k) i) ^ 2 := rfl
  rw [e, Finset.sum_comm, Finset.sum_congr rfl fun i _ => h i, Finset.sum_add_distrib, Finset.sum_comm,
    Finset.sum_comm (f := fun k (i : Fin F) => ((f (d.key m k)).getD i 0 - d.mean m k i) ^ 2)]

theorem Sized.setForward {m : Icm O} (hm : Sized m F A) {f : List ℝ → List ℝ} (hf : ∀ v, (f v).length = F) : Sized { m with forward := f } F A :=
  ⟨hm.actions, hm.feature, hf, hm.inverse⟩

theorem Sized.setInverse {m : Icm O} (hm : Sized m F A) {f : List ℝ → List ℝ} (hf : ∀ v, (f v).length = A) : Sized { m with inverse := f } F A :=
  ⟨hm.actions, hm.feature, hm.forward, hf⟩

theorem Data.forward_iff (d : Data O A B) (hB : 0 < B) (weight lrScale : ℝ) (hw : 0 < weight) (hl : 0 < lrScale) (m : Icm O) (hm : Sized m F A) :
    d.Forward F weight lrScale m ↔ ∀ f : List ℝ → List ℝ, (∀ v, (f v).length = F) → d.fwd F m ≤ d.fwd F { m with forward := f } := by
  have hB' : (0 : ℝ) < B := by exact_mod_cast hB
  have key : ∀ f : List ℝ → List ℝ, (((1 - weight) * (d.inv m / B) + weight * (d.fwd F m / 2 / B)) * lrScale ≤
      ((1 - weight) * (d.inv m / B) + weight * (d.fwd F { m with forward := f } / 2 / B)) * lrScale ↔ d.fwd F m ≤ d.fwd F { m with forward := f }) := by
    intro f
    rw [mul_le_mul_iff_left₀ hl, add_le_add_iff_left, mul_le_mul_iff_right₀ hw, div_le_div_iff_of_pos_right hB',
      div_le_div_iff_of_pos_right two_pos]
  unfold Data.Forward
  rw [d.loss_eq _ _ m hm]
  constructor
  · rintro ⟨l, h1, h⟩ f hf
    obtain ⟨l', h2, h3⟩ := h f hf
    rw [d.loss_eq _ _ _ (hm.setForward hf)] at h2
    rw [← Option.some.inj h1, ← Option.some.inj h2] at h3
    exact (key f).mp h3
  · intro h
    refine ⟨_, rfl, fun f hf => ⟨_, d.loss_eq _ _ _ (hm.setForward hf), (key f).mpr (h f hf)⟩⟩

/-! ### C280 -/

/-- **C280: the bonus that remains.** The forward model has settled on the batch exactly if the bonus of each transition in it is half the squared distance between the features of the next observation
and their mean over all transitions of the batch from the same features with the same action. -/
theorem C280_forward (d : Data O A B) (hB : 0 < B) (weight lrScale : ℝ) (hw : 0 < weight) (hl : 0 < lrScale) (m : Icm O) (hm : Sized m F A) :
    d.Forward F weight lrScale m ↔
      ∀ k, bonus m (d.obs k) (d.act k) (d.next k) = (∑ i : Fin F, (feat m (d.next k) i - d.mean m k i) ^ 2) / 2 := by
  rw [d.forward_iff hB weight lrScale hw hl m hm]
  have hself : d.fwd F m = ∑ k, ∑ i : Fin F, (d.mean m k i - feat m (d.next k) i) ^ 2 + ∑ k, ∑ i : Fin F, ((m.forward (d.key m k)).getD i 0 - d.mean m k i) ^ 2 :=
    d.fwd_eq m hm m.forward hm.forward
  constructor
  · intro h k
    let f : List ℝ → List ℝ := fun v => if h : ∃ j, d.key m j = v then List.ofFn fun i : Fin F => d.mean m h.choose i else List.replicate F 0
    have hf : ∀ v, (f v).length = F := by
      intro v
      by_cases hv : ∃ j, d.key m j = v <;> simp [f, hv]
    have hval : ∀ j (i : Fin F), (f (d.key m j)).getD i 0 = d.mean m j i := by
      intro j i
      have hv : ∃ j', d.key m j' = d.key m j := ⟨j, rfl⟩
      have hc : d.alike m hv.choose = d.alike m j := by
        ext q
        rw [← d.key_iff m hm, ← d.key_iff m hm, hv.choose_spec]
      simp only [f, dif_pos hv]
      unfold Data.mean
      rw [hc]
      simp
    have h1 := h f hf
    rw [d.fwd_eq m hm f hf, hself] at h1
    simp only [hval, sub_self, ne_eq, OfNat.ofNat_ne_zero, not_false_eq_true, zero_pow, Finset.sum_const_zero, add_zero] at h1
    have h2 : ∑ j, ∑ i : Fin F, ((m.forward (d.key m j)).getD i 0 - d.mean m j i) ^ 2 = 0 :=
      le_antisymm (by linarith) (Finset.sum_nonneg fun _ _ => Finset.sum_nonneg fun _ _ => sq_nonneg _)
    have h3 := (Finset.sum_eq_zero_iff_of_nonneg fun _ _ => Finset.sum_nonneg fun _ _ => sq_nonneg _).mp h2 k (Finset.mem_univ k)
    have h4 : ∀ i : Fin F, (m.forward (d.key m k)).getD i 0 = d.mean m k i := fun i => by
      have := (Finset.sum_eq_zero_iff_of_nonneg fun _ _ => sq_nonneg _).mp h3 i (Finset.mem_univ i)
      exact sub_eq_zero.mp (pow_eq_zero_iff two_ne_zero |>.mp this)
    rw [bonus_eq m hm]
    unfold dist
    congr 1
    refine Finset.sum_congr rfl fun i _ => ?_
    have := h4 i
    unfold Data.key at this
    rw [this]
    ring
  · intro h f hf
    have h1 : d.fwd F m = ∑ k, ∑ i : Fin F, (d.mean m k i - feat m (d.next k) i) ^ 2 := by
      unfold Data.fwd
      refine Finset.sum_congr rfl fun k _ => ?_
      have := h k
      rw [bonus_eq m hm] at this
      unfold Data.key
      have h2 := (div_left_inj' (two_ne_zero (α := ℝ))).mp this
      rw [h2]
      exact Finset.sum_congr rfl fun i _ => by ring
    rw [h1, d.fwd_eq m hm f hf, le_add_iff_nonneg_right]
    exact Finset.sum_nonneg fun _ _ => Finset.sum_nonneg fun _ _ => sq_nonneg _

/-- **C280: what loses its bonus.** When the forward model has settled, the transitions from the same features with the same action have no bonus exactly if all of them lead to the same
features. Where the outcome is random, some bonus remains however often the transitions are trained on. -/
theorem C280_fades (d : Data O A B) (hB : 0 < B) (weight lrScale : ℝ) (hw : 0 < weight) (hl : 0 < lrScale) (m : Icm O) (hm : Sized m F A)
    (h : d.Forward F weight lrScale m) (k : Fin B) :
    (∀ j ∈ d.alike m k, bonus m (d.obs j) (d.act j) (d.next j) = 0) ↔ ∀ j ∈ d.alike m k, m.feature (d.next j) = m.feature (d.next k) := by
  have hb := (C280_forward d hB weight lrScale hw hl m hm).mp h
  have hk : k ∈ d.alike m k := by simp [Data.alike]
  have halike : ∀ j ∈ d.alike m k, d.alike m j = d.alike m k := by
    intro j hj
    have := (d.key_iff m hm j k).mpr hj
    ext q
    rw [← d.key_iff m hm, ← d.key_iff m hm, this]
  have hmean : ∀ j ∈ d.alike m k, ∀ i : Fin F, d.mean m j i = d.mean m k i := by
    intro j hj i
    unfold Data.mean
    rw [halike j hj]
  have hz : ∀ j, bonus m (d.obs j) (d.act j) (d.next j) = 0 ↔ ∀ i : Fin F, feat m (d.next j) i = d.mean m j i := by
    intro j
    rw [hb j, div_eq_zero_iff, or_iff_left two_ne_zero, Finset.sum_eq_zero_iff_of_nonneg fun _ _ => sq_nonneg _]
    constructor
    · intro h i
      exact sub_eq_zero.mp (pow_eq_zero_iff two_ne_zero |>.mp (h i (Finset.mem_univ i)))
    · intro h i _
      rw [h i, sub_self, zero_pow two_ne_zero]
  have hext : ∀ x y : O, m.feature x = m.feature y ↔ ∀ i : Fin F, feat m x i = feat m y i := by
    intro x y
    refine ⟨fun h i => by unfold feat; rw [h], fun h => ?_⟩
    apply List.ext_getElem (by rw [hm.feature, hm.feature])
    intro i h1 h2
    have := h ⟨i, by rwa [hm.feature] at h1⟩
    unfold feat at this
    simpa [List.getD_eq_getElem?_getD, List.getElem?_eq_getElem h1, List.getElem?_eq_getElem h2] using this
  constructor
  · intro h j hj
    rw [hext]
    intro i
    rw [(hz j).mp (h j hj) i, (hz k).mp (h k hk) i, hmean j hj]
  · intro h j hj
    rw [hz]
    intro i
    rw [(hext _ _).mp (h j hj) i, hmean j hj]
    unfold Data.mean
    rw [Finset.sum_congr rfl fun q hq => (hext _ _).mp (h q hq) i, Finset.sum_const, nsmul_eq_mul, mul_div_assoc, mul_comm, div_mul_cancel₀]
    exact Nat.cast_ne_zero.mpr (Finset.card_pos.mpr ⟨k, hk⟩).ne'

theorem Data.inverse_iff (d : Data O A B) (hB : 0 < B) (weight lrScale : ℝ) (hw : weight < 1) (hl : 0 < lrScale) (m : Icm O) (hm : Sized m F A) :
    d.Inverse weight lrScale m ↔ ∀ f : List ℝ → List ℝ, (∀ v, (f v).length = A) → d.inv m ≤ d.inv { m with inverse := f } := by
  have hB' : (0 : ℝ) < B := by exact_mod_cast hB
  have key : ∀ f : List ℝ → List ℝ, (((1 - weight) * (d.inv m / B) + weight * (d.fwd F m / 2 / B)) * lrScale ≤
      ((1 - weight) * (d.inv { m with inverse := f } / B) + weight * (d.fwd F m / 2 / B)) * lrScale ↔ d.inv m ≤ d.inv { m with inverse := f }) := by
    intro f
    rw [mul_le_mul_iff_left₀ hl, add_le_add_iff_right, mul_le_mul_iff_right₀ (sub_pos.mpr hw), div_le_div_iff_of_pos_right hB']
  unfold Data.Inverse
  rw [d.loss_eq _ _ m hm]
  constructor
  · rintro ⟨l, h1, h⟩ f hf
    obtain ⟨l', h2, h3⟩ := h f hf
    rw [d.loss_eq _ _ _ (hm.setInverse hf)] at h2
    rw [← Option.some.inj h1, ← Option.some.inj h2] at h3
    exact (key f).mp h3
  · intro h
    refine ⟨_, rfl, fun f hf => ⟨_, d.loss_eq _ _ _ (hm.setInverse hf), (key f).mpr (h f hf)⟩⟩

/-- A row without content. -/
def noRow : Offline.CrrRow ℝ := ⟨[], 0, [], 0, 0, false, false, [], []⟩

/-- Actions for pairs of features. -/
def Data.pairs (d : Data O A B) (m : Icm O) : CrrActor.Data (List ℝ) A B := ⟨d.pair m, d.act, fun _ => noRow⟩

theorem policy_prob (hA : 0 < A) (f : List ℝ → List ℝ) (hf : ∀ v, (f v).length = A) : CrrActor.Policy fun v (a : Fin A) => prob (f v) a :=
  ⟨fun v => (Fitting.prob_sum (f v) (hf v) hA).1, fun v => (Fitting.prob_sum (f v) (hf v) hA).2⟩

/-- **C280: the inverse model.** If every action occurs between the features of every transition, then the inverse model has settled exactly if it gives each action its frequency among the transitions
between these features. -/
theorem C280_inverse (d : Data O A B) (hB : 0 < B) (weight lrScale : ℝ) (hw : weight < 1) (hl : 0 < lrScale) (m : Icm O) (hm : Sized m F A)
    (hall : ∀ k a, ∃ j ∈ d.between m k, d.act j = a) :
    d.Inverse weight lrScale m ↔
      ∀ k a, guess m (d.obs k) (d.act k) (d.next k) a = ((d.between m k).filter fun j => d.act j = a).card / (d.between m k).card := by
  have hA : 0 < A := (d.act ⟨0, hB⟩).pos
  rw [d.inverse_iff hB weight lrScale hw hl m hm]
  have hpol := policy_prob hA m.inverse hm.inverse
  have hfreq : ∀ k a, (d.pairs m).freq (d.pair m k) a = ((d.between m k).filter fun j => d.act j = a).card / (d.between m k).card := by
    intro k a
    unfold CrrActor.Data.freq CrrActor.Data.times CrrActor.Data.visits
    have e1 : (Finset.univ.filter fun j => (d.pairs m).obs j = d.pair m k) = d.between m k := by
      ext j
      rw [Finset.mem_filter, ← d.pair_iff m hm]
      simp [Data.pairs]
    have e2 : (Finset.univ.filter fun j => (d.pairs m).obs j = d.pair m k ∧ (d.pairs m).act j = a) = (d.between m k).filter fun j => d.act j = a := by
      rw [← e1, Finset.filter_filter]
      rfl
    rw [e1, e2]
  have hall' : (d.pairs m).All := by
    intro k a
    obtain ⟨j, hj, ha⟩ := hall k a
    exact ⟨j, (d.pair_iff m hm j k).mpr hj, ha⟩
  have hg : ∀ k a, guess m (d.obs k) (d.act k) (d.next k) a = prob (m.inverse (d.pair m k)) a := fun k a => guess_eq m hm _ _ _ _
  simp only [hg, ← hfreq]
  constructor
  · intro h k a
    let f : List ℝ → List ℝ := Function.update m.inverse (d.pair m k) (List.ofFn fun a => Real.log ((d.pairs m).freq (d.pair m k) a))
    have hf : ∀ v, (f v).length = A := by
      intro v
      by_cases hv : v = d.pair m k
      · subst hv
        simp [f]
      · simp only [f, Function.update_of_ne hv]
        exact hm.inverse v
    have hpos : ∀ a, 0 < (d.pairs m).freq (d.pair m k) a := fun a => (d.pairs m).freq_pos hall' k a
    have h1 : ((d.pairs m).ce fun v a => prob (m.inverse v) a) ≤ (d.pairs m).ce fun v a => prob (f v) a := h f hf
    have e : (fun v (a : Fin A) => prob (f v) a) = Function.update (fun v (a : Fin A) => prob (m.inverse v) a) (d.pair m k) ((d.pairs m).freq (d.pair m k)) := by
      funext v a
      by_cases hv : v = d.pair m k
      · subst hv
        simp only [f, Function.update_self]
        unfold prob
        rw [List.map_ofFn, List.sum_ofFn]
        simp only [Function.comp_def, Real.exp_log (hpos _)]
        rw [show ∑ a, (d.pairs m).freq (d.pair m k) a = 1 from (d.pairs m).freq_sum k, div_one, List.getD_eq_getElem?_getD, List.getElem?_ofFn]
        simp [Real.exp_log (hpos a)]
      · simp only [f, Function.update_of_ne hv]
    rw [e] at h1
    exact congrFun (((d.pairs m).ce_freq hpol k).2 h1) a
  · intro h f hf
    change ((d.pairs m).ce fun v a => prob (m.inverse v) a) ≤ (d.pairs m).ce fun v a => prob (f v) a
    exact (d.pairs m).ce_min (fun k => funext fun a => h k a) (policy_prob hA f hf)

/-- **C280: features that ignore everything.** If between any two observations of the batch all actions are equally frequent, or if the inverse model has no weight, then no module at all has a smaller loss than one
whose features are the same for all observations and whose models are constant; this module gives no bonus to any transition, seen or not. -/
theorem C280_collapse (d : Data O A B) (hB : 0 < B) (weight lrScale : ℝ) (hw : 0 ≤ weight) (hw1 : weight ≤ 1) (hl : 0 < lrScale)
    (h : weight = 1 ∨ ∀ k a, A * (Finset.univ.filter fun j => d.obs j = d.obs k ∧ d.next j = d.next k ∧ d.act j = a).card =
      (Finset.univ.filter fun j => d.obs j = d.obs k ∧ d.next j = d.next k).card) (c : List ℝ) (hc : c.length = F) :
    ∃ l, d.loss weight lrScale ⟨fun _ => c, fun _ => c, fun _ => List.replicate A 0, A⟩ = some l ∧
      (∀ m', Sized m' F A → ∃ l', d.loss weight lrScale m' = some l' ∧ l ≤ l') ∧
      ∀ x (a : Fin A) y, bonus (⟨fun _ => c, fun _ => c, fun _ => List.replicate A 0, A⟩ : Icm O) x a y = 0 := by
  have hA : 0 < A := (d.act ⟨0, hB⟩).pos
  have hA' : (A : ℝ) ≠ 0 := Nat.cast_ne_zero.mpr hA.ne'
  have hB' : (0 : ℝ) < B := by exact_mod_cast hB
  have hs : Sized (⟨fun _ => c, fun _ => c, fun _ => List.replicate A 0, A⟩ : Icm O) F A := ⟨rfl, fun _ => hc, fun _ => hc, fun _ => by simp⟩
  have hprob : ∀ a : Fin A, prob (List.replicate A 0) a = 1 / A := by
    intro a
    unfold prob
    simp [List.getD_eq_getElem?_getD]
  refine ⟨_, d.loss_eq weight lrScale _ hs, fun m' hm' => ⟨_, d.loss_eq weight lrScale m' hm', ?_⟩, fun x a y => ?_⟩
  · refine mul_le_mul_of_nonneg_right (add_le_add ?_ ?_) hl.le
    · rcases h with rfl | h
      · simp
      · refine mul_le_mul_of_nonneg_left ((div_le_div_iff_of_pos_right hB').mpr ?_) (sub_nonneg.mpr hw1)
        let e : CrrActor.Data (O × O) A B := ⟨fun k => (d.obs k, d.next k), d.act, fun _ => noRow⟩
        have h1 : d.inv (⟨fun _ => c, fun _ => c, fun _ => List.replicate A 0, A⟩ : Icm O) = e.ce fun _ _ => 1 / A := by
          unfold Data.inv CrrActor.Data.ce
          simp only [hprob]
        have h2 : d.inv m' = e.ce fun v a => prob (m'.inverse (m'.feature v.1 ++ m'.feature v.2)) a := rfl
        rw [h1, h2]
        refine e.ce_min (fun k => funext fun a => ?_)
          ⟨fun v => (Fitting.prob_sum _ (hm'.inverse _) hA).1, fun v => (Fitting.prob_sum _ (hm'.inverse _) hA).2⟩
        have h3 := h k a
        have e1 : e.visits (e.obs k) = (Finset.univ.filter fun j => d.obs j = d.obs k ∧ d.next j = d.next k).card := by
          unfold CrrActor.Data.visits
          congr 1
          ext j
          simp [e]
        have e2 : e.times (e.obs k) a = (Finset.univ.filter fun j => d.obs j = d.obs k ∧ d.next j = d.next k ∧ d.act j = a).card := by
          unfold CrrActor.Data.times
          congr 1
          ext j
          simp [e, and_assoc]
        have hv := e.visits_pos k
        unfold CrrActor.Data.freq
        rw [← e1, ← e2] at h3
        rw [← h3] at hv ⊢
        push_cast at hv ⊢
        have ht : (e.times (e.obs k) a : ℝ) ≠ 0 := fun h0 => by rw [h0, mul_zero] at hv; exact lt_irrefl _ hv
        field_simp
    · refine mul_le_mul_of_nonneg_left ?_ hw
      have : d.fwd F (⟨fun _ => c, fun _ => c, fun _ => List.replicate A 0, A⟩ : Icm O) = 0 := by
        unfold Data.fwd dist feat
        simp
      rw [this]
      have h0 : 0 ≤ d.fwd F m' := Finset.sum_nonneg fun _ _ => Finset.sum_nonneg fun _ _ => sq_nonneg _
      simp only [zero_div]
      positivity
  · rw [bonus_eq _ hs]
    unfold dist feat
    simp

/-! ### An instance: one action with a random outcome, one with a certain outcome -/

/-- From 0, the action 0 leads to 1 or to 3, the action 1 leads to 3. -/
def noisy : Data ℝ 2 4 := ⟨fun _ => 0, ![0, 0, 1, 1], ![1, 3, 3, 3]⟩

/-- The feature is the observation; the forward model predicts the means. -/
noncomputable def settledIcm : Icm ℝ := ⟨fun x => [x], fun v => [if v.getD 1 0 = 1 then 2 else 3], fun _ => [0, 0], 2⟩

theorem settledIcm_sized : Sized settledIcm 1 2 := ⟨rfl, fun _ => rfl, fun _ => rfl, fun _ => rfl⟩

theorem settledIcm_bonus (k : Fin 4) :
    bonus settledIcm (noisy.obs k) (noisy.act k) (noisy.next k) = ![1 / 2, 1 / 2, 0, 0] k := by
  rw [bonus_eq settledIcm settledIcm_sized]
  fin_cases k <;> norm_num [dist, settledIcm, noisy, feat, hot, List.range_succ]

theorem noisy_mean (k : Fin 4) : noisy.mean settledIcm k (0 : Fin 1) = ![2, 2, 3, 3] k := by
  unfold Data.mean Data.alike
  rw [Finset.sum_filter, Finset.card_filter]
  push_cast
  rw [Fin.sum_univ_four, Fin.sum_univ_four]
  fin_cases k <;> simp [settledIcm, noisy, feat] <;> norm_num

-- The module has settled; the certain transitions have no bonus any more, the random ones keep theirs.
example : noisy.Forward 1 (1 / 5) 1 settledIcm ∧ ¬ (∀ j ∈ noisy.alike settledIcm 0, bonus settledIcm (noisy.obs j) (noisy.act j) (noisy.next j) = 0) ∧
    ∀ j ∈ noisy.alike settledIcm 2, bonus settledIcm (noisy.obs j) (noisy.act j) (noisy.next j) = 0 := by
  have h : noisy.Forward 1 (1 / 5) 1 settledIcm := by
    rw [C280_forward noisy (by norm_num) _ _ (by norm_num) (by norm_num) settledIcm settledIcm_sized]
    intro k
    rw [settledIcm_bonus, Fin.sum_univ_one, noisy_mean]
    fin_cases k <;> norm_num [feat, settledIcm, noisy]
  refine ⟨h, ?_, ?_⟩
  · rw [C280_fades noisy (by norm_num) _ _ (by norm_num) (by norm_num) settledIcm settledIcm_sized h]
    intro h1
    have := h1 1 (by simp [Data.alike, noisy, settledIcm])
    norm_num [settledIcm, noisy] at this
  · rw [C280_fades noisy (by norm_num) _ _ (by norm_num) (by norm_num) settledIcm settledIcm_sized h]
    intro j hj
    have hj : noisy.act j = noisy.act 2 := (Finset.mem_filter.mp hj).2.2
    fin_cases j <;> simp [noisy] at hj <;> simp [noisy, settledIcm]

/-- Two actions between the same observations, one of them three times as often. -/
def mixed : Data ℝ 2 4 := ⟨fun _ => 0, ![0, 1, 1, 1], fun _ => 1⟩

-- The inverse model that gives the frequencies has settled.
example : mixed.Inverse (1 / 5) 1 ⟨fun x => [x], fun _ => [0], fun _ => [0, Real.log 3], 2⟩ := by
  have hs : Sized (⟨fun x => [x], fun _ => [0], fun _ => [0, Real.log 3], 2⟩ : Icm ℝ) 1 2 := ⟨rfl, fun _ => rfl, fun _ => rfl, fun _ => rfl⟩
  have hb : ∀ k, mixed.between (⟨fun x => [x], fun _ => [0], fun _ => [0, Real.log 3], 2⟩ : Icm ℝ) k = Finset.univ := by
    intro k
    simp [Data.between, mixed]
  rw [C280_inverse mixed (by norm_num) _ _ (by norm_num) (by norm_num) _ hs]
  · intro k a
    rw [guess_eq _ hs, hb, Finset.card_filter, Finset.card_univ, Fintype.card_fin]
    push_cast
    rw [Fin.sum_univ_four]
    have := Real.exp_log (show (0 : ℝ) < 3 by norm_num)
    fin_cases a <;> simp [prob, mixed, this] <;> norm_num
  · intro k a
    rw [hb]
    fin_cases a
    · exact ⟨0, Finset.mem_univ _, rfl⟩
    · exact ⟨1, Finset.mem_univ _, rfl⟩

/-- Both actions do the same. -/
def useless : Data ℝ 2 4 := ⟨![0, 0, 1, 1], ![0, 1, 0, 1], ![1, 1, 2, 2]⟩

-- Here the module that ignores the observations is among the best ones.
example : ∃ l, useless.loss (1 / 5) 1 ⟨fun _ => [7], fun _ => [7], fun _ => List.replicate 2 0, 2⟩ = some l ∧
    ∀ m', Sized m' 1 2 → ∃ l', useless.loss (1 / 5) 1 m' = some l' ∧ l ≤ l' := by
  obtain ⟨l, h1, h2, -⟩ := C280_collapse useless (by norm_num) (1 / 5) 1 (by norm_num) (by norm_num) (by norm_num) (Or.inr (by
    intro k a
    rw [Finset.card_filter, Finset.card_filter, Fin.sum_univ_four, Fin.sum_univ_four]
    fin_cases k <;> fin_cases a <;> simp [useless])) [7] rfl
  exact ⟨l, h1, h2⟩

end

end Verif.Curiosity
