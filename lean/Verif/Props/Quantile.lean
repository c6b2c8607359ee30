import Verif.Props.Fitting
import Verif.Props.QTarget
import Mathlib.Topology.Order.IntermediateValue
import Mathlib.Topology.Instances.Real.Lemmas

/-!
C246: what quantile regression learns.
-/

namespace Verif.Quantile

open Verif.QTarget Verif.Fitting
open Verif.QLearning (mean_ofFn zipWith_ofFn)

set_option linter.unusedSectionVars false

/-! ### The loss of one number -/

/-- What one target contributes to the loss of one quantile; `u` is the target minus the quantile. -/
noncomputable def h (tau u : ℝ) : ℝ := huber u * |tau - if u ≤ 0 then 1 else 0|

/-- The part of the loss above 0. -/
noncomputable def pos (u : ℝ) : ℝ := if u ≤ 0 then 0 else if u < 1 then u ^ 2 / 2 else u - 1 / 2

/-- Its derivative. -/
noncomputable def slope (u : ℝ) : ℝ := min (max u 0) 1

theorem slope_cases (u : ℝ) : (u ≤ 0 ∧ slope u = 0 ∧ pos u = 0) ∨ (0 < u ∧ u < 1 ∧ slope u = u ∧ pos u = u ^ 2 / 2) ∨ (1 ≤ u ∧ slope u = 1 ∧ pos u = u - 1 / 2) := by
  unfold slope pos
  by_cases h0 : u ≤ 0
  · left
    rw [max_eq_right h0, min_eq_left zero_le_one, if_pos h0]
    exact ⟨h0, rfl, rfl⟩
  · have h0' := not_le.mp h0
    right
    rw [max_eq_left h0'.le, if_neg h0]
    by_cases h1 : u < 1
    · left
      rw [min_eq_left h1.le, if_pos h1]
      exact ⟨h0', h1, rfl, rfl⟩
    · right
      rw [min_eq_right (not_lt.mp h1), if_neg h1]
      exact ⟨not_lt.mp h1, rfl, rfl⟩

theorem pos_lower (u v : ℝ) : pos u + slope u * (v - u) ≤ pos v := by
  rcases slope_cases u with ⟨a, b, c⟩ | ⟨a, a', b, c⟩ | ⟨a, b, c⟩ <;> rcases slope_cases v with ⟨d, e, f⟩ | ⟨d, d', e, f⟩ | ⟨d, e, f⟩ <;>
    rw [b, c, f] <;> nlinarith [sq_nonneg (u - v), sq_nonneg (u - 1), sq_nonneg (v - 1)]

theorem pos_upper (u v : ℝ) : pos v ≤ pos u + slope u * (v - u) + (v - u) ^ 2 / 2 := by
  rcases slope_cases u with ⟨a, b, c⟩ | ⟨a, a', b, c⟩ | ⟨a, b, c⟩ <;> rcases slope_cases v with ⟨d, e, f⟩ | ⟨d, d', e, f⟩ | ⟨d, e, f⟩ <;>
    rw [b, c, f] <;> nlinarith [sq_nonneg (u - v), sq_nonneg (u - 1), sq_nonneg (v - 1)]

theorem h_eq {tau : ℝ} (h0 : 0 < tau) (h1 : tau < 1) (u : ℝ) : h tau u = tau * pos u + (1 - tau) * pos (-u) := by
  unfold h huber pos
  by_cases hu : u ≤ 0
  · rw [if_pos hu, if_pos hu, abs_of_nonpos hu, abs_of_nonpos (by linarith : tau - 1 ≤ 0)]
    by_cases hz : u = 0
    · subst hz
      norm_num
    · have : ¬ -u ≤ 0 := by
        have := lt_of_le_of_ne hu hz
        linarith
      rw [if_neg this]
      split <;> ring
  · have hu' := not_le.mp hu
    rw [if_neg hu, if_neg hu, abs_of_pos hu', if_pos (by linarith : -u ≤ 0), sub_zero, abs_of_pos h0]
    ring

/-! ### The loss of one quantile -/

variable {J : Type} [Fintype J]

/-- The loss of the number `c` as the quantile `tau` of the values `x` with weights `w`. -/
noncomputable def total (tau : ℝ) (w x : J → ℝ) (c : ℝ) : ℝ := ∑ j, w j * h tau (x j - c)

/-- Its derivative, up to the sign. -/
noncomputable def balance (tau : ℝ) (w x : J → ℝ) (c : ℝ) : ℝ := ∑ j, w j * (tau * slope (x j - c) - (1 - tau) * slope (-(x j - c)))

theorem total_iff {tau : ℝ} (h0 : 0 < tau) (h1 : tau < 1) (w x : J → ℝ) (hw : ∀ j, 0 ≤ w j) (c : ℝ) :
    (∀ c', total tau w x c ≤ total tau w x c') ↔ balance tau w x c = 0 := by
  constructor
  · intro hmin
    have hW : 0 ≤ ∑ j, w j := Finset.sum_nonneg fun j _ => hw j
    have hup : ∀ d, total tau w x (c + d) ≤ total tau w x c - d * balance tau w x c + (∑ j, w j) * (d ^ 2 / 2) := by
      intro d
      unfold total balance
      rw [Finset.mul_sum, Finset.sum_mul, ← Finset.sum_sub_distrib, ← Finset.sum_add_distrib]
      refine Finset.sum_le_sum fun j _ => ?_
      rw [h_eq h0 h1, h_eq h0 h1]
      have e1 := pos_upper (x j - c) (x j - (c + d))
      have e2 := pos_upper (-(x j - c)) (-(x j - (c + d)))
      have e3 : tau * pos (x j - (c + d)) + (1 - tau) * pos (-(x j - (c + d))) ≤
          tau * (pos (x j - c) + slope (x j - c) * (x j - (c + d) - (x j - c)) + (x j - (c + d) - (x j - c)) ^ 2 / 2) +
            (1 - tau) * (pos (-(x j - c)) + slope (-(x j - c)) * (-(x j - (c + d)) - -(x j - c)) + (-(x j - (c + d)) - -(x j - c)) ^ 2 / 2) :=
        add_le_add (mul_le_mul_of_nonneg_left e1 h0.le) (mul_le_mul_of_nonneg_left e2 (by linarith))
      refine (mul_le_mul_of_nonneg_left e3 (hw j)).trans (le_of_eq ?_)
      ring
    by_contra hne
    have hd := hup (balance tau w x c / (∑ j, w j + 1))
    have hm := hmin (c + balance tau w x c / (∑ j, w j + 1))
    set B := balance tau w x c
    set W := ∑ j, w j
    have hsq : 0 < B ^ 2 := by positivity
    have e : B / (W + 1) * B - W * ((B / (W + 1)) ^ 2 / 2) = B ^ 2 * (W + 2) / (2 * (W + 1) ^ 2) := by
      field_simp
      ring
    have : 0 < B ^ 2 * (W + 2) / (2 * (W + 1) ^ 2) := by positivity
    linarith
  · intro hb c'
    have : total tau w x c + (c - c') * balance tau w x c ≤ total tau w x c' := by
      unfold total balance
      rw [Finset.mul_sum, ← Finset.sum_add_distrib]
      refine Finset.sum_le_sum fun j _ => ?_
      rw [h_eq h0 h1, h_eq h0 h1]
      have e1 := pos_lower (x j - c) (x j - c')
      have e2 := pos_lower (-(x j - c)) (-(x j - c'))
      have e3 := mul_le_mul_of_nonneg_left (add_le_add (mul_le_mul_of_nonneg_left e1 h0.le) (mul_le_mul_of_nonneg_left e2 (by linarith : 0 ≤ 1 - tau))) (hw j)
      refine le_trans (le_of_eq ?_) e3
      ring
    rw [hb] at this
    linarith

theorem balance_split (tau : ℝ) (w x : J → ℝ) (c : ℝ) :
    balance tau w x c = tau * ∑ j, w j * slope (x j - c) - (1 - tau) * ∑ j, w j * slope (-(x j - c)) := by
  unfold balance
  rw [Finset.mul_sum, Finset.mul_sum, ← Finset.sum_sub_distrib]
  exact Finset.sum_congr rfl fun j _ => by ring

open Classical in
/-- The weight of the values with a property. -/
noncomputable def mass (w x : J → ℝ) (p : ℝ → Prop) : ℝ := ∑ j, if p (x j) then w j else 0

theorem mass_mono (w x : J → ℝ) (hw : ∀ j, 0 ≤ w j) {p q : ℝ → Prop} (hpq : ∀ y, p y → q y) : mass w x p ≤ mass w x q := by
  unfold mass
  refine Finset.sum_le_sum fun j _ => ?_
  by_cases hp : p (x j)
  · rw [if_pos hp, if_pos (hpq _ hp)]
  · rw [if_neg hp]
    split
    · exact hw j
    · exact le_rfl

theorem mass_not (w x : J → ℝ) (p : ℝ → Prop) : mass w x p + mass w x (fun y => ¬ p y) = ∑ j, w j := by
  unfold mass
  rw [← Finset.sum_add_distrib]
  refine Finset.sum_congr rfl fun j _ => ?_
  by_cases hp : p (x j) <;> simp [hp]

theorem slope_bounds (w x : J → ℝ) (hw : ∀ j, 0 ≤ w j) (c : ℝ) :
    (mass w x (fun y => c + 1 ≤ y) ≤ ∑ j, w j * slope (x j - c) ∧ ∑ j, w j * slope (x j - c) ≤ mass w x fun y => c < y) ∧
      mass w x (fun y => y ≤ c - 1) ≤ ∑ j, w j * slope (-(x j - c)) ∧ ∑ j, w j * slope (-(x j - c)) ≤ mass w x fun y => y < c := by
  unfold mass
  have key : ∀ j (u : ℝ) (p q : Prop) [Decidable p] [Decidable q], (p → 1 ≤ u) → (¬ q → u ≤ 0) →
      (if p then w j else 0) ≤ w j * slope u ∧ w j * slope u ≤ if q then w j else 0 := by
    intro j u p q _ _ hp hq
    have := hw j
    rcases slope_cases u with ⟨a, b, _⟩ | ⟨a, a', b, _⟩ | ⟨a, b, _⟩
    all_goals
      rw [b]
      constructor
      · split
        · have := hp ‹_›
          nlinarith
        · nlinarith
      · split
        · nlinarith
        · have := hq ‹_›
          nlinarith
  refine ⟨⟨?_, ?_⟩, ?_, ?_⟩ <;> refine Finset.sum_le_sum fun j _ => ?_
  · exact (key j (x j - c) (c + 1 ≤ x j) (c < x j) (fun h => by linarith) (fun h => by linarith)).1
  · exact (key j (x j - c) (c + 1 ≤ x j) (c < x j) (fun h => by linarith) (fun h => by linarith)).2
  · exact (key j (-(x j - c)) (x j ≤ c - 1) (x j < c) (fun h => by linarith) (fun h => by linarith)).1
  · exact (key j (-(x j - c)) (x j ≤ c - 1) (x j < c) (fun h => by linarith) (fun h => by linarith)).2

theorem bracket {tau : ℝ} (h0 : 0 < tau) (h1 : tau < 1) (w x : J → ℝ) (hw : ∀ j, 0 ≤ w j) (c : ℝ) (hb : balance tau w x c = 0) :
    mass w x (fun y => y ≤ c - 1) ≤ tau * ∑ j, w j ∧ tau * ∑ j, w j ≤ mass w x fun y => y < c + 1 := by
  rw [balance_split] at hb
  obtain ⟨⟨a1, a2⟩, b1, b2⟩ := slope_bounds w x hw c
  set A := ∑ j, w j * slope (x j - c)
  set B := ∑ j, w j * slope (-(x j - c))
  have e1 := mass_not w x fun y => y ≤ c - 1
  have e2 := mass_not w x fun y => y < c + 1
  have m1 : (mass w x fun y => c < y) ≤ mass w x fun y => ¬ y ≤ c - 1 := mass_mono w x hw fun y hy h => by linarith
  have m2 : (mass w x fun y => y < c) ≤ mass w x fun y => y < c + 1 := mass_mono w x hw fun y hy => by linarith
  have m3 : (mass w x fun y => ¬ y < c + 1) = mass w x fun y => c + 1 ≤ y := by simp only [not_lt]
  rw [m3] at e2
  have p1 := mul_le_mul_of_nonneg_left (a2.trans m1) h0.le
  have p2 := mul_le_mul_of_nonneg_left b1 (by linarith : 0 ≤ 1 - tau)
  have p3 := mul_le_mul_of_nonneg_left a1 h0.le
  have p4 := mul_le_mul_of_nonneg_left (b2.trans m2) (by linarith : 0 ≤ 1 - tau)
  constructor <;> nlinarith

theorem slope_mono : Monotone slope := fun _ _ hab => min_le_min_right _ (max_le_max_right _ hab)

theorem balance_anti {tau : ℝ} (h0 : 0 < tau) (h1 : tau < 1) (w x : J → ℝ) (hw : ∀ j, 0 ≤ w j) : Antitone (balance tau w x) := by
  intro c c' hcc
  refine Finset.sum_le_sum fun j _ => mul_le_mul_of_nonneg_left ?_ (hw j)
  have e1 := mul_le_mul_of_nonneg_left (slope_mono (by linarith : x j - c' ≤ x j - c)) h0.le
  have e2 := mul_le_mul_of_nonneg_left (slope_mono (by linarith : -(x j - c) ≤ -(x j - c'))) (by linarith : 0 ≤ 1 - tau)
  linarith

theorem exists_balance (tau : ℝ) (h0 : 0 < tau) (h1 : tau < 1) (w x : J → ℝ) (hw : ∀ j, 0 ≤ w j) : ∃ c, balance tau w x c = 0 := by
  obtain ⟨lo, hlo⟩ := (Set.finite_range x).bddBelow
  obtain ⟨hi, hhi⟩ := (Set.finite_range x).bddAbove
  have hlo' : ∀ j, lo ≤ x j := fun j => hlo ⟨j, rfl⟩
  have hhi' : ∀ j, x j ≤ hi := fun j => hhi ⟨j, rfl⟩
  have s0 : ∀ u, u ≤ 0 → slope u = 0 := fun u hu => by
    unfold slope
    rw [max_eq_right hu, min_eq_left zero_le_one]
  have sn : ∀ u, 0 ≤ slope u := fun u => le_min (le_max_right _ _) zero_le_one
  have hcont : Continuous (balance tau w x) := by
    unfold balance slope
    fun_prop
  have e1 : 0 ≤ balance tau w x lo := Finset.sum_nonneg fun j _ => mul_nonneg (hw j) (by
    rw [s0 (-(x j - lo)) (by linarith [hlo' j])]
    have := mul_nonneg h0.le (sn (x j - lo))
    linarith)
  have e2 : balance tau w x hi ≤ 0 := Finset.sum_nonpos fun j _ => mul_nonpos_of_nonneg_of_nonpos (hw j) (by
    rw [s0 (x j - hi) (by linarith [hhi' j])]
    have := mul_nonneg (by linarith : 0 ≤ 1 - tau) (sn (-(x j - hi)))
    linarith)
  by_cases hle : lo ≤ hi
  · obtain ⟨c, _, hc⟩ := intermediate_value_Icc' hle hcont.continuousOn ⟨e2, e1⟩
    exact ⟨c, hc⟩
  · refine ⟨0, Finset.sum_eq_zero fun j _ => ?_⟩
    exact absurd ((hlo' j).trans (hhi' j)) hle

theorem apart {tau : ℝ} (h0 : 0 < tau) (h1 : tau < 1) (w x : J → ℝ) (hw : ∀ j, 0 ≤ w j) (c : ℝ) (hb : balance tau w x c = 0)
    (hx : ∀ j, 0 < w j → x j ≠ c → 1 ≤ |x j - c|) : mass w x (fun y => y < c) ≤ tau * ∑ j, w j ∧ tau * ∑ j, w j ≤ mass w x fun y => y ≤ c := by
  rw [balance_split] at hb
  have hA : ∑ j, w j * slope (x j - c) = mass w x fun y => c < y := by
    unfold mass
    refine Finset.sum_congr rfl fun j _ => ?_
    rcases (hw j).eq_or_lt with hj | hj
    · rw [← hj]; simp
    · by_cases hc : c < x j
      · have h2 := hx j hj hc.ne'
        rw [abs_of_pos (by linarith)] at h2
        rw [if_pos hc, slope, max_eq_left (by linarith), min_eq_right h2, mul_one]
      · rw [if_neg hc, slope, max_eq_right (by linarith), min_eq_left zero_le_one, mul_zero]
  have hB : ∑ j, w j * slope (-(x j - c)) = mass w x fun y => y < c := by
    unfold mass
    refine Finset.sum_congr rfl fun j _ => ?_
    rcases (hw j).eq_or_lt with hj | hj
    · rw [← hj]; simp
    · by_cases hc : x j < c
      · have h2 := hx j hj hc.ne
        rw [abs_of_neg (by linarith)] at h2
        rw [if_pos hc, slope, max_eq_left (by linarith), min_eq_right h2, mul_one]
      · rw [if_neg hc, slope, max_eq_right (by linarith), min_eq_left zero_le_one, mul_zero]
  rw [hA, hB] at hb
  have e1 := mass_not w x fun y => y < c
  have e2 := mass_not w x fun y => y ≤ c
  simp only [not_lt, not_le] at e1 e2
  have m1 : (mass w x fun y => c < y) ≤ mass w x fun y => c ≤ y := mass_mono w x hw fun y hy => hy.le
  have m2 : (mass w x fun y => y < c) ≤ mass w x fun y => y ≤ c := mass_mono w x hw fun y hy => hy.le
  have p1 := mul_le_mul_of_nonneg_left m1 h0.le
  have p2 := mul_le_mul_of_nonneg_left m2 (by linarith : 0 ≤ 1 - tau)
  constructor <;> nlinarith

theorem sorted {tau tau' : ℝ} (h0 : 0 < tau) (h1 : tau < 1) (htt : tau < tau') (w x : J → ℝ) (hw : ∀ j, 0 ≤ w j) (hpos : 0 < ∑ j, w j) (c c' : ℝ)
    (hb : balance tau w x c = 0) (hb' : balance tau' w x c' = 0) : c ≤ c' := by
  by_contra hlt
  have hlt := not_le.mp hlt
  have h2 := balance_anti h0 h1 w x hw hlt.le
  rw [hb] at h2
  have sn : ∀ u, 0 ≤ slope u := fun u => le_min (le_max_right _ _) zero_le_one
  have nA : 0 ≤ ∑ j, w j * slope (x j - c') := Finset.sum_nonneg fun j _ => mul_nonneg (hw j) (sn _)
  have nB : 0 ≤ ∑ j, w j * slope (-(x j - c')) := Finset.sum_nonneg fun j _ => mul_nonneg (hw j) (sn _)
  rw [balance_split] at hb' h2
  have zA : ∑ j, w j * slope (x j - c') = 0 := by nlinarith
  have zB : ∑ j, w j * slope (-(x j - c')) = 0 := by nlinarith
  have sp : ∀ u, 0 < u → 0 < slope u := fun u hu => lt_min (lt_max_of_lt_left hu) zero_lt_one
  have hall : ∀ j, 0 < w j → x j = c' := by
    intro j hj
    have e1 := (Finset.sum_eq_zero_iff_of_nonneg fun j _ => mul_nonneg (hw j) (sn (x j - c'))).mp zA j (Finset.mem_univ j)
    have e2 := (Finset.sum_eq_zero_iff_of_nonneg fun j _ => mul_nonneg (hw j) (sn (-(x j - c')))).mp zB j (Finset.mem_univ j)
    have e1 := (mul_eq_zero.mp e1).resolve_left hj.ne'
    have e2 := (mul_eq_zero.mp e2).resolve_left hj.ne'
    by_contra hne
    rcases lt_or_gt_of_ne hne with h | h
    · exact (sp _ (by linarith : 0 < -(x j - c'))).ne' e2
    · exact (sp _ (by linarith : 0 < x j - c')).ne' e1
  have hneg : balance tau w x c < 0 := by
    unfold balance
    have : ∀ j, w j * (tau * slope (x j - c) - (1 - tau) * slope (-(x j - c))) = w j * -((1 - tau) * slope (c - c')) := by
      intro j
      rcases (hw j).eq_or_lt with hj | hj
      · rw [← hj, zero_mul, zero_mul]
      · rw [hall j hj]
        have : slope (c' - c) = 0 := by
          unfold slope
          rw [max_eq_right (by linarith), min_eq_left zero_le_one]
        rw [this, neg_sub]
        ring
    simp only [this, ← Finset.sum_mul]
    have := mul_pos hpos (mul_pos (by linarith : 0 < 1 - tau) (sp (c - c') (by linarith)))
    linarith
  exact hneg.ne hb

/-! ### C246 -/

variable {Z T Ω : Type} [Fintype Z] [Fintype T] [Fintype Ω] {n m k : Nat}

/-- The expected loss of a table of quantiles, for random minibatches: a row is an observation with an action, `z`, and one of the possible target distributions, `tgt t`. -/
noncomputable def qLoss (b : Minibatch (Z × T) Ω n) (tgt : T → Fin k → ℝ) (taus : Fin m → ℝ) (cur : Z → Fin m → ℝ) : ℝ :=
  ∑ ω, b.P ω * quantileLoss (List.ofFn fun q => (List.ofFn taus, List.ofFn (cur (b.rows ω q).1), List.ofFn (tgt (b.rows ω q).2))) (List.ofFn fun _ : Fin n => 1)

open Classical in
/-- The probability that a number of the target distribution, each of the `k` numbers being equally likely, has the property `p`, given the observation and action. -/
noncomputable def chance (b : Minibatch (Z × T) Ω n) (tgt : T → Fin k → ℝ) (z : Z) (p : ℝ → Prop) : ℝ :=
  (∑ t, b.share (z, t) * ((∑ j, if p (tgt t j) then 1 else 0) / k)) / observed b z

/-- The table has the least expected loss. -/
def Learned (b : Minibatch (Z × T) Ω n) (tgt : T → Fin k → ℝ) (taus : Fin m → ℝ) (cur : Z → Fin m → ℝ) : Prop := ∀ cur', qLoss b tgt taus cur ≤ qLoss b tgt taus cur'

theorem qLoss_eq (b : Minibatch (Z × T) Ω n) (tgt : T → Fin k → ℝ) (taus : Fin m → ℝ) (cur : Z → Fin m → ℝ) :
    qLoss b tgt taus cur = ∑ z, ∑ i, total (taus i) (fun j : T × Fin k => b.share (z, j.1)) (fun j => tgt j.1 j.2) (cur z i) / m := by
  unfold qLoss quantileLoss quantileRow
  simp only [zipWith_ofFn, mean_ofFn, List.map_ofFn, List.sum_ofFn, Function.comp_def, mul_one]
  rw [expect b fun x => (∑ i, ∑ j, huber (tgt x.2 j - cur x.1 i) * |taus i - if tgt x.2 j - cur x.1 i ≤ 0 then 1 else 0|) / m, Fintype.sum_prod_type]
  refine Finset.sum_congr rfl fun z _ => ?_
  simp only [total, h, Fintype.sum_prod_type, ← Finset.sum_div]
  simp only [mul_div_assoc']
  rw [← Finset.sum_div]
  congr 1
  simp only [Finset.mul_sum]
  rw [Finset.sum_comm]

theorem learned_iff (b : Minibatch (Z × T) Ω n) (tgt : T → Fin k → ℝ) (taus : Fin m → ℝ) (ht : ∀ i, 0 < taus i ∧ taus i < 1) (cur : Z → Fin m → ℝ) :
    Learned b tgt taus cur ↔ ∀ z i, balance (taus i) (fun j : T × Fin k => b.share (z, j.1)) (fun j => tgt j.1 j.2) (cur z i) = 0 := by
  classical
  have hw : ∀ z (j : T × Fin k), 0 ≤ b.share (z, j.1) := fun z j => share_nonneg b _
  constructor
  · intro hmin z i
    rw [← total_iff (ht i).1 (ht i).2 _ _ (hw z)]
    intro c'
    have hm : (0 : ℝ) < m := by exact_mod_cast Fin.pos i
    have := hmin (Function.update cur z (Function.update (cur z) i c'))
    rw [qLoss_eq, qLoss_eq] at this
    by_contra hlt
    refine absurd this (not_le.mpr (Finset.sum_lt_sum (fun z' _ => ?_) ⟨z, Finset.mem_univ z, ?_⟩))
    · by_cases hz : z' = z
      · subst hz
        rw [Function.update_self]
        refine Finset.sum_le_sum fun i' _ => ?_
        by_cases hi : i' = i
        · subst hi
          rw [Function.update_self]
          exact div_le_div_of_nonneg_right (not_le.mp hlt).le hm.le
        · rw [Function.update_of_ne hi]
      · rw [Function.update_of_ne hz]
    · rw [Function.update_self]
      refine Finset.sum_lt_sum (fun i' _ => ?_) ⟨i, Finset.mem_univ i, ?_⟩
      · by_cases hi : i' = i
        · subst hi
          rw [Function.update_self]
          exact div_le_div_of_nonneg_right (not_le.mp hlt).le hm.le
        · rw [Function.update_of_ne hi]
      · rw [Function.update_self]
        exact div_lt_div_of_pos_right (not_le.mp hlt) hm
  · intro hb cur'
    rw [qLoss_eq, qLoss_eq]
    refine Finset.sum_le_sum fun z _ => Finset.sum_le_sum fun i _ => div_le_div_of_nonneg_right ?_ (Nat.cast_nonneg _)
    exact (total_iff (ht i).1 (ht i).2 _ _ (hw z) _).mpr (hb z i) _

theorem chance_mass (b : Minibatch (Z × T) Ω n) (tgt : T → Fin k → ℝ) (z : Z) (p : ℝ → Prop) :
    chance b tgt z p = mass (fun j : T × Fin k => b.share (z, j.1)) (fun j => tgt j.1 j.2) p / (observed b z * k) := by
  unfold chance mass
  rw [Fintype.sum_prod_type, mul_comm (observed b z), ← div_div]
  congr 1
  rw [Finset.sum_div]
  refine Finset.sum_congr rfl fun t _ => ?_
  rw [← mul_div_assoc, Finset.mul_sum]
  congr 1
  refine Finset.sum_congr rfl fun j _ => ?_
  split <;> simp

theorem weights_sum (b : Minibatch (Z × T) Ω n) (z : Z) : ∑ j : T × Fin k, b.share (z, j.1) = observed b z * k := by
  rw [Fintype.sum_prod_type, observed, Finset.sum_mul]
  refine Finset.sum_congr rfl fun t _ => ?_
  simp [mul_comm]

/-- C246 in full: what is learned for the fraction `tau` is a `tau`-quantile of the targets: at most `tau` of them are smaller, at least `tau` are smaller or equal. -/
def C246 (b : Minibatch (Z × T) Ω n) (tgt : T → Fin k → ℝ) (taus : Fin m → ℝ) : Prop :=
  ∀ cur, Learned b tgt taus cur → ∀ z, 0 < observed b z → ∀ i, chance b tgt z (· < cur z i) ≤ taus i ∧ taus i ≤ chance b tgt z (· ≤ cur z i)

/-- **C246** up to a distance of 1 (missing: exactly, see `C246_violated`): at most `tau` of the targets are smaller by 1 or more, and at least `tau` are not larger by 1 or more. -/
theorem C246_partial (hk : 0 < k) (b : Minibatch (Z × T) Ω n) (tgt : T → Fin k → ℝ) (taus : Fin m → ℝ) (ht : ∀ i, 0 < taus i ∧ taus i < 1) (cur : Z → Fin m → ℝ)
    (hl : Learned b tgt taus cur) (z : Z) (hz : 0 < observed b z) (i : Fin m) :
    chance b tgt z (· ≤ cur z i - 1) ≤ taus i ∧ taus i ≤ chance b tgt z (· < cur z i + 1) := by
  have hb := bracket (ht i).1 (ht i).2 _ _ (fun j => share_nonneg b _) _ ((learned_iff b tgt taus ht cur).mp hl z i)
  have hk' : (0 : ℝ) < k := by exact_mod_cast hk
  rw [weights_sum] at hb
  rw [chance_mass, chance_mass, div_le_iff₀ (by positivity), le_div_iff₀ (by positivity)]
  exact hb

/-- **C246** exactly, where the targets that occur are equal to what is learned or differ from it by at least 1 (missing: other targets, see `C246_violated`). -/
theorem C246_apart_partial (hk : 0 < k) (b : Minibatch (Z × T) Ω n) (tgt : T → Fin k → ℝ) (taus : Fin m → ℝ) (ht : ∀ i, 0 < taus i ∧ taus i < 1) (cur : Z → Fin m → ℝ)
    (hl : Learned b tgt taus cur) (z : Z) (hz : 0 < observed b z) (i : Fin m) (hx : ∀ t j, 0 < b.share (z, t) → tgt t j ≠ cur z i → 1 ≤ |tgt t j - cur z i|) :
    chance b tgt z (· < cur z i) ≤ taus i ∧ taus i ≤ chance b tgt z (· ≤ cur z i) := by
  have hb := apart (ht i).1 (ht i).2 _ _ (fun j => share_nonneg b _) _ ((learned_iff b tgt taus ht cur).mp hl z i) fun j => hx j.1 j.2
  have hk' : (0 : ℝ) < k := by exact_mod_cast hk
  rw [weights_sum] at hb
  rw [chance_mass, chance_mass, div_le_iff₀ (by positivity), le_div_iff₀ (by positivity)]
  exact hb

/-- **C246: no crossing.** What is learned for a smaller fraction is not larger. -/
theorem C246_sorted (hk : 0 < k) (b : Minibatch (Z × T) Ω n) (tgt : T → Fin k → ℝ) (taus : Fin m → ℝ) (ht : ∀ i, 0 < taus i ∧ taus i < 1) (cur : Z → Fin m → ℝ)
    (hl : Learned b tgt taus cur) (z : Z) (hz : 0 < observed b z) (i i' : Fin m) (hii : taus i < taus i') : cur z i ≤ cur z i' := by
  have hb := (learned_iff b tgt taus ht cur).mp hl z
  refine sorted (ht i).1 (ht i).2 hii _ _ (fun j => share_nonneg b _) ?_ _ _ (hb i) (hb i')
  rw [weights_sum]
  have hk' : (0 : ℝ) < k := by exact_mod_cast hk
  positivity

/-- **C246: existence.** A table with the least expected loss exists. -/
theorem C246_exists (b : Minibatch (Z × T) Ω n) (tgt : T → Fin k → ℝ) (taus : Fin m → ℝ) (ht : ∀ i, 0 < taus i ∧ taus i < 1) : ∃ cur, Learned b tgt taus cur := by
  have := fun z i => exists_balance (taus i) (ht i).1 (ht i).2 (fun j : T × Fin k => b.share (z, j.1)) (fun j => tgt j.1 j.2) fun j => share_nonneg b _
  choose cur hcur using this
  exact ⟨cur, (learned_iff b tgt taus ht cur).mpr hcur⟩

/-- One row, whose target distribution has the numbers 0, 0 and 1/2. -/
def oneRow : Minibatch (Unit × Unit) Unit 1 := ⟨fun _ => 1, fun _ _ => ((), ()), by simp, by simp⟩

/-- The numbers. -/
noncomputable def threeNumbers : Unit → Fin 3 → ℝ := fun _ j => if j = 2 then 1 / 2 else 0

theorem oneRow_share : oneRow.share ((), ()) = 1 ∧ observed oneRow () = 1 := by
  have h : oneRow.share ((), ()) = 1 := by
    have h0 : oneRow.rows () 0 = ((), ()) := rfl
    have hP : oneRow.P () = 1 := rfl
    norm_num [Minibatch.share, h0, hP]
  refine ⟨h, ?_⟩
  rw [observed]
  simp [h]

/-- **C246** fails: for the fraction 1/2 and the targets 0, 0 and 1/2 the mean 1/6 is learned, not the median 0. -/
theorem C246_violated : Learned oneRow threeNumbers (fun _ : Fin 1 => 1 / 2) (fun _ _ => 1 / 6) ∧ ¬ C246 oneRow threeNumbers (fun _ : Fin 1 => 1 / 2) := by
  obtain ⟨hs, ho⟩ := oneRow_share
  have hl : Learned oneRow threeNumbers (fun _ : Fin 1 => 1 / 2) (fun _ _ => 1 / 6) := by
    rw [learned_iff _ _ _ fun _ => by norm_num]
    intro z i
    have h1 : ∀ u : ℝ, u ≤ 0 → slope u = 0 := fun u hu => by rw [slope, max_eq_right hu, min_eq_left zero_le_one]
    have h2 : ∀ u : ℝ, 0 ≤ u → u ≤ 1 → slope u = u := fun u hu hu' => by rw [slope, max_eq_left hu, min_eq_left hu']
    have e0 : threeNumbers () 0 = 0 := by simp [threeNumbers]
    have e1 : threeNumbers () 1 = 0 := by simp [threeNumbers]
    have e2 : threeNumbers () 2 = 1 / 2 := by simp [threeNumbers]
    rw [balance, Fintype.sum_prod_type]
    simp only [Finset.univ_unique, PUnit.default_eq_unit, Finset.sum_singleton, Fin.sum_univ_three, hs, e0, e1, e2]
    rw [h1 (0 - 1 / 6) (by norm_num), h2 (-(0 - 1 / 6)) (by norm_num) (by norm_num), h2 (1 / 2 - 1 / 6) (by norm_num) (by norm_num), h1 (-(1 / 2 - 1 / 6)) (by norm_num)]
    norm_num
  refine ⟨hl, fun hc => ?_⟩
  have := (hc _ hl () (by rw [ho]; norm_num) 0).1
  have e0 : threeNumbers () 0 < 1 / 6 := by simp [threeNumbers]
  have e1 : threeNumbers () 1 < 1 / 6 := by simp [threeNumbers]
  have e2 : ¬ threeNumbers () 2 < 1 / 6 := by simp [threeNumbers]; norm_num
  simp only [chance, ho, Finset.univ_unique, PUnit.default_eq_unit, Finset.sum_singleton, Fin.sum_univ_three, hs, e0, e1, e2, if_true, if_false] at this
  norm_num at this

/-- What is learned from the targets 0, 0 and 1/2 (see `C246_violated`) is within 1 of the median. -/
example : chance oneRow threeNumbers () (· ≤ 1 / 6 - 1) ≤ 1 / 2 ∧ 1 / 2 ≤ chance oneRow threeNumbers () (· < 1 / 6 + 1) :=
  C246_partial (by norm_num) oneRow threeNumbers (fun _ : Fin 1 => 1 / 2) (fun _ => by norm_num) _ C246_violated.1 () (by rw [oneRow_share.2]; norm_num) 0

/-- The numbers 0, 3 and 6. -/
def spread : Unit → Fin 3 → ℝ := fun _ j => 3 * (j : ℕ)

/-- From these the median is learned. -/
example : Learned oneRow spread (fun _ : Fin 1 => 1 / 2) (fun _ _ => 3) ∧ chance oneRow spread () (· < 3) ≤ 1 / 2 ∧ 1 / 2 ≤ chance oneRow spread () (· ≤ 3) := by
  obtain ⟨hs, ho⟩ := oneRow_share
  have e0 : spread () 0 = 0 := by simp [spread]
  have e1 : spread () 1 = 3 := by simp [spread]
  have e2 : spread () 2 = 6 := by simp [spread]; norm_num
  have hl : Learned oneRow spread (fun _ : Fin 1 => 1 / 2) (fun _ _ => 3) := by
    rw [learned_iff _ _ _ fun _ => by norm_num]
    intro z i
    rw [balance, Fintype.sum_prod_type]
    simp only [Finset.univ_unique, PUnit.default_eq_unit, Finset.sum_singleton, Fin.sum_univ_three, hs, e0, e1, e2]
    norm_num [slope]
  refine ⟨hl, C246_apart_partial (by norm_num) oneRow spread _ (fun _ => by norm_num) _ hl () (by rw [ho]; norm_num) 0 ?_⟩
  intro t j _ hne
  fin_cases j
  · show 1 ≤ |spread () 0 - 3|
    rw [e0]
    norm_num
  · exact absurd e1 hne
  · show 1 ≤ |spread () 2 - 3|
    rw [e2]
    norm_num

/-- The fractions of QRDQN lie strictly between 0 and 1. -/
example (n : Nat) (hn : 0 < n) (i : Fin n) : ∃ t, (tauHat (K := ℝ) n)[i.val]? = some t ∧ 0 < t ∧ t < 1 := ⟨_, (C98_midpoints n hn).2 i i.isLt⟩

end Verif.Quantile
