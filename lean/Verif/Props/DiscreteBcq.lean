import Verif.Model.DiscreteBcq
import Verif.Props.Fitting
import Verif.Props.QTarget
import Verif.Props.PolicyIteration
import Mathlib.Analysis.SpecialFunctions.Log.Deriv
import Mathlib.Analysis.Complex.ExponentialBounds
import Mathlib.Analysis.SpecialFunctions.Pow.NNReal
import Mathlib.Topology.Order.Basic

/-!
C270: what discrete BCQ learns from a dataset.
-/

namespace Verif.DiscreteBcq

open Verif.QTarget Verif.Returns Verif.Imitation Verif.Fitting
open Verif.QLearning (tableNet table_get returns_one flatten_singles zipWith_ofFn mean_ofFn)

set_option linter.unusedSectionVars false

/-! ### Specification -/

variable {S : Type} [Fintype S] [DecidableEq S] {m n : Nat}

/-- An environment without chance. -/
structure World (S : Type) (m : Nat) where
  step : S → Fin (m + 1) → S
  rew : S → Fin (m + 1) → ℝ
  ends : S → Fin (m + 1) → Bool

/-- The discounted rewards of the first `k` steps that begin with action `a` and go on with the policy `pi`. -/
noncomputable def World.ret (e : World S m) (pi : S → Fin (m + 1)) (gamma : ℝ) : Nat → S → Fin (m + 1) → ℝ
  | 0, _, _ => 0
  | k + 1, s, a => e.rew s a + gamma * if e.ends s a then 0 else e.ret pi gamma k (e.step s a) (pi (e.step s a))

/-- A dataset of `n` transitions of the environment in a buffer; the order of the transitions and the flag `truncated` do not matter. -/
structure Log (e : World S m) (n : Nat) where
  state : Fin n → S
  act : Fin n → Fin (m + 1)
  index : Fin n → Nat
  view : View ℝ
  inputs : Nat → S
  rew : ∀ p, view.rew (index p) = e.rew (state p) (act p)
  terminated : ∀ p, view.terminated (index p) = e.ends (state p) (act p)
  next : ∀ p, inputs (index p) = e.step (state p) (act p)

variable {e : World S m}

/-- How often `a` was taken in `s`. -/
def Log.count (d : Log e n) (s : S) (a : Fin (m + 1)) : Nat := (Finset.univ.filter fun p => d.state p = s ∧ d.act p = a).card

/-- `s` occurs in the data. -/
def Log.Seen (d : Log e n) (s : S) : Prop := ∃ p, d.state p = s

/-- In the data `a` is at least `tau` times as frequent in `s` as any other action. -/
def Log.Frequent (d : Log e n) (tau : ℝ) (s : S) (a : Fin (m + 1)) : Prop := ∀ b, tau * d.count s b ≤ d.count s a

/-- The part of the loss that trains the imitator, on the whole dataset. -/
noncomputable def Log.imitation (d : Log e n) (imit : S → List ℝ) : ℝ :=
  (nll (List.ofFn fun p => imit (d.state p)) (List.ofFn fun p => (d.act p : Nat))).getD 0

/-- The part of the loss that trains the values, on the whole dataset, as a function of the table `T` that is trained; network and target network had the
values `Q` when the returns were computed. -/
noncomputable def Log.values (d : Log e n) (inf tau gamma : ℝ) (Q T : S → Fin (m + 1) → ℝ) (imit : S → List ℝ) : Option ℝ :=
  (learnLoss 0 inf (some (Real.log tau)) (tableNet Q) (tableNet Q) imit (tableNet T) imit d.view d.inputs (List.ofFn d.state)
    (List.ofFn fun p => (d.act p : Nat)) (List.ofFn d.index) gamma 1).map fun l => l.2.1

/-- Training of the values has settled: no other table has a smaller loss. -/
def Log.Settled (d : Log e n) (inf tau gamma : ℝ) (Q : S → Fin (m + 1) → ℝ) (imit : S → List ℝ) : Prop :=
  ∃ l, d.values inf tau gamma Q Q imit = some l ∧ ∀ T l', d.values inf tau gamma Q T imit = some l' → l ≤ l'

/-- The action of the policy, as a function of the state. -/
def Acts (inf tau : ℝ) (Q : S → Fin (m + 1) → ℝ) (imit : S → List ℝ) (pi : S → Fin (m + 1)) : Prop :=
  ∀ s, (pi s : Nat) = bcqAct inf (some (Real.log tau)) (tableNet Q s) (imit s)

/-- `v` is the value of the best frequent action in `s`. -/
def Log.Best (d : Log e n) (tau : ℝ) (Q : S → Fin (m + 1) → ℝ) (s : S) (v : ℝ) : Prop :=
  (∃ a, d.Frequent tau s a ∧ Q s a = v) ∧ ∀ a, d.Frequent tau s a → Q s a ≤ v

/-! ### The imitator -/

/-- The dataset as a batch. -/
def Log.batch (d : Log e n) : Minibatch (S × Fin (m + 1)) Unit n := ⟨fun _ => 1, fun _ p => (d.state p, d.act p), fun _ => zero_le_one, by simp⟩

theorem Log.share (d : Log e n) (s : S) (a : Fin (m + 1)) : d.batch.share (s, a) = d.count s a / n := by
  classical
  unfold Minibatch.share Log.count Log.batch
  simp [Finset.sum_boole]

theorem Log.imitation_eq (d : Log e n) (imit : S → List ℝ) : d.imitation imit = nllLoss d.batch imit := by
  unfold Log.imitation nllLoss Log.batch
  simp

theorem hellinger {Y : Type} [Fintype Y] (p q : Y → ℝ) (hp : ∀ y, 0 ≤ p y) (hq : ∀ y, 0 < q y) (h1 : ∑ y, p y = 1) (h2 : ∑ y, q y = 1) (z : Y) :
    (√(p z) - √(q z)) ^ 2 ≤ ∑ y, p y * Real.log (p y) - ∑ y, p y * Real.log (q y) := by
  have hterm : ∀ y, (√(p y) - √(q y)) ^ 2 + (p y - q y) ≤ p y * Real.log (p y) - p y * Real.log (q y) := by
    intro y
    have e1 : (√(p y) - √(q y)) ^ 2 = p y + q y - 2 * (√(p y) * √(q y)) := by
      have a1 := Real.sq_sqrt (hp y)
      have a2 := Real.sq_sqrt (hq y).le
      nlinarith
    rcases (hp y).eq_or_lt with h | h
    · rw [e1, ← h]; simp
    · have hsp := Real.sqrt_pos.mpr h
      have hsq := Real.sqrt_pos.mpr (hq y)
      have hl : Real.log (q y) - Real.log (p y) ≤ 2 * (√(q y) / √(p y) - 1) := by
        have := Real.log_le_sub_one_of_pos (div_pos hsq hsp)
        rw [Real.log_div hsq.ne' hsp.ne', Real.log_sqrt (hq y).le, Real.log_sqrt h.le] at this
        linarith
      have hm := mul_le_mul_of_nonneg_left hl h.le
      have e2 : p y * (2 * (√(q y) / √(p y) - 1)) = 2 * (√(p y) * √(q y)) - 2 * p y := by
        have : p y = √(p y) * √(p y) := (Real.mul_self_sqrt h.le).symm
        field_simp
        nlinarith
      rw [e1]
      nlinarith
  have hsum := Finset.sum_le_sum fun y (_ : y ∈ Finset.univ) => hterm y
  rw [Finset.sum_add_distrib, Finset.sum_sub_distrib, Finset.sum_sub_distrib, h1, h2, sub_self, add_zero] at hsum
  exact (Finset.single_le_sum (f := fun y => (√(p y) - √(q y)) ^ 2) (fun y _ => sq_nonneg _) (Finset.mem_univ z)).trans hsum

/-- The least mean uncertainty about the action. -/
noncomputable def Log.entropy (d : Log e n) : ℝ := -∑ s, ∑ a, d.batch.share (s, a) * Real.log (d.batch.share (s, a) / observed d.batch s)

theorem Log.observed_nonneg (d : Log e n) (s : S) : 0 ≤ observed d.batch s := Finset.sum_nonneg fun a _ => share_nonneg d.batch (s, a)

/-- In each observation the probabilities are close to the frequencies if the loss is close to the least one. -/
theorem Log.close (d : Log e n) (imit : S → List ℝ) (hl : ∀ s, (imit s).length = m + 1) (eps : ℝ) (h : d.imitation imit ≤ d.entropy + eps) (s : S)
    (hs : 0 < observed d.batch s) (a : Fin (m + 1)) :
    observed d.batch s * (√(d.batch.share (s, a) / observed d.batch s) - √(prob (imit s) a)) ^ 2 ≤ eps := by
  rw [d.imitation_eq, nllLoss_eq d.batch imit hl, Log.entropy] at h
  have hterm : ∀ s, ∑ a, d.batch.share (s, a) * Real.log (prob (imit s) a) ≤
      ∑ a, d.batch.share (s, a) * Real.log (d.batch.share (s, a) / observed d.batch s) := by
    intro s
    rcases (d.observed_nonneg s).eq_or_lt with h0 | h0
    · have hz : ∀ a, d.batch.share (s, a) = 0 := fun a => le_antisymm (by rw [h0]; exact share_observed d.batch s a) (share_nonneg d.batch (s, a))
      simp [hz]
    · obtain ⟨hp, hp1⟩ := prob_sum (imit s) (hl s) (Nat.succ_pos m)
      have hg := (gibbs (fun a => d.batch.share (s, a) / observed d.batch s) (fun a : Fin (m + 1) => prob (imit s) a)
        (fun a => div_nonneg (share_nonneg d.batch (s, a)) h0.le) hp (by rw [hp1, ← Finset.sum_div]; exact div_self h0.ne')).1
      have hm : ∀ f : Fin (m + 1) → ℝ, ∑ a, d.batch.share (s, a) * f a =
          observed d.batch s * ∑ a, d.batch.share (s, a) / observed d.batch s * f a := by
        intro f
        rw [Finset.mul_sum]
        refine Finset.sum_congr rfl fun a _ => ?_
        field_simp
      rw [hm, hm]
      exact mul_le_mul_of_nonneg_left hg h0.le
  have hone : ∑ a, d.batch.share (s, a) * Real.log (d.batch.share (s, a) / observed d.batch s) -
      ∑ a, d.batch.share (s, a) * Real.log (prob (imit s) a) ≤ eps := by
    have h1 := Finset.single_le_sum (f := fun s => ∑ a, d.batch.share (s, a) * Real.log (d.batch.share (s, a) / observed d.batch s) -
      ∑ a, d.batch.share (s, a) * Real.log (prob (imit s) a)) (fun s _ => sub_nonneg.mpr (hterm s)) (Finset.mem_univ s)
    rw [Finset.sum_sub_distrib] at h1
    linarith
  obtain ⟨hp, hp1⟩ := prob_sum (imit s) (hl s) (Nat.succ_pos m)
  have hh := hellinger (fun a => d.batch.share (s, a) / observed d.batch s) (fun a : Fin (m + 1) => prob (imit s) a)
    (fun a => div_nonneg (share_nonneg d.batch (s, a)) hs.le) hp (by rw [← Finset.sum_div]; exact div_self hs.ne') hp1 a
  refine (mul_le_mul_of_nonneg_left hh hs.le).trans ?_
  rw [mul_sub, Finset.mul_sum, Finset.mul_sum]
  refine le_trans (le_of_eq ?_) hone
  congr 1 <;>
    · refine Finset.sum_congr rfl fun a _ => ?_
      field_simp

/-- There are logits with almost the least loss. -/
theorem Log.almost (d : Log e n) (eps : ℝ) (heps : 0 < eps) :
    ∃ imit : S → List ℝ, (∀ s, (imit s).length = m + 1) ∧ d.imitation imit ≤ d.entropy + eps := by
  classical
  obtain ⟨w, hw⟩ : ∃ w : S → Fin (m + 1) → ℝ, w = fun s a =>
    if d.batch.share (s, a) = 0 then observed d.batch s * eps / (m + 1) else d.batch.share (s, a) := ⟨_, rfl⟩
  refine ⟨fun s => List.ofFn fun a => Real.log (w s a), fun s => by simp, ?_⟩
  rw [d.imitation_eq, nllLoss_eq d.batch _ (fun s => by simp), Log.entropy]
  have htot : ∑ s, observed d.batch s ≤ 1 := by
    unfold observed
    rw [← Fintype.sum_prod_type (fun x : S × Fin (m + 1) => d.batch.share x)]
    have := expect d.batch fun _ => (1 : ℝ)
    simp only [mul_one] at this
    rw [← this]
    simp only [Finset.univ_unique, Log.batch, one_mul, Finset.sum_const, Finset.card_univ, Fintype.card_fin, nsmul_eq_mul, mul_one]
    simpa using div_self_le_one (n : ℝ)
  have key : ∀ s, ∑ a, d.batch.share (s, a) * Real.log (d.batch.share (s, a) / observed d.batch s) - observed d.batch s * eps ≤
      ∑ a : Fin (m + 1), d.batch.share (s, a) * Real.log (prob (List.ofFn fun a => Real.log (w s a)) a) := by
    intro s
    rcases (d.observed_nonneg s).eq_or_lt with h0 | h0
    · have hz : ∀ a, d.batch.share (s, a) = 0 := fun a => le_antisymm (by rw [h0]; exact share_observed d.batch s a) (share_nonneg d.batch (s, a))
      simp [hz, ← h0]
    · have hwpos : ∀ a, 0 < w s a := by
        intro a
        rw [hw]
        dsimp only
        split_ifs with h
        · positivity
        · exact lt_of_le_of_ne (share_nonneg d.batch (s, a)) (Ne.symm h)
      have hsum : ∑ a, w s a ≤ observed d.batch s * (1 + eps) := by
        have : ∀ a, w s a ≤ d.batch.share (s, a) + observed d.batch s * eps / (m + 1) := by
          intro a
          rw [hw]
          dsimp only
          split_ifs with h
          · rw [h, zero_add]
          · have : 0 ≤ observed d.batch s * eps / (m + 1) := by positivity
            linarith
        refine (Finset.sum_le_sum fun a _ => this a).trans (le_of_eq ?_)
        rw [Finset.sum_add_distrib, Finset.sum_const, Finset.card_univ, Fintype.card_fin, nsmul_eq_mul]
        have : ∑ a, d.batch.share (s, a) = observed d.batch s := rfl
        rw [this]
        push_cast
        field_simp
      have hspos : 0 < ∑ a, w s a := Finset.sum_pos (fun a _ => hwpos a) ⟨0, Finset.mem_univ _⟩
      have hprob : ∀ a : Fin (m + 1), prob (List.ofFn fun a => Real.log (w s a)) a = w s a / ∑ b, w s b := by
        intro a
        unfold prob
        have h1 : (List.ofFn fun a => Real.log (w s a)).getD a 0 = Real.log (w s a) := by
          rw [List.getD_eq_getElem?_getD, List.getElem?_ofFn]
          simp [a.is_le]
        rw [h1, Real.exp_log (hwpos a), List.map_ofFn, List.sum_ofFn]
        congr 1
        exact Finset.sum_congr rfl fun b _ => Real.exp_log (hwpos b)
      have hterm : ∀ a : Fin (m + 1), d.batch.share (s, a) * Real.log (d.batch.share (s, a) / observed d.batch s) - d.batch.share (s, a) * eps ≤
          d.batch.share (s, a) * Real.log (prob (List.ofFn fun a => Real.log (w s a)) a) := by
        intro a
        by_cases h : d.batch.share (s, a) = 0
        · simp [h]
        · have hpos : 0 < d.batch.share (s, a) := lt_of_le_of_ne (share_nonneg d.batch (s, a)) (Ne.symm h)
          have hwa : w s a = d.batch.share (s, a) := by rw [hw]; exact if_neg h
          rw [hprob, hwa, ← mul_sub]
          refine mul_le_mul_of_nonneg_left ?_ hpos.le
          rw [Real.log_div hpos.ne' h0.ne', Real.log_div hpos.ne' hspos.ne']
          have h1 : Real.log (∑ b, w s b) ≤ Real.log (observed d.batch s * (1 + eps)) := Real.log_le_log hspos hsum
          rw [Real.log_mul h0.ne' (by linarith)] at h1
          have h2 : Real.log (1 + eps) ≤ eps := by
            have := Real.log_le_sub_one_of_pos (show 0 < 1 + eps by linarith)
            linarith
          linarith
      refine le_trans (le_of_eq ?_) (Finset.sum_le_sum fun a _ => hterm a)
      rw [Finset.sum_sub_distrib, ← Finset.sum_mul]
      rfl
  have hfin := Finset.sum_le_sum fun s (_ : s ∈ Finset.univ) => key s
  rw [Finset.sum_sub_distrib, ← Finset.sum_mul] at hfin
  have : (∑ s, observed d.batch s) * eps ≤ 1 * eps := mul_le_mul_of_nonneg_right htot heps.le
  linarith

theorem Log.seen_iff (d : Log e n) (s : S) : d.Seen s ↔ 0 < observed d.batch s := by
  constructor
  · rintro ⟨p, rfl⟩
    refine lt_of_lt_of_le ?_ (share_observed d.batch (d.state p) (d.act p))
    rw [d.share]
    have hn : 0 < n := p.pos
    have : 0 < d.count (d.state p) (d.act p) := Finset.card_pos.mpr ⟨p, by simp⟩
    positivity
  · intro h
    by_contra hne
    have : observed d.batch s = 0 := by
      refine Finset.sum_eq_zero fun a _ => ?_
      rw [d.share]
      have : d.count s a = 0 := by
        refine Finset.card_eq_zero.mpr (Finset.filter_eq_empty_iff.mpr ?_)
        rintro p - ⟨hp, -⟩
        exact hne ⟨p, hp⟩
      simp [this]
    linarith

/-- **C270** (with `imitation_logits_penalty = 0`; missing: other weights, see `C270_violated_penalty`) once the imitator's loss on the dataset is
close enough to the least possible, the actions that the policy takes into account are, in each observation of the dataset, exactly those at least
`unlikely_action_threshold` times as frequent in the data as any other; in particular none that does not occur there. (No action is exactly at the
threshold.) -/
theorem C270_mask_partial (d : Log e n) (tau : ℝ) (ht : 0 < tau) (ht1 : tau < 1) (htie : ∀ s a b, d.Seen s → tau * d.count s b ≠ d.count s a) :
    ∃ eps > 0, ∀ imit : S → List ℝ, (∀ s, (imit s).length = m + 1) →
      (∀ imit' : S → List ℝ, (∀ s, (imit' s).length = m + 1) → d.imitation imit ≤ d.imitation imit' + eps) →
      ∀ s, d.Seen s → ∀ a : Fin (m + 1), (Likely tau (imit s) a ↔ d.Frequent tau s a) ∧ (Likely tau (imit s) a → ∃ p, d.state p = s ∧ d.act p = a) := by
  -- the distances from ties
  obtain ⟨gap, hgap⟩ : ∃ gap : S → Fin (m + 1) → Fin (m + 1) → ℝ, gap = fun s a b =>
    √(d.batch.share (s, a) / observed d.batch s) - √tau * √(d.batch.share (s, b) / observed d.batch s) := ⟨_, rfl⟩
  have hgap0 : ∀ s a b, 0 < observed d.batch s → gap s a b ≠ 0 := by
    intro s a b hs h0
    have hseen := (d.seen_iff s).mpr hs
    obtain ⟨p, _⟩ := hseen
    have hn : 0 < n := p.pos
    rw [hgap] at h0
    simp only [sub_eq_zero] at h0
    rw [← Real.sqrt_mul ht.le, Real.sqrt_inj (div_nonneg (share_nonneg d.batch (s, a)) hs.le)
      (mul_nonneg ht.le (div_nonneg (share_nonneg d.batch (s, b)) hs.le)), d.share, d.share] at h0
    apply htie s a b ⟨p, by assumption⟩
    field_simp at h0
    linarith
  have hev : ∀ᶠ eps in nhdsWithin (0 : ℝ) (Set.Ioi 0), ∀ x : S × Fin (m + 1) × Fin (m + 1), 0 < observed d.batch x.1 →
      8 * eps < observed d.batch x.1 * gap x.1 x.2.1 x.2.2 ^ 2 := by
    rw [Filter.eventually_all]
    intro x
    by_cases hs : 0 < observed d.batch x.1
    · have hpos : 0 < observed d.batch x.1 * gap x.1 x.2.1 x.2.2 ^ 2 := mul_pos hs (by have := hgap0 x.1 x.2.1 x.2.2 hs; positivity)
      have : Filter.Tendsto (fun eps : ℝ => 8 * eps) (nhdsWithin 0 (Set.Ioi 0)) (nhds (8 * 0)) :=
        (Filter.tendsto_id.const_mul 8).mono_left nhdsWithin_le_nhds
      rw [mul_zero] at this
      filter_upwards [this.eventually (gt_mem_nhds hpos)] with eps h _ using h
    · exact Filter.Eventually.of_forall fun eps h => absurd h hs
  obtain ⟨eps, hall, hpos⟩ := (hev.and self_mem_nhdsWithin).exists
  replace hpos : 0 < eps := hpos
  refine ⟨eps, hpos, fun imit hl hmin s hs a => ?_⟩
  have hobs := (d.seen_iff s).mp hs
  obtain ⟨imit', hl', h'⟩ := d.almost eps hpos
  have hle : d.imitation imit ≤ d.entropy + 2 * eps := by linarith [hmin imit' hl']
  have hclose := fun c => d.close imit hl _ hle s hobs c
  have hst : √tau ≤ 1 := by rw [Real.sqrt_le_one]; exact ht1.le
  have hst0 : 0 < √tau := Real.sqrt_pos.mpr ht
  obtain ⟨hp, -⟩ := prob_sum (imit s) (hl s) (Nat.succ_pos m)
  have hpair : ∀ b : Fin (m + 1), tau * prob (imit s) b ≤ prob (imit s) a ↔ tau * d.count s b ≤ d.count s a := by
    intro b
    have hb := hall (s, a, b) hobs
    simp only at hb
    have ha1 := hclose a
    have hb1 := hclose b
    obtain ⟨x, hx⟩ : ∃ x, x = √(d.batch.share (s, a) / observed d.batch s) := ⟨_, rfl⟩
    obtain ⟨y, hy⟩ : ∃ y, y = √(d.batch.share (s, b) / observed d.batch s) := ⟨_, rfl⟩
    obtain ⟨u, hu⟩ : ∃ u, u = √(prob (imit s) a) := ⟨_, rfl⟩
    obtain ⟨v, hv⟩ : ∃ v, v = √(prob (imit s) b) := ⟨_, rfl⟩
    rw [hgap] at hb
    simp only [← hx, ← hy, ← hu, ← hv] at ha1 hb1 hb
    have hu0 : 0 ≤ u := by rw [hu]; exact Real.sqrt_nonneg _
    have hv0 : 0 ≤ v := by rw [hv]; exact Real.sqrt_nonneg _
    have hx0 : 0 ≤ x := by rw [hx]; exact Real.sqrt_nonneg _
    have hy0 : 0 ≤ y := by rw [hy]; exact Real.sqrt_nonneg _
    -- both distances are less than half of the gap
    have d1 : 2 * |x - u| < |x - √tau * y| := by
      apply lt_of_pow_lt_pow_left₀ 2 (abs_nonneg _)
      rw [mul_pow, sq_abs, sq_abs]
      by_contra hc
      push Not at hc
      nlinarith [mul_le_mul_of_nonneg_left hc hobs.le]
    have d2 : 2 * |y - v| < |x - √tau * y| := by
      apply lt_of_pow_lt_pow_left₀ 2 (abs_nonneg _)
      rw [mul_pow, sq_abs, sq_abs]
      by_contra hc
      push Not at hc
      nlinarith [mul_le_mul_of_nonneg_left hc hobs.le]
    have d3 : 2 * |√tau * y - √tau * v| < |x - √tau * y| := by
      rw [← mul_sub, abs_mul, abs_of_pos hst0]
      nlinarith [abs_nonneg (y - v)]
    have hiff : √tau * v ≤ u ↔ √tau * y ≤ x := by
      constructor
      · intro h
        by_contra hc
        push Not at hc
        rw [abs_of_neg (by linarith : x - √tau * y < 0)] at d1 d3
        have := (abs_lt.mp (show |x - u| < -(x - √tau * y) / 2 by linarith)).1
        have := (abs_lt.mp (show |√tau * y - √tau * v| < -(x - √tau * y) / 2 by linarith)).2
        linarith
      · intro h
        rw [abs_of_nonneg (by linarith : 0 ≤ x - √tau * y)] at d1 d3
        have := (abs_lt.mp (show |x - u| < (x - √tau * y) / 2 by linarith)).2
        have := (abs_lt.mp (show |√tau * y - √tau * v| < (x - √tau * y) / 2 by linarith)).1
        linarith
    have e1 : √tau * v ≤ u ↔ tau * prob (imit s) b ≤ prob (imit s) a := by
      rw [hu, hv, ← Real.sqrt_mul ht.le, Real.sqrt_le_sqrt_iff (hp a).le]
    have e2 : √tau * y ≤ x ↔ tau * d.count s b ≤ d.count s a := by
      obtain ⟨p, _⟩ := hs
      have hn : (0 : ℝ) < n := by exact_mod_cast p.pos
      rw [hx, hy, ← Real.sqrt_mul ht.le, Real.sqrt_le_sqrt_iff (div_nonneg (share_nonneg d.batch (s, a)) hobs.le), ← mul_div_assoc,
        div_le_div_iff_of_pos_right hobs, d.share, d.share, ← mul_div_assoc, div_le_div_iff_of_pos_right hn]
    rw [← e1, hiff, e2]
  have hmain : Likely tau (imit s) a ↔ d.Frequent tau s a := by
    unfold Likely Log.Frequent
    rw [hl s]
    constructor
    · intro h b
      exact (hpair b).mp (h b b.isLt)
    · intro h b hb
      exact (hpair ⟨b, hb⟩).mpr (h ⟨b, hb⟩)
  refine ⟨hmain, fun h => ?_⟩
  have hf := hmain.mp h
  obtain ⟨p, hp⟩ := hs
  have h1 : 0 < d.count s (d.act p) := Finset.card_pos.mpr ⟨p, by simp [hp]⟩
  have h2 := hf (d.act p)
  have h3 : (0 : ℝ) < d.count s a := lt_of_lt_of_le (by positivity) h2
  obtain ⟨q, hq⟩ := Finset.card_pos.mp (by exact_mod_cast h3)
  simp only [Finset.mem_filter, Finset.mem_univ, true_and] at hq
  exact ⟨q, hq⟩

/-! ### The values -/

theorem huber_nonneg (x : ℝ) : 0 ≤ huber x := by
  unfold huber
  split_ifs with h
  · positivity
  · push Not at h; linarith

theorem huber_zero (x : ℝ) : huber x = 0 ↔ x = 0 := by
  unfold huber
  split_ifs with h
  · constructor
    · intro hx; nlinarith
    · rintro rfl; norm_num
  · push Not at h
    constructor
    · intro hx; linarith
    · rintro rfl; norm_num at h

/-- The loss of the values. -/
theorem Log.values_eq (d : Log e n) (inf tau gamma : ℝ) (Q T : S → Fin (m + 1) → ℝ) (imit : S → List ℝ) (hl : ∀ s, (imit s).length = m + 1)
    (pi : S → Fin (m + 1)) (hpi : Acts inf tau Q imit pi) :
    d.values inf tau gamma Q T imit = some ((∑ p, huber (T (d.state p) (d.act p) - (e.rew (d.state p) (d.act p) +
      gamma * if e.ends (d.state p) (d.act p) then 0 else Q (e.step (d.state p) (d.act p)) (pi (e.step (d.state p) (d.act p)))))) / n) := by
  unfold Log.values learnLoss returns
  rw [returns_one _ (fun i => Q (d.inputs i) (pi (d.inputs i))) (fun l => by
    unfold targetQ pick
    rw [List.zipWith_map, List.zipWith_self, List.map_map, List.map_map]
    refine List.map_congr_left fun i _ => ?_
    simp only [Function.comp_apply, ← hpi (d.inputs i), QLearning.table_getD])]
  rw [Option.bind_some, flatten_singles, List.map_ofFn, List.map_ofFn, List.map_ofFn]
  obtain ⟨qLoss, iLoss, reg, h1, h2, -⟩ := C187_bcq 0 (List.ofFn fun p => (tableNet T (d.state p), imit (d.state p), (d.act p : Nat),
    e.rew (d.state p) (d.act p) + gamma * if e.ends (d.state p) (d.act p) then 0 else Q (e.step (d.state p) (d.act p)) (pi (e.step (d.state p) (d.act p)))))
    (by
      intro r hr
      obtain ⟨p, rfl⟩ := (List.mem_ofFn' _ _).mp hr
      simp only [hl]
      exact ⟨by simpa [tableNet] using (d.act p).is_le, (d.act p).isLt⟩)
  simp only [List.map_ofFn, Function.comp_def] at h1 h2
  simp only [Function.comp_def, d.rew, d.terminated, d.next]
  rw [h1, Option.map_some, h2, mean_ofFn]
  simp only [QLearning.table_getD]

theorem Log.settled_iff (d : Log e n) (hn : 0 < n) (inf tau gamma : ℝ) (Q : S → Fin (m + 1) → ℝ) (imit : S → List ℝ) (hl : ∀ s, (imit s).length = m + 1)
    (pi : S → Fin (m + 1)) (hpi : Acts inf tau Q imit pi) :
    d.Settled inf tau gamma Q imit ↔ ∀ p, Q (d.state p) (d.act p) = e.rew (d.state p) (d.act p) +
      gamma * if e.ends (d.state p) (d.act p) then 0 else Q (e.step (d.state p) (d.act p)) (pi (e.step (d.state p) (d.act p))) := by
  have hn' : (0 : ℝ) < n := by exact_mod_cast hn
  unfold Log.Settled
  simp only [d.values_eq inf tau gamma Q _ imit hl pi hpi, Option.some.injEq, exists_eq_left', forall_eq', div_le_div_iff_of_pos_right hn']
  constructor
  · intro h
    have h1 := h fun s a => e.rew s a + gamma * if e.ends s a then 0 else Q (e.step s a) (pi (e.step s a))
    simp only [sub_self, (huber_zero 0).mpr rfl, Finset.sum_const_zero] at h1
    have h2 := le_antisymm h1 (Finset.sum_nonneg fun p _ => huber_nonneg _)
    rw [Finset.sum_eq_zero_iff_of_nonneg fun p _ => huber_nonneg _] at h2
    simpa only [Finset.mem_univ, true_implies, huber_zero, sub_eq_zero] using h2
  · intro h T
    rw [Finset.sum_eq_zero fun p _ => (huber_zero _).mpr (sub_eq_zero.mpr (h p))]
    exact Finset.sum_nonneg fun p _ => huber_nonneg _

/-- The policy takes the best frequent action. -/
theorem Log.best (d : Log e n) (tau : ℝ) (ht : 0 < tau) (ht1 : tau < 1) (inf : ℝ) (Q : S → Fin (m + 1) → ℝ) (hinf : ∀ s a b, Q s a - Q s b < inf)
    (imit : S → List ℝ) (hl : ∀ s, (imit s).length = m + 1) (hmask : ∀ s, d.Seen s → ∀ a : Fin (m + 1), Likely tau (imit s) a ↔ d.Frequent tau s a)
    (pi : S → Fin (m + 1)) (hpi : Acts inf tau Q imit pi) (s : S) (hs : d.Seen s) :
    d.Frequent tau s (pi s) ∧ ∀ a, d.Frequent tau s a → Q s a ≤ Q s (pi s) := by
  obtain ⟨v, h1, h2, h3⟩ := C99_filter inf tau ht ht1 (tableNet Q s) (imit s) (by simp [tableNet, hl])
    (by intro h; have := hl s; rw [h] at this; simp at this) (by
      intro a b x y hx hy
      have ha : a < m + 1 := by have := (List.getElem?_eq_some_iff.mp hx).1; simpa [tableNet] using this
      have hb : b < m + 1 := by have := (List.getElem?_eq_some_iff.mp hy).1; simpa [tableNet] using this
      have e1 := table_get Q s ⟨a, ha⟩
      have e2 := table_get Q s ⟨b, hb⟩
      simp only at e1 e2
      rw [e1] at hx
      rw [e2] at hy
      cases hx
      cases hy
      exact hinf _ _ _)
  rw [← hpi s] at h1 h2
  rw [table_get] at h1
  cases h1
  exact ⟨(hmask s hs (pi s)).mp h2, fun a ha => h3 a _ (table_get Q s a) ((hmask s hs a).mpr ha)⟩

theorem Acts.exists (inf tau : ℝ) (Q : S → Fin (m + 1) → ℝ) (imit : S → List ℝ) (hl : ∀ s, (imit s).length = m + 1) : ∃ pi, Acts inf tau Q imit pi := by
  refine ⟨fun s => ⟨bcqAct inf (some (Real.log tau)) (tableNet Q s) (imit s), ?_⟩, fun s => rfl⟩
  unfold bcqAct
  obtain ⟨w, h1, -⟩ := Policy.argmax_spec (List.zipWith (fun x l => x - inf * (match some (Real.log tau) with
    | none => 0
    | some t => if l - Policy.maxOf (imit s) < t then 1 else 0)) (tableNet Q s) (imit s)) (by
      intro h
      have := congrArg List.length h
      simp [tableNet, hl] at this)
  have := (List.getElem?_eq_some_iff.mp h1).1
  simpa [tableNet, hl] using this

/-- **C270** (one-step returns, an environment without chance, the network copied to the target network; missing: chance, see `C270_violated_chance`)
training of the values has settled if and only if the value of each transition of the dataset is its reward plus the discounted value of the best action that is
frequent in the data for the next state. Values of other actions play no role. -/
theorem C270_values_partial (d : Log e n) (hn : 0 < n) (tau : ℝ) (ht : 0 < tau) (ht1 : tau < 1) (inf gamma : ℝ) (Q : S → Fin (m + 1) → ℝ)
    (hinf : ∀ s a b, Q s a - Q s b < inf) (imit : S → List ℝ) (hl : ∀ s, (imit s).length = m + 1)
    (hmask : ∀ s, d.Seen s → ∀ a : Fin (m + 1), Likely tau (imit s) a ↔ d.Frequent tau s a)
    (hclosed : ∀ p, e.ends (d.state p) (d.act p) = false → d.Seen (e.step (d.state p) (d.act p))) :
    d.Settled inf tau gamma Q imit ↔ ∀ p, (e.ends (d.state p) (d.act p) = true ∧ Q (d.state p) (d.act p) = e.rew (d.state p) (d.act p)) ∨
      e.ends (d.state p) (d.act p) = false ∧ ∃ v, d.Best tau Q (e.step (d.state p) (d.act p)) v ∧
        Q (d.state p) (d.act p) = e.rew (d.state p) (d.act p) + gamma * v := by
  obtain ⟨pi, hpi⟩ := Acts.exists inf tau Q imit hl
  rw [d.settled_iff hn inf tau gamma Q imit hl pi hpi]
  refine forall_congr' fun p => ?_
  cases hend : e.ends (d.state p) (d.act p) with
  | true => simp
  | false =>
    obtain ⟨h1, h2⟩ := d.best tau ht ht1 inf Q hinf imit hl hmask pi hpi _ (hclosed p hend)
    simp only [Bool.false_eq_true, if_false, false_and, false_or, true_and]
    constructor
    · intro h
      exact ⟨_, ⟨⟨_, h1, rfl⟩, h2⟩, h⟩
    · rintro ⟨v, ⟨⟨a, ha, rfl⟩, hv⟩, h⟩
      rw [h, le_antisymm (h2 a ha) (hv _ h1)]

/-- **C270** (same limits) then the values are not too optimistic: the value of each transition of the dataset is the discounted return of the policy
from there on, up to what lies more than `k` steps ahead; and no policy that takes only frequent actions has a larger return. -/
theorem C270_returns_partial (d : Log e n) (hn : 0 < n) (tau : ℝ) (ht : 0 < tau) (ht1 : tau < 1) (inf gamma : ℝ) (hg : 0 ≤ gamma)
    (Q : S → Fin (m + 1) → ℝ) (hinf : ∀ s a b, Q s a - Q s b < inf) (C : ℝ) (hC : ∀ s a, |Q s a| ≤ C)
    (imit : S → List ℝ) (hl : ∀ s, (imit s).length = m + 1)
    (hmask : ∀ s, d.Seen s → ∀ a : Fin (m + 1), Likely tau (imit s) a ↔ d.Frequent tau s a)
    (hclosed : ∀ p, e.ends (d.state p) (d.act p) = false → d.Seen (e.step (d.state p) (d.act p)))
    (hzero : d.Settled inf tau gamma Q imit) :
    (∀ pi, Acts inf tau Q imit pi → ∀ k p, |Q (d.state p) (d.act p) - e.ret pi gamma k (d.state p) (d.act p)| ≤ gamma ^ k * C) ∧
    ∀ mu, (∀ s, d.Seen s → d.Frequent tau s (mu s)) → ∀ k p,
      e.ret mu gamma k (d.state p) (d.act p) ≤ Q (d.state p) (d.act p) + gamma ^ k * C := by
  -- frequent actions occur
  have hocc : ∀ s, d.Seen s → ∀ a, d.Frequent tau s a → ∃ p, d.state p = s ∧ d.act p = a := by
    rintro s ⟨p, hp⟩ a hf
    have h1 : 0 < d.count s (d.act p) := Finset.card_pos.mpr ⟨p, by simp [hp]⟩
    have h2 := hf (d.act p)
    have h3 : (0 : ℝ) < d.count s a := lt_of_lt_of_le (by positivity) h2
    obtain ⟨q, hq⟩ := Finset.card_pos.mp (by exact_mod_cast h3)
    simp only [Finset.mem_filter, Finset.mem_univ, true_and] at hq
    exact ⟨q, hq⟩
  constructor
  · intro pi hpi k
    have hz := (d.settled_iff hn inf tau gamma Q imit hl pi hpi).mp hzero
    induction k with
    | zero => intro p; simpa [World.ret] using hC _ _
    | succ k ih =>
      intro p
      rw [hz p, World.ret]
      cases hend : e.ends (d.state p) (d.act p) with
      | true =>
        have hC0 : 0 ≤ C := (abs_nonneg _).trans (hC (d.state p) 0)
        simp only [if_true, mul_zero, add_zero, sub_self, abs_zero]
        positivity
      | false =>
        have hs := hclosed p hend
        obtain ⟨h1, -⟩ := d.best tau ht ht1 inf Q hinf imit hl hmask pi hpi _ hs
        obtain ⟨q, hq1, hq2⟩ := hocc _ hs _ h1
        have := ih q
        rw [hq1, hq2] at this
        simp only [Bool.false_eq_true, if_false]
        rw [add_sub_add_left_eq_sub, ← mul_sub, abs_mul, abs_of_nonneg hg, pow_succ']
        nlinarith
  · intro mu hmu k
    obtain ⟨pi, hpi⟩ := Acts.exists inf tau Q imit hl
    have hz := (d.settled_iff hn inf tau gamma Q imit hl pi hpi).mp hzero
    induction k with
    | zero =>
      intro p
      have := (abs_le.mp (hC (d.state p) (d.act p))).1
      simp only [World.ret, pow_zero, one_mul]
      linarith
    | succ k ih =>
      intro p
      rw [hz p, World.ret]
      cases hend : e.ends (d.state p) (d.act p) with
      | true =>
        have hC0 : 0 ≤ C := (abs_nonneg _).trans (hC (d.state p) 0)
        simp only [if_true, mul_zero, add_zero]
        have : 0 ≤ gamma ^ (k + 1) * C := by positivity
        linarith
      | false =>
        have hs := hclosed p hend
        obtain ⟨-, h2⟩ := d.best tau ht ht1 inf Q hinf imit hl hmask pi hpi _ hs
        obtain ⟨q, hq1, hq2⟩ := hocc _ hs _ (hmu _ hs)
        have := ih q
        rw [hq1, hq2] at this
        have h3 := h2 _ (hmu _ hs)
        simp only [Bool.false_eq_true, if_false]
        rw [pow_succ']
        nlinarith

/-- **C270** (same limits) the values are determined by the data: two settled tables agree on all transitions of the dataset. -/
theorem C270_unique_partial (d : Log e n) (hn : 0 < n) (tau : ℝ) (ht : 0 < tau) (ht1 : tau < 1) (inf gamma : ℝ) (hg : 0 ≤ gamma) (hg1 : gamma < 1)
    (Q Q' : S → Fin (m + 1) → ℝ) (hinf : ∀ s a b, Q s a - Q s b < inf) (hinf' : ∀ s a b, Q' s a - Q' s b < inf)
    (imit : S → List ℝ) (hl : ∀ s, (imit s).length = m + 1)
    (hmask : ∀ s, d.Seen s → ∀ a : Fin (m + 1), Likely tau (imit s) a ↔ d.Frequent tau s a)
    (hclosed : ∀ p, e.ends (d.state p) (d.act p) = false → d.Seen (e.step (d.state p) (d.act p)))
    (hzero : d.Settled inf tau gamma Q imit) (hzero' : d.Settled inf tau gamma Q' imit) (p : Fin n) :
    Q (d.state p) (d.act p) = Q' (d.state p) (d.act p) := by
  have hb : ∀ Q : S → Fin (m + 1) → ℝ, ∃ C, ∀ s a, |Q s a| ≤ C := by
    intro Q
    refine ⟨∑ s, ∑ a, |Q s a|, fun s a => ?_⟩
    exact (Finset.single_le_sum (f := fun a => |Q s a|) (fun a _ => abs_nonneg _) (Finset.mem_univ a)).trans
      (Finset.single_le_sum (f := fun s => ∑ a, |Q s a|) (fun s _ => Finset.sum_nonneg fun a _ => abs_nonneg _) (Finset.mem_univ s))
  have key : ∀ Q Q' : S → Fin (m + 1) → ℝ, (∀ s a b, Q s a - Q s b < inf) → (∀ s a b, Q' s a - Q' s b < inf) →
      d.Settled inf tau gamma Q imit → d.Settled inf tau gamma Q' imit → Q' (d.state p) (d.act p) ≤ Q (d.state p) (d.act p) := by
    intro Q Q' hinf hinf' hz hz'
    obtain ⟨C, hC⟩ := hb Q
    obtain ⟨C', hC'⟩ := hb Q'
    obtain ⟨pi, hpi⟩ := Acts.exists inf tau Q' imit hl
    have h1 := (C270_returns_partial d hn tau ht ht1 inf gamma hg Q' hinf' C' hC' imit hl hmask hclosed hz').1 pi hpi
    have h2 := (C270_returns_partial d hn tau ht ht1 inf gamma hg Q hinf C hC imit hl hmask hclosed hz).2 pi
      fun s hs => (d.best tau ht ht1 inf Q' hinf' imit hl hmask pi hpi s hs).1
    have h3 : ∀ k : Nat, Q' (d.state p) (d.act p) - Q (d.state p) (d.act p) ≤ gamma ^ k * (C + C') := by
      intro k
      have := (abs_le.mp (h1 k p)).2
      have := h2 k p
      linarith
    have h4 : Filter.Tendsto (fun k : Nat => gamma ^ k * (C + C')) Filter.atTop (nhds (0 * (C + C'))) :=
      (tendsto_pow_atTop_nhds_zero_of_lt_one hg hg1).mul_const _
    rw [zero_mul] at h4
    linarith [ge_of_tendsto' h4 h3]
  exact le_antisymm (key Q' Q hinf' hinf hzero' hzero) (key Q Q' hinf hinf' hzero hzero')

/-- **C270** (same limits) there are such values, for discount factors below 1. -/
theorem C270_exists_partial (d : Log e n) (hn : 0 < n) (tau : ℝ) (ht : 0 < tau) (ht1 : tau < 1) (gamma : ℝ) (hg : 0 ≤ gamma) (hg1 : gamma < 1)
    (imit : S → List ℝ) (hl : ∀ s, (imit s).length = m + 1)
    (hmask : ∀ s, d.Seen s → ∀ a : Fin (m + 1), Likely tau (imit s) a ↔ d.Frequent tau s a)
    (hclosed : ∀ p, e.ends (d.state p) (d.act p) = false → d.Seen (e.step (d.state p) (d.act p))) :
    ∃ Q : S → Fin (m + 1) → ℝ, ∀ inf, (∀ s a b, Q s a - Q s b < inf) → d.Settled inf tau gamma Q imit := by
  classical
  have hne : ∀ s, (Finset.univ.filter fun a => d.Frequent tau s a).Nonempty := by
    intro s
    obtain ⟨a, -, ha⟩ := Finset.exists_max_image Finset.univ (fun a => d.count s a) ⟨0, Finset.mem_univ _⟩
    refine ⟨a, by
      simp only [Finset.mem_filter, Finset.mem_univ, true_and]
      intro b
      have h1 : (d.count s b : ℝ) ≤ d.count s a := by exact_mod_cast ha b (Finset.mem_univ b)
      have h2 : (0 : ℝ) ≤ d.count s b := Nat.cast_nonneg _
      nlinarith⟩
  obtain ⟨q, hq⟩ := SacLoss.exists_fixed (S := S × Fin (m + 1))
    (fun v x => e.rew x.1 x.2 + gamma * if e.ends x.1 x.2 then 0 else
      (Finset.univ.filter fun a => d.Frequent tau (e.step x.1 x.2) a).sup' (hne _) fun a => v (e.step x.1 x.2, a)) gamma hg hg1 (by
      intro v v' D hD h x
      split_ifs with hend
      · have := mul_nonneg hg hD
        linarith
      · have : (Finset.univ.filter fun a => d.Frequent tau (e.step x.1 x.2) a).sup' (hne _) (fun a => v (e.step x.1 x.2, a)) ≤
            (Finset.univ.filter fun a => d.Frequent tau (e.step x.1 x.2) a).sup' (hne _) (fun a => v' (e.step x.1 x.2, a)) + D := by
          refine Finset.sup'_le _ _ fun a ha => ?_
          have h1 := (abs_le.mp (h (e.step x.1 x.2, a))).2
          have h2 := Finset.le_sup' (fun a => v' (e.step x.1 x.2, a)) ha
          linarith
        nlinarith [mul_le_mul_of_nonneg_left this hg])
  refine ⟨fun s a => q (s, a), fun inf hinf => ?_⟩
  rw [C270_values_partial d hn tau ht ht1 inf gamma _ hinf imit hl hmask hclosed]
  intro p
  have hp := hq (d.state p, d.act p)
  dsimp only at hp
  cases hend : e.ends (d.state p) (d.act p) with
  | true =>
    left
    rw [hend, if_pos rfl, mul_zero, add_zero] at hp
    exact ⟨rfl, hp⟩
  | false =>
    right
    rw [hend, if_neg (by simp)] at hp
    refine ⟨rfl, _, ⟨?_, fun a ha => ?_⟩, hp⟩
    · obtain ⟨a, ha, h⟩ := Finset.exists_mem_eq_sup' (hne (e.step (d.state p) (d.act p))) fun a => q (e.step (d.state p) (d.act p), a)
      exact ⟨a, (Finset.mem_filter.mp ha).2, h.symm⟩
    · exact Finset.le_sup' (fun a => q (e.step (d.state p) (d.act p), a)) (by simpa using ha)

/-! ### A case of the theorems -/

/-- In the state `false` action 0 ends with reward 1 and action 1 leads to `true`; there action 0 ends with reward 4 and action 1 with reward 100. -/
def shop : World Bool 1 where
  step _ _ := true
  rew s a := if s then (if a = 0 then 4 else 100) else if a = 0 then 1 else 0
  ends s a := s || a == 0

/-- The data: once each action in `false`, in `true` four times action 0 and once action 1. -/
def shopLog : Log shop 7 where
  state p := decide (2 ≤ (p : Nat))
  act p := if p = 1 ∨ p = 6 then 1 else 0
  index p := p
  view := ⟨fun i => if i = 0 then 1 else if i = 1 then 0 else if i = 6 then 100 else 4, fun i => i ≠ 1, fun _ => true, [], id⟩
  inputs _ := true
  rew p := by fin_cases p <;> simp [shop]
  terminated p := by fin_cases p <;> simp [shop]
  next p := rfl

theorem shop_counts : shopLog.count false 0 = 1 ∧ shopLog.count false 1 = 1 ∧ shopLog.count true 0 = 4 ∧ shopLog.count true 1 = 1 := by
  refine ⟨?_, ?_, ?_, ?_⟩ <;> decide +kernel

theorem shop_closed (p : Fin 7) (_ : shop.ends (shopLog.state p) (shopLog.act p) = false) : shopLog.Seen (shop.step (shopLog.state p) (shopLog.act p)) :=
  ⟨2, rfl⟩

theorem shop_frequent : shopLog.Frequent (3 / 10) false 0 ∧ shopLog.Frequent (3 / 10) false 1 ∧ shopLog.Frequent (3 / 10) true 0 ∧
    ¬shopLog.Frequent (3 / 10) true 1 := by
  obtain ⟨h1, h2, h3, h4⟩ := shop_counts
  refine ⟨fun b => ?_, fun b => ?_, fun b => ?_, fun h => ?_⟩
  · fin_cases b <;> simp [h1, h2] <;> norm_num
  · fin_cases b <;> simp [h1, h2] <;> norm_num
  · fin_cases b <;> simp [h3, h4] <;> norm_num
  · have := h 0
    rw [h3, h4] at this
    norm_num at this

/-- No action is at the threshold of 0.3, so C270_mask_partial applies. -/
example : ∃ eps > 0, ∀ imit : Bool → List ℝ, (∀ s, (imit s).length = 2) →
    (∀ imit' : Bool → List ℝ, (∀ s, (imit' s).length = 2) → shopLog.imitation imit ≤ shopLog.imitation imit' + eps) →
    ¬Likely (3 / 10) (imit true) 1 ∧ Likely (3 / 10) (imit false) 1 := by
  obtain ⟨h1, h2, h3, h4⟩ := shop_counts
  obtain ⟨eps, hpos, h⟩ := C270_mask_partial shopLog (3 / 10) (by norm_num) (by norm_num) (by
    intro s a b _
    cases s <;> fin_cases a <;> fin_cases b <;> simp [h1, h2, h3, h4] <;> norm_num)
  refine ⟨eps, hpos, fun imit hl hmin => ⟨fun hc => ?_, ?_⟩⟩
  · exact shop_frequent.2.2.2 ((h imit hl hmin true ⟨2, rfl⟩ 1).1.mp hc)
  · exact (h imit hl hmin false ⟨0, rfl⟩ 1).1.mpr shop_frequent.2.1

/-- The values: half of 4, not half of 100, for the step from `false` to `true`. -/
def shopValues (s : Bool) (a : Fin 2) : ℝ := if s then (if a = 0 then 4 else 100) else if a = 0 then 1 else 2

/-- Training has settled with them, for every imitator that considers the frequent actions (the hypotheses of the other theorems). -/
example (imit : Bool → List ℝ) (hl : ∀ s, (imit s).length = 2)
    (hmask : ∀ s, shopLog.Seen s → ∀ a : Fin 2, Likely (3 / 10) (imit s) a ↔ shopLog.Frequent (3 / 10) s a) :
    shopLog.Settled 1000 (3 / 10) (1 / 2) shopValues imit := by
  rw [C270_values_partial shopLog (by norm_num) (3 / 10) (by norm_num) (by norm_num) 1000 (1 / 2) shopValues (by
    intro s a b
    cases s <;> fin_cases a <;> fin_cases b <;> simp [shopValues] <;> norm_num) imit hl hmask shop_closed]
  intro p
  by_cases hp : p = 1
  · subst hp
    right
    refine ⟨rfl, 4, ⟨⟨0, shop_frequent.2.2.1, by simp [shopValues, shop]⟩, fun a ha => ?_⟩, by simp [shopValues, shop, shopLog]; norm_num⟩
    fin_cases a
    · simp [shopValues, shop]
    · exact absurd ha shop_frequent.2.2.2
  · left
    fin_cases p <;> first | exact absurd rfl hp | simp [shopValues, shop, shopLog]

/-! ### Violations -/

/-- One state, two actions; everything ends at once without reward. -/
def still : World Unit 1 := ⟨fun _ _ => (), fun _ _ => 0, fun _ _ => true⟩

/-- Only action 0 occurs. -/
def stillLog : Log still 1 := ⟨fun _ => (), fun _ => 0, fun _ => 0, ⟨fun _ => 0, fun _ => true, fun _ => true, [], id⟩, fun _ => (), fun _ => rfl, fun _ => rfl, fun _ => rfl⟩

/-- The whole loss with the weight 2 for the size of the logits, as a function of the trained imitator. -/
noncomputable def stillLoss (Q : Unit → Fin 2 → ℝ) (imit0 imit : Unit → List ℝ) : Option ℝ :=
  (learnLoss 2 1000 (some (Real.log (1 / 4))) (tableNet Q) (tableNet Q) imit0 (tableNet Q) imit stillLog.view stillLog.inputs (List.ofFn stillLog.state)
    (List.ofFn fun p => (stillLog.act p : Nat)) (List.ofFn stillLog.index) 1 1).map fun l => l.1

/-- **C270** fails with a large `imitation_logits_penalty` (here 2, threshold 1/4): every imitator that is at least as good as constant zero logits, so
also the best one, makes the policy consider an action that does not occur in the data. -/
theorem C270_violated_penalty (Q : Unit → Fin 2 → ℝ) (imit0 imit : Unit → List ℝ) (h0 : (imit0 ()).length = 2) (hl : (imit ()).length = 2) :
    ∃ a b, stillLoss Q imit0 imit = some a ∧ stillLoss Q imit0 (fun _ => [0, 0]) = some b ∧
      (a ≤ b → Likely (1 / 4) (imit ()) 1) ∧ ¬stillLog.Frequent (1 / 4) () 1 := by
  obtain ⟨x, y, hxy⟩ : ∃ x y, imit () = [x, y] := by
    match h : imit (), hl with
    | [x, y], _ => exact ⟨x, y, rfl⟩
  have himit : imit = fun _ => [x, y] := funext fun _ => hxy
  obtain ⟨pi, hpi⟩ := Acts.exists 1000 (1 / 4) Q imit0 (fun s => h0)
  have hloss : ∀ x y : ℝ, stillLoss Q imit0 (fun _ => [x, y]) = some (huber (Q () 0) + (Real.log (Real.exp x + Real.exp y) - x) + (x ^ 2 + y ^ 2)) := by
    intro x y
    unfold stillLoss learnLoss returns
    rw [returns_one _ (fun i => Q (stillLog.inputs i) (pi (stillLog.inputs i))) (fun l => by
      unfold targetQ pick
      rw [List.zipWith_map, List.zipWith_self, List.map_map, List.map_map]
      refine List.map_congr_left fun i _ => ?_
      simp only [Function.comp_apply, ← hpi (stillLog.inputs i), QLearning.table_getD])]
    have ht : (tableNet Q ())[0]? = some (Q () 0) := table_get Q () 0
    simp [stillLog, bcqLoss, nll, logSoftmax, lse, Ppo.mean, ht]
    ring
  rw [himit, hloss, hloss]
  refine ⟨_, _, rfl, rfl, fun hle => ?_, fun h => ?_⟩
  · rw [likely_iff _ (by norm_num) _ _ (by simp)]
    have hmax : Policy.maxOf [x, y] = max x y := by
      simp [Policy.maxOf]
    simp only [hmax]
    have hlog4 : Real.log (1 / 4) = -(2 * Real.log 2) := by
      rw [one_div, Real.log_inv, show (4 : ℝ) = 2 ^ 2 by norm_num, Real.log_pow]
      norm_num
    rw [hlog4]
    have hl2 := Real.log_two_gt_d9
    have e2 : Real.log (Real.exp 0 + Real.exp 0) = Real.log 2 := by
      rw [Real.exp_zero]; norm_num
    rw [e2] at hle
    have h1 : x ≤ Real.log (Real.exp x + Real.exp y) := by
      rw [Real.le_log_iff_exp_le (by positivity)]
      linarith [Real.exp_pos y]
    have h2 : x ^ 2 + y ^ 2 ≤ Real.log 2 := by nlinarith
    rcases max_cases x y with ⟨hm, h⟩ | ⟨hm, h⟩ <;> rw [hm]
    · show -(2 * Real.log 2) ≤ y - x
      nlinarith [sq_nonneg (x + y)]
    · show -(2 * Real.log 2) ≤ y - y
      nlinarith
  · have := h 0
    have e1 : stillLog.count () 0 = 1 := by decide +kernel
    have e2 : stillLog.count () 1 = 0 := by decide +kernel
    rw [e1, e2] at this
    norm_num at this

/-- Four transitions from one state with the only action: three times reward 0, once reward 8. -/
noncomputable def lotteryLoss (v : ℝ) : Option ℝ :=
  (learnLoss 0 1000 (some (Real.log (3 / 10))) (fun _ => [v]) (fun _ => [v]) (fun _ => [0]) (fun _ => [v]) (fun _ => [0])
    ⟨fun i => if i = 3 then 8 else 0, fun _ => true, fun _ => true, [], id⟩ (fun _ => ()) [(), (), (), ()] [0, 0, 0, 0] [0, 1, 2, 3] 1 1).map fun l => l.2.1

/-- **C270** fails in environments with chance: with rewards 0, 0, 0 and 8 the mean is 2, and the value with the least loss is 1/3. -/
theorem C270_violated_chance : ∃ l, lotteryLoss (1 / 3) = some l ∧ (∀ v, ∃ l', lotteryLoss v = some l' ∧ l ≤ l') ∧
    ∃ l', lotteryLoss 2 = some l' ∧ l < l' := by
  have hact : ∀ v : ℝ, bcqAct 1000 (some (Real.log (3 / 10))) [v] [0] = 0 := by
    intro v
    obtain ⟨w, h1, -⟩ := Policy.argmax_spec (List.zipWith (fun (x l : ℝ) => x - 1000 * (match some (Real.log (3 / 10)) with
      | none => 0
      | some t => if l - Policy.maxOf [0] < t then 1 else 0)) [v] [0]) (by simp)
    have := (List.getElem?_eq_some_iff.mp h1).1
    simp only [List.length_zipWith, List.length_cons, List.length_nil, zero_add, min_self] at this
    exact Nat.lt_one_iff.mp this
  have hloss : ∀ v : ℝ, lotteryLoss v = some ((3 * huber v + huber (v - 8)) / 4) := by
    intro v
    unfold lotteryLoss learnLoss returns
    rw [returns_one _ (fun i => v) (fun l => by
      unfold targetQ pick
      rw [List.zipWith_map, List.zipWith_self, List.map_map, List.map_map]
      refine List.map_congr_left fun i _ => ?_
      simp [hact])]
    simp [bcqLoss, nll, logSoftmax, lse, Ppo.mean]
    rw [show (1 + (1 + (1 + 1)) : ℝ) = 4 by norm_num, min_self]
    ring
  have hlow : ∀ c x : ℝ, |c| ≤ 1 → c * x - c ^ 2 / 2 ≤ huber x := by
    intro c x hc
    obtain ⟨c1, c2⟩ := abs_le.mp hc
    unfold huber
    split_ifs with h
    · nlinarith [sq_nonneg (x - c)]
    · push Not at h
      rcases abs_cases x with ⟨hx, _⟩ | ⟨hx, _⟩ <;> rw [hx] at h ⊢ <;> nlinarith
  have h13 : (3 * huber (1 / 3 : ℝ) + huber (1 / 3 - 8 : ℝ)) / 4 = 11 / 6 := by
    unfold huber
    rw [if_pos (by rw [abs_of_pos] <;> norm_num), if_neg (by rw [abs_of_neg] <;> norm_num), abs_of_neg (by norm_num)]
    norm_num
  refine ⟨_, by rw [hloss, h13], fun v => ⟨_, hloss v, ?_⟩, _, hloss 2, ?_⟩
  · have h1 := hlow (1 / 3) v (by rw [abs_of_pos] <;> norm_num)
    have h2 := hlow (-1) (v - 8) (by norm_num)
    linarith
  · unfold huber
    rw [if_neg (by norm_num), if_neg (by rw [abs_of_neg] <;> norm_num)]
    norm_num

end Verif.DiscreteBcq
