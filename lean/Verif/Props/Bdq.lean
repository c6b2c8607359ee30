import Verif.Model.Bdq
import Verif.Props.QTarget
import Verif.Props.QLearning

/-! C272: what the branching network of BDQ learns from a dataset. -/

namespace Verif.Bdq

open Verif.QTarget Verif.Returns Verif.QLearning Verif.Policy

set_option linter.unusedSectionVars false

variable {S : Type} [Fintype S] [DecidableEq S] {D m n : ℕ}

/-! ### Specification -/

/-- The transitions of a dataset: an action has one entry per branch; `ended` are those after which there is no next state. They are read
from a buffer at the positions `index`. -/
structure Data (S : Type) (D m n : ℕ) where
  state : Fin n → S
  act : Fin n → Fin D → Fin (m + 1)
  rew : Fin n → ℝ
  ended : Fin n → Bool
  next : Fin n → S
  index : Fin n → ℕ
  view : View ℝ
  inputs : ℕ → S
  viewRew : ∀ p, view.rew (index p) = rew p
  viewEnd : ∀ p, (view.done (index p) || view.unfinished.contains (index p)) = ended p
  viewNext : ∀ p, inputs (index p) = next p

/-- Values of the actions of each branch. -/
abbrev Table (S : Type) (D m : ℕ) := S → Fin D → Fin (m + 1) → ℝ

/-- A network that outputs the values in a table. -/
def netOf (Q : Table S D m) (s : S) : List (List ℝ) := List.ofFn fun d => List.ofFn (Q s d)

/-- The loss for the whole dataset as one batch, as a function of the network that is trained. -/
noncomputable def Data.loss (t : Data S D m n) (isDouble : Bool) (nets : Nets S (List ℝ)) (gamma : ℝ) (Q : Table S D m) : Option ℝ :=
  learnLoss isDouble nets (netOf Q) t.view t.inputs (List.ofFn t.state) (List.ofFn fun p => List.ofFn fun d => (t.act p d : ℕ)) (List.ofFn t.index) gamma
    (List.ofFn fun _ : Fin n => 1)

/-- Training has settled: network and target network have the values `Q`, and no other values have a smaller loss. -/
def Data.Settled (t : Data S D m n) (isDouble hasTarget : Bool) (gamma : ℝ) (Q : Table S D m) : Prop :=
  ∃ l, t.loss isDouble ⟨netOf Q, netOf Q, hasTarget⟩ gamma Q = some l ∧
    ∀ Q' l', t.loss isDouble ⟨netOf Q, netOf Q, hasTarget⟩ gamma Q' = some l' → l ≤ l'

/-- The transitions in which branch `d` took action `a` in state `s`. -/
def Data.rows (t : Data S D m n) (s : S) (d : Fin D) (a : Fin (m + 1)) : Finset (Fin n) := {p | t.state p = s ∧ t.act p d = a}

/-- The reward plus 0.99 times the mean over the branches of the value of their best action in the next state. -/
noncomputable def Data.target (t : Data S D m n) (Q : Table S D m) (p : Fin n) : ℝ :=
  t.rew p + 99 / 100 * if t.ended p then 0 else (∑ d, best (Q (t.next p)) d) / D

/-- Each value is the mean of the targets of the transitions in which its branch took its action, whatever the other branches did. -/
def Data.Means (t : Data S D m n) (Q : Table S D m) : Prop :=
  ∀ s d a, (∑ p ∈ t.rows s d a, t.target Q p) = (t.rows s d a).card * Q s d a

/-! ### Lemmas -/

theorem bdqRow_net (isDouble : Bool) (Q : Table S D m) (s : S) : bdqRow isDouble (netOf Q s) (netOf Q s) = List.ofFn (best (Q s)) := by
  have h : pick 0 (netOf Q s) ((netOf Q s).map argmax) = List.ofFn (best (Q s)) := by
    unfold pick netOf
    rw [List.map_ofFn, zipWith_ofFn]
    congr 1
    funext d
    exact argmax_table (Q s) d
  unfold bdqRow
  split <;> exact h

theorem Data.returns (t : Data S D m n) (hD : 0 < D) (hn : 2 ≤ n ∨ D = 1) (isDouble hasTarget : Bool) (gamma : ℝ) (Q : Table S D m) :
    bdqReturns isDouble ⟨netOf Q, netOf Q, hasTarget⟩ t.view t.inputs (List.ofFn t.index) gamma = some (List.ofFn (t.target Q)) := by
  unfold bdqReturns
  simp only [ite_self, List.map_ofFn]
  have h1 : (List.ofFn ((fun i => bdqRow isDouble (netOf Q (t.inputs i)) (netOf Q (t.inputs i))) ∘ t.index)) =
      List.ofFn fun p => List.ofFn (best (Q (t.next p))) := by
    congr 1
    funext p
    simp only [Function.comp_apply, bdqRow_net, t.viewNext]
  rw [h1, bdqMean_eq _ D (by simp) (by simpa using hn) hD, List.map_ofFn]
  unfold bdqBroadcast
  rw [if_pos (by simp)]
  simp only [List.zip, zipWith_ofFn, Option.some.injEq]
  congr 1
  funext p
  simp only [Function.comp_apply, t.viewRew, t.viewEnd, mean_ofFn, Data.target]
  cases t.ended p <;> simp

theorem one_entry (f : Fin (m + 1) → ℝ) (y : ℝ) (a : Fin (m + 1)) :
    ((List.ofFn f).zipIdx.map fun x => if x.2 = (a : ℕ) then (y - x.1) ^ 2 else 0).sum = (y - f a) ^ 2 := by
  have : ((List.ofFn f).zipIdx.map fun x => if x.2 = (a : ℕ) then (y - x.1) ^ 2 else 0) = List.ofFn fun b => if b = a then (y - f b) ^ 2 else 0 := by
    apply List.ext_getElem
    · simp
    · intro i h1 h2
      simp only [List.getElem_map, List.getElem_zipIdx, List.getElem_ofFn, Fin.ext_iff, zero_add]
  rw [this, List.sum_ofFn]
  simp

/-- The loss as a sum of squares. -/
theorem Data.loss_eq (t : Data S D m n) (hD : 0 < D) (hn : 2 ≤ n ∨ D = 1) (isDouble hasTarget : Bool) (gamma : ℝ) (Q Q' : Table S D m) :
    t.loss isDouble ⟨netOf Q, netOf Q, hasTarget⟩ gamma Q' =
      some ((∑ p, (∑ d, (t.target Q p - Q' (t.state p) d (t.act p d)) ^ 2) / D) / n) := by
  unfold Data.loss learnLoss
  rw [t.returns hD hn]
  simp only [Option.map_some, List.zip, zipWith_ofFn, bdqLoss, netOf, one_entry, mean_ofFn, mul_one]

theorem regroup (t : Data S D m n) (f : S → Fin D → Fin (m + 1) → ℝ) (g : Fin n → ℝ) (d : Fin D) :
    ∑ p, f (t.state p) d (t.act p d) * g p = ∑ s, ∑ a, f s d a * ∑ p ∈ t.rows s d a, g p := by
  have h1 : ∀ s a, f s d a * ∑ p ∈ t.rows s d a, g p = ∑ p, if t.state p = s ∧ t.act p d = a then f s d a * g p else 0 := by
    intro s a
    rw [Finset.mul_sum, Data.rows, Finset.sum_filter]
  simp only [h1]
  have h2 : ∀ s, ∑ a, ∑ p, (if t.state p = s ∧ t.act p d = a then f s d a * g p else 0) =
      ∑ p, if t.state p = s then f s d (t.act p d) * g p else 0 := by
    intro s
    rw [Finset.sum_comm]
    refine Finset.sum_congr rfl fun p _ => ?_
    by_cases h : t.state p = s
    · simp [h]
    · simp [h]
  simp only [h2]
  rw [Finset.sum_comm]
  refine Finset.sum_congr rfl fun p _ => ?_
  simp

/-- How the sum of squares changes. -/
theorem squares (t : Data S D m n) (y : Fin n → ℝ) (Q f : Table S D m) :
    ∑ p, ∑ d, (y p - (Q (t.state p) d (t.act p d) + f (t.state p) d (t.act p d))) ^ 2 = ∑ p, ∑ d, (y p - Q (t.state p) d (t.act p d)) ^ 2 +
      ∑ p, ∑ d, f (t.state p) d (t.act p d) ^ 2 - 2 * ∑ d, ∑ s, ∑ a, f s d a * ((∑ p ∈ t.rows s d a, y p) - (t.rows s d a).card * Q s d a) := by
  have h1 : ∀ d, ∑ s, ∑ a, f s d a * ((∑ p ∈ t.rows s d a, y p) - (t.rows s d a).card * Q s d a) =
      ∑ p, f (t.state p) d (t.act p d) * (y p - Q (t.state p) d (t.act p d)) := by
    intro d
    rw [regroup t f (fun p => y p - Q (t.state p) d (t.act p d)) d]
    refine Finset.sum_congr rfl fun s _ => Finset.sum_congr rfl fun a _ => ?_
    congr 1
    rw [Finset.sum_sub_distrib]
    congr 1
    rw [← nsmul_eq_mul, ← Finset.sum_const]
    refine Finset.sum_congr rfl fun p hp => ?_
    rw [Data.rows, Finset.mem_filter] at hp
    rw [hp.2.1, hp.2.2]
  simp only [h1]
  rw [Finset.sum_comm (γ := Fin D), ← Finset.sum_add_distrib, Finset.mul_sum, ← Finset.sum_sub_distrib]
  refine Finset.sum_congr rfl fun p _ => ?_
  rw [← Finset.sum_add_distrib, Finset.mul_sum, ← Finset.sum_sub_distrib]
  exact Finset.sum_congr rfl fun d _ => by ring

theorem Data.settled_iff (t : Data S D m n) (hD : 0 < D) (hn : 2 ≤ n) (isDouble hasTarget : Bool) (gamma : ℝ) (Q : Table S D m) :
    t.Settled isDouble hasTarget gamma Q ↔ ∀ Q' : Table S D m,
      ∑ p, ∑ d, (t.target Q p - Q (t.state p) d (t.act p d)) ^ 2 ≤ ∑ p, ∑ d, (t.target Q p - Q' (t.state p) d (t.act p d)) ^ 2 := by
  have hD' : (0 : ℝ) < D := by exact_mod_cast hD
  have hn' : (0 : ℝ) < n := by exact_mod_cast (by omega : 0 < n)
  unfold Data.Settled
  simp only [t.loss_eq hD (.inl hn), Option.some.injEq, exists_eq_left', forall_eq']
  refine forall_congr' fun Q' => ?_
  rw [← Finset.sum_div, ← Finset.sum_div, div_le_div_iff_of_pos_right hn', div_le_div_iff_of_pos_right hD']

/-! ### C272 -/

/-- **C272: what is learned.** Training with the whole dataset has settled if and only if each value is the mean of the targets of the transitions in which
its branch took its action. With or without a target network and double Q-learning. -/
theorem C272_means (t : Data S D m n) (hD : 0 < D) (hn : 2 ≤ n) (isDouble hasTarget : Bool) (gamma : ℝ) (Q : Table S D m) :
    t.Settled isDouble hasTarget gamma Q ↔ t.Means Q := by
  rw [t.settled_iff hD hn]
  constructor
  · intro h s d a
    by_contra hne
    set r := (∑ p ∈ t.rows s d a, t.target Q p) - (t.rows s d a).card * Q s d a with hr
    have hr0 : r ≠ 0 := sub_ne_zero.mpr hne
    have hcard : (0 : ℝ) < (t.rows s d a).card := by
      rcases Nat.eq_zero_or_pos (t.rows s d a).card with h0 | h0
      · rw [Finset.card_eq_zero] at h0
        exact absurd (by rw [h0]; simp) hne
      · exact_mod_cast h0
    have hall : ∀ x : ℝ, 2 * (x * r) ≤ (t.rows s d a).card * x ^ 2 := by
      intro x
      have h1 := h fun s' d' a' => Q s' d' a' + if s' = s ∧ d' = d ∧ a' = a then x else 0
      rw [squares t (t.target Q) Q fun s' d' a' => if s' = s ∧ d' = d ∧ a' = a then x else 0] at h1
      have h2 : ∑ p, ∑ d', (if t.state p = s ∧ d' = d ∧ t.act p d' = a then x else 0) ^ 2 = (t.rows s d a).card * x ^ 2 := by
        have : ∀ p, ∑ d', (if t.state p = s ∧ d' = d ∧ t.act p d' = a then x else 0) ^ 2 = if t.state p = s ∧ t.act p d = a then x ^ 2 else 0 := by
          intro p
          rw [Finset.sum_eq_single d]
          · simp
          · intro b _ hb; simp [hb]
          · simp
        simp only [this]
        rw [← Finset.sum_filter, Finset.sum_const, nsmul_eq_mul]
        rfl
      have h3 : ∑ d', ∑ s', ∑ a', (if s' = s ∧ d' = d ∧ a' = a then x else 0) * ((∑ p ∈ t.rows s' d' a', t.target Q p) - (t.rows s' d' a').card * Q s' d' a') = x * r := by
        rw [Finset.sum_eq_single d, Finset.sum_eq_single s, Finset.sum_eq_single a]
        · simp [hr]
        · intro b _ hb; simp [hb]
        · simp
        · intro b _ hb; simp [hb]
        · simp
        · intro b _ hb; simp [hb]
        · simp
      rw [h2, h3] at h1
      linarith
    have := hall (r / (t.rows s d a).card)
    have e1 : 2 * (r / (t.rows s d a).card * r) = 2 * (r ^ 2 / (t.rows s d a).card) := by ring
    have e2 : (t.rows s d a).card * (r / (t.rows s d a).card) ^ 2 = r ^ 2 / (t.rows s d a).card := by field_simp
    rw [e1, e2] at this
    have : 0 < r ^ 2 / (t.rows s d a).card := by positivity
    linarith
  · intro h Q'
    have h1 := squares t (t.target Q) Q fun s d a => Q' s d a - Q s d a
    simp only [add_sub_cancel] at h1
    have h2 : ∑ d, ∑ s, ∑ a, (Q' s d a - Q s d a) * ((∑ p ∈ t.rows s d a, t.target Q p) - (t.rows s d a).card * Q s d a) = 0 := by
      refine Finset.sum_eq_zero fun d _ => Finset.sum_eq_zero fun s _ => Finset.sum_eq_zero fun a _ => ?_
      rw [h s d a, sub_self, mul_zero]
    rw [h2] at h1
    have h3 : 0 ≤ ∑ p, ∑ d, (Q' (t.state p) d (t.act p d) - Q (t.state p) d (t.act p d)) ^ 2 :=
      Finset.sum_nonneg fun p _ => Finset.sum_nonneg fun d _ => sq_nonneg _
    linarith

theorem Data.target_dist (t : Data S D m n) (hD : 0 < D) (Q Q' : Table S D m) (p : Fin n) : |t.target Q p - t.target Q' p| ≤ 99 / 100 * dist Q Q' := by
  unfold Data.target
  rw [add_sub_add_left_eq_sub, ← mul_sub, abs_mul, abs_of_nonneg (by norm_num : (0 : ℝ) ≤ 99 / 100)]
  refine mul_le_mul_of_nonneg_left ?_ (by norm_num)
  split
  · simp
  · have hD' : (0 : ℝ) < D := by exact_mod_cast hD
    rw [← sub_div, abs_div, abs_of_pos hD', div_le_iff₀ hD', ← Finset.sum_sub_distrib]
    refine (Finset.abs_sum_le_sum_abs _ _).trans ?_
    refine (Finset.sum_le_sum fun d _ => (best_dist (Q (t.next p)) (Q' (t.next p)) d).trans (dist_le_pi_dist Q Q' (t.next p))).trans ?_
    simp [mul_comm]

/-- C272: the values are determined by the dataset, if it contains each action of each branch in each state. -/
theorem C272_unique (t : Data S D m n) (hD : 0 < D) (hn : 2 ≤ n) (hc : ∀ s d a, (t.rows s d a).Nonempty) (isDouble hasTarget isDouble' hasTarget' : Bool)
    (gamma gamma' : ℝ) (Q Q' : Table S D m) (h : t.Settled isDouble hasTarget gamma Q) (h' : t.Settled isDouble' hasTarget' gamma' Q') : Q = Q' := by
  rw [C272_means t hD hn] at h h'
  have hle : dist Q Q' ≤ 99 / 100 * dist Q Q' := by
    have h0 : 0 ≤ 99 / 100 * dist Q Q' := mul_nonneg (by norm_num) dist_nonneg
    refine (dist_pi_le_iff h0).mpr fun s => (dist_pi_le_iff h0).mpr fun d => (dist_pi_le_iff h0).mpr fun a => ?_
    have hcard : (0 : ℝ) < (t.rows s d a).card := by exact_mod_cast (hc s d a).card_pos
    rw [Real.dist_eq]
    refine le_of_mul_le_mul_left ?_ hcard
    rw [← abs_of_pos hcard, ← abs_mul, mul_sub, ← h s d a, ← h' s d a, ← Finset.sum_sub_distrib, abs_of_pos hcard, ← nsmul_eq_mul, ← Finset.sum_const]
    exact (Finset.abs_sum_le_sum_abs _ _).trans (Finset.sum_le_sum fun p _ => t.target_dist hD Q Q' p)
  have : dist Q Q' = 0 := le_antisymm (by linarith) dist_nonneg
  exact dist_eq_zero.mp this

/-- C272: there are such values for every dataset. -/
theorem C272_exists (t : Data S D m n) (hD : 0 < D) (hn : 2 ≤ n) (isDouble hasTarget : Bool) (gamma : ℝ) : ∃ Q, t.Settled isDouble hasTarget gamma Q := by
  have hc : ContractingWith (⟨99 / 100, by norm_num⟩ : NNReal) (fun (Q : Table S D m) s d a => (∑ p ∈ t.rows s d a, t.target Q p) / (t.rows s d a).card) := by
    refine ⟨(by norm_num : (99 / 100 : ℝ) < 1), LipschitzWith.of_dist_le_mul fun Q Q' => ?_⟩
    have h0 : 0 ≤ 99 / 100 * dist Q Q' := mul_nonneg (by norm_num) dist_nonneg
    refine (dist_pi_le_iff h0).mpr fun s => (dist_pi_le_iff h0).mpr fun d => (dist_pi_le_iff h0).mpr fun a => ?_
    rw [Real.dist_eq, ← sub_div, ← Finset.sum_sub_distrib]
    rcases Nat.eq_zero_or_pos (t.rows s d a).card with h1 | h1
    · simpa [h1] using h0
    · have hcard : (0 : ℝ) < (t.rows s d a).card := by exact_mod_cast h1
      rw [abs_div, abs_of_pos hcard, div_le_iff₀ hcard, mul_comm, ← nsmul_eq_mul, ← Finset.sum_const]
      exact (Finset.abs_sum_le_sum_abs _ _).trans (Finset.sum_le_sum fun p _ => t.target_dist hD Q Q' p)
  refine ⟨ContractingWith.fixedPoint _ hc, (C272_means t hD hn isDouble hasTarget gamma _).mpr fun s d a => ?_⟩
  have h1 := congrFun (congrFun (congrFun hc.fixedPoint_isFixedPt s) d) a
  generalize ContractingWith.fixedPoint _ hc = Q at *
  rcases (t.rows s d a).eq_empty_or_nonempty with h2 | h2
  · simp [h2]
  · have hcard : ((t.rows s d a).card : ℝ) ≠ 0 := by exact_mod_cast h2.card_pos.ne'
    rw [← h1]
    change _ = ((t.rows s d a).card : ℝ) * ((∑ p ∈ t.rows s d a, t.target Q p) / (t.rows s d a).card)
    field_simp

/-- **C272, one branch.** In an environment without chance, with a dataset that contains each action in each state and no broken off episode, the values of
a network with one branch satisfy the optimality equation with discount factor 0.99. -/
theorem C272_single_partial (t : Data S 1 m n) (hn : 2 ≤ n) (rew : S → Fin (m + 1) → ℝ) (ends : S → Fin (m + 1) → Bool) (next : S → Fin (m + 1) → S)
    (hr : ∀ p, t.rew p = rew (t.state p) (t.act p 0)) (he : ∀ p, t.ended p = ends (t.state p) (t.act p 0)) (hx : ∀ p, t.next p = next (t.state p) (t.act p 0))
    (hc : ∀ s a, ∃ p, t.state p = s ∧ t.act p 0 = a) (isDouble hasTarget : Bool) (gamma : ℝ) (Q : Table S 1 m) (h : t.Settled isDouble hasTarget gamma Q)
    (s : S) (a : Fin (m + 1)) :
    Q s 0 a = rew s a + 99 / 100 * if ends s a then 0 else Finset.univ.sup' ⟨0, Finset.mem_univ _⟩ (Q (next s a) 0) := by
  rw [C272_means t one_pos hn] at h
  obtain ⟨p, hp1, hp2⟩ := hc s a
  have hcard : ((t.rows s 0 a).card : ℝ) ≠ 0 := by
    exact_mod_cast (Finset.card_pos.mpr ⟨p, by simp [Data.rows, hp1, hp2]⟩).ne'
  have h1 := h s 0 a
  have h2 : ∀ q ∈ t.rows s 0 a, t.target Q q = rew s a + 99 / 100 * if ends s a then 0 else Finset.univ.sup' ⟨0, Finset.mem_univ _⟩ (Q (next s a) 0) := by
    intro q hq
    rw [Data.rows, Finset.mem_filter] at hq
    unfold Data.target best
    rw [hr, he, hx, hq.2.1, hq.2.2]
    simp
  rw [Finset.sum_congr rfl h2, Finset.sum_const, nsmul_eq_mul] at h1
  exact (mul_left_cancel₀ hcard h1).symm

/-- **C272, rewards that add up.** If episodes have one step, the reward is a sum over the branches, and the dataset contains all combinations of actions
equally often, then the best actions of the branches are together the best action. -/
theorem C272_additive_partial (t : Data S D m n) (hD : 0 < D) (hn : 2 ≤ n) (r : Fin D → S → Fin (m + 1) → ℝ) (hend : ∀ p, t.ended p = true)
    (hr : ∀ p, t.rew p = ∑ d, r d (t.state p) (t.act p d)) (often : S → ℝ) (hpos : ∀ s, 0 < often s)
    (hall : ∀ s (f : (Fin D → Fin (m + 1)) → ℝ), ∑ p with t.state p = s, f (t.act p) = often s * ∑ j, f j)
    (isDouble hasTarget : Bool) (gamma : ℝ) (Q : Table S D m) (h : t.Settled isDouble hasTarget gamma Q) (s : S) (j : Fin D → Fin (m + 1))
    (hj : ∀ d b, Q s d b ≤ Q s d (j d)) (j' : Fin D → Fin (m + 1)) : ∑ d, r d s (j' d) ≤ ∑ d, r d s (j d) := by
  rw [C272_means t hD hn] at h
  refine Finset.sum_le_sum fun d _ => ?_
  have hsum : ∀ (a : Fin (m + 1)) (f : (Fin D → Fin (m + 1)) → ℝ), ∑ p ∈ t.rows s d a, f (t.act p) = often s * ∑ i, if i d = a then f i else 0 := by
    intro a f
    rw [← hall s fun i => if i d = a then f i else 0, Data.rows, ← Finset.sum_filter, Finset.filter_filter]
  have hmove : ∀ (a b : Fin (m + 1)) (f : (Fin D → Fin (m + 1)) → ℝ), (∑ i, if i d = a then f i else 0) = ∑ i, if i d = b then f (Function.update i d a) else 0 := by
    intro a b f
    rw [← Finset.sum_filter, ← Finset.sum_filter]
    refine Finset.sum_nbij' (fun i => Function.update i d b) (fun i => Function.update i d a) ?_ ?_ ?_ ?_ ?_
    · intro i _; simp
    · intro i _; simp
    · intro i hi
      simp only [Finset.mem_filter, Finset.mem_univ, true_and] at hi
      simp [← hi]
    · intro i hi
      simp only [Finset.mem_filter, Finset.mem_univ, true_and] at hi
      simp [← hi]
    · intro i hi
      simp only [Finset.mem_filter, Finset.mem_univ, true_and] at hi
      simp [← hi]
  set count : ℝ := ∑ i : Fin D → Fin (m + 1), if i d = 0 then 1 else 0 with hcount
  have hc1 : ∀ a, ((t.rows s d a).card : ℝ) = often s * count := by
    intro a
    have := hsum a fun _ => 1
    rw [Finset.sum_const, nsmul_eq_mul, mul_one] at this
    rw [this, hmove a 0, hcount]
  have hcpos : 0 < count := by
    refine Finset.sum_pos' (fun i _ => by split <;> norm_num) ⟨fun _ => 0, Finset.mem_univ _, by simp⟩
  have hval : ∀ a, count * Q s d a = (∑ i : Fin D → Fin (m + 1), if i d = 0 then ∑ d', r d' s (Function.update i d a d') else 0) := by
    intro a
    have h1 := h s d a
    have h2 : ∀ p ∈ t.rows s d a, t.target Q p = ∑ d', r d' s (t.act p d') := by
      intro p hp
      rw [Data.rows, Finset.mem_filter] at hp
      rw [Data.target, hend, hr, hp.2.1]
      simp
    rw [Finset.sum_congr rfl h2, hsum a fun i => ∑ d', r d' s (i d'), hmove a 0, hc1, mul_assoc] at h1
    exact (mul_left_cancel₀ (hpos s).ne' h1).symm
  have hdiff : ∀ a b, count * (Q s d a - Q s d b) = count * (r d s a - r d s b) := by
    intro a b
    rw [mul_sub, hval, hval, ← Finset.sum_sub_distrib, hcount, Finset.sum_mul]
    refine Finset.sum_congr rfl fun i _ => ?_
    split
    · rw [one_mul, ← Finset.sum_sub_distrib, Finset.sum_eq_single d]
      · simp
      · intro d' _ hd'; simp [Function.update_of_ne hd']
      · simp
    · simp
  have h1 := mul_left_cancel₀ hcpos.ne' (hdiff (j' d) (j d))
  have h2 := hj d (j' d)
  linarith

/-! ### Violations -/

/-- Transitions stored one after the other. -/
noncomputable def Data.store (hn : 0 < n) (state : Fin n → S) (act : Fin n → Fin D → Fin (m + 1)) (rew : Fin n → ℝ) (ended : Fin n → Bool)
    (next : Fin n → S) : Data S D m n where
  state := state
  act := act
  rew := rew
  ended := ended
  next := next
  index p := p
  view := { rew := fun i => if h : i < n then rew ⟨i, h⟩ else 0
            terminated := fun i => if h : i < n then ended ⟨i, h⟩ else false
            done := fun i => if h : i < n then ended ⟨i, h⟩ else false
            unfinished := []
            next := fun i => if i + 1 < n then i + 1 else i }
  inputs i := if h : i < n then next ⟨i, h⟩ else next ⟨0, hn⟩
  viewRew p := by simp
  viewEnd p := by simp
  viewNext p := by simp

theorem Data.Means.eq {t : Data S D m n} {Q : Table S D m} (h : t.Means Q) (s : S) (d : Fin D) (a : Fin (m + 1)) :
    (∑ p, if t.state p = s ∧ t.act p d = a then t.target Q p - Q s d a else 0) = 0 := by
  rw [← Finset.sum_filter]
  change ∑ p ∈ t.rows s d a, _ = _
  rw [Finset.sum_sub_distrib, h s d a, Finset.sum_const, nsmul_eq_mul, sub_self]

/-- Rewards of the four combinations of two actions: 5, -10, 3 and 4. -/
noncomputable def mixed (j : Fin 2 → Fin 2) : ℝ := if j 0 = 0 then (if j 1 = 0 then 5 else -10) else if j 1 = 0 then 3 else 4

/-- Each combination once; episodes have one step. -/
noncomputable def mixedData : Data (Fin 1) 2 1 4 :=
  Data.store (by norm_num) (fun _ => 0) (fun p d => if d = 0 then (if p.val < 2 then 0 else 1) else if p.val % 2 = 0 then 0 else 1)
    (fun p => mixed fun d => if d = 0 then (if p.val < 2 then 0 else 1) else if p.val % 2 = 0 then 0 else 1) (fun _ => true) (fun _ => 0)

/-- **C272 is violated if rewards do not add up**: with each combination of actions once in the dataset, the best actions of the branches have together the
reward 3, while another combination has the reward 5. -/
theorem C272_violated (isDouble hasTarget : Bool) (gamma : ℝ) (Q : Table (Fin 1) 2 1) (h : mixedData.Settled isDouble hasTarget gamma Q) (j : Fin 2 → Fin 2)
    (hj : ∀ d b, Q 0 d b ≤ Q 0 d (j d)) : mixed j = 3 ∧ mixed (fun _ => 0) = 5 := by
  have hm := (C272_means mixedData (by norm_num) (by norm_num) isDouble hasTarget gamma Q).mp h
  have q1 := hm.eq 0 0 0
  have q2 := hm.eq 0 0 1
  have q3 := hm.eq 0 1 0
  have q4 := hm.eq 0 1 1
  simp [mixedData, Data.store, Data.target, Fin.sum_univ_four, mixed] at q1 q2 q3 q4
  refine ⟨?_, by simp [mixed]⟩
  have h0 : j 0 = 1 := by
    by_contra hne
    have h0 : j 0 = 0 := by omega
    have := hj 0 1
    rw [h0] at this
    linarith
  have h1 : j 1 = 0 := by
    by_contra hne
    have h1 : j 1 = 1 := by omega
    have := hj 1 0
    rw [h1] at this
    linarith
  simp [mixed, h0, h1]

/-- Two states. In the first one, action 0 of the first branch ends the episode with the reward 17/10, action 1 leads to the second state. There each
branch adds the reward 1 with action 1. -/
noncomputable def laterData : Data (Fin 2) 2 1 8 :=
  Data.store (by norm_num) (fun p => if p.val < 4 then 0 else 1)
    (fun p d => if d = 0 then (if p.val % 4 < 2 then 0 else 1) else if p.val % 2 = 0 then 0 else 1)
    (fun p => if p.val < 4 then (if p.val % 4 < 2 then 17 / 10 else 0) else (if p.val % 4 < 2 then 0 else 1) + if p.val % 2 = 0 then 0 else 1)
    (fun p => if p.val < 4 then decide (p.val % 4 < 2) else true) (fun _ => 1)

/-- **C272 is violated in longer episodes even if rewards add up**: in the second state the best combination has the reward 2, so that going there is worth
198/100; but its value becomes 3/2, and the first branch prefers the end of the episode with the reward 17/10. -/
theorem C272_violated_later (isDouble hasTarget : Bool) (gamma : ℝ) (Q : Table (Fin 2) 2 1) (h : laterData.Settled isDouble hasTarget gamma Q) :
    Q 1 0 1 = 3 / 2 ∧ Q 1 1 1 = 3 / 2 ∧ Q 0 0 0 = 17 / 10 ∧ Q 0 0 1 = 99 / 100 * (3 / 2) ∧ (99 / 100 : ℝ) * (3 / 2) < 17 / 10 ∧ (17 / 10 : ℝ) < 99 / 100 * 2 := by
  have hm := (C272_means laterData (by norm_num) (by norm_num) isDouble hasTarget gamma Q).mp h
  have q1 := hm.eq 1 0 0
  have q2 := hm.eq 1 0 1
  have q3 := hm.eq 1 1 0
  have q4 := hm.eq 1 1 1
  have q5 := hm.eq 0 0 0
  have q6 := hm.eq 0 0 1
  simp [laterData, Data.store, Data.target, Fin.sum_univ_eight] at q1 q2 q3 q4 q5
  have e1 : Q 1 0 0 = 1 / 2 := by linarith
  have e2 : Q 1 0 1 = 3 / 2 := by linarith
  have e3 : Q 1 1 0 = 1 / 2 := by linarith
  have e4 : Q 1 1 1 = 3 / 2 := by linarith
  have hb : ∀ d, best (Q 1) d = 3 / 2 := by
    intro d
    unfold best
    refine le_antisymm (Finset.sup'_le _ _ fun a _ => ?_) ?_
    · fin_cases d <;> fin_cases a <;> simp [e1, e2, e3, e4] <;> norm_num
    · refine le_trans (le_of_eq ?_) (Finset.le_sup' (Q 1 d) (Finset.mem_univ 1))
      fin_cases d <;> simp [e2, e4]
  simp [laterData, Data.store, Data.target, Fin.sum_univ_eight, hb] at q6
  refine ⟨e2, e4, by linarith, by linarith, by norm_num, by norm_num⟩

/-! ### Examples -/

/-- The datasets of the violations meet the hypotheses of `C272_unique`, and values are learned from them. -/
example : (∀ s d a, (mixedData.rows s d a).Nonempty) ∧ (∀ s d a, (laterData.rows s d a).Nonempty) ∧ ∃ Q, mixedData.Settled true true (99 / 100) Q := by
  refine ⟨fun s d a => ?_, fun s d a => ?_, C272_exists mixedData (by norm_num) (by norm_num) _ _ _⟩
  · fin_cases s; fin_cases d <;> fin_cases a
    · exact ⟨0, by simp [Data.rows, mixedData, Data.store]⟩
    · exact ⟨2, by simp [Data.rows, mixedData, Data.store]⟩
    · exact ⟨0, by simp [Data.rows, mixedData, Data.store]⟩
    · exact ⟨1, by simp [Data.rows, mixedData, Data.store]⟩
  · fin_cases s <;> fin_cases d <;> fin_cases a
    · exact ⟨0, by simp [Data.rows, laterData, Data.store]⟩
    · exact ⟨2, by simp [Data.rows, laterData, Data.store]⟩
    · exact ⟨0, by simp [Data.rows, laterData, Data.store]⟩
    · exact ⟨1, by simp [Data.rows, laterData, Data.store]⟩
    · exact ⟨4, by simp [Data.rows, laterData, Data.store]⟩
    · exact ⟨6, by simp [Data.rows, laterData, Data.store]⟩
    · exact ⟨4, by simp [Data.rows, laterData, Data.store]⟩
    · exact ⟨5, by simp [Data.rows, laterData, Data.store]⟩

/-- A dataset whose rewards add up: the hypotheses of `C272_additive_partial`. -/
noncomputable def sumData : Data (Fin 1) 2 1 4 :=
  Data.store (by norm_num) (fun _ => 0) (fun p d => if d = 0 then (if p.val < 2 then 0 else 1) else if p.val % 2 = 0 then 0 else 1)
    (fun p => (if p.val < 2 then 3 else 1) + if p.val % 2 = 0 then 0 else 5) (fun _ => true) (fun _ => 0)

example : (∀ p, sumData.ended p = true) ∧
    (∀ p, sumData.rew p = ∑ d, (fun (d : Fin 2) (_ : Fin 1) (a : Fin 2) => if d = 0 then (if a = 0 then (3 : ℝ) else 1) else if a = 0 then 0 else 5) d (sumData.state p) (sumData.act p d)) ∧
    ∀ s (f : (Fin 2 → Fin 2) → ℝ), ∑ p with sumData.state p = s, f (sumData.act p) = 1 * ∑ j, f j := by
  refine ⟨fun _ => rfl, fun p => ?_, fun s f => ?_⟩
  · fin_cases p <;> simp [sumData, Data.store, Fin.sum_univ_two]
  · fin_cases s
    rw [one_mul, ← (finTwoArrowEquiv (Fin 2)).symm.sum_comp, Fintype.sum_prod_type, Finset.sum_filter]
    simp [sumData, Data.store, Fin.sum_univ_four, Fin.sum_univ_two, finTwoArrowEquiv]
    have e1 : (fun _ : Fin 2 => (0 : Fin 2)) = ![0, 0] := by ext d; fin_cases d <;> rfl
    have e2 : (fun d : Fin 2 => if d = 0 then (0 : Fin 2) else 1) = ![0, 1] := by ext d; fin_cases d <;> rfl
    have e3 : (fun d : Fin 2 => if d = 0 then (1 : Fin 2) else 0) = ![1, 0] := by ext d; fin_cases d <;> rfl
    have e4 : (fun _ : Fin 2 => (1 : Fin 2)) = ![1, 1] := by ext d; fin_cases d <;> rfl
    rw [e1, e2, e3, e4]
    ring

end Verif.Bdq
