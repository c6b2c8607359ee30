import Verif.Model.Offline
import Verif.Props.Imitation
import Verif.Props.QLearning

/-!
C244: what the discriminator of GAIL learns, and the rewards it then gives. C245: what imitation learns.
-/

namespace Verif.Fitting

open Verif.Offline Verif.Imitation
open Verif.QLearning (mean_ofFn zipWith_ofFn)

set_option linter.unusedSectionVars false

/-! ### Specification -/

variable {X : Type} [Fintype X] {Ω : Type} [Fintype Ω]

/-- Random minibatches of `n` rows: their probabilities and their rows. -/
structure Minibatch (X Ω : Type) [Fintype Ω] (n : Nat) where
  P : Ω → ℝ
  rows : Ω → Fin n → X
  nonneg : ∀ ω, 0 ≤ P ω
  sum : ∑ ω, P ω = 1

open Classical in
/-- The expected share of a value among the rows. -/
noncomputable def Minibatch.share {n : Nat} (b : Minibatch X Ω n) (x : X) : ℝ := ∑ ω, b.P ω * ((∑ q, if b.rows ω q = x then 1 else 0) / n)

/-- The expectation of the mean of a function over the rows is the sum over all values, weighted with the shares. -/
theorem expect {n : Nat} (b : Minibatch X Ω n) (g : X → ℝ) : ∑ ω, b.P ω * ((∑ q, g (b.rows ω q)) / n) = ∑ x, b.share x * g x := by
  classical
  unfold Minibatch.share
  simp only [Finset.sum_mul]
  rw [Finset.sum_comm]
  refine Finset.sum_congr rfl fun ω _ => ?_
  simp only [mul_assoc, div_mul_eq_mul_div]
  rw [← Finset.mul_sum, ← Finset.sum_div]
  congr 2
  simp only [Finset.sum_mul, ite_mul, one_mul, zero_mul]
  rw [Finset.sum_comm]
  refine Finset.sum_congr rfl fun q _ => ?_
  rw [Finset.sum_ite_eq Finset.univ, if_pos (Finset.mem_univ _)]

theorem share_nonneg {n : Nat} (b : Minibatch X Ω n) (x : X) : 0 ≤ b.share x := by
  classical
  refine Finset.sum_nonneg fun ω _ => mul_nonneg (b.nonneg ω) (div_nonneg (Finset.sum_nonneg fun q _ => ?_) (Nat.cast_nonneg _))
  split <;> norm_num

theorem share_sum {n : Nat} (hn : 0 < n) (b : Minibatch X Ω n) : ∑ x, b.share x = 1 := by
  have h := expect b fun _ => 1
  simp only [mul_one] at h
  rw [← h]
  conv_rhs => rw [← b.sum]
  refine Finset.sum_congr rfl fun ω _ => ?_
  have : (n : ℝ) ≠ 0 := by exact_mod_cast hn.ne'
  simp [this]

/-! ### Cross entropy -/

theorem term {t q : ℝ} (ht : 0 ≤ t) (hq : 0 < q) : t * Real.log q ≤ t * Real.log t + (q - t) ∧ (t * Real.log q = t * Real.log t + (q - t) ↔ q = t) := by
  rcases ht.eq_or_lt with h | h
  · subst h
    simp only [zero_mul, zero_add, sub_zero]
    exact ⟨hq.le, ⟨fun h => absurd h hq.ne, fun h => absurd h hq.ne'⟩⟩
  · have h1 : Real.log q = Real.log t + Real.log (q / t) := by
      rw [Real.log_div hq.ne' h.ne']
      ring
    have hpos : 0 < q / t := div_pos hq h
    have h3 : t * (q / t - 1) = q - t := by
      rw [mul_sub, mul_div_cancel₀ _ h.ne', mul_one]
    rw [h1, mul_add]
    constructor
    · have := mul_le_mul_of_nonneg_left (Real.log_le_sub_one_of_pos hpos) h.le
      linarith
    · constructor
      · intro he
        by_contra hne
        have h2 : q / t ≠ 1 := fun h2 => hne ((div_eq_one_iff_eq h.ne').mp h2)
        have := mul_lt_mul_of_pos_left (Real.log_lt_sub_one_of_pos hpos h2) h
        linarith
      · rintro rfl
        rw [div_self h.ne', Real.log_one]
        ring

/-- Gibbs' inequality: among all distributions, the cross entropy with `t` is least for `t` itself. -/
theorem gibbs {Y : Type} [Fintype Y] (t q : Y → ℝ) (ht : ∀ y, 0 ≤ t y) (hq : ∀ y, 0 < q y) (hs : ∑ y, t y = ∑ y, q y) :
    ∑ y, t y * Real.log (q y) ≤ ∑ y, t y * Real.log (t y) ∧ (∑ y, t y * Real.log (q y) = ∑ y, t y * Real.log (t y) ↔ q = t) := by
  have h1 : ∑ y, (t y * Real.log (t y) + (q y - t y)) = ∑ y, t y * Real.log (t y) := by
    rw [Finset.sum_add_distrib, Finset.sum_sub_distrib, hs, sub_self, add_zero]
  rw [← h1]
  refine ⟨Finset.sum_le_sum fun y _ => (term (ht y) (hq y)).1, ?_⟩
  rw [Finset.sum_eq_sum_iff_of_le fun y _ => (term (ht y) (hq y)).1]
  constructor
  · intro h
    funext y
    exact (term (ht y) (hq y)).2.mp (h y (Finset.mem_univ y))
  · rintro rfl y _
    exact (term (ht y) (hq y)).2.mpr rfl

/-! ### C244 -/

/-- The expected loss of the discriminator for random minibatches of the policy's and the expert's transitions. -/
noncomputable def discLoss {n k : Nat} (pi : Minibatch X Ω n) (ex : Minibatch X Ω k) (d : X → ℝ) : ℝ :=
  ∑ ω, pi.P ω * gailDiscLoss (List.ofFn fun q => d (pi.rows ω q)) (List.ofFn fun q => d (ex.rows ω q))

theorem logSigmoid_add (x : ℝ) : logSigmoid x = -Real.log (1 + Real.exp (-x)) := by
  unfold logSigmoid
  rw [one_div, Real.log_inv]

theorem sigmoid_sum (x : ℝ) : 1 / (1 + Real.exp (-x)) + 1 / (1 + Real.exp x) = 1 := by
  have h1 : 0 < 1 + Real.exp x := by positivity
  have h2 : 0 < 1 + Real.exp (-x) := by positivity
  rw [div_add_div _ _ h2.ne' h1.ne', div_eq_one_iff_eq (by positivity)]
  have : Real.exp (-x) * Real.exp x = 1 := by rw [← Real.exp_add]; simp
  linarith

theorem discLoss_eq {n k : Nat} (pi : Minibatch X Ω n) (ex : Minibatch X Ω k) (hP : pi.P = ex.P) (d : X → ℝ) :
    discLoss pi ex d = ∑ x, (pi.share x * -logSigmoid (-d x) + ex.share x * -logSigmoid (d x)) := by
  unfold discLoss gailDiscLoss
  simp only [List.map_ofFn, mean_ofFn, mul_add, Finset.sum_add_distrib, Function.comp_def]
  rw [expect pi fun x => -logSigmoid (-d x)]
  conv_lhs => rw [hP]
  rw [expect ex fun x => -logSigmoid (d x)]

/-- One value of the discriminator. -/
theorem point {a b : ℝ} (ha : 0 < a) (hb : 0 < b) (d : ℝ) :
    a * -logSigmoid (-Real.log (b / a)) + b * -logSigmoid (Real.log (b / a)) ≤ a * -logSigmoid (-d) + b * -logSigmoid d ∧
      (a * -logSigmoid (-d) + b * -logSigmoid d = a * -logSigmoid (-Real.log (b / a)) + b * -logSigmoid (Real.log (b / a)) ↔ d = Real.log (b / a)) := by
  have hab : 0 < a + b := by linarith
  let t : Bool → ℝ := fun y => if y then b / (a + b) else a / (a + b)
  let q : ℝ → Bool → ℝ := fun d y => if y then 1 / (1 + Real.exp (-d)) else 1 / (1 + Real.exp d)
  have ht : ∀ y, 0 ≤ t y := fun y => by cases y <;> simp only [t] <;> positivity
  have hq : ∀ d y, 0 < q d y := fun d y => by cases y <;> simp only [q] <;> positivity
  have hs : ∀ d, ∑ y, t y = ∑ y, q d y := fun d => by
    have := sigmoid_sum d
    simp only [Fintype.sum_bool, t, q, if_true, Bool.false_eq_true, if_false]
    rw [this, ← add_div, add_comm b a, div_self hab.ne']
  have hg := fun d => gibbs t (q d) ht (hq d) (hs d)
  have hloss : ∀ d, a * -logSigmoid (-d) + b * -logSigmoid d = -(a + b) * ∑ y, t y * Real.log (q d y) := by
    intro d
    simp only [Fintype.sum_bool, t, q, if_true, Bool.false_eq_true, if_false, logSigmoid, neg_neg]
    field_simp
    ring
  have hstar : q (Real.log (b / a)) = t := by
    have h1 : Real.exp (-Real.log (b / a)) = a / b := by
      rw [← Real.log_inv, Real.exp_log (by positivity), inv_div]
    have h2 : Real.exp (Real.log (b / a)) = b / a := Real.exp_log (by positivity)
    funext y
    cases y
    · simp only [t, q, Bool.false_eq_true, if_false, h2]
      field_simp
    · simp only [t, q, if_true, h1]
      field_simp
      ring
  have hinj : ∀ d, q d = t ↔ d = Real.log (b / a) := by
    intro d
    constructor
    · intro h
      rw [← hstar] at h
      have h1 := congrFun h false
      simp only [q, Bool.false_eq_true, if_false] at h1
      have h2 : (1 + Real.exp d) = 1 + Real.exp (Real.log (b / a)) := by
        have := congrArg (fun z => 1 / z) h1
        simpa using this
      exact Real.exp_injective (by linarith)
    · rintro rfl
      exact hstar
  have hmax := (hg (Real.log (b / a))).2.mpr hstar
  rw [hloss, hloss, hmax]
  constructor
  · nlinarith [(hg d).1]
  · rw [mul_right_inj' (by linarith : -(a + b) ≠ 0), (hg d).2, hinj]

/-- **C244: the best discriminator.** Let the policy's and the expert's rows be random, and let both have the same observations and actions with positive share. The expected
loss is least if the discriminator outputs, for each of them, the logarithm of the ratio of the expert's share to the policy's; and only then. -/
theorem C244_disc {n k : Nat} (pi : Minibatch X Ω n) (ex : Minibatch X Ω k) (hP : pi.P = ex.P) (hsame : ∀ x, pi.share x = 0 ↔ ex.share x = 0)
    (d star : X → ℝ) (hstar : ∀ x, 0 < pi.share x → star x = Real.log (ex.share x / pi.share x)) :
    discLoss pi ex star ≤ discLoss pi ex d ∧
      (discLoss pi ex star = discLoss pi ex d ↔ ∀ x, 0 < pi.share x → d x = Real.log (ex.share x / pi.share x)) := by
  rw [discLoss_eq pi ex hP, discLoss_eq pi ex hP]
  have hx : ∀ x, pi.share x * -logSigmoid (-star x) + ex.share x * -logSigmoid (star x) ≤
        pi.share x * -logSigmoid (-d x) + ex.share x * -logSigmoid (d x) ∧
      (pi.share x * -logSigmoid (-star x) + ex.share x * -logSigmoid (star x) = pi.share x * -logSigmoid (-d x) + ex.share x * -logSigmoid (d x) ↔
        (0 < pi.share x → d x = Real.log (ex.share x / pi.share x))) := by
    intro x
    rcases (share_nonneg pi x).eq_or_lt with h | h
    · have h2 := (hsame x).mp h.symm
      rw [← h, h2]
      simp
    · have h2 : 0 < ex.share x := lt_of_le_of_ne (share_nonneg ex x) fun h2 => h.ne' ((hsame x).mpr h2.symm)
      rw [hstar x h]
      have := point h h2 (d x)
      exact ⟨this.1, by rw [eq_comm, this.2]; simp [h]⟩
  refine ⟨Finset.sum_le_sum fun x _ => (hx x).1, ?_⟩
  rw [Finset.sum_eq_sum_iff_of_le fun x _ => (hx x).1]
  exact ⟨fun h x => (hx x).2.mp (h x (Finset.mem_univ x)), fun h x _ => (hx x).2.mpr (h x)⟩

theorem logSigmoid_lt {x y : ℝ} (h : x < y) : logSigmoid x < logSigmoid y := by
  rw [logSigmoid_add, logSigmoid_add]
  refine neg_lt_neg (Real.log_lt_log (by positivity) ?_)
  have := Real.exp_lt_exp.mpr (neg_lt_neg h)
  linarith

/-- **C244: no best discriminator.** If the policy does what the expert never does (or the other way round), no discriminator minimises the expected loss. -/
theorem C244_none {n k : Nat} (pi : Minibatch X Ω n) (ex : Minibatch X Ω k) (hP : pi.P = ex.P) (x : X)
    (hx : (0 < pi.share x ∧ ex.share x = 0) ∨ (pi.share x = 0 ∧ 0 < ex.share x)) (d : X → ℝ) : ∃ d', discLoss pi ex d' < discLoss pi ex d := by
  classical
  rcases hx with ⟨h1, h2⟩ | ⟨h1, h2⟩
  · refine ⟨Function.update d x (d x - 1), ?_⟩
    rw [discLoss_eq pi ex hP, discLoss_eq pi ex hP]
    refine Finset.sum_lt_sum (fun y _ => ?_) ⟨x, Finset.mem_univ x, ?_⟩
    · by_cases hy : y = x
      · subst hy
        rw [Function.update_self, h2]
        have := logSigmoid_lt (show -d y < -(d y - 1) by linarith)
        nlinarith
      · rw [Function.update_of_ne hy]
    · rw [Function.update_self, h2]
      have := logSigmoid_lt (show -d x < -(d x - 1) by linarith)
      nlinarith
  · refine ⟨Function.update d x (d x + 1), ?_⟩
    rw [discLoss_eq pi ex hP, discLoss_eq pi ex hP]
    refine Finset.sum_lt_sum (fun y _ => ?_) ⟨x, Finset.mem_univ x, ?_⟩
    · by_cases hy : y = x
      · subst hy
        rw [Function.update_self, h1]
        have := logSigmoid_lt (show d y < d y + 1 by linarith)
        nlinarith
      · rw [Function.update_of_ne hy]
    · rw [Function.update_self, h1]
      have := logSigmoid_lt (show d x < d x + 1 by linarith)
      nlinarith

/-- **C244: the rewards.** With the best discriminator the reward is `log (1 + expert's share / policy's share)`; it is positive for every discriminator. -/
theorem C244_reward (a b d : ℝ) (ha : 0 < a) (hb : 0 < b) : gailReward (Real.log (b / a)) = Real.log (1 + b / a) ∧ 0 < gailReward d := by
  constructor
  · unfold gailReward
    rw [logSigmoid_add, neg_neg, neg_neg, Real.exp_log (by positivity)]
  · unfold gailReward
    rw [logSigmoid_add, neg_neg]
    exact Real.log_pos (by linarith [Real.exp_pos (- -d)])

/-- **C244: the imitator.** Against the best discriminator the expected reward of a step is at most `log 2`, and it is `log 2` only for a policy that visits every observation and action as
often as the expert. -/
theorem C244_imitator {n k : Nat} (hn : 0 < n) (hk : 0 < k) (pi : Minibatch X Ω n) (ex : Minibatch X Ω k) (hsame : ∀ x, pi.share x = 0 ↔ ex.share x = 0)
    (star : X → ℝ) (hstar : ∀ x, 0 < pi.share x → star x = Real.log (ex.share x / pi.share x)) :
    ∑ x, pi.share x * gailReward (star x) ≤ Real.log 2 ∧ (∑ x, pi.share x * gailReward (star x) = Real.log 2 ↔ pi.share = ex.share) := by
  have hx : ∀ x, pi.share x * gailReward (star x) - pi.share x * Real.log 2 ≤ (ex.share x - pi.share x) / 2 ∧
      (pi.share x * gailReward (star x) - pi.share x * Real.log 2 = (ex.share x - pi.share x) / 2 ↔ pi.share x = ex.share x) := by
    intro x
    rcases (share_nonneg pi x).eq_or_lt with h | h
    · have h2 := (hsame x).mp h.symm
      rw [← h, h2]
      simp
    · have h2 : 0 < ex.share x := lt_of_le_of_ne (share_nonneg ex x) fun h2 => h.ne' ((hsame x).mpr h2.symm)
      rw [hstar x h, (C244_reward _ _ 0 h h2).1]
      have h3 := term (t := pi.share x) (q := (pi.share x + ex.share x) / 2) h.le (by linarith)
      have h4 : Real.log ((pi.share x + ex.share x) / 2) = Real.log (1 + ex.share x / pi.share x) + Real.log (pi.share x) - Real.log 2 := by
        have : (pi.share x + ex.share x) / 2 = (1 + ex.share x / pi.share x) * pi.share x / 2 := by
          field_simp
        rw [this, Real.log_div (by positivity) two_ne_zero, Real.log_mul (by positivity) h.ne']
      rw [h4] at h3
      have h5 : (pi.share x + ex.share x) / 2 = pi.share x ↔ pi.share x = ex.share x := by
        constructor <;> intro h <;> linarith
      rw [h5] at h3
      constructor
      · linarith [h3.1]
      · rw [← h3.2]
        constructor <;> intro h <;> linarith
  have hs : ∑ x, (ex.share x - pi.share x) / 2 = 0 := by
    rw [← Finset.sum_div, Finset.sum_sub_distrib, share_sum hn, share_sum hk]
    norm_num
  have hl : ∑ x, (pi.share x * gailReward (star x) - pi.share x * Real.log 2) = ∑ x, pi.share x * gailReward (star x) - Real.log 2 := by
    rw [Finset.sum_sub_distrib, ← Finset.sum_mul, share_sum hn, one_mul]
  have hle := Finset.sum_le_sum fun x (_ : x ∈ Finset.univ) => (hx x).1
  rw [hl, hs] at hle
  refine ⟨by linarith, ?_⟩
  have heq := Finset.sum_eq_sum_iff_of_le fun x (_ : x ∈ Finset.univ) => (hx x).1
  rw [hl, hs, sub_eq_zero] at heq
  rw [heq]
  constructor
  · intro h
    funext x
    exact (hx x).2.mp (h x (Finset.mem_univ x))
  · intro h x _
    exact (hx x).2.mpr (congrFun h x)

/-! Two observations: the policy is in the first in one of four rows, the expert in three of four. -/

/-- One minibatch of four rows. -/
def policyRows : Minibatch Bool Unit 4 := ⟨fun _ => 1, fun _ q => q = 0, by simp, by simp⟩

/-- The expert's. -/
def expertRows : Minibatch Bool Unit 4 := ⟨fun _ => 1, fun _ q => q ≠ 3, by simp, by simp⟩

theorem policyRows_share : policyRows.share true = 1 / 4 ∧ policyRows.share false = 3 / 4 := by
  have h0 : policyRows.rows () 0 = true := rfl
  have h1 : policyRows.rows () 1 = false := rfl
  have h2 : policyRows.rows () 2 = false := rfl
  have h3 : policyRows.rows () 3 = false := rfl
  have hP : policyRows.P () = 1 := rfl
  constructor <;> norm_num [Minibatch.share, Fin.sum_univ_four, h0, h1, h2, h3, hP]

theorem expertRows_share : expertRows.share true = 3 / 4 ∧ expertRows.share false = 1 / 4 := by
  have h0 : expertRows.rows () 0 = true := rfl
  have h1 : expertRows.rows () 1 = true := rfl
  have h2 : expertRows.rows () 2 = true := rfl
  have h3 : expertRows.rows () 3 = false := rfl
  have hP : expertRows.P () = 1 := rfl
  constructor <;> norm_num [Minibatch.share, Fin.sum_univ_four, h0, h1, h2, h3, hP]

/-- The best discriminator outputs `log 3` for the first observation and `log (1 / 3)` for the second; the rewards are `log 4` and `log (4 / 3)`. -/
example (d : Bool → ℝ) : discLoss policyRows expertRows (fun x => if x then Real.log 3 else Real.log (1 / 3)) ≤ discLoss policyRows expertRows d ∧
    gailReward (Real.log 3) = Real.log 4 ∧ gailReward (Real.log (1 / 3)) = Real.log (4 / 3) := by
  obtain ⟨p1, p2⟩ := policyRows_share
  obtain ⟨e1, e2⟩ := expertRows_share
  refine ⟨(C244_disc policyRows expertRows rfl ?_ d _ ?_).1, ?_, ?_⟩
  · intro x
    cases x
    · rw [p2, e2]; norm_num
    · rw [p1, e1]; norm_num
  · intro x _
    cases x
    · rw [p2, e2]; norm_num
    · rw [p1, e1]; norm_num
  · have := (C244_reward 1 3 0 (by norm_num) (by norm_num)).1
    norm_num at this
    exact this
  · have := (C244_reward 3 1 0 (by norm_num) (by norm_num)).1
    norm_num at this ⊢
    exact this

/-! ### C245 -/

variable {S : Type} [Fintype S]

/-- The share of an observation among the rows. -/
noncomputable def observed {Y : Type} [Fintype Y] {n : Nat} (b : Minibatch (S × Y) Ω n) (s : S) : ℝ := ∑ y, b.share (s, y)

theorem share_observed {Y : Type} [Fintype Y] {n : Nat} (b : Minibatch (S × Y) Ω n) (s : S) (y : Y) : b.share (s, y) ≤ observed b s :=
  Finset.single_le_sum (f := fun y => b.share (s, y)) (fun y _ => share_nonneg b (s, y)) (Finset.mem_univ y)

/-- The expected loss of `ImitationPolicy` with discrete actions, for random minibatches of the expert's observations and actions. -/
noncomputable def nllLoss {A n : Nat} (b : Minibatch (S × Fin A) Ω n) (net : S → List ℝ) : ℝ :=
  ∑ ω, b.P ω * (nll (List.ofFn fun q => net (b.rows ω q).1) (List.ofFn fun q => ((b.rows ω q).2 : Nat))).getD 0

theorem nll_ofFn {A n : Nat} (rows : Fin n → S × Fin A) (net : S → List ℝ) (hnet : ∀ s, (net s).length = A) :
    nll (List.ofFn fun q => net (rows q).1) (List.ofFn fun q => ((rows q).2 : Nat)) =
      some ((∑ q, -Real.log (prob (net (rows q).1) (rows q).2)) / n) := by
  have h := (C187_likelihood (List.ofFn fun q => (net (rows q).1, ((rows q).2 : Nat))) (by
    intro r hr
    obtain ⟨q, rfl⟩ := (List.mem_ofFn' _ _).mp hr
    simp only [hnet]
    exact (rows q).2.isLt)).1
  simp only [List.map_ofFn, Function.comp_def, List.length_ofFn, List.prod_ofFn] at h
  rw [h, Real.log_prod (fun q _ => ?_), Finset.sum_neg_distrib]
  have hlt : ((rows q).2 : Nat) < (net (rows q).1).length := by rw [hnet]; exact (rows q).2.isLt
  exact ((C187_prob _ (by intro h0; simp [h0] at hlt)).1 _ hlt).1.ne'

theorem nllLoss_eq {A n : Nat} (b : Minibatch (S × Fin A) Ω n) (net : S → List ℝ) (hnet : ∀ s, (net s).length = A) :
    nllLoss b net = -∑ s, ∑ a, b.share (s, a) * Real.log (prob (net s) a) := by
  unfold nllLoss
  simp only [nll_ofFn _ net hnet, Option.getD_some]
  rw [expect b fun x => -Real.log (prob (net x.1) x.2), Fintype.sum_prod_type]
  simp only [mul_neg, Finset.sum_neg_distrib]

theorem prob_sum {A : Nat} (row : List ℝ) (hrow : row.length = A) (hA : 0 < A) : (∀ a : Fin A, 0 < prob row a) ∧ ∑ a : Fin A, prob row a = 1 := by
  subst hrow
  have h := C187_prob row (List.length_pos_iff.mp hA)
  refine ⟨fun a => (h.1 a a.isLt).1, ?_⟩
  rw [← h.2, ← Finset.sum_range]
  rfl

/-- **C245: discrete actions.** The expected loss of imitation is never less than the mean uncertainty about the expert's action, and it is that small if and only if the policy's probabilities,
in every observation in the data, are the expert's. -/
theorem C245_discrete {A n : Nat} (hA : 0 < A) (b : Minibatch (S × Fin A) Ω n) (net : S → List ℝ) (hnet : ∀ s, (net s).length = A) :
    -∑ s, ∑ a, b.share (s, a) * Real.log (b.share (s, a) / observed b s) ≤ nllLoss b net ∧
      (nllLoss b net = -∑ s, ∑ a, b.share (s, a) * Real.log (b.share (s, a) / observed b s) ↔
        ∀ s, 0 < observed b s → ∀ a : Fin A, prob (net s) a = b.share (s, a) / observed b s) := by
  rw [nllLoss_eq b net hnet, neg_le_neg_iff, neg_inj]
  have hx : ∀ s, ∑ a, b.share (s, a) * Real.log (prob (net s) a) ≤ ∑ a, b.share (s, a) * Real.log (b.share (s, a) / observed b s) ∧
      (∑ a, b.share (s, a) * Real.log (prob (net s) a) = ∑ a, b.share (s, a) * Real.log (b.share (s, a) / observed b s) ↔
        (0 < observed b s → ∀ a : Fin A, prob (net s) a = b.share (s, a) / observed b s)) := by
    intro s
    have h0 : 0 ≤ observed b s := Finset.sum_nonneg fun a _ => share_nonneg b (s, a)
    rcases h0.eq_or_lt with h | h
    · have hz : ∀ a, b.share (s, a) = 0 := fun a => le_antisymm (by rw [h]; exact share_observed b s a) (share_nonneg b (s, a))
      simp [hz, ← h]
    · obtain ⟨hp, hp1⟩ := prob_sum (net s) (hnet s) hA
      have hg := gibbs (fun a => b.share (s, a) / observed b s) (fun a : Fin A => prob (net s) a) (fun a => div_nonneg (share_nonneg b (s, a)) h.le) hp
        (by rw [hp1, ← Finset.sum_div]; exact div_self h.ne')
      have hm : ∀ f : Fin A → ℝ, ∑ a, b.share (s, a) * f a = observed b s * ∑ a, b.share (s, a) / observed b s * f a := by
        intro f
        rw [Finset.mul_sum]
        refine Finset.sum_congr rfl fun a _ => ?_
        field_simp
      rw [hm, hm]
      refine ⟨mul_le_mul_of_nonneg_left hg.1 h.le, ?_⟩
      rw [mul_right_inj' h.ne', hg.2, funext_iff]
      simp [h]
  refine ⟨Finset.sum_le_sum fun s _ => (hx s).1, ?_⟩
  rw [Finset.sum_eq_sum_iff_of_le fun s _ => (hx s).1]
  exact ⟨fun h s => (hx s).2.mp (h s (Finset.mem_univ s)), fun h s _ => (hx s).2.mpr (h s)⟩

/-- **C245: reached.** If the expert takes every action in every observation in the data, there are logits for which the policy's probabilities are the expert's. -/
theorem C245_exists {A n : Nat} (b : Minibatch (S × Fin A) Ω n) (hall : ∀ s, 0 < observed b s → ∀ a, 0 < b.share (s, a)) :
    ∃ net : S → List ℝ, (∀ s, (net s).length = A) ∧ ∀ s, 0 < observed b s → ∀ a : Fin A, prob (net s) a = b.share (s, a) / observed b s := by
  refine ⟨fun s => List.ofFn fun a => Real.log (b.share (s, a)), fun s => List.length_ofFn, fun s hs a => ?_⟩
  unfold prob
  have h1 : (List.ofFn fun a => Real.log (b.share (s, a))).getD a 0 = Real.log (b.share (s, a)) := by
    rw [List.getD_eq_getElem?_getD, List.getElem?_ofFn]
    simp
  rw [h1, Real.exp_log (hall s hs a), List.map_ofFn, List.sum_ofFn]
  congr 1
  exact Finset.sum_congr rfl fun a _ => Real.exp_log (hall s hs a)

/-- **C245: actions.** A policy with the least loss takes, in each observation in the data, an action that the expert takes most often. -/
theorem C245_act {A n : Nat} (hA : 0 < A) (b : Minibatch (S × Fin A) Ω n) (net : S → List ℝ) (hnet : ∀ s, (net s).length = A)
    (hall : ∀ s, 0 < observed b s → ∀ a, 0 < b.share (s, a))
    (hmin : ∀ net' : S → List ℝ, (∀ s, (net' s).length = A) → nllLoss b net ≤ nllLoss b net') (s : S) (hs : 0 < observed b s) :
    ∃ a : Fin A, imitationAct [net s] = [(a : Nat)] ∧ ∀ a', b.share (s, a') ≤ b.share (s, a) := by
  obtain ⟨net', hl, hp⟩ := C245_exists b hall
  have h1 := (C245_discrete hA b net' hl).2.mpr hp
  have h2 := C245_discrete hA b net hnet
  have h3 := h2.2.mp (le_antisymm (h1 ▸ hmin net' hl) h2.1) s hs
  have hne : net s ≠ [] := by
    intro h
    have := hnet s
    rw [h] at this
    simp at this
    omega
  obtain ⟨q, hq, hmax, _⟩ := Policy.argmax_spec (net s) hne
  have hlt : Policy.argmax (net s) < A := by
    rw [← hnet s]
    exact (List.getElem?_eq_some_iff.mp hq).1
  refine ⟨⟨_, hlt⟩, rfl, fun a' => ?_⟩
  have ha' : (a' : Nat) < (net s).length := by rw [hnet]; exact a'.isLt
  have hle : (net s).getD a' 0 ≤ (net s).getD (Policy.argmax (net s)) 0 := by
    rw [List.getD_eq_getElem?_getD, List.getD_eq_getElem?_getD, hq, List.getElem?_eq_getElem ha']
    exact hmax a' _ (List.getElem?_eq_getElem ha')
  have h4 : prob (net s) a' ≤ prob (net s) (Policy.argmax (net s)) := by
    unfold prob
    refine div_le_div_of_nonneg_right (Real.exp_le_exp.mpr hle) (List.sum_nonneg fun x hx => ?_)
    obtain ⟨y, _, rfl⟩ := List.mem_map.mp hx
    exact (Real.exp_pos y).le
  have h5 := h3 ⟨_, hlt⟩
  simp only at h5
  rw [h3 a', h5, div_le_div_iff_of_pos_right hs] at h4
  exact h4

/-- The expected loss of `ImitationPolicy` with continuous actions: the expert takes the actions `vec y`. -/
noncomputable def mseLoss {Y : Type} [Fintype Y] {dim n : Nat} (vec : Y → Fin dim → ℝ) (b : Minibatch (S × Y) Ω n) (net : S → Fin dim → ℝ) : ℝ :=
  ∑ ω, b.P ω * mse (List.ofFn fun q => List.ofFn (net (b.rows ω q).1)) (List.ofFn fun q => List.ofFn (vec (b.rows ω q).2))

theorem mse_ofFn {dim n : Nat} (p t : Fin n → Fin dim → ℝ) :
    mse (List.ofFn fun q => List.ofFn (p q)) (List.ofFn fun q => List.ofFn (t q)) = (∑ q, (∑ j, (p q j - t q j) ^ 2) / dim) / n := by
  unfold mse
  rw [zipWith_ofFn]
  simp only [zipWith_ofFn]
  unfold Ppo.mean
  rw [List.sum_flatten, List.length_flatten, List.map_ofFn, List.map_ofFn, List.sum_ofFn]
  simp only [Function.comp_def, List.length_ofFn, List.sum_ofFn, Finset.sum_const, Finset.card_univ, Fintype.card_fin, smul_eq_mul, Nat.cast_mul]
  rw [← Finset.sum_div, div_div, mul_comm (dim : ℝ)]

/-- The expert's mean action in an observation. -/
noncomputable def meanAct {Y : Type} [Fintype Y] {dim n : Nat} (vec : Y → Fin dim → ℝ) (b : Minibatch (S × Y) Ω n) (s : S) (j : Fin dim) : ℝ :=
  (∑ y, b.share (s, y) * vec y j) / observed b s

theorem variance {Y : Type} [Fintype Y] (w v : Y → ℝ) (m f W : ℝ) (hw : ∑ y, w y = W) (hm : ∑ y, w y * v y = W * m) :
    ∑ y, w y * (f - v y) ^ 2 = ∑ y, w y * (m - v y) ^ 2 + W * (f - m) ^ 2 := by
  have h : ∀ y, w y * (f - v y) ^ 2 = w y * (m - v y) ^ 2 + (w y * (f ^ 2 - m ^ 2) - (w y * v y) * (2 * (f - m))) := fun y => by ring
  simp only [h, Finset.sum_add_distrib, Finset.sum_sub_distrib, ← Finset.sum_mul, hw, hm]
  ring

/-- **C245: continuous actions.** The expected loss of imitation is least if and only if the policy's action, in every observation in the data, is the mean of the expert's actions there. -/
theorem C245_continuous {Y : Type} [Fintype Y] {dim n : Nat} (vec : Y → Fin dim → ℝ) (b : Minibatch (S × Y) Ω n) (net : S → Fin dim → ℝ) :
    mseLoss vec b (meanAct vec b) ≤ mseLoss vec b net ∧
      (mseLoss vec b net = mseLoss vec b (meanAct vec b) ↔ ∀ s, 0 < observed b s → net s = meanAct vec b s) := by
  have he : ∀ f : S → Fin dim → ℝ, mseLoss vec b f = ∑ s, ∑ j, (∑ y, b.share (s, y) * (f s j - vec y j) ^ 2) / dim := by
    intro f
    unfold mseLoss
    simp only [mse_ofFn]
    rw [expect b fun x => (∑ j, (f x.1 j - vec x.2 j) ^ 2) / dim, Fintype.sum_prod_type]
    refine Finset.sum_congr rfl fun s _ => ?_
    rw [← Finset.sum_div, Finset.sum_comm]
    simp only [← Finset.mul_sum, Finset.sum_div, mul_div_assoc]
  have h0 : ∀ s, 0 ≤ observed b s := fun s => Finset.sum_nonneg fun a _ => share_nonneg b (s, a)
  have hv : ∀ s j, ∑ y, b.share (s, y) * (net s j - vec y j) ^ 2 =
      ∑ y, b.share (s, y) * (meanAct vec b s j - vec y j) ^ 2 + observed b s * (net s j - meanAct vec b s j) ^ 2 := by
    intro s j
    refine variance _ _ _ _ _ rfl ?_
    unfold meanAct
    rcases (h0 s).eq_or_lt with h | h
    · rw [← h, zero_mul]
      refine Finset.sum_eq_zero fun y _ => ?_
      rw [le_antisymm (by rw [h]; exact share_observed b s y) (share_nonneg b (s, y)), zero_mul]
    · rw [mul_div_cancel₀ _ h.ne']
  have hx : ∀ s j, (∑ y, b.share (s, y) * (meanAct vec b s j - vec y j) ^ 2) / dim ≤ (∑ y, b.share (s, y) * (net s j - vec y j) ^ 2) / dim := by
    intro s j
    rw [hv]
    have := h0 s
    gcongr
    have : 0 ≤ observed b s * (net s j - meanAct vec b s j) ^ 2 := by positivity
    linarith
  rw [he, he]
  refine ⟨Finset.sum_le_sum fun s _ => Finset.sum_le_sum fun j _ => hx s j, ?_⟩
  rw [eq_comm, Finset.sum_eq_sum_iff_of_le fun s _ => Finset.sum_le_sum fun j _ => hx s j]
  refine forall_congr' fun s => ?_
  simp only [Finset.mem_univ, forall_const]
  rw [Finset.sum_eq_sum_iff_of_le fun j _ => hx s j]
  simp only [Finset.mem_univ, forall_const]
  rcases (h0 s).eq_or_lt with h | h
  · simp only [← h, lt_irrefl, false_imp_iff, iff_true]
    intro j
    rw [hv s j, ← h, zero_mul, add_zero]
  · simp only [h, forall_const, funext_iff]
    refine forall_congr' fun j => ?_
    have hd : (dim : ℝ) ≠ 0 := by exact_mod_cast (Fin.pos j).ne'
    rw [div_left_inj' hd, hv s j]
    constructor
    · intro he
      have : observed b s * (net s j - meanAct vec b s j) ^ 2 = 0 := by linarith
      have := (mul_eq_zero.mp this).resolve_left h.ne'
      have := pow_eq_zero_iff (two_ne_zero) |>.mp this
      linarith
    · intro he
      rw [he]
      ring

/-- An expert with one observation, taking the first action in one of four rows. -/
def choices : Minibatch (Unit × Fin 2) Unit 4 := ⟨fun _ => 1, fun _ q => ((), if q = 0 then 0 else 1), by simp, by simp⟩

theorem choices_share : choices.share ((), 0) = 1 / 4 ∧ choices.share ((), 1) = 3 / 4 ∧ observed choices () = 1 := by
  have r0 : choices.rows () 0 = ((), 0) := rfl
  have r1 : choices.rows () 1 = ((), 1) := rfl
  have r2 : choices.rows () 2 = ((), 1) := rfl
  have r3 : choices.rows () 3 = ((), 1) := rfl
  have hP : choices.P () = 1 := rfl
  have h0 : choices.share ((), 0) = 1 / 4 := by norm_num [Minibatch.share, Fin.sum_univ_four, r0, r1, r2, r3, hP]
  have h1 : choices.share ((), 1) = 3 / 4 := by norm_num [Minibatch.share, Fin.sum_univ_four, r0, r1, r2, r3, hP]
  refine ⟨h0, h1, ?_⟩
  rw [observed, Fin.sum_univ_two, h0, h1]
  norm_num

/-- A policy with the least loss takes the second action. With actions that are numbers, 0 and 8, it would take 6. -/
example (net : Unit → List ℝ) (hnet : ∀ s, (net s).length = 2)
    (hmin : ∀ net' : Unit → List ℝ, (∀ s, (net' s).length = 2) → nllLoss choices net ≤ nllLoss choices net') :
    imitationAct [net ()] = [1] ∧ meanAct (fun (y : Fin 2) (_ : Fin 1) => (8 : ℝ) * (y : ℕ)) choices () 0 = 6 := by
  obtain ⟨h0, h1, h2⟩ := choices_share
  constructor
  · obtain ⟨a, ha, hmax⟩ := C245_act (by norm_num) choices net hnet (fun s _ a => by
      fin_cases a
      · exact h0 ▸ (by norm_num)
      · exact h1 ▸ (by norm_num)) hmin () (by rw [h2]; norm_num)
    rw [ha]
    fin_cases a
    · have := hmax 1
      rw [show (((), ⟨0, by norm_num⟩) : Unit × Fin 2) = ((), 0) from rfl, h0, h1] at this
      norm_num at this
    · rfl
  · rw [meanAct, h2, Fin.sum_univ_two, h0, h1]
    norm_num

end Verif.Fitting
