import Verif.Props.CrrGrad
import Mathlib.Analysis.SpecialFunctions.Log.Deriv
import Mathlib.Algebra.Order.BigOperators.Ring.Finset
import Mathlib.Algebra.BigOperators.Field
import Mathlib.Tactic.FieldSimp

/-!
C259: what the conservative term of discrete CRR does to the critic.
-/

namespace Verif.Offline

open Verif.Ppo

/-! ### Specification -/

section spec
variable {S : Type} {n : Nat}

/-- A transition of a dataset: the state, the action, and the rest of the row (reward, end, outputs of the target networks for the next
observation; outputs of the actor). -/
abbrev Logged (S : Type) (n : Nat) := S × Fin n × CrrRow ℝ

/-- The row of the batch for a critic with the table `Q`. -/
def Logged.row (Q : S → Fin n → ℝ) (x : Logged S n) : CrrRow ℝ := { x.2.2 with q := List.ofFn (Q x.1), act := x.2.1 }

/-- The target of a transition: the reward, plus, unless the episode ends, the discounted mean value under the policy. -/
noncomputable def Logged.target (gamma : ℝ) (x : Logged S n) : ℝ :=
  x.2.2.rew + gamma * if x.2.2.terminated || x.2.2.truncated then 0 else (List.zipWith (· * ·) x.2.2.qNext x.2.2.probsNext).sum

/-- Probabilities in proportion to the exponentials of values. -/
noncomputable def boltzmann (q : Fin n → ℝ) (a : Fin n) : ℝ := Real.exp (q a) / ∑ b, Real.exp (q b)

variable [DecidableEq S]

/-- How often the action `a` occurs in state `s`. -/
def count (data : List (Logged S n)) (s : S) (a : Fin n) : Nat := (data.filter fun x => x.1 = s ∧ x.2.1 = a).length

/-- How often the state `s` occurs. -/
def visits (data : List (Logged S n)) (s : S) : Nat := (data.filter fun x => x.1 = s).length

/-- The frequency of `a` among the actions in state `s`. -/
noncomputable def freq (data : List (Logged S n)) (s : S) (a : Fin n) : ℝ := (count data s a : ℝ) / visits data s

/-- The mean of the targets of `a` in state `s`. -/
noncomputable def meanTarget (gamma : ℝ) (data : List (Logged S n)) (s : S) (a : Fin n) : ℝ :=
  ((data.filter fun x => x.1 = s ∧ x.2.1 = a).map (Logged.target gamma)).sum / count data s a

/-- The chi-squared divergence of two distributions on the actions. -/
noncomputable def chiSq (p b : Fin n → ℝ) : ℝ := ∑ a, (p a - b a) ^ 2 / b a

/-- All derivatives of the loss of CRR on the dataset by entries of the table vanish: gradient descent stays where it is. -/
def Settled (mode : CrrMode) (beta bound gamma w : ℝ) (data : List (Logged S n)) (Q : S → Fin n → ℝ) : Prop :=
  ∀ D : S → Fin n → ℝ,
    HasDerivAt (fun t => crrLoss Real.exp lse mode beta bound gamma w (data.map (Logged.row fun s a => Q s a + t * D s a))) 0 0

end spec

/-! ### The derivatives -/

variable {S : Type} {n : Nat}

theorem row_moved (Q D : S → Fin n → ℝ) (t : ℝ) (x : Logged S n) :
    moved t (x.row Q, List.ofFn (D x.1)) = x.row fun s a => Q s a + t * D s a := by
  simp only [moved, Logged.row]
  congr 1
  apply List.ext_getElem (by simp)
  intro i h1 h2
  simp

theorem getD_ofFn (f : Fin n → ℝ) (a : Fin n) : (List.ofFn f).getD a 0 = f a := by
  simp [List.getD]

theorem row_fits (Q D : S → Fin n → ℝ) (x : Logged S n) : Fits (x.row Q, List.ofFn (D x.1)) :=
  ⟨by simp [Logged.row], by simp [Logged.row]⟩

theorem lse_ofFn (f : Fin n → ℝ) : lse (List.ofFn f) = Real.log (∑ a, Real.exp (f a)) := by
  rw [lse, List.map_ofFn, List.sum_ofFn]
  rfl

theorem lse_rate (q d : Fin n → ℝ) (a : Fin n) :
    HasDerivAt (fun t : ℝ => Real.log (∑ b, Real.exp (q b + t * d b))) (∑ b, boltzmann q b * d b) 0 := by
  have h1 : ∀ b, HasDerivAt (fun t : ℝ => Real.exp (q b + t * d b)) (Real.exp (q b) * d b) 0 := by
    intro b
    have h : HasDerivAt (fun t : ℝ => q b + t * d b) (d b) 0 := by
      simpa using ((hasDerivAt_id (0 : ℝ)).mul_const (d b)).const_add (q b)
    exact h.exp.congr_deriv (by simp)
  have hs := HasDerivAt.fun_sum (u := Finset.univ) fun b _ => h1 b
  have hpos : (∑ b, Real.exp (q b + 0 * d b)) ≠ 0 :=
    (Finset.sum_pos (fun b _ => Real.exp_pos _) ⟨a, Finset.mem_univ a⟩).ne'
  refine (hs.log hpos).congr_deriv ?_
  simp only [zero_mul, add_zero, boltzmann, Finset.sum_div]
  exact Finset.sum_congr rfl fun b _ => by ring

/-- The derivative of the loss in the direction `D`. -/
theorem loss_rate (mode : CrrMode) (hm : mode ≠ .exp) (beta bound gamma w : ℝ) (data : List (Logged S n)) (hne : data ≠ [])
    (Q D : S → Fin n → ℝ) (hs : ∀ x ∈ data, mode = .binary → (x.row Q).advantage ≠ 0) :
    HasDerivAt (fun t => crrLoss Real.exp lse mode beta bound gamma w (data.map (Logged.row fun s a => Q s a + t * D s a)))
      ((data.map fun x => (Q x.1 x.2.1 - x.target gamma) * D x.1 x.2.1 +
        w * ((∑ b, boltzmann (Q x.1) b * D x.1 b) - D x.1 x.2.1)).sum / data.length) 0 := by
  have hA : HasDerivAt (fun t => crrActorLoss Real.exp mode beta bound (data.map (Logged.row fun s a => Q s a + t * D s a))) 0 0 := by
    have h := C258_apart_partial mode hm beta bound (data.map fun x => (x.row Q, List.ofFn (D x.1))) (by simpa using hne)
      (by
        intro y hy
        obtain ⟨x, _, rfl⟩ := List.mem_map.1 hy
        exact row_fits Q D x)
      (by
        intro y hy
        obtain ⟨x, hx, rfl⟩ := List.mem_map.1 hy
        exact hs x hx)
    simp only [List.map_map] at h
    have e : ∀ t : ℝ, (moved t ∘ fun x : Logged S n => (x.row Q, List.ofFn (D x.1))) = Logged.row fun s a => Q s a + t * D s a := by
      intro t
      funext x
      exact row_moved Q D t x
    simpa only [e] using h
  have hone : ∀ x : Logged S n, HasDerivAt (fun t : ℝ => 1 / 2 * (Q x.1 x.2.1 + t * D x.1 x.2.1 - x.target gamma) ^ 2 +
      w * (Real.log (∑ b, Real.exp (Q x.1 b + t * D x.1 b)) - (Q x.1 x.2.1 + t * D x.1 x.2.1)))
      ((Q x.1 x.2.1 - x.target gamma) * D x.1 x.2.1 + w * ((∑ b, boltzmann (Q x.1) b * D x.1 b) - D x.1 x.2.1)) 0 := by
    intro x
    have hl : HasDerivAt (fun t : ℝ => Q x.1 x.2.1 + t * D x.1 x.2.1) (D x.1 x.2.1) 0 := by
      simpa using ((hasDerivAt_id (0 : ℝ)).mul_const (D x.1 x.2.1)).const_add (Q x.1 x.2.1)
    have h2 := ((hl.sub_const (x.target gamma)).pow 2).const_mul (1 / 2 : ℝ)
    have h3 := ((lse_rate (Q x.1) (D x.1) x.2.1).sub hl).const_mul w
    refine (h2.add h3).congr_deriv ?_
    simp only [zero_mul, add_zero, Nat.cast_ofNat, Nat.add_one_sub_one, pow_one]
    ring
  have hB := (sum_deriv _ _ data fun x _ => hone x).div_const (data.length : ℝ)
  refine ((hA.add hB).congr_deriv (zero_add _)).congr_of_eventuallyEq (Filter.Eventually.of_forall fun t => ?_)
  show crrLoss Real.exp lse mode beta bound gamma w (data.map (Logged.row fun s a => Q s a + t * D s a)) = crrActorLoss Real.exp mode beta bound (data.map (Logged.row fun s a => Q s a + t * D s a)) +
    (data.map fun x => 1 / 2 * (Q x.1 x.2.1 + t * D x.1 x.2.1 - x.target gamma) ^ 2 +
      w * (Real.log (∑ b, Real.exp (Q x.1 b + t * D x.1 b)) - (Q x.1 x.2.1 + t * D x.1 x.2.1))).sum / (data.length : ℝ)
  rw [C114_loss, crrCriticLoss, mean, mean, List.map_map, List.map_map, List.length_map, List.length_map, add_assoc]
  congr 1
  rw [← mul_div_assoc, ← mul_div_assoc, ← add_div]
  congr 1
  rw [← List.sum_map_mul_left, ← List.sum_map_mul_left, ← List.sum_map_add]
  congr 1
  apply List.map_congr_left
  intro x _
  simp only [Function.comp, Logged.row, CrrRow.qa, crrTarget, Logged.target, dot, getD_ofFn, lse_ofFn]
  rfl

variable [DecidableEq S]

omit [DecidableEq S] in
theorem sum_ite_filter (p : Logged S n → Prop) [DecidablePred p] (f : Logged S n → ℝ) (data : List (Logged S n)) :
    (data.map fun x => if p x then f x else 0).sum = ((data.filter fun x => p x).map f).sum := by
  induction data with
  | nil => simp
  | cons x l ih =>
    by_cases h : p x
    · simp [h, ih]
    · simp [h, ih]

theorem count_sum (data : List (Logged S n)) (s : S) : ∑ a, (count data s a : ℝ) = visits data s := by
  induction data with
  | nil => simp [count, visits]
  | cons x l ih =>
    have e : ∀ a, (count (x :: l) s a : ℝ) = (if x.1 = s ∧ x.2.1 = a then 1 else 0) + count l s a := by
      intro a
      by_cases h : x.1 = s ∧ x.2.1 = a
      · simp [count, List.filter_cons, h]; ring
      · simp [count, List.filter_cons, h]
    simp only [e, Finset.sum_add_distrib, ih]
    by_cases h : x.1 = s
    · simp [visits, List.filter_cons, h]; ring
    · simp [visits, List.filter_cons, h]

/-- What a vanishing derivative by the entry of `s` and `a` says. -/
theorem entry (mode : CrrMode) (hm : mode ≠ .exp) (beta bound gamma w : ℝ) (data : List (Logged S n)) (Q : S → Fin n → ℝ)
    (hs : ∀ x ∈ data, mode = .binary → (x.row Q).advantage ≠ 0) (h : Settled mode beta bound gamma w data Q) (hne : data ≠ []) (s : S)
    (a : Fin n) :
    count data s a * Q s a - ((data.filter fun x => x.1 = s ∧ x.2.1 = a).map (Logged.target gamma)).sum +
      w * (visits data s * boltzmann (Q s) a - count data s a) = 0 := by
  have hr := (loss_rate mode hm beta bound gamma w data hne Q (fun s' b => if s' = s ∧ b = a then 1 else 0) hs).unique (h _)
  have hl : (data.length : ℝ) ≠ 0 := by
    rw [Nat.cast_ne_zero]; intro h'; exact hne (List.length_eq_zero_iff.1 h')
  rw [div_eq_zero_iff, or_iff_left hl] at hr
  have e : ∀ x : Logged S n, (Q x.1 x.2.1 - x.target gamma) * (if x.1 = s ∧ x.2.1 = a then (1 : ℝ) else 0) +
      w * ((∑ b, boltzmann (Q x.1) b * if x.1 = s ∧ b = a then (1 : ℝ) else 0) - if x.1 = s ∧ x.2.1 = a then (1 : ℝ) else 0) =
      (if x.1 = s ∧ x.2.1 = a then Q s a - x.target gamma - w else 0) + (if x.1 = s then w * boltzmann (Q s) a else 0) := by
    intro x
    by_cases h1 : x.1 = s
    · have : (∑ b, boltzmann (Q x.1) b * if x.1 = s ∧ b = a then (1 : ℝ) else 0) = boltzmann (Q s) a := by
        rw [Finset.sum_eq_single a]
        · simp [h1]
        · intro b _ hb; simp [hb]
        · intro h; exact absurd (Finset.mem_univ _) h
      rw [this]
      by_cases h2 : x.2.1 = a
      · simp [h1, h2]; ring
      · simp [h1, h2]
    · simp [h1]
  simp only [e] at hr
  rw [List.sum_map_add, sum_ite_filter (fun x => x.1 = s ∧ x.2.1 = a), sum_ite_filter (fun x => x.1 = s)] at hr
  have e1 : ∀ l : List (Logged S n), (l.map fun x => Q s a - x.target gamma - w).sum =
      l.length * Q s a - (l.map (Logged.target gamma)).sum - w * l.length := by
    intro l
    induction l with
    | nil => simp
    | cons x l ih => simp only [List.map_cons, List.sum_cons, ih, List.length_cons, Nat.cast_succ]; ring
  rw [e1] at hr
  simp only [List.map_const', List.sum_replicate, nsmul_eq_mul] at hr
  simp only [count, visits]
  linear_combination hr

theorem boltzmann_pos (q : Fin n → ℝ) (a : Fin n) : 0 < boltzmann q a :=
  div_pos (Real.exp_pos _) (Finset.sum_pos (fun b _ => Real.exp_pos _) ⟨a, Finset.mem_univ a⟩)

theorem boltzmann_sum (q : Fin n → ℝ) (a : Fin n) : ∑ b, boltzmann q b = 1 := by
  simp only [boltzmann, ← Finset.sum_div]
  exact div_self (Finset.sum_pos (fun b _ => Real.exp_pos _) ⟨a, Finset.mem_univ a⟩).ne'

/-! ### C259 -/

/-- C259, each entry: where the loss of discrete CRR (modes "binary" and "all") has settled on a dataset, the value of every logged action is the
mean of its targets, minus `min_q_weight` times the relative excess of its Boltzmann probability over its frequency in the data. -/
theorem C259_entry (mode : CrrMode) (hm : mode ≠ .exp) (beta bound gamma w : ℝ) (data : List (Logged S n)) (Q : S → Fin n → ℝ)
    (hs : ∀ x ∈ data, mode = .binary → (x.row Q).advantage ≠ 0) (h : Settled mode beta bound gamma w data Q) (s : S) (a : Fin n)
    (ha : ∃ x ∈ data, x.1 = s ∧ x.2.1 = a) :
    Q s a = meanTarget gamma data s a - w * ((boltzmann (Q s) a - freq data s a) / freq data s a) := by
  obtain ⟨x, hx, hxs, hxa⟩ := ha
  have hne : data ≠ [] := List.ne_nil_of_mem hx
  have hc : 0 < count data s a := List.length_pos_of_mem (List.mem_filter.2 ⟨hx, by simp [hxs, hxa]⟩)
  have hv : 0 < visits data s := List.length_pos_of_mem (List.mem_filter.2 ⟨hx, by simp [hxs]⟩)
  have hc' : (count data s a : ℝ) ≠ 0 := by exact_mod_cast hc.ne'
  have hv' : (visits data s : ℝ) ≠ 0 := by exact_mod_cast hv.ne'
  have he := entry mode hm beta bound gamma w data Q hs h hne s a
  rw [meanTarget, freq]
  field_simp
  linear_combination he

/-- C259: in a state where every action was logged, the values of the critic fall short of the mean targets, on average under the Boltzmann
policy of the critic, by `min_q_weight` times the chi-squared divergence of that policy from the frequencies in the data. -/
theorem C259_shortfall (mode : CrrMode) (hm : mode ≠ .exp) (beta bound gamma w : ℝ) (data : List (Logged S n)) (Q : S → Fin n → ℝ)
    (hs : ∀ x ∈ data, mode = .binary → (x.row Q).advantage ≠ 0) (h : Settled mode beta bound gamma w data Q) (s : S)
    (hall : ∀ a, ∃ x ∈ data, x.1 = s ∧ x.2.1 = a) :
    ∑ a, boltzmann (Q s) a * Q s a =
      ∑ a, boltzmann (Q s) a * meanTarget gamma data s a - w * chiSq (boltzmann (Q s)) (freq data s) := by
  have hfreq : ∀ a, freq data s a ≠ 0 ∧ (visits data s : ℝ) ≠ 0 := by
    intro a
    obtain ⟨x, hx, hxs, hxa⟩ := hall a
    have hc : 0 < count data s a := List.length_pos_of_mem (List.mem_filter.2 ⟨hx, by simp [hxs, hxa]⟩)
    have hv : 0 < visits data s := List.length_pos_of_mem (List.mem_filter.2 ⟨hx, by simp [hxs]⟩)
    exact ⟨div_ne_zero (by exact_mod_cast hc.ne') (by exact_mod_cast hv.ne'), by exact_mod_cast hv.ne'⟩
  have hsum : (∑ a, boltzmann (Q s) a) = ∑ a, freq data s a := by
    by_cases hn : Nonempty (Fin n)
    · obtain ⟨a⟩ := hn
      rw [boltzmann_sum (Q s) a]
      simp only [freq, ← Finset.sum_div]
      rw [count_sum, div_self (hfreq a).2]
    · have : IsEmpty (Fin n) := not_nonempty_iff.1 hn
      simp
  have e1 : ∀ a, boltzmann (Q s) a * Q s a = boltzmann (Q s) a * meanTarget gamma data s a -
      w * ((boltzmann (Q s) a - freq data s a) ^ 2 / freq data s a + (boltzmann (Q s) a - freq data s a)) := by
    intro a
    have he := C259_entry mode hm beta bound gamma w data Q hs h s a (hall a)
    have hf := (hfreq a).1
    have : boltzmann (Q s) a * Q s a = boltzmann (Q s) a *
        (meanTarget gamma data s a - w * ((boltzmann (Q s) a - freq data s a) / freq data s a)) := congrArg _ he
    rw [this]
    field_simp
    ring
  rw [Finset.sum_congr rfl fun a _ => e1 a, Finset.sum_sub_distrib, ← Finset.mul_sum, Finset.sum_add_distrib, Finset.sum_sub_distrib, hsum,
    sub_self, add_zero, chiSq]

/-- C259, the direction: with a `min_q_weight` of at least zero the critic is never too optimistic about its own Boltzmann policy; with a
positive one it is exact only if this policy has the frequencies of the data. -/
theorem C259_lower (mode : CrrMode) (hm : mode ≠ .exp) (beta bound gamma w : ℝ) (hw : 0 ≤ w) (data : List (Logged S n))
    (Q : S → Fin n → ℝ) (hs : ∀ x ∈ data, mode = .binary → (x.row Q).advantage ≠ 0) (h : Settled mode beta bound gamma w data Q) (s : S)
    (hall : ∀ a, ∃ x ∈ data, x.1 = s ∧ x.2.1 = a) :
    ∑ a, boltzmann (Q s) a * Q s a ≤ ∑ a, boltzmann (Q s) a * meanTarget gamma data s a ∧
    (0 < w → ∑ a, boltzmann (Q s) a * Q s a = ∑ a, boltzmann (Q s) a * meanTarget gamma data s a →
      ∀ a, boltzmann (Q s) a = freq data s a) := by
  have hpos : ∀ a, 0 < freq data s a := by
    intro a
    obtain ⟨x, hx, hxs, hxa⟩ := hall a
    have hc : 0 < count data s a := List.length_pos_of_mem (List.mem_filter.2 ⟨hx, by simp [hxs, hxa]⟩)
    have hv : 0 < visits data s := List.length_pos_of_mem (List.mem_filter.2 ⟨hx, by simp [hxs]⟩)
    exact div_pos (by exact_mod_cast hc) (by exact_mod_cast hv)
  have hterm : ∀ a ∈ Finset.univ, 0 ≤ (boltzmann (Q s) a - freq data s a) ^ 2 / freq data s a :=
    fun a _ => div_nonneg (sq_nonneg _) (hpos a).le
  have hchi : 0 ≤ chiSq (boltzmann (Q s)) (freq data s) := Finset.sum_nonneg hterm
  have he := C259_shortfall mode hm beta bound gamma w data Q hs h s hall
  refine ⟨by rw [he]; linarith [mul_nonneg hw hchi], fun hw' heq a => ?_⟩
  have h0 : chiSq (boltzmann (Q s)) (freq data s) = 0 := by
    have : w * chiSq (boltzmann (Q s)) (freq data s) = 0 := by linarith
    exact (mul_eq_zero.1 this).resolve_left hw'.ne'
  have := (Finset.sum_eq_zero_iff_of_nonneg hterm).1 h0 a (Finset.mem_univ a)
  rw [div_eq_zero_iff, or_iff_left (hpos a).ne'] at this
  have h2 := pow_eq_zero_iff (two_ne_zero) |>.1 this
  linarith

/-- C259, the data: on average over the logged actions of a state the values agree with the targets. -/
theorem C259_data (mode : CrrMode) (hm : mode ≠ .exp) (beta bound gamma w : ℝ) (data : List (Logged S n)) (Q : S → Fin n → ℝ)
    (hs : ∀ x ∈ data, mode = .binary → (x.row Q).advantage ≠ 0) (h : Settled mode beta bound gamma w data Q) (s : S)
    (hv : ∃ x ∈ data, x.1 = s) :
    ((data.filter fun x => x.1 = s).map fun x => Q x.1 x.2.1).sum = ((data.filter fun x => x.1 = s).map (Logged.target gamma)).sum := by
  obtain ⟨x0, hx0, hxs0⟩ := hv
  have hne : data ≠ [] := List.ne_nil_of_mem hx0
  have hsum : ∑ a, (count data s a * Q s a - ((data.filter fun x => x.1 = s ∧ x.2.1 = a).map (Logged.target gamma)).sum +
      w * (visits data s * boltzmann (Q s) a - count data s a)) = 0 :=
    Finset.sum_eq_zero fun a _ => entry mode hm beta bound gamma w data Q hs h hne s a
  rw [Finset.sum_add_distrib, Finset.sum_sub_distrib, ← Finset.mul_sum, Finset.sum_sub_distrib, ← Finset.mul_sum, boltzmann_sum (Q s) x0.2.1,
    count_sum, mul_one, sub_self, mul_zero, add_zero, sub_eq_zero] at hsum
  have e1 : ∀ l : List (Logged S n), ∑ a, (count l s a : ℝ) * Q s a = ((l.filter fun x => x.1 = s).map fun x => Q x.1 x.2.1).sum := by
    intro l
    induction l with
    | nil => simp [count]
    | cons x l ih =>
      have e : ∀ a, (count (x :: l) s a : ℝ) = (if x.1 = s ∧ x.2.1 = a then 1 else 0) + count l s a := by
        intro a
        by_cases h : x.1 = s ∧ x.2.1 = a
        · simp [count, List.filter_cons, h]; ring
        · simp [count, List.filter_cons, h]
      simp only [e, add_mul, Finset.sum_add_distrib, ih]
      by_cases h : x.1 = s
      · simp [List.filter_cons, h]
      · simp [List.filter_cons, h]
  have e2 : ∀ l : List (Logged S n), ∑ a, ((l.filter fun x => x.1 = s ∧ x.2.1 = a).map (Logged.target gamma)).sum =
      ((l.filter fun x => x.1 = s).map (Logged.target gamma)).sum := by
    intro l
    induction l with
    | nil => simp
    | cons x l ih =>
      have e : ∀ a, (((x :: l).filter fun x => x.1 = s ∧ x.2.1 = a).map (Logged.target gamma)).sum =
          (if x.1 = s ∧ x.2.1 = a then x.target gamma else 0) + ((l.filter fun x => x.1 = s ∧ x.2.1 = a).map (Logged.target gamma)).sum := by
        intro a
        by_cases h : x.1 = s ∧ x.2.1 = a
        · simp [List.filter_cons, h]
        · simp [List.filter_cons, h]
      simp only [e, Finset.sum_add_distrib, ih]
      by_cases h : x.1 = s
      · simp [List.filter_cons, h]
      · simp [List.filter_cons, h]
  rw [e1, e2] at hsum
  exact hsum

/-! ### Example -/

/-- One state with two actions, each logged once at the end of an episode, with given rewards. -/
noncomputable def two (r0 r1 : ℝ) : List (Logged Unit 2) :=
  [((), 0, ⟨[], 0, [1 / 2, 1 / 2], -1, r0, true, false, [], []⟩), ((), 1, ⟨[], 0, [1 / 2, 1 / 2], -1, r1, true, false, [], []⟩)]

/-- For every table there are rewards for which it has settled, here those for the values 1 and 0. -/
example : ∃ r0 r1 : ℝ, Settled .all 1 20 1 1 (two r0 r1) (fun _ a => if a = 0 then 1 else 0) ∧
    ∀ a, ∃ x ∈ two r0 r1, x.1 = () ∧ x.2.1 = a := by
  let q : Fin 2 → ℝ := fun a => if a = 0 then 1 else 0
  refine ⟨1 + (2 * boltzmann q 0 - 1), 2 * boltzmann q 1 - 1, fun D => ?_, fun a => ?_⟩
  · refine (loss_rate .all (by simp) 1 20 1 1 _ (by simp [two]) (fun _ => q) D (by simp)).congr_deriv ?_
    simp [two, Logged.target, Fin.sum_univ_two, q]
    ring
  · fin_cases a <;> simp [two]

end Verif.Offline
