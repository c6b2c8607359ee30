import Verif.Model.Imitation
import Verif.Lemmas.Policy
import Mathlib.Analysis.SpecialFunctions.Log.Basic
import Mathlib.Algebra.Order.BigOperators.Group.List
import Mathlib.Algebra.BigOperators.Ring.List
import Mathlib.Algebra.BigOperators.Fin

/-! Losses of imitation learning, discrete CQL and discrete BCQ (C187) and of the intrinsic curiosity module (C189). -/

namespace Verif.Imitation

open Verif.Policy Verif.Ppo

/-- The probability of action `a` for the logits `row`: the exponential of its logit as a share of all. -/
noncomputable def prob (row : List ℝ) (a : Nat) : ℝ := Real.exp (row.getD a 0) / (row.map Real.exp).sum

private theorem mapM_get {X Y : Type} (f : X → Option Y) (g : X → Y) (l : List X) (h : ∀ x ∈ l, f x = some (g x)) : l.mapM f = some (l.map g) := by
  induction l with
  | nil => rfl
  | cons x xs ih =>
    rw [List.mapM_cons, h x (by simp), ih fun y hy => h y (by simp [hy])]
    rfl

private theorem exp_le_sum (row : List ℝ) (a : Nat) (ha : a < row.length) : Real.exp (row.getD a 0) ≤ (row.map Real.exp).sum := by
  apply List.single_le_sum
  · intro x hx
    obtain ⟨y, _, rfl⟩ := List.mem_map.1 hx
    exact (Real.exp_pos y).le
  · exact List.mem_map.2 ⟨row[a], List.getElem_mem ha, by simp [ha]⟩

/-- Probabilities are positive and at most one, and they sum to one. -/
theorem C187_prob (row : List ℝ) (hne : row ≠ []) :
    (∀ a, a < row.length → 0 < prob row a ∧ prob row a ≤ 1) ∧ ((List.range row.length).map (prob row)).sum = 1 := by
  have hpos : 0 < (row.map Real.exp).sum := by
    have h0 : 0 < row.length := List.length_pos_iff.2 hne
    exact lt_of_lt_of_le (Real.exp_pos _) (exp_le_sum row 0 h0)
  refine ⟨fun a ha => ⟨div_pos (Real.exp_pos _) hpos, (div_le_one hpos).2 (exp_le_sum row a ha)⟩, ?_⟩
  have e : (List.range row.length).map (prob row) = row.map fun x => Real.exp x / (row.map Real.exp).sum := by
    apply List.ext_getElem?
    intro i
    by_cases hi : i < row.length
    · simp [hi, prob]
    · rw [List.getElem?_eq_none (by simp; omega), List.getElem?_eq_none (by simp; omega)]
  rw [e]
  simp only [div_eq_mul_inv]
  rw [List.sum_map_mul_right]
  exact mul_inv_cancel₀ hpos.ne'

private theorem logSoftmax_eq (row : List ℝ) (a : Nat) (ha : a < row.length) : logSoftmax row a = some (Real.log (prob row a)) := by
  have hpos : 0 < (row.map Real.exp).sum := lt_of_lt_of_le (Real.exp_pos _) (exp_le_sum row a ha)
  rw [prob, Real.log_div (Real.exp_pos _).ne' hpos.ne', Real.log_exp]
  simp [logSoftmax, ha, lse]

private theorem zip_fst_snd {X Y : Type} (l : List (X × Y)) : (l.map Prod.fst).zip (l.map Prod.snd) = l := by
  induction l with
  | nil => rfl
  | cons x xs ih => simp [ih]

private theorem sum_log (l : List ℝ) (h : ∀ x ∈ l, 0 < x) : (l.map Real.log).sum = Real.log l.prod := by
  induction l with
  | nil => simp
  | cons x xs ih =>
    have h0 := h x (by simp)
    have h1 : 0 < xs.prod := List.prod_pos fun y hy => h y (by simp [hy])
    rw [List.map_cons, List.sum_cons, ih fun y hy => h y (by simp [hy]), List.prod_cons, Real.log_mul h0.ne' h1.ne']

private theorem prob_pos (row : List ℝ) (a : Nat) (ha : a < row.length) : 0 < prob row a ∧ prob row a ≤ 1 :=
  (C187_prob row (by rintro rfl; simp at ha)).1 a ha

/-- C187. The classification loss is the negative log-likelihood of the actions, per row: minus the logarithm of the probability that the policy takes
all of the actions, divided by their number. It is not negative. -/
theorem C187_likelihood (rows : List (List ℝ × Nat)) (h : ∀ r ∈ rows, r.2 < r.1.length) :
    nll (rows.map Prod.fst) (rows.map Prod.snd) = some (-Real.log (rows.map fun r => prob r.1 r.2).prod / rows.length) ∧
      0 ≤ -Real.log (rows.map fun r => prob r.1 r.2).prod / rows.length := by
  constructor
  · unfold nll
    rw [zip_fst_snd, mapM_get _ (fun r => Real.log (prob r.1 r.2)) rows fun r hr => logSoftmax_eq _ _ (h r hr), Option.map_some, mean,
      ← sum_log _ fun x hx => by
        obtain ⟨r, hr, rfl⟩ := List.mem_map.1 hx
        exact (prob_pos _ _ (h r hr)).1, List.map_map, List.length_map]
    congr 1
    rw [neg_div]
    rfl
  · apply div_nonneg _ (Nat.cast_nonneg _)
    rw [neg_nonneg]
    apply Real.log_nonpos
    · exact List.prod_nonneg fun x hx => by
        obtain ⟨r, hr, rfl⟩ := List.mem_map.1 hx
        exact (prob_pos _ _ (h r hr)).1.le
    · induction rows with
      | nil => simp
      | cons r rs ih =>
        have h1 := prob_pos _ _ (h r (by simp))
        have h2 := ih fun q hq => h q (by simp [hq])
        have h3 : 0 ≤ (rs.map fun r => prob r.1 r.2).prod := List.prod_nonneg fun x hx => by
          obtain ⟨q, hq, rfl⟩ := List.mem_map.1 hx
          exact (prob_pos _ _ (h q (by simp [hq]))).1.le
        rw [List.map_cons, List.prod_cons]
        exact mul_le_one₀ h1.2 h3 h2

example : nll [[0, 0], [5]] [1, 0] = some (Real.log 2 / 2) := by
  have := (C187_likelihood [([0, 0], 1), ([5], 0)] (by simp)).1
  simp only [List.map_cons, List.map_nil] at this
  rw [this]
  norm_num [prob]
  rw [Real.log_div one_ne_zero two_ne_zero]
  simp

/-- C187. An action that is not an index of its row is an error. -/
theorem C187_refused (rows : List (List ℝ × Nat)) (r : List ℝ × Nat) (hr : r ∈ rows) (h : r.1.length ≤ r.2) :
    nll (rows.map Prod.fst) (rows.map Prod.snd) = none := by
  have : (rows.mapM fun r => logSoftmax r.1 r.2) = none := by
    induction rows with
    | nil => simp at hr
    | cons q qs ih =>
      rw [List.mapM_cons]
      rcases List.mem_cons.1 hr with rfl | hr
      · simp [logSoftmax, h]
      · rw [ih hr]
        cases logSoftmax q.1 q.2 <;> rfl
  rw [nll, zip_fst_snd, this]
  rfl

/-- C187. The action that the policy takes has the highest probability of its row, and the first one if there are several. -/
theorem C187_mode (logits : List (List ℝ)) (i : Nat) (row : List ℝ) (hi : logits[i]? = some row) (hne : row ≠ []) :
    ∃ a, (imitationAct logits)[i]? = some a ∧ a < row.length ∧ (∀ b, b < row.length → prob row b ≤ prob row a) ∧
      ∀ b, b < a → prob row b < prob row a := by
  obtain ⟨q, h1, h2, h3⟩ := argmax_spec row hne
  have ha : argmax row < row.length := by
    by_contra hc
    rw [List.getElem?_eq_none (by omega)] at h1
    cases h1
  have hpos : 0 < (row.map Real.exp).sum := lt_of_lt_of_le (Real.exp_pos _) (exp_le_sum row _ ha)
  have hq : row.getD (argmax row) 0 = q := by simp [List.getD, h1]
  refine ⟨argmax row, by simp [imitationAct, hi], ha, fun b hb => ?_, fun b hb => ?_⟩
  · unfold prob
    apply div_le_div_of_nonneg_right _ hpos.le
    rw [hq]
    apply Real.exp_le_exp.2
    have := h2 b row[b] (by simp [hb])
    simpa [hb] using this
  · unfold prob
    apply div_lt_div_of_pos_right _ hpos
    rw [hq]
    apply Real.exp_lt_exp.2
    have hb' : b < row.length := by omega
    have := h3 b row[b] hb (by simp [hb'])
    simpa [hb'] using this

example : (imitationAct [[1, 3, 3], [2]])[0]? = some 1 := by
  norm_num [imitationAct, argmax]

private theorem sum_zero (l : List ℝ) (h : ∀ x ∈ l, 0 ≤ x) : l.sum = 0 ↔ ∀ x ∈ l, x = 0 := by
  induction l with
  | nil => simp
  | cons x xs ih =>
    have h0 := h x (by simp)
    have h1 : 0 ≤ xs.sum := List.sum_nonneg fun y hy => h y (by simp [hy])
    rw [List.sum_cons]
    constructor
    · intro he y hy
      have hx : x = 0 := by linarith
      have hs : xs.sum = 0 := by linarith
      rcases List.mem_cons.1 hy with rfl | hy
      · exact hx
      · exact (ih fun z hz => h z (by simp [hz])).1 hs y hy
    · intro he
      rw [he x (by simp), (ih fun z hz => h z (by simp [hz])).2 fun y hy => he y (by simp [hy]), add_zero]

private theorem squares_nonneg (p t : List ℝ) : ∀ x ∈ List.zipWith (fun x y => (x - y) ^ 2) p t, (0 : ℝ) ≤ x := by
  induction p generalizing t with
  | nil => simp
  | cons a p ih =>
    cases t with
    | nil => simp
    | cons b t =>
      intro x hx
      rcases List.mem_cons.1 hx with rfl | hx
      · positivity
      · exact ih t x hx

private theorem squares_zero (p t : List ℝ) (h : p.length = t.length) : (∀ x ∈ List.zipWith (fun x y => (x - y) ^ 2) p t, x = 0) ↔ p = t := by
  induction p generalizing t with
  | nil =>
    cases t with
    | nil => simp
    | cons b t => simp at h
  | cons a p ih =>
    cases t with
    | nil => simp at h
    | cons b t =>
      have := ih t (by simpa using h)
      simp only [List.zipWith_cons_cons, List.mem_cons, forall_eq_or_imp, this, List.cons.injEq]
      rw [pow_eq_zero_iff two_ne_zero, sub_eq_zero]

/-- C187. The regression loss is the mean of the squared differences of all entries: not negative, and zero only if all predicted entries are the
entries of the data. -/
theorem C187_regression (pred target : List (List ℝ)) (hlen : pred.length = target.length)
    (hrow : ∀ (i : Nat) p t, pred[i]? = some p → target[i]? = some t → p.length = t.length) :
    0 ≤ mse pred target ∧ (mse pred target = 0 ↔ pred = target) ∧
    mse pred target = (List.zipWith (fun p t => (List.zipWith (fun x y => (x - y) ^ 2) p t).sum) pred target).sum / (pred.map List.length).sum := by
  have hnn : ∀ x ∈ (List.zipWith (fun p t => List.zipWith (fun x y => (x - y) ^ 2) p t) pred target).flatten, (0 : ℝ) ≤ x := by
    clear hlen hrow
    induction pred generalizing target with
    | nil => simp
    | cons p ps ih =>
      cases target with
      | nil => simp
      | cons t ts =>
        intro x hx
        rw [List.zipWith_cons_cons, List.flatten_cons, List.mem_append] at hx
        rcases hx with hx | hx
        · exact squares_nonneg p t x hx
        · exact ih ts x hx
  have hlens : (List.zipWith (fun p t => List.zipWith (fun x y => (x - y) ^ 2) p t) pred target).flatten.length = (pred.map List.length).sum := by
    clear hnn
    induction pred generalizing target with
    | nil => simp
    | cons p ps ih =>
      cases target with
      | nil => simp at hlen
      | cons t ts =>
        have h0 := hrow 0 p t (by simp) (by simp)
        have := ih ts (by simpa using hlen) fun i a b ha hb => hrow (i + 1) a b (by simpa using ha) (by simpa using hb)
        rw [List.zipWith_cons_cons, List.flatten_cons, List.length_append, this, List.length_zipWith, List.map_cons, List.sum_cons]
        omega
  have hzero : (∀ x ∈ (List.zipWith (fun p t => List.zipWith (fun x y => (x - y) ^ 2) p t) pred target).flatten, x = 0) ↔ pred = target := by
    clear hnn hlens
    induction pred generalizing target with
    | nil =>
      cases target with
      | nil => simp
      | cons t ts => simp at hlen
    | cons p ps ih =>
      cases target with
      | nil => simp at hlen
      | cons t ts =>
        have h0 := squares_zero p t (hrow 0 p t (by simp) (by simp))
        have := ih ts (by simpa using hlen) fun i a b ha hb => hrow (i + 1) a b (by simpa using ha) (by simpa using hb)
        rw [List.zipWith_cons_cons, List.flatten_cons, List.cons.injEq, ← h0, ← this]
        simp only [List.mem_append, or_imp, forall_and]
  refine ⟨div_nonneg (List.sum_nonneg hnn) (Nat.cast_nonneg _), ?_, ?_⟩
  · unfold mse mean
    rw [div_eq_zero_iff]
    constructor
    · rintro (h | h)
      · exact hzero.1 ((sum_zero _ hnn).1 h)
      · have h' : (List.zipWith (fun p t => List.zipWith (fun x y => (x - y) ^ 2) p t) pred target).flatten = [] :=
          List.eq_nil_of_length_eq_zero (by exact_mod_cast h)
        exact hzero.1 (by rw [h']; simp)
    · intro h
      exact .inl ((sum_zero _ hnn).2 (hzero.2 h))
  · unfold mse mean
    rw [hlens, List.sum_flatten, List.map_zipWith]

example : mse [[1, 2], [3, 4]] [[1, 2], [3, 6]] = 1 := by
  norm_num [mse, mean]

/-- C187. The penalty of discrete CQL is the negative log-likelihood of the actions in the data under the Boltzmann policy of the values. -/
theorem C187_cql (rows : List (List ℝ × Nat)) (h : ∀ r ∈ rows, r.2 < r.1.length) (weight qr : ℝ) :
    cqlPenalty (rows.map Prod.fst) (rows.map Prod.snd) = nll (rows.map Prod.fst) (rows.map Prod.snd) ∧
    cqlTotal weight qr (rows.map Prod.fst) (rows.map Prod.snd) =
      some (qr + weight * (-Real.log (rows.map fun r => prob r.1 r.2).prod / rows.length)) := by
  have e : cqlPenalty (rows.map Prod.fst) (rows.map Prod.snd) = nll (rows.map Prod.fst) (rows.map Prod.snd) := by
    unfold cqlPenalty nll
    rw [zip_fst_snd, mapM_get _ (fun r => r.1.getD r.2 0) rows fun r hr => by simp [h r hr],
      mapM_get _ (fun r => r.1.getD r.2 0 - lse r.1) rows fun r hr => by simp [logSoftmax, h r hr]]
    simp only [Option.map_some, mean, List.map_map, List.length_map]
    rw [← sub_div, ← neg_div]
    congr 2
    induction rows with
    | nil => simp
    | cons r rs ih =>
      have := ih fun q hq => h q (by simp [hq])
      simp only [List.map_cons, List.sum_cons, Function.comp_def] at this ⊢
      linarith
  refine ⟨e, ?_⟩
  rw [cqlTotal, e, (C187_likelihood rows h).1, Option.map_some]
  congr 1
  ring

example : cqlPenalty [[0, 0], [5]] [1, 0] = some (Real.log 2 / 2) := by
  norm_num [cqlPenalty, lse, mean]
  ring

/-- C187. The loss of discrete BCQ: the mean of the smoothed differences of the values of the actions and the returns, the negative log-likelihood of
the actions for the imitator, and the mean square of its logits, none of them negative. -/
theorem C187_bcq (weightReg : ℝ) (rows : List (List ℝ × List ℝ × Nat × ℝ)) (h : ∀ r ∈ rows, r.2.2.1 < r.1.length ∧ r.2.2.1 < r.2.1.length) :
    ∃ qLoss iLoss reg,
      bcqLoss weightReg (rows.map fun r => r.1) (rows.map fun r => r.2.1) (rows.map fun r => r.2.2.1) (rows.map fun r => r.2.2.2) =
        some (qLoss + iLoss + weightReg * reg, qLoss, iLoss, reg) ∧
      qLoss = mean (rows.map fun r => QTarget.huber (r.1.getD r.2.2.1 0 - r.2.2.2)) ∧
      iLoss = -Real.log (rows.map fun r => prob r.2.1 r.2.2.1).prod / rows.length ∧
      reg = mean (rows.flatMap fun r => r.2.1.map (· ^ 2)) ∧ 0 ≤ qLoss ∧ 0 ≤ iLoss ∧ 0 ≤ reg := by
  have hl := C187_likelihood (rows.map fun r => (r.2.1, r.2.2.1)) fun x hx => by
    obtain ⟨r, hr, rfl⟩ := List.mem_map.1 hx
    exact (h r hr).2
  simp only [List.map_map, Function.comp_def, List.length_map] at hl
  have hz : ((rows.map fun r => r.1).zip (rows.map fun r => r.2.2.1)).mapM (fun r => r.1[r.2]?) = some (rows.map fun r => r.1.getD r.2.2.1 0) := by
    have : (rows.map fun r => r.1).zip (rows.map fun r => r.2.2.1) = rows.map fun r => (r.1, r.2.2.1) := by
      simp [List.zip_eq_zipWith]
    rw [this, mapM_get _ (fun r => r.1.getD r.2 0), List.map_map]
    · rfl
    · intro x hx
      obtain ⟨r, hr, rfl⟩ := List.mem_map.1 hx
      simp [(h r hr).1]
  refine ⟨_, _, _, ?_, rfl, rfl, rfl, ?_, hl.2, ?_⟩
  · unfold bcqLoss
    rw [hz, Option.bind_some, hl.1, Option.map_some]
    simp only [List.zipWith_map, List.zipWith_self, List.map_flatten, List.map_map, Function.comp_def, List.flatMap_def]
  · refine div_nonneg (List.sum_nonneg ?_) (Nat.cast_nonneg _)
    intro x hx
    obtain ⟨r, hr, rfl⟩ := List.mem_map.1 hx
    unfold QTarget.huber
    split_ifs with hc
    · positivity
    · push Not at hc; linarith
  · refine div_nonneg (List.sum_nonneg ?_) (Nat.cast_nonneg _)
    intro x hx
    obtain ⟨r, hr, hx⟩ := List.mem_flatMap.1 hx
    obtain ⟨y, _, rfl⟩ := List.mem_map.1 hx
    positivity

example : ∃ q i r, bcqLoss 2 [[1, 4], [0, 0]] [[0, 0], [3, 3]] [1, 0] [4, 1] = some (q + i + 2 * r, q, i, r) ∧ q = 1 / 4 ∧ r = 9 / 2 := by
  obtain ⟨q, i, r, h1, h2, -, h3, -⟩ := C187_bcq 2 [([1, 4], [0, 0], 1, 4), ([0, 0], [3, 3], 0, 1)] (by simp)
  refine ⟨q, i, r, by simpa using h1, ?_, ?_⟩
  · rw [h2]; norm_num [mean, QTarget.huber]
  · rw [h3]; norm_num [mean]

/-! ### C189 -/

variable {O : Type}

/-- The input of the forward model: the features of the observation, and a vector with a one at the action. -/
def hot (n a : Nat) : List ℝ := (List.range n).map fun i => if i = a then 1 else 0

/-- C189. The curiosity bonus of a transition is half the squared distance of the features of its next observation from what the forward model makes of
the features of its observation and its action. It is not negative, and zero only if the prediction is exact. The inverse model sees the features of the
two observations. -/
theorem C189_bonus (m : Icm O) (s1 s2 : O) (act : Nat) (hact : act < m.actionDim)
    (hdim : (m.forward (m.feature s1 ++ hot m.actionDim act)).length = (m.feature s2).length) :
    ∃ b, m.row s1 act s2 = some (b, m.inverse (m.feature s1 ++ m.feature s2)) ∧
      b = (∑ i ∈ Finset.range (m.feature s2).length, ((m.forward (m.feature s1 ++ hot m.actionDim act)).getD i 0 - (m.feature s2).getD i 0) ^ 2) / 2 ∧
      0 ≤ b ∧ (b = 0 ↔ m.forward (m.feature s1 ++ hot m.actionDim act) = m.feature s2) := by
  have hs : ∀ p t : List ℝ, p.length = t.length →
      (List.zipWith (fun x y => (x - y) ^ 2) p t).sum = ∑ i ∈ Finset.range t.length, (p.getD i 0 - t.getD i 0) ^ 2 := by
    intro p t h
    induction t generalizing p with
    | nil => cases p with
      | nil => simp
      | cons a p => simp at h
    | cons b t ih => cases p with
      | nil => simp at h
      | cons a p =>
        rw [List.zipWith_cons_cons, List.sum_cons, ih p (by simpa using h), List.length_cons, Finset.sum_range_succ']
        simp [add_comm]
  refine ⟨0.5 * (List.zipWith (fun x y => (x - y) ^ 2) (m.forward (m.feature s1 ++ hot m.actionDim act)) (m.feature s2)).sum,
    by simp only [Icm.row, oneHot, if_pos hact, Option.map_some]; rfl, ?_, ?_, ?_⟩
  · rw [hs _ _ hdim]; ring
  · exact mul_nonneg (by norm_num) (List.sum_nonneg (squares_nonneg _ _))
  · rw [mul_eq_zero, or_iff_right (by norm_num), sum_zero _ (squares_nonneg _ _), squares_zero _ _ hdim]

private def exIcm : Icm ℝ := ⟨fun o => [o, 2 * o], fun x => x.drop 1 |>.take 2, fun x => x.take 2, 2⟩

example : exIcm.row 1 0 3 = some (13, [1, 2]) := by
  obtain ⟨b, h1, h2, -⟩ := C189_bonus exIcm 1 3 0 (by decide) (by simp [exIcm, hot, List.range_succ])
  rw [h1, h2]
  norm_num [exIcm, hot, List.range_succ, Finset.sum_range_succ]

/-- C189. All rows: each gets its own bonus; one action out of range and there is none. -/
theorem C189_rows (m : Icm O) (l : List (O × Nat × O)) :
    (∀ out, m.rows l = some out → out.length = l.length ∧ ∀ (i : Nat) r, l[i]? = some r → out[i]? = m.row r.1 r.2.1 r.2.2) ∧
    ((∃ out, m.rows l = some out) ↔ ∀ r ∈ l, r.2.1 < m.actionDim) := by
  induction l with
  | nil => simp [Icm.rows]
  | cons r rs ih =>
    obtain ⟨ih1, ih2⟩ := ih
    have hrow : ∀ r : O × Nat × O, m.row r.1 r.2.1 r.2.2 = none ↔ ¬ r.2.1 < m.actionDim := by
      intro r
      unfold Icm.row oneHot
      split_ifs with h <;> simp [h]
    unfold Icm.rows at *
    rw [List.mapM_cons]
    cases h1 : m.row r.1 r.2.1 r.2.2 with
    | none =>
      refine ⟨by simp, ?_⟩
      have := (hrow r).1 h1
      simp only [List.mem_cons, forall_eq_or_imp, this, false_and, iff_false]
      simp
    | some x =>
      have hx : r.2.1 < m.actionDim := by
        by_contra hc
        rw [(hrow r).2 hc] at h1
        cases h1
      cases h2 : rs.mapM fun r => m.row r.1 r.2.1 r.2.2 with
      | none =>
        rw [h2] at ih2
        refine ⟨by simp, ?_⟩
        simp only [List.mem_cons, forall_eq_or_imp, hx, true_and, ← ih2]
        simp
      | some xs =>
        rw [h2] at ih1 ih2
        obtain ⟨g1, g2⟩ := ih1 xs rfl
        constructor
        · intro out hout
          have : out = x :: xs := by simpa using hout.symm
          subst this
          refine ⟨by simp [g1], fun i q hq => ?_⟩
          cases i with
          | zero =>
            simp only [List.getElem?_cons_zero, Option.some.injEq] at hq
            subst hq
            simp [h1]
          | succ i =>
            simp only [List.getElem?_cons_succ] at hq ⊢
            exact g2 i q hq
        · simp only [List.mem_cons, forall_eq_or_imp, hx, true_and, ← ih2]
          simp

/-- C189. The loss of the module: the mean bonus (so it is learned to predict what it was surprised by) and the negative log-likelihood of the actions for the
inverse model, weighted with `forward_loss_weight` and its complement, times `lr_scale`. -/
theorem C189_loss (m : Icm O) (weight lrScale : ℝ) (l : List (O × Nat × O)) (out : List (ℝ × List ℝ)) (hout : m.rows l = some out)
    (hinv : ∀ r ∈ l, r.2.1 < (m.inverse (m.feature r.1 ++ m.feature r.2.2)).length) :
    ∃ fwd inv, m.loss weight lrScale l = some (((1 - weight) * inv + weight * fwd) * lrScale, fwd, inv) ∧ fwd = (out.map Prod.fst).sum / l.length ∧
      inv = -Real.log (l.map fun r => prob (m.inverse (m.feature r.1 ++ m.feature r.2.2)) r.2.1).prod / l.length := by
  obtain ⟨h1, h2⟩ := (C189_rows m l).1 out hout
  have hsnd : out.map Prod.snd = l.map fun r => m.inverse (m.feature r.1 ++ m.feature r.2.2) := by
    apply List.ext_getElem?
    intro i
    cases hl : l[i]? with
    | none =>
      have : l.length ≤ i := by simpa using hl
      rw [List.getElem?_eq_none (by simp; omega), List.getElem?_eq_none (by simp; omega)]
    | some r =>
      have h3 := h2 i r hl
      have hi : i < out.length := by
        have : i < l.length := by
          by_contra hc
          rw [List.getElem?_eq_none (by omega)] at hl
          cases hl
        omega
      rw [List.getElem?_eq_getElem hi] at h3
      unfold Icm.row oneHot at h3
      split_ifs at h3 with hc
      · rw [Option.map_some, Option.some.injEq] at h3
        rw [List.getElem?_map, List.getElem?_map, hl, List.getElem?_eq_getElem hi, h3]
        rfl
      · cases h3
  have hl := C187_likelihood (l.map fun r => (m.inverse (m.feature r.1 ++ m.feature r.2.2), r.2.1)) fun x hx => by
    obtain ⟨r, hr, rfl⟩ := List.mem_map.1 hx
    exact hinv r hr
  simp only [List.map_map, Function.comp_def, List.length_map] at hl
  refine ⟨(out.map Prod.fst).sum / l.length, _, ?_, rfl, rfl⟩
  unfold Icm.loss
  rw [hout, Option.bind_some, hsnd, hl.1, Option.map_some, mean, List.length_map, h1]

example : ∃ fwd inv, exIcm.loss 1 2 [(1, 0, 3), (3, 0, 3)] = some (((1 - 1) * inv + 1 * fwd) * 2, fwd, inv) := by
  have hr : ∃ out, exIcm.rows [(1, 0, 3), (3, 0, 3)] = some out := (C189_rows exIcm _).2.2 (by simp [exIcm])
  obtain ⟨out, ho⟩ := hr
  obtain ⟨f, i, h, -⟩ := C189_loss exIcm 1 2 [(1, 0, 3), (3, 0, 3)] out ho (by simp [exIcm])
  exact ⟨f, i, h⟩

end Verif.Imitation
