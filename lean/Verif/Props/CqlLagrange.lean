import Verif.Model.CqlLagrange
import Mathlib.Analysis.SpecialFunctions.ExpDeriv
import Mathlib.Analysis.Calculus.Deriv.Mul
import Mathlib.Analysis.Complex.ExponentialBounds

/-!
C250: the Lagrange multiplier of CQL.
-/

namespace Verif.Cql

/-! ### Specification -/

/-- Constants of Adam that are accepted and make steps. -/
structure AdamOpts.Ok (o : AdamOpts) : Prop where
  lr : 0 < o.lr
  b1 : 0 ≤ o.beta1
  b1' : o.beta1 < 1
  b2 : 0 ≤ o.beta2
  b2' : o.beta2 < 1
  eps : 0 < o.eps

/-- The policy after calls of `learn` in which the penalties of the critics were `ps`. -/
noncomputable def after (o : AdamOpts) (cpu : Bool) (lo hi threshold : ℝ) (ps : List (ℝ × ℝ)) : Lagrange :=
  ps.foldl (fun s p => s.learn o lo hi threshold p.1 p.2) (Lagrange.new cpu)

/-! ### Adam -/

theorem denom_pos (o : AdamOpts) (ho : o.Ok) (x : ℝ) : 0 < Real.sqrt x + o.eps := by
  have := Real.sqrt_nonneg x
  linarith [ho.eps]

theorem bias_pos (o : AdamOpts) (ho : o.Ok) (t : Nat) : 0 < 1 - o.beta1 ^ (t + 1) := by
  have : o.beta1 ^ (t + 1) < 1 := pow_lt_one₀ ho.b1 ho.b1' (Nat.succ_ne_zero t)
  linarith

/-- Adam moves against its first moment. -/
theorem adam_up (o : AdamOpts) (ho : o.Ok) (s : Adam) (g : ℝ) (h : (s.step o g).m < 0) : s.x < (s.step o g).x := by
  have hm : o.beta1 * s.m + (1 - o.beta1) * g < 0 := h
  have h1 : (o.beta1 * s.m + (1 - o.beta1) * g) / (1 - o.beta1 ^ (s.t + 1)) < 0 := div_neg_of_neg_of_pos hm (bias_pos o ho s.t)
  have h2 : o.lr * ((o.beta1 * s.m + (1 - o.beta1) * g) / (1 - o.beta1 ^ (s.t + 1))) < 0 := mul_neg_of_pos_of_neg ho.lr h1
  have h3 := div_neg_of_neg_of_pos h2 (denom_pos o ho ((o.beta2 * s.v + (1 - o.beta2) * g ^ 2) / (1 - o.beta2 ^ (s.t + 1))))
  show s.x < s.x - _
  linarith

theorem adam_up_le (o : AdamOpts) (ho : o.Ok) (s : Adam) (g : ℝ) (h : (s.step o g).m ≤ 0) : s.x ≤ (s.step o g).x := by
  have hm : o.beta1 * s.m + (1 - o.beta1) * g ≤ 0 := h
  have h1 : (o.beta1 * s.m + (1 - o.beta1) * g) / (1 - o.beta1 ^ (s.t + 1)) ≤ 0 := div_nonpos_of_nonpos_of_nonneg hm (bias_pos o ho s.t).le
  have h2 : o.lr * ((o.beta1 * s.m + (1 - o.beta1) * g) / (1 - o.beta1 ^ (s.t + 1))) ≤ 0 := mul_nonpos_of_nonneg_of_nonpos ho.lr.le h1
  have h3 := div_nonpos_of_nonpos_of_nonneg h2 (denom_pos o ho ((o.beta2 * s.v + (1 - o.beta2) * g ^ 2) / (1 - o.beta2 ^ (s.t + 1)))).le
  show s.x ≤ s.x - _
  linarith

theorem adam_down (o : AdamOpts) (ho : o.Ok) (s : Adam) (g : ℝ) (h : 0 < (s.step o g).m) : (s.step o g).x < s.x := by
  have hm : 0 < o.beta1 * s.m + (1 - o.beta1) * g := h
  have h1 : 0 < (o.beta1 * s.m + (1 - o.beta1) * g) / (1 - o.beta1 ^ (s.t + 1)) := div_pos hm (bias_pos o ho s.t)
  have h2 : 0 < o.lr * ((o.beta1 * s.m + (1 - o.beta1) * g) / (1 - o.beta1 ^ (s.t + 1))) := mul_pos ho.lr h1
  have h3 := div_pos h2 (denom_pos o ho ((o.beta2 * s.v + (1 - o.beta2) * g ^ 2) / (1 - o.beta2 ^ (s.t + 1))))
  show s.x - _ < s.x
  linarith

theorem after_snoc (o : AdamOpts) (cpu : Bool) (lo hi threshold : ℝ) (ps : List (ℝ × ℝ)) (p : ℝ × ℝ) :
    after o cpu lo hi threshold (ps ++ [p]) = (after o cpu lo hi threshold ps).learn o lo hi threshold p.1 p.2 := by
  simp [after]

theorem after_copy (o : AdamOpts) (cpu : Bool) (lo hi threshold : ℝ) (ps : List (ℝ × ℝ)) :
    (after o cpu lo hi threshold ps).copy = if cpu then none else some 0 := by
  induction ps using List.reverseRecOn with
  | nil => rfl
  | append_singleton ps p ih => rw [after_snoc]; exact ih

theorem logAlpha_cpu (o : AdamOpts) (lo hi threshold : ℝ) (ps : List (ℝ × ℝ)) :
    (after o true lo hi threshold ps).logAlpha = (after o true lo hi threshold ps).optim.x := by
  simp [Lagrange.logAlpha, after_copy]

/-! ### C250 -/

/-- **C250, what holds of the range:** the multiplier starts at 1 (if that is in the range) and never leaves the range. -/
theorem C250_range (o : AdamOpts) (cpu : Bool) (lo hi threshold : ℝ) (hlh : lo ≤ hi) (ps : List (ℝ × ℝ)) :
    (lo ≤ 1 → 1 ≤ hi → (after o cpu lo hi threshold []).multiplier lo hi = 1) ∧
    lo ≤ (after o cpu lo hi threshold ps).multiplier lo hi ∧ (after o cpu lo hi threshold ps).multiplier lo hi ≤ hi := by
  refine ⟨fun h1 h2 => ?_, le_min (le_max_right _ _) hlh, min_le_right _ _⟩
  have : (after o cpu lo hi threshold []).logAlpha = 0 := by cases cpu <;> simp [after, Lagrange.new, Lagrange.logAlpha]
  simp [Lagrange.multiplier, this, h1, h2]

/-- **C250: the loss.** Between the bounds the gradient given to the optimiser is that of minus the mean of what is added to the losses of the two critics, as a
function of the logarithm of the multiplier. -/
theorem C250_gradient (lo hi threshold : ℝ) (s : Lagrange) (p1 p2 : ℝ) (h1 : lo < Real.exp s.logAlpha) (h2 : Real.exp s.logAlpha < hi) :
    HasDerivAt (fun x => -(((⟨s.optim, some x⟩ : Lagrange).scaled lo hi threshold p1 p2).1 +
      ((⟨s.optim, some x⟩ : Lagrange).scaled lo hi threshold p1 p2).2) / 2) (s.grad lo hi threshold p1 p2) s.logAlpha := by
  have hev : (fun x => -(((⟨s.optim, some x⟩ : Lagrange).scaled lo hi threshold p1 p2).1 +
      ((⟨s.optim, some x⟩ : Lagrange).scaled lo hi threshold p1 p2).2) / 2) =ᶠ[nhds s.logAlpha]
      fun x => Real.exp x * (-((p1 - threshold) + (p2 - threshold)) / 2) := by
    have e1 : ∀ᶠ x in nhds s.logAlpha, lo < Real.exp x := Real.continuous_exp.continuousAt.eventually (lt_mem_nhds h1)
    have e2 : ∀ᶠ x in nhds s.logAlpha, Real.exp x < hi := Real.continuous_exp.continuousAt.eventually (gt_mem_nhds h2)
    filter_upwards [e1, e2] with x hx1 hx2
    simp only [Lagrange.scaled, Lagrange.multiplier, Lagrange.logAlpha, Option.getD_some]
    rw [max_eq_left hx1.le, min_eq_left hx2.le]
    ring
  have hd := (Real.hasDerivAt_exp s.logAlpha).mul_const (-((p1 - threshold) + (p2 - threshold)) / 2)
  have hg : s.grad lo hi threshold p1 p2 = Real.exp s.logAlpha * (-((p1 - threshold) + (p2 - threshold)) / 2) := by
    simp only [Lagrange.grad, if_pos (And.intro h1.le h2.le)]
    ring
  rw [hg]
  exact hd.congr_of_eventuallyEq hev

/-- **C250, what holds: the multiplier follows the penalties.** On the cpu, as long as the multiplier has not reached a bound: if in all calls of `learn` so far the mean of the two
penalties was above the threshold, the call has made the multiplier larger; if it was below the threshold in all calls, smaller. -/
theorem C250_partial (o : AdamOpts) (ho : o.Ok) (lo hi threshold : ℝ) (ps : List (ℝ × ℝ)) (p : ℝ × ℝ)
    (hin : ∀ qs, qs <+: ps ++ [p] → lo < Real.exp (after o true lo hi threshold qs).logAlpha ∧ Real.exp (after o true lo hi threshold qs).logAlpha < hi) :
    ((∀ q ∈ ps ++ [p], threshold < (q.1 + q.2) / 2) →
      (after o true lo hi threshold ps).multiplier lo hi < (after o true lo hi threshold (ps ++ [p])).multiplier lo hi) ∧
    ((∀ q ∈ ps ++ [p], (q.1 + q.2) / 2 < threshold) →
      (after o true lo hi threshold (ps ++ [p])).multiplier lo hi < (after o true lo hi threshold ps).multiplier lo hi) := by
  have hmul : ∀ qs, qs <+: ps ++ [p] → (after o true lo hi threshold qs).multiplier lo hi = Real.exp (after o true lo hi threshold qs).optim.x := by
    intro qs hqs
    obtain ⟨h1, h2⟩ := hin qs hqs
    unfold Lagrange.multiplier
    rw [max_eq_left h1.le, min_eq_left h2.le, logAlpha_cpu]
  have hgrad : ∀ (qs : List (ℝ × ℝ)) (q : ℝ × ℝ), qs <+: ps ++ [p] → (after o true lo hi threshold qs).grad lo hi threshold q.1 q.2 =
      Real.exp (after o true lo hi threshold qs).logAlpha * (threshold - (q.1 + q.2) / 2) := by
    intro qs q hqs
    obtain ⟨h1, h2⟩ := hin qs hqs
    simp only [Lagrange.grad, if_pos (And.intro h1.le h2.le)]
    ring
  have hpre : ∀ qs q, qs ++ [q] <+: ps ++ [p] → qs <+: ps ++ [p] ∧ q ∈ ps ++ [p] := by
    intro qs q h
    exact ⟨(List.prefix_append qs [q]).trans h, h.subset (by simp)⟩
  have e1 := hmul ps (List.prefix_append ps [p])
  have e2 := hmul (ps ++ [p]) (List.prefix_refl _)
  have b1 : 0 < 1 - o.beta1 := by linarith [ho.b1']
  constructor
  · intro hq
    have key : ∀ qs, qs <+: ps ++ [p] → (after o true lo hi threshold qs).optim.m ≤ 0 ∧ (qs ≠ [] → (after o true lo hi threshold qs).optim.m < 0) := by
      intro qs
      induction qs using List.reverseRecOn with
      | nil => intro _; exact ⟨le_refl _, fun h => absurd rfl h⟩
      | append_singleton qs q ih =>
        intro h
        obtain ⟨h1, h2⟩ := hpre qs q h
        have h3 := (ih h1).1
        have hg : (after o true lo hi threshold qs).grad lo hi threshold q.1 q.2 < 0 := by
          rw [hgrad qs q h1]
          exact mul_neg_of_pos_of_neg (Real.exp_pos _) (by linarith [hq q h2])
        have hm : (after o true lo hi threshold (qs ++ [q])).optim.m < 0 := by
          rw [after_snoc]
          show o.beta1 * (after o true lo hi threshold qs).optim.m + (1 - o.beta1) * _ < 0
          have := mul_nonpos_of_nonneg_of_nonpos ho.b1 h3
          have := mul_neg_of_pos_of_neg b1 hg
          linarith
        exact ⟨hm.le, fun _ => hm⟩
    rw [e1, e2]
    apply Real.exp_lt_exp.mpr
    have hm := (key (ps ++ [p]) (List.prefix_refl _)).2 (by simp)
    rw [after_snoc] at hm ⊢
    exact adam_up o ho _ _ hm
  · intro hq
    have key : ∀ qs, qs <+: ps ++ [p] → 0 ≤ (after o true lo hi threshold qs).optim.m ∧ (qs ≠ [] → 0 < (after o true lo hi threshold qs).optim.m) := by
      intro qs
      induction qs using List.reverseRecOn with
      | nil => intro _; exact ⟨le_refl _, fun h => absurd rfl h⟩
      | append_singleton qs q ih =>
        intro h
        obtain ⟨h1, h2⟩ := hpre qs q h
        have h3 := (ih h1).1
        have hg : 0 < (after o true lo hi threshold qs).grad lo hi threshold q.1 q.2 := by
          rw [hgrad qs q h1]
          exact mul_pos (Real.exp_pos _) (by linarith [hq q h2])
        have hm : 0 < (after o true lo hi threshold (qs ++ [q])).optim.m := by
          rw [after_snoc]
          show 0 < o.beta1 * (after o true lo hi threshold qs).optim.m + (1 - o.beta1) * _
          have := mul_nonneg ho.b1 h3
          have := mul_pos b1 hg
          linarith
        exact ⟨hm.le, fun _ => hm⟩
    rw [e1, e2]
    apply Real.exp_lt_exp.mpr
    have hm := (key (ps ++ [p]) (List.prefix_refl _)).2 (by simp)
    rw [after_snoc] at hm ⊢
    exact adam_down o ho _ _ hm

/-- C250 violated: if `device` is not the cpu, the multiplier keeps its first value whatever the penalties are. -/
theorem C250_device_violated (o : AdamOpts) (lo hi threshold : ℝ) (h1 : lo ≤ 1) (h2 : 1 ≤ hi) (ps : List (ℝ × ℝ)) :
    (after o false lo hi threshold ps).multiplier lo hi = 1 := by
  simp [Lagrange.multiplier, Lagrange.logAlpha, after_copy, h1, h2]

/-- C250 violated: a multiplier that has gone beyond the upper bound, on the way up, never comes back, whatever the penalties are from then on. -/
theorem C250_stuck_violated (o : AdamOpts) (ho : o.Ok) (lo hi threshold : ℝ) (hlh : lo ≤ hi) (ps qs : List (ℝ × ℝ))
    (hx : hi < Real.exp (after o true lo hi threshold ps).logAlpha) (hm : (after o true lo hi threshold ps).optim.m ≤ 0) :
    (after o true lo hi threshold (ps ++ qs)).multiplier lo hi = hi := by
  have key : ∀ qs, hi < Real.exp (after o true lo hi threshold (ps ++ qs)).logAlpha ∧ (after o true lo hi threshold (ps ++ qs)).optim.m ≤ 0 := by
    intro qs
    induction qs using List.reverseRecOn with
    | nil => rw [List.append_nil]; exact ⟨hx, hm⟩
    | append_singleton qs q ih =>
      obtain ⟨i1, i2⟩ := ih
      rw [← List.append_assoc, after_snoc]
      have hg : (after o true lo hi threshold (ps ++ qs)).grad lo hi threshold q.1 q.2 = 0 := by
        unfold Lagrange.grad
        rw [if_neg fun h => absurd h.2 (not_le.mpr i1)]
        simp
      have hm' : ((after o true lo hi threshold (ps ++ qs)).learn o lo hi threshold q.1 q.2).optim.m ≤ 0 := by
        show o.beta1 * _ + (1 - o.beta1) * (after o true lo hi threshold (ps ++ qs)).grad lo hi threshold q.1 q.2 ≤ 0
        rw [hg, mul_zero, add_zero]
        exact mul_nonpos_of_nonneg_of_nonpos ho.b1 i2
      refine ⟨?_, hm'⟩
      have h3 := adam_up_le o ho _ _ hm'
      refine lt_of_lt_of_le i1 (Real.exp_le_exp.mpr ?_)
      rw [logAlpha_cpu]
      refine h3.trans (le_of_eq ?_)
      have := logAlpha_cpu o lo hi threshold (ps ++ qs ++ [q])
      rw [after_snoc] at this
      exact this.symm
  have h := (key qs).1
  unfold Lagrange.multiplier
  rw [max_eq_left (hlh.trans h.le), min_eq_right h.le]

/-- The constants used. -/
noncomputable def usual : AdamOpts := ⟨1 / 10000, 9 / 10, 999 / 1000, 1 / 100000000⟩

theorem usual_ok : usual.Ok := by
  constructor <;> norm_num [usual]

/-- With `alpha_max=1` this happens in the first call with a penalty above the threshold: the multiplier is 1 for ever, although all later penalties are far below. -/
example (n : Nat) : (after usual true 0 1 10 ([(11, 11)] ++ List.replicate n (-1000, -1000))).multiplier 0 1 = 1 := by
  have hm : (after usual true 0 1 10 [(11, 11)]).optim.m < 0 := by
    simp [after, Lagrange.new, Lagrange.learn, Lagrange.grad, Lagrange.logAlpha, Adam.step, usual]
    norm_num
  refine C250_stuck_violated usual usual_ok 0 1 10 (by norm_num) _ _ ?_ hm.le
  rw [logAlpha_cpu]
  apply Real.one_lt_exp_iff.mpr
  exact adam_up usual usual_ok (Lagrange.new true).optim _ hm

/-- The first call with the default bounds and penalties 11 and 12 makes the multiplier larger. -/
example : (after usual true 0 1000000 10 []).multiplier 0 1000000 < (after usual true 0 1000000 10 [(11, 12)]).multiplier 0 1000000 := by
  have hstep : (after usual true 0 1000000 10 [(11, 12)]).optim.x ≤ 1 := by
    simp [after, Lagrange.new, Lagrange.learn, Lagrange.grad, Lagrange.logAlpha, Adam.step, usual]
    norm_num
    rw [show (9 : ℝ) = 3 ^ 2 by norm_num, show (4 : ℝ) = 2 ^ 2 by norm_num, Real.sqrt_sq (by norm_num), Real.sqrt_sq (by norm_num)]
    norm_num
  have h := C250_partial usual usual_ok 0 1000000 10 [] (11, 12) (by
    intro qs hqs
    refine ⟨Real.exp_pos _, ?_⟩
    have hx : (after usual true 0 1000000 10 qs).logAlpha ≤ 1 := by
      rw [logAlpha_cpu]
      rcases List.prefix_cons_iff.mp hqs with rfl | ⟨t, rfl, ht⟩
      · simp [after, Lagrange.new]
      · rw [List.prefix_nil.mp ht]
        exact hstep
    have h1 := Real.exp_le_exp.mpr hx
    linarith [Real.exp_one_lt_d9])
  exact h.1 (by simp; norm_num)

end Verif.Cql
