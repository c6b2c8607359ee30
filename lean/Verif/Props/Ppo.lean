import Verif.Model.Ppo
import Mathlib.Tactic.Linarith
import Mathlib.Tactic.Ring
import Mathlib.Tactic.FieldSimp
import Mathlib.Tactic.Positivity
import Mathlib.Algebra.Order.BigOperators.Group.List
import Mathlib.Algebra.BigOperators.Ring.List
import Mathlib.Analysis.Real.Sqrt

/-! Properties C89, C90, C91: the losses of PPO and the normalisation of advantages. -/

set_option linter.unusedSectionVars false

namespace Verif.Ppo

variable {K : Type} [Field K] [LinearOrder K] [IsStrictOrderedRing K]

/-! ### C89 -/

theorem clamp_mem {lo hi : K} (h : lo ≤ hi) (x : K) : lo ≤ clamp lo hi x ∧ clamp lo hi x ≤ hi :=
  ⟨le_min (le_max_right _ _) h, min_le_right _ _⟩

theorem clamp_id {lo hi x : K} (h1 : lo ≤ x) (h2 : x ≤ hi) : clamp lo hi x = x := by
  unfold clamp; rw [max_eq_left h1, min_eq_left h2]

theorem clamp_low {lo hi x : K} (h : lo ≤ hi) (h1 : x ≤ lo) : clamp lo hi x = lo := by
  unfold clamp; rw [max_eq_right h1, min_eq_left h]

theorem clamp_high {lo hi x : K} (h : lo ≤ hi) (h1 : hi ≤ x) : clamp lo hi x = hi := by
  unfold clamp; rw [max_eq_left (h.trans h1), min_eq_right h1]

/-- The clipped objective without dual clipping. -/
theorem surrogate_none (c : Cfg K) (h : c.dualClip = none) (ratio adv : K) :
    surrogate c ratio adv = min (ratio * adv) (clamp (1 - c.epsClip) (1 + c.epsClip) ratio * adv) := by
  unfold surrogate; simp [h]

/-- C89, without dual clipping: the objective never exceeds the unclipped one, equals it while the ratio stays within
`eps_clip` of 1, and is constant where moving the ratio further would only profit from the old advantage: beyond
`1 + eps_clip` for a good action, below `1 - eps_clip` for a bad one. -/
theorem C89_clipped (c : Cfg K) (he : 0 ≤ c.epsClip) (hd : c.dualClip = none) (ratio adv : K) :
    surrogate c ratio adv ≤ ratio * adv ∧
    (1 - c.epsClip ≤ ratio → ratio ≤ 1 + c.epsClip → surrogate c ratio adv = ratio * adv) ∧
    (0 ≤ adv → 1 + c.epsClip ≤ ratio → surrogate c ratio adv = (1 + c.epsClip) * adv) ∧
    (adv ≤ 0 → ratio ≤ 1 - c.epsClip → surrogate c ratio adv = (1 - c.epsClip) * adv) ∧
    (0 ≤ adv → ratio ≤ 1 - c.epsClip → surrogate c ratio adv = ratio * adv) ∧
    (adv ≤ 0 → 1 + c.epsClip ≤ ratio → surrogate c ratio adv = ratio * adv) := by
  rw [surrogate_none c hd]
  have hle : 1 - c.epsClip ≤ 1 + c.epsClip := by linarith
  refine ⟨min_le_left _ _, ?_, ?_, ?_, ?_, ?_⟩
  · intro h1 h2; rw [clamp_id h1 h2, min_self]
  · intro ha h; rw [clamp_high hle h]; exact min_eq_right (mul_le_mul_of_nonneg_right h ha)
  · intro ha h; rw [clamp_low hle h]; exact min_eq_right (mul_le_mul_of_nonpos_right h ha)
  · intro ha h; rw [clamp_low hle h]; exact min_eq_left (mul_le_mul_of_nonneg_right h ha)
  · intro ha h; rw [clamp_high hle h]; exact min_eq_left (mul_le_mul_of_nonpos_right h ha)

/-- C89: whatever the ratio, the objective of a transition is at most `(1 + eps_clip)·A` for a good action and at most
`(1 - eps_clip)·A` for a bad one: an update cannot gain more from one transition. -/
theorem C89_gain (c : Cfg K) (he : 0 ≤ c.epsClip) (hv : c.valid = true) (ratio adv : K) :
    (0 ≤ adv → surrogate c ratio adv ≤ (1 + c.epsClip) * adv) ∧
    (adv < 0 → c.dualClip = none ∨ c.epsClip ≤ 1 →
      surrogate c ratio adv ≤ (1 - c.epsClip) * adv) := by
  have hle : 1 - c.epsClip ≤ 1 + c.epsClip := by linarith
  obtain ⟨h1, h2⟩ := clamp_mem hle ratio
  unfold surrogate
  simp only
  cases hd : c.dualClip with
  | none =>
    simp only
    exact ⟨fun ha => (min_le_right _ _).trans (mul_le_mul_of_nonneg_right h2 ha),
      fun ha _ => (min_le_right _ _).trans (mul_le_mul_of_nonpos_right h1 ha.le)⟩
  | some d =>
    have hd1 : 1 < d := by simpa [Cfg.valid, hd] using hv
    simp only
    refine ⟨fun ha => ?_, fun ha hc => ?_⟩
    · rw [if_neg (not_lt.2 ha)]
      exact (min_le_right _ _).trans (mul_le_mul_of_nonneg_right h2 ha)
    · rw [if_pos ha]
      refine max_le ((min_le_right _ _).trans (mul_le_mul_of_nonpos_right h1 ha.le)) ?_
      exact mul_le_mul_of_nonpos_right (by linarith) ha.le

/-- C89, what dual clipping is for: without it the objective of a bad action has no lower bound in the ratio. -/
theorem C89_unbounded (c : Cfg K) (he : 0 ≤ c.epsClip) (hd : c.dualClip = none) (adv : K) (ha : adv < 0) (bound : K) :
    ∃ ratio, 0 < ratio ∧ surrogate c ratio adv < bound := by
  refine ⟨max (1 + c.epsClip) (bound / adv + 1), lt_max_of_lt_left (by linarith), ?_⟩
  rw [(C89_clipped c he hd _ adv).2.2.2.2.2 ha.le (le_max_left _ _)]
  have h1 : bound / adv + 1 ≤ max (1 + c.epsClip) (bound / adv + 1) := le_max_right _ _
  have h2 := mul_le_mul_of_nonpos_right h1 ha.le
  have h3 : (bound / adv + 1) * adv = bound + adv := by rw [add_mul, div_mul_cancel₀ _ ha.ne, one_mul]
  linarith

/-- C89, dual clipping: the objective of a bad action is at least `dual_clip·A`; nothing changes for a good action, nor
for a bad one as long as the ratio does not exceed `dual_clip`. -/
theorem C89_dual (c : Cfg K) (d : K) (hd : c.dualClip = some d) (hv : c.valid = true) (ratio adv : K) :
    (adv < 0 → d * adv ≤ surrogate c ratio adv) ∧
    (0 ≤ adv → surrogate c ratio adv = surrogate { c with dualClip := none } ratio adv) ∧
    (adv < 0 → 0 ≤ c.epsClip → c.epsClip < 1 → ratio ≤ d → 1 + c.epsClip ≤ d →
      surrogate c ratio adv = surrogate { c with dualClip := none } ratio adv) ∧
    (adv < 0 → 0 ≤ c.epsClip → 1 + c.epsClip ≤ d → d ≤ ratio → surrogate c ratio adv = d * adv) := by
  have hd1 : 1 < d := by simpa [Cfg.valid, hd] using hv
  unfold surrogate
  simp only [hd]
  refine ⟨?_, ?_, ?_, ?_⟩
  · intro ha; rw [if_pos ha]; exact le_max_right _ _
  · intro ha; rw [if_neg (not_lt.2 ha)]
  · intro ha he he1 hr hed
    rw [if_pos ha]
    refine max_eq_left (le_min (mul_le_mul_of_nonpos_right hr ha.le) ?_)
    exact mul_le_mul_of_nonpos_right ((clamp_mem (by linarith) ratio).2.trans hed) ha.le
  · intro ha he hed hr
    rw [if_pos ha]
    exact max_eq_right ((min_le_left _ _).trans (mul_le_mul_of_nonpos_right hr ha.le))

/-- C89: the policy part of the loss is minus the mean of the objectives, so it is never below minus the mean of the
unclipped ones when no dual clipping is used. -/
theorem C89_loss (c : Cfg K) (he : 0 ≤ c.epsClip) (hd : c.dualClip = none) (rows : List (Row K)) :
    -(mean (rows.map fun r => r.ratio * r.adv)) + c.vfCoef * mean (rows.map fun r => valueLoss c r.ret r.vOld r.value) -
      c.entCoef * mean (rows.map fun r => r.entropy) ≤ loss c rows := by
  unfold loss
  have : mean (rows.map fun r => surrogate c r.ratio r.adv) ≤ mean (rows.map fun r => r.ratio * r.adv) := by
    unfold mean
    rw [List.length_map, List.length_map]
    refine div_le_div_of_nonneg_right (List.sum_le_sum fun r _ => (C89_clipped c he hd _ _).1) (Nat.cast_nonneg _)
  linarith

/-- Good action, far above; bad action, far above, with and without dual clipping. -/
example : surrogate (⟨1 / 5, none, false, 1, 0⟩ : Cfg ℚ) 3 2 = 12 / 5 ∧
    surrogate (⟨1 / 5, none, false, 1, 0⟩ : Cfg ℚ) 3 (-2) = -6 ∧
    surrogate (⟨1 / 5, some 2, false, 1, 0⟩ : Cfg ℚ) 3 (-2) = -4 ∧
    (⟨1 / 5, some 2, false, 1, 0⟩ : Cfg ℚ).valid = true ∧ (⟨1 / 5, some 1, false, 1, 0⟩ : Cfg ℚ).valid = false := by
  decide +kernel

/-! ### C90 -/

/-- C90: the clipped value stays within `eps_clip` of the old value, and is the value if that one does. -/
theorem C90_clipped (eps : K) (he : 0 ≤ eps) (vOld value : K) :
    |clippedValue eps vOld value - vOld| ≤ eps ∧
    (|value - vOld| ≤ eps → clippedValue eps vOld value = value) := by
  unfold clippedValue
  obtain ⟨h1, h2⟩ := clamp_mem (by linarith : -eps ≤ eps) (value - vOld)
  refine ⟨?_, ?_⟩
  · rw [add_sub_cancel_left]; exact abs_le.2 ⟨h1, h2⟩
  · intro h
    rw [abs_le] at h
    rw [clamp_id h.1 h.2]; ring

/-- C90: with value clipping the critic's loss of a transition is never smaller than without, and the same if the value
moved by at most `eps_clip`; it is the larger of the squared errors of the value and of the clipped value. -/
theorem C90_loss (c : Cfg K) (he : 0 ≤ c.epsClip) (ret vOld value : K) :
    (ret - value) ^ 2 ≤ valueLoss c ret vOld value ∧
    (|value - vOld| ≤ c.epsClip → valueLoss c ret vOld value = (ret - value) ^ 2) ∧
    (c.valueClip = false → valueLoss c ret vOld value = (ret - value) ^ 2) ∧
    (c.valueClip = true → c.epsClip ≤ value - vOld → valueLoss c ret vOld value =
      max ((ret - value) ^ 2) ((ret - (vOld + c.epsClip)) ^ 2)) ∧
    (c.valueClip = true → value - vOld ≤ -c.epsClip → valueLoss c ret vOld value =
      max ((ret - value) ^ 2) ((ret - (vOld - c.epsClip)) ^ 2)) := by
  have hle : -c.epsClip ≤ c.epsClip := by linarith
  unfold valueLoss
  refine ⟨?_, ?_, ?_, ?_, ?_⟩
  · split_ifs
    · exact le_max_left _ _
    · exact le_rfl
  · intro h
    split_ifs
    · rw [(C90_clipped c.epsClip he vOld value).2 h, max_self]
    · rfl
  · intro h; simp [h]
  · intro h h'; rw [if_pos h]; unfold clippedValue; rw [clamp_high hle h']
  · intro h h'; rw [if_pos h]; unfold clippedValue; rw [clamp_low hle h', ← sub_eq_add_neg]

/-- A value that moved too far away from the return towards the other side is not rewarded. -/
example : valueLoss (⟨1 / 5, none, true, 1, 0⟩ : Cfg ℚ) 3 1 3 = 81 / 25 ∧
    valueLoss (⟨1 / 5, none, false, 1, 0⟩ : Cfg ℚ) 3 1 3 = 0 := by decide +kernel

/-! ### C91 -/

theorem sum_centered (l : List K) (h : l ≠ []) : (l.map (· - mean l)).sum = 0 := by
  have hl : (l.length : K) ≠ 0 := by
    simpa using h
  have : ∀ (l : List K) (m : K), (l.map (· - m)).sum = l.sum - l.length * m := by
    intro l m
    induction l with
    | nil => simp
    | cons x l ih => simp [ih]; ring
  rw [this, mean, mul_div_cancel₀ _ hl, sub_self]

/-- C91, the part that holds: a minibatch of at least two transitions has normalised advantages, with mean 0, mean
square (over `n - 1`) at most 1, and the same order as the advantages themselves. -/
theorem C91_ppo_partial (sqrt : K → K) (hs : ∀ x, 0 ≤ x → 0 ≤ sqrt x ∧ sqrt x * sqrt x = x) (eps : K) (he : 0 < eps)
    (adv : List K) (h2 : 2 ≤ adv.length) :
    ∃ out, normalise sqrt eps adv = some out ∧ out.length = adv.length ∧ mean out = 0 ∧
      (out.map fun x => x ^ 2).sum ≤ (adv.length : K) - 1 ∧
      ∀ (i j : Nat) (a b a' b' : K), adv[i]? = some a → adv[j]? = some b → out[i]? = some a' → out[j]? = some b' →
        (a' < b' ↔ a < b) := by
  have hne : adv ≠ [] := by rintro rfl; simp at h2
  obtain ⟨v, hv⟩ : ∃ v, v = (adv.map fun x => (x - mean adv) ^ 2).sum / ((adv.length : K) - 1) := ⟨_, rfl⟩
  have hlen : (0 : K) < (adv.length : K) - 1 := by
    have : (2 : K) ≤ adv.length := by exact_mod_cast h2
    linarith
  have hsum0 : 0 ≤ (adv.map fun x => (x - mean adv) ^ 2).sum :=
    List.sum_nonneg (by
      intro x hx
      obtain ⟨y, _, rfl⟩ := List.mem_map.1 hx
      positivity)
  have hv0 : 0 ≤ v := by rw [hv]; exact div_nonneg hsum0 hlen.le
  obtain ⟨hs0, hss⟩ := hs v hv0
  have hpos : 0 < sqrt v + eps := by linarith
  have hstd : std sqrt adv = some (sqrt v) := by
    unfold std; rw [if_neg (by omega), hv]
  refine ⟨(adv.map (· - mean adv)).map (· / (sqrt v + eps)), ?_, by simp, ?_, ?_, ?_⟩
  · unfold normalise divAll; rw [hstd]; simp only; rw [if_neg hpos.ne']
  · have : ∀ (l : List K) (d : K), (l.map (· / d)).sum = l.sum / d := by
      intro l d
      induction l with
      | nil => simp
      | cons x l ih => simp [ih, add_div]
    rw [mean, this, sum_centered adv hne]; simp
  · have : ∀ (l : List K) (d m : K), d ≠ 0 → (((l.map (· - m)).map (· / d)).map fun x => x ^ 2).sum =
        (l.map fun x => (x - m) ^ 2).sum / d ^ 2 := by
      intro l d m hd
      induction l with
      | nil => simp
      | cons x l ih => simp only [List.map_cons, List.sum_cons, ih, add_div, div_pow]
    rw [this adv _ _ hpos.ne']
    rw [div_le_iff₀ (by positivity)]
    have hsv : (adv.map fun x => (x - mean adv) ^ 2).sum = ((adv.length : K) - 1) * v := by
      rw [hv]; field_simp
    rw [hsv]
    refine mul_le_mul_of_nonneg_left ?_ hlen.le
    nlinarith
  · intro i j a b a' b' hi hj hi' hj'
    simp only [List.getElem?_map, hi, hj, Option.map_some, Option.some.injEq] at hi' hj'
    subst hi' hj'
    rw [div_lt_div_iff_of_pos_right hpos]
    constructor <;> intro h <;> linarith

/-- C91 is violated: for a minibatch with a single transition the normalised advantages of PPO, NPG and TRPO are not
numbers, and NPG and TRPO already fail when all advantages are equal. -/
theorem C91_violated (sqrt : K → K) (h0 : sqrt 0 = 0) (eps a : K) (n : Nat) :
    normalise sqrt eps [a] = none ∧ normaliseNpg sqrt [a] = none ∧
    normaliseNpg sqrt (List.replicate (n + 2) a) = none := by
  refine ⟨by simp [normalise, std], by simp [normaliseNpg, std], ?_⟩
  have hm : mean (List.replicate (n + 2) a) = a := by
    unfold mean
    rw [List.sum_replicate, List.length_replicate, nsmul_eq_mul]
    rw [mul_div_assoc, mul_div_cancel₀]
    exact_mod_cast (by omega : n + 2 ≠ 0)
  unfold normaliseNpg std
  rw [if_neg (by simp), hm]
  simp only [List.map_replicate, sub_self]
  simp [divAll, h0]

/-- C91 for NPG and TRPO, the part that holds: advantages that are not all equal have normalised advantages, with mean 0,
mean square (over `n - 1`) exactly 1, and the same order. -/
theorem C91_npg_partial (sqrt : K → K) (hs : ∀ x, 0 ≤ x → 0 ≤ sqrt x ∧ sqrt x * sqrt x = x) (adv : List K)
    (hd : ∃ a ∈ adv, ∃ b ∈ adv, a ≠ b) :
    ∃ out, normaliseNpg sqrt adv = some out ∧ out.length = adv.length ∧ mean out = 0 ∧
      (out.map fun x => x ^ 2).sum = (adv.length : K) - 1 ∧
      ∀ (i j : Nat) (a b a' b' : K), adv[i]? = some a → adv[j]? = some b → out[i]? = some a' → out[j]? = some b' →
        (a' < b' ↔ a < b) := by
  obtain ⟨p, hp, q, hq, hpq⟩ := hd
  have h2 : 2 ≤ adv.length := by
    match adv, hp, hq with
    | [x], hp, hq => simp at hp hq; exact absurd (hp.trans hq.symm) hpq
    | x :: y :: l, _, _ => simp
  have hne : adv ≠ [] := by rintro rfl; simp at h2
  obtain ⟨v, hv⟩ : ∃ v, v = (adv.map fun x => (x - mean adv) ^ 2).sum / ((adv.length : K) - 1) := ⟨_, rfl⟩
  have hlen : (0 : K) < (adv.length : K) - 1 := by
    have : (2 : K) ≤ adv.length := by exact_mod_cast h2
    linarith
  have hpos1 : 0 < (adv.map fun x => (x - mean adv) ^ 2).sum := by
    have h0 : ∀ x ∈ adv.map fun x => (x - mean adv) ^ 2, 0 ≤ x := by
      intro x hx
      obtain ⟨y, _, rfl⟩ := List.mem_map.1 hx
      positivity
    have hge : ∀ a ∈ adv, (a - mean adv) ^ 2 ≤ (adv.map fun x => (x - mean adv) ^ 2).sum := fun a ha =>
      List.single_le_sum h0 _ (List.mem_map.2 ⟨a, ha, rfl⟩)
    by_contra hn
    have e1 : p - mean adv = 0 := by
      have := hge p hp; exact pow_eq_zero_iff (two_ne_zero) |>.1 (le_antisymm (this.trans (not_lt.1 hn)) (sq_nonneg _))
    have e2 : q - mean adv = 0 := by
      have := hge q hq; exact pow_eq_zero_iff (two_ne_zero) |>.1 (le_antisymm (this.trans (not_lt.1 hn)) (sq_nonneg _))
    exact hpq (by linarith)
  have hv0 : 0 < v := by rw [hv]; exact div_pos hpos1 hlen
  obtain ⟨hs0, hss⟩ := hs v hv0.le
  have hpos : 0 < sqrt v := lt_of_le_of_ne hs0 fun h => by rw [← h] at hss; simp at hss; exact hv0.ne hss
  have hstd : std sqrt adv = some (sqrt v) := by
    unfold std; rw [if_neg (by omega), hv]
  refine ⟨(adv.map (· - mean adv)).map (· / sqrt v), ?_, by simp, ?_, ?_, ?_⟩
  · unfold normaliseNpg divAll; rw [hstd]; simp only; rw [if_neg hpos.ne']
  · have : ∀ (l : List K) (d : K), (l.map (· / d)).sum = l.sum / d := by
      intro l d
      induction l with
      | nil => simp
      | cons x l ih => simp [ih, add_div]
    rw [mean, this, sum_centered adv hne]; simp
  · have : ∀ (l : List K) (d m : K), d ≠ 0 → (((l.map (· - m)).map (· / d)).map fun x => x ^ 2).sum =
        (l.map fun x => (x - m) ^ 2).sum / d ^ 2 := by
      intro l d m hd
      induction l with
      | nil => simp
      | cons x l ih => simp only [List.map_cons, List.sum_cons, ih, add_div, div_pow]
    rw [this adv _ _ hpos.ne', div_eq_iff (by positivity), pow_two, hss, hv]
    field_simp
  · intro i j a b a' b' hi hj hi' hj'
    simp only [List.getElem?_map, hi, hj, Option.map_some, Option.some.injEq] at hi' hj'
    subst hi' hj'
    rw [div_lt_div_iff_of_pos_right hpos]
    constructor <;> intro h <;> linarith

/-- C91 for real numbers. -/
theorem C91_real_partial (eps : ℝ) (he : 0 < eps) (adv : List ℝ) (h2 : 2 ≤ adv.length) :
    ∃ out, normalise Real.sqrt eps adv = some out ∧ out.length = adv.length ∧ mean out = 0 ∧
      (out.map fun x => x ^ 2).sum ≤ (adv.length : ℝ) - 1 := by
  obtain ⟨out, h1, h2, h3, h4, _⟩ := C91_ppo_partial Real.sqrt
    (fun x hx => ⟨Real.sqrt_nonneg x, Real.mul_self_sqrt hx⟩) eps he adv h2
  exact ⟨out, h1, h2, h3, h4⟩

example : normalise (fun x : ℚ => if x = 4 then 2 else 0) 2 [1, 5, 3] = some [-1 / 2, 1 / 2, 0] := by decide +kernel

example : normaliseNpg (fun x : ℚ => if x = 4 then 2 else 0) [1, 5, 3] = some [-1, 1, 0] := by decide +kernel

end Verif.Ppo
