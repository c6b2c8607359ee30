import Verif.Props.TrpoReturn
import Verif.Props.Ppo

/-! C276: what the policies are like that minimise the loss of PPO. -/

namespace Verif.PpoReturn

open Verif.PolicyGradient Verif.TrustRegion

set_option linter.unusedSectionVars false

variable {S : Type} [Fintype S] {A N : ℕ}

/-! ### Specification -/

/-- A table with the probabilities of the actions in each state. -/
def IsPolicy (π : S → Fin A → ℝ) : Prop := (∀ s a, 0 ≤ π s a) ∧ ∀ s, ∑ a, π s a = 1

/-- A batch of PPO: states, actions and advantages of the transitions, and what the loss of the critic reads. -/
structure Samples (S : Type) (A N : ℕ) where
  state : Fin N → S
  act : Fin N → Fin A
  adv : Fin N → ℝ
  ret : Fin N → ℝ
  vOld : Fin N → ℝ
  value : Fin N → ℝ

/-- The loss of PPO for a batch made by the policy `π`, as a function of the policy `π'` that is trained. -/
noncomputable def lossOf (c : Ppo.Cfg ℝ) (d : Samples S A N) (entropy : (S → Fin A → ℝ) → S → ℝ) (π π' : S → Fin A → ℝ) : ℝ :=
  Ppo.loss c (List.ofFn fun k => ⟨d.adv k, π' (d.state k) (d.act k) / π (d.state k) (d.act k), d.ret k, d.vOld k, d.value k, entropy π' (d.state k)⟩)

/-- No policy has a smaller loss. -/
def Minimal (c : Ppo.Cfg ℝ) (d : Samples S A N) (entropy : (S → Fin A → ℝ) → S → ℝ) (π π' : S → Fin A → ℝ) : Prop :=
  ∀ π'', IsPolicy π'' → lossOf c d entropy π π' ≤ lossOf c d entropy π π''

/-- A batch without errors: made by the policy `π`, which gives all actions a positive probability, every pair of state and action as often as
expected, with the values `V` of that policy, the advantages normalised if `norm`. -/
structure Faithful (e : Env S (Fin A)) (V : S → ℝ) (n : ℕ) (π : S → Fin A → ℝ) (norm : Bool) (eps : ℝ) (d : Samples S A N) : Prop where
  init : ∀ s, 0 ≤ e.init s
  next : ∀ s a s', 0 ≤ e.next s a s'
  ok : e.Ok
  pos : ∀ s a, 0 < π s a
  sum : ∀ s, ∑ a, π s a = 1
  value : ∀ s, ∑ a, π s a * worth e V s a = V s
  epsPos : 0 < eps
  adv : (if norm then Ppo.normalise Real.sqrt eps (List.ofFn fun k => worth e V (d.state k) (d.act k) - V (d.state k))
    else some (List.ofFn fun k => worth e V (d.state k) (d.act k) - V (d.state k))) = some (List.ofFn d.adv)
  often : ∀ f : S → Fin A → ℝ, (∑ k, f (d.state k) (d.act k)) / N * expectedLength e n π =
    expectEpisode e π n (total (fun s a _ => f s a) 1)

/-! ### Lemmas -/

section
variable {B : Type} [Fintype B]

theorem expectFrom_sum {ι : Type} (e : Env S B) (he : e.Ok) (π : S → B → ℝ) (hπ : ∀ s, ∑ a, π s a = 1) (n : ℕ) (s : S) (t : Finset ι)
    (F : ι → List (Step S B) → ℝ) : expectFrom e π n s (fun τ => ∑ i ∈ t, F i τ) = ∑ i ∈ t, expectFrom e π n s (F i) := by
  classical
  induction t using Finset.induction_on with
  | empty => simpa using expectFrom_const e he π hπ n s 0
  | insert i t hi ih =>
    simp only [Finset.sum_insert hi]
    rw [expectFrom_add e π n s (F i) (fun τ => ∑ i ∈ t, F i τ), ih]

variable [DecidableEq S]

/-- How often state `x` is expected to occur. -/
noncomputable def visits (e : Env S B) (π : S → B → ℝ) (n : ℕ) (x : S) : ℝ :=
  expectEpisode e π n (total (fun s _ _ => if s = x then 1 else 0) 1)

theorem total_split (g : S → ℝ) (τ : List (Step S B)) :
    total (fun s _ _ => g s) 1 τ = ∑ x, g x * total (fun s _ _ => if s = x then 1 else 0) 1 τ := by
  induction τ with
  | nil => simp [total]
  | cons y l ih =>
    simp only [total, ih, one_mul, mul_add, Finset.sum_add_distrib]
    simp

theorem expect_visits (e : Env S B) (he : e.Ok) (π : S → B → ℝ) (hπ : ∀ s, ∑ a, π s a = 1) (f : S → B → ℝ) (n : ℕ) :
    expectEpisode e π n (total (fun s a _ => f s a) 1) = ∑ x, visits e π n x * ∑ a, π x a * f x a := by
  have h1 : ∀ s, expectFrom e π n s (total (fun s a _ => f s a) 1) =
      ∑ x, (∑ a, π x a * f x a) * expectFrom e π n s (total (fun s _ _ => if s = x then 1 else 0) 1) := by
    intro s
    rw [expect_mean e he π hπ f (fun s _ => ∑ a, π s a * f s a) (fun s => by rw [← Finset.sum_mul, hπ, one_mul]) n s,
      show total (fun (s : S) (_ : B) (_ : S) => ∑ a, π s a * f s a) 1 =
        fun τ => ∑ x, (∑ a, π x a * f x a) * total (fun s _ _ => if s = x then 1 else 0) 1 τ from funext fun τ => total_split _ τ,
      expectFrom_sum e he π hπ]
    exact Finset.sum_congr rfl fun x _ => expectFrom_mul e π n s _ _
  unfold visits expectEpisode
  simp only [h1, Finset.mul_sum, Finset.sum_mul]
  rw [Finset.sum_comm]
  refine Finset.sum_congr rfl fun x _ => ?_
  rw [Finset.sum_comm]
  exact Finset.sum_congr rfl fun a _ => Finset.sum_congr rfl fun s _ => by ring

theorem expect_nonneg (e : Env S B) (he : e.Ok) (hn : ∀ s a s', 0 ≤ e.next s a s') (π : S → B → ℝ) (h0 : ∀ s a, 0 ≤ π s a)
    (hπ : ∀ s, ∑ a, π s a = 1) (f : S → B → ℝ) (h : ∀ s a, 0 ≤ f s a) (n : ℕ) (s : S) :
    0 ≤ expectFrom e π n s (total (fun s a _ => f s a) 1) := by
  induction n generalizing s with
  | zero => simp [expectFrom, total]
  | succ n ih =>
    rw [expect_step' e he π hπ]
    refine add_nonneg (Finset.sum_nonneg fun a _ => mul_nonneg (h0 s a) (h s a))
      (Finset.sum_nonneg fun a _ => mul_nonneg (h0 s a) (Finset.sum_nonneg fun s' _ => mul_nonneg (hn s a s') ?_))
    split
    · exact le_rfl
    · exact ih s'

/-- States that only the new policy can reach do not exist if the old one tries all actions. -/
theorem expect_reach (e : Env S B) (he : e.Ok) (hn : ∀ s a s', 0 ≤ e.next s a s') (π π' : S → B → ℝ) (h0 : ∀ s a, 0 < π s a)
    (h0' : ∀ s a, 0 ≤ π' s a) (hπ : ∀ s, ∑ a, π s a = 1) (hπ' : ∀ s, ∑ a, π' s a = 1) (g : S → ℝ) (n : ℕ) (s : S)
    (h : ∀ x, 0 < expectFrom e π n s (total (fun s _ _ => if s = x then 1 else 0) 1) → 0 ≤ g x) :
    0 ≤ expectFrom e π' n s (total (fun s _ _ => g s) 1) := by
  induction n generalizing s with
  | zero => simp [expectFrom, total]
  | succ n ih =>
    rw [expect_step' e he π' hπ' (fun s _ => g s), ← Finset.sum_mul, hπ', one_mul]
    have hn0 : ∀ x s', 0 ≤ expectFrom e π n s' (total (fun s _ _ => if s = x then 1 else 0) 1) := fun x s' =>
      expect_nonneg e he hn π (fun s a => (h0 s a).le) hπ (fun s _ => if s = x then 1 else 0) (fun s _ => by split <;> norm_num) n s'
    have hin : ∀ x a s', 0 ≤ e.next s a s' * (if e.ends s a s' then 0 else expectFrom e π n s' (total (fun s _ _ => if s = x then 1 else 0) 1)) := by
      intro x a s'
      refine mul_nonneg (hn s a s') ?_
      split
      · exact le_rfl
      · exact hn0 x s'
    have hin2 : ∀ x a, 0 ≤ π s a * ∑ s', e.next s a s' *
        (if e.ends s a s' then 0 else expectFrom e π n s' (total (fun s _ _ => if s = x then 1 else 0) 1)) :=
      fun x a => mul_nonneg (h0 s a).le (Finset.sum_nonneg fun s' _ => hin x a s')
    refine add_nonneg (h s ?_) (Finset.sum_nonneg fun a _ => mul_nonneg (h0' s a) (Finset.sum_nonneg fun s' _ => ?_))
    · rw [expect_step' e he π hπ (fun y _ => if y = s then 1 else 0), ← Finset.sum_mul, hπ, if_pos rfl, one_mul]
      have := Finset.sum_nonneg fun a (_ : a ∈ Finset.univ) => hin2 s a
      linarith
    · rcases (hn s a s').eq_or_lt with h1 | h1
      · rw [← h1, zero_mul]
      · refine mul_nonneg h1.le ?_
        split
        · exact le_rfl
        · rename_i hends
          refine ih s' fun x hx => h x ?_
          rw [expect_step' e he π hπ (fun y _ => if y = x then 1 else 0), ← Finset.sum_mul, hπ, one_mul]
          have h2 := Finset.single_le_sum (fun b _ => hin2 x b) (Finset.mem_univ a)
          have h3 := Finset.single_le_sum (fun y _ => hin x a y) (Finset.mem_univ s')
          rw [if_neg hends] at h3
          have h4 := mul_le_mul_of_nonneg_left h3 (h0 s a).le
          have h5 := mul_pos (h0 s a) (mul_pos h1 hx)
          have h6 : (0 : ℝ) ≤ if s = x then 1 else 0 := by split <;> norm_num
          linarith

end

theorem return_eq (e : Env S (Fin A)) (he : e.Ok) (V : S → ℝ) (n : ℕ) (hn : 1 ≤ n) (π : S → Fin A → ℝ) (hπ : ∀ s, ∑ a, π s a = 1) :
    expectedReturn e V n π = ∑ s, e.init s * V s + expectEpisode e π n (total (fun s a _ => worth e V s a - V s) 1) := by
  unfold expectedReturn expectEpisode
  rw [← Finset.sum_add_distrib]
  refine Finset.sum_congr rfl fun s _ => ?_
  rw [← mul_add]
  congr 1
  have h1 := expect_telescope e he π hπ V n hn s
  rw [expect_inner e he π hπ] at h1
  have h2 : (fun s a (_ : S) => ∑ s', e.next s a s' * stepDelta e 1 V s a s') = fun s a _ => worth e V s a - V s := by
    funext s a _
    unfold worth stepDelta
    simp only [mul_one, mul_sub, Finset.sum_sub_distrib]
    rw [← Finset.sum_mul, he.next, one_mul]
  rw [h2] at h1
  linarith

section
variable [DecidableEq S] {e : Env S (Fin A)} {V : S → ℝ} {n : ℕ} {π : S → Fin A → ℝ} {norm : Bool} {eps : ℝ} {d : Samples S A N}

theorem Faithful.centred (h : Faithful e V n π norm eps d) (s : S) : ∑ a, π s a * (worth e V s a - V s) = 0 := by
  simp only [mul_sub, Finset.sum_sub_distrib]
  rw [h.value, ← Finset.sum_mul, h.sum, one_mul, sub_self]

theorem Faithful.length_pos (h : Faithful e V n π norm eps d) (hn : 1 ≤ n) : 0 < expectedLength e n π := by
  obtain ⟨m, rfl⟩ : ∃ m, n = m + 1 := ⟨n - 1, by omega⟩
  have h1 : ∀ s, 1 ≤ expectFrom e π (m + 1) s fun τ => (τ.length : ℝ) := by
    intro s
    simp only [length_total]
    rw [expect_step' e h.ok π h.sum (fun _ _ => 1)]
    have h2 : ∀ a s', 0 ≤ e.next s a s' * (if e.ends s a s' then 0 else expectFrom e π m s' (total (fun _ _ _ => 1) 1)) := by
      intro a s'
      refine mul_nonneg (h.next s a s') ?_
      split
      · exact le_rfl
      · exact expect_nonneg e h.ok h.next π (fun s a => (h.pos s a).le) h.sum (fun _ _ => 1) (fun _ _ => zero_le_one) m s'
    have h3 := Finset.sum_nonneg fun a (_ : a ∈ Finset.univ) => mul_nonneg (h.pos s a).le (Finset.sum_nonneg fun s' (_ : s' ∈ Finset.univ) => h2 a s')
    simp only [mul_one, h.sum]
    linarith
  have h4 : (1 : ℝ) ≤ expectedLength e (m + 1) π := by
    rw [← h.ok.init]
    refine Finset.sum_le_sum fun s _ => ?_
    have := mul_le_mul_of_nonneg_left (h1 s) (h.init s)
    linarith
  linarith

theorem Faithful.size_pos (h : Faithful e V n π norm eps d) (hn : 1 ≤ n) : 0 < N := by
  rcases Nat.eq_zero_or_pos N with h0 | h0
  · have h1 := h.often fun _ _ => 1
    have h2 := h.length_pos hn
    have h3 : expectedLength e n π = expectEpisode e π n (total (fun _ _ _ => 1) 1) := by
      unfold expectedLength
      congr 1
      funext τ
      exact length_total τ
    rw [← h3] at h1
    subst h0
    simp at h1
    linarith
  · exact h0

/-- Normalisation divides the advantages by a positive number; their mean is 0 already. -/
theorem Faithful.scale (h : Faithful e V n π norm eps d) (hn : 1 ≤ n) :
    ∃ scale, 0 < scale ∧ (norm = false → scale = 1) ∧ ∀ k, d.adv k = (worth e V (d.state k) (d.act k) - V (d.state k)) / scale := by
  have hadv := h.adv
  cases norm with
  | false =>
    refine ⟨1, one_pos, fun _ => rfl, fun k => ?_⟩
    rw [div_one]
    simp only [Bool.false_eq_true, if_false, Option.some.injEq] at hadv
    exact (congrFun (List.ofFn_injective hadv) k).symm
  | true =>
    simp only [if_true] at hadv
    have hmean : Ppo.mean (List.ofFn fun k => worth e V (d.state k) (d.act k) - V (d.state k)) = 0 := by
      have h1 := h.often fun s a => worth e V s a - V s
      rw [expect_visits e h.ok π h.sum] at h1
      simp only [h.centred, mul_zero, Finset.sum_const_zero] at h1
      unfold Ppo.mean
      rw [List.sum_ofFn, List.length_ofFn]
      exact (mul_eq_zero.mp h1).resolve_right (h.length_pos hn).ne'
    unfold Ppo.normalise at hadv
    rw [hmean] at hadv
    cases hstd : Ppo.std Real.sqrt (List.ofFn fun k => worth e V (d.state k) (d.act k) - V (d.state k)) with
    | none => rw [hstd] at hadv; simp at hadv
    | some sd =>
      rw [hstd] at hadv
      have h0 : 0 ≤ sd := by
        unfold Ppo.std at hstd
        split at hstd
        · simp at hstd
        · rw [← Option.some.inj hstd]; exact Real.sqrt_nonneg _
      have hs : 0 < sd + eps := add_pos_of_nonneg_of_pos h0 h.epsPos
      refine ⟨sd + eps, hs, fun h => by simp at h, fun k => ?_⟩
      simp only [Ppo.divAll, if_neg hs.ne', Option.some.injEq, sub_zero, List.map_id', List.map_ofFn] at hadv
      exact (congrFun (List.ofFn_injective hadv) k).symm

/-- What the clipped objective is in state `s`. -/
noncomputable def inState (c : Ppo.Cfg ℝ) (e : Env S (Fin A)) (V : S → ℝ) (π π' : S → Fin A → ℝ) (scale : ℝ) (s : S) : ℝ :=
  ∑ a, π s a * Ppo.surrogate c (π' s a / π s a) ((worth e V s a - V s) / scale)

theorem Faithful.visits_nonneg (h : Faithful e V n π norm eps d) (x : S) : 0 ≤ visits e π n x :=
  Finset.sum_nonneg fun s _ => mul_nonneg (h.init s)
    (expect_nonneg e h.ok h.next π (fun s a => (h.pos s a).le) h.sum (fun s _ => if s = x then 1 else 0) (fun s _ => by split <;> norm_num) n s)

theorem Faithful.visits_pos (h : Faithful e V n π norm eps d) (hn : 1 ≤ n) (x : S) : 0 < visits e π n x ↔ ∃ k, d.state k = x := by
  have hN : (0 : ℝ) < N := by exact_mod_cast h.size_pos hn
  have h1 := h.often fun s _ => if s = x then 1 else 0
  change _ = visits e π n x at h1
  rw [← h1]
  constructor
  · intro h2
    by_contra hne
    push Not at hne
    simp [hne] at h2
  · rintro ⟨k, hk⟩
    refine mul_pos (div_pos ?_ hN) (h.length_pos hn)
    have h2 := Finset.single_le_sum (f := fun k => if d.state k = x then (1 : ℝ) else 0) (fun i _ => by split <;> norm_num) (Finset.mem_univ k)
    simp only [hk, if_true] at h2
    linarith

/-- Losses are compared state by state. -/
theorem Faithful.compare (h : Faithful e V n π norm eps d) (hn : 1 ≤ n) (c : Ppo.Cfg ℝ) (hent : c.entCoef = 0)
    (entropy : (S → Fin A → ℝ) → S → ℝ) (scale : ℝ) (hadv : ∀ k, d.adv k = (worth e V (d.state k) (d.act k) - V (d.state k)) / scale)
    (π₁ π₂ : S → Fin A → ℝ) :
    (lossOf c d entropy π π₁ - lossOf c d entropy π π₂) * expectedLength e n π =
      ∑ x, visits e π n x * (inState c e V π π₂ scale x - inState c e V π π₁ scale x) := by
  have hone : ∀ π', lossOf c d entropy π π' * expectedLength e n π = -(∑ x, visits e π n x * inState c e V π π' scale x) +
      c.vfCoef * Ppo.mean (List.ofFn fun k => Ppo.valueLoss c (d.ret k) (d.vOld k) (d.value k)) * expectedLength e n π := by
    intro π'
    have h1 := h.often fun s a => Ppo.surrogate c (π' s a / π s a) ((worth e V s a - V s) / scale)
    rw [expect_visits e h.ok π h.sum] at h1
    unfold inState
    rw [← h1]
    unfold lossOf Ppo.loss
    simp only [List.map_ofFn, Function.comp_def, hadv, hent, zero_mul, sub_zero]
    rw [Ppo.mean, List.sum_ofFn, List.length_ofFn]
    ring
  rw [sub_mul, hone, hone]
  simp only [mul_sub, Finset.sum_sub_distrib]
  ring

theorem Faithful.le_iff (h : Faithful e V n π norm eps d) (hn : 1 ≤ n) (c : Ppo.Cfg ℝ) (hent : c.entCoef = 0)
    (entropy : (S → Fin A → ℝ) → S → ℝ) (scale : ℝ) (hadv : ∀ k, d.adv k = (worth e V (d.state k) (d.act k) - V (d.state k)) / scale)
    (π₁ π₂ : S → Fin A → ℝ) :
    lossOf c d entropy π π₁ ≤ lossOf c d entropy π π₂ ↔
      ∑ x, visits e π n x * inState c e V π π₂ scale x ≤ ∑ x, visits e π n x * inState c e V π π₁ scale x := by
  have h1 := h.compare hn c hent entropy scale hadv π₁ π₂
  have h2 := h.length_pos hn
  simp only [mul_sub, Finset.sum_sub_distrib] at h1
  constructor
  · intro h3
    have := mul_nonpos_of_nonpos_of_nonneg (sub_nonpos.mpr h3) h2.le
    linarith
  · intro h3
    by_contra h4
    have := mul_pos (sub_pos.mpr (not_le.mp h4)) h2
    linarith

/-- With the old policy the objective is 0. -/
theorem Faithful.inState_old (h : Faithful e V n π norm eps d) (c : Ppo.Cfg ℝ) (he : 0 ≤ c.epsClip) (hd : c.dualClip = none) (scale : ℝ) (s : S) :
    inState c e V π π scale s = 0 := by
  unfold inState
  have : ∀ a, π s a * Ppo.surrogate c (π s a / π s a) ((worth e V s a - V s) / scale) = π s a * (worth e V s a - V s) / scale := by
    intro a
    rw [div_self (h.pos s a).ne', (Ppo.C89_clipped c he hd 1 _).2.1 (by linarith) (by linarith), one_mul, mul_div_assoc]
  simp only [this]
  rw [← Finset.sum_div, h.centred, zero_div]

/-- The objective is a lower bound of how much better the actions of the new policy are. -/
theorem Faithful.inState_le (h : Faithful e V n π norm eps d) (c : Ppo.Cfg ℝ) (he : 0 ≤ c.epsClip) (hd : c.dualClip = none) (scale : ℝ)
    (π' : S → Fin A → ℝ) (s : S) : inState c e V π π' scale s ≤ (∑ a, π' s a * (worth e V s a - V s)) / scale := by
  unfold inState
  rw [Finset.sum_div]
  refine Finset.sum_le_sum fun a _ => ?_
  have h1 := mul_le_mul_of_nonneg_left (Ppo.C89_clipped c he hd (π' s a / π s a) ((worth e V s a - V s) / scale)).1 (h.pos s a).le
  refine h1.trans (le_of_eq ?_)
  have := (h.pos s a).ne'
  field_simp

/-- The largest value of the objective of a transition. -/
noncomputable def top (c : Ppo.Cfg ℝ) (adv : ℝ) : ℝ := if 0 < adv then (1 + c.epsClip) * adv else (1 - c.epsClip) * adv

theorem surrogate_top (c : Ppo.Cfg ℝ) (he : 0 ≤ c.epsClip) (hd : c.dualClip = none) (ratio adv : ℝ) :
    Ppo.surrogate c ratio adv ≤ top c adv ∧
    (Ppo.surrogate c ratio adv = top c adv ↔ (0 < adv → 1 + c.epsClip ≤ ratio) ∧ (adv < 0 → ratio ≤ 1 - c.epsClip)) := by
  have hv : c.valid = true := by simp [Ppo.Cfg.valid, hd]
  have hc := Ppo.C89_clipped c he hd ratio adv
  have hg := Ppo.C89_gain c he hv ratio adv
  unfold top
  rcases lt_trichotomy adv 0 with h | h | h
  · rw [if_neg (by linarith)]
    refine ⟨hg.2 h (Or.inl hd), fun h1 => ⟨fun h2 => by linarith, fun _ => ?_⟩, fun h1 => hc.2.2.2.1 h.le (h1.2 h)⟩
    have h2 := hc.1
    rw [h1] at h2
    exact (mul_le_mul_right_of_neg h).mp h2
  · subst h
    rw [if_neg (lt_irrefl _), mul_zero, Ppo.surrogate_none c hd]
    simp
  · rw [if_pos h]
    refine ⟨hg.1 h.le, fun h1 => ⟨fun _ => ?_, fun h2 => by linarith⟩, fun h1 => hc.2.2.1 h.le (h1.1 h)⟩
    have h2 := hc.1
    rw [h1] at h2
    exact le_of_mul_le_mul_right h2 h

/-- A policy that only takes actions that are better than the average. -/
noncomputable def greedy (e : Env S (Fin A)) (V : S → ℝ) (π : S → Fin A → ℝ) (s : S) (a : Fin A) : ℝ :=
  if ∃ b, 0 < worth e V s b - V s then
    if 0 < worth e V s a - V s then π s a / ∑ b with 0 < worth e V s b - V s, π s b else 0
  else π s a

theorem Faithful.greedy_sum_pos (h : Faithful e V n π norm eps d) (s : S) (hb : ∃ b, 0 < worth e V s b - V s) :
    0 < ∑ b with 0 < worth e V s b - V s, π s b := by
  obtain ⟨b, hb⟩ := hb
  exact Finset.sum_pos (fun a _ => h.pos s a) ⟨b, by simpa using hb⟩

theorem Faithful.greedy_isPolicy (h : Faithful e V n π norm eps d) : IsPolicy (greedy e V π) := by
  constructor
  · intro s a
    unfold greedy
    split
    · rename_i hb
      split
      · exact (div_pos (h.pos s a) (h.greedy_sum_pos s hb)).le
      · exact le_rfl
    · exact (h.pos s a).le
  · intro s
    unfold greedy
    by_cases hb : ∃ b, 0 < worth e V s b - V s
    · simp only [if_pos hb]
      rw [← Finset.sum_filter, ← Finset.sum_div]
      exact div_self (h.greedy_sum_pos s hb).ne'
    · simp only [if_neg hb]
      exact h.sum s

/-- Without a better action there is no worse one. -/
theorem Faithful.no_worse (h : Faithful e V n π norm eps d) (s : S) (hb : ¬∃ b, 0 < worth e V s b - V s) (a : Fin A) : worth e V s a - V s = 0 := by
  push Not at hb
  have h1 := (Finset.sum_eq_zero_iff_of_nonpos (f := fun a => π s a * (worth e V s a - V s)) (s := Finset.univ)
    fun a _ => mul_nonpos_of_nonneg_of_nonpos (h.pos s a).le (hb a)).mp (h.centred s) a (Finset.mem_univ a)
  exact (mul_eq_zero.mp h1).resolve_left (h.pos s a).ne'

theorem Faithful.inState_top (h : Faithful e V n π norm eps d) (c : Ppo.Cfg ℝ) (he : 0 ≤ c.epsClip) (hd : c.dualClip = none) (scale : ℝ)
    (hs : 0 < scale) (π' : S → Fin A → ℝ) (s : S) :
    inState c e V π π' scale s ≤ ∑ a, π s a * top c ((worth e V s a - V s) / scale) ∧
    (inState c e V π π' scale s = ∑ a, π s a * top c ((worth e V s a - V s) / scale) ↔
      ∀ a, (V s < worth e V s a → (1 + c.epsClip) * π s a ≤ π' s a) ∧ (worth e V s a < V s → π' s a ≤ (1 - c.epsClip) * π s a)) := by
  have hle : ∀ a ∈ Finset.univ, π s a * Ppo.surrogate c (π' s a / π s a) ((worth e V s a - V s) / scale) ≤
      π s a * top c ((worth e V s a - V s) / scale) := fun a _ =>
    mul_le_mul_of_nonneg_left (surrogate_top c he hd _ _).1 (h.pos s a).le
  refine ⟨Finset.sum_le_sum hle, ?_⟩
  unfold inState
  rw [Finset.sum_eq_sum_iff_of_le hle]
  refine ⟨fun h1 a => ?_, fun h1 a _ => ?_⟩
  · have h2 := mul_left_cancel₀ (h.pos s a).ne' (h1 a (Finset.mem_univ a))
    obtain ⟨h3, h4⟩ := (surrogate_top c he hd _ _).2.mp h2
    exact ⟨fun hw => (le_div_iff₀ (h.pos s a)).mp (h3 (div_pos (sub_pos.mpr hw) hs)),
      fun hw => (div_le_iff₀ (h.pos s a)).mp (h4 (div_neg_of_neg_of_pos (sub_neg.mpr hw) hs))⟩
  · congr 1
    refine (surrogate_top c he hd _ _).2.mpr ⟨fun hw => ?_, fun hw => ?_⟩
    · refine (le_div_iff₀ (h.pos s a)).mpr ((h1 a).1 ?_)
      by_contra h2
      have := div_nonpos_of_nonpos_of_nonneg (sub_nonpos.mpr (not_lt.mp h2)) hs.le
      linarith
    · refine (div_le_iff₀ (h.pos s a)).mpr ((h1 a).2 ?_)
      by_contra h2
      have := div_nonneg (sub_nonneg.mpr (not_lt.mp h2)) hs.le
      linarith

/-! ### C276 -/

/-- **C276.** A policy that minimises the loss of PPO over a batch without errors has an expected return that is not lower than that of the policy
that made the batch, whatever `eps_clip` is (`ent_coef = 0`, no dual clipping, tables of probabilities). -/
theorem C276_return (h : Faithful e V n π norm eps d) (hn : 1 ≤ n) (c : Ppo.Cfg ℝ) (he : 0 ≤ c.epsClip) (hd : c.dualClip = none)
    (hent : c.entCoef = 0) (entropy : (S → Fin A → ℝ) → S → ℝ) (π' : S → Fin A → ℝ) (hπ' : IsPolicy π') (hmin : Minimal c d entropy π π') :
    expectedReturn e V n π ≤ expectedReturn e V n π' := by
  obtain ⟨scale, hs, -, hadv⟩ := h.scale hn
  have hgood : ∀ s, 0 < visits e π n s → 0 ≤ ∑ a, π' s a * (worth e V s a - V s) := by
    intro s hv
    have h1 := (h.le_iff hn c hent entropy scale hadv π' (Function.update π' s (π s))).mp (hmin _ ⟨fun x a => by
      by_cases hx : x = s
      · subst hx; rw [Function.update_self]; exact (h.pos x a).le
      · rw [Function.update_of_ne hx]; exact hπ'.1 x a, fun x => by
      by_cases hx : x = s
      · subst hx; rw [Function.update_self]; exact h.sum x
      · rw [Function.update_of_ne hx]; exact hπ'.2 x⟩)
    rw [← Finset.add_sum_erase _ _ (Finset.mem_univ s), ← Finset.add_sum_erase (a := s) _ _ (Finset.mem_univ s)] at h1
    have h2 : ∑ x ∈ Finset.univ.erase s, visits e π n x * inState c e V π (Function.update π' s (π s)) scale x =
        ∑ x ∈ Finset.univ.erase s, visits e π n x * inState c e V π π' scale x := by
      refine Finset.sum_congr rfl fun x hx => ?_
      unfold inState
      rw [Function.update_of_ne (Finset.ne_of_mem_erase hx)]
    have h3 : inState c e V π (Function.update π' s (π s)) scale s = 0 := by
      rw [← h.inState_old c he hd scale s]
      unfold inState
      rw [Function.update_self]
    rw [h2, h3, mul_zero, zero_add] at h1
    have h4 : 0 ≤ inState c e V π π' scale s := by
      by_contra h5
      have := mul_neg_of_pos_of_neg hv (not_le.mp h5)
      linarith
    have h5 := h4.trans (h.inState_le c he hd scale π' s)
    by_contra h6
    have := div_neg_of_neg_of_pos (not_le.mp h6) hs
    linarith
  rw [return_eq e h.ok V n hn π h.sum, return_eq e h.ok V n hn π' hπ'.2, expect_visits e h.ok π h.sum]
  simp only [h.centred, mul_zero, Finset.sum_const_zero, add_zero]
  have h1 : 0 ≤ expectEpisode e π' n (total (fun s a _ => worth e V s a - V s) 1) := by
    refine Finset.sum_nonneg fun s _ => ?_
    rcases (h.init s).eq_or_lt with h0 | h0
    · rw [← h0, zero_mul]
    · refine mul_nonneg h0.le ?_
      rw [expect_mean e h.ok π' hπ'.2 (fun s a => worth e V s a - V s) (fun s _ => ∑ a, π' s a * (worth e V s a - V s))
        (fun s => by rw [← Finset.sum_mul, hπ'.2, one_mul]) n s]
      refine expect_reach e h.ok h.next π π' h.pos hπ'.1 h.sum hπ'.2 _ n s fun x hx => hgood x ?_
      refine lt_of_lt_of_le (mul_pos h0 hx) ?_
      exact Finset.single_le_sum (f := fun s => e.init s * expectFrom e π n s (total (fun s _ _ => if s = x then 1 else 0) 1))
        (fun y _ => mul_nonneg (h.init y) (expect_nonneg e h.ok h.next π (fun s a => (h.pos s a).le) h.sum
          (fun s _ => if s = x then 1 else 0) (fun s _ => by split <;> norm_num) n y)) (Finset.mem_univ s)
  linarith

/-- C276 for policies that need not minimise the loss: the expected return grows at least by the decrease of the loss (times the number of steps
and the factor of the normalisation), less a penalty for the change of the policy that is absent if episodes have one step only. -/
theorem C276_bound (h : Faithful e V n π norm eps d) (hn : 1 ≤ n) (c : Ppo.Cfg ℝ) (he : 0 ≤ c.epsClip) (hd : c.dualClip = none)
    (hent : c.entCoef = 0) (entropy : (S → Fin A → ℝ) → S → ℝ) (M : ℝ) (hM : ∀ s a, |worth e V s a - V s| ≤ M) :
    ∃ scale, 0 < scale ∧ (norm = false → scale = 1) ∧ ∀ π' : S → Fin A → ℝ, IsPolicy π' →
      expectedReturn e V n π + scale * expectedLength e n π * (lossOf c d entropy π π - lossOf c d entropy π π') -
        (n - 1) * M * expectEpisode e π n (total (fun s _ _ => ∑ a, |π' s a - π s a|) 1) ≤ expectedReturn e V n π' := by
  obtain ⟨scale, hs, h1, hadv⟩ := h.scale hn
  refine ⟨scale, hs, h1, fun π' hπ' => ?_⟩
  have hS : Nonempty S := by
    by_contra hS
    rw [not_nonempty_iff] at hS
    exact absurd h.ok.init (by simp)
  obtain ⟨s0⟩ := hS
  have hM0 : 0 ≤ M := by
    rcases Nat.eq_zero_or_pos A with h0 | h0
    · subst h0; exact absurd (h.sum s0) (by simp)
    · exact (abs_nonneg _).trans (hM s0 ⟨0, h0⟩)
  have hch := fun s => mul_le_mul_of_nonneg_left (expect_change e h.ok h.next π π' (fun s a => (h.pos s a).le) hπ'.1 h.sum hπ'.2
    (fun s a => worth e V s a - V s) M hM0 hM (n - 1) n (by omega) s) (h.init s)
  have hsum := Finset.sum_le_sum fun s (_ : s ∈ Finset.univ) => hch s
  simp only [mul_sub, Finset.sum_sub_distrib] at hsum
  have e1 : ((n - 1 : ℕ) : ℝ) = n - 1 := by rw [Nat.cast_sub hn]; simp
  have e2 : ∑ s, e.init s * (((n - 1 : ℕ) : ℝ) * M * expectFrom e π n s (total (fun s _ _ => ∑ a, |π' s a - π s a|) 1)) =
      (n - 1) * M * expectEpisode e π n (total (fun s _ _ => ∑ a, |π' s a - π s a|) 1) := by
    unfold expectEpisode
    rw [Finset.mul_sum, e1]
    exact Finset.sum_congr rfl fun s _ => by ring
  rw [e2] at hsum
  have hcmp := h.compare hn c hent entropy scale hadv π π'
  simp only [h.inState_old c he hd, sub_zero] at hcmp
  have hle : ∑ x, visits e π n x * inState c e V π π' scale x ≤ ∑ x, visits e π n x * ((∑ a, π' x a * (worth e V x a - V x)) / scale) :=
    Finset.sum_le_sum fun x _ => mul_le_mul_of_nonneg_left (h.inState_le c he hd scale π' x) (h.visits_nonneg x)
  rw [← hcmp] at hle
  have hdiv : ∑ x, visits e π n x * ((∑ a, π' x a * (worth e V x a - V x)) / scale) =
      (∑ s, e.init s * expectFrom e π n s (total (fun s _ _ => ∑ a, π' s a * (worth e V s a - V s)) 1)) / scale := by
    have := expect_visits e h.ok π h.sum (fun s _ => ∑ a, π' s a * (worth e V s a - V s)) n
    unfold expectEpisode at this
    rw [this, Finset.sum_div]
    refine Finset.sum_congr rfl fun x _ => ?_
    rw [← Finset.sum_mul, h.sum, one_mul, mul_div_assoc]
  rw [hdiv, le_div_iff₀ hs] at hle
  rw [return_eq e h.ok V n hn π h.sum, return_eq e h.ok V n hn π' hπ'.2, expect_visits e h.ok π h.sum]
  simp only [h.centred, mul_zero, Finset.sum_const_zero, add_zero]
  simp only [mul_sub] at hle
  unfold expectEpisode at *
  simp only [mul_sub, Finset.sum_sub_distrib] at *
  linarith


/-- C276, how far the minimisers are from the old policy: if in all states of the batch the actions that are better than the average have
together a probability of at most `1 / (1 + eps_clip)`, then the policies that minimise the loss are those whose probabilities of all better
actions have grown by the factor `1 + eps_clip` *or more*, and those of all worse actions shrunk by the factor `1 - eps_clip` *or more*. -/
theorem C276_minimal_partial (h : Faithful e V n π norm eps d) (hn : 1 ≤ n) (c : Ppo.Cfg ℝ) (he : 0 ≤ c.epsClip) (he1 : c.epsClip ≤ 1)
    (hd : c.dualClip = none) (hent : c.entCoef = 0) (entropy : (S → Fin A → ℝ) → S → ℝ)
    (hroom : ∀ k, (∑ a with V (d.state k) < worth e V (d.state k) a, π (d.state k) a) * (1 + c.epsClip) ≤ 1)
    (π' : S → Fin A → ℝ) : Minimal c d entropy π π' ↔
      ∀ k a, (V (d.state k) < worth e V (d.state k) a → (1 + c.epsClip) * π (d.state k) a ≤ π' (d.state k) a) ∧
        (worth e V (d.state k) a < V (d.state k) → π' (d.state k) a ≤ (1 - c.epsClip) * π (d.state k) a) := by
  obtain ⟨scale, hs, -, hadv⟩ := h.scale hn
  have htop : ∀ (π' : S → Fin A → ℝ) (s : S), visits e π n s * inState c e V π π' scale s ≤
      visits e π n s * ∑ a, π s a * top c ((worth e V s a - V s) / scale) := fun π' s =>
    mul_le_mul_of_nonneg_left (h.inState_top c he hd scale hs π' s).1 (h.visits_nonneg s)
  have hgreedy : ∑ x, visits e π n x * inState c e V π (greedy e V π) scale x =
      ∑ x, visits e π n x * ∑ a, π x a * top c ((worth e V x a - V x) / scale) := by
    refine Finset.sum_congr rfl fun x _ => ?_
    rcases (h.visits_nonneg x).eq_or_lt with h0 | h0
    · rw [← h0, zero_mul, zero_mul]
    · obtain ⟨k, rfl⟩ := (h.visits_pos hn x).mp h0
      congr 1
      rw [(h.inState_top c he hd scale hs (greedy e V π) (d.state k)).2]
      intro a
      unfold greedy
      by_cases hb : ∃ b, 0 < worth e V (d.state k) b - V (d.state k)
      · have hp := h.greedy_sum_pos _ hb
        have hr := hroom k
        simp only [← sub_pos (b := V (d.state k))] at hr
        simp only [if_pos hb]
        refine ⟨fun hw => ?_, fun hw => ?_⟩
        · rw [if_pos (sub_pos.mpr hw), le_div_iff₀ hp]
          have := mul_le_mul_of_nonneg_right hr (h.pos (d.state k) a).le
          linarith
        · rw [if_neg (by linarith)]
          exact mul_nonneg (by linarith) (h.pos _ _).le
      · have := h.no_worse _ hb a
        exact ⟨fun hw => by linarith, fun hw => by linarith⟩
  constructor
  · intro hmin k
    have h1 := (h.le_iff hn c hent entropy scale hadv π' (greedy e V π)).mp (hmin _ h.greedy_isPolicy)
    rw [hgreedy] at h1
    have h2 := (Finset.sum_eq_sum_iff_of_le fun x _ => htop π' x).mp (le_antisymm (Finset.sum_le_sum fun x _ => htop π' x) h1)
      (d.state k) (Finset.mem_univ _)
    have hv := (h.visits_pos hn (d.state k)).mpr ⟨k, rfl⟩
    exact (h.inState_top c he hd scale hs π' (d.state k)).2.mp (mul_left_cancel₀ hv.ne' h2)
  · intro h1 π'' _
    rw [h.le_iff hn c hent entropy scale hadv]
    refine (Finset.sum_le_sum fun x _ => htop π'' x).trans (le_of_eq (Finset.sum_congr rfl fun x _ => ?_))
    rcases (h.visits_nonneg x).eq_or_lt with h0 | h0
    · rw [← h0, zero_mul, zero_mul]
    · obtain ⟨k, rfl⟩ := (h.visits_pos hn x).mp h0
      congr 1
      exact ((h.inState_top c he hd scale hs π' (d.state k)).2.mpr (h1 k)).symm

/-- C276: then some probabilities have left the range in which the objective is not clipped, unless the better actions are at least as likely as the
worse ones: in a state without average actions the probability of the better actions has grown by `eps_clip` times that of the worse ones. -/
theorem C276_beyond_partial (h : Faithful e V n π norm eps d) (hn : 1 ≤ n) (c : Ppo.Cfg ℝ) (he : 0 ≤ c.epsClip) (he1 : c.epsClip ≤ 1)
    (hd : c.dualClip = none) (hent : c.entCoef = 0) (entropy : (S → Fin A → ℝ) → S → ℝ)
    (hroom : ∀ k, (∑ a with V (d.state k) < worth e V (d.state k) a, π (d.state k) a) * (1 + c.epsClip) ≤ 1)
    (π' : S → Fin A → ℝ) (hπ' : IsPolicy π') (hmin : Minimal c d entropy π π') (k : Fin N)
    (hall : ∀ a, worth e V (d.state k) a ≠ V (d.state k)) :
    ∑ a with V (d.state k) < worth e V (d.state k) a, π (d.state k) a +
        c.epsClip * ∑ a with worth e V (d.state k) a < V (d.state k), π (d.state k) a ≤
      ∑ a with V (d.state k) < worth e V (d.state k) a, π' (d.state k) a := by
  have h1 := ((C276_minimal_partial h hn c he he1 hd hent entropy hroom π').mp hmin) k
  have hsplit : ∀ f : Fin A → ℝ, ∑ a with V (d.state k) < worth e V (d.state k) a, f a + ∑ a with worth e V (d.state k) a < V (d.state k), f a = ∑ a, f a := by
    intro f
    rw [← Finset.sum_filter_add_sum_filter_not Finset.univ (fun a => V (d.state k) < worth e V (d.state k) a) f]
    congr 1
    refine Finset.sum_congr (Finset.filter_congr fun a _ => ?_) fun _ _ => rfl
    rw [not_lt]
    exact ⟨le_of_lt, fun hle => lt_of_le_of_ne hle (hall a)⟩
  have h2 := hsplit (π (d.state k))
  have h3 := hsplit (π' (d.state k))
  rw [h.sum] at h2
  rw [hπ'.2] at h3
  have h4 : ∑ a with worth e V (d.state k) a < V (d.state k), π' (d.state k) a ≤
      ∑ a with worth e V (d.state k) a < V (d.state k), (1 - c.epsClip) * π (d.state k) a :=
    Finset.sum_le_sum fun a ha => (h1 a).2 (by simpa using ha)
  rw [← Finset.mul_sum] at h4
  linarith

end

/-! ### Violations and examples -/

/-- One step; action 0 has the reward 4, the other three have the reward 0. -/
noncomputable def arms : Env (Fin 1) (Fin 4) where
  init _ := 1
  next _ _ _ := 1
  rew _ a _ := if a = 0 then 4 else 0
  ends _ _ _ := true

/-- Each action once. -/
noncomputable def pulls : Samples (Fin 1) 4 4 := ⟨fun _ => 0, id, fun k => if k = 0 then 3 else -1, fun k => if k = 0 then 4 else 0, fun _ => 1, fun _ => 1⟩

theorem arms_worth (s : Fin 1) (a : Fin 4) : worth arms (fun _ => 1) s a = if a = 0 then 4 else 0 := by
  unfold worth arms
  simp

theorem pulls_faithful : Faithful arms (fun _ => 1) 1 (fun _ _ => 1 / 4) false (1 / 10 ^ 8) pulls where
  init _ := zero_le_one
  next _ _ _ := zero_le_one
  ok := ⟨by simp [arms], by simp [arms]⟩
  pos _ _ := by norm_num
  sum _ := by norm_num
  value s := by simp only [arms_worth, Fin.sum_univ_four]; norm_num [show ((2 : Fin 4) = 0) = False by decide, show ((3 : Fin 4) = 0) = False by decide]
  epsPos := by norm_num
  adv := by
    simp only [arms_worth, Bool.false_eq_true, if_false]
    congr 2
    funext k
    unfold pulls
    by_cases h : k = 0
    · simp [h]; norm_num
    · simp [h]
  often f := by
    unfold expectedLength expectEpisode
    simp [expectFrom, Fin.sum_univ_four, arms, total, pulls]
    ring

/-- **C276 violated.** A policy that minimises the loss is not within `eps_clip` of the old one: here, with `eps_clip = 0.2`, all of them give the
best action at least 1.6 times its old probability, and one gives it four times its old probability. -/
theorem C276_violated (entropy : (Fin 1 → Fin 4 → ℝ) → Fin 1 → ℝ) :
    Faithful arms (fun _ => 1) 1 (fun _ _ => 1 / 4) false (1 / 10 ^ 8) pulls ∧
    (∀ π', IsPolicy π' → Minimal ⟨1 / 5, none, false, 1 / 2, 0⟩ pulls entropy (fun _ _ => 1 / 4) π' → 8 / 5 ≤ π' 0 0 / (1 / 4)) ∧
    ∃ π', IsPolicy π' ∧ Minimal ⟨1 / 5, none, false, 1 / 2, 0⟩ pulls entropy (fun _ _ => 1 / 4) π' ∧ π' 0 0 / (1 / 4) = 4 := by
  have hroom : ∀ k : Fin 4, (∑ a with (1 : ℝ) < worth arms (fun _ => 1) (pulls.state k) a, (1 / 4 : ℝ)) * (1 + 1 / 5) ≤ 1 := by
    intro k
    simp only [arms_worth, Finset.sum_filter, Fin.sum_univ_four]
    norm_num [show ((2 : Fin 4) = 0) = False by decide, show ((3 : Fin 4) = 0) = False by decide]
  refine ⟨pulls_faithful, fun π' hπ' hmin => ?_, fun _ a => if a = 0 then 1 else 0, ⟨fun _ a => by dsimp only; split <;> norm_num, fun _ => by simp⟩, ?_, by simp⟩
  · have := C276_beyond_partial pulls_faithful le_rfl ⟨1 / 5, none, false, 1 / 2, 0⟩ (by norm_num) (by norm_num) rfl rfl entropy hroom π' hπ' hmin 0
      (fun a => by rw [arms_worth]; split <;> norm_num)
    simp only [arms_worth, Finset.sum_filter, Fin.sum_univ_four] at this
    norm_num [show ((2 : Fin 4) = 0) = False by decide, show ((3 : Fin 4) = 0) = False by decide] at this
    have e0 : pulls.state 0 = 0 := rfl
    rw [e0] at this
    linarith
  · refine (C276_minimal_partial pulls_faithful le_rfl ⟨1 / 5, none, false, 1 / 2, 0⟩ (by norm_num) (by norm_num) rfl rfl entropy hroom _).mpr ?_
    intro k a
    rw [arms_worth]
    fin_cases a <;> norm_num

/-- The same batch with normalised advantages: their standard deviation is 2. -/
example : Faithful arms (fun _ => 1) 1 (fun _ _ => 1 / 4) true (1 / 10 ^ 8)
    { pulls with adv := fun k => (if k = 0 then 3 else -1) / (2 + 1 / 10 ^ 8) } where
  init := pulls_faithful.init
  next := pulls_faithful.next
  ok := pulls_faithful.ok
  pos := pulls_faithful.pos
  sum := pulls_faithful.sum
  value := pulls_faithful.value
  epsPos := pulls_faithful.epsPos
  often := pulls_faithful.often
  adv := by
    have h4 : Real.sqrt 4 = 2 := by rw [show (4 : ℝ) = 2 ^ 2 by norm_num]; exact Real.sqrt_sq (by norm_num)
    have hl : (List.ofFn fun k : Fin 4 => worth arms (fun _ => 1) (pulls.state k) (pulls.act k) - 1) = [3, -1, -1, -1] := by
      simp only [arms_worth, List.ofFn_succ, List.ofFn_zero, pulls]
      norm_num [Fin.ext_iff]
    have hr : (List.ofFn fun k : Fin 4 => (if k = 0 then (3 : ℝ) else -1) / (2 + 1 / 10 ^ 8)) =
        [3 / (2 + 1 / 10 ^ 8), -1 / (2 + 1 / 10 ^ 8), -1 / (2 + 1 / 10 ^ 8), -1 / (2 + 1 / 10 ^ 8)] := by
      simp only [List.ofFn_succ, List.ofFn_zero]
      norm_num [Fin.ext_iff]
    rw [if_pos rfl]
    show Ppo.normalise Real.sqrt (1 / 10 ^ 8) (List.ofFn fun k : Fin 4 => worth arms (fun _ => 1) (pulls.state k) (pulls.act k) - 1) = _
    rw [hl, hr]
    unfold Ppo.normalise Ppo.std Ppo.divAll Ppo.mean
    norm_num [h4]

/-- The first action leads to state 1 or 2; there action 0 has the reward 1 and action 1 the reward -1. -/
noncomputable def fork : Env (Fin 3) (Fin 2) where
  init s := if s = 0 then 1 else 0
  next s a s' := if s = 0 then (if s' = (if a = 0 then 1 else 2) then 1 else 0) else if s' = 0 then 1 else 0
  rew s a _ := if s = 0 then 0 else if a = 0 then 1 else -1
  ends s _ _ := s ≠ 0

/-- Each action twice in state 0 and once in the others. -/
noncomputable def forkSamples : Samples (Fin 3) 2 8 where
  state := ![0, 0, 0, 0, 1, 1, 2, 2]
  act := ![0, 0, 1, 1, 0, 1, 0, 1]
  adv := ![0, 0, 0, 0, 1, -1, 1, -1]
  ret := ![0, 0, 0, 0, 1, -1, 1, -1]
  vOld _ := 0
  value _ := 0

theorem fork_worth (s : Fin 3) (a : Fin 2) : worth fork (fun _ => 0) s a = if s = 0 then 0 else if a = 0 then 1 else -1 := by
  unfold worth fork
  fin_cases s <;> fin_cases a <;> simp [Fin.sum_univ_three]

theorem fork_faithful : Faithful fork (fun _ => 0) 2 (fun _ _ => 1 / 2) false (1 / 10 ^ 8) forkSamples where
  init s := by unfold fork; fin_cases s <;> norm_num
  next s a s' := by unfold fork; dsimp only; split_ifs <;> norm_num
  ok := ⟨by simp [fork], fun s a => by unfold fork; fin_cases s <;> fin_cases a <;> simp⟩
  pos _ _ := by norm_num
  sum _ := by norm_num
  value s := by
    simp only [fork_worth]
    fin_cases s <;> norm_num
  epsPos := by norm_num
  adv := by
    simp only [fork_worth, Bool.false_eq_true, if_false]
    congr 2
    funext k
    unfold forkSamples
    fin_cases k <;> simp
  often f := by
    unfold expectedLength expectEpisode
    simp [expectFrom, Fin.sum_univ_two, Fin.sum_univ_three, Fin.sum_univ_eight, fork, total, forkSamples]
    ring

/-- Better in state 1, worse in state 2, and more often in state 2. -/
noncomputable def drift (s : Fin 3) (a : Fin 2) : ℝ :=
  if s = 0 then (if a = 0 then 2 / 5 else 3 / 5) else if s = 1 then (if a = 0 then 3 / 5 else 2 / 5) else if a = 0 then 41 / 100 else 59 / 100

/-- **C276 violated**, for policies that do not minimise the loss: a policy with probabilities within `eps_clip = 0.2` of the old ones and a smaller
loss has a lower expected return. -/
theorem C276_violated_return (entropy : (Fin 3 → Fin 2 → ℝ) → Fin 3 → ℝ) :
    Faithful fork (fun _ => 0) 2 (fun _ _ => 1 / 2) false (1 / 10 ^ 8) forkSamples ∧
    IsPolicy drift ∧ (∀ s a, |drift s a / (1 / 2) - 1| ≤ 1 / 5) ∧
    lossOf ⟨1 / 5, none, false, 1 / 2, 0⟩ forkSamples entropy (fun _ _ => 1 / 2) drift <
      lossOf ⟨1 / 5, none, false, 1 / 2, 0⟩ forkSamples entropy (fun _ _ => 1 / 2) (fun _ _ => 1 / 2) ∧
    expectedReturn fork (fun _ => 0) 2 drift < expectedReturn fork (fun _ => 0) 2 (fun _ _ => 1 / 2) := by
  refine ⟨fork_faithful, ⟨fun s a => ?_, fun s => ?_⟩, fun s a => ?_, ?_, ?_⟩
  · unfold drift; fin_cases s <;> fin_cases a <;> norm_num
  · unfold drift; fin_cases s <;> norm_num
  · unfold drift; fin_cases s <;> fin_cases a <;> norm_num [abs_le]
  · unfold lossOf Ppo.loss Ppo.surrogate Ppo.mean Ppo.clamp
    simp [List.ofFn_succ, forkSamples, drift, Ppo.valueLoss]
    norm_num
  · unfold expectedReturn expectEpisode
    simp [expectFrom, Fin.sum_univ_three, fork, total, drift, brokenOff]
    norm_num

/-- A policy that minimises the loss, and its return. -/
example : expectedReturn arms (fun _ => 1) 1 (fun _ _ => 1 / 4) ≤ expectedReturn arms (fun _ => 1) 1 (fun _ a => if a = 0 then 1 else 0) :=
  C276_return pulls_faithful le_rfl ⟨1 / 5, none, false, 1 / 2, 0⟩ (by norm_num) rfl rfl (fun _ _ => 0) _
    ⟨fun _ a => by dsimp only; split <;> norm_num, fun _ => by simp⟩ ((C276_minimal_partial pulls_faithful le_rfl ⟨1 / 5, none, false, 1 / 2, 0⟩
      (by norm_num) (by norm_num) rfl rfl (fun _ _ => 0) (fun k => by
        simp only [arms_worth, Finset.sum_filter, Fin.sum_univ_four]; norm_num [show ((2 : Fin 4) = 0) = False by decide, show ((3 : Fin 4) = 0) = False by decide]) _).mpr (by
        intro k a
        rw [arms_worth]
        fin_cases a <;> norm_num))

end Verif.PpoReturn
