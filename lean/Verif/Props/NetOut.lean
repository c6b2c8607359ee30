import Verif.Model.NetOut
import Verif.Props.Net
import Mathlib.Analysis.SpecialFunctions.Artanh
import Mathlib.Algebra.Order.BigOperators.Group.List
import Mathlib.Data.List.Chain
import Mathlib.Tactic.Linarith
import Mathlib.Tactic.Positivity

/-!
Outputs of networks, spaces and training mode, C142-C146.
-/

set_option linter.unusedSectionVars false

namespace Verif.NetOut

open Verif.Net (chunk chunk_getElem?)

/-! ### C142: bounded outputs -/

theorem tanh_lt (x : ℝ) : |Real.tanh x| < 1 := by
  have h := Real.tanh_bijOn.mapsTo (Set.mem_univ x)
  rw [abs_lt]
  exact ⟨h.1, h.2⟩

theorem tanh_lt_tanh (x y : ℝ) : Real.tanh x < Real.tanh y ↔ x < y := by
  have h := Real.artanh_lt_artanh_iff (Real.tanh_bijOn.mapsTo (Set.mem_univ x)) (Real.tanh_bijOn.mapsTo (Set.mem_univ y))
  rw [Real.artanh_tanh, Real.artanh_tanh] at h
  exact h.symm

theorem clamp_spec {lo hi : ℝ} (h : lo ≤ hi) (x : ℝ) : lo ≤ clamp lo hi x ∧ clamp lo hi x ≤ hi ∧ (lo ≤ x → x ≤ hi → clamp lo hi x = x) := by
  unfold clamp
  refine ⟨le_min (le_max_right _ _) h, min_le_right _ _, fun h1 h2 => ?_⟩
  rw [max_eq_left h1, min_eq_left h2]

theorem squash_bound (m : ℝ) (hm : 0 < m) (x : List ℝ) : ∀ a ∈ squash m x, |a| < m := by
  intro a ha
  obtain ⟨y, _, rfl⟩ := List.mem_map.1 ha
  rw [abs_mul, abs_of_pos hm]
  calc m * |Real.tanh y| < m * 1 := by exact mul_lt_mul_of_pos_left (tanh_lt y) hm
    _ = m := mul_one m

/-- C142: each number of an action of `Actor` lies strictly between `-max_action` and `max_action`, whatever the network returns; larger
outputs of the network give larger actions. -/
theorem C142_actor (m : ℝ) (hm : 0 < m) (x : List ℝ) :
    (squash m x).length = x.length ∧ (∀ a ∈ squash m x, |a| < m) ∧
    ∀ i j, i < x.length → j < x.length → (x.getD i 0 < x.getD j 0 ↔ (squash m x).getD i 0 < (squash m x).getD j 0) := by
  refine ⟨by simp [squash], squash_bound m hm x, ?_⟩
  intro i j hi hj
  have e : ∀ k, k < x.length → (squash m x).getD k 0 = m * Real.tanh (x.getD k 0) := by
    intro k hk
    simp [squash, List.getD_eq_getElem?_getD, List.getElem?_eq_getElem hk]
  rw [e i hi, e j hj, mul_lt_mul_iff_right₀ hm]
  exact (tanh_lt_tanh _ _).symm

/-- C142: the mean of `ActorProb` and `RecurrentActorProb` is bounded in the same way unless `unbounded`; then it is what the network
returns. -/
theorem C142_mean (m : ℝ) (hm : 0 < m) (mu : List ℝ) (s : Sigma) :
    (∀ a ∈ (probOut false m mu s).1, |a| < m) ∧ (probOut false m mu s).1.length = mu.length ∧ (probOut true m mu s).1 = mu :=
  ⟨squash_bound m hm mu, by simp [probOut, squash], rfl⟩

/-- C142: the scale lies between `exp (-20)` and `exp 2` if it is computed from the observation; if not, it is positive and the same for
all observations. -/
theorem C142_scale (unbounded : Bool) (m : ℝ) (mu : List ℝ) :
    (∀ raw, (probOut unbounded m mu (.conditioned raw)).2.length = raw.length ∧
      ∀ a ∈ (probOut unbounded m mu (.conditioned raw)).2, Real.exp (-20) ≤ a ∧ a ≤ Real.exp 2) ∧
    ∀ p : List ℝ, p.length = mu.length → (probOut unbounded m mu (.param p)).2 = p.map Real.exp ∧
      ∀ a ∈ (probOut unbounded m mu (.param p)).2, 0 < a := by
  constructor
  · intro raw
    refine ⟨by simp [probOut], ?_⟩
    intro a ha
    obtain ⟨y, _, rfl⟩ := List.mem_map.1 ha
    have h := clamp_spec (show (-20 : ℝ) ≤ 2 by norm_num) y
    exact ⟨Real.exp_le_exp.2 h.1, Real.exp_le_exp.2 h.2.1⟩
  · intro p hp
    have key : ∀ (p mu : List ℝ), p.length = mu.length → List.zipWith (fun p m => Real.exp (p + 0 * m)) p mu = p.map Real.exp := by
      intro p
      induction p with
      | nil => intro mu _; simp
      | cons a p ih =>
        intro mu h
        cases mu with
        | nil => simp at h
        | cons b mu =>
          rw [List.zipWith_cons_cons, ih mu (by simpa using h)]
          simp
    have e : (probOut unbounded m mu (.param p)).2 = p.map Real.exp := by
      unfold probOut
      simp only
      exact key p _ (by cases unbounded <;> simp [squash, hp])
    refine ⟨e, ?_⟩
    rw [e]
    intro a ha
    obtain ⟨y, _, rfl⟩ := List.mem_map.1 ha
    exact Real.exp_pos y

/-- C142: a perturbed action is within `max_action`, and differs by at most `phi * max_action` from an action within `max_action`. -/
theorem C142_perturbation (net : List ℝ → List ℝ) (m phi : ℝ) (hm : 0 ≤ m) (hphi : 0 ≤ phi) (state action : List ℝ)
    (hnet : (net (state ++ action)).length = action.length) (hact : ∀ a ∈ action, |a| ≤ m) :
    (perturb net m phi state action).length = action.length ∧
    ∀ i, i < action.length → |(perturb net m phi state action).getD i 0| ≤ m ∧
      |(perturb net m phi state action).getD i 0 - action.getD i 0| ≤ phi * m := by
  refine ⟨by simp [perturb, hnet], ?_⟩
  intro i hi
  have hi' : i < (net (state ++ action)).length := by omega
  obtain ⟨l, hl⟩ : ∃ l, l = (net (state ++ action))[i] := ⟨_, rfl⟩
  obtain ⟨a, ha⟩ : ∃ a, a = action[i] := ⟨_, rfl⟩
  have e : (perturb net m phi state action).getD i 0 = clamp (-m) m (phi * m * Real.tanh l + a) := by
    simp [perturb, List.getD_eq_getElem?_getD, List.getElem?_zipWith, List.getElem?_eq_getElem hi, List.getElem?_eq_getElem hi', hl, ha]
  have e2 : action.getD i 0 = a := by simp [List.getD_eq_getElem?_getD, List.getElem?_eq_getElem hi, ha]
  rw [e, e2]
  have hc := clamp_spec (show -m ≤ m by linarith) (phi * m * Real.tanh l + a)
  have hb := abs_le.1 (hact a (by rw [ha]; exact List.getElem_mem hi))
  have ht : |phi * m * Real.tanh l| ≤ phi * m := by
    rw [abs_mul, abs_of_nonneg (mul_nonneg hphi hm)]
    have := (tanh_lt l).le
    nlinarith [mul_nonneg hphi hm]
  have ht := abs_le.1 ht
  have hpm := mul_nonneg hphi hm
  refine ⟨abs_le.2 ⟨hc.1, hc.2.1⟩, abs_le.2 ?_⟩
  unfold clamp
  constructor
  · have h1 : phi * m * Real.tanh l + a ≤ max (phi * m * Real.tanh l + a) (-m) := le_max_left _ _
    rcases min_choice (max (phi * m * Real.tanh l + a) (-m)) m with h | h <;> rw [h] <;> linarith
  · have h1 : min (max (phi * m * Real.tanh l + a) (-m)) m ≤ max (phi * m * Real.tanh l + a) (-m) := min_le_left _ _
    rcases max_choice (phi * m * Real.tanh l + a) (-m) with h | h <;> rw [h] at h1 <;> rw [h] <;> linarith

/-- C142: what a VAE reconstructs or generates is within `max_action`; its standard deviations are between `exp (-4)` and `exp 15`; without
a latent vector the decoder gets one with numbers between -1/2 and 1/2. -/
theorem C142_vae (v : Vae) (hm : 0 < v.maxAction) (state action randn : List ℝ) (z : Option (List ℝ)) :
    (∀ a ∈ v.decode state z randn, |a| < v.maxAction) ∧ (∀ a ∈ (v.forward state action randn).1, |a| < v.maxAction) ∧
    (∀ s ∈ (v.forward state action randn).2.2, Real.exp (-4) ≤ s ∧ s ≤ Real.exp 15) ∧
    ∃ l : List ℝ, l.length = randn.length ∧ (∀ x ∈ l, |x| ≤ 1 / 2) ∧
      v.decode state none randn = (v.decoder (state ++ l)).map fun x => v.maxAction * Real.tanh x := by
  refine ⟨squash_bound _ hm _, squash_bound _ hm _, ?_, randn.map (clamp (-(1/2)) (1/2)), by simp, ?_, rfl⟩
  · intro a ha
    obtain ⟨y, _, rfl⟩ := List.mem_map.1 ha
    have h := clamp_spec (show (-4 : ℝ) ≤ 15 by norm_num) y
    exact ⟨Real.exp_le_exp.2 h.1, Real.exp_le_exp.2 h.2.1⟩
  · intro x hx
    obtain ⟨y, _, rfl⟩ := List.mem_map.1 hx
    have h := clamp_spec (show (-(1/2) : ℝ) ≤ 1/2 by norm_num) y
    exact abs_le.2 ⟨h.1, h.2.1⟩

theorem sum_exp_pos (x : List ℝ) (hx : x ≠ []) : 0 < (x.map Real.exp).sum := by
  cases x with
  | nil => exact absurd rfl hx
  | cons a x =>
    rw [List.map_cons, List.sum_cons]
    have : 0 ≤ (x.map Real.exp).sum := List.sum_nonneg fun y hy => by
      obtain ⟨z, _, rfl⟩ := List.mem_map.1 hy
      exact (Real.exp_pos z).le
    linarith [Real.exp_pos a]

/-- C142: what a VAE reconstructs is decoded from the state and a latent vector, each entry of which is the mean computed from state and action plus a
random number times the scale computed from them. -/
theorem C142_latent (v : Vae) (state action randn : List ℝ)
    (hm : (v.mean (v.encoder (state ++ action))).length = randn.length) (hs : (v.logStd (v.encoder (state ++ action))).length = randn.length) :
    ∃ z : List ℝ, z.length = randn.length ∧
      (v.forward state action randn).1 = (v.decoder (state ++ z)).map (fun x => v.maxAction * Real.tanh x) ∧
      (v.forward state action randn).2.1 = v.mean (v.encoder (state ++ action)) ∧ (v.forward state action randn).2.2.length = randn.length ∧
      ∀ i, i < randn.length →
        z.getD i 0 = (v.forward state action randn).2.1.getD i 0 + (v.forward state action randn).2.2.getD i 0 * randn.getD i 0 := by
  refine ⟨_, ?_, rfl, rfl, by simp [Vae.forward, hs], ?_⟩
  · simp [hm, hs]
  · intro i hi
    have h1 : i < (v.mean (v.encoder (state ++ action))).length := by omega
    have h2 : i < (v.logStd (v.encoder (state ++ action))).length := by omega
    simp [Vae.forward, List.getD_eq_getElem?_getD, List.getElem?_zipWith, List.getElem?_eq_getElem hi, List.getElem?_eq_getElem h1,
      List.getElem?_eq_getElem h2]

/-- C142: with `softmax_output` a discrete actor returns positive probabilities with sum 1, ordered like the outputs of the network. -/
theorem C142_softmax (x : List ℝ) (hx : x ≠ []) :
    (softmax x).length = x.length ∧ (∀ p ∈ softmax x, 0 < p) ∧ (softmax x).sum = 1 ∧
    ∀ i j, i < x.length → j < x.length → (x.getD i 0 < x.getD j 0 ↔ (softmax x).getD i 0 < (softmax x).getD j 0) := by
  have hs := sum_exp_pos x hx
  refine ⟨by simp [softmax], ?_, ?_, ?_⟩
  · intro p hp
    obtain ⟨y, _, rfl⟩ := List.mem_map.1 hp
    exact div_pos (Real.exp_pos y) hs
  · unfold softmax
    obtain ⟨c, hc⟩ : ∃ c, c = (x.map Real.exp).sum := ⟨_, rfl⟩
    rw [← hc] at hs ⊢
    have : ∀ l : List ℝ, (l.map fun y => Real.exp y / c).sum = (l.map Real.exp).sum / c := by
      intro l
      induction l with
      | nil => simp
      | cons a l ih => rw [List.map_cons, List.sum_cons, ih, List.map_cons, List.sum_cons, add_div]
    rw [this, ← hc]
    exact div_self hs.ne'
  · intro i j hi hj
    have e : ∀ k, k < x.length → (softmax x).getD k 0 = Real.exp (x.getD k 0) / (x.map Real.exp).sum := by
      intro k hk
      simp [softmax, List.getD_eq_getElem?_getD, List.getElem?_eq_getElem hk]
    rw [e i hi, e j hj, div_lt_div_iff_of_pos_right hs, Real.exp_lt_exp]

/-- A perturbation that has to be clipped: action 1 of at most 1, the network asks for more. -/
example : (perturb (fun x => [x.sum]) 1 (1/20) [3] [1]).getD 0 0 = 1 := by
  have h := (C142_perturbation (fun x => [x.sum]) 1 (1/20) (by norm_num) (by norm_num) [3] [1] rfl (by simp)).2 0 (by simp)
  simp only [perturb, clamp]
  have : (0 : ℝ) < Real.tanh 4 := by
    have := (tanh_lt_tanh 0 4).2 (by norm_num)
    rwa [Real.tanh_zero] at this
  norm_num
  exact this.le

/-! ### C143: quantile networks -/

/-- Specification: the value of action `a` at fraction `t` for an observation with the features `l`. -/
noncomputable def quantile (numCosines : Nat) (net last : List ℝ → List ℝ) (l : List ℝ) (t : ℝ) (a : Nat) : ℝ :=
  (last (List.zipWith (· * ·) l (net ((List.range numCosines).map fun i : Nat => Real.cos (((i : ℝ) + 1) * Real.pi * t))))).getD a 0

theorem flatten_chunk {X : Type} (n k : Nat) (l : List X) (h : l.length = n * k) : (chunk n k l).flatten = l := by
  induction k generalizing l with
  | zero => simp at h; simp [chunk, h]
  | succ k ih =>
    rw [Nat.mul_succ] at h
    rw [chunk, List.flatten_cons, ih _ (by rw [List.length_drop]; omega), List.take_append_drop]

theorem chunk_flatten {X : Type} (n : Nat) (l : List (List X)) (h : ∀ r ∈ l, r.length = n) : chunk n l.length l.flatten = l := by
  induction l with
  | nil => rfl
  | cons r l ih =>
    have hr := h r (by simp)
    rw [List.length_cons, chunk, List.flatten_cons, List.take_left' hr, List.drop_left' hr, ih fun r hr => h r (by simp [hr])]

theorem chunk_map {X Y : Type} (f : X → Y) (n k : Nat) (l : List X) : chunk n k (l.map f) = (chunk n k l).map (List.map f) := by
  induction k generalizing l with
  | zero => rfl
  | succ k ih => rw [chunk, ← List.map_drop, ih, ← List.map_take, chunk]; rfl

/-- C143: the output of the quantile networks for observation `b`, action `a` and fraction `k` depends on the features of observation `b`
and fraction `(b, k)` only. -/
theorem C143_layout (numCosines : Nat) (net last : List ℝ → List ℝ) (actions n : Nat) (logits taus : List (List ℝ))
    (hl : logits.length = taus.length) (ht : ∀ r ∈ taus, r.length = n) (b : Nat) (hb : b < taus.length) :
    (quantiles numCosines net last actions n logits taus).length = taus.length ∧
    ((quantiles numCosines net last actions n logits taus).getD b []) = (List.range actions).map fun a =>
      (taus.getD b []).map fun t => quantile numCosines net last (logits.getD b []) t a := by
  have he : embed numCosines net n taus = taus.map fun r => r.map fun t =>
      net ((List.range numCosines).map fun i : Nat => Real.cos (t * (Real.pi * ((i : ℝ) + 1)))) := by
    unfold embed
    simp only
    rw [chunk_map, chunk_map, chunk_flatten n taus ht, List.map_map]
    refine List.map_congr_left ?_
    intro r _
    simp
  unfold quantiles
  simp only
  rw [he, chunk_map]
  have hz : ∀ (ls ts : List (List ℝ)), ls.length = ts.length → (∀ r ∈ ts, r.length = n) →
      chunk n ts.length (List.zipWith (fun l e => e.map fun r => List.zipWith (· * ·) l r) ls (ts.map fun r => r.map fun t =>
        net ((List.range numCosines).map fun i : Nat => Real.cos (t * (Real.pi * ((i : ℝ) + 1)))))).flatten =
      List.zipWith (fun l e => e.map fun r => List.zipWith (· * ·) l r) ls (ts.map fun r => r.map fun t =>
        net ((List.range numCosines).map fun i : Nat => Real.cos (t * (Real.pi * ((i : ℝ) + 1))))) := by
    intro ls ts h1 h2
    have := chunk_flatten n (List.zipWith (fun l e => e.map fun r => List.zipWith (· * ·) l r) ls (ts.map fun r => r.map fun t =>
        net ((List.range numCosines).map fun i : Nat => Real.cos (t * (Real.pi * ((i : ℝ) + 1)))))) ?_
    · rwa [show (List.zipWith (fun l e => e.map fun r => List.zipWith (· * ·) l r) ls (ts.map fun r => r.map fun t =>
        net ((List.range numCosines).map fun i : Nat => Real.cos (t * (Real.pi * ((i : ℝ) + 1)))))).length = ts.length by simp [h1]] at this
    · intro r hr
      obtain ⟨i, hi, rfl⟩ := List.getElem_of_mem hr
      simp only [List.getElem_zipWith, List.getElem_map, List.length_map]
      exact h2 _ (List.getElem_mem _)
  rw [hz logits taus hl ht]
  refine ⟨by simp [hl], ?_⟩
  have hb' : b < logits.length := by omega
  simp only [List.getD_eq_getElem?_getD, List.getElem?_map, List.getElem?_zipWith, List.getElem?_eq_getElem hb,
    List.getElem?_eq_getElem hb', Option.map_some, Option.getD_some, List.map_map]
  unfold swap
  refine List.map_congr_left ?_
  intro a _
  rw [List.map_map, List.map_map]
  refine List.map_congr_left ?_
  intro t _
  unfold quantile
  simp only [Function.comp_apply]
  congr 5
  funext i
  congr 1
  ring

theorem cumsum_length (s : ℝ) (l : List ℝ) : (cumsum s l).length = l.length := by
  induction l generalizing s with
  | nil => rfl
  | cons a l ih => rw [cumsum, List.length_cons, ih, List.length_cons]

theorem cumsum_last (s : ℝ) (l : List ℝ) : (s :: cumsum s l).getLastD 0 = s + l.sum := by
  induction l generalizing s with
  | nil => simp [cumsum]
  | cons a l ih =>
    have := ih (s + a)
    rw [cumsum, List.sum_cons]
    rw [List.getLastD_cons] at this ⊢
    rw [List.getLastD_cons]
    rw [this]
    ring

theorem cumsum_chain (s : ℝ) (l : List ℝ) (h : ∀ x ∈ l, 0 < x) : List.IsChain (· < ·) (s :: cumsum s l) := by
  induction l generalizing s with
  | nil => exact List.isChain_singleton s
  | cons a l ih =>
    rw [cumsum]
    have ha := h a (by simp)
    exact List.isChain_cons_cons.2 ⟨by linarith, ih (s + a) fun x hx => h x (by simp [hx])⟩

/-- C143: the fractions proposed by the network with `n` outputs are `n + 1`, increase strictly from 0 to 1, and the `n` fractions in
between lie half way between neighbours. -/
theorem C143_fractions (net : List ℝ → List ℝ) (x : List ℝ) (hne : net x ≠ []) :
    (propose net x).1.length = (net x).length + 1 ∧ (propose net x).1.head? = some 0 ∧ (propose net x).1.getLast? = some 1 ∧
    List.IsChain (· < ·) (propose net x).1 ∧ (propose net x).2.length = (net x).length ∧
    ∀ i, i < (net x).length → (propose net x).2.getD i 0 = ((propose net x).1.getD i 0 + (propose net x).1.getD (i + 1) 0) / 2 := by
  obtain ⟨h1, h2, h3, _⟩ := C142_softmax (net x) hne
  have hl : (cumsum 0 (softmax (net x))).length = (net x).length := by rw [cumsum_length, h1]
  refine ⟨by simp [propose, hl], rfl, ?_, cumsum_chain 0 _ h2, by simp [propose, hl], ?_⟩
  · have := cumsum_last 0 (softmax (net x))
    rw [h3, zero_add] at this
    unfold propose
    simp only
    rw [List.getLastD_eq_getLast?] at this
    rw [List.getLast?_cons] at this ⊢
    rw [Option.getD_some] at this
    rw [this]
  · intro i hi
    unfold propose
    simp only [List.getD_eq_getElem?_getD, List.getElem?_zipWith]
    have g1 : i < (0 :: cumsum 0 (softmax (net x))).dropLast.length := by simp [hl, hi]
    have g2 : i < (0 :: cumsum 0 (softmax (net x))).tail.length := by simp [hl, hi]
    rw [List.getElem?_eq_getElem g1, List.getElem?_eq_getElem g2]
    have g3 : i < (0 :: cumsum 0 (softmax (net x))).length := by simp [hl]; omega
    have g4 : i + 1 < (0 :: cumsum 0 (softmax (net x))).length := by simp [hl]; omega
    rw [List.getElem?_eq_getElem g3, List.getElem?_eq_getElem g4]
    simp

/-- C143: a full quantile function evaluates its quantiles half way between the fractions, those given or else those proposed for the
observation, and in training also at the inner fractions. -/
theorem C143_fqf (numCosines : Nat) (net last : List ℝ → List ℝ) (actions n : Nat) (proposeNet : List ℝ → List ℝ) (training : Bool)
    (logits : List (List ℝ)) (given : Option (List (List ℝ × List ℝ)))
    (hp : given = none → ∀ x ∈ logits, (proposeNet x).length = n) (hn : 0 < n)
    (hg : ∀ f, given = some f → f.length = logits.length ∧ ∀ t ∈ f, t.1.length = n + 1 ∧ t.2.length = n) (b : Nat) (hb : b < logits.length) :
    ∃ taus hats : List ℝ,
      (∀ f, given = some f → f[b]? = some (taus, hats)) ∧ (given = none → (taus, hats) = propose proposeNet (logits.getD b [])) ∧
      (fqf numCosines net last actions n proposeNet given training logits).2.1[b]? = some (taus, hats) ∧
      (fqf numCosines net last actions n proposeNet given training logits).1.getD b [] = ((List.range actions).map fun a =>
        hats.map fun t => quantile numCosines net last (logits.getD b []) t a) ∧
      (training = false → (fqf numCosines net last actions n proposeNet given training logits).2.2 = none) ∧
      (training = true → ∃ q, (fqf numCosines net last actions n proposeNet given training logits).2.2 = some q ∧
        q.getD b [] = (List.range actions).map fun a =>
          (taus.tail.dropLast).map fun t => quantile numCosines net last (logits.getD b []) t a) := by
  obtain ⟨fr, hfr⟩ : ∃ fr, fr = (match given with | some f => f | none => logits.map (propose proposeNet)) := ⟨_, rfl⟩
  have hlen : fr.length = logits.length := by
    cases given with
    | none => simp [hfr]
    | some f => rw [hfr]; exact (hg f rfl).1
  have hall : ∀ t ∈ fr, t.1.length = n + 1 ∧ t.2.length = n := by
    cases given with
    | none =>
      intro t ht
      rw [hfr] at ht
      obtain ⟨x, hx, rfl⟩ := List.mem_map.1 ht
      have hx' := hp rfl x hx
      have hne : proposeNet x ≠ [] := by
        intro h
        rw [h] at hx'
        simp at hx'
        omega
      have := C143_fractions proposeNet x hne
      rw [← hx']
      exact ⟨this.1, this.2.2.2.2.1⟩
    | some f => rw [hfr]; exact (hg f rfl).2
  have hbf : b < fr.length := by omega
  have e : fqf numCosines net last actions n proposeNet given training logits =
      (quantiles numCosines net last actions n logits (fr.map (·.2)), fr,
        if training then some (quantiles numCosines net last actions (n - 1) logits (fr.map fun f => f.1.tail.dropLast)) else none) := by
    rw [hfr]
    cases given <;> rfl
  refine ⟨fr[b].1, fr[b].2, ?_, ?_, ?_, ?_, ?_, ?_⟩
  · intro f hf
    subst hf
    simp only at hfr
    subst hfr
    exact List.getElem?_eq_getElem hbf
  · intro hf
    subst hf
    simp only at hfr
    subst hfr
    simp [List.getD_eq_getElem?_getD, List.getElem?_eq_getElem hb]
  · rw [e]
    exact List.getElem?_eq_getElem hbf
  · rw [e]
    have := (C143_layout numCosines net last actions n logits (fr.map (·.2)) (by simp [hlen])
      (by intro r hr; obtain ⟨t, ht, rfl⟩ := List.mem_map.1 hr; exact (hall t ht).2) b (by simpa using hbf)).2
    rw [this]
    simp [List.getD_eq_getElem?_getD, List.getElem?_eq_getElem hbf]
  · intro h
    rw [e, h]
    rfl
  · intro h
    rw [e, h]
    refine ⟨_, rfl, ?_⟩
    have := (C143_layout numCosines net last actions (n - 1) logits (fr.map fun f => f.1.tail.dropLast) (by simp [hlen])
      (by intro r hr; obtain ⟨t, ht, rfl⟩ := List.mem_map.1 hr; simp [(hall t ht).1]) b (by simpa using hbf)).2
    rw [this]
    simp [List.getD_eq_getElem?_getD, List.getElem?_eq_getElem hbf]

/-- Equal outputs of the proposal network: fractions 0, 1/2, 1 and half way 1/4, 3/4. -/
example : propose (fun _ => [0, 0]) [] = ([0, 1/2, 1], [1/4, 3/4]) := by
  simp [propose, softmax, cumsum]
  norm_num

/-! ### C144: noisy layers -/

section
variable {K : Type} [CommRing K]

theorem dot_noise (q : K) (x m s p : List K) (hm : m.length = x.length) (hs : s.length = x.length) (hp : p.length = x.length) :
    dot x (List.zipWith (· + ·) m (List.zipWith (· * ·) s (p.map fun p => q * p))) =
      dot x m + q * (List.zipWith (fun s px => s * px) s (List.zipWith (· * ·) p x)).sum := by
  induction x generalizing m s p with
  | nil => simp [dot]
  | cons x xs ih =>
    cases m with
    | nil => simp at hm
    | cons m ms =>
      cases s with
      | nil => simp at hs
      | cons s ss =>
        cases p with
        | nil => simp at hp
        | cons p ps =>
          have := ih ms ss ps (by simpa using hm) (by simpa using hs) (by simpa using hp)
          unfold dot at this ⊢
          simp only [List.map_cons, List.zipWith_cons_cons, List.sum_cons]
          rw [this]
          ring

/-- C144: in evaluation a noisy layer is the linear layer with its means; in training the noise adds to output `j` the number
`eps_q[j] * (Σ_i sigma_W[j,i] * eps_p[i] * x[i] + sigma_bias[j])`. -/
theorem C144_noisy (l : Noisy K) (x : List K) (hp : l.epsP.length = x.length) (hmW : ∀ r ∈ l.muW, r.length = x.length)
    (hsW : ∀ r ∈ l.sigmaW, r.length = x.length) (h1 : l.sigmaW.length = l.muW.length) (h2 : l.muBias.length = l.muW.length)
    (h3 : l.sigmaBias.length = l.muW.length) (h4 : l.epsQ.length = l.muW.length) :
    l.forward false x = linear l.muW l.muBias x ∧ (l.forward true x).length = l.muW.length ∧
    ∀ j, j < l.muW.length → (l.forward true x).getD j 0 - (l.forward false x).getD j 0 =
      l.epsQ.getD j 0 * ((List.zipWith (fun s px => s * px) (l.sigmaW.getD j []) (List.zipWith (· * ·) l.epsP x)).sum +
        l.sigmaBias.getD j 0) := by
  refine ⟨rfl, by simp [Noisy.forward, linear, h1, h2, h3, h4], ?_⟩
  intro j hj
  have g1 : j < l.sigmaW.length := by omega
  have g2 : j < l.muBias.length := by omega
  have g3 : j < l.sigmaBias.length := by omega
  have g4 : j < l.epsQ.length := by omega
  simp only [Noisy.forward, if_true, Bool.false_eq_true, if_false, linear, List.getD_eq_getElem?_getD, List.getElem?_zipWith,
    List.getElem?_map, List.getElem?_eq_getElem hj, List.getElem?_eq_getElem g1, List.getElem?_eq_getElem g2, List.getElem?_eq_getElem g3,
    List.getElem?_eq_getElem g4, Option.map_some, Option.getD_some]
  rw [dot_noise _ x _ _ _ (hmW _ (List.getElem_mem hj)) (hsW _ (List.getElem_mem g1)) hp]
  ring

end

/-- C144: sampling draws noise `e` with the sign of a normal number `r` and `e ^ 2 = |r|` for each input and output, and changes nothing
else; so outputs in evaluation do not depend on it. -/
theorem C144_sample (l : Noisy ℝ) (p q : List ℝ) :
    ((l.sample p q).muW, (l.sample p q).muBias, (l.sample p q).sigmaW, (l.sample p q).sigmaBias) = (l.muW, l.muBias, l.sigmaW, l.sigmaBias) ∧
    (∀ x, (l.sample p q).forward false x = l.forward false x) ∧
    (∀ (r e : List ℝ), (r, e) = (p, (l.sample p q).epsP) ∨ (r, e) = (q, (l.sample p q).epsQ) → e.length = r.length ∧
      ∀ i, i < r.length → e.getD i 0 ^ 2 = |r.getD i 0| ∧ (0 < e.getD i 0 ↔ 0 < r.getD i 0) ∧ (e.getD i 0 < 0 ↔ r.getD i 0 < 0)) := by
  refine ⟨rfl, fun _ => rfl, ?_⟩
  have key : ∀ r : List ℝ, (noise r).length = r.length ∧ ∀ i, i < r.length →
      (noise r).getD i 0 ^ 2 = |r.getD i 0| ∧ (0 < (noise r).getD i 0 ↔ 0 < r.getD i 0) ∧ ((noise r).getD i 0 < 0 ↔ r.getD i 0 < 0) := by
    intro r
    refine ⟨by simp [noise], ?_⟩
    intro i hi
    obtain ⟨y, hy⟩ : ∃ y, y = r.getD i 0 := ⟨_, rfl⟩
    have e : (noise r).getD i 0 = Real.sign y * Real.sqrt |y| := by
      rw [hy]
      simp [noise, List.getD_eq_getElem?_getD, List.getElem?_eq_getElem hi]
    rw [e, ← hy]
    rcases lt_trichotomy y 0 with h | h | h
    · have hs : 0 < Real.sqrt |y| := Real.sqrt_pos.2 (abs_pos.2 h.ne)
      rw [Real.sign_of_neg h]
      refine ⟨?_, ⟨fun q => by linarith, fun q => by linarith⟩, ⟨fun _ => h, fun _ => by linarith⟩⟩
      rw [mul_pow, Real.sq_sqrt (abs_nonneg y)]
      ring
    · rw [h]
      simp
    · have hs : 0 < Real.sqrt |y| := Real.sqrt_pos.2 (abs_pos.2 h.ne')
      rw [Real.sign_of_pos h]
      refine ⟨?_, ⟨fun _ => h, fun _ => by linarith⟩, ⟨fun q => by linarith, fun q => by linarith⟩⟩
      rw [mul_pow, Real.sq_sqrt (abs_nonneg y)]
      ring
  rintro r e (h | h)
  · obtain ⟨rfl, rfl⟩ := Prod.mk.inj h
    exact key r
  · obtain ⟨rfl, rfl⟩ := Prod.mk.inj h
    exact key r

/-- Two outputs, three inputs. -/
example : (⟨[[1, 2, 3], [4, 5, 6]], [[1, 1, 1], [2, 2, 2]], [10, 20], [1, 1], [1, 0, -1], [2, 3]⟩ : Noisy Int).forward true [1, 1, 2] =
      [19, 38] ∧
    (⟨[[1, 2, 3], [4, 5, 6]], [[1, 1, 1], [2, 2, 2]], [10, 20], [1, 1], [1, 0, -1], [2, 3]⟩ : Noisy Int).forward false [1, 1, 2] =
      [19, 41] := by decide +kernel

/-! ### C145: spaces -/

section
variable {K : Type} [Field K] [LinearOrder K] [IsStrictOrderedRing K]

theorem foldl_min (l : List K) (a : K) : l.foldl min a ≤ a ∧ (∀ x ∈ l, l.foldl min a ≤ x) ∧ (l.foldl min a = a ∨ l.foldl min a ∈ l) := by
  induction l generalizing a with
  | nil => simp
  | cons b l ih =>
    obtain ⟨h1, h2, h3⟩ := ih (min a b)
    rw [List.foldl_cons]
    refine ⟨h1.trans (min_le_left _ _), ?_, ?_⟩
    · intro x hx
      rcases List.mem_cons.1 hx with rfl | hx
      · exact h1.trans (min_le_right _ _)
      · exact h2 x hx
    · rcases h3 with h | h
      · rcases min_choice a b with e | e
        · left; rw [h, e]
        · right; rw [h, e]; simp
      · right; simp [h]

theorem foldl_max (l : List K) (a : K) : a ≤ l.foldl max a ∧ (∀ x ∈ l, x ≤ l.foldl max a) ∧ (l.foldl max a = a ∨ l.foldl max a ∈ l) := by
  induction l generalizing a with
  | nil => simp
  | cons b l ih =>
    obtain ⟨h1, h2, h3⟩ := ih (max a b)
    rw [List.foldl_cons]
    refine ⟨(le_max_left _ _).trans h1, ?_, ?_⟩
    · intro x hx
      rcases List.mem_cons.1 hx with rfl | hx
      · exact (le_max_right _ _).trans h1
      · exact h2 x hx
    · rcases h3 with h | h
      · rcases max_choice a b with e | e
        · left; rw [h, e]
        · right; rw [h, e]; simp
      · right; simp [h]

/-- The numbers that occur in an action. -/
def Act.entries : Act K → List K
  | .vec a => a
  | .int i => [(i : K)]

/-- C145: `min_action` and `max_action` bound all the numbers in all actions of the space, and both occur in actions of it. -/
theorem C145_info (s : Space K) (info : Info K) (h : Info.ofSpace s = some info)
    (hs : match s with
      | .box _ low high => low.length = high.length ∧ ∀ i, i < low.length → low.getD i 0 ≤ high.getD i 0
      | .discrete n _ => 0 < n) :
    (∀ a, s.contains a → ∀ x ∈ a.entries, info.lo ≤ x ∧ x ≤ info.hi) ∧
    (∃ a, s.contains a ∧ info.lo ∈ a.entries) ∧ ∃ a, s.contains a ∧ info.hi ∈ a.entries := by
  cases s with
  | box shape low high =>
    obtain ⟨hl, hlo⟩ := hs
    cases low with
    | nil => simp [Info.ofSpace, minOf] at h
    | cons l0 low =>
      cases high with
      | nil => simp at hl
      | cons h0 high =>
        simp only [Info.ofSpace, minOf, maxOf, Option.bind_some, Option.map_some, Option.some.injEq] at h
        subst h
        obtain ⟨a1, a2, a3⟩ := foldl_min low l0
        obtain ⟨b1, b2, b3⟩ := foldl_max high h0
        have hmem : low.foldl min l0 ∈ l0 :: low := by
          rcases a3 with e | e
          · rw [e]; simp
          · simp [e]
        have hmem' : high.foldl max h0 ∈ h0 :: high := by
          rcases b3 with e | e
          · rw [e]; simp
          · simp [e]
        have hle : ∀ x ∈ l0 :: low, low.foldl min l0 ≤ x := by
          intro x hx
          rcases List.mem_cons.1 hx with rfl | hx
          · exact a1
          · exact a2 x hx
        have hge : ∀ x ∈ h0 :: high, x ≤ high.foldl max h0 := by
          intro x hx
          rcases List.mem_cons.1 hx with rfl | hx
          · exact b1
          · exact b2 x hx
        refine ⟨?_, ⟨.vec (l0 :: low), ⟨rfl, hl, fun i hi => ⟨le_refl _, hlo i hi⟩⟩, hmem⟩,
          ⟨.vec (h0 :: high), ⟨hl.symm, rfl, fun i hi => ⟨hlo i (by omega), le_refl _⟩⟩, hmem'⟩⟩
        intro a ha x hx
        cases a with
        | int i => exact absurd ha (by simp [Space.contains])
        | vec a =>
          obtain ⟨c1, c2, c3⟩ := ha
          obtain ⟨i, hi, rfl⟩ := List.getElem_of_mem (show x ∈ a from hx)
          have := c3 i hi
          have d1 : i < (l0 :: low).length := by omega
          have d2 : i < (h0 :: high).length := by omega
          have e1 : (l0 :: low).getD i 0 = (l0 :: low)[i] := by simp [List.getD_eq_getElem?_getD, List.getElem?_eq_getElem d1]
          have e2 : (h0 :: high).getD i 0 = (h0 :: high)[i] := by simp [List.getD_eq_getElem?_getD, List.getElem?_eq_getElem d2]
          have e3 : a.getD i 0 = a[i] := by simp [List.getD_eq_getElem?_getD, List.getElem?_eq_getElem hi]
          rw [e1, e2, e3] at this
          exact ⟨(hle _ (List.getElem_mem d1)).trans this.1, this.2.trans (hge _ (List.getElem_mem d2))⟩
  | discrete n start =>
    simp only [Info.ofSpace, Option.some.injEq] at h
    subst h
    have hs' : 0 < n := hs
    refine ⟨?_, ⟨.int start, ⟨le_refl _, by omega⟩, by simp [Act.entries]⟩, ⟨.int (start + n - 1), ⟨by omega, by omega⟩, by simp [Act.entries]⟩⟩
    intro a ha x hx
    cases a with
    | vec a => exact absurd ha (by simp [Space.contains])
    | int i =>
      have hx : x = (i : K) := by simpa [Act.entries] using hx
      obtain ⟨h1, h2⟩ := ha
      rw [hx]
      exact ⟨Int.cast_le.2 h1, Int.cast_le.2 (by omega)⟩

/-- C145: `action_dim` is the number of entries of the actions of a box, and the number of actions of a discrete space. -/
theorem C145_dim (s : Space K) (info : Info K) (h : Info.ofSpace s = some info) :
    (∀ shape low high, s = .box shape low high → low.length = shape.prod → ∀ a, s.contains a → a.entries.length = info.dim) ∧
    ∀ n start, s = .discrete n start → ∀ i, s.contains (.int i) ↔ i ∈ (List.range info.dim).map fun k : Nat => start + (k : Int) := by
  constructor
  · rintro shape low high rfl hl a ha
    have hd : info.dim = shape.prod := by
      simp only [Info.ofSpace, Option.bind_eq_some_iff, Option.map_eq_some_iff] at h
      obtain ⟨_, _, _, _, rfl⟩ := h
      rfl
    cases a with
    | int i => exact absurd ha (by simp [Space.contains])
    | vec a =>
      obtain ⟨h1, _⟩ := ha
      simp only [Act.entries]
      omega
  · rintro n start rfl i
    obtain rfl := Option.some.inj h
    simp only [Space.contains, List.mem_map, List.mem_range]
    constructor
    · rintro ⟨h1, h2⟩
      exact ⟨(i - start).toNat, by omega, by omega⟩
    · rintro ⟨k, hk, rfl⟩
      omega

/-- C145, random actions, in full: a random actor acts within the space. -/
def C145_act (s : Space K) (sample : List K) (rand : Nat) : Prop := s.contains (randomAct s sample rand)

/-- C145, random actions, in full: the support of the uniform distribution is the space, for every element of the batch. -/
def C145_dist (s : Space K) (batch : Nat) : Prop :=
  ∃ d, uniformDist batch s = some d ∧ ∀ b, b < batch → ∀ a, d.support b a ↔ s.contains a

/-- C145 for boxes with one dimension and for discrete spaces from 0. Missing: discrete spaces from another number, and boxes with more
dimensions, see `C145_violated`. -/
theorem C145_random_partial (sample : List K) (rand batch : Nat) :
    (∀ shape low high, Space.contains (.box shape low high) (.vec sample) → C145_act (.box shape low high) sample rand) ∧
    (∀ n, 0 < n → C145_act (K := K) (.discrete n 0) sample rand) ∧
    (∀ d low high, C145_dist (K := K) (.box [d] low high) batch) ∧
    (∀ n, C145_dist (K := K) (.discrete n 0) batch) := by
  refine ⟨fun _ _ _ h => h, ?_, ?_, ?_⟩
  · intro n hn
    have := Nat.mod_lt rand hn
    exact ⟨by omega, by omega⟩
  · intro d low high
    refine ⟨_, rfl, ?_⟩
    intro b hb a
    cases a with
    | int i => simp [ActDist.support, Space.contains]
    | vec a =>
      constructor
      · rintro ⟨low', high', h, ha⟩
        rw [List.getElem?_replicate, if_pos hb] at h
        obtain ⟨rfl, rfl⟩ := Prod.mk.inj (Option.some.inj h)
        exact ha
      · intro ha
        exact ⟨low, high, by rw [List.getElem?_replicate, if_pos hb], ha⟩
  · intro n
    refine ⟨_, rfl, ?_⟩
    intro b hb a
    cases a with
    | vec a => simp [ActDist.support, Space.contains]
    | int i =>
      constructor
      · rintro ⟨n', h, h1, h2⟩
        rw [List.getElem?_replicate, if_pos hb] at h
        obtain rfl := Option.some.inj h
        exact ⟨h1, by omega⟩
      · rintro ⟨h1, h2⟩
        exact ⟨n, by rw [List.getElem?_replicate, if_pos hb], h1, by omega⟩

/-- C145 fails for all discrete spaces that do not begin at 0: some integer that is drawn is not in the space, and the distribution has
another support; and for all boxes with more than one dimension: there is no distribution. -/
theorem C145_violated (n : Nat) (hn : 0 < n) (start : Int) (hs : start ≠ 0) (batch : Nat) (hb : 0 < batch) :
    (∃ rand, ¬ C145_act (K := K) (.discrete n start) [] rand) ∧ ¬ C145_dist (K := K) (.discrete n start) batch ∧
    ∀ d d' ds low high, ¬ C145_dist (K := K) (.box (d :: d' :: ds) low high) batch := by
  refine ⟨?_, ?_, ?_⟩
  · rcases lt_or_gt_of_ne hs with h | h
    · refine ⟨n - 1, ?_⟩
      rintro ⟨h1, h2⟩
      rw [Nat.mod_eq_of_lt (by omega)] at h2
      omega
    · refine ⟨0, ?_⟩
      rintro ⟨h1, h2⟩
      rw [Nat.zero_mod] at h1
      omega
  · rintro ⟨d, hd, h⟩
    obtain rfl := Option.some.inj hd
    have h0 := h 0 hb
    rcases lt_or_gt_of_ne hs with hlt | hgt
    · obtain ⟨n', h1, h2, h3⟩ := (h0 (.int start)).2 ⟨le_refl _, by omega⟩
      omega
    · have := (h0 (.int 0)).1 ⟨n, by rw [List.getElem?_replicate, if_pos hb], le_refl _, by omega⟩
      obtain ⟨h1, h2⟩ := this
      omega
  · rintro d d' ds low high ⟨dist, hd, _⟩
    simp [uniformDist] at hd

/-- C145: the probabilities returned by a random actor for a discrete space are equal and have the sum 1. -/
theorem C145_probs (n : Nat) (hn : 0 < n) : (randomProbs n : List K).length = n ∧ (randomProbs n : List K).sum = 1 ∧
    ∀ p ∈ (randomProbs n : List K), p = 1 / n := by
  have h : (n : K) ≠ 0 := Nat.cast_ne_zero.2 (by omega)
  refine ⟨by simp [randomProbs], ?_, ?_⟩
  · rw [randomProbs, List.sum_replicate, nsmul_eq_mul]
    field_simp
  · intro p hp
    rw [(List.mem_replicate.1 hp).2, mul_one]

end

example : (Info.ofSpace (.box [2] [-1, -2] [3, (4 : ℚ)])).map (fun i => (i.dim, i.lo, i.hi)) = some (2, -2, 4) ∧
    (Info.ofSpace (.discrete 3 5 : Space ℚ)).map (fun i => (i.dim, i.lo, i.hi)) = some (3, 5, 7) := by decide +kernel

/-! ### C146: training mode -/

mutual
/-- All flags, in a fixed order. -/
def Mod.flags : Mod → List Bool
  | .node t cs => t :: Mod.flagsAll cs
/-- The same for a list. -/
def Mod.flagsAll : List Mod → List Bool
  | [] => []
  | c :: cs => c.flags ++ Mod.flagsAll cs
end

mutual
theorem train_flags (mode : Bool) (m : Mod) : (m.train mode).flags = List.replicate m.flags.length mode := by
  match m with
  | .node t cs =>
    rw [Mod.train, Mod.flags, Mod.flags, trainAll_flags mode cs, List.length_cons, List.replicate_succ]
theorem trainAll_flags (mode : Bool) (cs : List Mod) : Mod.flagsAll (Mod.trainAll mode cs) = List.replicate (Mod.flagsAll cs).length mode := by
  match cs with
  | [] => rfl
  | c :: cs =>
    rw [Mod.trainAll, Mod.flagsAll, Mod.flagsAll, train_flags mode c, trainAll_flags mode cs, List.length_append, List.replicate_add]
end

mutual
theorem train_eq (mode : Bool) (m : Mod) (h : ∀ b ∈ m.flags, b = mode) : m.train mode = m := by
  match m with
  | .node t cs =>
    rw [Mod.train, trainAll_eq mode cs fun b hb => h b (by rw [Mod.flags]; simp [hb]), h t (by rw [Mod.flags]; simp)]
theorem trainAll_eq (mode : Bool) (cs : List Mod) (h : ∀ b ∈ Mod.flagsAll cs, b = mode) : Mod.trainAll mode cs = cs := by
  match cs with
  | [] => rfl
  | c :: cs =>
    rw [Mod.trainAll, train_eq mode c fun b hb => h b (by rw [Mod.flagsAll]; simp [hb]),
      trainAll_eq mode cs fun b hb => h b (by rw [Mod.flagsAll]; simp [hb])]
end

mutual
theorem train_train (a b : Bool) (m : Mod) : (m.train a).train b = m.train b := by
  match m with
  | .node t cs => rw [Mod.train, Mod.train, Mod.train, trainAll_trainAll a b cs]
theorem trainAll_trainAll (a b : Bool) (cs : List Mod) : Mod.trainAll b (Mod.trainAll a cs) = Mod.trainAll b cs := by
  match cs with
  | [] => rfl
  | c :: cs => rw [Mod.trainAll, Mod.trainAll, Mod.trainAll, train_train a b c, trainAll_trainAll a b cs]
end

theorem trainAll_length (a : Bool) (cs : List Mod) : (Mod.trainAll a cs).length = cs.length := by
  induction cs with
  | nil => rfl
  | cons c cs ih => rw [Mod.trainAll, List.length_cons, ih, List.length_cons]

theorem flagsAll_append (a b : List Mod) : Mod.flagsAll (a ++ b) = Mod.flagsAll a ++ Mod.flagsAll b := by
  induction a with
  | nil => rfl
  | cons c cs ih => rw [List.cons_append, Mod.flagsAll, ih, Mod.flagsAll, List.append_assoc]

section
variable {E R : Type}

/-- C146: within `torch_train_mode` the module and all modules in it are in the mode asked for. -/
theorem C146_inside (enabled : Bool) (body : Mod → Mod × Except E R) (m : Mod) :
    (trainMode Mod.train enabled body m).2 = (body (m.train enabled)).2 ∧ ∀ b ∈ (m.train enabled).flags, b = enabled := by
  refine ⟨rfl, ?_⟩
  rw [train_flags]
  exact fun b hb => (List.mem_replicate.1 hb).2

/-- C146 in full: if the body leaves the modules as it found them, all are afterwards in the mode they had before, whether or not there
was an error. -/
def C146 (m : Mod) : Prop :=
  ∀ (enabled : Bool) (body : Mod → Mod × Except Unit Unit), (∀ m', (body m').1 = m') → (trainMode Mod.train enabled body m).1 = m

/-- C146 for modules that are all in the same mode before. Missing: modules in different modes, see `C146_violated`. -/
theorem C146_partial (m : Mod) (h : ∀ b ∈ m.flags, b = m.training) : C146 m := by
  intro enabled body hb
  show ((body (m.train enabled)).1).train m.training = m
  rw [hb, train_train, train_eq _ _ h]

/-- C146 for a policy with target networks, whose `train` is passed on to the first `k` modules only: these and the policy itself are
restored if they were in the same mode before; the others are not touched at all. -/
theorem C146_targets_partial (k : Nat) (t : Bool) (cs : List Mod) (h : ∀ b ∈ Mod.flagsAll (cs.take k), b = t) (enabled : Bool)
    (body : Mod → Mod × Except E R) (hb : ∀ m', (body m').1 = m') :
    (trainMode (Mod.trainSome k) enabled body (.node t cs)).1 = .node t cs ∧
    ∃ cs', (Mod.node t cs).trainSome k enabled = .node enabled cs' ∧ cs'.drop k = cs.drop k ∧
      ∀ b ∈ Mod.flagsAll (cs'.take k), b = enabled := by
  have hlen : (Mod.trainAll enabled (cs.take k)).length = (cs.take k).length := trainAll_length _ _
  have htake : ∀ a, (Mod.trainAll a (cs.take k) ++ cs.drop k).take k = Mod.trainAll a (cs.take k) := by
    intro a
    by_cases hk : k ≤ cs.length
    · rw [List.take_left' (by rw [trainAll_length, List.length_take]; omega)]
    · have : cs.drop k = [] := List.drop_eq_nil_of_le (by omega)
      rw [this, List.append_nil, List.take_of_length_le (by rw [trainAll_length, List.length_take]; omega)]
  have hdrop : ∀ a, (Mod.trainAll a (cs.take k) ++ cs.drop k).drop k = cs.drop k := by
    intro a
    by_cases hk : k ≤ cs.length
    · rw [List.drop_left' (by rw [trainAll_length, List.length_take]; omega)]
    · have : cs.drop k = [] := List.drop_eq_nil_of_le (by omega)
      rw [this, List.append_nil, List.drop_eq_nil_of_le (by rw [trainAll_length, List.length_take]; omega)]
  constructor
  · show ((body ((Mod.node t cs).trainSome k enabled)).1).trainSome k t = _
    rw [hb, Mod.trainSome, Mod.trainSome, htake, hdrop, trainAll_trainAll, trainAll_eq _ _ h, List.take_append_drop]
  · refine ⟨_, rfl, hdrop enabled, ?_⟩
    rw [htake, trainAll_flags]
    exact fun b hb => (List.mem_replicate.1 hb).2

/-- C146 fails for all modules in which there is a module in another mode (say a frozen normalisation): it is not restored. -/
theorem C146_violated (m : Mod) (h : ∃ b ∈ m.flags, b ≠ m.training) : ¬ C146 m := by
  intro hc
  have := hc true (fun m' => (m', .ok ())) fun _ => rfl
  have e : (m.train true).train m.training = m := this
  obtain ⟨b, hb, hne⟩ := h
  rw [train_train] at e
  rw [← e, train_flags] at hb
  exact hne (List.mem_replicate.1 hb).2

end

/-- A module in training mode with a frozen one inside. -/
example : (trainMode (E := Unit) Mod.train false (fun m => (m, Except.ok ())) (.node true [.node false [], .node true []])).1.flags =
    [true, true, true] := by decide +kernel

end Verif.NetOut
