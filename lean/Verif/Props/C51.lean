import Verif.Props.QLearning
import Verif.Props.Policy
import Mathlib.Analysis.Convex.StdSimplex
import Mathlib.Topology.Order.Compact

/-!
C243: C51 learns distributions whose means are the optimal action values.
-/

namespace Verif.C51Learn

open Verif.QTarget Verif.Returns Verif.Policy Verif.PolicyGradient
open Verif.QLearning (Batches tableNet table_get best oneStep backup Optimal zipWith_ofFn mean_ofFn argmax_table backup_dist c51LearnLoss)

set_option linter.unusedSectionVars false

variable {S : Type} [Fintype S] {m : Nat} {Ω : Type} [Fintype Ω]

/-! ### Specification -/

/-- A table of distributions on the atoms, one for each state and action. -/
abbrev Table (S : Type) (m : Nat) (p : C51 ℝ) := S → Fin (m + 1) → Fin p.numAtoms → ℝ

/-- Probabilities. -/
def IsDist {N : Nat} (d : Fin N → ℝ) : Prop := (∀ i, 0 ≤ d i) ∧ ∑ i, d i = 1

/-- The means of the distributions: the values by which actions are chosen. -/
noncomputable def means (p : C51 ℝ) (D : Table S m p) (s : S) (a : Fin (m + 1)) : ℝ := ∑ i, D s a i * p.atom i

/-- A network that outputs the distributions of a table. -/
def distNet {p : C51 ℝ} (D : Table S m p) (s : S) : List (List ℝ) := List.ofFn fun a => List.ofFn (D s a)

/-- The support of the distributions is wide enough: targets computed from values in it stay in it. -/
def Wide (p : C51 ℝ) (e : Env S (Fin (m + 1))) (gamma : ℝ) : Prop := ∀ s a s' z, p.vMin ≤ z → z ≤ p.vMax →
  p.vMin ≤ e.rew s a s' + gamma * (if e.ends s a s' then 0 else z) ∧ e.rew s a s' + gamma * (if e.ends s a s' then 0 else z) ≤ p.vMax

/-- The loss for a batch (one-step returns), as a function of the network that is trained. -/
noncomputable def loss {p : C51 ℝ} {e : Env S (Fin (m + 1))} {n : Nat} (b : Batches e Ω n) (eps : ℝ) (isDouble : Bool) (nets : Nets S (List ℝ)) (gamma : ℝ)
    (weight : Fin n → ℝ) (D : Table S m p) (ω : Ω) : ℝ :=
  (c51LearnLoss p Real.log eps isDouble nets (distNet D) (b.view ω) (b.inputs ω) none (List.ofFn fun p => (b.pair ω p).1)
    (List.ofFn fun p => ((b.pair ω p).2 : Nat)) (List.ofFn (b.index ω)) gamma 1 (List.ofFn weight)).getD 0

/-- The expected loss. -/
noncomputable def expectedLoss {p : C51 ℝ} {e : Env S (Fin (m + 1))} {n : Nat} (b : Batches e Ω n) (eps : ℝ) (isDouble : Bool) (nets : Nets S (List ℝ))
    (gamma : ℝ) (weight : Fin n → ℝ) (D : Table S m p) : ℝ :=
  ∑ ω, b.P ω * loss b eps isDouble nets gamma weight D ω

/-! ### Targets -/

theorem returns_rows (f : Nat → List ℝ) (w : View ℝ) (indices : List Nat) (gamma : ℝ) :
    computeNstepReturn w indices.length indices (fun l => l.map f) gamma 1 =
      some (indices.map fun i => (f i).map fun v => w.rew i + gamma * if w.terminated i then 0 else v) := by
  unfold computeNstepReturn
  rw [if_neg (by simp)]
  simp only [stackedColumn, List.map_map, valueMask, Nat.sub_self]
  congr 1
  induction indices with
  | nil => rfl
  | cons i l ih =>
    simp only [List.map_cons, List.zipWith_cons_cons, Function.comp_apply]
    congr 1
    simp only [List.getLastD_cons, List.getLastD_nil, List.length_map, List.take_succ_cons, List.take_zero, nstepLoop]
    generalize f i = row
    have h : ∀ (b : Bool), (if b = true then List.map (fun _ => (0 : ℝ)) (List.replicate row.length (0 : ℝ)) else List.replicate row.length (0 : ℝ)) =
        List.replicate row.length 0 := by
      intro b; cases b <;> simp
    have h' : ∀ (b : Bool), (if b = true then 0 + 1 else 1) = 1 := by
      intro b; cases b <;> rfl
    rw [h, h', List.map_replicate]
    clear h h'
    induction row with
    | nil => rfl
    | cons x row ihr =>
      simp only [List.map_cons, List.length_cons, List.replicate_succ, List.zipWith_cons_cons]
      congr 1
      cases w.terminated i <;> simp [mask, gammaBuffer] <;> ring

theorem zipIdx_ofFn {α β : Type} {N : Nat} (d : Fin N → α) (f : α → Nat → β) :
    ((List.ofFn d).zipIdx.map fun x => f x.1 x.2) = List.ofFn fun i => f (d i) i := by
  apply List.ext_getElem <;> simp

theorem c51Value_ofFn (p : C51 ℝ) (d : Fin p.numAtoms → ℝ) : c51Value p (List.ofFn d) = ∑ i, d i * p.atom i := by
  unfold c51Value
  rw [zipIdx_ofFn d fun x i => x * p.atom i, List.sum_ofFn]

theorem distNet_getD {p : C51 ℝ} (D : Table S m p) (s : S) (a : Nat) (ha : a < m + 1) : (distNet D s).getD a [] = List.ofFn (D s ⟨a, ha⟩) := by
  unfold distNet
  rw [List.getD_eq_getElem?_getD, List.getElem?_eq_getElem (by simpa using ha), Option.getD_some, List.getElem_ofFn]

/-- The greedy action. -/
noncomputable def greedy (Q : S → Fin (m + 1) → ℝ) (s : S) : Nat := argmax (tableNet Q s)

theorem greedy_lt (Q : S → Fin (m + 1) → ℝ) (s : S) : greedy Q s < m + 1 := by
  obtain ⟨q, h1, -, -⟩ := argmax_spec (tableNet Q s) (by simp [tableNet])
  have := (List.getElem?_eq_some_iff.mp h1).1
  unfold greedy
  refine lt_of_lt_of_eq this ?_
  simp [tableNet]

theorem greedy_best (Q : S → Fin (m + 1) → ℝ) (s : S) : Q s ⟨greedy Q s, greedy_lt Q s⟩ = best Q s := by
  have := table_get Q s ⟨greedy Q s, greedy_lt Q s⟩
  rw [← argmax_table Q s, List.getD_eq_getElem?_getD]
  unfold greedy at this ⊢
  simp only at this
  rw [this, Option.getD_some]

theorem distTarget_table {p : C51 ℝ} (isDouble : Bool) (nets : Nets S (List ℝ)) (D : Table S m p) (h1 : nets.hasTarget = true → nets.old = distNet D)
    (h2 : nets.online = distNet D) (xs : List S) :
    distTarget isDouble (fun _ => c51Value p) nets xs none =
      xs.map fun s => List.ofFn (D s ⟨greedy (means p D) s, greedy_lt _ s⟩) := by
  have h3 : (if nets.hasTarget then xs.map nets.old else xs.map nets.online) = xs.map (distNet D) := by
    by_cases h : nets.hasTarget = true
    · rw [if_pos h, h1 h]
    · rw [if_neg h, h2]
  unfold distTarget
  rw [h3, h2]
  unfold pick dqnAct computeQ
  simp only [List.map_map]
  clear h3
  induction xs with
  | nil => rfl
  | cons x xs ih =>
    simp only [List.map_cons, List.zipWith_cons_cons, Function.comp_apply]
    congr 1
    have : (distNet D x).map (c51Value p) = tableNet (means p D) x := by
      unfold distNet tableNet
      rw [List.map_ofFn]
      congr 1
      funext a
      exact c51Value_ofFn p (D x a)
    rw [this]
    exact distNet_getD D x _ (greedy_lt (means p D) x)

/-- The target distribution of a transition. -/
noncomputable def target (p : C51 ℝ) (e : Env S (Fin (m + 1))) (gamma : ℝ) (D : Table S m p) (x : S × Fin (m + 1)) (s' : S) (i : Fin p.numAtoms) : ℝ :=
  ((p.targetDist ((List.range p.numAtoms).map fun j => e.rew x.1 x.2 s' + gamma * if e.ends x.1 x.2 s' then 0 else p.atom j)
    (List.ofFn (D s' ⟨greedy (means p D) s', greedy_lt _ s'⟩)))[(i : Nat)]?).getD 0

theorem target_ofFn (p : C51 ℝ) (e : Env S (Fin (m + 1))) (gamma : ℝ) (D : Table S m p) (x : S × Fin (m + 1)) (s' : S) :
    p.targetDist ((List.range p.numAtoms).map fun j => e.rew x.1 x.2 s' + gamma * if e.ends x.1 x.2 s' then 0 else p.atom j)
      (List.ofFn (D s' ⟨greedy (means p D) s', greedy_lt _ s'⟩)) = List.ofFn (target p e gamma D x s') := by
  apply List.ext_getElem
  · simp [C51.targetDist]
  · intro i h1 h2
    rw [List.getElem_ofFn]
    unfold target
    simp only
    rw [List.getElem?_eq_getElem h1, Option.getD_some]

theorem clamp_eq {lo hi x : ℝ} (h1 : lo ≤ x) (h2 : x ≤ hi) : clamp lo hi x = x := by
  unfold clamp
  rw [max_eq_left h1, min_eq_left h2]

theorem atom_mem (p : C51 ℝ) (hn : 1 < p.numAtoms) (hv : p.vMin < p.vMax) (j : Nat) (hj : j < p.numAtoms) :
    p.vMin ≤ p.atom j ∧ p.atom j ≤ p.vMax := by
  have hd := p.deltaZ_pos hn hv
  constructor
  · unfold C51.atom
    have := mul_nonneg (Nat.cast_nonneg (α := ℝ) j) hd.le
    linarith
  · rw [← p.atom_last hn]
    unfold C51.atom
    have : (j : ℝ) ≤ ((p.numAtoms - 1 : Nat) : ℝ) := by exact_mod_cast (by omega)
    have := mul_le_mul_of_nonneg_right this hd.le
    linarith

theorem target_spec (p : C51 ℝ) (hn : 1 < p.numAtoms) (hv : p.vMin < p.vMax) (e : Env S (Fin (m + 1))) (gamma : ℝ) (hw : Wide p e gamma) (D : Table S m p)
    (hD : ∀ s a, IsDist (D s a)) (x : S × Fin (m + 1)) (s' : S) :
    IsDist (target p e gamma D x s') ∧ ∑ i, target p e gamma D x s' i * p.atom i = oneStep e gamma (means p D) x s' := by
  have h := C44_projection p hn hv ((List.range p.numAtoms).map fun j => e.rew x.1 x.2 s' + gamma * if e.ends x.1 x.2 s' then 0 else p.atom j)
    (List.ofFn (D s' ⟨greedy (means p D) s', greedy_lt _ s'⟩)) (by simp)
  rw [target_ofFn] at h
  obtain ⟨-, h1, h2, h3⟩ := h
  have hd := hD s' ⟨greedy (means p D) s', greedy_lt _ s'⟩
  refine ⟨⟨fun i => ?_, ?_⟩, ?_⟩
  · refine h1 ?_ _ ((List.mem_ofFn' _ _).mpr ⟨i, rfl⟩)
    intro d hd'
    obtain ⟨j, rfl⟩ := (List.mem_ofFn' _ _).mp hd'
    exact hd.1 j
  · rw [List.sum_ofFn, List.sum_ofFn] at h2
    rw [h2, hd.2]
  · rw [zipIdx_ofFn _ fun y i => y * p.atom i, List.sum_ofFn] at h3
    rw [h3]
    have : ((List.range p.numAtoms).map fun j => e.rew x.1 x.2 s' + gamma * if e.ends x.1 x.2 s' then 0 else p.atom j) =
        List.ofFn fun j : Fin p.numAtoms => e.rew x.1 x.2 s' + gamma * if e.ends x.1 x.2 s' then 0 else p.atom j := by
      apply List.ext_getElem <;> simp
    rw [this, zipWith_ofFn, List.sum_ofFn]
    have hc : ∀ j : Fin p.numAtoms, clamp p.vMin p.vMax (e.rew x.1 x.2 s' + gamma * if e.ends x.1 x.2 s' then 0 else p.atom j) =
        e.rew x.1 x.2 s' + gamma * if e.ends x.1 x.2 s' then 0 else p.atom j := fun j =>
      clamp_eq (hw x.1 x.2 s' _ (atom_mem p hn hv j j.2).1 (atom_mem p hn hv j j.2).2).1
        (hw x.1 x.2 s' _ (atom_mem p hn hv j j.2).1 (atom_mem p hn hv j j.2).2).2
    simp only [hc]
    unfold oneStep
    rw [← greedy_best (means p D) s']
    generalize (⟨greedy (means p D) s', greedy_lt _ s'⟩ : Fin (m + 1)) = a at hd ⊢
    by_cases hends : e.ends x.1 x.2 s' = true
    · simp only [if_pos hends]
      rw [← Finset.mul_sum, hd.2, mul_one]
    · simp only [if_neg hends, add_mul]
      rw [Finset.sum_add_distrib, ← Finset.mul_sum, hd.2, mul_one]
      unfold means
      rw [Finset.mul_sum]
      congr 1
      refine Finset.sum_congr rfl fun j _ => ?_
      ring

/-- The expected target distribution. -/
noncomputable def expectedTarget (p : C51 ℝ) (e : Env S (Fin (m + 1))) (gamma : ℝ) (D : Table S m p) : Table S m p :=
  fun s a i => ∑ s', e.next s a s' * target p e gamma D (s, a) s' i

theorem expectedTarget_spec (p : C51 ℝ) (hn : 1 < p.numAtoms) (hv : p.vMin < p.vMax) (e : Env S (Fin (m + 1))) (he : e.Ok)
    (hp : ∀ s a s', 0 ≤ e.next s a s') (gamma : ℝ) (hw : Wide p e gamma) (D : Table S m p) (hD : ∀ s a, IsDist (D s a)) (s : S) (a : Fin (m + 1)) :
    IsDist (expectedTarget p e gamma D s a) ∧ means p (expectedTarget p e gamma D) s a = backup e gamma (means p D) s a := by
  have h := fun s' => target_spec p hn hv e gamma hw D hD (s, a) s'
  refine ⟨⟨fun i => Finset.sum_nonneg fun s' _ => mul_nonneg (hp s a s') ((h s').1.1 i), ?_⟩, ?_⟩
  · unfold expectedTarget
    rw [Finset.sum_comm]
    simp only [← Finset.mul_sum, fun s' => (h s').1.2, mul_one]
    exact he.next s a
  · unfold means expectedTarget
    simp only [Finset.sum_mul]
    rw [Finset.sum_comm]
    unfold backup
    refine Finset.sum_congr rfl fun s' _ => ?_
    have h4 := (h s').2
    unfold means at h4
    rw [← h4, Finset.mul_sum]
    refine Finset.sum_congr rfl fun i _ => ?_
    ring

/-! ### The loss -/

/-- Cross entropy with `eps` added to the probabilities. -/
noncomputable def ce {N : Nat} (eps : ℝ) (t d : Fin N → ℝ) : ℝ := -∑ i, t i * Real.log (d i + eps)

theorem loss_eq {p : C51 ℝ} {e : Env S (Fin (m + 1))} {n : Nat} (b : Batches e Ω n) (eps : ℝ) (isDouble : Bool) (nets : Nets S (List ℝ)) (gamma : ℝ)
    (weight : Fin n → ℝ) (D : Table S m p) (h1 : nets.hasTarget = true → nets.old = distNet D) (h2 : nets.online = distNet D) (D' : Table S m p) (ω : Ω) :
    loss b eps isDouble nets gamma weight D' ω =
      (∑ q, ce eps (target p e gamma D (b.pair ω q) (b.nexts ω q)) (D' (b.pair ω q).1 (b.pair ω q).2) * weight q) / n := by
  unfold loss c51LearnLoss c51Targets
  rw [returns_rows (fun _ => (List.range p.numAtoms).map p.atom)]
  simp only [Option.map_some, Option.getD_some, Option.map_none, distTarget_table isDouble nets D h1 h2]
  unfold c51Loss pick List.zip
  simp only [List.map_ofFn, zipWith_ofFn, mean_ofFn]
  congr 1
  refine Finset.sum_congr rfl fun q _ => ?_
  simp only [Function.comp_apply, b.rew, b.terminated, b.next, List.map_map]
  have := target_ofFn p e gamma D (b.pair ω q) (b.nexts ω q)
  have h3 : List.map ((fun v => e.rew (b.pair ω q).1 (b.pair ω q).2 (b.nexts ω q) +
        gamma * if e.ends (b.pair ω q).1 (b.pair ω q).2 (b.nexts ω q) = true then 0 else v) ∘ p.atom) (List.range p.numAtoms) =
      (List.range p.numAtoms).map fun j => e.rew (b.pair ω q).1 (b.pair ω q).2 (b.nexts ω q) +
        gamma * if e.ends (b.pair ω q).1 (b.pair ω q).2 (b.nexts ω q) then 0 else p.atom j := rfl
  rw [h3, this]
  have h4 : (distNet D' (b.pair ω q).1).getD (b.pair ω q).2 [] = List.ofFn (D' (b.pair ω q).1 (b.pair ω q).2) := by
    exact distNet_getD D' (b.pair ω q).1 _ (b.pair ω q).2.2
  rw [h4, zipWith_ofFn, List.sum_ofFn]
  rfl

theorem expectedLoss_eq {p : C51 ℝ} {e : Env S (Fin (m + 1))} {n : Nat} (b : Batches e Ω n) (eps : ℝ) (isDouble : Bool) (nets : Nets S (List ℝ)) (gamma : ℝ)
    (weight : Fin n → ℝ) (D : Table S m p) (h1 : nets.hasTarget = true → nets.old = distNet D) (h2 : nets.online = distNet D) (D' : Table S m p) :
    expectedLoss b eps isDouble nets gamma weight D' =
      ∑ ω, b.P ω * ((∑ q, ce eps (expectedTarget p e gamma D (b.pair ω q).1 (b.pair ω q).2) (D' (b.pair ω q).1 (b.pair ω q).2) * weight q) / n) := by
  unfold expectedLoss
  simp only [loss_eq b eps isDouble nets gamma weight D h1 h2, Finset.sum_div, Finset.mul_sum]
  rw [Finset.sum_comm]
  conv_rhs => rw [Finset.sum_comm]
  refine Finset.sum_congr rfl fun q _ => ?_
  rw [b.drawn q fun x s' => ce eps (target p e gamma D x s') (D' x.1 x.2) * weight q / n]
  refine Finset.sum_congr rfl fun ω _ => ?_
  congr 1
  simp only [mul_div_assoc', ← mul_assoc]
  rw [← Finset.sum_div, ← Finset.sum_mul]
  congr 2
  unfold ce expectedTarget
  simp only [mul_neg, Finset.mul_sum, Finset.sum_mul, Finset.sum_neg_distrib]
  congr 1
  rw [Finset.sum_comm]
  refine Finset.sum_congr rfl fun i _ => Finset.sum_congr rfl fun s' _ => ?_
  ring

/-! ### The minimum of the cross entropy -/

theorem limit {A B C : ℝ} (hC : 0 ≤ C) (h : ∀ l : ℝ, 0 < l → l < 1 → A * (1 - l) ≤ B + l * C) : A ≤ B := by
  by_contra hlt
  push Not at hlt
  have hK : 0 < |A| + C + (A - B) := by
    have := abs_nonneg A
    linarith
  have hl0 : 0 < (A - B) / (2 * (|A| + C + (A - B))) := div_pos (by linarith) (by linarith)
  have hl1 : (A - B) / (2 * (|A| + C + (A - B))) < 1 := by
    rw [div_lt_one (by linarith)]
    have := abs_nonneg A
    linarith
  have h1 := h _ hl0 hl1
  have h2 : (A - B) / (2 * (|A| + C + (A - B))) * (|A| + C + (A - B)) = (A - B) / 2 := by
    field_simp
  have h3 := mul_le_mul_of_nonneg_left (le_abs_self A) hl0.le
  have h4 : 0 < (A - B) / (2 * (|A| + C + (A - B))) * (A - B) := mul_pos hl0 (by linarith)
  nlinarith

/-- A distribution that minimises the cross entropy is nowhere below the target by more than `eps`. -/
theorem minimum {N : Nat} (eps : ℝ) (heps : 0 < eps) (t d : Fin N → ℝ) (ht : IsDist t) (hd : IsDist d)
    (hmin : ∀ q, IsDist q → ce eps t d ≤ ce eps t q) (i : Fin N) : t i ≤ d i + eps := by
  have hd1 : d i ≤ 1 := by
    rw [← hd.2]
    exact Finset.single_le_sum (fun j _ => hd.1 j) (Finset.mem_univ i)
  have ht1 : t i ≤ 1 := by
    rw [← ht.2]
    exact Finset.single_le_sum (fun j _ => ht.1 j) (Finset.mem_univ i)
  have key : t i * (1 - d i) ≤ (1 - t i) * (d i + eps) := by
    refine limit (C := (1 - t i) * (1 - d i)) (mul_nonneg (by linarith) (by linarith)) fun l hl0 hl1 => ?_
    let q : Fin N → ℝ := fun j => (1 - l) * d j + if j = i then l else 0
    have hq0 : ∀ j, 0 ≤ q j := fun j => add_nonneg (mul_nonneg (by linarith) (hd.1 j)) (by split <;> linarith)
    have hq : IsDist q := ⟨hq0, by
      simp only [q]
      rw [Finset.sum_add_distrib, ← Finset.mul_sum, hd.2, Finset.sum_ite_eq' Finset.univ i, if_pos (Finset.mem_univ i)]
      ring⟩
    have h1 := hmin q hq
    have h2 : ∑ j, t j * (1 - (d j + eps) / (q j + eps)) ≤ 0 := by
      have h3 : ∀ j ∈ Finset.univ, t j * (1 - (d j + eps) / (q j + eps)) ≤ t j * Real.log (q j + eps) - t j * Real.log (d j + eps) := by
        intro j _
        rw [← mul_sub]
        refine mul_le_mul_of_nonneg_left ?_ (ht.1 j)
        have a1 : 0 < d j + eps := by linarith [hd.1 j]
        have a2 : 0 < q j + eps := by linarith [hq0 j]
        rw [← Real.log_div a2.ne' a1.ne']
        have := Real.one_sub_inv_le_log_of_pos (div_pos a2 a1)
        rwa [inv_div] at this
      refine (Finset.sum_le_sum h3).trans ?_
      rw [Finset.sum_sub_distrib]
      unfold ce at h1
      linarith
    -- the terms of the sum
    have h4 : ∀ j ∈ Finset.univ.erase i, -(l / (1 - l)) * t j ≤ t j * (1 - (d j + eps) / (q j + eps)) := by
      intro j hj
      have hji : j ≠ i := Finset.ne_of_mem_erase hj
      have hqj : q j = (1 - l) * d j := by simp [q, hji]
      have a2 : 0 < q j + eps := by linarith [hq0 j]
      rw [mul_comm]
      refine mul_le_mul_of_nonneg_left ?_ (ht.1 j)
      have h5 : (d j + eps) / (q j + eps) ≤ 1 / (1 - l) := by
        rw [div_le_div_iff₀ a2 (by linarith), hqj]
        nlinarith [hd.1 j]
      have h6 : 1 / (1 - l) = 1 + l / (1 - l) := by
        have : (1 - l) ≠ 0 := by linarith
        field_simp
        ring
      linarith
    have h7 := Finset.sum_le_sum h4
    rw [← Finset.mul_sum] at h7
    have h8 : ∑ j ∈ Finset.univ.erase i, t j = 1 - t i := by
      rw [← ht.2, ← Finset.add_sum_erase _ _ (Finset.mem_univ i)]
      ring
    rw [← Finset.add_sum_erase _ _ (Finset.mem_univ i)] at h2
    rw [h8] at h7
    have hqi : q i = d i + l * (1 - d i) := by
      simp only [q, if_pos]
      ring
    have a2 : 0 < q i + eps := by linarith [hq0 i]
    have h9 : t i * (1 - (d i + eps) / (q i + eps)) = l * (t i * (1 - d i) / (q i + eps)) := by
      have : 1 - (d i + eps) / (q i + eps) = l * (1 - d i) / (q i + eps) := by
        rw [eq_div_iff a2.ne', sub_mul, div_mul_cancel₀ _ a2.ne', hqi]
        ring
      rw [this]
      ring
    rw [h9] at h2
    have h10 : l * (t i * (1 - d i) / (q i + eps)) ≤ l * ((1 - t i) / (1 - l)) := by
      have : l * ((1 - t i) / (1 - l)) = l / (1 - l) * (1 - t i) := by ring
      linarith
    have h11 := le_of_mul_le_mul_left h10 hl0
    rw [div_le_div_iff₀ a2 (by linarith), hqi] at h11
    linarith
  nlinarith [ht.1 i]

theorem mean_error (p : C51 ℝ) (hn : 1 < p.numAtoms) (hv : p.vMin < p.vMax) (eps : ℝ) (heps : 0 ≤ eps) (t d : Fin p.numAtoms → ℝ) (ht : IsDist t) (hd : IsDist d)
    (h : ∀ i, t i ≤ d i + eps) : |∑ i, d i * p.atom i - ∑ i, t i * p.atom i| ≤ p.numAtoms * eps * (p.vMax - p.vMin) := by
  have shift : ∀ c, ∑ i, d i * p.atom i - ∑ i, t i * p.atom i = ∑ i, (d i - t i) * (p.atom i - c) := by
    intro c
    have : ∀ i, (d i - t i) * (p.atom i - c) = d i * p.atom i - t i * p.atom i - (c * d i - c * t i) := fun i => by ring
    simp only [this, Finset.sum_sub_distrib, ← Finset.mul_sum, hd.2, ht.2]
    ring
  have hN : (∑ _i : Fin p.numAtoms, eps * (p.vMax - p.vMin)) = p.numAtoms * eps * (p.vMax - p.vMin) := by
    rw [Finset.sum_const, Finset.card_univ, Fintype.card_fin, nsmul_eq_mul, mul_assoc]
  rw [abs_le, ← hN]
  constructor
  · rw [shift p.vMin, ← Finset.sum_neg_distrib]
    refine Finset.sum_le_sum fun i _ => ?_
    have h1 := atom_mem p hn hv i i.2
    have h2 := h i
    nlinarith
  · rw [shift p.vMax]
    refine Finset.sum_le_sum fun i _ => ?_
    have h1 := atom_mem p hn hv i i.2
    have h2 := h i
    nlinarith

/-! ### C243 -/

/-- **C243: the mean of the targets.** If the support is wide enough, the expected target distribution of a state and action is a distribution on the atoms, and its mean is the
expected reward plus the discounted largest mean in the next state: what Q-learning would have as target. -/
theorem C243_backup {p : C51 ℝ} (hn : 1 < p.numAtoms) (hv : p.vMin < p.vMax) (e : Env S (Fin (m + 1))) (he : e.Ok)
    (hp : ∀ s a s', 0 ≤ e.next s a s') (gamma : ℝ) (hw : Wide p e gamma) (D : Table S m p) (hD : ∀ s a, IsDist (D s a)) {n : Nat} (b : Batches e Ω n) (eps : ℝ)
    (isDouble : Bool) (nets : Nets S (List ℝ)) (h1 : nets.hasTarget = true → nets.old = distNet D) (h2 : nets.online = distNet D) (weight : Fin n → ℝ) :
    ∃ T : Table S m p, (∀ s a, IsDist (T s a) ∧ means p T s a = backup e gamma (means p D) s a) ∧
      ∀ D' : Table S m p, expectedLoss b eps isDouble nets gamma weight D' =
        ∑ ω, b.P ω * ((∑ q, -(∑ i, T (b.pair ω q).1 (b.pair ω q).2 i * Real.log (D' (b.pair ω q).1 (b.pair ω q).2 i + eps)) * weight q) / n) :=
  ⟨expectedTarget p e gamma D, expectedTarget_spec p hn hv e he hp gamma hw D hD,
    expectedLoss_eq b eps isDouble nets gamma weight D h1 h2⟩

open Classical in
/-- A table in which the distribution of one pair is replaced. -/
noncomputable def put {p : C51 ℝ} (D : Table S m p) (x : S × Fin (m + 1)) (q : Fin p.numAtoms → ℝ) : Table S m p :=
  fun s a => if (s, a) = x then q else D s a

theorem minimiser {p : C51 ℝ} (hn : 1 < p.numAtoms) (hv : p.vMin < p.vMax) (e : Env S (Fin (m + 1))) (he : e.Ok)
    (hp : ∀ s a s', 0 ≤ e.next s a s') (gamma : ℝ) (hw : Wide p e gamma) (D : Table S m p) (hD : ∀ s a, IsDist (D s a)) {n : Nat} (b : Batches e Ω n)
    (hP : ∀ ω, 0 ≤ b.P ω) (eps : ℝ) (heps : 0 < eps)
    (isDouble : Bool) (nets : Nets S (List ℝ)) (h1 : nets.hasTarget = true → nets.old = distNet D) (h2 : nets.online = distNet D) (weight : Fin n → ℝ)
    (hwt : ∀ q, 0 ≤ weight q) (hc : ∀ x, ∃ ω q, 0 < b.P ω ∧ 0 < weight q ∧ b.pair ω q = x) (D' : Table S m p) (hD' : ∀ s a, IsDist (D' s a))
    (hmin : ∀ T : Table S m p, (∀ s a, IsDist (T s a)) →
      expectedLoss b eps isDouble nets gamma weight D' ≤ expectedLoss b eps isDouble nets gamma weight T) (s : S) (a : Fin (m + 1)) :
    |means p D' s a - backup e gamma (means p D) s a| ≤ p.numAtoms * eps * (p.vMax - p.vMin) := by
  classical
  have hspec := expectedTarget_spec p hn hv e he hp gamma hw D hD s a
  rw [← hspec.2]
  refine mean_error p hn hv eps heps.le _ _ hspec.1 (hD' s a) fun i => ?_
  refine minimum eps heps _ _ hspec.1 (hD' s a) (fun q hq => ?_) i
  have h3 := hmin (put D' (s, a) q) (fun s' a' => by
    unfold put
    split
    · exact hq
    · exact hD' s' a')
  rw [expectedLoss_eq b eps isDouble nets gamma weight D h1 h2, expectedLoss_eq b eps isDouble nets gamma weight D h1 h2, ← sub_nonneg,
    ← Finset.sum_sub_distrib] at h3
  have h4 : ∀ ω, b.P ω * ((∑ r, ce eps (expectedTarget p e gamma D (b.pair ω r).1 (b.pair ω r).2) (put D' (s, a) q (b.pair ω r).1 (b.pair ω r).2) * weight r) / n) -
      b.P ω * ((∑ r, ce eps (expectedTarget p e gamma D (b.pair ω r).1 (b.pair ω r).2) (D' (b.pair ω r).1 (b.pair ω r).2) * weight r) / n) =
      (ce eps (expectedTarget p e gamma D s a) q - ce eps (expectedTarget p e gamma D s a) (D' s a)) *
        (b.P ω * ((∑ r, if b.pair ω r = (s, a) then weight r else 0) / n)) := by
    intro ω
    have hcomm : ∀ c P X k : ℝ, c * (P * (X / k)) = P * (c * X / k) := fun c P X k => by ring
    rw [← mul_sub, ← sub_div, ← Finset.sum_sub_distrib, hcomm, Finset.mul_sum]
    congr 2
    refine Finset.sum_congr rfl fun r _ => ?_
    by_cases h : b.pair ω r = (s, a)
    · rw [if_pos h, h]
      simp only [put, if_true]
      ring
    · rw [if_neg h]
      unfold put
      rw [if_neg (by simpa using h)]
      ring
  simp only [h4] at h3
  rw [← Finset.mul_sum] at h3
  have hpos : 0 < ∑ ω, b.P ω * ((∑ r, if b.pair ω r = (s, a) then weight r else 0) / n) := by
    obtain ⟨ω, r, hω, hr, hx⟩ := hc (s, a)
    have hn0 : 0 < (n : ℝ) := by exact_mod_cast Fin.pos r
    have hnn : ∀ ω r, 0 ≤ (if b.pair ω r = (s, a) then weight r else 0) := fun ω r => by
      split
      · exact hwt r
      · exact le_rfl
    refine lt_of_lt_of_le ?_ (Finset.single_le_sum (f := fun ω => b.P ω * ((∑ r, if b.pair ω r = (s, a) then weight r else 0) / n))
      (fun ω _ => mul_nonneg (hP ω) (div_nonneg (Finset.sum_nonneg fun r _ => hnn ω r) hn0.le)) (Finset.mem_univ ω))
    refine mul_pos hω (div_pos ?_ hn0)
    refine lt_of_lt_of_le ?_ (Finset.single_le_sum (f := fun r => if b.pair ω r = (s, a) then weight r else 0) (fun r _ => hnn ω r) (Finset.mem_univ r))
    simp only [if_pos hx]
    exact hr
  have := nonneg_of_mul_nonneg_left h3 hpos
  linarith

/-- **C243: convergence.** Let the network output a table of distributions. In each round it is trained until it minimises the expected loss, then the target network is
synchronised; every pair of state and action occurs in the batches with positive probability and weight; the support is wide enough. Then the means converge to the optimal
action values geometrically with the discount factor, up to an error of at most `numAtoms * eps * (vMax - vMin) / (1 - gamma)`, where `eps` is what is added in the logarithm (1e-8). -/
theorem C243_converges {p : C51 ℝ} (hn : 1 < p.numAtoms) (hv : p.vMin < p.vMax) (e : Env S (Fin (m + 1))) (he : e.Ok)
    (hp : ∀ s a s', 0 ≤ e.next s a s') (gamma : ℝ) (hg : 0 ≤ gamma) (hg1 : gamma < 1) (hw : Wide p e gamma) {n : Nat} (b : Batches e Ω n)
    (hP : ∀ ω, 0 ≤ b.P ω) (eps : ℝ) (heps : 0 < eps) (isDouble : Bool) (weight : Fin n → ℝ)
    (hwt : ∀ q, 0 ≤ weight q) (hc : ∀ x, ∃ ω q, 0 < b.P ω ∧ 0 < weight q ∧ b.pair ω q = x)
    (D : Nat → Table S m p) (hD : ∀ k s a, IsDist (D k s a)) (nets : Nat → Nets S (List ℝ))
    (h1 : ∀ k, (nets k).hasTarget = true → (nets k).old = distNet (D k)) (h2 : ∀ k, (nets k).online = distNet (D k))
    (hmin : ∀ k (T : Table S m p), (∀ s a, IsDist (T s a)) →
      expectedLoss b eps isDouble (nets k) gamma weight (D (k + 1)) ≤ expectedLoss b eps isDouble (nets k) gamma weight T)
    (O : S → Fin (m + 1) → ℝ) (hO : Optimal e gamma O) (k : Nat) (s : S) (a : Fin (m + 1)) :
    |means p (D k) s a - O s a| ≤ gamma ^ k * dist (means p (D 0)) O + p.numAtoms * eps * (p.vMax - p.vMin) / (1 - gamma) := by
  have hE : 0 ≤ p.numAtoms * eps * (p.vMax - p.vMin) := mul_nonneg (mul_nonneg (Nat.cast_nonneg _) heps.le) (by linarith)
  generalize hEq : p.numAtoms * eps * (p.vMax - p.vMin) = E at hE
  have hOb : backup e gamma O = O := by
    funext s a
    exact (hO s a).symm
  have step : ∀ k, dist (means p (D (k + 1))) O ≤ gamma * dist (means p (D k)) O + E := by
    intro k
    have h3 : dist (means p (D (k + 1))) (backup e gamma (means p (D k))) ≤ E := by
      refine (dist_pi_le_iff hE).mpr fun s => (dist_pi_le_iff hE).mpr fun a => ?_
      rw [Real.dist_eq, ← hEq]
      exact minimiser hn hv e he hp gamma hw (D k) (hD k) b hP eps heps isDouble (nets k) (h1 k) (h2 k) weight hwt hc (D (k + 1)) (hD (k + 1)) (hmin k) s a
    have h4 := backup_dist e he hp gamma hg (means p (D k)) O
    rw [hOb] at h4
    have := dist_triangle (means p (D (k + 1))) (backup e gamma (means p (D k))) O
    linarith
  have hk : dist (means p (D k)) O ≤ gamma ^ k * dist (means p (D 0)) O + E / (1 - gamma) := by
    induction k with
    | zero =>
      have := div_nonneg hE (show 0 ≤ 1 - gamma by linarith)
      simpa using this
    | succ k ih =>
      refine (step k).trans ?_
      have h5 := mul_le_mul_of_nonneg_left ih hg
      have h6 : gamma * (E / (1 - gamma)) + E = E / (1 - gamma) := by
        have : (1 - gamma) ≠ 0 := by linarith
        field_simp
        ring
      rw [pow_succ]
      nlinarith
  have := (dist_le_pi_dist (means p (D k) s) (O s) a).trans (dist_le_pi_dist (means p (D k)) O s)
  rw [Real.dist_eq] at this
  exact this.trans hk

/-- **C243: the range.** Whatever is learned, the means lie between `vMin` and `vMax`: optimal values outside are not found. -/
theorem C243_range {p : C51 ℝ} (hn : 1 < p.numAtoms) (hv : p.vMin < p.vMax) (D : Table S m p) (hD : ∀ s a, IsDist (D s a)) (s : S) (a : Fin (m + 1)) :
    p.vMin ≤ means p D s a ∧ means p D s a ≤ p.vMax := by
  unfold means
  constructor
  · calc p.vMin = ∑ i, D s a i * p.vMin := by rw [← Finset.sum_mul, (hD s a).2, one_mul]
      _ ≤ _ := Finset.sum_le_sum fun i _ => mul_le_mul_of_nonneg_left (atom_mem p hn hv i i.2).1 ((hD s a).1 i)
  · calc ∑ i, D s a i * p.atom i ≤ ∑ i, D s a i * p.vMax :=
          Finset.sum_le_sum fun i _ => mul_le_mul_of_nonneg_left (atom_mem p hn hv i i.2).2 ((hD s a).1 i)
      _ = p.vMax := by rw [← Finset.sum_mul, (hD s a).2, one_mul]

/-! ### Cases -/

/-- A table that minimises the expected loss exists, whatever the networks used for the targets are. -/
theorem exists_minimum {p : C51 ℝ} (hn : 1 < p.numAtoms) {e : Env S (Fin (m + 1))} {n : Nat} (b : Batches e Ω n) (eps : ℝ) (heps : 0 < eps) (isDouble : Bool)
    (nets : Nets S (List ℝ)) (gamma : ℝ) (weight : Fin n → ℝ) (D : Table S m p) (h1 : nets.hasTarget = true → nets.old = distNet D)
    (h2 : nets.online = distNet D) :
    ∃ D' : Table S m p, (∀ s a, IsDist (D' s a)) ∧ ∀ T : Table S m p, (∀ s a, IsDist (T s a)) →
      expectedLoss b eps isDouble nets gamma weight D' ≤ expectedLoss b eps isDouble nets gamma weight T := by
  let K : Set (Table S m p) := Set.univ.pi fun _ => Set.univ.pi fun _ => stdSimplex ℝ (Fin p.numAtoms)
  have hmem : ∀ T : Table S m p, T ∈ K ↔ ∀ s a, IsDist (T s a) := by
    intro T
    simp only [K, Set.mem_univ_pi]
    rfl
  have hK : IsCompact K := isCompact_univ_pi fun _ => isCompact_univ_pi fun _ => isCompact_stdSimplex _ _
  have hne : K.Nonempty := ⟨fun _ _ i => if i = ⟨0, by omega⟩ then 1 else 0, (hmem _).mpr fun s a =>
    ⟨fun i => by dsimp only; split <;> norm_num, by simp⟩⟩
  have hcont : ContinuousOn (fun T : Table S m p => expectedLoss b eps isDouble nets gamma weight T) K := by
    simp only [expectedLoss_eq b eps isDouble nets gamma weight D h1 h2, ce]
    refine continuousOn_finsetSum _ fun ω _ => ContinuousOn.mul continuousOn_const (ContinuousOn.div_const ?_ _)
    refine continuousOn_finsetSum _ fun q _ => ContinuousOn.mul (ContinuousOn.neg ?_) continuousOn_const
    refine continuousOn_finsetSum _ fun i _ => ContinuousOn.mul continuousOn_const ?_
    refine ContinuousOn.log (Continuous.continuousOn (by fun_prop)) fun T hT => ?_
    have := ((hmem T).mp hT (b.pair ω q).1 (b.pair ω q).2).1 i
    linarith
  obtain ⟨D', hD', hmin⟩ := hK.exists_isMinOn hne hcont
  exact ⟨D', (hmem D').mp hD', fun T hT => hmin ((hmem T).mpr hT)⟩

/-- Three atoms: 0, 5, 10. -/
def three : C51 ℝ := ⟨3, 0, 10⟩

theorem three_wide (gamma : ℝ) : Wide three QLearning.lottery gamma := by
  intro s a s' z h1 h2
  simp only [three, QLearning.lottery] at *
  cases s' <;> norm_num

/-- For the lottery (8 with probability 1/4, else 0) the learned means are 2 from the first round on, up to 6e-7, whatever the first table is, although 8 is none of the atoms. -/
example (D0 : Table Bool 0 three) (hD0 : ∀ s a, IsDist (D0 s a)) : ∃ D : Nat → Table Bool 0 three, D 0 = D0 ∧
    (∀ k (T : Table Bool 0 three), (∀ s a, IsDist (T s a)) →
      expectedLoss QLearning.lotteryBatches (1 / 100000000) true ⟨distNet (D k), distNet (D k), true⟩ (1 / 2) (fun _ => 1) (D (k + 1)) ≤
        expectedLoss QLearning.lotteryBatches (1 / 100000000) true ⟨distNet (D k), distNet (D k), true⟩ (1 / 2) (fun _ => 1) T) ∧
    ∀ k s a, |means three (D k) s a - 2| ≤ (1 / 2) ^ k * dist (means three D0) QLearning.two + 3 * (1 / 100000000) * 10 / (1 - 1 / 2) := by
  have hex : ∀ D : Table Bool 0 three, ∃ D' : Table Bool 0 three, (∀ s a, IsDist (D' s a)) ∧ ∀ T : Table Bool 0 three, (∀ s a, IsDist (T s a)) →
      expectedLoss QLearning.lotteryBatches (1 / 100000000) true ⟨distNet D, distNet D, true⟩ (1 / 2) (fun _ => 1) D' ≤
        expectedLoss QLearning.lotteryBatches (1 / 100000000) true ⟨distNet D, distNet D, true⟩ (1 / 2) (fun _ => 1) T := fun D =>
    exists_minimum (by decide) QLearning.lotteryBatches _ (by norm_num) true _ (1 / 2) (fun _ => 1) D (fun _ => rfl) rfl
  choose next hnext hmin using hex
  let D : Nat → Table Bool 0 three := fun k => Nat.rec D0 (fun _ D => next D) k
  have hD : ∀ k s a, IsDist (D k s a) := by
    intro k
    cases k with
    | zero => exact hD0
    | succ k => exact hnext (D k)
  refine ⟨D, rfl, fun k => hmin (D k), fun k s a => ?_⟩
  have := C243_converges (p := three) (by decide) (by norm_num [three]) QLearning.lottery QLearning.lottery_ok
    (fun _ _ s' => by cases s' <;> norm_num [QLearning.lottery]) (1 / 2) (by norm_num) (by norm_num) (three_wide _) QLearning.lotteryBatches (by
      rintro ⟨a, b⟩
      cases b <;> norm_num [QLearning.lotteryBatches, QLearning.lottery]) (1 / 100000000) (by norm_num) true (fun _ => 1) (fun _ => zero_le_one)
    (by
      rintro ⟨s, a⟩
      refine ⟨(s, true), 0, ?_, one_pos, ?_⟩
      · simp [QLearning.lotteryBatches, QLearning.lottery]
      · simp only [QLearning.lotteryBatches, Prod.mk.injEq, true_and]
        exact (Fin.fin_one_eq_zero a).symm) D hD (fun k => ⟨distNet (D k), distNet (D k), true⟩) (fun _ _ => rfl) (fun _ => rfl) (fun k => hmin (D k))
    QLearning.two (QLearning.lottery_optimal _) k s a
  simp only [three, sub_zero, Nat.cast_ofNat] at this
  exact this

/-- With the default support from -10 to 10 and a reward of 1 in every step for ever, the optimal value for the discount factor 0.99 is 100: out of range. -/
noncomputable def forever : Env Unit (Fin 1) := ⟨fun _ => 1, fun _ _ _ => 1, fun _ _ _ => 1, fun _ _ _ => false⟩

example (D : Table Unit 0 ⟨51, -10, 10⟩) (hD : ∀ s a, IsDist (D s a)) : Optimal forever (99 / 100) (fun _ _ => 100) ∧ means ⟨51, -10, 10⟩ D () 0 ≤ 10 := by
  refine ⟨fun s a => ?_, (C243_range (by decide) (by norm_num) D hD () 0).2⟩
  simp [backup, oneStep, forever, best]
  norm_num

end Verif.C51Learn
