import Verif.Model.Psrl
import Verif.Lemmas.Policy
import Mathlib.Algebra.Order.Archimedean.Basic
import Mathlib.Algebra.Order.BigOperators.Ring.Finset
import Mathlib.Tactic.Linarith
import Mathlib.Tactic.FieldSimp
import Mathlib.Tactic.Ring
import Mathlib.Tactic.Positivity

/-! Properties C109-C113: posterior sampling. -/

set_option linter.unusedSectionVars false

namespace Verif.Psrl

section posterior

variable {K : Type} [Field K] [LinearOrder K] [IsStrictOrderedRing K]

/-- How often `a` was taken in `s` and led to `s'`. -/
def seen (rows : List (Row K)) (s a s' : Nat) : Nat :=
  rows.countP fun r => r.obs = s ∧ r.act = a ∧ r.obsNext = s'

/-- How many episodes ended in `s`. -/
def ended (rows : List (Row K)) (s : Nat) : Nat := rows.countP fun r => r.done ∧ r.obsNext = s

/-- The rewards of taking `a` in `s`. -/
def rewards (rows : List (Row K)) (s a : Nat) : List K :=
  (rows.filter fun r => r.obs = s ∧ r.act = a).map Row.rew

theorem counts_foldl (loop : Bool) (rows : List (Row K)) (c : Counts K) (s a s' : Nat) :
    (rows.foldl (Counts.step loop) c).trans s a s' = c.trans s a s' + seen rows s a s' +
      (if loop ∧ s' = s then (ended rows s : K) else 0) ∧
    (rows.foldl (Counts.step loop) c).rewSum s a = c.rewSum s a + (rewards rows s a).sum ∧
    (rows.foldl (Counts.step loop) c).rewSquareSum s a = c.rewSquareSum s a + ((rewards rows s a).map (· ^ 2)).sum ∧
    (rows.foldl (Counts.step loop) c).rewCount s a = c.rewCount s a + (rewards rows s a).length +
      (if loop then (ended rows s : K) else 0) := by
  induction rows generalizing c with
  | nil => simp [seen, ended, rewards]
  | cons r rows ih =>
    obtain ⟨h1, h2, h3, h4⟩ := ih (c.step loop r)
    rw [List.foldl_cons]
    refine ⟨?_, ?_, ?_, ?_⟩
    · rw [h1]
      simp only [seen, ended, List.countP_cons, Counts.step]
      by_cases hl : (loop && r.done) = true
      · rw [if_pos hl]
        simp only [Bool.and_eq_true] at hl
        simp only [Counts.loop, Counts.add, hl.1, hl.2, true_and]
        by_cases e1 : s = r.obs ∧ a = r.act ∧ s' = r.obsNext
        · obtain ⟨rfl, rfl, rfl⟩ := e1
          by_cases e2 : r.obsNext = r.obs
          · simp [e2]; ring
          · have : ¬ r.obs = r.obsNext := fun h => e2 h.symm
            simp [e2, this]; ring
        · have e1' : ¬ (r.obs = s ∧ r.act = a ∧ r.obsNext = s') := fun h => e1 ⟨h.1.symm, h.2.1.symm, h.2.2.symm⟩
          by_cases e2 : s' = s
          · subst e2
            by_cases e3 : s' = r.obsNext
            · subst e3
              have e1a : ¬ (r.obsNext = r.obs ∧ a = r.act) := fun h => e1 ⟨h.1, h.2, rfl⟩
              have e1b : ¬ (r.obs = r.obsNext ∧ r.act = a) := fun h => e1a ⟨h.1.symm, h.2.symm⟩
              simp [e1a, e1b]; ring
            · have : ¬ r.obsNext = s' := fun h => e3 h.symm
              simp [e1, e1', e3, this]
          · have : ¬ (s = r.obsNext ∧ s' = r.obsNext) := fun h => e2 (h.2.trans h.1.symm)
            simp [e1, e1', e2, this]
      · rw [if_neg hl]
        simp only [Counts.add]
        have hz : loop = true → r.done = false := by
          intro h; rw [h] at hl; simpa using hl
        by_cases e1 : s = r.obs ∧ a = r.act ∧ s' = r.obsNext
        · obtain ⟨rfl, rfl, rfl⟩ := e1
          cases loop with
          | false => simp; ring
          | true => simp [hz rfl]; ring
        · have e1' : ¬ (r.obs = s ∧ r.act = a ∧ r.obsNext = s') := fun h => e1 ⟨h.1.symm, h.2.1.symm, h.2.2.symm⟩
          cases loop with
          | false => simp [e1, e1']
          | true => simp [hz rfl, e1, e1']
    · rw [h2]
      have : (c.step loop r).rewSum s a = c.rewSum s a + if s = r.obs ∧ a = r.act then r.rew else 0 := by
        unfold Counts.step; split_ifs <;> simp_all [Counts.loop, Counts.add]
      rw [this]
      simp only [rewards, List.filter_cons]
      by_cases e : s = r.obs ∧ a = r.act
      · obtain ⟨rfl, rfl⟩ := e; simp; ring
      · have e' : ¬ (r.obs = s ∧ r.act = a) := fun h => e ⟨h.1.symm, h.2.symm⟩
        simp [e, e']
    · rw [h3]
      have : (c.step loop r).rewSquareSum s a = c.rewSquareSum s a + if s = r.obs ∧ a = r.act then r.rew ^ 2 else 0 := by
        unfold Counts.step; split_ifs <;> simp_all [Counts.loop, Counts.add]
      rw [this]
      simp only [rewards, List.filter_cons]
      by_cases e : s = r.obs ∧ a = r.act
      · obtain ⟨rfl, rfl⟩ := e; simp; ring
      · have e' : ¬ (r.obs = s ∧ r.act = a) := fun h => e ⟨h.1.symm, h.2.symm⟩
        simp [e, e']
    · rw [h4]
      have : (c.step loop r).rewCount s a = c.rewCount s a + (if s = r.obs ∧ a = r.act then 1 else 0) +
          if loop = true ∧ r.done = true ∧ r.obsNext = s then 1 else 0 := by
        unfold Counts.step
        by_cases hl : (loop && r.done) = true
        · rw [if_pos hl]
          simp only [Bool.and_eq_true] at hl
          simp [Counts.loop, Counts.add, hl.1, hl.2, eq_comm]
        · rw [if_neg hl]
          have : ¬ (loop = true ∧ r.done = true ∧ r.obsNext = s) := fun h => hl (by simp [h.1, h.2.1])
          simp [Counts.add, this]
      rw [this]
      simp only [rewards, ended, List.filter_cons, List.countP_cons]
      by_cases e : s = r.obs ∧ a = r.act
      · obtain ⟨rfl, rfl⟩ := e
        cases loop with
        | false => simp; ring
        | true =>
          by_cases e3 : r.done = true ∧ r.obsNext = r.obs
          · simp [e3]; ring
          · simp [e3]; ring
      · have e' : ¬ (r.obs = s ∧ r.act = a) := fun h => e ⟨h.1.symm, h.2.symm⟩
        cases loop with
        | false => simp [e, e']
        | true =>
          by_cases e3 : r.done = true ∧ r.obsNext = s
          · simp [e, e', e3]; ring
          · simp [e, e', e3]

/-- The model after learning from some batches, one after the other. -/
def learned (loop : Bool) (m : Model K) (batches : List (List (Row K))) : Model K :=
  batches.foldl (Model.learn loop) m

/-- What is known about a model that has seen `rows`. -/
structure Knows (loop : Bool) (m0 m : Model K) (rows : List (Row K)) : Prop where
  trans : ∀ s a s', m.trans s a s' = m0.trans s a s' + seen rows s a s' + (if loop ∧ s' = s then (ended rows s : K) else 0)
  count : ∀ s a, m.rewCount s a = m0.eps + (rewards rows s a).length + (if loop then (ended rows s : K) else 0)
  mean : ∀ s a, m.rewMean s a * m.rewCount s a = m0.rewMean s a * m0.eps + (rewards rows s a).sum
  square : ∀ s a, m.rewSquareSum s a = ((rewards rows s a).map (· ^ 2)).sum
  same : m.eps = m0.eps ∧ m.tiny = m0.tiny ∧ m.stdPrior = m0.stdPrior

theorem rewards_append (x y : List (Row K)) (s a : Nat) : rewards (x ++ y) s a = rewards x s a ++ rewards y s a := by
  simp [rewards]

theorem count_pos {loop : Bool} {m0 m : Model K} {rows : List (Row K)} (h : Knows loop m0 m rows) (he : 0 < m0.eps)
    (s a : Nat) : 0 < m.rewCount s a := by
  rw [h.count]
  have : (0 : K) ≤ (rewards rows s a).length := Nat.cast_nonneg _
  have : (0 : K) ≤ (if loop = true then (ended rows s : K) else 0) := by split_ifs <;> simp
  linarith

theorem Knows.learn {loop : Bool} {m0 m : Model K} {rows : List (Row K)} (h : Knows loop m0 m rows) (he : 0 < m0.eps)
    (batch : List (Row K)) : Knows loop m0 (m.learn loop batch) (rows ++ batch) := by
  have hc := fun s a s' => counts_foldl loop batch Counts.zero s a s'
  have hcount : ∀ s a, (m.learn loop batch).rewCount s a =
      m0.eps + (rewards (rows ++ batch) s a).length + (if loop then (ended (rows ++ batch) s : K) else 0) := by
    intro s a
    simp only [Model.learn, Model.observe, h.count, (hc s a s).2.2.2, rewards_append, ended, List.countP_append,
      List.length_append, Nat.cast_add]
    simp only [Counts.zero]
    split_ifs <;> ring
  have hpos : ∀ s a, (m.learn loop batch).rewCount s a ≠ 0 := by
    intro s a
    rw [hcount]
    have h1 : (0 : K) ≤ (rewards (rows ++ batch) s a).length := Nat.cast_nonneg _
    have h2 : (0 : K) ≤ (if loop = true then (ended (rows ++ batch) s : K) else 0) := by split_ifs <;> simp
    exact (by linarith : (0 : K) < _).ne'
  refine ⟨?_, hcount, ?_, ?_, h.same⟩
  · intro s a s'
    simp only [Model.learn, Model.observe, h.trans, (hc s a s').1, seen, ended, List.countP_append, Nat.cast_add]
    simp only [Counts.zero]
    split_ifs <;> ring
  · intro s a
    have e : (m.learn loop batch).rewMean s a =
        (m.rewMean s a * m.rewCount s a + (rewards batch s a).sum) / (m.learn loop batch).rewCount s a := by
      simp only [Model.learn, Model.observe, (hc s a s).2.1]
      simp [Counts.zero]
    rw [e, div_mul_cancel₀ _ (hpos s a), h.mean, rewards_append, List.sum_append]
    ring
  · intro s a
    simp only [Model.learn, Model.observe, h.square, (hc s a s).2.2.1, rewards_append, List.map_append, List.sum_append]
    simp [Counts.zero]

theorem learned_knows (loop : Bool) (m0 : Model K) (he : 0 < m0.eps) (batches : List (List (Row K))) (m : Model K)
    (rows : List (Row K)) (h : Knows loop m0 m rows) : Knows loop m0 (learned loop m batches) (rows ++ batches.flatten) := by
  induction batches generalizing m rows with
  | nil => simpa [learned] using h
  | cons b bs ih =>
    have := ih (m.learn loop b) (rows ++ b) (h.learn he b)
    simpa [learned, List.append_assoc] using this

theorem new_knows (loop : Bool) (transPrior : Nat → Nat → Nat → K) (meanPrior stdPrior : Nat → Nat → K) (eps tiny : K) :
    Knows loop (Model.new transPrior meanPrior stdPrior eps tiny) (Model.new transPrior meanPrior stdPrior eps tiny) [] := by
  constructor <;> simp [Model.new, seen, ended, rewards]

/-- C109: whatever batches a new policy learned from, the Dirichlet parameters are the prior's plus the numbers of
transitions observed (and, with `add_done_loop`, a self-loop of every action in a state per episode ended there), and the
posterior mean of a reward is the average of the rewards observed and of the prior mean with weight `epsilon`. -/
theorem C109_posterior_partial (loop : Bool) (transPrior : Nat → Nat → Nat → K) (meanPrior stdPrior : Nat → Nat → K)
    (eps tiny : K) (he : 0 < eps) (batches : List (List (Row K))) (s a : Nat) :
    (∀ s', (learned loop (Model.new transPrior meanPrior stdPrior eps tiny) batches).trans s a s' =
      transPrior s a s' + seen batches.flatten s a s' + (if loop ∧ s' = s then (ended batches.flatten s : K) else 0)) ∧
    (learned loop (Model.new transPrior meanPrior stdPrior eps tiny) batches).rewMean s a =
      (meanPrior s a * eps + (rewards batches.flatten s a).sum) /
        (eps + (rewards batches.flatten s a).length + (if loop then (ended batches.flatten s : K) else 0)) := by
  have h := learned_knows loop (Model.new transPrior meanPrior stdPrior eps tiny) he batches _ []
    (new_knows loop transPrior meanPrior stdPrior eps tiny)
  rw [List.nil_append] at h
  refine ⟨h.trans s a, ?_⟩
  have h1 := h.mean s a
  have h2 := (count_pos h he s a).ne'
  rw [h.count] at h1 h2
  exact (eq_div_iff h2).2 h1

/-- C109: the posterior does not depend on the order of the data or on how they were divided into batches. -/
theorem C109_order (loop : Bool) (transPrior : Nat → Nat → Nat → K) (meanPrior stdPrior : Nat → Nat → K)
    (eps tiny : K) (he : 0 < eps) (batches batches' : List (List (Row K)))
    (hp : batches.flatten.Perm batches'.flatten) (s a : Nat) :
    (∀ s', (learned loop (Model.new transPrior meanPrior stdPrior eps tiny) batches).trans s a s' =
      (learned loop (Model.new transPrior meanPrior stdPrior eps tiny) batches').trans s a s') ∧
    (learned loop (Model.new transPrior meanPrior stdPrior eps tiny) batches).rewMean s a =
      (learned loop (Model.new transPrior meanPrior stdPrior eps tiny) batches').rewMean s a ∧
    (batches ≠ [] → batches' ≠ [] → (learned loop (Model.new transPrior meanPrior stdPrior eps tiny) batches).rewVar s a =
      (learned loop (Model.new transPrior meanPrior stdPrior eps tiny) batches').rewVar s a) := by
  have hseen : ∀ s', seen batches.flatten s a s' = seen batches'.flatten s a s' := fun s' => hp.countP_eq _
  have hended : ended batches.flatten s = ended batches'.flatten s := hp.countP_eq _
  have hrew : (rewards batches.flatten s a).Perm (rewards batches'.flatten s a) := (hp.filter _).map _
  obtain ⟨h1, h2⟩ := C109_posterior_partial loop transPrior meanPrior stdPrior eps tiny he batches s a
  obtain ⟨h3, h4⟩ := C109_posterior_partial loop transPrior meanPrior stdPrior eps tiny he batches' s a
  refine ⟨fun s' => by rw [h1, h3, hseen, hended], by rw [h2, h4, hrew.sum_eq, hrew.length_eq, hended], ?_⟩
  intro hb hb'
  have k1 := learned_knows loop (Model.new transPrior meanPrior stdPrior eps tiny) he batches _ []
    (new_knows loop transPrior meanPrior stdPrior eps tiny)
  have k2 := learned_knows loop (Model.new transPrior meanPrior stdPrior eps tiny) he batches' _ []
    (new_knows loop transPrior meanPrior stdPrior eps tiny)
  rw [List.nil_append] at k1 k2
  have hvar : ∀ (bs : List (List (Row K))) (m : Model K), bs ≠ [] →
      (learned loop m bs).rewVar s a = postVar ((learned loop m bs).rewCount s a)
        ((learned loop m bs).rewSquareSum s a / (learned loop m bs).rewCount s a - (learned loop m bs).rewMean s a ^ 2)
        (learned loop m bs).tiny ((learned loop m bs).stdPrior s a) := by
    intro bs
    induction bs with
    | nil => intro m h; exact absurd rfl h
    | cons b bs ih =>
      intro m _
      by_cases hb : bs = []
      · subst hb; rfl
      · exact ih (m.learn loop b) hb
  rw [hvar _ _ hb, hvar _ _ hb', k1.count, k2.count, k1.square, k2.square, k1.same.2.1, k2.same.2.1, k1.same.2.2,
    k2.same.2.2, h2, h4, hended, hrew.length_eq, hrew.sum_eq, (hrew.map _).sum_eq]

/-- C109 is violated: contrary to the documentation the prior mean keeps weight `epsilon` once rewards were observed. -/
theorem C109_violated : ∃ m : Model ℚ, m.rewMean 0 0 = 10 ∧
    (m.learn false [⟨0, 0, 1, 0, false⟩]).rewMean 0 0 = 10 / 101 :=
  ⟨Model.new (fun _ _ _ => 1) (fun _ _ => 10) (fun _ _ => 1) (1 / 100) (1 / 8388608), by decide +kernel, by decide +kernel⟩

theorem sum_sq_le (l : List K) : l.sum ^ 2 ≤ l.length * (l.map (· ^ 2)).sum := by
  induction l with
  | nil => simp
  | cons x l ih =>
    simp only [List.sum_cons, List.length_cons, List.map_cons, Nat.cast_add, Nat.cast_one]
    have h2 : 2 * x * l.sum ≤ l.length * x ^ 2 + (l.map (· ^ 2)).sum := by
      have : ∀ l : List K, 2 * x * l.sum ≤ l.length * x ^ 2 + (l.map (· ^ 2)).sum := by
        intro l
        induction l with
        | nil => simp
        | cons y l ih =>
          simp only [List.sum_cons, List.length_cons, List.map_cons, Nat.cast_add, Nat.cast_one]
          nlinarith [sq_nonneg (x - y)]
      exact this l
    nlinarith

theorem sum_sq_nonneg (l : List K) : 0 ≤ (l.map (· ^ 2)).sum :=
  List.sum_nonneg fun x hx => by
    obtain ⟨y, _, rfl⟩ := List.mem_map.1 hx
    exact sq_nonneg y

/-- C110, for prior means of zero: the posterior standard deviations are positive numbers, not above the prior's. -/
theorem C110_std_partial (loop : Bool) (transPrior : Nat → Nat → Nat → K) (stdPrior : Nat → Nat → K)
    (eps tiny : K) (he : 0 < eps) (ht : 0 < tiny) (batches : List (List (Row K))) (s a : Nat) (hs : 0 < stdPrior s a) :
    ∃ v, (learned loop (Model.new transPrior (fun _ _ => 0) stdPrior eps tiny) batches).rewVar s a = some v ∧ 0 < v ∧
      v ≤ stdPrior s a ^ 2 := by
  rcases List.eq_nil_or_concat' batches with rfl | ⟨bs, b, rfl⟩
  · exact ⟨stdPrior s a ^ 2, rfl, by positivity, le_refl _⟩
  · have h := learned_knows loop (Model.new transPrior (fun _ _ => 0) stdPrior eps tiny) he (bs ++ [b]) _ []
      (new_knows loop transPrior (fun _ _ => 0) stdPrior eps tiny)
    rw [List.nil_append] at h
    have hvar : (learned loop (Model.new transPrior (fun _ _ => 0) stdPrior eps tiny) (bs ++ [b])).rewVar s a =
        postVar ((learned loop (Model.new transPrior (fun _ _ => 0) stdPrior eps tiny) (bs ++ [b])).rewCount s a)
          ((learned loop (Model.new transPrior (fun _ _ => 0) stdPrior eps tiny) (bs ++ [b])).rewSquareSum s a /
            (learned loop (Model.new transPrior (fun _ _ => 0) stdPrior eps tiny) (bs ++ [b])).rewCount s a -
            (learned loop (Model.new transPrior (fun _ _ => 0) stdPrior eps tiny) (bs ++ [b])).rewMean s a ^ 2)
          (learned loop (Model.new transPrior (fun _ _ => 0) stdPrior eps tiny) (bs ++ [b])).tiny
          ((learned loop (Model.new transPrior (fun _ _ => 0) stdPrior eps tiny) (bs ++ [b])).stdPrior s a) := by
      unfold learned
      rw [List.foldl_append]
      rfl
    obtain ⟨m, hm⟩ : ∃ m, m = learned loop (Model.new transPrior (fun _ _ => 0) stdPrior eps tiny) (bs ++ [b]) := ⟨_, rfl⟩
    rw [← hm] at h hvar ⊢
    rw [hvar, h.same.2.1, h.same.2.2]
    have hpos := count_pos h he s a
    have hmean := h.mean s a
    have hraw : 0 ≤ m.rewSquareSum s a / m.rewCount s a - m.rewMean s a ^ 2 := by
      have hle : (rewards (bs ++ [b]).flatten s a).length ≤ m.rewCount s a := by
        rw [h.count]
        have : (0 : K) ≤ (if loop = true then (ended (bs ++ [b]).flatten s : K) else 0) := by split_ifs <;> simp
        have he' : (0 : K) < (Model.new transPrior (fun _ _ => 0) stdPrior eps tiny).eps := he
        linarith
      have hsq := sum_sq_le (rewards (bs ++ [b]).flatten s a)
      have hnn := sum_sq_nonneg (rewards (bs ++ [b]).flatten s a)
      have h0 : m.rewMean s a * m.rewCount s a = (rewards (bs ++ [b]).flatten s a).sum := by
        rw [hmean]; simp [Model.new]
      rw [h.square, sub_nonneg, le_div_iff₀ hpos]
      rw [← h0] at hsq
      have h1 : (m.rewMean s a ^ 2 * m.rewCount s a) * m.rewCount s a ≤
          ((rewards (bs ++ [b]).flatten s a).map (· ^ 2)).sum * m.rewCount s a := by
        calc (m.rewMean s a ^ 2 * m.rewCount s a) * m.rewCount s a = (m.rewMean s a * m.rewCount s a) ^ 2 := by ring
          _ ≤ _ := hsq
          _ ≤ m.rewCount s a * ((rewards (bs ++ [b]).flatten s a).map (· ^ 2)).sum :=
            mul_le_mul_of_nonneg_right hle hnn
          _ = _ := by ring
      exact le_of_mul_le_mul_right h1 hpos
    have ht' : (0 : K) < (Model.new transPrior (fun _ _ => 0) stdPrior eps tiny).tiny := ht
    have hs' : (0 : K) < (Model.new transPrior (fun _ _ => 0) stdPrior eps tiny).stdPrior s a := hs
    have hd : 0 < m.rewSquareSum s a / m.rewCount s a - m.rewMean s a ^ 2 +
        (Model.new transPrior (fun _ _ => 0) stdPrior eps tiny).tiny := by linarith
    have hq1 : 0 < m.rewCount s a / (m.rewSquareSum s a / m.rewCount s a - m.rewMean s a ^ 2 +
        (Model.new transPrior (fun _ _ => 0) stdPrior eps tiny).tiny) := div_pos hpos hd
    have hq2 : 0 < 1 / (Model.new transPrior (fun _ _ => 0) stdPrior eps tiny).stdPrior s a ^ 2 := by positivity
    unfold postVar
    rw [if_neg hd.ne']
    simp only
    rw [if_pos (by linarith)]
    refine ⟨_, rfl, by positivity, ?_⟩
    rw [div_le_iff₀ (by linarith)]
    have : (1 : K) = stdPrior s a ^ 2 * (1 / stdPrior s a ^ 2) := by field_simp
    nth_rewrite 1 [this]
    exact mul_le_mul_of_nonneg_left (by show 1 / stdPrior s a ^ 2 ≤ _; simp only [Model.new]; simp only [Model.new] at hq1; linarith) (by positivity)

/-- C110 is violated for other prior means: with prior mean 0.01, standard deviation 1 and the default `epsilon`, the
standard deviation for a state and action never seen is NaN after the first batch. -/
theorem C110_violated : ∃ m : Model ℚ, m.rewVar 1 0 = some 1 ∧
    (m.learn false [⟨0, 0, 1, 1, false⟩]).rewVar 1 0 = none :=
  ⟨Model.new (fun _ _ _ => 1) (fun _ _ => 1 / 100) (fun _ _ => 1) (1 / 100) (1 / 8388608), by decide +kernel,
    by decide +kernel⟩

/-- C113 is violated: learning changes the array the user gave as `trans_count_prior`. -/
theorem C113_violated : ∃ (m : Model ℚ) (batch : List (Row ℚ)), m.givenTrans 0 0 1 = 1 ∧
    (m.learn false batch).givenTrans 0 0 1 = 2 :=
  ⟨Model.new (fun _ _ _ => 1) (fun _ _ => 0) (fun _ _ => 1) (1 / 100) (1 / 8388608), [⟨0, 0, 1, 0, false⟩],
    by decide +kernel, by decide +kernel⟩

/-- Two transitions from state 0 with action 1, the second ending an episode in state 1. -/
example : ∃ m : Model ℚ, m = (Model.new (fun _ _ _ => 1) (fun _ _ => 0) (fun _ _ => 1) (1 / 100) (1 / 8388608)).learn true
      [⟨0, 1, 0, 3, false⟩, ⟨0, 1, 1, 5, true⟩] ∧
    [m.trans 0 1 0, m.trans 0 1 1, m.trans 1 0 1, m.trans 1 1 1, m.trans 1 1 0] = [2, 2, 2, 2, 1] ∧
    m.rewMean 0 1 = 800 / 201 ∧ m.rewCount 1 0 = 101 / 100 :=
  ⟨_, rfl, by decide +kernel, by decide +kernel, by decide +kernel⟩

end posterior

/-! ### C111 -/

section value

variable {K : Type} [Field K] [LinearOrder K] [IsStrictOrderedRing K] {n m : Nat}

/-- A probability distribution over the next states for every state and action. -/
def Stochastic (P : Fin n → Fin (m + 1) → Fin n → K) : Prop := (∀ s a s', 0 ≤ P s a s') ∧ ∀ s a, ∑ s', P s a s' = 1

/-- The optimality equation: `V s` is the largest of the values of the actions in `s`. -/
def Optimal (P : Fin n → Fin (m + 1) → Fin n → K) (R : Fin n → Fin (m + 1) → K) (gamma : K) (V : Fin n → K) : Prop :=
  ∀ s, (∃ a, V s = R s a + gamma * ∑ s', P s a s' * V s') ∧ ∀ a, R s a + gamma * ∑ s', P s a s' * V s' ≤ V s

theorem best_le {Q : Fin n → Fin (m + 1) → K} {s : Fin n} {x : K} (h : ∀ a, Q s a ≤ x) : best Q s ≤ x :=
  Finset.sup'_le _ _ fun a _ => h a

theorem le_best (Q : Fin n → Fin (m + 1) → K) (s : Fin n) (a : Fin (m + 1)) : Q s a ≤ best Q s :=
  Finset.le_sup' (Q s) (Finset.mem_univ a)

theorem best_attained (Q : Fin n → Fin (m + 1) → K) (s : Fin n) : ∃ a, best Q s = Q s a := by
  obtain ⟨a, _, h⟩ := Finset.exists_mem_eq_sup' Finset.univ_nonempty (Q s)
  exact ⟨a, h⟩

theorem optimal_iff (P : Fin n → Fin (m + 1) → Fin n → K) (R : Fin n → Fin (m + 1) → K) (gamma : K) (V : Fin n → K) :
    Optimal P R gamma V ↔ best (qValues P R gamma V) = V := by
  constructor
  · intro h
    funext s
    obtain ⟨⟨a, ha⟩, hle⟩ := h s
    exact le_antisymm (best_le hle) (by rw [ha]; exact le_best (qValues P R gamma V) s a)
  · intro h s
    have hs := congrFun h s
    obtain ⟨a, ha⟩ := best_attained (qValues P R gamma V) s
    exact ⟨⟨a, by rw [← hs, ha]; rfl⟩, fun a => by
      conv_rhs => rw [← hs]
      exact le_best (qValues P R gamma V) s a⟩

/-- The Bellman operator is a contraction. -/
theorem contraction {P : Fin n → Fin (m + 1) → Fin n → K} (hP : Stochastic P) (R : Fin n → Fin (m + 1) → K) {gamma : K}
    (h0 : 0 ≤ gamma) {V W : Fin n → K} {d : K} (hd : ∀ s, |V s - W s| ≤ d) (s : Fin n) :
    |best (qValues P R gamma V) s - best (qValues P R gamma W) s| ≤ gamma * d := by
  have key : ∀ {V W : Fin n → K}, (∀ s, |V s - W s| ≤ d) →
      best (qValues P R gamma V) s ≤ best (qValues P R gamma W) s + gamma * d := by
    intro V W hd
    refine best_le fun a => ?_
    have h1 : qValues P R gamma V s a ≤ qValues P R gamma W s a + gamma * d := by
      unfold qValues
      have : ∑ s', P s a s' * V s' ≤ ∑ s', P s a s' * W s' + d := by
        have e : ∑ s', P s a s' * W s' + d = ∑ s', P s a s' * (W s' + d) := by
          simp only [mul_add, Finset.sum_add_distrib, ← Finset.sum_mul, hP.2 s a, one_mul]
        rw [e]
        refine Finset.sum_le_sum fun s' _ => mul_le_mul_of_nonneg_left ?_ (hP.1 s a s')
        have := (abs_le.1 (hd s')).2
        linarith
      nlinarith
    exact h1.trans (by linarith [le_best (qValues P R gamma W) s a])
  rw [abs_le]
  constructor
  · have := key (V := W) (W := V) fun s => by rw [abs_sub_comm]; exact hd s
    linarith
  · have := key hd
    linarith

theorem valueLoop_some {P : Fin n → Fin (m + 1) → Fin n → K} {R : Fin n → Fin (m + 1) → K} {gamma atol eps : K}
    (fuel : Nat) (V : Fin n → K) (r : (Fin n → Fin (m + 1) → K) × (Fin n → K))
    (h : valueLoop P R gamma atol eps fuel V = some r) :
    ∃ W, r.1 = qValues P R gamma W ∧ r.2 = best r.1 ∧ AllClose atol eps r.2 W := by
  induction fuel generalizing V with
  | zero => simp [valueLoop] at h
  | succ fuel ih =>
    rw [valueLoop] at h
    split_ifs at h with hc
    · simp only [Option.some.injEq] at h
      subst h
      exact ⟨V, rfl, rfl, hc⟩
    · exact ih _ h

/-- C111: with a discount factor below one the iteration ends, from whatever values it starts. -/
theorem C111_terminates_partial [Archimedean K] (P : Fin n → Fin (m + 1) → Fin n → K) (hP : Stochastic P)
    (R : Fin n → Fin (m + 1) → K) (gamma atol eps : K) (h0 : 0 ≤ gamma) (h1 : gamma < 1) (ha : 0 < atol) (he : 0 ≤ eps)
    (noise : Fin n → Fin (m + 1) → K) (V : Fin n → K) :
    ∃ fuel r, valueIteration P R gamma atol eps noise fuel V = some r := by
  have key : ∀ (k : Nat) (V : Fin n → K) (d : K), (∀ s, |best (qValues P R gamma V) s - V s| ≤ d) → gamma ^ k * d ≤ atol →
      ∃ fuel r, valueLoop P R gamma atol eps fuel V = some r := by
    intro k
    induction k with
    | zero =>
      intro V d hd hk
      refine ⟨1, (qValues P R gamma V, best (qValues P R gamma V)), ?_⟩
      rw [valueLoop]
      rw [if_pos]
      intro s
      rw [pow_zero, one_mul] at hk
      have := mul_nonneg he (abs_nonneg (V s))
      linarith [hd s]
    | succ k ih =>
      intro V d hd hk
      obtain ⟨fuel, r, hr⟩ := ih (best (qValues P R gamma V)) (gamma * d)
        (fun s => contraction hP R h0 (d := d) hd s) (by rw [← mul_assoc, ← pow_succ]; exact hk)
      by_cases hc : AllClose atol eps (best (qValues P R gamma V)) V
      · refine ⟨1, (qValues P R gamma V, best (qValues P R gamma V)), ?_⟩
        rw [valueLoop]
        rw [if_pos hc]
      · refine ⟨fuel + 1, r, ?_⟩
        rw [valueLoop]
        rw [if_neg hc, hr]
  obtain ⟨d, hd0, hd⟩ : ∃ d : K, 0 < d ∧ ∀ s, |best (qValues P R gamma V) s - V s| ≤ d := by
    refine ⟨1 + ∑ s, |best (qValues P R gamma V) s - V s|, ?_, ?_⟩
    · have : 0 ≤ ∑ s, |best (qValues P R gamma V) s - V s| := Finset.sum_nonneg fun _ _ => abs_nonneg _
      linarith
    · intro s
      have := Finset.single_le_sum (f := fun s => |best (qValues P R gamma V) s - V s|) (fun _ _ => abs_nonneg _)
        (Finset.mem_univ s)
      linarith
  obtain ⟨k, hk⟩ := exists_pow_lt_of_lt_one (div_pos ha hd0) h1
  obtain ⟨fuel, r, hr⟩ := key k V d hd (by rw [lt_div_iff₀ hd0] at hk; exact hk.le)
  exact ⟨fuel, _, by rw [valueIteration, hr]; rfl⟩

/-- C111: the values returned differ from any solution of the optimality equation by at most the given bound, with
`B` the size of the values returned; and the action of every state is one of the best with respect to action values
that have these values as maxima, up to the noise that breaks ties. -/
theorem C111_optimal_partial (P : Fin n → Fin (m + 1) → Fin n → K) (hP : Stochastic P) (R : Fin n → Fin (m + 1) → K)
    (gamma atol eps : K) (h0 : 0 ≤ gamma) (h1 : gamma < 1) (he : 0 ≤ eps) (he1 : eps < 1)
    (noise : Fin n → Fin (m + 1) → K) (fuel : Nat) (V : Fin n → K) (policy : Fin n → Nat) (value : Fin n → K)
    (hr : valueIteration P R gamma atol eps noise fuel V = some (policy, value)) (B : K) (hB : ∀ s, |value s| ≤ B)
    (Vs : Fin n → K) (hopt : Optimal P R gamma Vs) :
    (∀ s, |value s - Vs s| ≤ gamma / (1 - gamma) * (atol + eps * ((B + atol) / (1 - eps)))) ∧
    ∃ Q : Fin n → Fin (m + 1) → K, (∀ s, (∃ a, value s = Q s a) ∧ ∀ a, Q s a ≤ value s) ∧
      ∀ s, ∃ h : policy s < m + 1, ∀ a, Q s a + eps * noise s a ≤ Q s ⟨policy s, h⟩ + eps * noise s ⟨policy s, h⟩ := by
  unfold valueIteration at hr
  rw [Option.map_eq_some_iff] at hr
  obtain ⟨r, hl, hr⟩ := hr
  obtain ⟨W, hQ, hbest, hclose⟩ := valueLoop_some fuel V r hl
  simp only [Prod.mk.injEq] at hr
  obtain ⟨hpol, rfl⟩ := hr
  constructor
  · rw [optimal_iff] at hopt
    have hg : 0 < 1 - gamma := by linarith
    have he' : 0 < 1 - eps := by linarith
    obtain ⟨d, hd⟩ : ∃ d, d = atol + eps * ((B + atol) / (1 - eps)) := ⟨_, rfl⟩
    have hWd : ∀ s, |r.2 s - W s| ≤ d := by
      intro s
      have h2 := hclose s
      have h3 : |W s| ≤ (B + atol) / (1 - eps) := by
        rw [le_div_iff₀ he']
        have h4 : |W s| ≤ |r.2 s| + |r.2 s - W s| := by
          have := abs_sub_abs_le_abs_sub (W s) (r.2 s)
          rw [abs_sub_comm (W s)] at this
          linarith
        nlinarith [hB s]
      rw [hd]
      nlinarith
    rcases Nat.eq_zero_or_pos n with hn | hn
    · subst hn; intro s; exact s.elim0
    · have hmax : ∃ s0, ∀ s, |r.2 s - Vs s| ≤ |r.2 s0 - Vs s0| := by
        have : Nonempty (Fin n) := ⟨⟨0, hn⟩⟩
        obtain ⟨s0, _, h⟩ := Finset.exists_max_image Finset.univ (fun s => |r.2 s - Vs s|) Finset.univ_nonempty
        exact ⟨s0, fun s => h s (Finset.mem_univ s)⟩
      obtain ⟨s0, hs0⟩ := hmax
      obtain ⟨e, hE⟩ : ∃ e, e = |r.2 s0 - Vs s0| := ⟨_, rfl⟩
      have hstep : e ≤ gamma * (d + e) := by
        have h2 : ∀ s, |W s - Vs s| ≤ d + e := by
          intro s
          have := abs_add_le (W s - r.2 s) (r.2 s - Vs s)
          rw [sub_add_sub_cancel] at this
          have h3 := hWd s
          rw [abs_sub_comm] at h3
          have h4 := hs0 s
          rw [← hE] at h4
          linarith
        have h3 := contraction hP R h0 h2 s0
        rw [hopt, ← hQ, ← hbest, ← hE] at h3
        exact h3
      intro s
      have h4 := hs0 s
      rw [← hE] at h4
      rw [← hd]
      refine h4.trans ?_
      rw [div_mul_eq_mul_div, le_div_iff₀ hg]
      nlinarith
  · refine ⟨r.1, fun s => ?_, fun s => ?_⟩
    · rw [hbest]
      exact ⟨best_attained r.1 s, le_best r.1 s⟩
    · have hp := congrFun hpol s
      obtain ⟨q, q1, q2, _⟩ := Policy.argmax_spec (List.ofFn fun a => r.1 s a + eps * noise s a) (by
        intro h
        have := congrArg List.length h
        simp at this)
      rw [hp, List.getElem?_ofFn] at q1
      split_ifs at q1 with hlt
      refine ⟨hlt, fun a => ?_⟩
      simp only [Option.some.injEq] at q1
      rw [q1]
      refine q2 a.1 _ ?_
      rw [List.getElem?_ofFn, dif_pos a.2]

/-- With discount factor 1 the iteration may go on for ever: two states that lead to each other, with rewards 1 and
-1, give values that alternate between (0, 0) and (1, -1). -/
def swapP : Fin 2 → Fin 1 → Fin 2 → ℚ := fun s _ s' => if s = s' then 0 else 1

def swapR : Fin 2 → Fin 1 → ℚ := fun s _ => if s = 0 then 1 else -1

theorem C111_violated : Stochastic swapP ∧
    ∀ fuel, valueIteration swapP swapR 1 (1 / 100000000) (1 / 100) (fun _ _ => 0) fuel (fun _ => 0) = none := by
  have e1 : best (qValues swapP swapR 1 (fun _ => 0)) = fun s => if s = 0 then 1 else -1 := by decide +kernel
  have e2 : best (qValues swapP swapR 1 (fun s => if s = 0 then 1 else -1)) = fun _ => 0 := by decide +kernel
  have n1 : ¬ AllClose (1 / 100000000 : ℚ) (1 / 100) (fun s : Fin 2 => if s = 0 then 1 else -1) (fun _ => 0) := by
    decide +kernel
  have n2 : ¬ AllClose (1 / 100000000 : ℚ) (1 / 100) (fun _ : Fin 2 => 0) (fun s => if s = 0 then 1 else -1) := by
    decide +kernel
  have key : ∀ fuel, valueLoop swapP swapR 1 (1 / 100000000) (1 / 100) fuel (fun _ => 0) = none ∧
      valueLoop swapP swapR 1 (1 / 100000000) (1 / 100) fuel (fun s => if s = 0 then 1 else -1) = none := by
    intro fuel
    induction fuel with
    | zero => exact ⟨rfl, rfl⟩
    | succ fuel ih =>
      constructor
      · rw [valueLoop]
        rw [e1, if_neg n1]
        exact ih.2
      · rw [valueLoop]
        rw [e2, if_neg n2]
        exact ih.1
  refine ⟨by unfold Stochastic; decide +kernel, fun fuel => ?_⟩
  rw [valueIteration, (key fuel).1]
  rfl

/-- The same problem with discount factor 1/2 has the solution (2/3, -2/3), and the iteration stops near it. -/
example : Optimal swapP swapR (1 / 2) (fun s => if s = 0 then 2 / 3 else -2 / 3) ∧
    ((valueIteration swapP swapR (1 / 2) (1 / 100000000) (1 / 100) (fun _ _ => 0) 20 (fun _ => 0)).map
      fun r => (r.1 0, decide (|r.2 0 - 2 / 3| < 1 / 100))) = some (0, true) := by
  constructor
  · unfold Optimal; decide +kernel
  · decide +kernel

end value

/-! ### C112 -/

section solver

variable {π : Type}

/-- C112: the policy by which actions are chosen is solved at the first use after construction or after new data, and
kept until more data come: the `i`-th use, if it asks for actions, reads them from the policy solved at the first
request after the last `observe` before it. -/
theorem C112_solved (s : Solver π) (hs : s.updated = false) (uses : List (Use π)) (i : Nat) (x : π)
    (hi : uses[i]? = some (.act x)) :
    ∃ (j : Nat) (y : π), j ≤ i ∧ uses[j]? = some (.act y) ∧ (s.run uses)[i]? = some (some y) ∧
      (∀ k, j ≤ k → k ≤ i → uses[k]? ≠ some .observe) ∧
      ∀ j', j' + 1 = j → uses[j']? = some .observe := by
  have key : ∀ (uses : List (Use π)) (s : Solver π) (i : Nat) (x : π), uses[i]? = some (.act x) →
      (s.updated = true ∧ (∀ k, k ≤ i → uses[k]? ≠ some .observe) ∧ (s.run uses)[i]? = some s.policy) ∨
      ∃ (j : Nat) (y : π), j ≤ i ∧ uses[j]? = some (.act y) ∧ (s.run uses)[i]? = some (some y) ∧
        (∀ k, j ≤ k → k ≤ i → uses[k]? ≠ some .observe) ∧ (∀ j', j' + 1 = j → uses[j']? = some .observe) ∧
        (j = 0 → s.updated = false) := by
    intro uses
    induction uses with
    | nil => intro s i x h; simp at h
    | cons u us ih =>
      intro s i x hi
      cases i with
      | zero =>
        simp only [List.getElem?_cons_zero, Option.some.injEq] at hi
        subst hi
        cases hu : s.updated with
        | true =>
          left
          refine ⟨rfl, ?_, ?_⟩
          · intro k hk
            have : k = 0 := by omega
            subst this; simp
          · simp [Solver.run, Solver.use, hu]
        | false =>
          right
          refine ⟨0, x, le_refl _, rfl, by simp [Solver.run, Solver.use, hu], ?_, by simp, fun _ => rfl⟩
          intro k _ hk
          have : k = 0 := by omega
          subst this; simp
      | succ i =>
        simp only [List.getElem?_cons_succ] at hi
        rw [Solver.run]
        rcases ih (s.use u).1 i x hi with ⟨h1, h2, h3⟩ | ⟨j, y, h1, h2, h3, h4, h5, h6⟩
        · cases u with
          | observe => simp [Solver.use] at h1
          | act z =>
            cases hu : s.updated with
            | true =>
              left
              refine ⟨rfl, ?_, ?_⟩
              · intro k hk
                cases k with
                | zero => simp
                | succ k => simpa using h2 k (by omega)
              · rw [List.getElem?_cons_succ, h3]
                simp [Solver.use, hu]
            | false =>
              right
              refine ⟨0, z, by omega, rfl, ?_, ?_, by simp, fun _ => rfl⟩
              · rw [List.getElem?_cons_succ, h3]
                simp [Solver.use, hu]
              · intro k _ hk
                cases k with
                | zero => simp
                | succ k => simpa using h2 k (by omega)
        · by_cases hj : j = 0
          · subst hj
            have hupd := h6 rfl
            cases u with
            | act z =>
              cases hu : s.updated <;> simp [Solver.use, hu] at hupd
            | observe =>
              right
              refine ⟨1, y, by omega, by simpa using h2, by simpa using h3, ?_, ?_, by simp⟩
              · intro k hk1 hk2
                cases k with
                | zero => omega
                | succ k => simpa using h4 k (by omega) (by omega)
              · intro j' hj'
                have : j' = 0 := by omega
                subst this; rfl
          · right
            refine ⟨j + 1, y, by omega, by simpa using h2, by simpa using h3, ?_, ?_, by simp⟩
            · intro k hk1 hk2
              cases k with
              | zero => omega
              | succ k => simpa using h4 k (by omega) (by omega)
            · intro j' hj'
              have hj'' : j' = j := by omega
              subst hj''
              obtain ⟨j1, rfl⟩ : ∃ j1, j' = j1 + 1 := ⟨j' - 1, by omega⟩
              simpa using h5 j1 rfl
  rcases key uses s i x hi with ⟨h1, _⟩ | ⟨j, y, h1, h2, h3, h4, h5, _⟩
  · rw [hs] at h1; cases h1
  · exact ⟨j, y, h1, h2, h3, h4, h5⟩

example : (Solver.mk none false).run [.act 1, .act 2, .observe, .observe, .act 3, .act 4] =
    [some 1, some 1, none, none, some 3, some 3] := by decide

end solver

end Verif.Psrl
