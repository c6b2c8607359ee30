import Verif.Props.QLearning
import Verif.Lemmas.LeastSquares

/-!
C274: what DQN learns with n-step returns from recorded episodes.
-/

namespace Verif.Nstep

open Verif.QTarget Verif.Returns Verif.QLearning

set_option linter.unusedSectionVars false

variable {S : Type} [Fintype S] [DecidableEq S] {m n : ℕ}

/-! ### Specification -/

/-- An environment without chance: next state, reward, and whether the episode ends. -/
structure World (S : Type) (m : ℕ) where
  next : S → Fin (m + 1) → S
  rew : S → Fin (m + 1) → ℝ
  ends : S → Fin (m + 1) → Bool

/-- Values of actions. -/
abbrev Table (S : Type) (m : ℕ) := S → Fin (m + 1) → ℝ

/-- Bellman's optimality equation. -/
def World.Optimal (w : World S m) (gamma : ℝ) (O : Table S m) : Prop :=
  ∀ s a, O s a = w.rew s a + gamma * if w.ends s a then 0 else best O (w.next s a)

/-- The values if from the next step on the actions are those of `β`. -/
def World.Follows (w : World S m) (gamma : ℝ) (β : S → Fin (m + 1)) (B : Table S m) : Prop :=
  ∀ s a, B s a = w.rew s a + gamma * if w.ends s a then 0 else B (w.next s a) (β (w.next s a))

/-- Recorded transitions in a buffer: `stop` are the rows after which the record does not go on (the end of an episode, or the last row so far), otherwise `succ`
is the row of the next step. -/
structure Record (w : World S m) (n : ℕ) where
  state : Fin n → S
  act : Fin n → Fin (m + 1)
  stop : Fin n → Bool
  succ : Fin n → Fin n
  view : View ℝ
  inputs : ℕ → S
  viewRew : ∀ p : Fin n, view.rew p = w.rew (state p) (act p)
  viewTerminated : ∀ p : Fin n, view.terminated p = w.ends (state p) (act p)
  viewInputs : ∀ p : Fin n, inputs p = w.next (state p) (act p)
  viewStop : ∀ p : Fin n, (view.done p || view.unfinished.contains (p : ℕ)) = stop p
  ended : ∀ p, w.ends (state p) (act p) = true → stop p = true
  viewEnd : ∀ p, stop p = true → view.next p = p
  viewNext : ∀ p, stop p = false → view.next p = succ p
  goesOn : ∀ p, stop p = false → state (succ p) = w.next (state p) (act p)

/-- The loss for all recorded transitions as one batch, as a function of the table that is trained; network and target network have the values `Q`. -/
noncomputable def Record.loss {w : World S m} (r : Record w n) (isDouble hasTarget : Bool) (gamma : ℝ) (N : ℕ) (Q T : Table S m) : Option ℝ :=
  learnLoss false isDouble ⟨tableNet Q, tableNet Q, hasTarget⟩ (tableNet T) r.view r.inputs none (List.ofFn r.state)
    (List.ofFn fun p => (r.act p : ℕ)) (List.ofFn fun p : Fin n => (p : ℕ)) gamma N (List.ofFn fun _ : Fin n => 1)

/-- Training has settled: no other table has a smaller loss. -/
def Record.Settled {w : World S m} (r : Record w n) (isDouble hasTarget : Bool) (gamma : ℝ) (N : ℕ) (Q : Table S m) : Prop :=
  ∃ l, r.loss isDouble hasTarget gamma N Q Q = some l ∧ ∀ T l', r.loss isDouble hasTarget gamma N Q T = some l' → l ≤ l'

/-! ### Targets -/

/-- The rewards of the row `p` and at most `k` further rows, and then the best value. -/
noncomputable def Record.follow {w : World S m} (r : Record w n) (gamma : ℝ) (Q : Table S m) : ℕ → Fin n → ℝ
  | 0, p => w.rew (r.state p) (r.act p) + gamma * if w.ends (r.state p) (r.act p) then 0 else best Q (w.next (r.state p) (r.act p))
  | k + 1, p =>
    if r.stop p then w.rew (r.state p) (r.act p) + gamma * if w.ends (r.state p) (r.act p) then 0 else best Q (w.next (r.state p) (r.act p))
    else w.rew (r.state p) (r.act p) + gamma * r.follow gamma Q k (r.succ p)

theorem loop_length (rew : ℕ → ℝ) (endFlag : ℕ → Bool) (gamma : ℝ) (N A : ℕ) (l : List ℕ) (k : ℕ) : (nstepLoop rew endFlag gamma N A k l).2.length = A := by
  induction l generalizing k with
  | nil => simp [nstepLoop]
  | cons i l ih =>
    simp only [nstepLoop]
    split <;> simp [ih]

theorem column_ne (next : ℕ → ℕ) (i k : ℕ) : stackedColumn next i k ≠ [] := by cases k <;> simp [stackedColumn]

theorem column_length (next : ℕ → ℕ) (i k : ℕ) : (stackedColumn next i k).length = k + 1 := by
  induction k generalizing i with
  | zero => rfl
  | succ k ih => simp [stackedColumn, ih]

theorem column_last (next : ℕ → ℕ) (i k : ℕ) : (stackedColumn next i (k + 1)).getLastD 0 = (stackedColumn next (next i) k).getLastD 0 := by
  rw [stackedColumn, List.getLastD_cons]
  cases h : stackedColumn next (next i) k with
  | nil => exact absurd h (column_ne _ _ _)
  | cons a l => rw [List.getLastD_cons, List.getLastD_cons]

theorem column_stuck (next : ℕ → ℕ) (i k : ℕ) (h : next i = i) : (stackedColumn next i k).getLastD 0 = i := by
  induction k with
  | zero => rfl
  | succ k ih => rw [column_last, h, ih]

theorem gammaBuffer_pow (gamma : ℝ) (k : ℕ) : gammaBuffer gamma k = gamma ^ k := by
  induction k with
  | zero => rfl
  | succ k ih => rw [gammaBuffer, ih, pow_succ]

theorem Record.loop {w : World S m} (r : Record w n) (gamma : ℝ) (Q : Table S m) (N k n0 : ℕ) (p : Fin n) (hN : N = n0 + k + 1) :
    ∃ g mc, nstepLoop r.view.rew (fun i => r.view.done i || r.view.unfinished.contains i) gamma N 1 n0 (stackedColumn r.view.next p k) = (n0 + g, [mc]) ∧
      r.follow gamma Q k p = mc + gamma ^ g *
        mask (!r.view.terminated ((stackedColumn r.view.next p k).getLastD 0)) (best Q (r.inputs ((stackedColumn r.view.next p k).getLastD 0))) := by
  induction k generalizing n0 p with
  | zero =>
    refine ⟨1, r.view.rew p + gamma * 0, ?_, ?_⟩
    · simp only [stackedColumn, nstepLoop]
      split <;> simp [hN]
    · simp only [stackedColumn, List.getLastD_cons, List.getLastD_nil, r.viewTerminated, r.viewInputs, r.viewRew, Record.follow, mask]
      cases w.ends (r.state p) (r.act p) <;> simp
  | succ k ih =>
    by_cases hs : r.stop p = true
    · have hx := r.viewEnd p hs
      refine ⟨1, r.view.rew p + gamma * 0, ?_, ?_⟩
      · have hlen := loop_length r.view.rew (fun i => r.view.done i || r.view.unfinished.contains i) gamma N 1 (stackedColumn r.view.next (r.view.next p) k) (n0 + 1)
        simp only [stackedColumn, nstepLoop, r.viewStop, hs, if_true]
        obtain ⟨x, hx'⟩ := List.length_eq_one_iff.mp hlen
        rw [hx']
        simp
      · rw [column_stuck _ _ _ hx]
        simp only [r.viewTerminated, r.viewInputs, r.viewRew, Record.follow, mask, hs, if_true]
        cases w.ends (r.state p) (r.act p) <;> simp
    · have hs' : r.stop p = false := by simpa using hs
      obtain ⟨g, mc, h1, h2⟩ := ih (n0 + 1) (r.succ p) (by omega)
      refine ⟨g + 1, r.view.rew p + gamma * mc, ?_, ?_⟩
      · simp only [stackedColumn, nstepLoop, r.viewStop, hs', r.viewNext p hs', h1]
        simp
        omega
      · rw [column_last, r.viewNext p hs']
        simp only [Record.follow, hs', Bool.false_eq_true, if_false, h2, r.viewRew]
        ring

theorem Record.returns {w : World S m} (r : Record w n) (isDouble hasTarget : Bool) (gamma : ℝ) (k : ℕ) (Q : Table S m) :
    dqnReturns isDouble ⟨tableNet Q, tableNet Q, hasTarget⟩ r.view r.inputs none (List.ofFn fun p : Fin n => (p : ℕ)) gamma (k + 1) =
      some (List.ofFn fun p => [r.follow gamma Q k p]) := by
  unfold dqnReturns computeNstepReturn
  rw [if_neg (by simp)]
  simp only [Option.map_none, dqnTarget_table isDouble ⟨tableNet Q, tableNet Q, hasTarget⟩ Q (fun _ => rfl) (fun _ => rfl), List.map_map, valueMask, List.map_ofFn,
    zipWith_ofFn, Nat.add_sub_cancel, Option.some.injEq]
  congr 1
  funext p
  obtain ⟨g, mc, h1, h2⟩ := r.loop gamma Q (k + 1) k 0 p (by omega)
  simp only [Function.comp_apply, List.map_cons, List.map_nil, List.length_cons, List.length_nil, zero_add]
  rw [List.take_of_length_le (by rw [column_length]), h1, h2]
  simp only [gammaBuffer_pow, zero_add, List.zipWith_cons_cons, List.zipWith_nil_left, List.cons.injEq, and_true]
  ring

theorem Record.loss_eq {w : World S m} (r : Record w n) (isDouble hasTarget : Bool) (gamma : ℝ) (k : ℕ) (Q T : Table S m) :
    r.loss isDouble hasTarget gamma (k + 1) Q T = some ((∑ p, (r.follow gamma Q k p - T (r.state p) (r.act p)) ^ 2) / n) := by
  unfold Record.loss learnLoss
  rw [r.returns]
  have hf : (List.ofFn fun p => [r.follow gamma Q k p]).flatten = List.ofFn fun p => r.follow gamma Q k p := by
    have := flatten_singles (List.ofFn fun p : Fin n => p) fun p => r.follow gamma Q k p
    simpa [List.map_ofFn, Function.comp_def] using this
  simp only [Option.map_some, hf, Option.some.injEq]
  unfold pick List.zip
  rw [List.map_ofFn, zipWith_ofFn, zipWith_ofFn]
  simp only [Function.comp_apply, table_getD]
  rw [squared_eq]
  simp

theorem Record.settled_iff {w : World S m} (r : Record w n) (hn : 0 < n) (isDouble hasTarget : Bool) (gamma : ℝ) (k : ℕ) (Q : Table S m) :
    r.Settled isDouble hasTarget gamma (k + 1) Q ↔ ∀ s a, ∑ p with (r.state p, r.act p) = (s, a), (r.follow gamma Q k p - Q s a) = 0 := by
  have hn' : (0 : ℝ) < n := by exact_mod_cast hn
  unfold Record.Settled
  simp only [r.loss_eq, Option.some.injEq, exists_eq_left', forall_eq', div_le_div_iff_of_pos_right hn']
  have := least_squares (fun p => (r.state p, r.act p)) (r.follow gamma Q k) fun x => Q x.1 x.2
  simp only [Prod.forall] at this
  rw [← this]
  constructor
  · intro h Q'
    exact h fun s a => Q' (s, a)
  · intro h T
    exact h fun x => T x.1 x.2

/-! ### C274 -/

theorem le_best (Q : Table S m) (s : S) (a : Fin (m + 1)) : Q s a ≤ best Q s := Finset.le_sup' (Q s) (Finset.mem_univ a)

theorem best_le (Q : Table S m) (s : S) (x : ℝ) (h : ∀ a, Q s a ≤ x) : best Q s ≤ x := Finset.sup'_le _ _ fun a _ => h a

/-- Values that are means of numbers are bounded by a bound of these numbers. -/
theorem mean_le {w : World S m} (r : Record w n) (y : Fin n → ℝ) (Q : Table S m) (s : S) (a : Fin (m + 1)) (x : ℝ)
    (h : ∑ p with (r.state p, r.act p) = (s, a), (y p - Q s a) = 0) (hc : ∃ p, r.state p = s ∧ r.act p = a)
    (hy : ∀ p, r.state p = s → r.act p = a → y p ≤ x) : Q s a ≤ x := by
  obtain ⟨p, h1, h2⟩ := hc
  by_contra hlt
  have : ∑ p with (r.state p, r.act p) = (s, a), (y p - Q s a) < 0 := by
    refine Finset.sum_neg (fun q hq => ?_) ⟨p, by simp [h1, h2]⟩
    simp only [Finset.mem_filter, Finset.mem_univ, true_and, Prod.mk.injEq] at hq
    have := hy q hq.1 hq.2
    linarith
  linarith

theorem le_mean {w : World S m} (r : Record w n) (y : Fin n → ℝ) (Q : Table S m) (s : S) (a : Fin (m + 1)) (x : ℝ)
    (h : ∑ p with (r.state p, r.act p) = (s, a), (y p - Q s a) = 0) (hc : ∃ p, r.state p = s ∧ r.act p = a)
    (hy : ∀ p, r.state p = s → r.act p = a → x ≤ y p) : x ≤ Q s a := by
  have := mean_le r (fun p => -y p) (fun s a => -Q s a) s a (-x) (by
    rw [← neg_eq_zero, ← Finset.sum_neg_distrib, ← h]
    exact Finset.sum_congr rfl fun p _ => by ring) hc fun p h1 h2 => neg_le_neg (hy p h1 h2)
  linarith

theorem follow_le {w : World S m} (r : Record w n) (gamma : ℝ) (hg : 0 ≤ gamma) (hg1 : gamma ≤ 1) (O Q : Table S m) (hO : w.Optimal gamma O) (M : ℝ) (hM : 0 ≤ M)
    (h : ∀ s a, Q s a ≤ O s a + M) (k : ℕ) (p : Fin n) : r.follow gamma Q k p ≤ O (r.state p) (r.act p) + gamma * M := by
  have hb : ∀ s, best Q s ≤ best O s + M := fun s => best_le Q s _ fun a => (h s a).trans (by linarith [le_best O s a])
  have h0 : w.rew (r.state p) (r.act p) + gamma * (if w.ends (r.state p) (r.act p) then 0 else best Q (w.next (r.state p) (r.act p))) ≤
      O (r.state p) (r.act p) + gamma * M := by
    rw [hO, add_assoc, ← mul_add]
    refine add_le_add le_rfl (mul_le_mul_of_nonneg_left ?_ hg)
    split
    · simpa using hM
    · exact hb _
  induction k generalizing p with
  | zero => exact h0
  | succ k ih =>
    rw [Record.follow]
    split
    · exact h0
    · next hs =>
      have hs' : r.stop p = false := by simpa using hs
      have hne : w.ends (r.state p) (r.act p) = false := by
        by_contra hne
        exact hs (r.ended p (by simpa using hne))
      rw [hO, hne, add_assoc, ← mul_add]
      refine add_le_add le_rfl (mul_le_mul_of_nonneg_left ?_ hg)
      have h1 := ih (r.succ p) (by
        rw [hO, add_assoc, ← mul_add]
        refine add_le_add le_rfl (mul_le_mul_of_nonneg_left ?_ hg)
        split
        · simpa using hM
        · exact hb _)
      have h2 := le_best O (r.state (r.succ p)) (r.act (r.succ p))
      rw [r.goesOn p hs'] at h1 h2
      have h3 : gamma * M ≤ M := mul_le_of_le_one_left hM hg1
      simp only [Bool.false_eq_true, if_false]
      linarith

theorem le_follow {w : World S m} (r : Record w n) (gamma : ℝ) (hg : 0 ≤ gamma) (hg1 : gamma ≤ 1) (B Q : Table S m)
    (hB : ∀ s a, B s a ≤ w.rew s a + gamma * if w.ends s a then 0 else best B (w.next s a))
    (hr : ∀ p, r.stop p = false → B (r.state p) (r.act p) ≤ w.rew (r.state p) (r.act p) + gamma * B (r.state (r.succ p)) (r.act (r.succ p)))
    (M : ℝ) (hM : 0 ≤ M) (h : ∀ s a, B s a ≤ Q s a + M) (k : ℕ) (p : Fin n) : B (r.state p) (r.act p) ≤ r.follow gamma Q k p + gamma * M := by
  have hb : ∀ s, best B s ≤ best Q s + M := fun s => best_le B s _ fun a => (h s a).trans (by linarith [le_best Q s a])
  have h0 : ∀ p, B (r.state p) (r.act p) ≤
      w.rew (r.state p) (r.act p) + gamma * (if w.ends (r.state p) (r.act p) then 0 else best Q (w.next (r.state p) (r.act p))) + gamma * M := by
    intro p
    refine (hB _ _).trans ?_
    rw [add_assoc, ← mul_add]
    refine add_le_add le_rfl (mul_le_mul_of_nonneg_left ?_ hg)
    split
    · simpa using hM
    · exact hb _
  induction k generalizing p with
  | zero => exact h0 p
  | succ k ih =>
    rw [Record.follow]
    split
    · exact h0 p
    · next hs =>
      have hs' : r.stop p = false := by simpa using hs
      refine (hr p hs').trans ?_
      rw [add_assoc, ← mul_add]
      refine add_le_add le_rfl (mul_le_mul_of_nonneg_left ?_ hg)
      have h3 : gamma * M ≤ M := mul_le_of_le_one_left hM hg1
      linarith [ih (r.succ p)]

/-- **C274: not more than the optimum.** If each action was recorded in each state, the values that are learned with n-step returns are at most the optimal ones,
whoever chose the recorded actions. -/
theorem C274_le {w : World S m} (r : Record w n) (hn : 0 < n) (hc : ∀ s a, ∃ p, r.state p = s ∧ r.act p = a) (gamma : ℝ) (hg : 0 ≤ gamma) (hg1 : gamma < 1)
    (O : Table S m) (hO : w.Optimal gamma O) (isDouble hasTarget : Bool) (N : ℕ) (hN : 0 < N) (Q : Table S m) (hQ : r.Settled isDouble hasTarget gamma N Q)
    (s : S) (a : Fin (m + 1)) : Q s a ≤ O s a := by
  obtain ⟨k, rfl⟩ : ∃ k, N = k + 1 := ⟨N - 1, by omega⟩
  rw [r.settled_iff hn] at hQ
  haveI : Nonempty (S × Fin (m + 1)) := ⟨(s, a)⟩
  obtain ⟨⟨s0, a0⟩, h0⟩ := Finite.exists_max fun x : S × Fin (m + 1) => Q x.1 x.2 - O x.1 x.2
  by_contra hlt
  set M := Q s0 a0 - O s0 a0 with hM
  have hMpos : 0 < M := lt_of_lt_of_le (by simp only; linarith) (h0 (s, a))
  have hall : ∀ s a, Q s a ≤ O s a + M := fun s a => by linarith [h0 (s, a)]
  have := mean_le r (r.follow gamma Q k) Q s0 a0 (O s0 a0 + gamma * M) (hQ s0 a0) (hc s0 a0) fun p h1 h2 => by
    have := follow_le r gamma hg hg1.le O Q hO M hMpos.le hall k p
    rwa [h1, h2] at this
  have : M ≤ gamma * M := by linarith
  nlinarith

theorem lower {w : World S m} (r : Record w n) (hn : 0 < n) (hc : ∀ s a, ∃ p, r.state p = s ∧ r.act p = a) (gamma : ℝ) (hg : 0 ≤ gamma) (hg1 : gamma < 1)
    (B : Table S m) (hB : ∀ s a, B s a ≤ w.rew s a + gamma * if w.ends s a then 0 else best B (w.next s a))
    (hr : ∀ p, r.stop p = false → B (r.state p) (r.act p) ≤ w.rew (r.state p) (r.act p) + gamma * B (r.state (r.succ p)) (r.act (r.succ p)))
    (isDouble hasTarget : Bool) (N : ℕ) (hN : 0 < N) (Q : Table S m) (hQ : r.Settled isDouble hasTarget gamma N Q)
    (s : S) (a : Fin (m + 1)) : B s a ≤ Q s a := by
  obtain ⟨k, rfl⟩ : ∃ k, N = k + 1 := ⟨N - 1, by omega⟩
  rw [r.settled_iff hn] at hQ
  haveI : Nonempty (S × Fin (m + 1)) := ⟨(s, a)⟩
  obtain ⟨⟨s0, a0⟩, h0⟩ := Finite.exists_max fun x : S × Fin (m + 1) => B x.1 x.2 - Q x.1 x.2
  by_contra hlt
  set M := B s0 a0 - Q s0 a0 with hM
  have hMpos : 0 < M := lt_of_lt_of_le (by simp only; linarith) (h0 (s, a))
  have hall : ∀ s a, B s a ≤ Q s a + M := fun s a => by linarith [h0 (s, a)]
  have := le_mean r (r.follow gamma Q k) Q s0 a0 (B s0 a0 - gamma * M) (hQ s0 a0) (hc s0 a0) fun p h1 h2 => by
    have := le_follow r gamma hg hg1.le B Q hB hr M hMpos.le hall k p
    rw [h1, h2] at this
    linarith
  have : M ≤ gamma * M := by linarith
  nlinarith

/-- **C274: not less than the values of the recorded policy.** If the recorded actions, except for the first ones, are those of a policy `β`, the values
that are learned are at least the values of `β`. -/
theorem C274_ge {w : World S m} (r : Record w n) (hn : 0 < n) (hc : ∀ s a, ∃ p, r.state p = s ∧ r.act p = a) (gamma : ℝ) (hg : 0 ≤ gamma) (hg1 : gamma < 1)
    (β : S → Fin (m + 1)) (B : Table S m) (hB : w.Follows gamma β B) (hr : ∀ p, r.stop p = false → r.act (r.succ p) = β (r.state (r.succ p)))
    (isDouble hasTarget : Bool) (N : ℕ) (hN : 0 < N) (Q : Table S m) (hQ : r.Settled isDouble hasTarget gamma N Q) (s : S) (a : Fin (m + 1)) :
    B s a ≤ Q s a := by
  refine lower r hn hc gamma hg hg1 B (fun s a => ?_) (fun p hp => ?_) isDouble hasTarget N hN Q hQ s a
  · rw [hB s a]
    refine add_le_add le_rfl (mul_le_mul_of_nonneg_left ?_ hg)
    split
    · exact le_rfl
    · exact le_best B _ _
  · have hne : w.ends (r.state p) (r.act p) = false := by
      by_contra hne
      rw [r.ended p (by simpa using hne)] at hp
      exact absurd hp (by simp)
    rw [hr p hp, r.goesOn p hp, hB (r.state p), hne]
    simp

/-- **C274, partial: the optimal values** are learned if the recorded actions, except for the first ones of the recorded pieces of episodes, are optimal. -/
theorem C274_optimal_partial {w : World S m} (r : Record w n) (hn : 0 < n) (hc : ∀ s a, ∃ p, r.state p = s ∧ r.act p = a) (gamma : ℝ) (hg : 0 ≤ gamma) (hg1 : gamma < 1)
    (O : Table S m) (hO : w.Optimal gamma O) (hr : ∀ p, r.stop p = false → ∀ b, O (r.state (r.succ p)) b ≤ O (r.state (r.succ p)) (r.act (r.succ p)))
    (isDouble hasTarget : Bool) (N : ℕ) (hN : 0 < N) (Q : Table S m) (hQ : r.Settled isDouble hasTarget gamma N Q) : Q = O := by
  funext s a
  refine le_antisymm (C274_le r hn hc gamma hg hg1 O hO isDouble hasTarget N hN Q hQ s a) ?_
  refine lower r hn hc gamma hg hg1 O (fun s a => (hO s a).le) (fun p hp => ?_) isDouble hasTarget N hN Q hQ s a
  have hne : w.ends (r.state p) (r.act p) = false := by
    by_contra hne
    rw [r.ended p (by simpa using hne)] at hp
    exact absurd hp (by simp)
  rw [hO (r.state p), hne]
  refine add_le_add le_rfl (mul_le_mul_of_nonneg_left ?_ hg)
  rw [← r.goesOn p hp]
  simpa using best_le O _ _ (hr p hp)

/-- **C274, partial: the optimal values** are learned with one-step returns, whoever chose the actions. -/
theorem C274_one_partial {w : World S m} (r : Record w n) (hn : 0 < n) (hc : ∀ s a, ∃ p, r.state p = s ∧ r.act p = a) (gamma : ℝ) (hg : 0 ≤ gamma) (hg1 : gamma < 1)
    (O : Table S m) (hO : w.Optimal gamma O) (isDouble hasTarget : Bool) (Q : Table S m) (hQ : r.Settled isDouble hasTarget gamma 1 Q) : Q = O := by
  funext s a
  refine le_antisymm (C274_le r hn hc gamma hg hg1 O hO isDouble hasTarget 1 one_pos Q hQ s a) ?_
  rw [r.settled_iff hn] at hQ
  haveI : Nonempty (S × Fin (m + 1)) := ⟨(s, a)⟩
  obtain ⟨⟨s0, a0⟩, h0⟩ := Finite.exists_max fun x : S × Fin (m + 1) => O x.1 x.2 - Q x.1 x.2
  by_contra hlt
  set M := O s0 a0 - Q s0 a0 with hM
  have hMpos : 0 < M := lt_of_lt_of_le (by simp only; linarith) (h0 (s, a))
  have hb : ∀ s, best O s ≤ best Q s + M := fun s => best_le O s _ fun a => by linarith [h0 (s, a), le_best Q s a]
  have := le_mean r (r.follow gamma Q 0) Q s0 a0 (O s0 a0 - gamma * M) (hQ s0 a0) (hc s0 a0) fun p h1 h2 => by
    rw [Record.follow, h1, h2, hO s0 a0, add_sub_assoc, ← mul_sub]
    refine add_le_add le_rfl (mul_le_mul_of_nonneg_left ?_ hg)
    split
    · linarith
    · linarith [hb (w.next s0 a0)]
  have : M ≤ gamma * M := by linarith
  nlinarith

theorem follow_dist {w : World S m} (r : Record w n) (gamma : ℝ) (hg : 0 ≤ gamma) (hg1 : gamma ≤ 1) (Q Q' : Table S m) (k : ℕ) (p : Fin n) :
    |r.follow gamma Q k p - r.follow gamma Q' k p| ≤ gamma * dist Q Q' := by
  have h0 : ∀ p, |(w.rew (r.state p) (r.act p) + gamma * (if w.ends (r.state p) (r.act p) then 0 else best Q (w.next (r.state p) (r.act p)))) -
      (w.rew (r.state p) (r.act p) + gamma * (if w.ends (r.state p) (r.act p) then 0 else best Q' (w.next (r.state p) (r.act p))))| ≤ gamma * dist Q Q' := by
    intro p
    rw [add_sub_add_left_eq_sub, ← mul_sub, abs_mul, abs_of_nonneg hg]
    refine mul_le_mul_of_nonneg_left ?_ hg
    split
    · simp
    · exact best_dist Q Q' _
  induction k generalizing p with
  | zero => exact h0 p
  | succ k ih =>
    rw [Record.follow, Record.follow]
    split
    · exact h0 p
    · rw [add_sub_add_left_eq_sub, ← mul_sub, abs_mul, abs_of_nonneg hg]
      refine mul_le_mul_of_nonneg_left ((ih _).trans ?_) hg
      exact mul_le_of_le_one_left dist_nonneg hg1

/-- C274: there are values in which training settles. -/
theorem C274_exists {w : World S m} (r : Record w n) (hn : 0 < n) (gamma : ℝ) (hg : 0 ≤ gamma) (hg1 : gamma < 1) (isDouble hasTarget : Bool) (N : ℕ) (hN : 0 < N) :
    ∃ Q, r.Settled isDouble hasTarget gamma N Q := by
  obtain ⟨k, rfl⟩ : ∃ k, N = k + 1 := ⟨N - 1, by omega⟩
  have hc : ContractingWith ⟨gamma, hg⟩ (fun (Q : Table S m) s a => (∑ p with (r.state p, r.act p) = (s, a), r.follow gamma Q k p) /
      (Finset.univ.filter fun p => (r.state p, r.act p) = (s, a)).card) := by
    refine ⟨by exact_mod_cast hg1, LipschitzWith.of_dist_le_mul fun Q Q' => ?_⟩
    have h0 : 0 ≤ gamma * dist Q Q' := mul_nonneg hg dist_nonneg
    refine (dist_pi_le_iff h0).mpr fun s => (dist_pi_le_iff h0).mpr fun a => ?_
    rw [Real.dist_eq, ← sub_div, ← Finset.sum_sub_distrib]
    rcases Nat.eq_zero_or_pos (Finset.univ.filter fun p => (r.state p, r.act p) = (s, a)).card with h1 | h1
    · simpa only [h1, Nat.cast_zero, div_zero, abs_zero] using h0
    · have hcard : (0 : ℝ) < (Finset.univ.filter fun p => (r.state p, r.act p) = (s, a)).card := by exact_mod_cast h1
      rw [abs_div, abs_of_pos hcard, div_le_iff₀ hcard, mul_comm, ← nsmul_eq_mul, ← Finset.sum_const]
      exact (Finset.abs_sum_le_sum_abs _ _).trans (Finset.sum_le_sum fun p _ => follow_dist r gamma hg hg1.le Q Q' k p)
  refine ⟨ContractingWith.fixedPoint _ hc, (r.settled_iff hn isDouble hasTarget gamma k _).mpr fun s a => ?_⟩
  have h1 := congrFun (congrFun hc.fixedPoint_isFixedPt s) a
  generalize ContractingWith.fixedPoint _ hc = Q at *
  rw [Finset.sum_sub_distrib, Finset.sum_const, nsmul_eq_mul]
  rcases (Finset.univ.filter fun p => (r.state p, r.act p) = (s, a)).eq_empty_or_nonempty with h2 | h2
  · rw [h2]; simp
  · have hcard : ((Finset.univ.filter fun p => (r.state p, r.act p) = (s, a)).card : ℝ) ≠ 0 := by exact_mod_cast h2.card_pos.ne'
    have h3 : (Finset.univ.filter fun p => (r.state p, r.act p) = (s, a)).card * Q s a = ∑ p with (r.state p, r.act p) = (s, a), r.follow gamma Q k p := by
      rw [← h1]
      change _ * ((∑ p with (r.state p, r.act p) = (s, a), r.follow gamma Q k p) / _) = _
      field_simp
    rw [h3, sub_self]

/-! ### Violation -/

/-- Two states. In state 0, action 0 ends the episode with the reward 1, action 1 leads to state 1. There action 1 has the reward 4, action 0 the reward 0; both end
the episode. -/
def detour : World (Fin 2) 1 where
  next _ _ := 1
  rew s a := if s = 0 then (if a = 0 then 1 else 0) else if a = 0 then 0 else 4
  ends s a := !(s = 0 && a = 1)

/-- An episode in which the second action was bad, and two of one step. -/
def detourRecord : Record detour 4 where
  state p := if p = 0 ∨ p = 3 then 0 else 1
  act p := if p = 0 ∨ p = 2 then 1 else 0
  stop p := p ≠ 0
  succ _ := 1
  view := { rew := fun i => if i = 2 then 4 else if i = 3 then 1 else 0
            terminated := fun i => i ≠ 0
            done := fun i => i ≠ 0
            unfinished := []
            next := fun i => if i = 0 then 1 else i }
  inputs _ := 1
  viewRew p := by fin_cases p <;> simp [detour]
  viewTerminated p := by fin_cases p <;> simp [detour]
  viewInputs p := rfl
  viewStop p := by fin_cases p <;> simp
  ended p := by fin_cases p <;> simp [detour]
  viewEnd p := by fin_cases p <;> simp
  viewNext p := by fin_cases p <;> simp
  goesOn p := by fin_cases p <;> simp [detour]

/-- The optimal values with the discount factor 1/2. -/
noncomputable def detourValues : Table (Fin 2) 1 := fun s a => if s = 0 then (if a = 0 then 1 else 2) else if a = 0 then 0 else 4

theorem detour_optimal : detour.Optimal (1 / 2) detourValues := by
  have hb : best detourValues 1 = 4 := by
    refine le_antisymm (best_le _ _ _ fun a => ?_) ((le_of_eq (by simp [detourValues])).trans (le_best detourValues 1 1))
    fin_cases a <;> simp [detourValues]
  intro s a
  fin_cases s <;> fin_cases a <;> simp [detour, detourValues] at hb ⊢
  rw [hb]
  norm_num

theorem detour_all (s : Fin 2) (a : Fin 2) : ∃ p, detourRecord.state p = s ∧ detourRecord.act p = a := by
  fin_cases s <;> fin_cases a
  · exact ⟨3, by simp [detourRecord]⟩
  · exact ⟨0, by simp [detourRecord]⟩
  · exact ⟨1, by simp [detourRecord]⟩
  · exact ⟨2, by simp [detourRecord]⟩

/-- **C274 is violated with two-step returns**: each action was recorded in each state, but the values prefer action 0 in state 0, whose optimal value is
1 instead of 2. -/
theorem C274_violated (isDouble hasTarget : Bool) (Q : Table (Fin 2) 1) (h : detourRecord.Settled isDouble hasTarget (1 / 2) 2 Q) :
    Q 0 1 < Q 0 0 ∧ detour.Optimal (1 / 2) detourValues ∧ detourValues 0 0 = 1 ∧ detourValues 0 1 = 2 := by
  rw [detourRecord.settled_iff (by norm_num)] at h
  have h1 := h 0 0
  have h2 := h 0 1
  rw [Finset.sum_filter] at h1 h2
  simp [Fin.sum_univ_four, detourRecord, Record.follow, detour] at h1 h2
  exact ⟨by linarith, detour_optimal, by simp [detourValues], by simp [detourValues]⟩

/-! ### Examples -/

/-- The hypotheses of `C274_le`, `C274_one_partial` and `C274_exists`. -/
example : (∀ s a, ∃ p, detourRecord.state p = s ∧ detourRecord.act p = a) ∧ detour.Optimal (1 / 2) detourValues ∧
    ∃ Q, detourRecord.Settled true true (1 / 2) 2 Q ∧ Q 0 1 < Q 0 0 := by
  obtain ⟨Q, hQ⟩ := C274_exists detourRecord (by norm_num) (1 / 2) (by norm_num) (by norm_num) true true 2 (by norm_num)
  exact ⟨detour_all, detour_optimal, Q, hQ, (C274_violated _ _ Q hQ).1⟩

/-- The hypotheses of `C274_ge`: the policy that always takes action 0. -/
example : detour.Follows (1 / 2) (fun _ => 0) (fun s a => detour.rew s a) ∧
    ∀ p, detourRecord.stop p = false → detourRecord.act (detourRecord.succ p) = 0 := by
  constructor
  · intro s a
    fin_cases s <;> fin_cases a <;> simp [detour]
  · intro p
    fin_cases p <;> simp [detourRecord]

/-- A record in which the second action was good. -/
def goodRecord : Record detour 4 where
  state p := if p = 0 ∨ p = 3 then 0 else 1
  act p := if p = 0 ∨ p = 1 then 1 else 0
  stop p := p ≠ 0
  succ _ := 1
  view := { rew := fun i => if i = 1 then 4 else if i = 3 then 1 else 0
            terminated := fun i => i ≠ 0
            done := fun i => i ≠ 0
            unfinished := []
            next := fun i => if i = 0 then 1 else i }
  inputs _ := 1
  viewRew p := by fin_cases p <;> simp [detour]
  viewTerminated p := by fin_cases p <;> simp [detour]
  viewInputs p := rfl
  viewStop p := by fin_cases p <;> simp
  ended p := by fin_cases p <;> simp [detour]
  viewEnd p := by fin_cases p <;> simp
  viewNext p := by fin_cases p <;> simp
  goesOn p := by fin_cases p <;> simp [detour]

/-- The hypothesis of `C274_optimal_partial`. -/
example : ∀ p, goodRecord.stop p = false → ∀ b, detourValues (goodRecord.state (goodRecord.succ p)) b ≤
    detourValues (goodRecord.state (goodRecord.succ p)) (goodRecord.act (goodRecord.succ p)) := by
  intro p _ b
  fin_cases b <;> simp [goodRecord, detourValues]

end Verif.Nstep
