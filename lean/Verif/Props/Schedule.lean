import Verif.Model.Schedule
import Verif.Lemmas.TrainerCount
import Verif.Props.Trainer
import Mathlib.Tactic.Linarith
import Mathlib.Tactic.NormNum
import Mathlib.Tactic.FieldSimp
import Mathlib.Tactic.Ring

/-! Properties of schedules and of the number of training steps (C151–C155). -/

set_option linter.unusedSectionVars false

namespace Verif.Schedule

open Verif.Trainer

variable {ω V F P : Type}

/-! ### C151: the number of training steps -/

/-- All events of a run. -/
def whole (ys : List (EpochStats V F P)) : List (Ev V F P) := ys.flatMap EpochStats.trace

private theorem collected_whole : ∀ (ys : List (EpochStats V F P)), collected (whole ys) = ys.flatMap fun y => collected y.trace
  | [] => rfl
  | y :: ys => by
    have := collected_whole ys
    simp only [whole, List.flatMap_cons] at this ⊢
    rw [collected_append, this]

private theorem updates_whole : ∀ (ys : List (EpochStats V F P)), updates (whole ys) = (ys.map fun y => updates y.trace).sum
  | [] => rfl
  | y :: ys => by
    have := updates_whole ys
    simp only [whole, List.flatMap_cons, List.map_cons, List.sum_cons] at this ⊢
    rw [updates_append, this]

private theorem sum_ge (m : Nat) : ∀ (l : List Nat), (∀ x ∈ l, m ≤ x) → l.length * m ≤ l.sum
  | [], _ => by simp
  | x :: l, h => by
    have h1 := sum_ge m l fun y hy => h y (List.mem_cons_of_mem _ hy)
    have h2 := h x List.mem_cons_self
    rw [List.length_cons, List.sum_cons, Nat.succ_mul]
    omega

private theorem sum_eq (m : Nat) : ∀ (l : List Nat), (∀ x ∈ l, x = m) → l.sum = l.length * m
  | [], _ => by simp
  | x :: l, h => by
    have h1 := sum_eq m l fun y hy => h y (List.mem_cons_of_mem _ hy)
    have h2 := h x List.mem_cons_self
    rw [List.length_cons, List.sum_cons, Nat.succ_mul]
    omega

private theorem ceil_le_of (s : Int) (m k : Nat) (hm : 1 ≤ m) (h : s ≤ (k * m : Nat)) : ⌈(s : ℚ) / m⌉ ≤ k := by
  have hm' : (0 : ℚ) < m := by exact_mod_cast hm
  rw [Int.ceil_le, div_le_iff₀ hm']
  exact_mod_cast h

private theorem lt_ceil_of (s : Int) (m k : Nat) (hm : 1 ≤ m) (h : ((k * m : Nat) : Int) < s) : (k : Int) < ⌈(s : ℚ) / m⌉ := by
  have hm' : (0 : ℚ) < m := by exact_mod_cast hm
  rw [Int.lt_ceil, lt_div_iff₀ hm']
  exact_mod_cast h

variable [LT F] [DecidableRel (α := F) (· < ·)]

/-- In an epoch whose collections make at least `m` steps there are at most `ceil (step_per_epoch / m)` of them. -/
private theorem epoch_le (c : Cfg ω V F P) (htrain : c.hasTrain = true) (fuel : Nat) (t t' : T ω V F P) (y : EpochStats V F P)
    (h : next c fuel t = some (t', .ok (some y))) (m : Nat) (hm : 1 ≤ m) (hge : ∀ x ∈ collected y.trace, m ≤ x) :
    ((collected y.trace).length : Int) ≤ ⌈(c.stepPerEpoch : ℚ) / m⌉ := by
  obtain ⟨h1, h2, _, _⟩ := next_count c htrain fuel t t' y h
  have h3 := sum_ge m (collected y.trace).dropLast fun x hx => hge x ((List.dropLast_sublist _).subset hx)
  have hpos : 0 < (collected y.trace).length := List.length_pos_of_ne_nil h1
  have h4 : (collected y.trace).dropLast.length = (collected y.trace).length - 1 := by simp
  rw [h4] at h3
  have := lt_ceil_of c.stepPerEpoch m ((collected y.trace).length - 1) hm (lt_of_le_of_lt (by exact_mod_cast h3) h2)
  omega

/-- C151. If every training collection makes `m ≥ 1` steps and training is not stopped early within an epoch, every epoch has
`ceil (step_per_epoch / m)` training steps, and training for `e` epochs takes `e * ceil (step_per_epoch / m) * m` environment steps; `e` is
`max_epoch` if the stop function never succeeds. -/
theorem C151_steps (c : Cfg ω V F P) (htrain : c.hasTrain = true) (fuel n : Nat) (t t' : T ω V F P) (ys : List (EpochStats V F P))
    (h : iterate c fuel n t = some (t', .ok ys)) (m : Nat) (hm : 1 ≤ m) (hall : ∀ x ∈ collected (whole ys), x = m)
    (hno : ∀ y ∈ ys, ¬ StoppedEarly c.stopFn c.out.mean y.trace) :
    (∀ y ∈ ys, ((collected y.trace).length : Int) = ⌈(c.stepPerEpoch : ℚ) / m⌉) ∧
      ((collected (whole ys)).sum : Int) = ys.length * ⌈(c.stepPerEpoch : ℚ) / m⌉ * m ∧
      (c.resume = false → t.startEpoch = 0 → 1 ≤ c.maxEpoch → (∀ y ∈ ys, ¬ Succeeded c.stopFn c.out.mean y) →
        (ys.length : Int) = c.maxEpoch) := by
  have hit : ∃ t'', Iterating c t ys t'' := by
    unfold iterate at h
    cases hr : reset c true false t with
    | mk t1 r =>
      rw [hr] at h
      cases r with
      | error e => simp at h
      | ok u =>
        obtain ⟨t'', hi, _⟩ := drain_iterating c fuel n t t1 t' [] ys (Iterating.start true false t1 hr) h
        exact ⟨t'', by simpa using hi⟩
  obtain ⟨t'', hit⟩ := hit
  have hmem : ∀ y ∈ ys, ∀ x ∈ collected y.trace, x = m := by
    intro y hy x hx
    apply hall
    rw [collected_whole]
    exact List.mem_flatMap.2 ⟨y, hy, hx⟩
  have hlen : ∀ y ∈ ys, ((collected y.trace).length : Int) = ⌈(c.stepPerEpoch : ℚ) / m⌉ := by
    intro y hy
    obtain ⟨f, t1, t2, hn⟩ := hit.mem_next y hy
    refine le_antisymm (epoch_le c htrain f t1 t2 y hn m hm fun x hx => (hmem y hy x hx).ge) ?_
    obtain ⟨_, _, h3, _⟩ := next_count c htrain f t1 t2 y hn
    have h4 := h3 (hno y hy)
    rw [sum_eq m _ (hmem y hy)] at h4
    exact ceil_le_of _ _ _ hm h4
  refine ⟨hlen, ?_, ?_⟩
  · rw [sum_eq m _ hall, collected_whole]
    have : ∀ (zs : List (EpochStats V F P)), (∀ y ∈ zs, ((collected y.trace).length : Int) = ⌈(c.stepPerEpoch : ℚ) / m⌉) →
        ((zs.flatMap fun y => collected y.trace).length : Int) = zs.length * ⌈(c.stepPerEpoch : ℚ) / m⌉ := by
      intro zs
      induction zs with
      | nil => intro _; simp
      | cons z zs ih =>
        intro hz
        rw [List.flatMap_cons, List.length_append, List.length_cons]
        push_cast
        rw [ih fun y hy => hz y (List.mem_cons_of_mem _ hy), hz z List.mem_cons_self]
        ring
    push_cast
    rw [this ys hlen]
  · intro hres hst hmax hns
    obtain ⟨c1, _, c3, _, c5⟩ := C65_epochs_partial c fuel n t t' ys h 0 (by simp [hres, hst])
    have hne : ys ≠ [] := by
      intro h0
      rw [h0] at c1
      simp at c1
    have hlast := c5 (ys.getLast hne) (List.getLast?_eq_getLast_of_ne_nil hne)
    rcases hlast with hs | hs
    · exact absurd hs (hns _ (List.getLast_mem hne))
    · have : max c.maxEpoch (((0 : Nat) : Int) + 1) = c.maxEpoch := max_eq_left (by simpa using hmax)
      rw [this] at c3
      push_cast at c3 hs
      omega

/-- Two epochs of at least 5 steps in collections of 3. -/
example : collected (whole (yields (iterate (demoCfg .onpolicy 2 false none [1, 5, 3, 4] []) 9 9 (init true (0, 0))))) = [3, 3, 3, 3] ∧
    ⌈((5 : Int) : ℚ) / (3 : Nat)⌉ = 2 := by
  constructor
  · decide +kernel
  · rw [Int.ceil_eq_iff]; norm_num

/-! ### C152: the linear learning rate -/

/-- C152, on-policy. In on-policy training from the start, with collections of at least `step_per_collect` steps each, the policy is updated at most
`max_update_num` times; so the learning rate is the base value at the first update, falls by the same amount with each update, and is above zero at
every update (and not below zero afterwards). -/
theorem C152_onpolicy_partial (c : Cfg ω V F P) (hk : c.kind = .onpolicy) (htrain : c.hasTrain = true) (hres : c.resume = false)
    (hmax : 1 ≤ c.maxEpoch) (fuel n : Nat) (t t' : T ω V F P) (hstart : t.startEpoch = 0) (ys : List (EpochStats V F P))
    (h : iterate c fuel n t = some (t', .ok ys)) (m : Nat) (hm : 1 ≤ m) (hge : ∀ x ∈ collected (whole ys), m ≤ x)
    (base : ℚ) (hb : 0 < base) :
    ∃ mx : Int, maxUpdateNum c.stepPerEpoch (some m) c.maxEpoch = .ok mx ∧ 1 ≤ mx ∧ (updates (whole ys) : Int) ≤ mx ∧
      rate base mx 0 = some base ∧
      (∀ k : Nat, ∃ r, rate base mx k = some r ∧ rate base mx (k + 1) = some (r - base / mx)) ∧
      (∀ k < updates (whole ys), ∃ r, rate base mx k = some r ∧ 0 < r ∧ r ≤ base) ∧
      ∃ r, rate base mx (updates (whole ys)) = some r ∧ 0 ≤ r := by
  have hit : ∃ t'', Iterating c t ys t'' := by
    unfold iterate at h
    cases hr : reset c true false t with
    | mk t1 r =>
      rw [hr] at h
      cases r with
      | error e => simp at h
      | ok u =>
        obtain ⟨t'', hi, _⟩ := drain_iterating c fuel n t t1 t' [] ys (Iterating.start true false t1 hr) h
        exact ⟨t'', by simpa using hi⟩
  obtain ⟨t'', hit⟩ := hit
  have hle : ∀ y ∈ ys, (updates y.trace : Int) ≤ ⌈(c.stepPerEpoch : ℚ) / m⌉ ∧ (1 : Int) ≤ ⌈(c.stepPerEpoch : ℚ) / m⌉ := by
    intro y hy
    obtain ⟨f, t1, t2, hn⟩ := hit.mem_next y hy
    have e1 := epoch_le c htrain f t1 t2 y hn m hm fun x hx => hge x (by
      rw [collected_whole]; exact List.mem_flatMap.2 ⟨y, hy, hx⟩)
    obtain ⟨h1, _, _, h4⟩ := next_count c htrain f t1 t2 y hn
    have h5 := (h4 hk).1
    have hpos : 0 < (collected y.trace).length := List.length_pos_of_ne_nil h1
    constructor
    · exact le_trans (by exact_mod_cast h5) e1
    · omega
  obtain ⟨c1, _, c3, _, _⟩ := C65_epochs_partial c fuel n t t' ys h 0 (by simp [hres, hstart])
  have hlen : (ys.length : Int) ≤ c.maxEpoch := by
    have : max c.maxEpoch (((0 : Nat) : Int) + 1) = c.maxEpoch := max_eq_left (by simpa using hmax)
    rw [this] at c3
    push_cast at c3
    omega
  have hceil : (1 : Int) ≤ ⌈(c.stepPerEpoch : ℚ) / m⌉ := by
    cases ys with
    | nil => simp at c1
    | cons y ys => exact (hle y List.mem_cons_self).2
  have hsum : (updates (whole ys) : Int) ≤ ys.length * ⌈(c.stepPerEpoch : ℚ) / m⌉ := by
    rw [updates_whole]
    have : ∀ (zs : List (EpochStats V F P)), (∀ y ∈ zs, (updates y.trace : Int) ≤ ⌈(c.stepPerEpoch : ℚ) / m⌉) →
        (((zs.map fun y => updates y.trace).sum : Nat) : Int) ≤ zs.length * ⌈(c.stepPerEpoch : ℚ) / m⌉ := by
      intro zs
      induction zs with
      | nil => intro _; simp
      | cons z zs ih =>
        intro hz
        have i1 := ih fun y hy => hz y (List.mem_cons_of_mem _ hy)
        have i2 := hz z List.mem_cons_self
        rw [List.map_cons, List.sum_cons, List.length_cons]
        push_cast at i1 ⊢
        rw [add_mul, one_mul]
        omega
    exact this ys fun y hy => (hle y hy).1
  obtain ⟨q, hq⟩ : ∃ q, q = ⌈(c.stepPerEpoch : ℚ) / m⌉ := ⟨_, rfl⟩
  have hmx : (updates (whole ys) : Int) ≤ q * c.maxEpoch := by
    rw [← hq] at hsum hceil
    calc (updates (whole ys) : Int) ≤ ys.length * q := hsum
      _ ≤ c.maxEpoch * q := mul_le_mul_of_nonneg_right hlen (by omega)
      _ = q * c.maxEpoch := mul_comm _ _
  have hmx1 : 1 ≤ q * c.maxEpoch := by
    rw [← hq] at hceil
    nlinarith
  have hmxne : q * c.maxEpoch ≠ 0 := by omega
  have hmxq : (0 : ℚ) < ((q * c.maxEpoch : Int) : ℚ) := by exact_mod_cast hmx1
  have hr : ∀ k : Nat, rate base (q * c.maxEpoch) k = some (base * (1 - (k : ℚ) / ((q * c.maxEpoch : Int) : ℚ))) := by
    intro k
    simp only [rate, factor, if_neg hmxne, Option.map_some]
  refine ⟨q * c.maxEpoch, ?_, hmx1, hmx, ?_, ?_, ?_, ?_⟩
  · have : (m : Int) ≠ 0 := by omega
    simp only [maxUpdateNum]
    rw [if_neg this, hq]
    push_cast
    rfl
  · rw [hr]; simp
  · intro k
    refine ⟨_, hr k, ?_⟩
    rw [hr]
    congr 1
    push_cast
    field_simp
    ring
  · intro k hk'
    refine ⟨_, hr k, ?_, ?_⟩
    · apply mul_pos hb
      rw [sub_pos, div_lt_one hmxq]
      have : (k : Int) < q * c.maxEpoch := by omega
      exact_mod_cast this
    · have : 0 ≤ (k : ℚ) / ((q * c.maxEpoch : Int) : ℚ) := div_nonneg (Nat.cast_nonneg _) hmxq.le
      nlinarith
  · refine ⟨_, hr _, ?_⟩
    apply mul_nonneg hb.le
    rw [sub_nonneg, div_le_one hmxq]
    exact_mod_cast hmx

/-- Two epochs with two updates each, and `max_update_num` is 4. -/
example : updates (whole (yields (iterate (demoCfg .onpolicy 2 false none [1, 5, 3, 4] []) 9 9 (init true (0, 0))))) = 4 := by
  decide +kernel

/-- C152. Without `step_per_collect`, or with zero, no schedule is made: an error is raised. -/
theorem C152_missing (stepPerEpoch numEpochs : Int) :
    maxUpdateNum stepPerEpoch none numEpochs = .error .assertion ∧ maxUpdateNum stepPerEpoch (some 0) numEpochs = .error .zeroDivision := by
  simp [maxUpdateNum]

/-- C152 is violated in off-policy training, where the policy is updated once per environment step by default: if `step_per_epoch` is above
`max_update_num`, as with the default values (30000 and 1500), then in every epoch, if training is not stopped early, there are more than
`max_update_num` updates, so the learning rate is below zero from the first epoch on. -/
theorem C152_violated (c : Cfg ω V F P) (hk : c.kind = .offpolicy 1) (m : Nat) (mx : Int)
    (hm : maxUpdateNum c.stepPerEpoch (some m) c.maxEpoch = .ok mx) (hmx : 0 < mx) (hlt : mx < c.stepPerEpoch) (fuel : Nat) (t t' : T ω V F P)
    (y : EpochStats V F P) (h : next c fuel t = some (t', .ok (some y))) (hno : ¬ StoppedEarly c.stopFn c.out.mean y.trace) (base : ℚ)
    (hb : 0 < base) :
    mx < updates y.trace ∧ ∀ k : Nat, c.stepPerEpoch ≤ k → ∃ r, rate base mx k = some r ∧ r < 0 := by
  constructor
  · obtain ⟨bs, h1, h2⟩ := C67_ratio c 1 hk fuel t t' y h
    rcases h2 with ⟨_, _, g2, g3, _⟩ | ⟨g1, _⟩
    · have hu : ∀ (tr : List (Ev V F P)), updates tr = ((work tr).filter fun o => o.isNone).length := by
        intro tr
        induction tr with
        | nil => rfl
        | cons ev tr ih =>
          cases ev <;> simp_all [updates, work]
      have hs : ∀ (bs : List (Nat × Nat)), (∀ b ∈ bs, 1 ≤ b.2 ∧ Nearest (1 * (b.1 : ℚ)) b.2) →
          ((bs.flatMap fun b => some b.1 :: List.replicate b.2 none).filter fun o => o.isNone).length = (bs.map Prod.fst).sum := by
        intro bs
        induction bs with
        | nil => intro _; rfl
        | cons b bs ih =>
          intro hb'
          have i1 := ih fun x hx => hb' x (List.mem_cons_of_mem _ hx)
          have i2 := (hb' b List.mem_cons_self).2
          have i3 : (b.2 : Int) = b.1 := nearest_unique _ _ _ i2 (by simp [Nearest])
          have i4 : b.2 = b.1 := by exact_mod_cast i3
          rw [List.flatMap_cons, List.filter_append, List.length_append, i1, List.map_cons, List.sum_cons]
          congr 1
          rw [List.filter_cons_of_neg (by simp), List.filter_eq_self.2 (by simp), List.length_replicate, i4]
      rw [hu, g2, hs bs h1]
      omega
    · exact absurd g1 hno
  · intro k hk'
    refine ⟨base * (1 - (k : ℚ) / (mx : ℚ)), by simp [rate, factor, hmx.ne'], ?_⟩
    apply mul_neg_of_pos_of_neg hb
    have hq : (0 : ℚ) < mx := by exact_mod_cast hmx
    rw [sub_neg, one_lt_div hq]
    have : mx < (k : Int) := by omega
    exact_mod_cast this

/-- With the default values: 30000 steps per epoch, 2048 per collection, 100 epochs. -/
example : maxUpdateNum 30000 (some (2048 : Nat)) 100 = .ok 1500 := by
  have : ⌈((30000 : Int) : ℚ) / ((2048 : Nat) : Int)⌉ = 15 := by rw [Int.ceil_eq_iff]; norm_num
  simp only [maxUpdateNum]
  rw [if_neg (by norm_num), this]
  rfl

example : ∃ y ∈ yields (iterate (demoCfg (.offpolicy 1) 2 false none [1, 5, 3, 4] []) 9 9 (init true (0, 0))), updates y.trace = 6 := by
  decide +kernel

/-! ### C153: schedulers advance with the updates -/

mutual
private theorem learn_sched : ∀ p : Pol, p.learn = p
  | .node s inner => by rw [Pol.learn, learns_sched inner]

private theorem learns_sched : ∀ ps : Pols, ps.learn = ps
  | .nil => by rw [Pols.learn]
  | .cons d p rest => by
    rw [Pols.learn, learn_sched p, learns_sched rest]
    simp
end

/-- C153. The scheduler of a policy that is updated itself advances once per update. -/
theorem C153_direct_partial : ∀ (n : Nat) (s : Nat) (inner : Pols), ∃ inner', Pol.updates n (.node (some s) inner) = .node (some (s + n)) inner'
  | 0, _, inner => ⟨inner, rfl⟩
  | n + 1, s, inner => by
    obtain ⟨i, hi⟩ := C153_direct_partial n (s + 1) inner
    refine ⟨i, ?_⟩
    rw [Pol.updates, Pol.update, learn_sched]
    simp only [Option.map_some]
    rw [hi, Nat.add_right_comm, Nat.add_assoc]

/-- C153 is violated for the policies inside an `ICMPolicy` or a `MultiAgentPolicyManager`: however often the policy is updated, their schedulers,
at any depth, stay where they are. -/
theorem C153_violated : ∀ (n : Nat) (s : Option Nat) (inner : Pols), ∃ s', Pol.updates n (.node s inner) = .node s' inner
  | 0, s, _ => ⟨s, rfl⟩
  | n + 1, s, inner => by
    rw [Pol.updates, Pol.update, learn_sched]
    exact C153_violated n (s.map (· + 1)) inner

example : Pol.updates 3 (.node none (.cons true (.node (some 0) .nil) .nil)) = .node none (.cons true (.node (some 0) .nil) .nil) := by
  obtain ⟨s', h⟩ := C153_violated 3 none (.cons true (.node (some 0) .nil) .nil)
  rw [h]
  simp [Pol.updates, Pol.update, learn_sched] at h
  rw [← h]

/-! ### C154: the decay of epsilon -/

section Eps
variable {K : Type} [Field K] [LinearOrder K] [IsStrictOrderedRing K]

/-- C154. With a positive number of decay steps, epsilon is the first value at step zero, falls with every step by the same amount until it is the
final value after `decay_steps` steps, and stays there; so it is always between the two and never rises. -/
theorem C154_decay_partial (train final : K) (hle : final ≤ train) (d : Int) (hd : 0 < d) :
    decayedEps train final d 0 = .ok train ∧
    (∀ n, d ≤ n → decayedEps train final d n = .ok final) ∧
    (∀ n, n < d → ∃ e, decayedEps train final d n = .ok e ∧ decayedEps train final d (n + 1) = .ok (e - (train - final) / d)) ∧
    (∀ n, 0 ≤ n → ∃ e, decayedEps train final d n = .ok e ∧ final ≤ e ∧ e ≤ train) ∧
    ∀ n k, n ≤ k → ∃ e e', decayedEps train final d n = .ok e ∧ decayedEps train final d k = .ok e' ∧ e' ≤ e := by
  have hd' : (0 : K) < (d : K) := by exact_mod_cast hd
  have hne : d ≠ 0 := hd.ne'
  have hin : ∀ n, n ≤ d → decayedEps train final d n = .ok (train - (n : K) / (d : K) * (train - final)) := by
    intro n hn
    simp [decayedEps, hn, hne]
  have hout : ∀ n, d ≤ n → decayedEps train final d n = .ok final := by
    intro n hn
    rcases hn.eq_or_lt with h | h
    · rw [hin n h.ge, ← h, div_self hd'.ne', one_mul, sub_sub_cancel]
    · simp [decayedEps, not_le.2 h]
  have hdiff : 0 ≤ train - final := sub_nonneg.2 hle
  refine ⟨by rw [hin 0 hd.le]; simp, hout, ?_, ?_, ?_⟩
  · intro n hn
    refine ⟨_, hin n hn.le, ?_⟩
    rw [hin (n + 1) (by omega)]
    congr 1
    push_cast
    field_simp
    ring
  · intro n hn
    by_cases h : n ≤ d
    · refine ⟨_, hin n h, ?_, ?_⟩
      · have h1 : (n : K) / (d : K) ≤ 1 := by
          rw [div_le_one hd']; exact_mod_cast h
        nlinarith
      · have h1 : 0 ≤ (n : K) / (d : K) := div_nonneg (by exact_mod_cast hn) hd'.le
        nlinarith
    · exact ⟨final, hout n (by omega), le_refl _, hle⟩
  · intro n k hnk
    by_cases hk : k ≤ d
    · refine ⟨_, _, hin n (hnk.trans hk), hin k hk, ?_⟩
      have : (n : K) / (d : K) ≤ (k : K) / (d : K) := by
        rw [div_le_div_iff_of_pos_right hd']
        exact_mod_cast hnk
      nlinarith
    · by_cases hn : n ≤ d
      · refine ⟨_, _, hin n hn, hout k (by omega), ?_⟩
        have h1 : (n : K) / (d : K) ≤ 1 := by
          rw [div_le_one hd']; exact_mod_cast hn
        nlinarith
      · exact ⟨_, _, hout n (by omega), hout k (by omega), le_refl _⟩

example : decayedEps (1 : ℚ) (1 / 10) 10 5 = .ok (11 / 20) := by
  simp only [decayedEps]
  norm_num

/-- C154. In a run that is not resumed, the callback is called before each collection with the number of environment steps collected before, so the
values of epsilon used are given by `decayedEps` at these numbers. -/
theorem C154_run (c : Cfg ω V F P) (hres : c.resume = false) (htrain : c.hasTrain = true) (t0 t : T ω V F P) (ys : List (EpochStats V F P))
    (h : Iterating c t0 ys t) : ∃ tr, t.log = t0.log ++ tr ∧
      ∀ pre post b e n s, tr = pre ++ Ev.collect b e n s :: post → n = ((collected pre).sum : Nat) := by
  obtain ⟨tr, h1, h2, _⟩ := C82_counters c t0 t ys h htrain 0 t0.gradientStep (by simp [hres]) (by simp [hres])
  exact ⟨tr, h1, fun pre post b e n s he => by have := h2 pre post b e n s he; omega⟩

/-- C154 is violated in two ways. With `decay_steps = 0` (no decay) the callback raises a `ZeroDivisionError` at its first call. And although
documented to be called at the beginning of each epoch, it is called before every collection: there is a run with two epochs and four calls. -/
theorem C154_violated :
    (∀ train final : K, decayedEps train final 0 0 = .error .zeroDivision) ∧
    ∃ (c : Cfg (Nat × Nat) Int Int Nat), (yields (iterate c 9 9 (init true (0, 0)))).length = 2 ∧
      (collected (whole (yields (iterate c 9 9 (init true (0, 0)))))).length = 4 := by
  refine ⟨fun train final => by simp [decayedEps], demoCfg .onpolicy 2 false none [1, 5, 3, 4] [], by decide +kernel, by decide +kernel⟩

end Eps

/-! ### C155: the reward threshold -/

/-- C155. With the callback for reward thresholds and a trainer that does not test during training (as those of the high-level interface), training goes
on as long as the best mean reward is below the threshold, and stops after the first epoch in which it is not (or at `max_epoch`). -/
theorem C155_threshold {ω V P : Type} {K : Type} [LinearOrder K] (x : K) (spec : Option K) (c : Cfg ω V K P)
    (hstop : ∀ f, c.stopFn = some f → ∀ r, shouldStop (some x) spec r = .ok (f r)) (hf : c.stopFn.isSome)
    (fuel n : Nat) (t t' : T ω V K P) (ys : List (EpochStats V K P)) (h : iterate c fuel n t = some (t', .ok ys))
    (hres : c.resume = false) (hstart : t.startEpoch = 0) (hno : ∀ y ∈ ys, ¬ StoppedEarly c.stopFn c.out.mean y.trace)
    (htest : ∀ y ∈ ys, y.testStat.isSome) :
    (∀ (i : Nat) (y : EpochStats V K P), ys[i]? = some y → i + 1 < ys.length → y.bestReward < x) ∧
      ∀ y, ys.getLast? = some y → x ≤ y.bestReward ∨ c.maxEpoch ≤ ys.length := by
  obtain ⟨f, hf⟩ := Option.isSome_iff_exists.1 hf
  have hacc : ∀ r, Accepts c.stopFn r ↔ x ≤ r := by
    intro r
    have := hstop f hf r
    simp only [shouldStop, Except.ok.injEq] at this
    unfold Accepts
    rw [hf]
    constructor
    · rintro ⟨g, hg, hr⟩
      cases hg
      rw [← this] at hr
      simpa using hr
    · intro hr
      exact ⟨f, rfl, by rw [← this]; simpa using hr⟩
  obtain ⟨_, _, _, c4, c5⟩ := C65_epochs_partial c fuel n t t' ys h 0 (by simp [hres, hstart])
  constructor
  · intro i y hy hi
    have := c4 i y hy hi
    by_contra hc
    exact this (Or.inr ⟨htest y (List.mem_of_getElem? hy), (hacc _).2 (not_lt.1 hc)⟩)
  · intro y hy
    rcases c5 y hy with hs | hs
    · rcases hs with hs | hs
      · exact absurd hs (hno y (List.mem_of_getLast? hy))
      · exact Or.inl ((hacc _).1 hs.2)
    · exact Or.inr (by simpa using hs)

/-- C155. Without a threshold in the environment or in the callback, the first decision raises an `AssertionError`. -/
theorem C155_missing {K : Type} [LinearOrder K] (r : K) : shouldStop (none : Option K) none r = .error .assertion := rfl

/-- C155. The threshold of the environment is used when none is given, and only then. -/
theorem C155_spec {K : Type} [LinearOrder K] (x : K) (spec : Option K) (r : K) :
    shouldStop none (some x) r = shouldStop (some x) spec r := rfl

example : shouldStop (some (9 : Int)) none 9 = .ok true := by decide

end Verif.Schedule
