import Verif.Props.Her

/-! C230: how the goals of hindsight experience replay are spread over the rest of the episode. -/

namespace Verif.Buffer

open Verif.Spec

variable {P G A R : Type} [AddCommMonoid R] {K : ℚ}

/-- The number of steps ahead is the whole number within one half of the drawn share of what remains. -/
theorem roundEven_near {x : ℚ} {n : Nat} (h0 : 0 ≤ x) (h : |x - n| < 1 / 2) : roundEven x = n := by
  have hf0 : 0 ≤ ⌊x⌋ := Int.floor_nonneg.mpr h0
  have hcast : ((⌊x⌋.toNat : Nat) : ℚ) = ((⌊x⌋ : Int) : ℚ) := by
    have : ((⌊x⌋.toNat : Nat) : Int) = ⌊x⌋ := Int.toNat_of_nonneg hf0
    exact_mod_cast this
  have h1 := Int.floor_le x
  have h2 := Int.lt_floor_add_one x
  rw [← hcast] at h1 h2
  obtain ⟨h3, h4⟩ := abs_lt.mp h
  unfold roundEven
  simp only
  generalize ⌊x⌋.toNat = f at h1 h2
  have hnf : n ≤ f + 1 ∧ f ≤ n := by
    constructor
    · have : (n : ℚ) < f + 2 := by linarith
      have : (n : ℚ) < ((f + 2 : Nat) : ℚ) := by push_cast; exact this
      have := Nat.cast_lt.mp this
      omega
    · have : (f : ℚ) < n + 1 := by linarith
      have : (f : ℚ) < ((n + 1 : Nat) : ℚ) := by push_cast; exact this
      have := Nat.cast_lt.mp this
      omega
  rcases (by omega : n = f ∨ n = f + 1) with e | e
  · subst e
    rw [if_pos (by linarith)]
  · subst e
    push_cast at h3 h4
    rw [if_neg (by linarith), if_pos (by linarith)]

theorem roundEven_dist {x : ℚ} (h0 : 0 ≤ x) : |x - roundEven x| ≤ 1 / 2 := by
  have hf0 : 0 ≤ ⌊x⌋ := Int.floor_nonneg.mpr h0
  have hcast : ((⌊x⌋.toNat : Nat) : ℚ) = ((⌊x⌋ : Int) : ℚ) := by
    have : ((⌊x⌋.toNat : Nat) : Int) = ⌊x⌋ := Int.toNat_of_nonneg hf0
    exact_mod_cast this
  have h1 := Int.floor_le x
  have h2 := Int.lt_floor_add_one x
  rw [← hcast] at h1 h2
  unfold roundEven
  simp only
  split_ifs with h3 h4 h5 <;> push_cast <;> rw [abs_le] <;> constructor <;> linarith

theorem episodes_fst (h : HBuf P G A R) (u u' : Nat → ℚ) (l : List Nat) (j a x : Nat)
    (he : (h.episodes u l)[j]? = some (a, x)) : ∃ x', (h.episodes u' l)[j]? = some (a, x') := by
  unfold HBuf.episodes at he ⊢
  simp only at he ⊢
  rw [List.getElem?_zipWith] at he ⊢
  split at he
  · rename_i p q e1 e2
    simp only [Option.some.injEq, Prod.mk.injEq] at he ⊢
    exact ⟨_, he.1, rfl⟩
  · cases he

/-- **C230**, what is drawn: each sampled episode (named by its last stored step `E`) has a random number of its own, `u (draw E)`, with the
same `draw` whatever numbers are drawn. Let `k` be the latest sampled step of the episode and `e = E - k` the number of steps
after it. If the episode is altered, its goal is the one achieved by step `k + n` whenever `u (draw E)` differs from `n / e`
by less than `1 / (2 e)` (and that of step `k` if `e = 0`). So with `u (draw E)` uniform in `[0, 1)`, each of the steps `k + 1, …, E - 1` is taken with
probability `1 / e`, and the steps `k` and `E` with probability `1 / (2 e)` each, because only the half of their
interval lies within `[0, 1)`. Missing: that all steps are equally likely, see `C230_violated`. -/
theorem C230_goal_partial {h : HBuf P G A R} {g : Ghost (GObs P G) A R} (H : HHistory K h g)
    {rng : Nat → Nat} {pick : Nat → Nat → List Nat} {bs : Option Int} {l : List Nat}
    (c : List (Trans (GObs P G) A R)) (hc : c = lastN h.base.idx.maxsize g.received)
    (hhor : ∀ (k i : Nat), h.base.idx.allIndices[k]? = some i → i ∈ l → epLast Trans.done c k - k < h.horizon) :
    ∃ draw : Nat → Nat,
      (∀ (k k' i i' : Nat), h.base.idx.allIndices[k]? = some i → i ∈ l → h.base.idx.allIndices[k']? = some i' → i' ∈ l →
        draw (epLast Trans.done c k) = draw (epLast Trans.done c k') → epLast Trans.done c k = epLast Trans.done c k') ∧
      ∀ (u : Nat → ℚ) (h' : HBuf P G A R), (∀ k, 0 ≤ u k ∧ u k < 1) → h.sampleIndices rng u pick bs = .ok (h', l) →
        ∀ (p i : Nat), h.base.idx.allIndices[p]? = some i → ∀ t, c[p]? = some t →
          h'.base.data i = some t ∨
          ∀ (k ik n E : Nat) (goal : G), E = epLast Trans.done c p → h.base.idx.allIndices[k]? = some ik → ik ∈ l →
            epLast Trans.done c k = E →
            (∀ (k' i' : Nat), h.base.idx.allIndices[k']? = some i' → i' ∈ l → epLast Trans.done c k' = E → k' ≤ k) →
            |u (draw E) * ((E - k : Nat) : ℚ) - n| < 1 / 2 →
            achievedBy h.base.opts.ignoreObsNext c (k + n) = some goal →
            ∃ t', h'.base.data i = some t' ∧ Relabelled goal t t' := by
  obtain ⟨HR, hstack⟩ := H.restored
  have Hh := HR.holds
  have hidx : h.restore.base.idx = h.base.idx := rfl
  have hopt : h.restore.base.opts = h.base.opts := rfl
  have hcc : content h.restore.base g = c := by rw [hc]; rfl
  rw [hcc] at Hh
  have hlen := Hh.len
  have hil := Hh.ins_le
  rw [hidx] at hlen hil
  have hallget : ∀ k, k < h.base.idx.size → h.base.idx.allIndices[k]? = some (slot h.base.idx.ins h.base.idx.size k) :=
    fun k hk => Hh.allIndices_getElem? k hk
  have hpos : ∀ {k i : Nat}, h.base.idx.allIndices[k]? = some i → k < h.base.idx.size ∧ i = slot h.base.idx.ins h.base.idx.size k := by
    intro k i hk
    have hk' : k < h.base.idx.size := by
      have := Hh.allIndices_length
      rw [hidx] at this
      rw [← this]; exact (List.getElem?_eq_some_iff.mp hk).1
    rw [hallget k hk'] at hk
    exact ⟨hk', (Option.some.inj hk).symm⟩
  have hdat : ∀ p, p < h.base.idx.size → h.restore.base.data (slot h.base.idx.ins h.base.idx.size p) = c[p]? :=
    fun p hp => Hh.data p hp
  by_cases hrun : ¬ (l ≠ [] ∧ ∀ i ∈ l, i < h.restore.base.idx.size)
  · -- such a sample does not happen, or alters nothing
    by_cases hne : l = []
    · refine ⟨fun _ => 0, (by intro k k' i i' _ hi; rw [hne] at hi; cases hi), ?_⟩
      intro u h' hu hs p i hp t ht
      left
      obtain ⟨hp', rfl⟩ := hpos hp
      unfold HBuf.sampleIndices at hs
      simp only at hs
      cases hsi : h.restore.base.sampleIndices rng bs with
      | error e => rw [hsi] at hs; cases hs
      | ok l' =>
        rw [hsi] at hs
        simp only at hs
        split at hs
        · cases hs
        cases hs
        unfold HBuf.rewrite
        rw [if_pos hne, hdat p hp', ht]
    · refine ⟨id, fun k k' i i' _ _ _ _ he => he, ?_⟩
      intro u h' hu hs
      exfalso
      apply hrun
      refine ⟨hne, ?_⟩
      unfold HBuf.sampleIndices at hs
      simp only at hs
      cases hsi : h.restore.base.sampleIndices rng bs with
      | error e => rw [hsi] at hs; cases hs
      | ok l' =>
        rw [hsi] at hs
        simp only at hs
        split at hs
        · cases hs
        cases hs
        intro i hi
        exact C07_sampled_live HR rng bs l hsi i hi
  rw [not_not] at hrun
  obtain ⟨hne, hlive⟩ := hrun
  obtain ⟨ks, z, hks, hksl, htab⟩ := episodes_table Hh HR.inv.ins_lt l hlive hne
  rw [hidx] at hks hksl
  have hkmem : ∀ k ∈ ks, slot h.base.idx.ins h.base.idx.size k ∈ l := fun k hk => (hks _).mpr ⟨k, hk, rfl⟩
  have hkmem' : ∀ k, k < h.base.idx.size → slot h.base.idx.ins h.base.idx.size k ∈ l → k ∈ ks := by
    intro k hk hm
    obtain ⟨k', hk', he⟩ := (hks _).mp hm
    rw [slot_inj hil (hksl k' hk') hk he] at hk'
    exact hk'
  have hhor' : ∀ k ∈ ks, epLast Trans.done c k - k < h.restore.horizon :=
    fun k hk => hhor k _ (hallget k (hksl k hk)) (hkmem k hk)
  have T0 := htab (fun _ => 0) (fun _ => by norm_num) hhor'
  -- the row of an episode
  have hrowE : ∀ E : Nat, ∃ j : Nat, (∃ k ∈ ks, epLast Trans.done c k = E) → ∃ k0 x : Nat, (h.restore.episodes (fun _ => 0) l)[j]? =
      some (slot h.base.idx.ins h.base.idx.size k0, x) ∧ k0 ∈ ks ∧ epLast Trans.done c k0 = E := by
    intro E
    by_cases he : ∃ k ∈ ks, epLast Trans.done c k = E
    · obtain ⟨k, hk, hkE⟩ := he
      obtain ⟨j, k0, x, h1, h2, h3⟩ := T0.cover k hk
      exact ⟨j, fun _ => ⟨k0, x, h1, h2, h3.symm.trans hkE⟩⟩
    · exact ⟨0, fun h => absurd h he⟩
  choose row hrow using hrowE
  refine ⟨fun E => z (row E), ?_, ?_⟩
  · intro k k' i i' hk hi hk' hi' he
    obtain ⟨a1, rfl⟩ := hpos hk
    obtain ⟨a2, rfl⟩ := hpos hk'
    obtain ⟨k0, x, b1, b2, b3⟩ := hrow (epLast Trans.done c k) ⟨k, hkmem' k a1 hi, rfl⟩
    obtain ⟨k0', x', b1', b2', b3'⟩ := hrow (epLast Trans.done c k') ⟨k', hkmem' k' a2 hi', rfl⟩
    obtain ⟨kz, -, c1, c2, -, -⟩ := T0.draw _ _ _ b1 b2
    obtain ⟨kz', -, c1', c2', -, -⟩ := T0.draw _ _ _ b1' b2'
    simp only at he
    rw [he, c2'] at c2
    cases c2
    rw [← b3, ← b3', ← c1, ← c1']
  · intro u h' hu hs p i hp t ht
    have T := htab u hu hhor'
    obtain ⟨hp', rfl⟩ := hpos hp
    unfold HBuf.sampleIndices at hs
    simp only at hs
    cases hsi : h.restore.base.sampleIndices rng bs with
    | error e => rw [hsi] at hs; cases hs
    | ok l' =>
      rw [hsi] at hs
      simp only at hs
      split at hs
      · cases hs
      cases hs
      unfold HBuf.rewrite
      rw [if_neg hne]
      simp only
      rcases scatter_cases h.restore.base.data _ (slot h.base.idx.ins h.base.idx.size p) with hsc | ⟨q, hq, hq1, hq2⟩
      · left; rw [hsc, hdat p hp', ht]
      rw [List.mem_map] at hq
      obtain ⟨x, hx, rfl⟩ := hq
      simp only at hq1 hq2
      rw [hq2]
      unfold HBuf.newValue
      by_cases hh : x.2.1 ∈ pick (h.restore.episodes u l).length ⌊((h.restore.episodes u l).length : ℚ) * h.restore.futureP⌋.toNat
      · rw [if_pos hh]
        right
        intro k ik n E goal hE hk hik hkE hlast hnear hgoal
        obtain ⟨hk', rfl⟩ := hpos hk
        unfold HBuf.cells at hx
        rw [List.mem_flatMap] at hx
        obtain ⟨r, hr, hx⟩ := hx
        rw [List.mem_map] at hx
        obtain ⟨e, he, rfl⟩ := hx
        have hej := List.mem_zipIdx_iff_getElem?.mp he
        obtain ⟨k0, f, hk0, hk0c, hee, hfle, hfk⟩ := T.rows _ _ hej
        rw [hidx] at hee
        have hf : f < h.base.idx.size := by
          have := epLast_lt Trans.done c hk0c
          omega
        simp only at hq1
        rw [hee] at hq1
        have hit := next_iter Hh k0 r (by rw [hidx]; exact hksl k0 hk0)
        rw [hidx] at hit
        simp only at hq1
        have hq0 := hq1
        rw [hit] at hq1
        have hel := epLast_lt Trans.done c hk0c
        have hle := le_epLast Trans.done c hk0c
        have hpeq := slot_inj hil (by omega) hp' hq1
        have hep : epLast Trans.done c p = epLast Trans.done c k0 :=
          epLast_step Trans.done c hk0c (by omega) (by omega)
        -- the row is the one of the episode
        rw [hee] at hej
        obtain ⟨k0', x', b1', b2', b3'⟩ := hrow E ⟨k, hkmem' k hk' hik, hkE⟩
        obtain ⟨y', b4⟩ := episodes_fst h.restore (fun _ => 0) u l _ _ _ b1'
        have hj : e.2 = row E := T.uniq _ _ k0 k0' _ _ hej b4 hk0 b2' (by rw [b3', ← hep, hE])
        obtain ⟨kz, hkz, c1, -, c3, c4⟩ := T.draw _ _ _ hej hk0
        have hkk : kz = k := by
          have h1 := c3 k (hkmem' k hk' hik) (by rw [hkE, hE, hep])
          have h2 := hlast kz _ (hallget kz (hksl kz hkz)) (hkmem kz hkz) (by rw [c1, ← hep, hE])
          omega
        subst hkk
        rw [hj, show epLast Trans.done c kz = E from hkE] at c4
        have hu0 := hu (z (row E))
        have hro := roundEven_near (x := u (z (row E)) * ((E - kz : Nat) : ℚ)) (n := n)
          (mul_nonneg hu0.1 (by positivity)) hnear
        rw [hro] at c4
        have hff : f = kz + n := by
          apply slot_inj hil hf ?_ c4
          have : roundEven (u (z (row E)) * ((E - kz : Nat) : ℚ)) ≤ E - kz := by
            apply roundEven_le (mul_nonneg hu0.1 (by positivity))
            have : (0 : ℚ) ≤ ((E - kz : Nat) : ℚ) := by positivity
            nlinarith [hu0.2]
          rw [hro] at this
          rw [hE, hep] at this
          have h3 := le_epLast Trans.done c (k := kz) (by omega)
          rw [c1] at h3
          omega
        simp only [hee]
        rw [show h.restore.goalAt (slot h.base.idx.ins h.base.idx.size f) =
          achievedBy h.base.opts.ignoreObsNext c f from goalAt_eq Hh hf, hff, hgoal]
        simp only
        rw [hq0, hdat p hp', ht]
        exact ⟨_, rfl, rfl⟩
      · rw [if_neg hh]
        left; rw [hq1, hdat p hp', ht]

/-- An episode of one step, then one of three steps, in a buffer of size 4; `future_k = 2`. -/
def exGoal : HBuf Nat Nat Nat Int :=
  ((((HBuf.new 4 (fun a d => if a = d then 1 else 0) 4 2 {}).addOne
    (gtr 20 90 true)).addOne (gtr 10 90 false)).addOne (gtr 11 90 false)).addOne (gtr 12 90 true)

theorem exGoal_history : ∃ g, HHistory 2 exGoal g ∧
    g.received = [gtr 20 90 true, gtr 10 90 false, gtr 11 90 false, gtr 12 90 true].map (expectedRow {}) := by
  have H0 := HHistory.new (K := 2) (R := Int) (A := Nat) (P := Nat) (G := Nat) 4 (by norm_num)
    (fun a d => if a = d then 1 else 0) 4 {} rfl
  obtain ⟨g1, H1, e1⟩ := H0.addOne (gtr 20 90 true)
  obtain ⟨g2, H2, e2⟩ := H1.addOne (gtr 10 90 false)
  obtain ⟨g3, H3, e3⟩ := H2.addOne (gtr 11 90 false)
  obtain ⟨g4, H4, e4⟩ := H3.addOne (gtr 12 90 true)
  refine ⟨g4, H4, ?_⟩
  rw [e4, e3, e2, e1]
  rfl

/-- The rewritten buffer, given the future slots of both episodes. -/
def exGoalRewrite (a b : Nat) : HBuf Nat Nat Nat Int :=
  let h := exGoal.restore
  let cells := h.cells [(0, a), (1, b)]
  let her := exPick 2 ⌊((2 : Nat) : ℚ) * h.futureP⌋.toNat
  { h with
    base := { h.base with data := scatter h.base.data (cells.map fun x => (x.1, h.newValue her x)) }
    saved := cells.map fun x => (x.1, h.base.data x.1) }

theorem exGoal_sample (u : Nat → ℚ) : exGoal.sampleIndices (fun k => k) u exPick (some 2) =
    .ok (exGoalRewrite (exGoal.restore.futureT u 0 0) (exGoal.restore.futureT u 1 1), [0, 1]) := by
  have hl : exGoal.restore.base.sampleIndices (fun k => k) (some 2) = .ok [0, 1] := by rfl
  have hp : ¬ (exGoal.restore.futureP < 0) := by decide +kernel
  unfold HBuf.sampleIndices
  simp only [hl]
  rw [if_neg (fun h => hp h.2)]
  have he : exGoal.restore.episodes u [0, 1] =
      [(0, exGoal.restore.futureT u 0 0), (1, exGoal.restore.futureT u 1 1)] := by
    have hc : sortChron exGoal.restore.base.idx [0, 1] = [0, 1] := by decide +kernel
    have ho : (openPositions 2 fun k => exGoal.restore.terminal (([0, 1] : List Nat).getD k 0)) = [0, 1] := by decide +kernel
    unfold HBuf.episodes
    simp only [hc, List.length_cons, List.length_nil, Nat.reduceAdd]
    rw [ho]
    rfl
  unfold HBuf.rewrite
  rw [if_neg (by simp), he]
  rfl

/-- **C230** fails: the episode of three steps with achieved goals 11, 12 and 13 is sampled at its first step and always altered (of two
sampled episodes, one is, here the second). Its new goal is 12 for all numbers between 1/4 and 3/4, so for half of them; it is 11 only for numbers up
to 1/4 and 13 only for numbers from 3/4 on. With equally likely steps each goal would have a third. -/
theorem C230_violated : ∃ (h : HBuf Nat Nat Nat Int) (g : Ghost (GObs Nat Nat) Nat Int), HHistory 2 h g ∧
    (lastN h.base.idx.maxsize g.received).map (fun t => (t.obsNext.map (·.achieved), t.done)) =
      [(some 21, true), (some 11, false), (some 12, false), (some 13, true)] ∧
    ∀ u : Nat → ℚ, (∀ k, 0 ≤ u k ∧ u k < 1) → ∃ h', h.sampleIndices (fun k => k) u exPick (some 2) = .ok (h', [0, 1]) ∧
      ∃ t, h'.base.data 1 = some t ∧ (t.obs.desired = 11 → u 1 ≤ 1 / 4) ∧
        (1 / 4 < u 1 ∧ u 1 < 3 / 4 → t.obs.desired = 12) ∧ (t.obs.desired = 13 → 3 / 4 ≤ u 1) := by
  obtain ⟨g, H, hg⟩ := exGoal_history
  refine ⟨exGoal, g, H, by rw [hg]; decide +kernel, ?_⟩
  intro u hu
  refine ⟨_, exGoal_sample u, ?_⟩
  have h00 : exGoal.restore.futureT u 0 0 = 0 := by
    unfold HBuf.futureT
    simp only
    have : (exGoal.restore.terminal 0 + exGoal.restore.base.idx.maxsize - 0) % exGoal.restore.base.idx.maxsize = 0 := by
      decide +kernel
    rw [this]
    simp [roundEven]
  have h11 : exGoal.restore.futureT u 1 1 = (1 + roundEven (u 1 * 2)) % 4 := by
    unfold HBuf.futureT
    simp only
    have h1 : (exGoal.restore.terminal 1 + exGoal.restore.base.idx.maxsize - 1) % exGoal.restore.base.idx.maxsize = 2 := by
      decide +kernel
    have h2 : exGoal.restore.base.idx.maxsize = 4 := by decide +kernel
    rw [h1, h2]
    norm_num
  rw [h00, h11]
  have hle : roundEven (u 1 * 2) ≤ 2 := by
    apply roundEven_le (by have := hu 1; linarith)
    have := hu 1
    push_cast; linarith
  have hres : ∀ n ≤ 2, ((exGoalRewrite 0 ((1 + n) % 4)).base.data 1).map (·.obs.desired) = some (11 + n) := by
    decide +kernel
  have hr := hres _ hle
  have hdist := roundEven_dist (x := u 1 * 2) (by have := hu 1; linarith)
  obtain ⟨t, ht, hd⟩ := Option.map_eq_some_iff.mp hr
  refine ⟨t, ht, ?_, ?_, ?_⟩
  all_goals rw [hd]
  · intro h
    have h0 : roundEven (u 1 * 2) = 0 := by omega
    rw [h0, abs_le] at hdist
    push_cast at hdist
    linarith [hdist.2]
  · rintro ⟨h1, h2⟩
    rw [roundEven_near (x := u 1 * 2) (n := 1) (by linarith) (by rw [abs_lt]; constructor <;> push_cast <;> linarith)]
  · intro h
    have h0 : roundEven (u 1 * 2) = 2 := by omega
    rw [h0, abs_le] at hdist
    push_cast at hdist
    linarith [hdist.1]

/-- `C230_goal_partial` applies to this buffer: its horizon of 4 covers both episodes. -/
example : ∀ k i : Nat, exGoal.base.idx.allIndices[k]? = some i → i ∈ ([0, 1] : List Nat) →
    epLast Trans.done (lastN exGoal.base.idx.maxsize
      ([gtr 20 90 true, gtr 10 90 false, gtr 11 90 false, gtr 12 90 true].map (expectedRow {}))) k - k < exGoal.horizon := by
  intro k i hk _
  have hk4 : k < 4 := by
    have h1 := (List.getElem?_eq_some_iff.mp hk).1
    have h2 : exGoal.base.idx.allIndices.length = 4 := by decide +kernel
    omega
  have : ∀ k < 4, epLast Trans.done (lastN exGoal.base.idx.maxsize
      ([gtr 20 90 true, gtr 10 90 false, gtr 11 90 false, gtr 12 90 true].map (expectedRow {}))) k - k < exGoal.horizon := by
    decide +kernel
  exact this k hk4

end Verif.Buffer
