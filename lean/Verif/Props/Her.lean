import Verif.Lemmas.Her
import Verif.Props.Buffer
import Mathlib.Data.Finset.Card

/-! Properties C31, C32, C72-C74: hindsight experience replay. -/

set_option linter.unusedSectionVars false

namespace Verif.Buffer

open Verif.Spec

variable {P G A R : Type} [AddCommMonoid R] {K : ℚ}

/-! ### C31 -/

/-- **C31** after any history, undoing the relabelling (which the code does before every write and every new
sampling) gives back exactly the transitions that were passed in, in order. -/
theorem C31_restored {h : HBuf P G A R} {g : Ghost (GObs P G) A R} (H : HHistory K h g) :
    h.base.idx.allIndices.map h.restore.base.data = (lastN h.base.idx.maxsize g.received).map some :=
  C05_fifo H.restored.1

/-- **C31** moreover the restored buffer is one that a plain `ReplayBuffer` could be in after the same writes, so
that all theorems about `ReplayBuffer` apply to it. -/
theorem C31_plain {h : HBuf P G A R} {g : Ghost (GObs P G) A R} (H : HHistory K h g) :
    History h.restore.base g := H.restored.1

/-- **C31** relabelling is never compounded: a sampling after another one, or any write after a sampling, does
what it would have done without the first sampling. -/
theorem C31_not_compounded {h h' : HBuf P G A R} {rng : Nat → Nat} {u : Nat → ℚ} {pick : Nat → Nat → List Nat}
    {bs : Option Int} {l : List Nat} (hs : h.sampleIndices rng u pick bs = .ok (h', l)) :
    (∀ rng' u' pick' bs', h'.sampleIndices rng' u' pick' bs' = h.sampleIndices rng' u' pick' bs') ∧
      (∀ t, h'.add t = h.add t) ∧ (∀ src, h'.update src = h.update src) ∧ ∀ keep, h'.reset keep = h.reset keep := by
  have hr : h'.restore = h.restore := by
    unfold HBuf.sampleIndices at hs
    simp only at hs
    split at hs
    · cases hs
    · split at hs
      · cases hs
      · cases hs
        exact rewrite_restore _ _ _ _ rfl
  refine ⟨?_, ?_, ?_, ?_⟩
  · intro rng' u' pick' bs'; unfold HBuf.sampleIndices; rw [hr]
  · intro t; unfold HBuf.add; rw [hr]
  · intro src; unfold HBuf.update; rw [hr]
  · intro keep; unfold HBuf.reset; rw [hr]

theorem scatter_cases {α : Type} (a : Nat → Option α) (kv : List (Nat × Option α)) (i : Nat) :
    scatter a kv i = a i ∨ ∃ p ∈ kv, p.1 = i ∧ scatter a kv i = p.2 := by
  induction kv generalizing a with
  | nil => exact Or.inl rfl
  | cons p kv ih =>
    obtain ⟨k, x⟩ := p
    rw [scatter]
    rcases ih (Function.update a k x) with h | ⟨p, hp, h1, h2⟩
    · by_cases hki : i = k
      · subst hki
        rw [Function.update_self] at h
        exact Or.inr ⟨(i, x), by simp, rfl, h⟩
      · rw [Function.update_of_ne hki] at h
        exact Or.inl h
    · exact Or.inr ⟨p, by simp [hp], h1, h2⟩

/-- **C31** while relabelled, a stored transition differs from the one passed in at most in its desired goal and
its reward. -/
theorem C31_only_goal_and_reward {h : HBuf P G A R} {g : Ghost (GObs P G) A R} (H : HHistory K h g) (i : Nat) :
    h.base.data i = h.restore.base.data i ∨
      ∃ t t' goal, h.restore.base.data i = some t ∧ h.base.data i = some t' ∧ Relabelled goal t t' := by
  cases H with
  | new => left; rfl
  | add H ha =>
    left
    unfold HBuf.add at ha
    simp only at ha
    split at ha
    · cases ha
    · cases ha; rfl
  | update H hs => left; rfl
  | reset keep H => left; rfl
  | @sample h0 _ _ rng u pick bs l H ha =>
    unfold HBuf.sampleIndices at ha
    simp only at ha
    split at ha
    · cases ha
    · split at ha
      · cases ha
      · cases ha
        rw [rewrite_restore _ _ _ _ rfl]
        unfold HBuf.rewrite
        split
        · left; rfl
        · simp only
          rcases scatter_cases h0.restore.base.data _ i with h | ⟨p, hp, h1, h2⟩
          · left; exact h
          · rw [List.mem_map] at hp
            obtain ⟨x, hx, rfl⟩ := hp
            simp only at h1 h2
            subst h1
            rw [h2]
            unfold HBuf.newValue
            by_cases hh : x.2.1 ∈ pick (h0.restore.episodes u l).length ⌊((h0.restore.episodes u l).length : ℚ) * h0.restore.futureP⌋.toNat
            · rw [if_pos hh]
              cases hg : h0.restore.goalAt x.2.2 with
              | none => left; rfl
              | some goal =>
                simp only
                cases hd : h0.restore.base.data x.1 with
                | none => left; rfl
                | some t => right; exact ⟨t, _, goal, rfl, rfl, rfl⟩
            · rw [if_neg hh]
              left; rfl

/-! ### C32 -/

theorem goalAt_eq {h : HBuf P G A R} {c : List (Trans (GObs P G) A R)} (H : Holds h.base.idx h.base.data c)
    {f : Nat} (hf : f < h.base.idx.size) :
    h.goalAt (slot h.base.idx.ins h.base.idx.size f) = achievedBy h.base.opts.ignoreObsNext c f := by
  have hlen := H.len
  have h1 := epLast_lt Trans.done c (k := f) (by omega)
  unfold HBuf.goalAt achievedBy
  split
  · have := next_iter H f 1 hf
    rw [Function.iterate_one] at this
    rw [this, H.data _ (by omega)]
  · rw [H.data _ hf]

/-- **C32** the number of steps ahead: for a sampled step `i` with `d` steps to the last row of its trajectory and a drawn `u`, the
future row is the whole number nearest to `u * d` steps ahead, the even one of two. -/
theorem C32_round (h : HBuf P G A R) (u : Nat → ℚ) (k i d : Nat) (hu : 0 ≤ u k)
    (hd : d = (h.terminal i + h.base.idx.maxsize - i) % h.base.idx.maxsize) :
    ∃ n : Nat, h.futureT u k i = (i + n) % h.base.idx.maxsize ∧ |u k * d - n| ≤ 1 / 2 ∧
      (|u k * d - n| = 1 / 2 → n % 2 = 0) := by
  subst hd
  refine ⟨_, rfl, ?_⟩
  generalize hx : u k * (((h.terminal i + h.base.idx.maxsize - i) % h.base.idx.maxsize : Nat) : ℚ) = x
  have h0 : 0 ≤ x := by rw [← hx]; positivity
  have hf0 : 0 ≤ ⌊x⌋ := Int.floor_nonneg.mpr h0
  have hcast : ((⌊x⌋.toNat : Nat) : ℚ) = ((⌊x⌋ : Int) : ℚ) := by
    have : ((⌊x⌋.toNat : Nat) : Int) = ⌊x⌋ := Int.toNat_of_nonneg hf0
    exact_mod_cast this
  have h1 := Int.floor_le x
  have h2 := Int.lt_floor_add_one x
  rw [← hcast] at h1 h2
  unfold roundEven
  simp only
  split_ifs with h3 h4 h5
  · rw [abs_of_nonneg (by linarith)]
    exact ⟨by linarith, fun h => by linarith⟩
  · push_cast
    rw [abs_of_nonpos (by linarith)]
    exact ⟨by linarith, fun h => by linarith⟩
  · rw [abs_of_nonneg (by linarith)]
    exact ⟨by linarith, fun _ => h5⟩
  · push_cast
    rw [abs_of_nonpos (by linarith)]
    exact ⟨by linarith, fun _ => by omega⟩

example : roundEven (5 / 2) = 2 ∧ roundEven (7 / 2) = 4 ∧ roundEven (8 / 3) = 3 := by
  decide +kernel

/-- **C32** with a horizon that covers what remains of the sampled episodes: every stored step `p` is either
unaltered, or got as desired goal a goal achieved by a step `j` of the same episode; in the latter case some
step of that episode at or before `p` was sampled, and `j` is not earlier than any sampled step of that episode
(in particular, not earlier than `p` if `p` itself was sampled). If `obs_next` is stored, the reward of an
altered step is recomputed with the new goal. -/
theorem C32_future_goal {h h' : HBuf P G A R} {g : Ghost (GObs P G) A R} (H : HHistory K h g)
    {rng : Nat → Nat} {u : Nat → ℚ} {pick : Nat → Nat → List Nat} {bs : Option Int} {l : List Nat}
    (hs : h.sampleIndices rng u pick bs = .ok (h', l)) (hu : ∀ k, 0 ≤ u k ∧ u k < 1)
    (c : List (Trans (GObs P G) A R)) (hc : c = lastN h.base.idx.maxsize g.received)
    (hhor : ∀ (k i : Nat), h.base.idx.allIndices[k]? = some i → i ∈ l → epLast Trans.done c k - k < h.horizon)
    (p i : Nat) (hp : h.base.idx.allIndices[p]? = some i) :
    ∃ t, c[p]? = some t ∧ (h'.base.data i = some t ∨ ∃ t' goal j, h'.base.data i = some t' ∧
      Relabelled goal t t' ∧ achievedBy h.base.opts.ignoreObsNext c j = some goal ∧
      epLast Trans.done c j = epLast Trans.done c p ∧
      (∃ k i' : Nat, h.base.idx.allIndices[k]? = some i' ∧ i' ∈ l ∧ k ≤ p ∧
        epLast Trans.done c k = epLast Trans.done c p) ∧
      (∀ k i' : Nat, h.base.idx.allIndices[k]? = some i' → i' ∈ l →
        epLast Trans.done c k = epLast Trans.done c p → k ≤ j) ∧
      (h.base.opts.ignoreObsNext = false → ∀ o, t.obsNext = some o → t'.rew = h.computeReward o.achieved goal)) := by
  obtain ⟨HR, hstack⟩ := H.restored
  have Hh := HR.holds
  have hidx : h.restore.base.idx = h.base.idx := rfl
  have hopt : h.restore.base.opts = h.base.opts := rfl
  have hcc : content h.restore.base g = c := by rw [hc]; rfl
  rw [hcc] at Hh
  have hlen := Hh.len
  have hil := Hh.ins_le
  rw [hidx] at hlen hil
  have hallget : ∀ k, k < h.base.idx.size → h.base.idx.allIndices[k]? = some (slot h.base.idx.ins h.base.idx.size k) :=
    fun k hk => Hh.allIndices_getElem? k hk
  have hpos : ∀ {k i : Nat}, h.base.idx.allIndices[k]? = some i → k < h.base.idx.size ∧ i = slot h.base.idx.ins h.base.idx.size k := by
    intro k i hk
    have hk' : k < h.base.idx.size := by
      have := Hh.allIndices_length
      rw [hidx] at this
      rw [← this]; exact (List.getElem?_eq_some_iff.mp hk).1
    rw [hallget k hk'] at hk
    exact ⟨hk', (Option.some.inj hk).symm⟩
  obtain ⟨hp', rfl⟩ := hpos hp
  have hdat : h.restore.base.data (slot h.base.idx.ins h.base.idx.size p) = c[p]? := Hh.data p hp'
  refine ⟨c[p], List.getElem?_eq_getElem (by omega), ?_⟩
  rw [List.getElem?_eq_getElem (by omega)] at hdat
  unfold HBuf.sampleIndices at hs
  simp only at hs
  cases hsi : h.restore.base.sampleIndices rng bs with
  | error e => rw [hsi] at hs; cases hs
  | ok l' =>
    rw [hsi] at hs
    simp only at hs
    split at hs
    · cases hs
    cases hs
    unfold HBuf.rewrite
    split
    · left; exact hdat
    rename_i hne
    have hlive : ∀ i ∈ l, i < h.restore.base.idx.size := by
      intro i hi
      exact C07_sampled_live HR rng bs l hsi i hi
    obtain ⟨ks, z, hks, hksl, htab⟩ := episodes_table Hh HR.inv.ins_lt l hlive hne
    rw [hidx] at hks hksl
    have hkmem : ∀ k ∈ ks, slot h.base.idx.ins h.base.idx.size k ∈ l := fun k hk => (hks _).mpr ⟨k, hk, rfl⟩
    have hkmem' : ∀ k, k < h.base.idx.size → slot h.base.idx.ins h.base.idx.size k ∈ l → k ∈ ks := by
      intro k hk hm
      obtain ⟨k', hk', he⟩ := (hks _).mp hm
      rw [slot_inj hil (hksl k' hk') hk he] at hk'
      exact hk'
    have T := htab u hu (fun k hk => hhor k _ (hallget k (hksl k hk)) (hkmem k hk))
    simp only
    rcases scatter_cases h.restore.base.data _ (slot h.base.idx.ins h.base.idx.size p) with hsc | ⟨q, hq, hq1, hq2⟩
    · left; rw [hsc]; exact hdat
    · rw [List.mem_map] at hq
      obtain ⟨x, hx, rfl⟩ := hq
      simp only at hq1 hq2
      rw [hq2]
      unfold HBuf.newValue
      by_cases hh : x.2.1 ∈ pick (h.restore.episodes u l).length ⌊((h.restore.episodes u l).length : ℚ) * h.restore.futureP⌋.toNat
      · rw [if_pos hh]
        cases hg : h.restore.goalAt x.2.2 with
        | none => left; rw [hq1]; exact hdat
        | some goal =>
          right
          simp only
          rw [hq1, hdat]
          unfold HBuf.cells at hx
          rw [List.mem_flatMap] at hx
          obtain ⟨r, hr, hx⟩ := hx
          rw [List.mem_map] at hx
          obtain ⟨e, he, rfl⟩ := hx
          have hej := List.mem_zipIdx_iff_getElem?.mp he
          obtain ⟨k0, f, hk0, hk0c, hee, hfle, hfk⟩ := T.rows _ _ hej
          rw [hidx] at hee
          have hf : f < h.base.idx.size := by
            have := epLast_lt Trans.done c hk0c
            omega
          simp only at hq1 hg
          rw [hee] at hq1 hg
          simp only at hq1 hg
          rw [← hidx, goalAt_eq Hh (by rw [hidx]; exact hf), hopt] at hg
          have hit := next_iter Hh k0 r (by rw [hidx]; exact hksl k0 hk0)
          rw [hidx] at hit
          rw [hit] at hq1
          have hel := epLast_lt Trans.done c hk0c
          have hle := le_epLast Trans.done c hk0c
          have hpeq := slot_inj hil (by omega) hp' hq1
          have hep : epLast Trans.done c p = epLast Trans.done c k0 :=
            epLast_step Trans.done c hk0c (by omega) (by omega)
          have hef : epLast Trans.done c f = epLast Trans.done c k0 :=
            epLast_step Trans.done c hk0c (hfk k0 hk0 rfl).2 hfle
          refine ⟨_, goal, f, rfl, rfl, hg, hef.trans hep.symm, ⟨k0, _, hallget k0 (hksl k0 hk0), hkmem k0 hk0, by omega, hep.symm⟩, ?_, ?_⟩
          · intro k i' hk hi' hke
            obtain ⟨hk', rfl⟩ := hpos hk
            exact (hfk k (hkmem' k hk' hi') (hke.trans hep)).2
          · intro hig o ho
            unfold HBuf.relabel
            simp only [hopt, hig, Bool.false_eq_true, if_false, ho]
            rfl
      · rw [if_neg hh]
        left; rw [hq1]; exact hdat

open Classical in
/-- **C32**, complete description: sampling decides for each sampled episode (named by its last stored step `E`)
on a new goal or none, `goalOf E`; a stored step is altered if and only if some step of its episode at or before
it was sampled and a goal was decided on, and then it gets that goal. The goals are achieved in the same
episode, not before any of its sampled steps. Of the `n` sampled episodes, exactly `⌊n * (1 - 1 / future_k)⌋` get
a goal. (`pick` must return distinct numbers below `n`, as `np.random.choice` does.) -/
theorem C32_relabelling {h h' : HBuf P G A R} {g : Ghost (GObs P G) A R} (H : HHistory K h g)
    {rng : Nat → Nat} {u : Nat → ℚ} {pick : Nat → Nat → List Nat} {bs : Option Int} {l : List Nat}
    (hs : h.sampleIndices rng u pick bs = .ok (h', l)) (hu : ∀ k, 0 ≤ u k ∧ u k < 1)
    (hpick : ∀ n s, s ≤ n → (pick n s).Nodup ∧ (pick n s).length = s ∧ ∀ x ∈ pick n s, x < n)
    (c : List (Trans (GObs P G) A R)) (hc : c = lastN h.base.idx.maxsize g.received)
    (hnext : h.base.opts.ignoreObsNext = false → ∀ t ∈ c, t.obsNext ≠ none) (hP : h.futureP ≤ 1)
    (hhor : ∀ (k i : Nat), h.base.idx.allIndices[k]? = some i → i ∈ l → epLast Trans.done c k - k < h.horizon) :
    ∃ (goalOf : Nat → Option G) (sampled : Finset Nat),
      (∀ E, E ∈ sampled ↔ ∃ (k i : Nat), h.base.idx.allIndices[k]? = some i ∧ i ∈ l ∧ epLast Trans.done c k = E) ∧
      (∀ E goal, goalOf E = some goal → E ∈ sampled ∧ ∃ j, achievedBy h.base.opts.ignoreObsNext c j = some goal ∧
        epLast Trans.done c j = E ∧ ∀ (k i : Nat), h.base.idx.allIndices[k]? = some i → i ∈ l →
          epLast Trans.done c k = E → k ≤ j) ∧
      ((sampled.filter fun E => (goalOf E).isSome).card = ⌊(sampled.card : ℚ) * h.futureP⌋.toNat) ∧
      ∀ (p i : Nat), h.base.idx.allIndices[p]? = some i → ∃ t, c[p]? = some t ∧
        if ∃ (k i' : Nat), h.base.idx.allIndices[k]? = some i' ∧ i' ∈ l ∧ k ≤ p ∧
            epLast Trans.done c k = epLast Trans.done c p then
          match goalOf (epLast Trans.done c p) with
          | none => h'.base.data i = some t
          | some goal => ∃ t', h'.base.data i = some t' ∧ Relabelled goal t t'
        else h'.base.data i = some t := by
  obtain ⟨HR, hstack⟩ := H.restored
  have Hh := HR.holds
  have hidx : h.restore.base.idx = h.base.idx := rfl
  have hopt : h.restore.base.opts = h.base.opts := rfl
  have hcc : content h.restore.base g = c := by rw [hc]; rfl
  rw [hcc] at Hh
  have hlen := Hh.len
  have hil := Hh.ins_le
  rw [hidx] at hlen hil
  set ins := h.base.idx.ins with hinsd
  set size := h.base.idx.size with hsized
  have hallget : ∀ k, k < size → h.base.idx.allIndices[k]? = some (slot ins size k) :=
    fun k hk => Hh.allIndices_getElem? k hk
  have hpos : ∀ {k i : Nat}, h.base.idx.allIndices[k]? = some i → k < size ∧ i = slot ins size k := by
    intro k i hk
    have hk' : k < size := by
      have := Hh.allIndices_length
      rw [hidx] at this
      rw [hsized, ← this]; exact (List.getElem?_eq_some_iff.mp hk).1
    rw [hallget k hk'] at hk
    exact ⟨hk', (Option.some.inj hk).symm⟩
  have hdat : ∀ p, p < size → h.restore.base.data (slot ins size p) = c[p]? := fun p hp => Hh.data p hp
  unfold HBuf.sampleIndices at hs
  simp only at hs
  cases hsi : h.restore.base.sampleIndices rng bs with
  | error e => rw [hsi] at hs; cases hs
  | ok l' =>
    rw [hsi] at hs
    simp only at hs
    split at hs
    · cases hs
    rename_i hfp
    cases hs
    by_cases hne : l = []
    · refine ⟨fun _ => none, ∅, ?_, by simp, by simp, ?_⟩
      · intro E; simp [hne]
      · intro p i hp
        obtain ⟨hp', rfl⟩ := hpos hp
        refine ⟨c[p], List.getElem?_eq_getElem (by omega), ?_⟩
        unfold HBuf.rewrite
        rw [if_pos hne, hdat p hp', List.getElem?_eq_getElem (by omega)]
        simp
    have hfp0 : 0 ≤ h.futureP := by
      by_contra hlt
      exact hfp ⟨hne, not_le.mp hlt⟩
    have hlive : ∀ i ∈ l, i < h.restore.base.idx.size := by
      intro i hi
      exact C07_sampled_live HR rng bs l hsi i hi
    obtain ⟨ks, z, hks, hksl, htab⟩ := episodes_table Hh HR.inv.ins_lt l hlive hne
    rw [hidx] at hks hksl
    have hkmem : ∀ k ∈ ks, slot ins size k ∈ l := fun k hk => (hks _).mpr ⟨k, hk, rfl⟩
    have hkmem' : ∀ k, k < size → slot ins size k ∈ l → k ∈ ks := by
      intro k hk hm
      obtain ⟨k', hk', he⟩ := (hks _).mp hm
      rw [slot_inj hil (hksl k' hk') hk he] at hk'
      exact hk'
    have T := htab u hu (fun k hk => hhor k _ (hallget k (hksl k hk)) (hkmem k hk))
    have hsampled : ∀ p, (∃ (k i' : Nat), h.base.idx.allIndices[k]? = some i' ∧ i' ∈ l ∧ k ≤ p ∧
        epLast Trans.done c k = epLast Trans.done c p) ↔
        ∃ k ∈ ks, k ≤ p ∧ epLast Trans.done c k = epLast Trans.done c p := by
      intro p
      constructor
      · rintro ⟨k, i', h1, h2, h3, h4⟩
        obtain ⟨hk, rfl⟩ := hpos h1
        exact ⟨k, hkmem' k hk h2, h3, h4⟩
      · rintro ⟨k, hk, h3, h4⟩
        exact ⟨k, _, hallget k (hksl k hk), hkmem k hk, h3, h4⟩
    set eps := h.restore.episodes u l with heps
    set her := pick eps.length ⌊(eps.length : ℚ) * h.restore.futureP⌋.toNat with hher
    -- rows of the table, by episode
    have hrow : ∀ j, j < eps.length → ∃ k0 f, k0 ∈ ks ∧ eps[j]? = some (slot ins size k0, slot ins size f) ∧
        k0 < c.length ∧ f < size ∧ f ≤ epLast Trans.done c k0 ∧ epLast Trans.done c f = epLast Trans.done c k0 ∧
        ∀ k ∈ ks, epLast Trans.done c k = epLast Trans.done c k0 → k0 ≤ k ∧ k ≤ f := by
      intro j hj
      obtain ⟨k0, f, hk0, hk0c, hee, hfle, hfk⟩ := T.rows j _ (List.getElem?_eq_getElem hj)
      have hel := epLast_lt Trans.done c hk0c
      refine ⟨k0, f, hk0, by rw [List.getElem?_eq_getElem hj, hee]; rfl, hk0c, by omega, hfle, ?_, hfk⟩
      exact epLast_step Trans.done c hk0c (hfk k0 hk0 rfl).2 hfle
    choose! k0 f hk0 hrowj hk0c hfs hfle hfe hfk using hrow
    set E := fun j => epLast Trans.done c (k0 j) with hE
    have hEinj : ∀ j, j < eps.length → ∀ j', j' < eps.length → E j = E j' → j = j' := by
      intro j hj j' hj' he
      exact T.uniq j j' (k0 j) (k0 j') _ _ (hrowj j hj) (hrowj j' hj') (hk0 j hj) (hk0 j' hj') he
    have hEcov : ∀ k ∈ ks, ∃ j, j < eps.length ∧ E j = epLast Trans.done c k := by
      intro k hk
      obtain ⟨j, q, x, h1, h2, h3⟩ := T.cover k hk
      have hj : j < eps.length := (List.getElem?_eq_some_iff.mp h1).1
      refine ⟨j, hj, ?_⟩
      have := hrowj j hj
      rw [h1] at this
      simp only [Option.some.injEq, Prod.mk.injEq] at this
      have hq := slot_inj hil (hksl q h2) (hksl _ (hk0 j hj)) this.1
      simp only [hE]
      rw [← hq, h3]
    have hgoal : ∀ j, j < eps.length → ∃ goal, h.restore.goalAt (slot ins size (f j)) = some goal ∧
        achievedBy h.base.opts.ignoreObsNext c (f j) = some goal := by
      intro j hj
      have h1 := goalAt_eq Hh (f := f j) (hfs j hj)
      have h1' : h.restore.goalAt (slot ins size (f j)) = achievedBy h.base.opts.ignoreObsNext c (f j) := h1
      rw [h1']
      unfold achievedBy
      have hl2 := epLast_lt Trans.done c (k := f j) (by have := hfs j hj; omega)
      by_cases hig : h.base.opts.ignoreObsNext = true
      · rw [if_pos hig, List.getElem?_eq_getElem (by omega)]
        exact ⟨_, rfl, rfl⟩
      · rw [if_neg hig, List.getElem?_eq_getElem (by have := hfs j hj; omega)]
        have := hnext (by simpa using hig) (c[f j]'(by have := hfs j hj; omega)) (List.getElem_mem _)
        obtain ⟨o, ho⟩ := Option.ne_none_iff_exists'.mp this
        rw [Option.bind_some, ho]
        exact ⟨_, rfl, rfl⟩
    have hs_le : ⌊(eps.length : ℚ) * h.restore.futureP⌋.toNat ≤ eps.length := by
      have h1 : (eps.length : ℚ) * h.restore.futureP ≤ eps.length := by
        have h0 : (0 : ℚ) ≤ eps.length := by positivity
        have : h.restore.futureP ≤ 1 := hP
        nlinarith
      have := Int.floor_le_floor h1
      simp only [Int.floor_natCast] at this
      omega
    obtain ⟨hnd, hcard, hlt⟩ := hpick _ _ hs_le
    rw [← hher] at hnd hcard hlt
    let goalOf : Nat → Option G := fun e =>
      if hx : ∃ j, j < eps.length ∧ j ∈ her ∧ E j = e then
        achievedBy h.base.opts.ignoreObsNext c (f hx.choose) else none
    have hgoalOf : ∀ j, j < eps.length → j ∈ her → goalOf (E j) = achievedBy h.base.opts.ignoreObsNext c (f j) := by
      intro j hj hh
      have hx : ∃ j', j' < eps.length ∧ j' ∈ her ∧ E j' = E j := ⟨j, hj, hh, rfl⟩
      simp only [goalOf]
      rw [dif_pos hx]
      have := hEinj _ hx.choose_spec.1 j hj hx.choose_spec.2.2
      rw [this]
    have hgoalNone : ∀ j, j < eps.length → j ∉ her → goalOf (E j) = none := by
      intro j hj hh
      simp only [goalOf]
      rw [dif_neg]
      rintro ⟨j', hj', hh', he⟩
      rw [hEinj j' hj' j hj he] at hh'
      exact hh hh'
    refine ⟨goalOf, (Finset.range eps.length).image E, ?_, ?_, ?_, ?_⟩
    · intro e
      rw [Finset.mem_image]
      constructor
      · rintro ⟨j, hj, rfl⟩
        rw [Finset.mem_range] at hj
        exact ⟨k0 j, _, hallget _ (hksl _ (hk0 j hj)), hkmem _ (hk0 j hj), rfl⟩
      · rintro ⟨k, i, h1, h2, h3⟩
        obtain ⟨hk, rfl⟩ := hpos h1
        obtain ⟨j, hj, hje⟩ := hEcov k (hkmem' k hk h2)
        exact ⟨j, Finset.mem_range.mpr hj, hje.trans h3⟩
    · intro e goal hg
      have hx : ∃ j, j < eps.length ∧ j ∈ her ∧ E j = e := by
        by_contra hx
        simp only [goalOf] at hg
        rw [dif_neg hx] at hg
        cases hg
      obtain ⟨j, hj, hh, rfl⟩ := hx
      rw [hgoalOf j hj hh] at hg
      refine ⟨Finset.mem_image.mpr ⟨j, Finset.mem_range.mpr hj, rfl⟩, f j, hg, hfe j hj, ?_⟩
      intro k i h1 h2 h3
      obtain ⟨hk, rfl⟩ := hpos h1
      exact (hfk j hj k (hkmem' k hk h2) h3).2
    · have hinjOn : Set.InjOn E (Finset.range eps.length) := by
        intro a ha b hb hab
        simp only [Finset.coe_range, Set.mem_Iio] at ha hb
        exact hEinj a ha b hb hab
      rw [Finset.card_image_of_injOn hinjOn, Finset.card_range]
      have e1 : ((Finset.range eps.length).image E).filter (fun e => (goalOf e).isSome) = her.toFinset.image E := by
        ext e
        rw [Finset.mem_filter, Finset.mem_image, Finset.mem_image]
        constructor
        · rintro ⟨⟨j, hj, rfl⟩, h2⟩
          rw [Finset.mem_range] at hj
          by_cases hh : j ∈ her
          · exact ⟨j, List.mem_toFinset.mpr hh, rfl⟩
          · rw [hgoalNone j hj hh] at h2; cases h2
        · rintro ⟨j, hj, rfl⟩
          have hh := List.mem_toFinset.mp hj
          have hj' := hlt j hh
          refine ⟨⟨j, Finset.mem_range.mpr hj', rfl⟩, ?_⟩
          rw [hgoalOf j hj' hh]
          obtain ⟨goal, _, h2⟩ := hgoal j hj'
          rw [h2]; rfl
      rw [e1, Finset.card_image_of_injOn, List.toFinset_card_of_nodup hnd, hcard]
      · rfl
      · intro a ha b hb hab
        exact hEinj a (hlt a (by simpa using ha)) b (hlt b (by simpa using hb)) hab
    · intro p i hp
      obtain ⟨hp', rfl⟩ := hpos hp
      refine ⟨c[p], List.getElem?_eq_getElem (by omega), ?_⟩
      have hd := hdat p hp'
      rw [List.getElem?_eq_getElem (by omega)] at hd
      unfold HBuf.rewrite
      rw [if_neg hne]
      simp only
      rw [← heps, ← hher]
      -- cells at `p`
      have hcell : ∀ x ∈ h.restore.cells eps, x.1 = slot ins size p → ∃ j, j < eps.length ∧ x.2.1 = j ∧
          x.2.2 = slot ins size (f j) ∧ k0 j ≤ p ∧ E j = epLast Trans.done c p := by
        intro x hx hx1
        unfold HBuf.cells at hx
        rw [List.mem_flatMap] at hx
        obtain ⟨r, hr, hx⟩ := hx
        rw [List.mem_map] at hx
        obtain ⟨e, he, rfl⟩ := hx
        have hej := List.mem_zipIdx_iff_getElem?.mp he
        have hj : e.2 < eps.length := (List.getElem?_eq_some_iff.mp hej).1
        have hrj := hrowj e.2 hj
        rw [hej] at hrj
        simp only [Option.some.injEq] at hrj
        simp only at hx1
        rw [hrj] at hx1
        have hit := next_iter Hh (k0 e.2) r (hksl _ (hk0 e.2 hj))
        rw [hidx] at hit
        rw [hit] at hx1
        have hel := epLast_lt Trans.done c (hk0c e.2 hj)
        have hle := le_epLast Trans.done c (hk0c e.2 hj)
        have hpeq := slot_inj hil (by omega) hp' hx1
        refine ⟨e.2, hj, rfl, by rw [hrj], by omega, ?_⟩
        exact (epLast_step Trans.done c (hk0c e.2 hj) (by omega) (by omega)).symm
      split
      · rename_i hsam
        obtain ⟨k, hk, hkp, hke⟩ := (hsampled p).mp hsam
        obtain ⟨j, hj, hje⟩ := hEcov k hk
        have hjk := hfk j hj k hk hje.symm
        have hk0p : k0 j ≤ p := by omega
        have hEp : E j = epLast Trans.done c p := hje.trans hke
        -- the cell exists
        have hex : (slot ins size p, j, slot ins size (f j)) ∈ h.restore.cells eps := by
          unfold HBuf.cells
          rw [List.mem_flatMap]
          have hple : p ≤ epLast Trans.done c (k0 j) := by
            have := le_epLast Trans.done c (k := p) (by omega)
            simp only [hE] at hEp
            omega
          have hh := hhor (k0 j) _ (hallget _ (hksl _ (hk0 j hj))) (hkmem _ (hk0 j hj))
          refine ⟨p - k0 j, ?_, ?_⟩
          · rw [List.mem_range]
            show p - k0 j < h.horizon - 1 + 1
            omega
          · rw [List.mem_map]
            refine ⟨((slot ins size (k0 j), slot ins size (f j)), j), ?_, ?_⟩
            · rw [List.mem_zipIdx_iff_getElem?]; exact hrowj j hj
            · have hit := next_iter Hh (k0 j) (p - k0 j) (hksl _ (hk0 j hj))
              rw [hidx] at hit
              simp only
              have hit' : h.restore.base.next^[p - k0 j] (slot ins size (k0 j)) =
                slot ins size (min (k0 j + (p - k0 j)) (epLast Trans.done c (k0 j))) := hit
              rw [hit']
              congr 2
              omega
        have hval := scatter_const h.restore.base.data
          ((h.restore.cells eps).map fun x => (x.1, h.restore.newValue her x)) (slot ins size p)
          (h.restore.newValue her (slot ins size p, j, slot ins size (f j)))
          ⟨_, List.mem_map.mpr ⟨_, hex, rfl⟩, rfl⟩ (by
            intro q hq hq1
            rw [List.mem_map] at hq
            obtain ⟨x, hx, rfl⟩ := hq
            simp only at hq1 ⊢
            obtain ⟨j', hj', e1, e2, _, e3⟩ := hcell x hx hq1
            have hjj := hEinj j' hj' j hj (e3.trans hEp.symm)
            subst hjj
            have : x = (slot ins size p, j', slot ins size (f j')) := by
              obtain ⟨x1, x2, x3⟩ := x
              simp only at e1 e2 hq1
              rw [e1, e2, hq1]
            rw [this])
        rw [hval, ← hEp]
        unfold HBuf.newValue
        by_cases hh : j ∈ her
        · rw [hgoalOf j hj hh, if_pos hh]
          obtain ⟨goal, h1, h2⟩ := hgoal j hj
          rw [h1, h2]
          simp only
          rw [hd]
          exact ⟨_, rfl, rfl⟩
        · rw [hgoalNone j hj hh, if_neg hh]
          exact hd
      · rename_i hsam
        rw [hsampled] at hsam
        rw [scatter_not_mem]
        · exact hd
        · intro q hq hq1
          rw [List.mem_map] at hq
          obtain ⟨x, hx, rfl⟩ := hq
          obtain ⟨j, hj, _, _, h1, h2⟩ := hcell x hx hq1
          exact hsam ⟨k0 j, hk0 j hj, h1, h2⟩

theorem ratio_bound (n a : Nat) (k : ℚ) (hk : 1 ≤ k) (ha : a = ⌊(n : ℚ) * (1 - 1 / k)⌋.toNat) :
    (a : ℚ) ≤ (k - 1) * (n - a) := by
  have hk0 : 0 < k := by linarith
  have h1 : (0 : ℚ) ≤ 1 - 1 / k := by
    rw [sub_nonneg, div_le_one hk0]; exact hk
  have h2 : (a : ℚ) ≤ (n : ℚ) * (1 - 1 / k) := by
    have h0 : 0 ≤ (n : ℚ) * (1 - 1 / k) := by positivity
    have hf := Int.floor_le ((n : ℚ) * (1 - 1 / k))
    have hn : 0 ≤ ⌊(n : ℚ) * (1 - 1 / k)⌋ := Int.floor_nonneg.mpr h0
    have : ((a : Int) : ℚ) = ((⌊(n : ℚ) * (1 - 1 / k)⌋ : Int) : ℚ) := by
      rw [ha]; congr 1; exact Int.toNat_of_nonneg hn
    have hc : ((a : Int) : ℚ) = (a : ℚ) := by simp
    linarith
  have h3 : (n : ℚ) * (1 - 1 / k) * k = n * (k - 1) := by field_simp
  nlinarith

/-- **C72** with `future_k = k ≥ 1`, at most `k - 1` episodes are relabelled per sampled episode left unaltered. -/
theorem C72_ratio {h h' : HBuf P G A R} {g : Ghost (GObs P G) A R} (H : HHistory K h g)
    {rng : Nat → Nat} {u : Nat → ℚ} {pick : Nat → Nat → List Nat} {bs : Option Int} {l : List Nat}
    (hs : h.sampleIndices rng u pick bs = .ok (h', l)) (hu : ∀ k, 0 ≤ u k ∧ u k < 1)
    (hpick : ∀ n s, s ≤ n → (pick n s).Nodup ∧ (pick n s).length = s ∧ ∀ x ∈ pick n s, x < n)
    (c : List (Trans (GObs P G) A R)) (hc : c = lastN h.base.idx.maxsize g.received)
    (hnext : h.base.opts.ignoreObsNext = false → ∀ t ∈ c, t.obsNext ≠ none)
    (hK : 1 ≤ K)
    (hhor : ∀ (k i : Nat), h.base.idx.allIndices[k]? = some i → i ∈ l → epLast Trans.done c k - k < h.horizon) :
    ∃ altered sampled : Finset Nat, altered ⊆ sampled ∧
      (∀ E, E ∈ sampled ↔ ∃ (k i : Nat), h.base.idx.allIndices[k]? = some i ∧ i ∈ l ∧ epLast Trans.done c k = E) ∧
      (∀ (p i : Nat), h.base.idx.allIndices[p]? = some i → epLast Trans.done c p ∉ altered →
        h'.base.data i = c[p]?) ∧
      (altered.card : ℚ) ≤ (K - 1) * (sampled.card - altered.card) := by
  have hk0 : 0 < K := by linarith
  have hP := H.futureP
  obtain ⟨goalOf, sampled, h1, h2, h3, h4⟩ := C32_relabelling H hs hu hpick c hc hnext (by
    rw [hP]
    have : 0 < 1 / K := by positivity
    linarith) hhor
  refine ⟨sampled.filter fun E => (goalOf E).isSome, sampled, Finset.filter_subset _ _, h1, ?_, ?_⟩
  · intro p i hp hn
    obtain ⟨t, ht, h5⟩ := h4 p i hp
    rw [ht]
    split at h5
    · cases hg : goalOf (epLast Trans.done c p) with
      | none => rw [hg] at h5; exact h5
      | some goal =>
        exfalso
        apply hn
        rw [Finset.mem_filter]
        exact ⟨(h2 _ _ hg).1, by rw [hg]; rfl⟩
    · exact h5
  · rw [hP] at h3
    exact ratio_bound _ _ K hK h3

/-! ### C73, C74 -/

/-- A transition of a goal environment over numbers. -/
def gtr (ach des : Nat) (done : Bool) : Trans (GObs Nat Nat) Nat Int :=
  { obs := ⟨0, ach, des⟩, act := 0, rew := 0, terminated := done, truncated := false
    obsNext := some ⟨1, ach + 1, des⟩ }

/-- `add` as a total operation (it never fails, `HHistory.addOne`). -/
def HBuf.addOne (h : HBuf P G A R) (t : Trans (GObs P G) A R) : HBuf P G A R :=
  match h.add t with
  | .ok p => p.1
  | .error _ => h

theorem HHistory.addOne {h : HBuf P G A R} {g : Ghost (GObs P G) A R} (H : HHistory K h g)
    (t : Trans (GObs P G) A R) :
    ∃ g', HHistory K (h.addOne t) g' ∧ g'.received = g.received ++ [expectedRow h.base.opts t] := by
  obtain ⟨b, r, e⟩ := H.restored.1.inv.add_ok t
  have e' : h.add t = .ok ({ h.restore with base := b }, r) := by unfold HBuf.add; simp only; rw [e]
  refine ⟨⟨g.received ++ [expectedRow h.base.opts t],
    if t.terminated || t.truncated then [] else g.openEp ++ [t],
    if t.terminated || t.truncated then g.received.length + 1 else g.startPos⟩, ?_, rfl⟩
  unfold HBuf.addOne
  rw [e']
  exact H.add e'

/-- Two episodes of two steps and one step in a buffer of size 3; sparse reward; `future_k = 2`. -/
def exHer (ignore : Bool) : HBuf Nat Nat Nat Int :=
  (((HBuf.new 3 (fun a d => if a = d then 1 else 0) 3 2 { ignoreObsNext := ignore }).addOne
    (gtr 10 90 false)).addOne (gtr 11 90 true)).addOne (gtr 20 90 true)

/-- `pick`: the last `s` of the episodes `0, …, n - 1`. -/
def exPick (n s : Nat) : List Nat := (List.range n).reverse.take s

/-- Sample everything, relabelling the last episode. -/
def exHerSampled (ignore : Bool) : Except Err (HBuf Nat Nat Nat Int × List Nat) :=
  (exHer ignore).sampleIndices (fun _ => 0) (fun _ => 0) exPick (some 0)

theorem exHer_history (ignore : Bool) : ∃ g, HHistory 2 (exHer ignore) g ∧
    g.received = [gtr 10 90 false, gtr 11 90 true, gtr 20 90 true].map
      (expectedRow { ignoreObsNext := ignore }) := by
  have H0 := HHistory.new (K := 2) (R := Int) (A := Nat) (P := Nat) (G := Nat) 3 (by norm_num)
    (fun a d => if a = d then 1 else 0) 3 { ignoreObsNext := ignore } rfl
  obtain ⟨g1, H1, e1⟩ := H0.addOne (gtr 10 90 false)
  obtain ⟨g2, H2, e2⟩ := H1.addOne (gtr 11 90 true)
  obtain ⟨g3, H3, e3⟩ := H2.addOne (gtr 20 90 true)
  refine ⟨g3, H3, ?_⟩
  rw [e3, e2, e1]
  cases ignore <;> rfl

/-- What can be seen of a sampling result. -/
def herView (r : Except Err (HBuf Nat Nat Nat Int × List Nat)) :
    Option (List Nat × List (Option (Nat × Nat × Int))) :=
  r.toOption.map fun p => (p.2, (List.range 3).map fun i =>
    (p.1.base.data i).map fun t => (t.obs.achieved, t.obs.desired, t.rew))

/-- Non-vacuity of C32/C72: with `obs_next` stored, the last of the two episodes gets the goal 21 it achieved
and its reward is recomputed. -/
example : herView (exHerSampled false) = some ([0, 1, 2], [some (10, 90, 0), some (11, 90, 0), some (20, 21, 1)]) := by
  decide +kernel

/-- The hypotheses of C32 and C72 (future_k = 2) hold for it. -/
example : ∃ (h h' : HBuf Nat Nat Nat Int) (g : Ghost (GObs Nat Nat) Nat Int) (l : List Nat)
    (u : Nat → ℚ), HHistory 2 h g ∧ h.sampleIndices (fun _ => 0) u exPick (some 0) = .ok (h', l) ∧
    (∀ k, 0 ≤ u k ∧ u k < 1) ∧
    (∀ n s, s ≤ n → (exPick n s).Nodup ∧ (exPick n s).length = s ∧ ∀ x ∈ exPick n s, x < n) ∧
    h.base.opts.ignoreObsNext = false ∧ (∀ t ∈ lastN h.base.idx.maxsize g.received, t.obsNext ≠ none) ∧
    (∀ (k i : Nat), h.base.idx.allIndices[k]? = some i → i ∈ l →
      epLast Trans.done (lastN h.base.idx.maxsize g.received) k - k < h.horizon) := by
  obtain ⟨g, H, hg⟩ := exHer_history false
  cases e : exHerSampled false with
  | error e' =>
    have : (exHerSampled false).toOption.isSome = true := by decide +kernel
    rw [e] at this; cases this
  | ok p =>
    refine ⟨exHer false, p.1, g, p.2, _, H, e, fun _ => by norm_num, ?_, rfl, ?_, ?_⟩
    · intro n s hs
      refine ⟨(List.nodup_reverse.mpr List.nodup_range).sublist (List.take_sublist _ _), ?_, ?_⟩
      · simp [exPick, hs]
      · intro x hx
        have := List.mem_of_mem_take hx
        simpa using this
    · rw [hg]
      decide +kernel
    · intro k i hk _
      have hk3 : k < 3 := by
        have h1 := (List.getElem?_eq_some_iff.mp hk).1
        have h2 : (exHer false).base.idx.allIndices.length = 3 := by decide +kernel
        omega
      rw [hg]
      have : ∀ k < 3, epLast Trans.done (lastN (exHer false).base.idx.maxsize
        (List.map (expectedRow { ignoreObsNext := false }) [gtr 10 90 false, gtr 11 90 true, gtr 20 90 true])) k - k
          < (exHer false).horizon := by decide +kernel
      exact this k hk3

/-- **C73** (with `obs_next` stored; `ignore_obs_next = True` is missing, see `C73_violated`) every transition
changed by a sampling has as its reward the value of the reward function at the goal achieved by the transition
and its new desired goal. -/
theorem C73_stored_partial {h h' : HBuf P G A R} {g : Ghost (GObs P G) A R} (H : HHistory K h g)
    {rng : Nat → Nat} {u : Nat → ℚ} {pick : Nat → Nat → List Nat} {bs : Option Int} {l : List Nat}
    (hs : h.sampleIndices rng u pick bs = .ok (h', l)) (hu : ∀ k, 0 ≤ u k ∧ u k < 1)
    (c : List (Trans (GObs P G) A R)) (hc : c = lastN h.base.idx.maxsize g.received)
    (hhor : ∀ (k i : Nat), h.base.idx.allIndices[k]? = some i → i ∈ l → epLast Trans.done c k - k < h.horizon)
    (hstored : h.base.opts.ignoreObsNext = false)
    (p i : Nat) (hp : h.base.idx.allIndices[p]? = some i) (hne : h'.base.data i ≠ c[p]?)
    (a : G) (ha : achievedBy false c p = some a) :
    ∃ t', h'.base.data i = some t' ∧ t'.rew = h.computeReward a t'.obs.desired := by
  obtain ⟨t, ht, h1⟩ := C32_future_goal H hs hu c hc hhor p i hp
  rw [ht] at hne
  rcases h1 with h1 | ⟨t', goal, j, h1, h2, -, -, -, -, h3⟩
  · exact absurd h1 hne
  · refine ⟨t', h1, ?_⟩
    simp only [achievedBy, ht, Bool.false_eq_true, if_false, Option.bind_some] at ha
    cases ho : t.obsNext with
    | none => rw [ho] at ha; cases ha
    | some o =>
      rw [ho] at ha
      cases ha
      rw [h3 hstored o ho, h2]

/-- **C73** fails with `ignore_obs_next = True`: the episode consisting of the single transition in slot 2 is
relabelled with the goal it achieved, yet its reward is that of the goal not being reached. -/
theorem C73_violated : ∃ (h h' : HBuf Nat Nat Nat Int) (g : Ghost (GObs Nat Nat) Nat Int)
    (u : Nat → ℚ) (l : List Nat) (t' : Trans (GObs Nat Nat) Nat Int) (a : Nat),
    HHistory 2 h g ∧ h.sampleIndices (fun _ => 0) u exPick (some 0) = .ok (h', l) ∧ (∀ k, 0 ≤ u k ∧ u k < 1) ∧
    h.base.idx.allIndices[2]? = some 2 ∧ h'.base.data 2 = some t' ∧
    h'.base.data 2 ≠ (lastN h.base.idx.maxsize g.received)[2]? ∧
    achievedBy true (lastN h.base.idx.maxsize g.received) 2 = some a ∧
    t'.obs.desired = a ∧ h.computeReward a t'.obs.desired = 1 ∧ t'.rew = 0 := by
  obtain ⟨g, H, hg⟩ := exHer_history true
  cases e : exHerSampled true with
  | error e' =>
    have : (exHerSampled true).toOption.isSome = true := by decide +kernel
    rw [e] at this; cases this
  | ok p =>
    have h1 : ((exHerSampled true).toOption.bind fun p => p.1.base.data 2) =
      some ⟨⟨0, 20, 20⟩, 0, 0, true, false, none⟩ := by decide +kernel
    rw [e] at h1
    replace h1 : p.1.base.data 2 = _ := h1
    refine ⟨exHer true, p.1, g, _, p.2, _, 20, H, e, fun _ => by norm_num, by decide +kernel, h1, ?_, ?_, ?_⟩
    · rw [h1, hg]; decide +kernel
    · rw [hg]; decide +kernel
    · decide +kernel

/-- **C74** (if the source has not been sampled since its last write; missing: a source that is currently
relabelled, see `C74_violated`) `update` from another hindsight buffer appends the transitions passed to it. -/
theorem C74_unsampled_partial {h src : HBuf P G A R} {g gs : Ghost (GObs P G) A R} (H : HHistory K h g)
    {K' : ℚ} (S : HHistory K' src gs) (hs : src.saved = []) :
    HHistory K (h.updateHer src).1 ⟨g.received ++ lastN src.base.idx.maxsize gs.received, g.openEp, g.startPos⟩ := by
  have := S.restored.1
  rw [restore_of_saved_nil _ hs] at this
  exact H.update this

/-- **C74** fails: a buffer that has just been sampled hands its relabelled transitions over, and the target
keeps them for good (its own restoring does not undo the change). -/
theorem C74_violated : ∃ (src src' : HBuf Nat Nat Nat Int) (gs : Ghost (GObs Nat Nat) Nat Int)
    (u : Nat → ℚ) (l : List Nat),
    HHistory 2 src gs ∧ src.sampleIndices (fun _ => 0) u exPick (some 0) = .ok (src', l) ∧ (∀ k, 0 ≤ u k ∧ u k < 1) ∧
    let h := HBuf.new 3 src.computeReward src.horizon 2 src.base.opts
    (h.updateHer src).1.base.idx.allIndices.map (h.updateHer src).1.base.data = gs.received.map some ∧
    (h.updateHer src').1.restore.base.idx.allIndices.map (h.updateHer src').1.restore.base.data ≠
      gs.received.map some := by
  obtain ⟨g, H, hg⟩ := exHer_history false
  cases e : exHerSampled false with
  | error e' =>
    have : (exHerSampled false).toOption.isSome = true := by decide +kernel
    rw [e] at this; cases this
  | ok p =>
    refine ⟨exHer false, p.1, g, _, p.2, H, e, fun _ => by norm_num, ?_⟩
    have h1 : ((exHerSampled false).toOption.map fun p =>
        let h := HBuf.new 3 (exHer false).computeReward (exHer false).horizon 2 (exHer false).base.opts
        (h.updateHer p.1).1.restore.base.idx.allIndices.map (h.updateHer p.1).1.restore.base.data) ≠
        some (([gtr 10 90 false, gtr 11 90 true, gtr 20 90 true].map
      (expectedRow { ignoreObsNext := false })).map some) := by decide +kernel
    rw [e] at h1
    simp only [hg]
    refine ⟨by decide +kernel, fun hh => h1 ?_⟩
    exact congrArg some hh

end Verif.Buffer
