import Verif.Lemmas.ReturnsBuffer

/-!
Properties C33-C37: advantage estimation and returns.

For each of C33-C35 there are two versions for whole buffers (`_buffer`: a plain replay buffer, `_vector`: a
vector replay buffer, all stored transitions, in the order of `sample_indices(0)`) and one for a batch given by
its entries (any rows, any order). `History b g`: `b` is reached by any sequence of additions and resets;
`Reach m sep`: likewise for a vector buffer `m` whose sub-buffers are `sep`. `stored` is the content, oldest
first; `epLast done c k` is the last stored step of the episode of step `k`.
-/

set_option linter.unusedSectionVars false

namespace Verif.Returns

open Verif.Spec Verif.Buffer

variable {O A R : Type} [CommRing R]

/-! ### Whole buffers as blocks -/

theorem bufBlock_shows {b : Buf O A R} {g : Ghost O A R} (h : History b g) :
    ∀ B ∈ ([(b.idx.allIndices, stored b)] : Blocks O A R), Shows (ofBuf b) B.1 B.2 := by
  intro B hB
  rw [List.mem_singleton] at hB
  subst hB
  simp only
  rw [stored_eq h]
  exact shows_buf h

theorem bufBlock_rows {b : Buf O A R} {g : Ghost O A R} (h : History b g) :
    rowsAt b.data b.idx.allIndices = Blocks.rows [(b.idx.allIndices, stored b)] := by
  have := rowsAt_block h b.data 0 (fun i _ => rfl)
  simpa [Blocks.rows] using this

theorem bufBlock_slots (b : Buf O A R) : Blocks.slots [(b.idx.allIndices, stored b)] = b.idx.allIndices := by
  simp [Blocks.slots]

theorem mgrBlocks_start (sep : List (Buf O A R)) (b : Nat) : (mgrBlocks sep).start b = offset sep b := by
  unfold Blocks.start offset mgrBlocks
  rw [List.map_map]
  congr 2
  apply List.ext_getElem?
  intro k
  simp only [List.getElem?_map, List.getElem?_zipIdx]
  cases sep[k]? <;> rfl

theorem mgrBlocks_get {sep : List (Buf O A R)} {b : Nat} {cb : Buf O A R} (hb : sep[b]? = some cb) :
    (mgrBlocks sep)[b]? = some (cb.idx.allIndices.map (· + startOf sep b), stored cb) := by
  unfold mgrBlocks
  rw [List.getElem?_map, List.getElem?_zipIdx, hb]
  simp

theorem mgrBlocks_slots {m : Mgr O A R} {sep : List (Buf O A R)} (hr : Reach m sep)
    (hm : m.opts.stackNum = 1 ∨ m.opts.sampleAvail = false) {draw : Nat → Nat} {rng : Nat → Nat → Nat}
    {indices : List Nat} (hi : m.sampleIndices draw rng (some 0) = .ok indices) : (mgrBlocks sep).slots = indices := by
  rw [C23_order hr hm draw rng] at hi
  cases hi
  unfold Blocks.slots mgrBlocks
  rw [List.map_map]
  rfl

/-! ### C33 -/

/-- C33 for a batch given by its entries. `slotOf k` is the buffer index of row `k`; the last step `T` of the
segment of `t` is the first row at or after `t` that is done or the newest step of an unfinished episode, or the
last row of the batch. -/
theorem C33_gae (w : View R) (n : Nat) (rew v v' : Nat → R) (term trunc : Nat → Bool) (slotOf : Nat → Nat)
    (gamma lam : R) (isClose : Bool) :
    ∃ ret adv, computeEpisodicReturn w (rows n rew term trunc) ((List.range n).map slotOf)
        (some ((List.range n).map v')) (some ((List.range n).map v)) gamma lam isClose = some (ret, adv) ∧
      adv.length = n ∧ ret.length = n ∧
      ∀ t, t < n →
        adv[t]? = some (∑ l ∈ Finset.range (epLast id (endsAt w n term trunc slotOf) t - t + 1), (gamma * lam) ^ l *
          (rew (t + l) + gamma * (if w.terminated (slotOf (t + l)) then 0 else v' (t + l)) - v (t + l))) := by
  obtain ⟨ret, adv, h1, h2, h3, h4⟩ := compute_eq w n rew term trunc slotOf gamma lam (some v') (some v) isClose
    (Or.inl rfl)
  exact ⟨ret, adv, h1, h2, h3, fun t ht => (h4 t ht).1⟩

/-- C33 for all transitions of a replay buffer: the advantage of the `k`-th oldest is the GAE sum over the rest
of its episode. -/
theorem C33_buffer {b : Buf O A R} {g : Ghost O A R} (h : History b g) (v v' : Nat → R) (gamma lam : R)
    (isClose : Bool) :
    ∃ ret adv, computeEpisodicReturn (ofBuf b) (rowsAt b.data b.idx.allIndices) b.idx.allIndices
        (some ((List.range b.idx.allIndices.length).map v')) (some ((List.range b.idx.allIndices.length).map v))
        gamma lam isClose = some (ret, adv) ∧ adv.length = b.idx.allIndices.length ∧
      ∀ k, k < (stored b).length → adv[k]? = some (gaeSum (stored b) gamma lam v v' k) := by
  obtain ⟨ret, adv, h1, h2, -, h4⟩ := gae_blocks _ (fun B hB => (bufBlock_shows h B hB).toShown) v v' gamma lam isClose
  rw [← bufBlock_rows h, bufBlock_slots] at h1
  rw [bufBlock_slots] at h2
  refine ⟨ret, adv, h1, h2, ?_⟩
  intro k hk
  have := (h4 0 _ k rfl hk).1
  simpa [Blocks.start] using this

/-- C33 for all transitions of a vector buffer: no term of another sub-buffer enters. -/
theorem C33_vector {m : Mgr O A R} {sep : List (Buf O A R)} (hr : Reach m sep)
    (hm : m.opts.stackNum = 1 ∨ m.opts.sampleAvail = false) {draw : Nat → Nat} {rng : Nat → Nat → Nat}
    {indices : List Nat} (hi : m.sampleIndices draw rng (some 0) = .ok indices) (v v' : Nat → R) (gamma lam : R)
    (isClose : Bool) :
    ∃ ret adv, computeEpisodicReturn (ofMgr m) (rowsAt m.data indices) indices
        (some ((List.range indices.length).map v')) (some ((List.range indices.length).map v)) gamma lam isClose =
          some (ret, adv) ∧ adv.length = indices.length ∧
      ∀ (b : Nat) (cb : Buf O A R) (k : Nat), sep[b]? = some cb → k < (stored cb).length →
        adv[offset sep b + k]? = some (gaeSum (stored cb) gamma lam (fun j => v (offset sep b + j))
          (fun j => v' (offset sep b + j)) k) := by
  obtain ⟨ret, adv, h1, h2, -, h4⟩ := gae_blocks _ (fun B hB => (mgrBlocks_shows hr B hB).toShown) v v' gamma lam isClose
  rw [← mgrBlocks_rows hr, mgrBlocks_slots hr hm hi] at h1
  rw [mgrBlocks_slots hr hm hi] at h2
  refine ⟨ret, adv, h1, h2, ?_⟩
  intro b cb k hb hk
  have := (h4 b _ k (mgrBlocks_get hb) hk).1
  rw [mgrBlocks_start] at this
  exact this

/-- `exBuf` is full and wrapped around: slots 1, 2, 3, 0 from old to new, the first episode ends in slot 1
(terminated), the second is unfinished. The advantages (gamma 2, lambda 1) of the second episode bootstrap from
the value after slot 0, the first one from nothing. -/
example : ((computeEpisodicReturn (ofBuf exBuf) (rowsAt exBuf.data exBuf.idx.allIndices) exBuf.idx.allIndices
    (some [100, 200, 300, 400]) (some [1, 2, 3, 4]) 2 1 false).map fun p => (p.1, p.2)) =
      some ([11, 4928, 2257, 822], [10, 4926, 2254, 818]) := by decide +kernel

/-! ### C34 -/

/-- C34 for a batch given by its entries (rows read from the buffer, so that a row the buffer calls terminated
ends its episode): at the last row of a segment the return is the bootstrapped reward, before it the TD(lambda)
recursion holds if the next-state value is the following row's value. -/
theorem C34_gae (w : View R) (n : Nat) (rew v v' : Nat → R) (term trunc : Nat → Bool) (slotOf : Nat → Nat)
    (gamma lam : R) (isClose : Bool) (hterm : ∀ k, k < n → w.terminated (slotOf k) = true → term k = true) :
    ∃ ret adv, computeEpisodicReturn w (rows n rew term trunc) ((List.range n).map slotOf)
        (some ((List.range n).map v')) (some ((List.range n).map v)) gamma lam isClose = some (ret, adv) ∧
      ∀ t, t < n →
        (∃ a, adv[t]? = some a ∧ ret[t]? = some (a + v t)) ∧
        ((t + 1 = n ∨ (endsAt w n term trunc slotOf)[t]? = some true) →
          ret[t]? = some (rew t + gamma * (if w.terminated (slotOf t) then 0 else v' t))) ∧
        ((t + 1 < n ∧ (endsAt w n term trunc slotOf)[t]? = some false) → v' t = v (t + 1) →
          ∃ G, ret[t + 1]? = some G ∧ ret[t]? = some (rew t + gamma * ((1 - lam) * v (t + 1) + lam * G))) := by
  obtain ⟨ret, adv, h1, h2, h3, h4⟩ := compute_eq w n rew term trunc slotOf gamma lam (some v') (some v) isClose
    (Or.inl rfl)
  refine ⟨ret, adv, h1, ?_⟩
  have hlen : (endsAt w n term trunc slotOf).length = n := by simp [endsAt]
  intro t ht
  refine ⟨⟨_, h4 t ht⟩, ?_, ?_⟩
  · intro he
    have hl : epLast id (endsAt w n term trunc slotOf) t = t := by
      apply epLast_stop id _ (by omega)
      rcases he with he | he
      · left; omega
      · right; simp [continues, he]
    have := (h4 t ht).2
    beta_reduce at this
    rw [hl, Nat.sub_self, Nat.zero_add, Finset.sum_range_one] at this
    rw [this]
    simp only [nextV, curV]
    congr 1; ring_nf
  · rintro ⟨ht1, he⟩ hv
    refine ⟨_, (h4 (t + 1) ht1).2, ?_⟩
    have hcont : continues id (endsAt w n term trunc slotOf) (t + 1) = true := by simp [continues, he]
    have hs := epLast_succ id (endsAt w n term trunc slotOf) (by omega) hcont
    have hle := le_epLast id (endsAt w n term trunc slotOf) (k := t + 1) (by omega)
    have hnt : w.terminated (slotOf t) = false := by
      have h5 : ((term t || trunc t) || w.unfinished.contains (slotOf t)) = false := by
        simpa [endsAt, ht] using he
      cases h6 : w.terminated (slotOf t) with
      | false => rfl
      | true => rw [hterm t ht h6] at h5; simp at h5
    have := (h4 t ht).2
    beta_reduce at this
    rw [this, show epLast id (endsAt w n term trunc slotOf) t - t + 1 =
      (epLast id (endsAt w n term trunc slotOf) (t + 1) - (t + 1) + 1) + 1 by omega, Finset.sum_range_succ']
    have hsum : (∑ l ∈ Finset.range (epLast id (endsAt w n term trunc slotOf) (t + 1) - (t + 1) + 1),
        (gamma * lam) ^ (l + 1) * (rew (t + (l + 1)) + gamma * nextV w slotOf (some v') (t + (l + 1)) -
          curV n (nextV w slotOf (some v')) (some v) (t + (l + 1)))) =
        gamma * lam * ∑ l ∈ Finset.range (epLast id (endsAt w n term trunc slotOf) (t + 1) - (t + 1) + 1),
        (gamma * lam) ^ l * (rew (t + 1 + l) + gamma * nextV w slotOf (some v') (t + 1 + l) -
          curV n (nextV w slotOf (some v')) (some v) (t + 1 + l)) := by
      rw [Finset.mul_sum]
      apply Finset.sum_congr rfl
      intro l _
      rw [show t + (l + 1) = t + 1 + l by omega]
      ring
    rw [hsum]
    simp only [Nat.add_zero, pow_zero, one_mul, nextV, curV, hnt, Bool.false_eq_true, if_false, hv]
    congr 1; ring

/-- C34 for a replay buffer: returns are advantages plus values; at the last stored step of an episode the return
is the bootstrapped reward; before it, if the next-state values agree with the following state's value inside
episodes, the returns satisfy the TD(lambda) recursion. -/
theorem C34_buffer {b : Buf O A R} {g : Ghost O A R} (h : History b g) (v v' : Nat → R) (gamma lam : R)
    (isClose : Bool) :
    ∃ ret adv, computeEpisodicReturn (ofBuf b) (rowsAt b.data b.idx.allIndices) b.idx.allIndices
        (some ((List.range b.idx.allIndices.length).map v')) (some ((List.range b.idx.allIndices.length).map v))
        gamma lam isClose = some (ret, adv) ∧
      ∀ k, k < (stored b).length →
        (∃ a, adv[k]? = some a ∧ ret[k]? = some (a + v k)) ∧
        (epLast Trans.done (stored b) k = k →
          ret[k]? = some (rewOf (stored b) k + gamma * bootstrap (stored b) k (v' k))) ∧
        (epLast Trans.done (stored b) k ≠ k → v' k = v (k + 1) →
          ∃ G, ret[k + 1]? = some G ∧
            ret[k]? = some (rewOf (stored b) k + gamma * ((1 - lam) * v (k + 1) + lam * G))) := by
  obtain ⟨ret, adv, h1, h2, -, h4⟩ := gae_blocks _ (fun B hB => (bufBlock_shows h B hB).toShown) v v' gamma lam isClose
  rw [← bufBlock_rows h, bufBlock_slots] at h1
  refine ⟨ret, adv, h1, ?_⟩
  have h5 : ∀ k, k < (stored b).length → adv[k]? = some (gaeSum (stored b) gamma lam v v' k) ∧
      ret[k]? = some (gaeSum (stored b) gamma lam v v' k + v k) := by
    intro k hk
    have := h4 0 _ k rfl hk
    simpa [Blocks.start] using this
  intro k hk
  refine ⟨⟨_, h5 k hk⟩, ?_, ?_⟩
  · intro he
    rw [(h5 k hk).2, gaeSum_last _ _ _ _ _ k he]
    congr 1; ring
  · intro he hv
    have hlt := epLast_lt Trans.done (stored b) hk
    have hle := le_epLast Trans.done (stored b) hk
    refine ⟨_, (h5 (k + 1) (by omega)).2, ?_⟩
    rw [(h5 k hk).2, gaeSum_succ _ _ _ _ _ k hk he, hv]
    congr 1; ring

/-- C34 for a vector buffer. -/
theorem C34_vector {m : Mgr O A R} {sep : List (Buf O A R)} (hr : Reach m sep)
    (hm : m.opts.stackNum = 1 ∨ m.opts.sampleAvail = false) {draw : Nat → Nat} {rng : Nat → Nat → Nat}
    {indices : List Nat} (hi : m.sampleIndices draw rng (some 0) = .ok indices) (v v' : Nat → R) (gamma lam : R)
    (isClose : Bool) :
    ∃ ret adv, computeEpisodicReturn (ofMgr m) (rowsAt m.data indices) indices
        (some ((List.range indices.length).map v')) (some ((List.range indices.length).map v)) gamma lam isClose =
          some (ret, adv) ∧
      ∀ (b : Nat) (cb : Buf O A R) (k : Nat), sep[b]? = some cb → k < (stored cb).length →
        (∃ a, adv[offset sep b + k]? = some a ∧ ret[offset sep b + k]? = some (a + v (offset sep b + k))) ∧
        (epLast Trans.done (stored cb) k = k →
          ret[offset sep b + k]? =
            some (rewOf (stored cb) k + gamma * bootstrap (stored cb) k (v' (offset sep b + k)))) ∧
        (epLast Trans.done (stored cb) k ≠ k → v' (offset sep b + k) = v (offset sep b + k + 1) →
          ∃ G, ret[offset sep b + k + 1]? = some G ∧
            ret[offset sep b + k]? =
              some (rewOf (stored cb) k + gamma * ((1 - lam) * v (offset sep b + k + 1) + lam * G))) := by
  obtain ⟨ret, adv, h1, h2, -, h4⟩ := gae_blocks _ (fun B hB => (mgrBlocks_shows hr B hB).toShown) v v' gamma lam isClose
  rw [← mgrBlocks_rows hr, mgrBlocks_slots hr hm hi] at h1
  refine ⟨ret, adv, h1, ?_⟩
  intro b cb k hb hk
  have h5 : ∀ k, k < (stored cb).length → _ := fun k hk => h4 b _ k (mgrBlocks_get hb) hk
  simp only [mgrBlocks_start] at h5
  refine ⟨⟨_, h5 k hk⟩, ?_, ?_⟩
  · intro he
    rw [(h5 k hk).2, gaeSum_last _ _ _ _ _ k he]
    congr 1; ring
  · intro he hv
    have hlt := epLast_lt Trans.done (stored cb) hk
    have hle := le_epLast Trans.done (stored cb) hk
    refine ⟨_, (h5 (k + 1) (by omega)).2, ?_⟩
    rw [(h5 k hk).2, gaeSum_succ _ _ _ _ _ k hk he, hv]
    congr 1; ring_nf

/-! ### C35 -/

/-- C35 for a replay buffer (policy-gradient use: `v_s` not given, lambda 1): without next-state values the
return is the Monte-Carlo sum; with them the value of the state after the last stored step of the episode is
added, discounted, unless that step terminated. -/
theorem C35_buffer {b : Buf O A R} {g : Ghost O A R} (h : History b g) (v' : Nat → R) (gamma : R) :
    (∃ ret adv, computeEpisodicReturn (ofBuf b) (rowsAt b.data b.idx.allIndices) b.idx.allIndices none none
        gamma 1 true = some (ret, adv) ∧ ret.length = b.idx.allIndices.length ∧
      ∀ k, k < (stored b).length → ret[k]? = some (mcSum (stored b) gamma k)) ∧
    (∃ ret adv, computeEpisodicReturn (ofBuf b) (rowsAt b.data b.idx.allIndices) b.idx.allIndices
        (some ((List.range b.idx.allIndices.length).map v')) none gamma 1 true = some (ret, adv) ∧
      ret.length = b.idx.allIndices.length ∧
      ∀ k, k < (stored b).length → ret[k]? = some (mcSum (stored b) gamma k +
        gamma ^ (epLast Trans.done (stored b) k - k + 1) *
          bootstrap (stored b) (epLast Trans.done (stored b) k) (v' (epLast Trans.done (stored b) k)))) := by
  constructor
  · obtain ⟨ret, adv, h1, h2, h4⟩ := mc_blocks _ (fun B hB => (bufBlock_shows h B hB).toShown) none gamma
    rw [← bufBlock_rows h, bufBlock_slots] at h1
    rw [bufBlock_slots] at h2
    refine ⟨ret, adv, h1, h2, ?_⟩
    intro k hk
    have := h4 0 _ k rfl hk
    simpa [Blocks.start, blockNext, mcSum] using this
  · obtain ⟨ret, adv, h1, h2, h4⟩ := mc_blocks _ (fun B hB => (bufBlock_shows h B hB).toShown) (some v') gamma
    rw [← bufBlock_rows h, bufBlock_slots] at h1
    rw [bufBlock_slots] at h2
    refine ⟨ret, adv, h1, h2, ?_⟩
    intro k hk
    have := h4 0 _ k rfl hk
    simpa [Blocks.start, blockNext, mcSum] using this

/-- C35 for a vector buffer. -/
theorem C35_vector {m : Mgr O A R} {sep : List (Buf O A R)} (hr : Reach m sep)
    (hm : m.opts.stackNum = 1 ∨ m.opts.sampleAvail = false) {draw : Nat → Nat} {rng : Nat → Nat → Nat}
    {indices : List Nat} (hi : m.sampleIndices draw rng (some 0) = .ok indices) (v' : Nat → R) (gamma : R) :
    (∃ ret adv, computeEpisodicReturn (ofMgr m) (rowsAt m.data indices) indices none none gamma 1 true =
        some (ret, adv) ∧ ret.length = indices.length ∧
      ∀ (b : Nat) (cb : Buf O A R) (k : Nat), sep[b]? = some cb → k < (stored cb).length →
        ret[offset sep b + k]? = some (mcSum (stored cb) gamma k)) ∧
    (∃ ret adv, computeEpisodicReturn (ofMgr m) (rowsAt m.data indices) indices
        (some ((List.range indices.length).map v')) none gamma 1 true = some (ret, adv) ∧
      ret.length = indices.length ∧
      ∀ (b : Nat) (cb : Buf O A R) (k : Nat), sep[b]? = some cb → k < (stored cb).length →
        ret[offset sep b + k]? = some (mcSum (stored cb) gamma k +
          gamma ^ (epLast Trans.done (stored cb) k - k + 1) *
            bootstrap (stored cb) (epLast Trans.done (stored cb) k)
              (v' (offset sep b + epLast Trans.done (stored cb) k)))) := by
  constructor
  · obtain ⟨ret, adv, h1, h2, h4⟩ := mc_blocks _ (fun B hB => (mgrBlocks_shows hr B hB).toShown) none gamma
    rw [← mgrBlocks_rows hr, mgrBlocks_slots hr hm hi] at h1
    rw [mgrBlocks_slots hr hm hi] at h2
    refine ⟨ret, adv, h1, h2, ?_⟩
    intro b cb k hb hk
    have := h4 b _ k (mgrBlocks_get hb) hk
    rw [mgrBlocks_start] at this
    simpa [blockNext, mcSum] using this
  · obtain ⟨ret, adv, h1, h2, h4⟩ := mc_blocks _ (fun B hB => (mgrBlocks_shows hr B hB).toShown) (some v') gamma
    rw [← mgrBlocks_rows hr, mgrBlocks_slots hr hm hi] at h1
    rw [mgrBlocks_slots hr hm hi] at h2
    refine ⟨ret, adv, h1, h2, ?_⟩
    intro b cb k hb hk
    have := h4 b _ k (mgrBlocks_get hb) hk
    rw [mgrBlocks_start] at this
    simpa [blockNext, mcSum] using this

/-- C35 for a batch given by its entries, with next-state values or without (`vNext = none`). -/
theorem C35_gae (w : View R) (n : Nat) (rew : Nat → R) (vNext : Option (Nat → R)) (term trunc : Nat → Bool)
    (slotOf : Nat → Nat) (gamma : R) :
    ∃ ret adv, computeEpisodicReturn w (rows n rew term trunc) ((List.range n).map slotOf)
        (vNext.map fun f => (List.range n).map f) none gamma 1 true = some (ret, adv) ∧ ret.length = n ∧
      ∀ t T, t < n → T = epLast id (endsAt w n term trunc slotOf) t →
        (vNext = none → ret[t]? = some (∑ l ∈ Finset.range (T - t + 1), gamma ^ l * rew (t + l))) ∧
        (∀ v', vNext = some v' → ret[t]? = some ((∑ l ∈ Finset.range (T - t + 1), gamma ^ l * rew (t + l)) +
          gamma ^ (T - t + 1) * (if w.terminated (slotOf T) then 0 else v' T))) := by
  obtain ⟨ret, adv, h1, h2, h3, h4⟩ := compute_eq w n rew term trunc slotOf gamma 1 vNext none true (Or.inr rfl)
  refine ⟨ret, adv, h1, h3, ?_⟩
  rintro t T ht rfl
  have hlen : (endsAt w n term trunc slotOf).length = n := by simp [endsAt]
  have hle := le_epLast id (endsAt w n term trunc slotOf) (k := t) (by omega)
  have h5 := (h4 t ht).2
  beta_reduce at h5
  have ht' := telescope gamma (nextV w slotOf vNext) (curV n (nextV w slotOf vNext) none) t
    (epLast id (endsAt w n term trunc slotOf) t - t) (fun l _ => by simp [curV])
  have hsum : (∑ l ∈ Finset.range (epLast id (endsAt w n term trunc slotOf) t - t + 1), (gamma * 1) ^ l *
      (rew (t + l) + gamma * nextV w slotOf vNext (t + l) - curV n (nextV w slotOf vNext) none (t + l))) =
      (∑ l ∈ Finset.range (epLast id (endsAt w n term trunc slotOf) t - t + 1), gamma ^ l * rew (t + l)) +
      ∑ l ∈ Finset.range (epLast id (endsAt w n term trunc slotOf) t - t + 1), gamma ^ l *
        (gamma * nextV w slotOf vNext (t + l) - curV n (nextV w slotOf vNext) none (t + l)) := by
    rw [← Finset.sum_add_distrib]
    apply Finset.sum_congr rfl
    intro l _
    rw [mul_one]; ring
  rw [hsum, ht', show t + (epLast id (endsAt w n term trunc slotOf) t - t) =
    epLast id (endsAt w n term trunc slotOf) t by omega] at h5
  constructor
  · rintro rfl
    rw [h5]; simp [nextV]
  · rintro v' rfl
    rw [h5]
    congr 1
    rw [show nextV w slotOf (some v') (epLast id (endsAt w n term trunc slotOf) t) =
      if w.terminated (slotOf (epLast id (endsAt w n term trunc slotOf) t)) = true then 0 else
        v' (epLast id (endsAt w n term trunc slotOf) t) from rfl]
    ring

/-- Monte-Carlo returns of the content of `exMgr` (gamma 2): the values of the other sub-buffer and of the
previous episode cancel. -/
example : ((computeEpisodicReturn (ofMgr exMgr) (rowsAt exMgr.data [1, 0, 2, 3, 4]) [1, 0, 2, 3, 4]
    (some [100, 200, 300, 400, 500]) none 2 1 true).map Prod.fst) = some [955, 452, 32, 11, 1020] := by decide +kernel

/-- Without next-state values and lambda not close to 1 the call is rejected. -/
theorem C35_rejects (w : View R) (batch : List (BRow R)) (indices : List Nat) (v : Option (List R)) (gamma lam : R) :
    computeEpisodicReturn w batch indices none v gamma lam false = none := by
  simp [computeEpisodicReturn]

/-! ### C36 -/

/-- C36 for a replay buffer: any indices of stored transitions, in any order, with repetition. The target network
is evaluated once on the indices `after`, the last steps covered by the returns. -/
theorem C36_buffer {b : Buf O A R} {g : Ghost O A R} (h : History b g) (indices : List Nat)
    (hind : ∀ i ∈ indices, i ∈ b.idx.allIndices) (targetQ : List Nat → List (List R))
    (hQ : ∀ l, (targetQ l).length = l.length) (gamma : R) (N : Nat) (hN : 0 < N) :
    ∃ (after : List Nat) (out : List (List R)),
      computeNstepReturn (ofBuf b) indices.length indices targetQ gamma N = some out ∧
      out.length = indices.length ∧ after.length = indices.length ∧
      ∀ (p i k : Nat), indices[p]? = some i → b.idx.allIndices[k]? = some i →
        after[p]? = b.idx.allIndices[k + (nstepLen (stored b) N k - 1)]? ∧
        ∃ q, (targetQ after)[p]? = some q ∧ out[p]? = some (q.map (nstepValue (stored b) gamma N k)) := by
  obtain ⟨after, out, h1, h2, h3, h4⟩ := nstep_blocks _ (bufBlock_shows h) indices
    (by rw [bufBlock_slots]; exact hind) targetQ hQ gamma N hN
  exact ⟨after, out, h1, h2, h3, fun p i k hp hk => h4 p i _ k hp (List.mem_singleton.mpr rfl) hk⟩

/-- C36 for a vector buffer. -/
theorem C36_vector {m : Mgr O A R} {sep : List (Buf O A R)} (hr : Reach m sep) (indices : List Nat)
    (hind : ∀ i ∈ indices, ∃ (b : Nat) (cb : Buf O A R) (j : Nat), sep[b]? = some cb ∧ j ∈ cb.idx.allIndices ∧
      i = j + startOf sep b)
    (targetQ : List Nat → List (List R)) (hQ : ∀ l, (targetQ l).length = l.length) (gamma : R) (N : Nat)
    (hN : 0 < N) :
    ∃ (after : List Nat) (out : List (List R)),
      computeNstepReturn (ofMgr m) indices.length indices targetQ gamma N = some out ∧
      out.length = indices.length ∧ after.length = indices.length ∧
      ∀ (p b k j : Nat) (cb : Buf O A R), sep[b]? = some cb → indices[p]? = some (j + startOf sep b) →
        cb.idx.allIndices[k]? = some j →
        after[p]? = (cb.idx.allIndices[k + (nstepLen (stored cb) N k - 1)]?).map (· + startOf sep b) ∧
        ∃ q, (targetQ after)[p]? = some q ∧ out[p]? = some (q.map (nstepValue (stored cb) gamma N k)) := by
  obtain ⟨after, out, h1, h2, h3, h4⟩ := nstep_blocks _ (mgrBlocks_shows hr) indices (by
    intro i hi
    obtain ⟨b, cb, j, hb, hj, rfl⟩ := hind i hi
    simp only [Blocks.slots, List.mem_flatten, List.mem_map]
    exact ⟨_, ⟨_, List.mem_of_getElem? (mgrBlocks_get hb), rfl⟩, List.mem_map.mpr ⟨j, hj, rfl⟩⟩) targetQ hQ gamma N hN
  refine ⟨after, out, h1, h2, h3, ?_⟩
  intro p b k j cb hb hp hk
  have := h4 p (j + startOf sep b) _ k hp (List.mem_of_getElem? (mgrBlocks_get hb))
    (by simp only [List.getElem?_map, hk, Option.map_some])
  simpa only [List.getElem?_map] using this

/-- Two-step returns (gamma 2) in the wrapped `exBuf`: slot 3 is followed by slot 0 over the seam and the return
covers both; slot 1 ends its episode (terminated), one step and no bootstrap; slot 0 is the newest. -/
example : computeNstepReturn (ofBuf exBuf) 3 [3, 1, 0] (fun l => l.map fun i => [(1000 * i + 7 : Int), 1]) 2 2 =
    some [[21 + 2 * 22 + 4 * 7, 21 + 2 * 22 + 4], [11, 11], [22 + 2 * 7, 22 + 2]] := by decide +kernel

/-! ### C37 -/

/-- C37: return-to-go of an episode, and the hook's full-episode return for every step. -/
theorem C37_return_to_go (gamma : R) (rew : List R) (hne : rew ≠ []) :
    ∃ l, mcReturnToGo gamma rew = some l ∧ l.length = rew.length ∧ ∀ t, t < rew.length →
      l[t]? = some (∑ k ∈ Finset.range (rew.length - t), gamma ^ k * (rew[t + k]?).getD 0) :=
  mcReturnToGo_spec gamma rew hne

theorem C37_hook {K : Type} [CommRing K] [LE K] [DecidableLE K] (gamma : K) (rew : List K) (hne : rew ≠ [])
    (h0 : 0 ≤ gamma) (h1 : gamma ≤ 1) :
    ∃ toGo full, mcHook gamma rew = some (toGo, full) ∧ mcReturnToGo gamma rew = some toGo ∧
      full.length = rew.length ∧ ∀ t, t < rew.length →
        full[t]? = some (∑ k ∈ Finset.range rew.length, gamma ^ k * (rew[k]?).getD 0) := by
  obtain ⟨l, h2, h3, h4⟩ := mcReturnToGo_spec gamma rew hne
  have hpos := List.length_pos_iff.mpr hne
  cases l with
  | nil => simp at h3; omega
  | cons x xs =>
    have h5 := h4 0 hpos
    simp only [List.getElem?_cons_zero, Option.some.injEq, Nat.sub_zero, Nat.zero_add] at h5
    refine ⟨x :: xs, List.replicate (xs.length + 1) x, ?_, h2, by simpa using h3, ?_⟩
    · simp [mcHook, h0, h1, h2]
    · intro t ht
      rw [List.getElem?_replicate, if_pos (by rw [← List.length_cons (a := x), h3]; exact ht), h5]

example : mcHook (1 / 2 : ℚ) [4, 2, 8] = some ([7, 6, 8], [7, 7, 7]) := by decide +kernel

end Verif.Returns
