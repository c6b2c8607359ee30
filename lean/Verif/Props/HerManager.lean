import Verif.Lemmas.HerManager

/-! Property C203: vector buffers with hindsight. -/

set_option linter.unusedSectionVars false

namespace Verif.Buffer

open Verif.Spec

variable {P G A R : Type} [AddCommMonoid R] {K : ℚ}

/-- **C203** whatever is done with a `HERVectorReplayBuffer`, its sub-buffer `b` (whose contents are the slots of the vector buffer
from `offset` on) is a `HERReplayBuffer` that was given exactly the transitions for `b`, in order, and was sampled now and then: C31,
C32, C72 and C73 hold for it. -/
theorem C203_children {m : HMgr P G A R} {gs : List (Ghost (GObs P G) A R)} (H : HMHistory K m gs) (b : Nat)
    (g : Ghost (GObs P G) A R) (hb : gs[b]? = some g) :
    ∃ s, m.mgr.subs[b]? = some s ∧ s.offset = ((m.mgr.subs.take b).map fun s => s.idx.maxsize).sum ∧
      HHistory K (m.child b s) g ∧ (m.child b s).base.idx = s.idx ∧
      ∀ i < s.idx.maxsize, m.mgr.data (s.offset + i) = (m.child b s).base.data i := by
  have I := H.inv
  have hlt : b < m.mgr.subs.length := by rw [I.num]; exact (List.getElem?_eq_some_iff.mp hb).1
  have hs := List.getElem?_eq_getElem hlt
  refine ⟨_, hs, ?_, I.hist b _ g hs hb, rfl, fun i hi => ?_⟩
  · rw [I.layout.offset b _ hs, maxs, List.map_take]
  · simp only [HMgr.child, Mgr.child, childOf]
    rw [if_pos hi]

/-- **C203** undoing the relabelling gives back the latest transitions for each sub-buffer, in order and unaltered, as in a vector
buffer without hindsight: C20 to C25 hold for it. -/
theorem C203_restored {m : HMgr P G A R} {gs : List (Ghost (GObs P G) A R)} (H : HMHistory K m gs) :
    (∃ sep, Reach m.restore.mgr sep) ∧ ∀ (b : Nat) (g : Ghost (GObs P G) A R) (s : Sub R), gs[b]? = some g →
      m.mgr.subs[b]? = some s →
      s.idx.allIndices.map (fun i => m.restore.mgr.data (s.offset + i)) = (lastN s.idx.maxsize g.received).map some := by
  refine ⟨H.plain, fun b g s hb hs => ?_⟩
  have I := H.inv
  obtain ⟨S, hr⟩ := I.restore_spec
  have h31 := C31_restored (I.hist b s g hs hb)
  have e : (m.child b s).base.idx = s.idx := rfl
  rw [e] at h31
  rw [← h31]
  apply List.map_congr_left
  intro i hi
  rw [← hr b s hs]
  have hmax : i < s.idx.maxsize := by
    by_contra hge
    have hnone := (I.hist b s g hs hb).restored.1.beyond i (by
      show s.idx.maxsize ≤ i
      omega)
    have hmem : (m.child b s).restore.base.data i ∈ s.idx.allIndices.map (m.child b s).restore.base.data :=
      List.mem_map_of_mem hi
    rw [h31, hnone] at hmem
    simp at hmem
  simp only [HMgr.child, Mgr.child, childOf]
  rw [if_pos hmax]

/-- **C203** relabelled or not, a stored transition differs from the one that was given at most in its desired goal and its reward. -/
theorem C203_only_goal_and_reward {m : HMgr P G A R} {gs : List (Ghost (GObs P G) A R)} (H : HMHistory K m gs) (i : Nat) :
    m.mgr.data i = m.restore.mgr.data i ∨
      ∃ t t' goal, m.restore.mgr.data i = some t ∧ m.mgr.data i = some t' ∧ Relabelled goal t t' := by
  have I := H.inv
  obtain ⟨S, hr⟩ := I.restore_spec
  by_cases h : ∃ s ∈ m.mgr.subs, s.offset ≤ i ∧ i < s.offset + s.idx.maxsize
  · obtain ⟨s, hs, h1, h2⟩ := h
    obtain ⟨b, hb⟩ := List.getElem?_of_mem hs
    obtain ⟨g, hg, hh⟩ := I.hist' b s hb
    have e : ∀ m' : HMgr P G A R, (m'.child b s).base.data (i - s.offset) = m'.mgr.data i := by
      intro m'
      simp only [HMgr.child, Mgr.child, childOf]
      rw [if_pos (by omega)]
      congr 1
      omega
    have := C31_only_goal_and_reward hh (i - s.offset)
    rw [← hr b s hb, e, e] at this
    exact this
  · left
    exact (restoreLoop_outside (List.range m.mgr.subs.length) m i fun s hs hi => h ⟨s, hs, hi⟩).symm

/-- **C203** `add` acts as on the vector buffer with the relabelling undone, and succeeds for existing sub-buffers. -/
theorem C203_add {m : HMgr P G A R} {gs : List (Ghost (GObs P G) A R)} (H : HMHistory K m gs) (ids : List Nat)
    (rows : List (Trans (GObs P G) A R)) (hl : ids.length = rows.length) (hid : ∀ b ∈ ids, b < gs.length) :
    ∃ m' rs, m.add ids rows = .ok (m', rs) ∧ m.restore.mgr.add ids rows = .ok (m'.mgr, rs) := by
  obtain ⟨sep, hsep⟩ := H.plain
  have hn : m.restore.mgr.subs.length = gs.length := H.inv.restore.num
  obtain ⟨m1, sep', res, _, r2, _⟩ := C20_add hsep ids rows hl (by rw [← hsep.inv.sub_length, hn]; exact hid)
  refine ⟨{ m.restore with mgr := m1 }, _, ?_, r2⟩
  unfold HMgr.add
  simp only [r2]

/-- The indices that a plain sub-buffer would have sampled. -/
theorem concat_samples {rng : Nat → Nat → Nat} {u : Nat → Nat → ℚ} {pick : Nat → Nat → Nat → List Nat} {num : Nat → Int}
    {m m' : HMgr P G A R} {gs : List (Ghost (GObs P G) A R)} (I : HMInv K m gs) {l : List Nat}
    (h : m.sampleLoop rng u pick num (List.range m.mgr.subs.length) = .ok (m', l)) :
    m.restore.mgr.concatSamples rng num = .ok l := by
  obtain ⟨S, hr⟩ := I.restore_spec
  obtain ⟨_, ls, h1, h2⟩ := sampleLoop_spec (K := K) _ I.layout List.nodup_range
    (fun j s hj => (I.hist' j s hj).imp fun g hg => hg.2) h
  unfold Mgr.concatSamples
  rw [S.subs]
  have key : ∀ (j : Nat) (s : Sub R), m.mgr.subs[j]? = some s →
      (m.restore.mgr.child s).sampleIndices (rng j) (some (num j)) = .ok (ls j) := by
    intro j s hj
    have hs := (h2 j s hj).1 (by simpa using (List.getElem?_eq_some_iff.mp hj).1)
    have hb : m.restore.mgr.child s = (m.child j s).restore.base := congrArg HBuf.base (hr j s hj)
    rw [hb]
    unfold HBuf.sampleIndices at hs
    simp only at hs
    cases hq : (m.child j s).restore.base.sampleIndices (rng j) (some (num j)) with
    | error e => rw [hq] at hs; cases hs
    | ok q =>
      rw [hq] at hs
      simp only at hs
      split_ifs at hs
      simp only [Except.ok.injEq, Prod.mk.injEq] at hs
      rw [hs.2]
  have gen : ∀ (subs : List (Sub R)) (k : Nat), (∀ (j : Nat) (s : Sub R), subs[j]? = some s → m.mgr.subs[k + j]? = some s) →
      concatOk ((subs.zipIdx k).map fun p =>
        ((m.restore.mgr.child p.1).sampleIndices (rng p.2) (some (num p.2))).map fun l => l.map (· + p.1.offset)) =
      .ok ((List.range' k subs.length).flatMap fun b => (ls b).map (· + ((m.mgr.subs[b]?).map Sub.offset).getD 0)) := by
    intro subs
    induction subs with
    | nil => intro k _; rfl
    | cons s subs ih =>
      intro k hk
      have h0 := hk 0 s rfl
      rw [Nat.add_zero] at h0
      rw [List.zipIdx_cons, List.map_cons, key k s h0]
      have e : (Except.ok (ls k) : Except Err (List Nat)).map (fun l => l.map (· + s.offset)) =
        .ok ((ls k).map (· + s.offset)) := rfl
      rw [e, concatOk, ih (k + 1) fun j t hj => by
        have := hk (j + 1) t (by simpa using hj)
        rw [← this]; congr 1; omega]
      rw [List.length_cons, List.range'_succ, List.flatMap_cons, h0]
      rfl
  have := gen m.mgr.subs 0 fun j s hj => by rw [Nat.zero_add]; exact hj
  rw [this, h1, List.range_eq_range']

/-- **C203** sampling: every sub-buffer is sampled as a `HERReplayBuffer` of its own (undoing the relabelling of before, and
relabelling anew), sub-buffers of which nothing is wanted with a negative batch size, and the indices are those of the sub-buffers one
after the other, shifted by their first slots. They are the indices that a vector buffer without hindsight gives with the same random
numbers. With a negative batch size nothing happens. -/
theorem C203_sample {m m' : HMgr P G A R} {gs : List (Ghost (GObs P G) A R)} (H : HMHistory K m gs) {draw : Nat → Nat}
    {rng : Nat → Nat → Nat} {u : Nat → Nat → ℚ} {pick : Nat → Nat → Nat → List Nat} {bs : Option Int} {l : List Nat}
    (h : m.sampleIndices draw rng u pick bs = .ok (m', l)) :
    m.restore.mgr.sampleIndices draw rng bs = .ok l ∧ m'.restore.mgr = m.restore.mgr ∧
    (bs.getD 0 < 0 → m' = m ∧ l = []) ∧
    (0 ≤ bs.getD 0 → ∃ (num : Nat → Int) (ls : Nat → List Nat),
      l = (List.range gs.length).flatMap (fun b => (ls b).map (· + ((m.mgr.subs[b]?).map Sub.offset).getD 0)) ∧
      ∀ (b : Nat) (s : Sub R), m.mgr.subs[b]? = some s → m'.mgr.subs[b]? = some s ∧
        (m.child b s).sampleIndices (rng b) (u b) (pick b) (some (num b)) = .ok (m'.child b s, ls b)) := by
  have I := H.inv
  obtain ⟨S, hr⟩ := I.restore_spec
  have loop : ∀ num : Nat → Int, m.sampleLoop rng u pick num (List.range m.mgr.subs.length) = .ok (m', l) →
      ∃ (num : Nat → Int) (ls : Nat → List Nat),
      l = (List.range gs.length).flatMap (fun b => (ls b).map (· + ((m.mgr.subs[b]?).map Sub.offset).getD 0)) ∧
      ∀ (b : Nat) (s : Sub R), m.mgr.subs[b]? = some s → m'.mgr.subs[b]? = some s ∧
        (m.child b s).sampleIndices (rng b) (u b) (pick b) (some (num b)) = .ok (m'.child b s, ls b) := by
    intro num hl
    obtain ⟨S', ls, h1, h2⟩ := sampleLoop_spec (K := K) _ I.layout List.nodup_range
      (fun j s hj => (I.hist' j s hj).imp fun g hg => hg.2) hl
    refine ⟨num, ls, by rw [← I.num]; exact h1, fun b s hb => ⟨by rw [S'.subs]; exact hb, ?_⟩⟩
    exact (h2 b s hb).1 (by simpa using (List.getElem?_eq_some_iff.mp hb).1)
  refine ⟨?_, sample_same I h, ?_, ?_⟩
  · have h0 := h
    unfold HMgr.sampleIndices at h
    unfold Mgr.sampleIndices
    by_cases hneg : bs.getD 0 < 0
    · rw [if_pos hneg] at h
      cases h
      rw [if_pos hneg]
    · rw [if_neg hneg] at h
      rw [if_neg hneg]
      have hns : ¬ (m.restore.mgr.opts.sampleAvail = true ∧ 1 < m.restore.mgr.opts.stackNum) := by
        rintro ⟨_, hs⟩
        rw [S.opts, I.stack] at hs
        omega
      rw [if_neg hns]
      by_cases hzero : bs.getD 0 = 0
      · rw [if_pos hzero] at h
        rw [if_pos hzero]
        exact concat_samples I h
      · rw [if_neg hzero] at h
        rw [if_neg hzero]
        simp only at h
        split at h
        · cases h
        · rename_i bufferIdx hch
          have hc := concat_samples I h
          simp only [S.subs, hch]
          exact hc
  · intro hneg
    unfold HMgr.sampleIndices at h
    rw [if_pos hneg] at h
    cases h
    exact ⟨rfl, rfl⟩
  · intro hpos
    unfold HMgr.sampleIndices at h
    rw [if_neg (by omega)] at h
    split_ifs at h
    · exact loop _ h
    · simp only at h
      split at h
      · cases h
      · exact loop _ h

/-- **C203** `HERVectorReplayBuffer(total_size, buffer_num, ...)` has `buffer_num` sub-buffers of one size, next to each other,
with room for `total_size` transitions and for fewer than `buffer_num` more. -/
theorem C203_capacity (totalSize bufferNum : Nat) (hn : 0 < bufferNum) (computeReward : G → G → R) (horizon : Nat) (futureK : ℚ)
    (opts : Opts (GObs P G)) :
    ∃ size, (HMgr.newVector (A := A) totalSize bufferNum computeReward horizon futureK opts).mgr.subs.map
        (fun s => (s.offset, s.idx.maxsize)) = (List.range bufferNum).map (fun b => (b * size, size)) ∧
      totalSize ≤ bufferNum * size ∧ bufferNum * size < totalSize + bufferNum ∧
      ∀ b, (HMgr.newVector (A := A) totalSize bufferNum computeReward horizon futureK opts).saved b = [] := by
  obtain ⟨size, h1, -, h3, h4⟩ := C24_capacity (A := A) (R := R) totalSize bufferNum hn opts
  exact ⟨size, h1, h3, h4, fun _ => rfl⟩

/-! An example: two sub-buffers with room for four transitions; two episodes in each, and everything is sampled. -/

/-- A step from position `p` towards the goal 9. -/
def hstep (p : Nat) (done : Bool) : Trans (GObs Nat Nat) Nat Int :=
  { obs := ⟨p, p, 9⟩, act := 1, rew := -1, terminated := done, truncated := false, obsNext := some ⟨p + 1, p + 1, 9⟩ }

def exHM0 : HMgr Nat Nat Nat Int := HMgr.newVector 8 2 (fun a d => if a = d then 0 else -1) 3 4 {}

def exHM : Option (HMgr Nat Nat Nat Int) :=
  (((exHM0.add [0, 1] [hstep 0 false, hstep 5 true]).toOption.bind fun q =>
    (q.1.add [0, 1] [hstep 1 true, hstep 6 false]).toOption).bind fun q =>
    (q.1.add [0, 1] [hstep 2 true, hstep 7 true]).toOption).map Prod.fst

def exHM' : Option (HMgr Nat Nat Nat Int × List Nat) :=
  exHM.bind fun m => (m.sampleIndices (fun _ => 0) (fun _ _ => 0) (fun _ _ => 3 / 4) (fun _ n s => (List.range n).take s) none).toOption

example : exHM'.map Prod.snd = some [0, 1, 2, 4, 5, 6] := by decide +kernel
/-- In both sub-buffers the goal of one episode is replaced by one that it achieved, and the rewards follow. -/
example : exHM'.map (fun q => (List.range 8).map fun i => (q.1.mgr.data i).map fun t => (t.obs.desired, t.rew)) =
    some [some (2, -1), some (2, 0), some (9, -1), none, some (6, 0), some (9, -1), some (9, -1), none] := by decide +kernel
/-- Undone. -/
example : exHM'.map (fun q => (List.range 8).map fun i => (q.1.restore.mgr.data i).map fun t => (t.obs.desired, t.rew)) =
    some [some (9, -1), some (9, -1), some (9, -1), none, some (9, -1), some (9, -1), some (9, -1), none] := by decide +kernel

end Verif.Buffer
