import Verif.Model.AsyncPipeline
import Verif.Props.Pipeline
import Verif.Props.AsyncCollector

/-!
# From asynchronous environments to the targets (property C206)

An asynchronous collector in ordinary use (`Collector.AUsage`) and the vector buffer it fills, from its reset on, whatever the order in which the
environments answer: `asyncRecord (m0.reset false) s.log` is the buffer after the logged rounds, together with the entries `returns` and `lens` of
the statistics.
-/

namespace Verif.Pipeline

open Verif.Buffer Verif.Spec Verif.Returns

set_option linter.unusedSectionVars false

variable {σ A O R I H K : Type}

section
variable [AddCommMonoid R]

theorem async_stats {opts : Opts O} {size start : Nat → Nat} (round past : List (Nat × Collector.Row O A R I))
    (G : Nat → List (Trans O A R)) (rs : List (AddResult R))
    (hG : ∀ e, G e = (Collector.rowsOf e [past]).map experience) (ha : Answers opts size G (items round) rs) :
    (doneResults round (List.zipWith (fun b r => AddResult.shift (start b) r) (round.map Prod.fst) rs)).map
      (fun r => (r.epRet, r.epLen)) = finishedEpisodes past round := by
  induction round generalizing past G rs with
  | nil => rfl
  | cons p rest ih =>
    obtain ⟨e, row⟩ := p
    obtain ⟨r, rs', rfl, ⟨c, c', h1, h2, h3, h4⟩, hrest⟩ := ha
    have hG' := streams_snoc hG e row
    have hrec := ih _ _ _ hG' hrest
    rw [finishedEpisodes]
    simp only [doneResults, List.map_cons, List.zipWith_cons_cons, List.zip_cons_cons, List.filter_cons] at hrec ⊢
    by_cases hd : row.out.ended = true
    · rw [if_pos (show row.out.done = true from hd), List.map_cons, List.map_cons, if_pos hd, hrec]
      rw [hG e] at h3
      obtain ⟨f1, _⟩ := answer_end h3 h4 hd
      have f2 := ((C12_add_result h3 h4).2.2.1 (by rw [experience_done, hd])).1
      simp only [ghostOf, openT_map, List.length_map] at f2
      simp only [AddResult.shift, List.singleton_append, f1, f2, List.length_append, List.length_cons, List.length_nil, Nat.zero_add]
    · rw [if_neg (show ¬ row.out.done = true from hd), if_neg hd, List.nil_append]
      exact hrec

theorem asyncRecord_spec {opts : Opts O} {size : Nat → Nat} (log : List (List (Nat × Collector.Row O A R I)))
    (past : List (Nat × Collector.Row O A R I)) {m : Mgr O A R} {sep : List (Buf O A R)} (hm : Reach m sep)
    {G : Nat → List (Trans O A R)} (T : Follows opts size sep G) (hG : ∀ e, G e = (Collector.rowsOf e [past]).map experience)
    (hid : ∀ p ∈ log.flatten, p.1 < sep.length) :
    ∃ m' sep', asyncRecord m log = .ok (m', finishedEpisodes past log.flatten) ∧ Reach m' sep' ∧ m'.opts = m.opts ∧
      sep'.length = sep.length ∧ Follows opts size sep' (fun e => (Collector.rowsOf e [past ++ log.flatten]).map experience) := by
  induction log generalizing past m sep G with
  | nil =>
    refine ⟨m, sep, rfl, hm, rfl, rfl, ?_⟩
    simp only [List.flatten_nil, List.append_nil]
    rw [← funext hG]
    exact T
  | cons round rest ih =>
    obtain ⟨m1, sep1, rs, h1, h2, ho, h3, h4, h5, h6, h7⟩ := add_round hm T round (fun p hp => hid p (by
      rw [List.flatten_cons]; exact List.mem_append_left _ hp))
    have hG1 : ∀ e, extend G (items round) e = (Collector.rowsOf e [past ++ round]).map experience := by
      intro e
      rw [extend_items, hG e, ← List.map_append]
      simp [Collector.rowsOf]
    obtain ⟨m2, sep2, i1, i2, i3, i4, i5⟩ := ih (past ++ round) h2 h5 hG1 (fun p hp => by
      rw [h3]; exact hid p (by rw [List.flatten_cons]; exact List.mem_append_right _ hp))
    have hs := async_stats (start := startOf sep) round past G rs hG h6
    unfold doneResults at hs
    refine ⟨m2, sep2, ?_, i2, by rw [i3, ho], by rw [i4, h3], ?_⟩
    · rw [asyncRecord, asyncRound, h1]
      simp only
      rw [hs, i1, List.flatten_cons, finished_append]
    · rw [List.flatten_cons, ← List.append_assoc]; exact i5

theorem async_ids (c : Collector.ACfg σ A O R I H K) (hsch : Collector.Schedule c.wait) (s : Collector.ACol σ A O R I H)
    (h : Collector.AUsage c s) : ∀ p ∈ s.log.flatten, p.1 < c.base.envNum := by
  intro p hp
  by_contra hc
  have := (Collector.C62_trajectories c hsch s h).2 p.1 (by omega)
  unfold Collector.rowsOf at this
  rw [List.map_eq_nil_iff, List.filter_eq_nil_iff] at this
  exact this p hp (by simp)

/-- **C206: statistics.** Adding never fails, and for a collection that adds the rounds `new`, `returns` and `lens` are the reward sums and lengths of the
episodes that ended in it, in the order in which they ended, steps made in earlier collections included; episodes may be longer than
their sub-buffer. -/
theorem C206_statistics (c : Collector.ACfg σ A O R I H K) (hsch : Collector.Schedule c.wait) (s : Collector.ACol σ A O R I H)
    (h : Collector.AUsage c s) {m0 : Mgr O A R} {sep0 : List (Buf O A R)} (h0 : Reach m0 sep0) (hn : c.base.envNum ≤ sep0.length)
    (old new : List (List (Nat × Collector.Row O A R I))) (hlog : s.log = old ++ new) :
    ∃ m m', asyncRecord (m0.reset false) old = .ok (m, finishedEpisodes [] old.flatten) ∧
      asyncRecord m new = .ok (m', finishedEpisodes old.flatten new.flatten) := by
  have hid := async_ids c hsch s h
  rw [hlog, List.flatten_append] at hid
  obtain ⟨m, sep, r1, r2, r3, r4, r5⟩ := asyncRecord_spec old [] (h0.reset false) (follows_reset h0) (by intro e; rfl)
    (by intro p hp; rw [List.length_map]; exact Nat.lt_of_lt_of_le (hid p (List.mem_append_left _ hp)) hn)
  obtain ⟨m', sep', r6, _⟩ := asyncRecord_spec new old.flatten r2 r5 (by intro e; rfl)
    (by intro p hp; rw [r4, List.length_map]; exact Nat.lt_of_lt_of_le (hid p (List.mem_append_right _ hp)) hn)
  exact ⟨m, m', r1, r6⟩

theorem filled_of_async (log : List (List (Nat × Collector.Row O A R I))) (n : Nat) (hid : ∀ p ∈ log.flatten, p.1 < n)
    {m0 : Mgr O A R} {sep0 : List (Buf O A R)} (h0 : Reach m0 sep0) (hn : n ≤ sep0.length)
    {m : Mgr O A R} {stats : List (R × Nat)} (hrec : asyncRecord (m0.reset false) log = .ok (m, stats)) : Filled m0 sep0 log m := by
  obtain ⟨m', sep, r0, r1, r2, r3, r4⟩ := asyncRecord_spec log [] (h0.reset false) (follows_reset h0) (by intro e; rfl)
    (by intro p hp; rw [List.length_map]; exact Nat.lt_of_lt_of_le (hid p hp) hn)
  rw [r0, Except.ok.injEq, Prod.mk.injEq] at hrec
  obtain ⟨rfl, _⟩ := hrec
  refine ⟨sep, r1, r2, by rw [r3, List.length_map], ?_⟩
  have hrows : (fun e => (Collector.rowsOf e [[] ++ log.flatten]).map (experience (O := O) (A := A) (R := R))) =
      fun e => (Collector.rowsOf e log).map experience := by
    funext e
    simp [Collector.rowsOf]
  rw [hrows] at r4
  exact r4

/-- **C206: content.** Sub-buffer `e` holds the most recent transitions of environment `e`, as many as fit, in order, and they are the end of a
record of what this environment went through. -/
theorem C206_content (c : Collector.ACfg σ A O R I H K) (hsch : Collector.Schedule c.wait) (s : Collector.ACol σ A O R I H)
    (h : Collector.AUsage c s) {m0 : Mgr O A R} {sep0 : List (Buf O A R)} (h0 : Reach m0 sep0) (hn : c.base.envNum ≤ sep0.length)
    {m : Mgr O A R} {stats : List (R × Nat)} (hrec : asyncRecord (m0.reset false) s.log = .ok (m, stats)) :
    ∃ sep, Reach m sep ∧ m.opts = m0.opts ∧ sep.length = sep0.length ∧ ∀ (e : Nat) (cb : Buf O A R), sep[e]? = some cb →
      cb.opts = m0.opts ∧ cb.idx.maxsize = sizeOf sep0 e ∧
      stored cb = lastN (sizeOf sep0 e) ((Collector.rowsOf e s.log).map fun r => expectedRow m0.opts (experience r)) ∧
      (e < c.base.envNum → ∃ start now, Collector.JustReset c.base.env start ∧
        Collector.Trajectory c.base.env start (Collector.rowsOf e s.log) now) ∧
      (c.base.envNum ≤ e → stored cb = []) := by
  have hid := async_ids c hsch s h
  obtain ⟨sep, r1, r2, r3, r4⟩ := content_of_log s.log c.base.envNum hid (filled_of_async _ _ hid h0 hn hrec)
  refine ⟨sep, r1, r2, r3, ?_⟩
  intro e cb hcb
  obtain ⟨f1, f2, f3, f4⟩ := r4 e cb hcb
  refine ⟨f1, f2, f3, ?_, f4⟩
  intro he
  obtain ⟨start, now, u1, u2, _⟩ := (Collector.C62_trajectories c hsch s h).1 e he
  exact ⟨start, now, u1, u2⟩

end

/-- **C206: targets.** As C193, for asynchronous environments. -/
theorem C206_nstep [CommRing R] (c : Collector.ACfg σ A O R I H K) (hsch : Collector.Schedule c.wait)
    (s : Collector.ACol σ A O R I H) (h : Collector.AUsage c s) {m0 : Mgr O A R} {sep0 : List (Buf O A R)} (h0 : Reach m0 sep0)
    (hn : c.base.envNum ≤ sep0.length) (hm : m0.opts.stackNum = 1 ∨ m0.opts.sampleAvail = false)
    {m : Mgr O A R} {stats : List (R × Nat)} (hrec : asyncRecord (m0.reset false) s.log = .ok (m, stats)) (hlen : 0 < m.len)
    (draw : Nat → Nat) (rng : Nat → Nat → Nat) (n : Nat) (hpos : 0 < n) (targetQ : List Nat → List (List R))
    (hQ : ∀ l, (targetQ l).length = l.length) (gamma : R) (N : Nat) (hN : 0 < N) :
    ∃ (indices after : List Nat) (out : List (List R)), m.sampleIndices draw rng (some n) = .ok indices ∧ indices.length = n ∧
      computeNstepReturn (ofMgr m) n indices targetQ gamma N = some out ∧ out.length = n ∧
      ∀ (p i : Nat), indices[p]? = some i → ∃ (e k i' : Nat) (rk rl : Collector.Row O A R I) (q : List R), e < c.base.envNum ∧
        (let stream := (Collector.rowsOf e s.log).map experience
         (Collector.rowsOf e s.log)[k]? = some rk ∧ m.data i = some (expectedRow m0.opts (experience rk)) ∧
         (Collector.rowsOf e s.log)[k + (nstepLen stream N k - 1)]? = some rl ∧
         after[p]? = some i' ∧ m.data i' = some (expectedRow m0.opts (experience rl)) ∧
         (targetQ after)[p]? = some q ∧ out[p]? = some (q.map (nstepValue stream gamma N k))) :=
  nstep_of_log s.log c.base.envNum (async_ids c hsch s h) hm (filled_of_async _ _ (async_ids c hsch s h) h0 hn hrec) hlen draw rng n
    hpos targetQ hQ gamma N hN

/-- **C206: advantages.** As C193, for asynchronous environments. -/
theorem C206_gae [CommRing R] (c : Collector.ACfg σ A O R I H K) (hsch : Collector.Schedule c.wait)
    (s : Collector.ACol σ A O R I H) (h : Collector.AUsage c s) {m0 : Mgr O A R} {sep0 : List (Buf O A R)} (h0 : Reach m0 sep0)
    (hn : c.base.envNum ≤ sep0.length) (hm : m0.opts.stackNum = 1 ∨ m0.opts.sampleAvail = false)
    {m : Mgr O A R} {stats : List (R × Nat)} (hrec : asyncRecord (m0.reset false) s.log = .ok (m, stats))
    (draw : Nat → Nat) (rng : Nat → Nat → Nat) (val val' : Trans O A R → R) (gamma lam : R) (isClose : Bool) :
    ∃ (indices : List Nat) (ret adv : List R), m.sampleIndices draw rng (some 0) = .ok indices ∧
      computeEpisodicReturn (ofMgr m) (rowsAt m.data indices) indices
        (some (indices.map fun i => ((m.data i).map val').getD 0)) (some (indices.map fun i => ((m.data i).map val).getD 0))
        gamma lam isClose = some (ret, adv) ∧ adv.length = indices.length ∧
      ∀ (p i : Nat), indices[p]? = some i → ∃ (e k : Nat) (rk : Collector.Row O A R I), e < c.base.envNum ∧
        (Collector.rowsOf e s.log)[k]? = some rk ∧ m.data i = some (expectedRow m0.opts (experience rk)) ∧
        adv[p]? = some (streamGae ((Collector.rowsOf e s.log).map fun r => expectedRow m0.opts (experience r)) gamma lam val val' k) :=
  gae_of_log s.log c.base.envNum (async_ids c hsch s h) hm (filled_of_async _ _ (async_ids c hsch s h) h0 hn hrec) draw rng val val'
    gamma lam isClose

/-! ### An example -/

/-- The environments of C193; the one, or the two, that have waited longest answer. -/
def exAsyncCfg : Collector.ACfg (Nat × Nat) Nat Nat Int Nat Nat Unit where
  base := { exCfg with
    isAsync := true
    policy := ⟨fun _ obs _ _ => (obs, some obs), fun _ acts _ => acts, id, id, fun _ _ => 0⟩ }
  entry := false
  store := some
  junk := 77
  wait := Collector.oneAtATime

/-- A reset followed by two collections of `n` steps each. -/
def exAsyncHistory (n : Int) : Option (Collector.ACol (Nat × Nat) Nat Nat Int Nat Nat) :=
  ((Collector.areset exAsyncCfg true true () (Collector.abuilt exAsyncCfg ⟨fun e => (e, 7), fun _ => 0⟩)).toOption).bind fun s0 =>
  (Collector.aafter (Collector.acollect exAsyncCfg (some n) none false false () 100 s0)).bind fun s =>
  Collector.aafter (Collector.acollect exAsyncCfg (some n) none false false () 100 s)

theorem exAsyncHistory_usage (n : Int) (s : Collector.ACol (Nat × Nat) Nat Nat Int Nat Nat) (h : exAsyncHistory n = some s) :
    Collector.AUsage exAsyncCfg s := by
  unfold exAsyncHistory at h
  rw [Option.bind_eq_some_iff] at h
  obtain ⟨s0, e0, h⟩ := h
  rw [Option.bind_eq_some_iff] at h
  obtain ⟨s1, e1, e2⟩ := h
  obtain ⟨t1, e1⟩ := Collector.aafter_some e1
  obtain ⟨t2, e2⟩ := Collector.aafter_some e2
  cases hr : Collector.areset exAsyncCfg true true () (Collector.abuilt exAsyncCfg ⟨fun e => (e, 7), fun _ => 0⟩) with
  | error e => rw [hr] at e0; cases e0
  | ok s0' =>
    rw [hr] at e0
    cases e0
    exact .collect (.collect (.reset (.built _) true () hr) (some n) none false () 100 t1 e1) (some n) none false () 100 t2 e2

/-- Sixteen steps; the sub-buffer of environment 1 has two slots and its second episode three steps. -/
example : (exAsyncHistory 8).map (fun s => ((asyncRecord ((exBuffer [4, 2]).reset false) s.log).toOption.map fun p =>
      (p.2, (List.range 6).map fun i => (p.1.data i).map Trans.rew))) =
    some (some ([(1, 1), (3, 2), (3, 2), (6, 3), (6, 3)], [some 3, some 3, some 1, some 2, some 2, some 3])) := by decide +kernel

/-- Two-step targets with discount 10 and bootstrap value 1000. -/
example : (exAsyncHistory 8).map (fun s => ((asyncRecord ((exBuffer [4, 2]).reset false) s.log).toOption.bind fun p =>
      computeNstepReturn (ofMgr p.1) 6 [0, 1, 2, 3, 4, 5] (fun l => l.map fun _ => [1000]) 10 2)) =
    some (some [[3 + 10 * 1000], [3], [1 + 10 * 2 + 100 * 1000], [2 + 10 * 3 + 100 * 1000], [2 + 10 * 3 + 100 * 1000],
      [3 + 10 * 1000]]) := by decide +kernel

end Verif.Pipeline
