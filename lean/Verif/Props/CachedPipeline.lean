import Verif.Lemmas.CachedPipeline
import Verif.Props.AsyncPipeline

/-!
# From the environments to the targets, with a `CachedReplayBuffer` (properties C207, C208)

As C193, C194 and C206, for a buffer that keeps unfinished episodes in one cache per environment and moves an episode to its main part when it is
finished. Buffer 0 of the vector buffer is the main part, buffer `e + 1` the cache of environment `e`.
-/

namespace Verif.Pipeline

open Verif.Buffer Verif.Spec Verif.Returns

set_option linter.unusedSectionVars false

variable {σ A O R I H K : Type}

theorem sync_distinct (c : Collector.Cfg σ A O R I H K) (hs : c.share = false) (b : Bool) (s : Collector.Col σ A O R I H)
    (h : Collector.Usage c b s) : ∀ round ∈ s.log, (round.map Prod.fst).Nodup := by
  obtain ⟨po, pi, hu⟩ := Collector.usage_uinv c hs b s h
  exact fun round hr => (hu.decided round hr).2

theorem async_distinct (c : Collector.ACfg σ A O R I H K) (hsch : Collector.Schedule c.wait) (s : Collector.ACol σ A O R I H)
    (h : Collector.AUsage c s) : ∀ round ∈ s.log, (round.map Prod.fst).Nodup := by
  induction h with
  | @reset s s' h st kw hr =>
    obtain ⟨w, rfl⟩ := Collector.areset_ok c true st kw s s' hr
    intro round hr
    simp at hr
  | @collect s s' h nStep nEpisode random kw fuel st hc ih =>
    obtain ⟨_, t, o, i, l, ht, ho, hi, hr, rfl, _⟩ := Collector.acollect_ok c nStep nEpisode random false kw fuel s s' st hc
    simp only [Collector.aprepared, Bool.false_eq_true, if_false, Except.ok.injEq] at ht
    subst ht
    have hci := Collector.areachable_inv c hsch s (Collector.ausage_reachable h)
    obtain ⟨i', hi', hinv⟩ := hci.both o ho
    rw [hi, Option.some.injEq] at hi'
    subst hi'
    obtain ⟨⟨_, hl⟩, _⟩ := Collector.arun_induct c nStep nEpisode random kw
      (fun x => Collector.AInv c x ∧ ∀ round ∈ x.log, (round.map Prod.fst).Nodup)
      (fun a b ha hab => by
        obtain ⟨got, ent, hrd⟩ := Collector.aiter_round c hsch random kw a b ha.1.toAWF hab
        refine ⟨ha.1.next hrd, ?_⟩
        intro round hround
        rw [hrd.log] at hround
        rcases List.mem_append.mp hround with h1 | h1
        · exact ha.2 round h1
        · rw [List.mem_singleton] at h1
          subst h1
          rw [List.map_fst_zip (by rw [hrd.len])]
          exact hrd.got_nodup) fuel _ _ hr ⟨hinv, ih⟩
    exact hl

section
variable [AddCommMonoid R]

/-- What the parts of the buffer hold after the rounds `log`. -/
def Holding (o : Opts O) (M L n : Nat) (log : List (List (Nat × Collector.Row O A R I))) (m : Mgr O A R) : Prop :=
  ∃ sep, Reach m sep ∧ m.opts = o ∧ sep.length = n + 1 ∧
    (∀ c, sep[0]? = some c → c.opts = o ∧ c.idx.maxsize = M ∧
      stored c = lastN M (completed L (fun r => expectedRow o (experience r)) [] log.flatten)) ∧
    ∀ e c, sep[e + 1]? = some c → c.opts = o ∧ c.idx.maxsize = L ∧
      stored c = lastN L ((openEpisode (Collector.rowsOf e log)).map fun r => expectedRow o (experience r))

theorem holding_of_state {o : Opts O} {M L n : Nat} {m : Mgr O A R} {sep : List (Buf O A R)}
    {log : List (List (Nat × Collector.Row O A R I))} (S : CState o M L n m sep log.flatten) : Holding o M L n log m := by
  have hlog : ∀ e, Collector.rowsOf e [log.flatten] = Collector.rowsOf e log := by
    intro e; simp [Collector.rowsOf]
  obtain ⟨s1, s2⟩ := S.stored
  refine ⟨sep, S.reach, S.opts, S.len, s1, ?_⟩
  intro e c hc
  rw [← hlog]
  exact s2 e c hc

theorem sync_state (c : Collector.Cfg σ A O R I H K) (hs : c.share = false) (b : Bool) (s : Collector.Col σ A O R I H)
    (h : Collector.Usage c b s) {n L : Nat} {o : Opts O} {m0 : Mgr O A R} {past : Cached O A R} (h0 : CHistory n L o m0 past)
    (hn : c.envNum ≤ n) {m : Mgr O A R} {stats : List (R × Nat)} (hrec : cachedRecord (m0.reset false) s.log = .ok (m, stats)) :
    ∃ sep, CState o (mainSize m0) L n m sep s.log.flatten := by
  obtain ⟨sep, S, hL⟩ := cstate_reset (I := I) h0
  have := cached_record_state hL s.log S (fun p hp => Nat.lt_of_lt_of_le (ids_lt c hs b s h p hp) hn) (sync_distinct c hs b s h) hrec
  simpa using this

theorem async_state (c : Collector.ACfg σ A O R I H K) (hsch : Collector.Schedule c.wait) (s : Collector.ACol σ A O R I H)
    (h : Collector.AUsage c s) {n L : Nat} {o : Opts O} {m0 : Mgr O A R} {past : Cached O A R} (h0 : CHistory n L o m0 past)
    (hn : c.base.envNum ≤ n) {m : Mgr O A R} {stats : List (R × Nat)} (hrec : asyncCachedRecord (m0.reset false) s.log = .ok (m, stats)) :
    ∃ sep, CState o (mainSize m0) L n m sep s.log.flatten := by
  obtain ⟨sep, S, hL⟩ := cstate_reset (I := I) h0
  obtain ⟨m', sep', h1, h2⟩ := async_cached_record hL s.log S
    (fun p hp => Nat.lt_of_lt_of_le (async_ids c hsch s h p hp) hn) (async_distinct c hsch s h)
  rw [h1, Except.ok.injEq, Prod.mk.injEq] at hrec
  obtain ⟨rfl, _⟩ := hrec
  exact ⟨sep', by simpa using h2⟩

/-- **C207: content.** Whatever a collector in ordinary use has done since its `CachedReplayBuffer` was reset: the main part holds the most recent transitions of
the finished episodes, in the order in which the episodes ended, each without the beginning that did not fit into its cache; the cache of an environment
holds the steps of its unfinished episode, as many as fit; and the streams of the environments are records of what they went through. -/
theorem C207_content (c : Collector.Cfg σ A O R I H K) (hs : c.share = false) (b : Bool) (s : Collector.Col σ A O R I H)
    (h : Collector.Usage c b s) {n L : Nat} {o : Opts O} {m0 : Mgr O A R} {past : Cached O A R} (h0 : CHistory n L o m0 past)
    (hn : c.envNum ≤ n) {m : Mgr O A R} {stats : List (R × Nat)} (hrec : cachedRecord (m0.reset false) s.log = .ok (m, stats)) :
    Holding o (mainSize m0) L n s.log m ∧
      ∀ e < c.envNum, ∃ start now, Collector.JustReset c.env start ∧ Collector.Trajectory c.env start (Collector.rowsOf e s.log) now := by
  obtain ⟨sep, S⟩ := sync_state c hs b s h h0 hn hrec
  refine ⟨holding_of_state S, ?_⟩
  intro e he
  obtain ⟨start, now, u1, u2, _⟩ := (Collector.C61_trajectories_partial c hs b s h).1 e he
  exact ⟨start, now, u1, u2⟩

/-- **C207: content**, asynchronous collector. -/
theorem C207_content_async (c : Collector.ACfg σ A O R I H K) (hsch : Collector.Schedule c.wait) (s : Collector.ACol σ A O R I H)
    (h : Collector.AUsage c s) {n L : Nat} {o : Opts O} {m0 : Mgr O A R} {past : Cached O A R} (h0 : CHistory n L o m0 past)
    (hn : c.base.envNum ≤ n) {m : Mgr O A R} {stats : List (R × Nat)} (hrec : asyncCachedRecord (m0.reset false) s.log = .ok (m, stats)) :
    Holding o (mainSize m0) L n s.log m ∧
      ∀ e < c.base.envNum, ∃ start now, Collector.JustReset c.base.env start ∧
        Collector.Trajectory c.base.env start (Collector.rowsOf e s.log) now := by
  obtain ⟨sep, S⟩ := async_state c hsch s h h0 hn hrec
  refine ⟨holding_of_state S, ?_⟩
  intro e he
  obtain ⟨start, now, u1, u2, _⟩ := (Collector.C62_trajectories c hsch s h).1 e he
  exact ⟨start, now, u1, u2⟩

end

/-- **C207: targets.** As C193: every sampled index holds step `k` of some environment `e`, and its `N`-step target is that of the stream of this environment,
although the buffer holds the episodes of all environments one after the other. -/
theorem C207_nstep [CommRing R] (c : Collector.Cfg σ A O R I H K) (hs : c.share = false) (b : Bool)
    (s : Collector.Col σ A O R I H) (h : Collector.Usage c b s) {n0 L : Nat} {o : Opts O} {m0 : Mgr O A R} {past : Cached O A R}
    (h0 : CHistory n0 L o m0 past) (hn : c.envNum ≤ n0) (hm : o.stackNum = 1 ∨ o.sampleAvail = false)
    {m : Mgr O A R} {stats : List (R × Nat)} (hrec : cachedRecord (m0.reset false) s.log = .ok (m, stats)) (hlen : 0 < m.len)
    (draw : Nat → Nat) (rng : Nat → Nat → Nat) (n : Nat) (hpos : 0 < n) (targetQ : List Nat → List (List R))
    (hQ : ∀ l, (targetQ l).length = l.length) (gamma : R) (N : Nat) (hN : 0 < N) :
    ∃ (indices after : List Nat) (out : List (List R)), m.sampleIndices draw rng (some n) = .ok indices ∧ indices.length = n ∧
      computeNstepReturn (ofMgr m) n indices targetQ gamma N = some out ∧ out.length = n ∧
      ∀ (p i : Nat), indices[p]? = some i → ∃ (e k i' : Nat) (rk rl : Collector.Row O A R I) (q : List R), e < c.envNum ∧
        (let stream := (Collector.rowsOf e s.log).map experience
         (Collector.rowsOf e s.log)[k]? = some rk ∧ m.data i = some (expectedRow o (experience rk)) ∧
         (Collector.rowsOf e s.log)[k + (nstepLen stream N k - 1)]? = some rl ∧
         after[p]? = some i' ∧ m.data i' = some (expectedRow o (experience rl)) ∧
         (targetQ after)[p]? = some q ∧ out[p]? = some (q.map (nstepValue stream gamma N k))) := by
  obtain ⟨sep, S⟩ := sync_state c hs b s h h0 hn hrec
  exact nstep_of_embeds s.log c.envNum hm S.reach S.opts (S.embeds (ids_lt c hs b s h)) hlen draw rng n hpos targetQ hQ gamma N hN

/-- **C207: targets**, asynchronous collector. -/
theorem C207_nstep_async [CommRing R] (c : Collector.ACfg σ A O R I H K) (hsch : Collector.Schedule c.wait) (s : Collector.ACol σ A O R I H)
    (h : Collector.AUsage c s) {n0 L : Nat} {o : Opts O} {m0 : Mgr O A R} {past : Cached O A R}
    (h0 : CHistory n0 L o m0 past) (hn : c.base.envNum ≤ n0) (hm : o.stackNum = 1 ∨ o.sampleAvail = false)
    {m : Mgr O A R} {stats : List (R × Nat)} (hrec : asyncCachedRecord (m0.reset false) s.log = .ok (m, stats)) (hlen : 0 < m.len)
    (draw : Nat → Nat) (rng : Nat → Nat → Nat) (n : Nat) (hpos : 0 < n) (targetQ : List Nat → List (List R))
    (hQ : ∀ l, (targetQ l).length = l.length) (gamma : R) (N : Nat) (hN : 0 < N) :
    ∃ (indices after : List Nat) (out : List (List R)), m.sampleIndices draw rng (some n) = .ok indices ∧ indices.length = n ∧
      computeNstepReturn (ofMgr m) n indices targetQ gamma N = some out ∧ out.length = n ∧
      ∀ (p i : Nat), indices[p]? = some i → ∃ (e k i' : Nat) (rk rl : Collector.Row O A R I) (q : List R), e < c.base.envNum ∧
        (let stream := (Collector.rowsOf e s.log).map experience
         (Collector.rowsOf e s.log)[k]? = some rk ∧ m.data i = some (expectedRow o (experience rk)) ∧
         (Collector.rowsOf e s.log)[k + (nstepLen stream N k - 1)]? = some rl ∧
         after[p]? = some i' ∧ m.data i' = some (expectedRow o (experience rl)) ∧
         (targetQ after)[p]? = some q ∧ out[p]? = some (q.map (nstepValue stream gamma N k))) := by
  obtain ⟨sep, S⟩ := async_state c hsch s h h0 hn hrec
  exact nstep_of_embeds s.log c.base.envNum hm S.reach S.opts (S.embeds (async_ids c hsch s h)) hlen draw rng n hpos targetQ hQ gamma N hN

/-- **C207: advantages.** As C193. -/
theorem C207_gae [CommRing R] (c : Collector.Cfg σ A O R I H K) (hs : c.share = false) (b : Bool)
    (s : Collector.Col σ A O R I H) (h : Collector.Usage c b s) {n L : Nat} {o : Opts O} {m0 : Mgr O A R} {past : Cached O A R}
    (h0 : CHistory n L o m0 past) (hn : c.envNum ≤ n) (hm : o.stackNum = 1 ∨ o.sampleAvail = false)
    {m : Mgr O A R} {stats : List (R × Nat)} (hrec : cachedRecord (m0.reset false) s.log = .ok (m, stats))
    (draw : Nat → Nat) (rng : Nat → Nat → Nat) (val val' : Trans O A R → R) (gamma lam : R) (isClose : Bool) :
    ∃ (indices : List Nat) (ret adv : List R), m.sampleIndices draw rng (some 0) = .ok indices ∧
      computeEpisodicReturn (ofMgr m) (rowsAt m.data indices) indices
        (some (indices.map fun i => ((m.data i).map val').getD 0)) (some (indices.map fun i => ((m.data i).map val).getD 0))
        gamma lam isClose = some (ret, adv) ∧ adv.length = indices.length ∧
      ∀ (p i : Nat), indices[p]? = some i → ∃ (e k : Nat) (rk : Collector.Row O A R I), e < c.envNum ∧
        (Collector.rowsOf e s.log)[k]? = some rk ∧ m.data i = some (expectedRow o (experience rk)) ∧
        adv[p]? = some (streamGae ((Collector.rowsOf e s.log).map fun r => expectedRow o (experience r)) gamma lam val val' k) := by
  obtain ⟨sep, S⟩ := sync_state c hs b s h h0 hn hrec
  exact gae_of_embeds s.log c.envNum hm S.reach S.opts (S.embeds (ids_lt c hs b s h)) draw rng val val' gamma lam isClose

/-- **C207: advantages**, asynchronous collector. -/
theorem C207_gae_async [CommRing R] (c : Collector.ACfg σ A O R I H K) (hsch : Collector.Schedule c.wait) (s : Collector.ACol σ A O R I H)
    (h : Collector.AUsage c s) {n L : Nat} {o : Opts O} {m0 : Mgr O A R} {past : Cached O A R}
    (h0 : CHistory n L o m0 past) (hn : c.base.envNum ≤ n) (hm : o.stackNum = 1 ∨ o.sampleAvail = false)
    {m : Mgr O A R} {stats : List (R × Nat)} (hrec : asyncCachedRecord (m0.reset false) s.log = .ok (m, stats))
    (draw : Nat → Nat) (rng : Nat → Nat → Nat) (val val' : Trans O A R → R) (gamma lam : R) (isClose : Bool) :
    ∃ (indices : List Nat) (ret adv : List R), m.sampleIndices draw rng (some 0) = .ok indices ∧
      computeEpisodicReturn (ofMgr m) (rowsAt m.data indices) indices
        (some (indices.map fun i => ((m.data i).map val').getD 0)) (some (indices.map fun i => ((m.data i).map val).getD 0))
        gamma lam isClose = some (ret, adv) ∧ adv.length = indices.length ∧
      ∀ (p i : Nat), indices[p]? = some i → ∃ (e k : Nat) (rk : Collector.Row O A R I), e < c.base.envNum ∧
        (Collector.rowsOf e s.log)[k]? = some rk ∧ m.data i = some (expectedRow o (experience rk)) ∧
        adv[p]? = some (streamGae ((Collector.rowsOf e s.log).map fun r => expectedRow o (experience r)) gamma lam val val' k) := by
  obtain ⟨sep, S⟩ := async_state c hsch s h h0 hn hrec
  exact gae_of_embeds s.log c.base.envNum hm S.reach S.opts (S.embeds (async_ids c hsch s h)) draw rng val val' gamma lam isClose

/-! ### C208 -/

section
variable [AddCommMonoid R]

/-- **C208 (partial).** If the main part is larger than a cache, the collections return. Their `returns` are the reward sums of the episodes that ended, in the
order in which they ended; their `lens` are the lengths of these episodes, cut to the size of a cache. Missing: the lengths of longer
episodes (`C208_violated`) and main parts that are not larger than a cache (`C208_raises`). -/
theorem C208_partial (c : Collector.Cfg σ A O R I H K) (hs : c.share = false) (b : Bool) (s : Collector.Col σ A O R I H)
    (h : Collector.Usage c b s) {n L : Nat} {o : Opts O} {m0 : Mgr O A R} {past : Cached O A R} (h0 : CHistory n L o m0 past)
    (hn : c.envNum ≤ n) (hL : L < mainSize m0)
    (old new : List (List (Nat × Collector.Row O A R I))) (hlog : s.log = old ++ new) :
    ∃ m m' stats, cachedRecord (m0.reset false) old = .ok (m, stats) ∧
      cachedRecord m new = .ok (m', (finishedEpisodes old.flatten new.flatten).map fun x => (x.1, min L x.2)) := by
  obtain ⟨sep, S, hLpos⟩ := cstate_reset (I := I) h0
  have hid := ids_lt c hs b s h
  have hnd := sync_distinct c hs b s h
  rw [hlog] at hid hnd
  rw [List.flatten_append] at hid
  obtain ⟨m, sep1, h1, h2⟩ := cached_record hLpos hL old S
    (fun p hp => Nat.lt_of_lt_of_le (hid p (List.mem_append_left _ hp)) hn) (fun r hr => hnd r (List.mem_append_left _ hr))
  obtain ⟨m', sep2, h3, h4⟩ := cached_record hLpos hL new h2
    (fun p hp => Nat.lt_of_lt_of_le (hid p (List.mem_append_right _ hp)) hn) (fun r hr => hnd r (List.mem_append_right _ hr))
  exact ⟨m, m', _, h1, h3⟩

/-- **C208**, asynchronous collector: adding never fails, and `returns` and `lens` are the reward sums and lengths of the episodes that ended, whatever the
sizes of the parts of the buffer. -/
theorem C208_async (c : Collector.ACfg σ A O R I H K) (hsch : Collector.Schedule c.wait) (s : Collector.ACol σ A O R I H)
    (h : Collector.AUsage c s) {n L : Nat} {o : Opts O} {m0 : Mgr O A R} {past : Cached O A R} (h0 : CHistory n L o m0 past)
    (hn : c.base.envNum ≤ n) (old new : List (List (Nat × Collector.Row O A R I))) (hlog : s.log = old ++ new) :
    ∃ m m', asyncCachedRecord (m0.reset false) old = .ok (m, finishedEpisodes [] old.flatten) ∧
      asyncCachedRecord m new = .ok (m', finishedEpisodes old.flatten new.flatten) := by
  obtain ⟨sep, S, hLpos⟩ := cstate_reset (I := I) h0
  have hid := async_ids c hsch s h
  have hnd := async_distinct c hsch s h
  rw [hlog] at hid hnd
  rw [List.flatten_append] at hid
  obtain ⟨m, sep1, h1, h2⟩ := async_cached_record hLpos old S
    (fun p hp => Nat.lt_of_lt_of_le (hid p (List.mem_append_left _ hp)) hn) (fun r hr => hnd r (List.mem_append_left _ hr))
  obtain ⟨m', sep2, h3, h4⟩ := async_cached_record hLpos new h2
    (fun p hp => Nat.lt_of_lt_of_le (hid p (List.mem_append_right _ hp)) hn) (fun r hr => hnd r (List.mem_append_right _ hr))
  exact ⟨m, m', h1, h3⟩

end

/-! ### Examples -/

/-- A main part of `M` slots and two caches of `L` slots. -/
def exCachedBuffer (M L : Nat) : Mgr Nat Nat Int := Mgr.newCached M 2 L {}

theorem exCachedBuffer_history (M L : Nat) (hM : 0 < M) (hL : 0 < L) : CHistory 2 L {} (exCachedBuffer M L) ⟨[], fun _ => []⟩ :=
  .new M hM hL

/-- The world of C193, a main part of seven slots and caches of three. The main part has wrapped around; the newest but one episode begins at slot 5
and ends at slot 0. Slots 7 and 8 hold the unfinished episode of environment 0, slots 10 to 12 that of environment 1. -/
example : (exHistory 8).map (fun s => ((cachedRecord ((exCachedBuffer 7 3).reset false) s.log).toOption.map fun p =>
      (p.2, (List.range 13).map fun i => (p.1.data i).map Trans.rew))) =
    some (some ([(1, 1), (3, 2), (3, 2), (6, 3), (6, 3)],
      [some 3, some 1, some 2, some 3, some 2, some 1, some 2, some 1, some 2, some 3, some 1, some 2, some 3])) := by decide +kernel

/-- Two-step targets of the main part with discount 10 and bootstrap value 1000. -/
example : (exHistory 8).map (fun s => ((cachedRecord ((exCachedBuffer 7 3).reset false) s.log).toOption.bind fun p =>
      computeNstepReturn (ofMgr p.1) 7 [0, 1, 2, 3, 4, 5, 6] (fun l => l.map fun _ => [1000]) 10 2)) =
    some (some [[3], [1 + 10 * 2 + 100 * 1000], [2 + 10 * 3], [3], [2], [1 + 10 * 2 + 100 * 1000], [2 + 10 * 3]]) := by decide +kernel

/-- Advantages with discount 10, lambda 1, value 0 before each step and 1000 after it. -/
example : (exHistory 8).map (fun s => ((cachedRecord ((exCachedBuffer 7 3).reset false) s.log).toOption.bind fun p =>
      ((p.1.sampleIndices (fun _ => 0) (fun _ _ => 0) (some 0)).toOption.bind fun indices =>
        (computeEpisodicReturn (ofMgr p.1) (rowsAt p.1.data indices) indices (some (indices.map fun _ => 1000))
          (some (indices.map fun _ => 0)) 10 1 false).map fun q => (indices, q.2)))) =
    some (some ([4, 5, 6, 0, 1, 2, 3, 7, 8, 10, 11, 12],
      [2, 110321, 10032, 3, 110321, 10032, 3, 110021, 10002, 1110321, 110032, 10003])) := by decide +kernel

/-- The asynchronous collector with a buffer whose parts are all smaller than the episodes. -/
example : (exAsyncHistory 8).map (fun s => ((asyncCachedRecord ((exCachedBuffer 2 2).reset false) s.log).toOption.map fun p =>
      (p.2, (List.range 6).map fun i => (p.1.data i).map Trans.rew))) =
    some (some ([(1, 1), (3, 2), (3, 2), (6, 3), (6, 3)], [some 3, some 2, some 3, some 2, some 3, some 2])) := by decide +kernel

example : mainSize (exCachedBuffer 7 3) = 7 := by decide

/-- **C208 is violated** by episodes longer than a cache: their lengths are reported as the size of the cache. -/
theorem C208_violated : ∃ (s : Collector.Col (Nat × Nat) Nat Nat Int Nat Nat) (m : Mgr Nat Nat Int) (stats : List (Int × Nat)),
    Collector.Usage exCfg false s ∧ CHistory 2 2 {} (exCachedBuffer 7 2) ⟨[], fun _ => []⟩ ∧
    cachedRecord ((exCachedBuffer 7 2).reset false) s.log = .ok (m, stats) ∧
    finishedEpisodes [] s.log.flatten = [(1, 1), (3, 2), (3, 2), (6, 3), (6, 3)] ∧
    stats = [(1, 1), (3, 2), (3, 2), (6, 2), (6, 2)] := by
  have h : (exHistory 8).map (fun s => ((cachedRecord ((exCachedBuffer 7 2).reset false) s.log).toOption.map Prod.snd,
      finishedEpisodes [] s.log.flatten)) = some (some [(1, 1), (3, 2), (3, 2), (6, 2), (6, 2)],
        [(1, 1), (3, 2), (3, 2), (6, 3), (6, 3)]) := by decide +kernel
  rw [Option.map_eq_some_iff] at h
  obtain ⟨s, h1, h2⟩ := h
  rw [Prod.mk.injEq, Option.map_eq_some_iff] at h2
  obtain ⟨⟨⟨m, stats⟩, h3, rfl⟩, h4⟩ := h2
  refine ⟨s, m, _, exHistory_usage 8 s h1, exCachedBuffer_history _ _ (by decide) (by decide), ?_, h4, rfl⟩
  cases hr : cachedRecord ((exCachedBuffer 7 2).reset false) s.log with
  | error e => rw [hr] at h3; cases h3
  | ok q => rw [hr] at h3; cases h3; rfl

/-- **C208 is violated** by a main part that an episode fills without beginning at its first slot: the collection raises. Here the main part has
two slots, and an episode of one step is followed by one of two steps. -/
theorem C208_raises : ∃ (s : Collector.Col (Nat × Nat) Nat Nat Int Nat Nat),
    Collector.Usage exCfg false s ∧ CHistory 2 2 {} (exCachedBuffer 2 2) ⟨[], fun _ => []⟩ ∧
    finishedEpisodes [] s.log.flatten = [(1, 1), (3, 2), (3, 2)] ∧
    cachedRecord ((exCachedBuffer 2 2).reset false) s.log = .error .valueError := by
  have h : (exHistory 4).map (fun s => ((match cachedRecord ((exCachedBuffer 2 2).reset false) s.log with
      | .error .valueError => true
      | _ => false), finishedEpisodes [] s.log.flatten)) = some (true, [(1, 1), (3, 2), (3, 2)]) := by decide +kernel
  rw [Option.map_eq_some_iff] at h
  obtain ⟨s, h1, h2⟩ := h
  rw [Prod.mk.injEq] at h2
  refine ⟨s, exHistory_usage 4 s h1, exCachedBuffer_history _ _ (by decide) (by decide), h2.2, ?_⟩
  have h3 := h2.1
  split at h3
  · rename_i he; exact he
  · cases h3

end Verif.Pipeline
