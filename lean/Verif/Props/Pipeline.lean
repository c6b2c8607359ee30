import Verif.Lemmas.Embeds
import Verif.Props.Collector

/-!
# From the environments to the targets (properties C193, C194)

A collector in ordinary use (`Collector.Usage`) and the vector buffer it fills, from its reset on: `record (m0.reset false) s.log`
is the buffer after the logged rounds, together with the entries `returns` and `lens` of the statistics.
-/

namespace Verif.Pipeline

open Verif.Buffer Verif.Spec Verif.Returns

set_option linter.unusedSectionVars false

variable {σ A O R I H K : Type}

section
variable [AddCommMonoid R]

/-- Capacity of sub-buffer `e`. -/
def sizeOf (sep : List (Buf O A R)) (e : Nat) : Nat := ((sep[e]?).map fun c => c.idx.maxsize).getD 0

theorem ids_lt (c : Collector.Cfg σ A O R I H K) (hs : c.share = false) (b : Bool) (s : Collector.Col σ A O R I H)
    (h : Collector.Usage c b s) : ∀ p ∈ s.log.flatten, p.1 < c.envNum := by
  intro p hp
  by_contra hc
  have := (Collector.C61_trajectories_partial c hs b s h).2 p.1 (by omega)
  unfold Collector.rowsOf at this
  rw [List.map_eq_nil_iff, List.filter_eq_nil_iff] at this
  exact this p hp (by simp)

/-- The vector buffer `m` is `m0`, reset, after adding the rounds `log`. -/
def Filled (m0 : Mgr O A R) (sep0 : List (Buf O A R)) (log : List (List (Nat × Collector.Row O A R I))) (m : Mgr O A R) : Prop :=
  ∃ sep, Reach m sep ∧ m.opts = m0.opts ∧ sep.length = sep0.length ∧
    Follows m0.opts (sizeOf sep0) sep (fun e => (Collector.rowsOf e log).map experience)

theorem filled_of_record (log : List (List (Nat × Collector.Row O A R I))) (n : Nat) (hid : ∀ p ∈ log.flatten, p.1 < n)
    {m0 : Mgr O A R} {sep0 : List (Buf O A R)} (h0 : Reach m0 sep0) (hn : n ≤ sep0.length)
    {m : Mgr O A R} {stats : List (R × Nat)} (hrec : record (m0.reset false) log = .ok (m, stats)) : Filled m0 sep0 log m := by
  obtain ⟨sep, r1, r2, r3, r4, _⟩ := (record_spec log [] (h0.reset false) (follows_reset h0) (by intro e; rfl)
    (by intro p hp; rw [List.length_map]; exact Nat.lt_of_lt_of_le (hid p hp) hn)).1 _ _ hrec
  refine ⟨sep, r1, r2, by rw [r3, List.length_map], ?_⟩
  have hrows : (fun e => (Collector.rowsOf e [[] ++ log.flatten]).map (experience (O := O) (A := A) (R := R))) =
      fun e => (Collector.rowsOf e log).map experience := by
    funext e
    simp [Collector.rowsOf]
  rw [hrows] at r4
  exact r4

/-- What the vector buffer holds after any rounds. -/
theorem content_of_log (log : List (List (Nat × Collector.Row O A R I))) (n : Nat) (hid : ∀ p ∈ log.flatten, p.1 < n)
    {m0 : Mgr O A R} {sep0 : List (Buf O A R)}
    {m : Mgr O A R} (hrec : Filled m0 sep0 log m) :
    ∃ sep, Reach m sep ∧ m.opts = m0.opts ∧ sep.length = sep0.length ∧ ∀ (e : Nat) (cb : Buf O A R), sep[e]? = some cb →
      cb.opts = m0.opts ∧ cb.idx.maxsize = sizeOf sep0 e ∧
      stored cb = lastN (sizeOf sep0 e) ((Collector.rowsOf e log).map fun r => expectedRow m0.opts (experience r)) ∧
      (n ≤ e → stored cb = []) := by
  obtain ⟨sep, r1, r2, r3, r4⟩ := hrec
  refine ⟨sep, r1, r2, r3, ?_⟩
  intro e cb hcb
  obtain ⟨f1, f2, f3⟩ := r4 e cb hcb
  have hst : stored cb = lastN (sizeOf sep0 e) ((Collector.rowsOf e log).map fun r => expectedRow m0.opts (experience r)) := by
    rw [stored_content f3, content, f2]
    simp only [ghostOf, List.map_map]
    rfl
  refine ⟨f1, f2, hst, ?_⟩
  intro he
  have : Collector.rowsOf e log = [] := by
    unfold Collector.rowsOf
    rw [List.map_eq_nil_iff, List.filter_eq_nil_iff]
    intro p hp
    have := hid p hp
    simp only [decide_eq_true_eq]
    omega
  rw [hst, this]
  simp [lastN]

/-- **C193: content.** Whatever a collector in ordinary use has done since its buffer was reset, sub-buffer `e` of its vector buffer
holds the most recent transitions of environment `e`, as many as fit, in order, and they are the end of a record of what this
environment went through. -/
theorem C193_content (c : Collector.Cfg σ A O R I H K) (hs : c.share = false) (b : Bool) (s : Collector.Col σ A O R I H)
    (h : Collector.Usage c b s) {m0 : Mgr O A R} {sep0 : List (Buf O A R)} (h0 : Reach m0 sep0) (hn : c.envNum ≤ sep0.length)
    {m : Mgr O A R} {stats : List (R × Nat)} (hrec : record (m0.reset false) s.log = .ok (m, stats)) :
    ∃ sep, Reach m sep ∧ m.opts = m0.opts ∧ sep.length = sep0.length ∧ ∀ (e : Nat) (cb : Buf O A R), sep[e]? = some cb →
      cb.opts = m0.opts ∧ cb.idx.maxsize = sizeOf sep0 e ∧
      stored cb = lastN (sizeOf sep0 e) ((Collector.rowsOf e s.log).map fun r => expectedRow m0.opts (experience r)) ∧
      (e < c.envNum → ∃ start now, Collector.JustReset c.env start ∧ Collector.Trajectory c.env start (Collector.rowsOf e s.log) now) ∧
      (c.envNum ≤ e → stored cb = []) := by
  obtain ⟨sep, r1, r2, r3, r4⟩ := content_of_log s.log c.envNum (ids_lt c hs b s h)
    (filled_of_record _ _ (ids_lt c hs b s h) h0 hn hrec)
  refine ⟨sep, r1, r2, r3, ?_⟩
  intro e cb hcb
  obtain ⟨f1, f2, f3, f4⟩ := r4 e cb hcb
  refine ⟨f1, f2, f3, ?_, f4⟩
  intro he
  obtain ⟨start, now, u1, u2, _⟩ := (Collector.C61_trajectories_partial c hs b s h).1 e he
  exact ⟨start, now, u1, u2⟩

end

/-! ### A small world, used to show that the hypotheses can be met -/

/-- Each episode is one step longer than the one before; the rewards are 1, 2, 3, ... -/
def exEnv : Collector.Env (Nat × Nat) Nat Nat Int Nat Unit where
  step := fun s _ => ((s.1, s.2 + 1), ⟨100 * s.1 + s.2 + 1, (s.2 : Int) + 1, Nat.ble s.1 (s.2 + 1), false, 0⟩)
  reset := fun _ s => ((s.1 + 1, 0), 100 * (s.1 + 1), 0)

/-- Two environments; the first episode of environment `e` has `e + 1` steps. -/
def exCfg : Collector.Cfg (Nat × Nat) Nat Nat Int Nat Nat Unit where
  env := exEnv
  policy := ⟨fun _ obs _ _ => (obs, none), fun _ acts _ => acts, id, id, fun _ _ => 0⟩
  envNum := 2
  noise := false
  share := false
  hiddenKind := .arrayOrBatch
  zeroHidden := 0
  isAsync := false

/-- A reset followed by two collections of `n` steps each. -/
def exHistory (n : Int) : Option (Collector.Col (Nat × Nat) Nat Nat Int Nat Nat) :=
  (Collector.after (Collector.collect exCfg (some n) none false false () 100
    (Collector.reset exCfg true true () { world := ⟨fun e => (e, 7), fun _ => 0⟩ }))).bind fun s =>
  Collector.after (Collector.collect exCfg (some n) none false false () 100 s)

theorem exHistory_usage (n : Int) (s : Collector.Col (Nat × Nat) Nat Nat Int Nat Nat) (h : exHistory n = some s) :
    Collector.Usage exCfg false s := by
  unfold exHistory at h
  rw [Option.bind_eq_some_iff] at h
  obtain ⟨s1, e1, e2⟩ := h
  obtain ⟨t1, e1⟩ := Collector.after_some e1
  obtain ⟨t2, e2⟩ := Collector.after_some e2
  exact .steps (.steps (.reset (.built _) true ()) n false false (by simp) () 100 t1 e1) n false false (by simp) () 100 t2 e2

/-- Sub-buffers with the given capacities. -/
def exBuffer (sizes : List Nat) : Mgr Nat Nat Int := Mgr.new sizes {}

theorem exBuffer_reach (sizes : List Nat) (h : ∀ s ∈ sizes, 0 < s) :
    Reach (exBuffer sizes) (sizes.map fun s => Buf.new s {}) := .new sizes h {}

/-- Eight steps; the episodes of environment 0 have 1, 2, 3 and (so far) 2 steps, those of environment 1 2, 3 and (so far) 3
steps. Both sub-buffers have wrapped around. -/
example : (exHistory 8).map (fun s => ((record ((exBuffer [4, 5]).reset false) s.log).toOption.map fun p =>
      (p.2, (List.range 9).map fun i => (p.1.data i).map Trans.rew))) =
    some (some ([(1, 1), (3, 2), (3, 2), (6, 3), (6, 3)],
      [some 2, some 3, some 1, some 2, some 1, some 2, some 3, some 2, some 3])) := by decide +kernel

/-- Two-step targets with discount 10 and bootstrap value 1000. Slot 2 holds the newest but one step of environment 0, slot 1 the last
step of its third episode, slot 8 the last step of an episode of environment 1, slot 7 the step before it. -/
example : (exHistory 8).map (fun s => ((record ((exBuffer [4, 5]).reset false) s.log).toOption.bind fun p =>
      computeNstepReturn (ofMgr p.1) 5 [2, 1, 3, 8, 7] (fun l => l.map fun _ => [1000]) 10 2)) =
    some (some [[1 + 10 * 2 + 100 * 1000], [3], [2 + 10 * 1000], [3], [2 + 10 * 3]]) := by decide +kernel

/-- Sub-buffer `e` holds the end of the stream of environment `e`. -/
theorem embeds_of_follows [AddCommMonoid R] (log : List (List (Nat × Collector.Row O A R I))) (num : Nat)
    (hid : ∀ p ∈ log.flatten, p.1 < num) {o : Opts O} {size : Nat → Nat} {sep : List (Buf O A R)}
    (h : Follows o size sep fun e => (Collector.rowsOf e log).map experience) : Embeds o num log sep := by
  intro e cb hb
  obtain ⟨o1, o2, f3⟩ := h e cb hb
  have o3 : stored cb = lastN (size e) ((Collector.rowsOf e log).map fun r => expectedRow o (experience r)) := by
    rw [stored_content f3, content, o2]
    simp only [ghostOf, List.map_map]
    rfl
  refine ⟨o1, ?_⟩
  intro k hk
  have he : e < num := by
    by_contra hc
    have : Collector.rowsOf e log = [] := by
      unfold Collector.rowsOf
      rw [List.map_eq_nil_iff, List.filter_eq_nil_iff]
      intro p hp
      have := hid p hp
      simp only [decide_eq_true_eq]
      omega
    rw [o3, this] at hk
    simp [lastN] at hk
  have hlen := congrArg List.length o3
  rw [lastN, List.length_drop, List.length_map] at hlen
  refine ⟨e, (Collector.rowsOf e log).length - size e + k, he, by omega, ?_⟩
  rw [o3, lastN, List.length_map, rest_drop _ _ _ (by rw [List.length_map]; omega)]

/-- The same for a vector buffer that was filled. -/
theorem embeds_of_filled [AddCommMonoid R] (log : List (List (Nat × Collector.Row O A R I))) (num : Nat)
    (hid : ∀ p ∈ log.flatten, p.1 < num) {m0 : Mgr O A R} {sep0 : List (Buf O A R)} {m : Mgr O A R} (hrec : Filled m0 sep0 log m) :
    ∃ sep, Reach m sep ∧ m.opts = m0.opts ∧ Embeds m0.opts num log sep := by
  obtain ⟨sep, r1, r2, _, r4⟩ := hrec
  exact ⟨sep, r1, r2, embeds_of_follows log num hid r4⟩

/-- The targets computed after any rounds. -/
theorem nstep_of_log [CommRing R] (log : List (List (Nat × Collector.Row O A R I))) (num : Nat)
    (hid : ∀ p ∈ log.flatten, p.1 < num) {m0 : Mgr O A R} {sep0 : List (Buf O A R)}
    (hm : m0.opts.stackNum = 1 ∨ m0.opts.sampleAvail = false)
    {m : Mgr O A R} (hrec : Filled m0 sep0 log m) (hlen : 0 < m.len)
    (draw : Nat → Nat) (rng : Nat → Nat → Nat) (n : Nat) (hpos : 0 < n) (targetQ : List Nat → List (List R))
    (hQ : ∀ l, (targetQ l).length = l.length) (gamma : R) (N : Nat) (hN : 0 < N) :
    ∃ (indices after : List Nat) (out : List (List R)), m.sampleIndices draw rng (some n) = .ok indices ∧ indices.length = n ∧
      computeNstepReturn (ofMgr m) n indices targetQ gamma N = some out ∧ out.length = n ∧
      ∀ (p i : Nat), indices[p]? = some i → ∃ (e k i' : Nat) (rk rl : Collector.Row O A R I) (q : List R), e < num ∧
        (let stream := (Collector.rowsOf e log).map experience
         (Collector.rowsOf e log)[k]? = some rk ∧ m.data i = some (expectedRow m0.opts (experience rk)) ∧
         (Collector.rowsOf e log)[k + (nstepLen stream N k - 1)]? = some rl ∧
         after[p]? = some i' ∧ m.data i' = some (expectedRow m0.opts (experience rl)) ∧
         (targetQ after)[p]? = some q ∧ out[p]? = some (q.map (nstepValue stream gamma N k))) := by
  obtain ⟨sep, r1, ro, r2⟩ := embeds_of_filled log num hid hrec
  exact nstep_of_embeds log num hm r1 ro r2 hlen draw rng n hpos targetQ hQ gamma N hN


/-- **C193: targets.** Any batch sampled from this buffer: every index holds step `k` of some environment `e`; its `N`-step target is
the discounted sum of the rewards this environment gave from step `k` on, up to `N` steps or the end of the episode or the newest
step, and the bootstrap value asked for is that of a row holding the last of these steps; it does not count if that step
terminated. -/
theorem C193_nstep [CommRing R] (c : Collector.Cfg σ A O R I H K) (hs : c.share = false) (b : Bool)
    (s : Collector.Col σ A O R I H) (h : Collector.Usage c b s) {m0 : Mgr O A R} {sep0 : List (Buf O A R)} (h0 : Reach m0 sep0)
    (hn : c.envNum ≤ sep0.length) (hm : m0.opts.stackNum = 1 ∨ m0.opts.sampleAvail = false)
    {m : Mgr O A R} {stats : List (R × Nat)} (hrec : record (m0.reset false) s.log = .ok (m, stats)) (hlen : 0 < m.len)
    (draw : Nat → Nat) (rng : Nat → Nat → Nat) (n : Nat) (hpos : 0 < n) (targetQ : List Nat → List (List R))
    (hQ : ∀ l, (targetQ l).length = l.length) (gamma : R) (N : Nat) (hN : 0 < N) :
    ∃ (indices after : List Nat) (out : List (List R)), m.sampleIndices draw rng (some n) = .ok indices ∧ indices.length = n ∧
      computeNstepReturn (ofMgr m) n indices targetQ gamma N = some out ∧ out.length = n ∧
      ∀ (p i : Nat), indices[p]? = some i → ∃ (e k i' : Nat) (rk rl : Collector.Row O A R I) (q : List R), e < c.envNum ∧
        (let stream := (Collector.rowsOf e s.log).map experience
         (Collector.rowsOf e s.log)[k]? = some rk ∧ m.data i = some (expectedRow m0.opts (experience rk)) ∧
         (Collector.rowsOf e s.log)[k + (nstepLen stream N k - 1)]? = some rl ∧
         after[p]? = some i' ∧ m.data i' = some (expectedRow m0.opts (experience rl)) ∧
         (targetQ after)[p]? = some q ∧ out[p]? = some (q.map (nstepValue stream gamma N k))) := by
  exact nstep_of_log s.log c.envNum (ids_lt c hs b s h) hm (filled_of_record _ _ (ids_lt c hs b s h) h0 hn hrec) hlen draw rng n hpos targetQ hQ gamma N hN

/-- The advantages computed after any rounds. -/
theorem gae_of_log [CommRing R] (log : List (List (Nat × Collector.Row O A R I))) (num : Nat)
    (hid : ∀ p ∈ log.flatten, p.1 < num) {m0 : Mgr O A R} {sep0 : List (Buf O A R)}
    (hm : m0.opts.stackNum = 1 ∨ m0.opts.sampleAvail = false)
    {m : Mgr O A R} (hrec : Filled m0 sep0 log m)
    (draw : Nat → Nat) (rng : Nat → Nat → Nat) (val val' : Trans O A R → R) (gamma lam : R) (isClose : Bool) :
    ∃ (indices : List Nat) (ret adv : List R), m.sampleIndices draw rng (some 0) = .ok indices ∧
      computeEpisodicReturn (ofMgr m) (rowsAt m.data indices) indices
        (some (indices.map fun i => ((m.data i).map val').getD 0)) (some (indices.map fun i => ((m.data i).map val).getD 0))
        gamma lam isClose = some (ret, adv) ∧ adv.length = indices.length ∧
      ∀ (p i : Nat), indices[p]? = some i → ∃ (e k : Nat) (rk : Collector.Row O A R I), e < num ∧
        (Collector.rowsOf e log)[k]? = some rk ∧ m.data i = some (expectedRow m0.opts (experience rk)) ∧
        adv[p]? = some (streamGae ((Collector.rowsOf e log).map fun r => expectedRow m0.opts (experience r)) gamma lam val val' k) := by
  obtain ⟨sep, r1, ro, r2⟩ := embeds_of_filled log num hid hrec
  exact gae_of_embeds log num hm r1 ro r2 draw rng val val' gamma lam isClose


/-- **C193: advantages.** For all data of this buffer, in the order in which on-policy algorithms read them: every index holds
step `k` of some environment `e`, and its advantage is the generalised advantage estimate along the stream of this environment's
transitions, up to the end of the episode or the newest step. The critic may give any values to the states before and after the
stored transitions. -/
theorem C193_gae [CommRing R] (c : Collector.Cfg σ A O R I H K) (hs : c.share = false) (b : Bool)
    (s : Collector.Col σ A O R I H) (h : Collector.Usage c b s) {m0 : Mgr O A R} {sep0 : List (Buf O A R)} (h0 : Reach m0 sep0)
    (hn : c.envNum ≤ sep0.length) (hm : m0.opts.stackNum = 1 ∨ m0.opts.sampleAvail = false)
    {m : Mgr O A R} {stats : List (R × Nat)} (hrec : record (m0.reset false) s.log = .ok (m, stats))
    (draw : Nat → Nat) (rng : Nat → Nat → Nat) (val val' : Trans O A R → R) (gamma lam : R) (isClose : Bool) :
    ∃ (indices : List Nat) (ret adv : List R), m.sampleIndices draw rng (some 0) = .ok indices ∧
      computeEpisodicReturn (ofMgr m) (rowsAt m.data indices) indices
        (some (indices.map fun i => ((m.data i).map val').getD 0)) (some (indices.map fun i => ((m.data i).map val).getD 0))
        gamma lam isClose = some (ret, adv) ∧ adv.length = indices.length ∧
      ∀ (p i : Nat), indices[p]? = some i → ∃ (e k : Nat) (rk : Collector.Row O A R I), e < c.envNum ∧
        (Collector.rowsOf e s.log)[k]? = some rk ∧ m.data i = some (expectedRow m0.opts (experience rk)) ∧
        adv[p]? = some (streamGae ((Collector.rowsOf e s.log).map fun r => expectedRow m0.opts (experience r)) gamma lam val val' k) := by
  exact gae_of_log s.log c.envNum (ids_lt c hs b s h) hm (filled_of_record _ _ (ids_lt c hs b s h) h0 hn hrec) draw rng val val' gamma lam isClose

/-- The advantages (discount 10, lambda 1, value 0 before each step and 1000 after it) of the transitions of the example: those of environment 0, then of environment 1. -/
example : (exHistory 8).map (fun s => ((record ((exBuffer [4, 5]).reset false) s.log).toOption.bind fun p =>
      ((p.1.sampleIndices (fun _ => 0) (fun _ _ => 0) (some 0)).toOption.bind fun indices =>
        (computeEpisodicReturn (ofMgr p.1) (rowsAt p.1.data indices) indices (some (indices.map fun _ => 1000))
          (some (indices.map fun _ => 0)) 10 1 false).map fun q => (indices, q.2)))) =
    some (some ([0, 1, 2, 3, 7, 8, 4, 5, 6],
      [10032, 3, 110021, 10002, 10032, 3, 1110321, 110032, 10003])) := by decide +kernel

/-! ### C194 -/

section
variable [AddCommMonoid R]

/-- **C194 (partial): returns.** A collection adds the rounds `new`. If the collections have returned, the `returns` of the statistics of this
one are the reward sums of the episodes that ended in it, in the order in which they ended, steps made in earlier collections
included. -/
theorem C194_returns_partial (c : Collector.Cfg σ A O R I H K) (hs : c.share = false) (b : Bool) (s : Collector.Col σ A O R I H)
    (h : Collector.Usage c b s) {m0 : Mgr O A R} {sep0 : List (Buf O A R)} (h0 : Reach m0 sep0) (hn : c.envNum ≤ sep0.length)
    (old new : List (List (Nat × Collector.Row O A R I))) (hlog : s.log = old ++ new) {m m' : Mgr O A R} {stats stats' : List (R × Nat)}
    (hold : record (m0.reset false) old = .ok (m, stats)) (hnew : record m new = .ok (m', stats')) :
    stats'.map Prod.fst = (finishedEpisodes old.flatten new.flatten).map Prod.fst := by
  have hid := ids_lt c hs b s h
  rw [hlog, List.flatten_append] at hid
  obtain ⟨sep, r1, r2, r3, r4, _⟩ := (record_spec old [] (h0.reset false) (follows_reset h0) (by intro e; rfl)
    (by intro p hp; rw [List.length_map]; exact Nat.lt_of_lt_of_le (hid p (List.mem_append_left _ hp)) hn)).1 _ _ hold
  obtain ⟨_, _, _, _, _, r5⟩ := (record_spec new old.flatten r1 r4 (by intro e; rfl)
    (by intro p hp; rw [r3, List.length_map]; exact Nat.lt_of_lt_of_le (hid p (List.mem_append_right _ hp)) hn)).1 _ _ hnew
  exact r5

/-- **C194 (partial).** If every episode is shorter than the sub-buffer of its environment, the collections return, and the `returns`
and `lens` of their statistics are the reward sums and lengths of the episodes that ended. Missing: episodes that fill or
overfill their sub-buffer (`C194_violated`, `C194_raises`). -/
theorem C194_partial (c : Collector.Cfg σ A O R I H K) (hs : c.share = false) (b : Bool) (s : Collector.Col σ A O R I H)
    (h : Collector.Usage c b s) {m0 : Mgr O A R} {sep0 : List (Buf O A R)} (h0 : Reach m0 sep0) (hn : c.envNum ≤ sep0.length)
    (old new : List (List (Nat × Collector.Row O A R I))) (hlog : s.log = old ++ new)
    (hfit : EpisodesFit (sizeOf sep0) [] s.log.flatten) :
    ∃ m m', record (m0.reset false) old = .ok (m, finishedEpisodes [] old.flatten) ∧
      record m new = .ok (m', finishedEpisodes old.flatten new.flatten) := by
  have hid := ids_lt c hs b s h
  rw [hlog, List.flatten_append] at hid hfit
  rw [fit_append] at hfit
  have hspec := record_spec old [] (h0.reset false) (follows_reset h0) (by intro e; rfl)
    (by intro p hp; rw [List.length_map]; exact Nat.lt_of_lt_of_le (hid p (List.mem_append_left _ hp)) hn)
  obtain ⟨m, hm⟩ := hspec.2 hfit.1
  obtain ⟨sep, r1, r2, r3, r4, _⟩ := hspec.1 _ _ hm
  obtain ⟨m', hm'⟩ := (record_spec new old.flatten r1 r4 (by intro e; rfl)
    (by intro p hp; rw [r3, List.length_map]; exact Nat.lt_of_lt_of_le (hid p (List.mem_append_right _ hp)) hn)).2 hfit.2
  exact ⟨m, m', hm, hm'⟩

end

/-- The episodes of the example fit; the statistics of the second collection include steps of the first. -/
example : (exHistory 8).map (fun s => (finishedEpisodes [] s.log.flatten, finishedEpisodes (s.log.take 4).flatten (s.log.drop 4).flatten)) =
    some ([(1, 1), (3, 2), (3, 2), (6, 3), (6, 3)], [(6, 3), (6, 3)]) := by decide +kernel

example : ∃ s, exHistory 8 = some s ∧ EpisodesFit (sizeOf ([4, 5].map fun s => (Buf.new s {} : Buf Nat Nat Int))) [] s.log.flatten := by
  have h : (exHistory 8).map (fun s =>
      decide (EpisodesFit (sizeOf ([4, 5].map fun s => (Buf.new s {} : Buf Nat Nat Int))) [] s.log.flatten)) = some true := by decide +kernel
  rw [Option.map_eq_some_iff] at h
  obtain ⟨s, h1, h2⟩ := h
  exact ⟨s, h1, of_decide_eq_true h2⟩

/-- **C194 is violated** by an episode longer than its sub-buffer: its length is reported as the number of transitions between
its first and its last slot. -/
theorem C194_violated : ∃ (s : Collector.Col (Nat × Nat) Nat Nat Int Nat Nat) (m : Mgr Nat Nat Int) (stats : List (Int × Nat)),
    Collector.Usage exCfg false s ∧ Reach (exBuffer [4, 2]) ([4, 2].map fun s => Buf.new s {}) ∧
    record ((exBuffer [4, 2]).reset false) s.log = .ok (m, stats) ∧
    finishedEpisodes [] s.log.flatten = [(1, 1), (3, 2), (3, 2), (6, 3), (6, 3)] ∧
    stats = [(1, 1), (3, 2), (3, 2), (6, 1), (6, 3)] := by
  have h : (exHistory 8).map (fun s => ((record ((exBuffer [4, 2]).reset false) s.log).toOption.map Prod.snd,
      finishedEpisodes [] s.log.flatten)) = some (some [(1, 1), (3, 2), (3, 2), (6, 1), (6, 3)],
        [(1, 1), (3, 2), (3, 2), (6, 3), (6, 3)]) := by decide +kernel
  rw [Option.map_eq_some_iff] at h
  obtain ⟨s, h1, h2⟩ := h
  rw [Prod.mk.injEq, Option.map_eq_some_iff] at h2
  obtain ⟨⟨⟨m, stats⟩, h3, rfl⟩, h4⟩ := h2
  refine ⟨s, m, _, exHistory_usage 8 s h1, exBuffer_reach _ (by decide), ?_, h4, rfl⟩
  cases hr : record ((exBuffer [4, 2]).reset false) s.log with
  | error e => rw [hr] at h3; cases h3
  | ok q => rw [hr] at h3; cases h3; rfl

/-- **C194 is violated** by an episode that fills its sub-buffer and does not begin at the first slot: the collection raises. Here environment
0 has a sub-buffer of two slots and its first two episodes have one and two steps. -/
theorem C194_raises : ∃ (s : Collector.Col (Nat × Nat) Nat Nat Int Nat Nat),
    Collector.Usage exCfg false s ∧ Reach (exBuffer [2, 3]) ([2, 3].map fun s => Buf.new s {}) ∧
    finishedEpisodes [] s.log.flatten = [(1, 1), (3, 2), (3, 2)] ∧
    record ((exBuffer [2, 3]).reset false) s.log = .error .valueError := by
  have h : (exHistory 4).map (fun s => ((match record ((exBuffer [2, 3]).reset false) s.log with
      | .error .valueError => true
      | _ => false), finishedEpisodes [] s.log.flatten)) = some (true, [(1, 1), (3, 2), (3, 2)]) := by decide +kernel
  rw [Option.map_eq_some_iff] at h
  obtain ⟨s, h1, h2⟩ := h
  rw [Prod.mk.injEq] at h2
  refine ⟨s, exHistory_usage 4 s h1, exBuffer_reach _ (by decide), h2.2, ?_⟩
  have h3 := h2.1
  split at h3
  · rename_i he; exact he
  · cases h3

end Verif.Pipeline
