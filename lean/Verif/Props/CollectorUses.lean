import Verif.Lemmas.CollectorUses
import Verif.Props.Pipeline
import Mathlib.Data.List.TakeWhile

/-!
# Broken off episodes (properties C204, C205)

Any use of a collector (`Collector.Uses`), in particular filling the buffer by `collect(n_step=...)` before `trainer.run()`, which resets the
collector and keeps the buffer (`tianshou/trainer/base.py`, lines 257-261 and 276-277).
-/

namespace Verif.Pipeline

open Verif.Buffer Verif.Spec Verif.Returns

set_option linter.unusedSectionVars false

variable {σ A O R I H K : Type}

/-- **C204: records.** The transitions of an environment since the buffer was reset are records of what it went through, each from a reset on; if
at most `k` calls broke off episodes, there are at most `k + 1` of them. -/
theorem C204_records (c : Collector.Cfg σ A O R I H K) (hs : c.share = false) (b : Bool) (k : Nat) (s : Collector.Col σ A O R I H)
    (h : Collector.Uses c b k s) :
    (∀ e < c.envNum, ∃ now, Collector.Segmented c.env k (Collector.rowsOf e s.log) now ∧ s.world.envs e = now.state ∧
      (s.preObs.bind fun l => l[e]?) = some (.val now.obs) ∧ (s.preInfo.bind fun l => l[e]?) = some now.info ∧
      (b = true → now.fresh = true)) ∧
    (∀ e ≥ c.envNum, Collector.rowsOf e s.log = []) := by
  obtain ⟨po, pi, hu⟩ := Collector.uses_suinv c hs b k s h
  refine ⟨fun e he => ?_, hu.others⟩
  obtain ⟨sit, h2, h3, h4, h5, h6⟩ := hu.traj e he
  exact ⟨sit, h2, h3.symm, by rw [hu.obs]; exact h4, by rw [hu.info]; exact h5, h6⟩

theorem uses_ids (c : Collector.Cfg σ A O R I H K) (hs : c.share = false) (b : Bool) (k : Nat) (s : Collector.Col σ A O R I H)
    (h : Collector.Uses c b k s) : ∀ p ∈ s.log.flatten, p.1 < c.envNum := by
  intro p hp
  by_contra hc
  have := (C204_records c hs b k s h).2 p.1 (by omega)
  unfold Collector.rowsOf at this
  rw [List.map_eq_nil_iff, List.filter_eq_nil_iff] at this
  exact this p hp (by simp)

/-- Ordinary use breaks off nothing. -/
theorem usage_uses (c : Collector.Cfg σ A O R I H K) (b : Bool) (s : Collector.Col σ A O R I H) (h : Collector.Usage c b s) :
    Collector.Uses c b 0 s := by
  induction h with
  | reset h st kw => exact .reset h st kw
  | resetKept h st kw ih => exact .resetKept ih st kw
  | @steps b s s' h n random before hb kw fuel st hc ih =>
    have := Collector.Uses.steps ih n random before kw fuel st hc
    have hz : (before && !b) = false := by
      cases before with
      | false => rfl
      | true => rw [hb rfl]; rfl
    rw [hz] at this
    exact this
  | @episodes b s s' h n hn random before hb kw fuel st hc ih =>
    have := Collector.Uses.episodes ih n random before kw fuel st hc
    have hz : (!b && (before || decide (n < (c.envNum : Int)))) = false := by
      cases b with
      | true => rfl
      | false =>
        have h1 : before = false := by
          cases before with
          | false => rfl
          | true => exact absurd (hb rfl) (by simp)
        have h2 : ¬ n < (c.envNum : Int) := by
          rcases hn with hn | hn
          · exact absurd hn (by simp)
          · omega
        simp [h1, h2]
    rw [hz] at this
    exact this

/-- An episode that ends within the first part of a list, or `N` steps that fit into it, do not depend on the rest. -/
theorem nstepLen_prefix (seg post : List (Trans O A R)) (N k : Nat) (hk : k < seg.length)
    (h : post = [] ∨ k + N ≤ seg.length ∨ ∃ j t, k ≤ j ∧ seg[j]? = some t ∧ t.done = true) :
    nstepLen (seg ++ post) N k = nstepLen seg N k ∧ nstepLen seg N k ≤ seg.length - k := by
  have hle : nstepLen seg N k ≤ seg.length - k := by
    unfold nstepLen epLast; omega
  refine ⟨?_, hle⟩
  rcases h with rfl | h | ⟨j, t, h1, h2, h3⟩
  · rw [List.append_nil]
  · unfold nstepLen epLast
    have hd : (seg ++ post).drop k = seg.drop k ++ post := by
      rw [List.drop_append_of_le_length (by omega)]
    rw [hd, List.length_append]
    have h4 : ((seg.drop k).takeWhile fun t => !t.done).length ≤ seg.length - k := by
      have := (List.takeWhile_sublist (fun t : Trans O A R => !t.done) (l := seg.drop k)).length_le
      rwa [List.length_drop] at this
    rw [List.takeWhile_append]
    split_ifs with hc
    · rw [List.length_append, List.length_drop]
      rw [List.length_drop] at hc
      omega
    · omega
  · unfold nstepLen epLast
    have hd : (seg ++ post).drop k = seg.drop k ++ post := by
      rw [List.drop_append_of_le_length (by omega)]
    rw [hd, List.length_append, List.takeWhile_append]
    have hlt : ((seg.drop k).takeWhile fun t => !t.done).length < (seg.drop k).length := by
      rcases Nat.lt_or_ge ((seg.drop k).takeWhile fun t => !t.done).length (seg.drop k).length with hlt | hge
      · exact hlt
      · exfalso
        have hsub := List.takeWhile_sublist (fun t : Trans O A R => !t.done) (l := seg.drop k)
        have heq := hsub.eq_of_length_le hge
        have hmem : t ∈ seg.drop k := by
          apply List.mem_of_getElem? (i := j - k)
          rw [List.getElem?_drop, show k + (j - k) = j by omega]
          exact h2
        rw [← heq] at hmem
        have := List.mem_takeWhile_imp hmem
        simp [h3] at this
    rw [if_neg (by omega)]
    rw [List.length_drop] at hlt
    omega

theorem nstepValue_prefix [CommRing R] (seg post : List (Trans O A R)) (gamma : R) (N k : Nat) (hk : k < seg.length) (hN : 0 < N)
    (h : post = [] ∨ k + N ≤ seg.length ∨ ∃ j t, k ≤ j ∧ seg[j]? = some t ∧ t.done = true) (x : R) :
    nstepValue (seg ++ post) gamma N k x = nstepValue seg gamma N k x := by
  obtain ⟨h1, h2⟩ := nstepLen_prefix seg post N k hk h
  have hget : ∀ j : Nat, j < seg.length → (seg ++ post)[j]? = seg[j]? := fun j hj => List.getElem?_append_left hj
  have hpos : 0 < nstepLen seg N k := by unfold nstepLen epLast; omega
  unfold nstepValue
  rw [h1]
  congr 1
  · apply Finset.sum_congr rfl
    intro j hj
    have := Finset.mem_range.1 hj
    unfold rewOf
    rw [hget _ (by omega)]
  · unfold bootstrap termOf
    rw [hget _ (by omega)]

/-- **C204 (partial): targets.** Any use of the collector and any batch sampled from its buffer: every index holds step `k'` of a record `seg`
of some environment. If the record is the newest one, or `N` more steps of it follow, or the episode ends in it, the `N`-step target is the
discounted sum of the rewards of this record from step `k'` on, as in C193, and the bootstrap value is that of a row holding the last of
these steps. Missing: the last steps of a record that was broken off (`C204_violated`). -/
theorem C204_partial [CommRing R] (c : Collector.Cfg σ A O R I H K) (hs : c.share = false) (b : Bool) (k : Nat)
    (s : Collector.Col σ A O R I H) (h : Collector.Uses c b k s) {m0 : Mgr O A R} {sep0 : List (Buf O A R)} (h0 : Reach m0 sep0)
    (hn : c.envNum ≤ sep0.length) (hm : m0.opts.stackNum = 1 ∨ m0.opts.sampleAvail = false)
    {m : Mgr O A R} {stats : List (R × Nat)} (hrec : record (m0.reset false) s.log = .ok (m, stats)) (hlen : 0 < m.len)
    (draw : Nat → Nat) (rng : Nat → Nat → Nat) (n : Nat) (hpos : 0 < n) (targetQ : List Nat → List (List R))
    (hQ : ∀ l, (targetQ l).length = l.length) (gamma : R) (N : Nat) (hN : 0 < N) :
    ∃ (indices after : List Nat) (out : List (List R)), m.sampleIndices draw rng (some n) = .ok indices ∧ indices.length = n ∧
      computeNstepReturn (ofMgr m) n indices targetQ gamma N = some out ∧ out.length = n ∧
      ∀ (p i : Nat), indices[p]? = some i → ∃ (e i' k' : Nat) (pre seg post : List (Collector.Row O A R I))
          (start now : Collector.Situation σ O I) (rk : Collector.Row O A R I) (q : List R), e < c.envNum ∧
        Collector.rowsOf e s.log = pre ++ seg ++ post ∧ Collector.JustReset c.env start ∧ Collector.Trajectory c.env start seg now ∧
        seg[k']? = some rk ∧ m.data i = some (expectedRow m0.opts (experience rk)) ∧
        after[p]? = some i' ∧ (targetQ after)[p]? = some q ∧
        (post = [] ∨ k' + N ≤ seg.length ∨ (∃ j r, k' ≤ j ∧ seg[j]? = some r ∧ r.out.ended = true) →
          ∃ rl, seg[k' + (nstepLen (seg.map experience) N k' - 1)]? = some rl ∧ m.data i' = some (expectedRow m0.opts (experience rl)) ∧
            out[p]? = some (q.map (nstepValue (seg.map experience) gamma N k'))) := by
  obtain ⟨indices, after, out, h1, h2, h3, h4, h5⟩ := nstep_of_log s.log c.envNum (uses_ids c hs b k s h) hm
    (filled_of_record _ _ (uses_ids c hs b k s h) h0 hn hrec) hlen draw rng n hpos targetQ hQ gamma N hN
  refine ⟨indices, after, out, h1, h2, h3, h4, ?_⟩
  intro p i hp
  obtain ⟨e, k0, i', rk, rl, q, he, g1, g2, g3, g4, g5, g6, g7⟩ := h5 p i hp
  obtain ⟨now, ⟨segs, last, start, hrows, _, hsegs, hstart, hlast⟩, _⟩ := (C204_records c hs b k s h).1 e he
  -- the record of step `k0`
  have hfind : ∃ (pre seg post : List (Collector.Row O A R I)) (k' : Nat) (start now : Collector.Situation σ O I),
      Collector.rowsOf e s.log = pre ++ seg ++ post ∧ Collector.JustReset c.env start ∧ Collector.Trajectory c.env start seg now ∧
      k' < seg.length ∧ k0 = pre.length + k' := by
    have hk0 : (segs ++ [last]).flatten[k0]? = some rk := by
      rw [List.flatten_append, List.flatten_singleton, ← hrows]; exact g1
    obtain ⟨a, seg, k', f1, f2, f3⟩ := flatten_get _ _ _ hk0
    have hsplit : (segs ++ [last]) = (segs ++ [last]).take a ++ seg :: (segs ++ [last]).drop (a + 1) := by
      obtain ⟨w1, w2⟩ := List.getElem?_eq_some_iff.mp f1
      rw [← w2, List.getElem_cons_drop, List.take_append_drop]
    have hmem : ∃ start now, Collector.JustReset c.env start ∧ Collector.Trajectory c.env start seg now := by
      rcases List.mem_append.1 (List.mem_of_getElem? f1) with hseg | hseg
      · exact hsegs seg hseg
      · rw [List.mem_singleton.1 hseg]; exact ⟨start, now, hstart, hlast⟩
    obtain ⟨st, nw, w1, w2⟩ := hmem
    refine ⟨((segs ++ [last]).take a).flatten, seg, ((segs ++ [last]).drop (a + 1)).flatten, k', st, nw, ?_, w1, w2,
      (List.getElem?_eq_some_iff.mp f2).1, ?_⟩
    · have h6 : Collector.rowsOf e s.log = (segs ++ [last]).flatten := by rw [List.flatten_append, List.flatten_singleton, hrows]
      rw [h6]
      conv_lhs => rw [hsplit]
      rw [List.flatten_append, List.flatten_cons, List.append_assoc]
    · rw [f3, List.length_flatten, List.map_take]
  obtain ⟨pre, seg, post, k', st, nw, hsp, w1, w2, w3, rfl⟩ := hfind
  have hgetseg : ∀ j : Nat, j < seg.length → (Collector.rowsOf e s.log)[pre.length + j]? = seg[j]? := by
    intro j hj
    rw [hsp, List.append_assoc, List.getElem?_append_right (by omega), Nat.add_sub_cancel_left, List.getElem?_append_left hj]
  refine ⟨e, i', k', pre, seg, post, st, nw, rk, q, he, hsp, w1, w2, by rw [← hgetseg k' w3]; exact g1, g2, g4, g6, ?_⟩
  intro hcond
  have hcond' : post.map (experience (O := O) (A := A) (R := R)) = [] ∨ k' + N ≤ (seg.map (experience (O := O) (A := A) (R := R))).length ∨
      ∃ j t, k' ≤ j ∧ (seg.map (experience (O := O) (A := A) (R := R)))[j]? = some t ∧ t.done = true := by
    rcases hcond with rfl | hc | ⟨j, r, c1, c2, c3⟩
    · exact Or.inl rfl
    · right; left; rw [List.length_map]; exact hc
    · right; right
      exact ⟨j, experience r, c1, by rw [List.getElem?_map, c2]; rfl, c3⟩
  have hdrop : ((Collector.rowsOf e s.log).map (experience (O := O) (A := A) (R := R))).drop pre.length = seg.map experience ++ post.map experience := by
    rw [hsp, List.append_assoc, List.map_append, List.map_append]
    have : pre.length = (pre.map (experience (O := O) (A := A) (R := R))).length := by rw [List.length_map]
    rw [this, List.drop_left]
  have hin : pre.length + k' < ((Collector.rowsOf e s.log).map (experience (O := O) (A := A) (R := R))).length := by
    rw [hsp]; simp; omega
  have hk' : k' < (seg.map (experience (O := O) (A := A) (R := R))).length := by rw [List.length_map]; exact w3
  obtain ⟨v1, v2⟩ := nstepLen_prefix _ _ N k' hk' hcond'
  have hL : nstepLen ((Collector.rowsOf e s.log).map (experience (O := O) (A := A) (R := R))) N (pre.length + k') =
      nstepLen (seg.map experience) N k' := by
    rw [← nstepLen_drop _ _ _ _ hin, hdrop, v1]
  have hpos' : 0 < nstepLen (seg.map (experience (O := O) (A := A) (R := R))) N k' := by unfold nstepLen epLast; omega
  rw [List.length_map] at v2
  refine ⟨rl, ?_, g5, ?_⟩
  · rw [← hgetseg _ (by omega), ← g3, hL]
    congr 1
    omega
  · rw [g7]
    congr 2
    funext x
    rw [← nstepValue_drop _ _ _ _ _ hin, hdrop, nstepValue_prefix _ _ _ _ _ hk' hN hcond']

/-- Collecting `n` steps, handing the collector to a trainer (which resets it and keeps the buffer) and collecting
`n'` steps. -/
def exPrefill (n n' : Int) : Option (Collector.Col (Nat × Nat) Nat Nat Int Nat Nat) :=
  (Collector.after (Collector.collect exCfg (some n) none false false () 100
    (Collector.reset exCfg true true () { world := ⟨fun e => (e + 2, 7), fun _ => 0⟩ }))).bind fun s =>
  Collector.after (Collector.collect exCfg (some n') none false false () 100 (Collector.reset exCfg false true () s))

theorem exPrefill_uses (n n' : Int) (s : Collector.Col (Nat × Nat) Nat Nat Int Nat Nat) (h : exPrefill n n' = some s) :
    Collector.Uses exCfg false 1 s := by
  unfold exPrefill at h
  rw [Option.bind_eq_some_iff] at h
  obtain ⟨s1, e1, e2⟩ := h
  obtain ⟨t1, e1⟩ := Collector.after_some e1
  obtain ⟨t2, e2⟩ := Collector.after_some e2
  exact .steps (.resetKept (.steps (.reset (.built _) true ()) n false false () 100 t1 e1) true ()) n' false false () 100 t2 e2

/-- The rewards of environment 0: two steps of an episode of three (1, 2), broken off, then two steps of the next (1, 2). -/
example : (exPrefill 4 4).map (fun s => ((Collector.rowsOf 0 s.log).map fun r => (r.obs, r.out.rew, r.out.ended))) =
    some [(300, 1, false), (301, 2, false), (400, 1, false), (401, 2, false)] := by decide +kernel

/-- **C204 is violated**: after filling a buffer with two steps per environment and starting a trainer, the two-step target of the second
step of environment 0 (slot 1, reward 2) contains the reward 1 of the first step of the next episode, from which it is bootstrapped too (discount 10, value
1000), although its own episode goes on from observation 302 to another step with reward 3. -/
theorem C204_violated : ∃ (s : Collector.Col (Nat × Nat) Nat Nat Int Nat Nat) (m : Mgr Nat Nat Int) (stats : List (Int × Nat)) (r r' : Collector.Row Nat Nat Int Nat),
    Collector.Uses exCfg false 1 s ∧ Reach (exBuffer [8, 8]) ([8, 8].map fun s => Buf.new s {}) ∧
    record ((exBuffer [8, 8]).reset false) s.log = .ok (m, stats) ∧
    (Collector.rowsOf 0 s.log)[1]? = some r ∧ r.out = ⟨302, 2, false, false, 0⟩ ∧
    (Collector.rowsOf 0 s.log)[2]? = some r' ∧ r'.obs = 400 ∧ r'.out.rew = 1 ∧
    computeNstepReturn (ofMgr m) 1 [1] (fun (l : List Nat) => l.map fun i => [1000 + Int.ofNat i]) 10 2 = some [[2 + 10 * 1 + 100 * 1002]] := by
  have h : (exPrefill 4 4).map (fun s => decide ((record ((exBuffer [8, 8]).reset false) s.log).toOption.map (fun p =>
        computeNstepReturn (ofMgr p.1) 1 [1] (fun (l : List Nat) => l.map fun i => [1000 + Int.ofNat i]) 10 2) = some (some [[2 + 10 * 1 + 100 * 1002]])) &&
      decide ((Collector.rowsOf 0 s.log)[1]? = some ⟨301, 0, 301, 301, ⟨302, 2, false, false, 0⟩⟩) &&
      decide ((Collector.rowsOf 0 s.log)[2]? = some ⟨400, 0, 400, 400, ⟨401, 1, false, false, 0⟩⟩)) = some true := by decide +kernel
  rw [Option.map_eq_some_iff] at h
  obtain ⟨s, h1, h2⟩ := h
  simp only [Bool.and_eq_true, decide_eq_true_eq, Option.map_eq_some_iff] at h2
  obtain ⟨⟨⟨⟨m, stats⟩, h3, h4⟩, h5⟩, h6⟩ := h2
  refine ⟨s, m, stats, _, _, exPrefill_uses 4 4 s h1, exBuffer_reach _ (by decide), ?_, h5, rfl, h6, rfl, rfl, h4⟩
  cases hr : record ((exBuffer [8, 8]).reset false) s.log with
  | error e => rw [hr] at h3; cases h3
  | ok q => rw [hr] at h3; cases h3; rfl

/-- Between a step of a trajectory and the next reset the episode is open; at a fresh situation it is not. -/
theorem fresh_open (E : Collector.Env σ A O R I K) (start now : Collector.Situation σ O I) (rows : List (Collector.Row O A R I))
    (h : Collector.Trajectory E start rows now) (hf : now.fresh = true) : openEpisode rows = [] := by
  induction h with
  | nil => rfl
  | step row x h => simp at hf
  | done row x y kw o i h hobs hinfo hstep hdone hreset => simp [openEpisode, hdone]
  | again kw y o i h hf' hreset ih => exact ih hf'

section
variable [AddCommMonoid R]

/-- The statistics of episodes that begin in `new` do not depend on what was before. -/
theorem finished_fresh (new past past' : List (Nat × Collector.Row O A R I))
    (h : ∀ e, openEpisode (Collector.rowsOf e [past]) = openEpisode (Collector.rowsOf e [past'])) :
    finishedEpisodes past new = finishedEpisodes past' new := by
  induction new generalizing past past' with
  | nil => rfl
  | cons p rest ih =>
    obtain ⟨e, row⟩ := p
    unfold finishedEpisodes
    rw [h e]
    have key : finishedEpisodes (past ++ [(e, row)]) rest = finishedEpisodes (past' ++ [(e, row)]) rest := ?_
    · rw [key]
    apply ih
    intro e'
    rw [rowsOf_past, rowsOf_past]
    split_ifs with he
    · have hs : ∀ l : List (Collector.Row O A R I), openEpisode (l ++ [row]) = if row.out.ended then [] else openEpisode l ++ [row] := by
        intro l
        unfold openEpisode
        rw [List.reverse_append]
        simp only [List.reverse_cons, List.reverse_nil, List.nil_append, List.singleton_append, List.takeWhile_cons]
        cases row.out.ended <;> simp
      rw [hs, hs, h e']
    · exact h e'

/-- **C205 (partial).** A collector in ordinary use with no environment in the middle of an episode is reset keeping the buffer and used on: the
`returns` and `lens` of its statistics are the reward sums and lengths of the episodes made since the reset, whatever the buffer held. Missing: resets in the
middle of episodes (`C205_violated`). -/
theorem C205_partial (c : Collector.Cfg σ A O R I H K) (hs : c.share = false) (s : Collector.Col σ A O R I H) (h : Collector.Usage c true s)
    (b : Bool) (k : Nat) (s' : Collector.Col σ A O R I H) (h' : Collector.Uses c b k s') (new : List (List (Nat × Collector.Row O A R I)))
    (hlog : s'.log = s.log ++ new) {m0 : Mgr O A R} {sep0 : List (Buf O A R)} (h0 : Reach m0 sep0) (hn : c.envNum ≤ sep0.length)
    (hfit : EpisodesFit (sizeOf sep0) [] s'.log.flatten) :
    ∃ m m' stats, record (m0.reset false) s.log = .ok (m, stats) ∧ record m new = .ok (m', finishedEpisodes [] new.flatten) := by
  have hid := uses_ids c hs b k s' h'
  rw [hlog, List.flatten_append] at hid hfit
  rw [fit_append] at hfit
  have hspec := record_spec s.log [] (h0.reset false) (follows_reset h0) (by intro e; rfl)
    (by intro p hp; rw [List.length_map]; exact Nat.lt_of_lt_of_le (hid p (List.mem_append_left _ hp)) hn)
  obtain ⟨m, hm⟩ := hspec.2 hfit.1
  obtain ⟨sep, r1, r2, r3, r4, _⟩ := hspec.1 _ _ hm
  obtain ⟨m', hm'⟩ := (record_spec new s.log.flatten r1 r4 (by intro e; rfl)
    (by intro p hp; rw [r3, List.length_map]; exact Nat.lt_of_lt_of_le (hid p (List.mem_append_right _ hp)) hn)).2 hfit.2
  refine ⟨m, m', _, hm, ?_⟩
  rw [hm']
  congr 2
  apply finished_fresh
  intro e
  have hrow : Collector.rowsOf e [s.log.flatten] = Collector.rowsOf e s.log := by simp [Collector.rowsOf]
  rw [hrow]
  have hempty : openEpisode (Collector.rowsOf e ([[]] : List (List (Nat × Collector.Row O A R I)))) = [] := rfl
  rw [hempty]
  by_cases he : e < c.envNum
  · obtain ⟨po, pi, hu⟩ := Collector.usage_uinv c hs true s h
    obtain ⟨start, sit, _, h2, _, _, _, h6⟩ := hu.traj e he
    exact fresh_open c.env start sit _ h2 (h6 rfl)
  · rw [(Collector.C61_trajectories_partial c hs true s h).2 e (by omega)]
    rfl

end

/-- Whole episodes, a reset that keeps the buffer, and some steps. -/
def exWhole : Option (Collector.Col (Nat × Nat) Nat Nat Int Nat Nat × Collector.Col (Nat × Nat) Nat Nat Int Nat Nat) :=
  (Collector.after (Collector.collect exCfg none (some 3) false false () 100
    (Collector.reset exCfg true true () { world := ⟨fun e => (e + 2, 7), fun _ => 0⟩ }))).bind fun s =>
  (Collector.after (Collector.collect exCfg (some 20) none false false () 100 (Collector.reset exCfg false true () s))).map fun t => (s, t)


theorem exWhole_uses (s t : Collector.Col (Nat × Nat) Nat Nat Int Nat Nat) (h : exWhole = some (s, t)) :
    Collector.Usage exCfg true s ∧ Collector.Uses exCfg false 0 t := by
  unfold exWhole at h
  rw [Option.bind_eq_some_iff] at h
  obtain ⟨s1, e1, e2⟩ := h
  rw [Option.map_eq_some_iff] at e2
  obtain ⟨t1, e2, e3⟩ := e2
  rw [Prod.mk.injEq] at e3
  obtain ⟨rfl, rfl⟩ := e3
  obtain ⟨u1, e1⟩ := Collector.after_some e1
  obtain ⟨u2, e2⟩ := Collector.after_some e2
  have h1 : Collector.Usage exCfg true s1 := .episodes (.reset (.built _) true ()) 3 (Or.inl rfl) false false (by simp) () 100 u1 e1
  exact ⟨h1, .steps (.resetKept (usage_uses _ _ _ h1) true ()) 20 false false () 100 u2 e2⟩

/-- Three episodes are collected, then twenty steps; the episodes in the statistics are the two that ended since. -/
example : ∃ s t, exWhole = some (s, t) ∧ Collector.Usage exCfg true s ∧ Collector.Uses exCfg false 0 t ∧
    s.log ++ t.log.drop s.log.length = t.log ∧ s.log.flatten.length = 11 ∧
    EpisodesFit (sizeOf ([32, 32].map fun s => Buf.new (O := Nat) (A := Nat) (R := Int) s {})) [] t.log.flatten ∧
    finishedEpisodes [] (t.log.drop s.log.length).flatten = [(28, 7), (28, 7)] := by
  have h : exWhole.map (fun p => decide (p.1.log ++ p.2.log.drop p.1.log.length = p.2.log) && decide (p.1.log.flatten.length = 11) &&
      decide (EpisodesFit (sizeOf ([32, 32].map fun s => Buf.new (O := Nat) (A := Nat) (R := Int) s {})) [] p.2.log.flatten) &&
      decide (finishedEpisodes [] (p.2.log.drop p.1.log.length).flatten = [(28, 7), (28, 7)])) = some true := by decide +kernel
  rw [Option.map_eq_some_iff] at h
  obtain ⟨⟨s, t⟩, h1, h2⟩ := h
  simp only [Bool.and_eq_true, decide_eq_true_eq] at h2
  obtain ⟨⟨⟨h3, h4⟩, h5⟩, h6⟩ := h2
  obtain ⟨h7, h8⟩ := exWhole_uses s t h1
  exact ⟨s, t, h1, h7, h8, h3, h4, h5, h6⟩

/-- **C205 is violated**: after filling a buffer with two steps per environment (rounds `old`) and starting a trainer, the collection of eight steps (rounds
`new`) reports for each environment an episode with the rewards and the length of the broken off one in addition. -/
theorem C205_violated : ∃ (s : Collector.Col (Nat × Nat) Nat Nat Int Nat Nat) (old new : List (List (Nat × Collector.Row Nat Nat Int Nat)))
    (m m' : Mgr Nat Nat Int) (stats : List (Int × Nat)),
    Collector.Uses exCfg false 1 s ∧ Reach (exBuffer [16, 16]) ([16, 16].map fun s => Buf.new s {}) ∧
    s.log = old ++ new ∧ (new.flatten.map fun p => p.2.obs) = [400, 500, 401, 501, 402, 502, 403, 503, 500, 504] ∧
    record ((exBuffer [16, 16]).reset false) old = .ok (m, []) ∧ record m new = .ok (m', stats) ∧
    finishedEpisodes [] new.flatten = [(10, 4), (15, 5)] ∧ stats = [(13, 6), (18, 7)] := by
  have h : (exPrefill 4 10).map (fun s => decide (((s.log.drop 2).flatten.map fun p => p.2.obs) = [400, 500, 401, 501, 402, 502, 403, 503, 500, 504]) &&
      decide ((record ((exBuffer [16, 16]).reset false) (s.log.take 2)).toOption.map (fun p => (p.2, (record p.1 (s.log.drop 2)).toOption.map Prod.snd)) =
        some ([], some [(13, 6), (18, 7)])) &&
      decide (finishedEpisodes [] (s.log.drop 2).flatten = [(10, 4), (15, 5)])) = some true := by decide +kernel
  rw [Option.map_eq_some_iff] at h
  obtain ⟨s, h1, h2⟩ := h
  simp only [Bool.and_eq_true, decide_eq_true_eq, Option.map_eq_some_iff, Prod.mk.injEq] at h2
  obtain ⟨⟨h3, ⟨m, stats0⟩, h4, h5, ⟨m', stats⟩, h6, h7⟩, h8⟩ := h2
  refine ⟨s, s.log.take 2, s.log.drop 2, m, m', stats, exPrefill_uses 4 10 s h1, exBuffer_reach _ (by decide),
    (List.take_append_drop 2 s.log).symm, h3, ?_, ?_, h8, h7⟩
  · cases hr : record ((exBuffer [16, 16]).reset false) (s.log.take 2) with
    | error e => rw [hr] at h4; cases h4
    | ok q => rw [hr] at h4; cases h4; subst h5; rfl
  · cases hr : record m (s.log.drop 2) with
    | error e => rw [hr] at h6; cases h6
    | ok q => rw [hr] at h6; cases h6; rfl

end Verif.Pipeline
