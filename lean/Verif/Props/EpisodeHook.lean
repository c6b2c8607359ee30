import Verif.Lemmas.EpisodeHook
import Verif.Props.CollectorUses
import Verif.Props.CachedPipeline
import Verif.Props.Returns

/-!
# Values stored at the end of an episode (property C220)

A collector in ordinary use (`Collector.Usage`) whose hook for finished episodes returns arrays, and the vector buffer it fills. `rounds`
are the logged rounds, each with the mode of its collection (by episodes or by steps); `hookRounds` is the buffer after them.
-/

namespace Verif.EpisodeHook

open Verif.Buffer Verif.Pipeline Verif.Spec Verif.Returns

set_option linter.unusedSectionVars false

variable {σ A O R I H K V : Type}

section
variable [AddCommMonoid R] [Zero V]

theorem stored_nil (hook : Hook O A R V) (opts : Opts O) (start size : Nat → Nat) (N : Nat) (cols : Cols V) :
    Stored (I := I) hook opts start size N [] cols := by
  intro e _ pre ep post hrows _ hep
  obtain ⟨body, last, rfl, _, _⟩ := hep
  have : Collector.rowsOf e [([] : List (Nat × Collector.Row O A R I))] = [] := rfl
  rw [this] at hrows
  simp at hrows

/-- What is known after any rounds. -/
theorem after_rounds (c : Collector.Cfg σ A O R I H K) (hs : c.share = false) (b : Bool) (s : Collector.Col σ A O R I H)
    (h : Collector.Usage c b s) {m0 : Mgr O A R} {sep0 : List (Buf O A R)} (h0 : Reach m0 sep0) (hn : c.envNum ≤ sep0.length)
    (hook : Hook O A R V) (cols : Cols V) (rounds : List (Bool × List (Nat × Collector.Row O A R I))) (hlog : rounds.map Prod.snd = s.log)
    {x : HBuf O A R V} (hx : hookRounds hook ⟨m0.reset false, cols⟩ rounds = .ok x) :
    ∃ sep, Reach x.mgr sep ∧ x.mgr.opts = m0.opts ∧ sep.length = sep0.length ∧ (∀ e, startOf sep e = startOf sep0 e) ∧
      Follows m0.opts (Pipeline.sizeOf sep0) sep (fun e => (Collector.rowsOf e s.log).map experience) ∧
      Stored hook m0.opts (startOf sep0) (Pipeline.sizeOf sep0) sep0.length s.log.flatten x.cols := by
  have hstart : startOf (sep0.map fun b => b.reset false) = startOf sep0 := by
    funext e
    unfold startOf
    rw [List.map_map]
    rfl
  obtain ⟨sep, r1, r2, r3, r4, r5, r6⟩ := hook_rounds (opts := m0.opts) (size := Pipeline.sizeOf sep0) (past := []) rounds (h0.reset false)
    (follows_reset h0) (by
      intro p hp
      rw [List.length_map]
      rw [hlog] at hp
      exact Nat.lt_of_lt_of_le (ids_lt c hs b s h p hp) hn) (by rw [hlog]; exact sync_distinct c hs b s h) (stored_nil _ _ _ _ _ _) hx
  rw [hlog, List.nil_append] at r5 r6
  rw [hstart, List.length_map] at r6
  refine ⟨sep, r1, r2, by rw [r3, List.length_map], fun e => by rw [r4, hstart], ?_, r6⟩
  have hrows : (fun e => (Collector.rowsOf e [s.log.flatten]).map (experience (O := O) (A := A) (R := R))) =
      fun e => (Collector.rowsOf e s.log).map experience := by
    funext e
    simp [Collector.rowsOf]
  rw [hrows] at r5
  exact r5

/-- **C220.** Whatever a collector in ordinary use has done since its buffer was reset: take an episode `ep` of environment `e` that fits into
its sub-buffer. Each of its transitions that is still in the buffer carries, under each name the hook returned for this episode, the
value the hook returned for this transition. (The `p`-th transition of environment `e` is in slot `p` of its sub-buffer, modulo its size.) -/
theorem C220_partial (c : Collector.Cfg σ A O R I H K) (hs : c.share = false) (b : Bool) (s : Collector.Col σ A O R I H)
    (h : Collector.Usage c b s) {m0 : Mgr O A R} {sep0 : List (Buf O A R)} (h0 : Reach m0 sep0) (hn : c.envNum ≤ sep0.length)
    (hook : Hook O A R V) (cols : Cols V) (rounds : List (Bool × List (Nat × Collector.Row O A R I))) (hlog : rounds.map Prod.snd = s.log)
    {x : HBuf O A R V} (hx : hookRounds hook ⟨m0.reset false, cols⟩ rounds = .ok x)
    (e : Nat) (he : e < c.envNum) (pre ep post : List (Collector.Row O A R I))
    (hrows : Collector.rowsOf e s.log = pre ++ ep ++ post) (hpre : openEpisode pre = []) (hep : IsEpisode ep)
    (hfit : ep.length ≤ Pipeline.sizeOf sep0 e) (j : Nat) (row : Collector.Row O A R I) (hj : ep[j]? = some row)
    (hlive : (Collector.rowsOf e s.log).length ≤ pre.length + j + Pipeline.sizeOf sep0 e) :
    let slot := startOf sep0 e + (pre.length + j) % Pipeline.sizeOf sep0 e
    x.mgr.data slot = some (expectedRow m0.opts (experience row)) ∧
    ∀ adds, hook (ep.map fun r => expectedRow m0.opts (experience r)) = some adds → (adds.map Prod.fst).Nodup →
      ∀ key vs, (key, vs) ∈ adds → ∀ v, vs[j]? = some v → Carries x.cols key slot v := by
  obtain ⟨sep, r1, r2, r3, r4, r5, r6⟩ := after_rounds c hs b s h h0 hn hook cols rounds hlog hx
  have hjl := (List.getElem?_eq_some_iff.mp hj).1
  have hpos : 0 < Pipeline.sizeOf sep0 e := by omega
  constructor
  · have hc : sep[e]? = some sep[e] := List.getElem?_eq_getElem (by omega)
    have hcs := (r5 e _ hc).2.1
    have hmod := Nat.mod_lt (pre.length + j) hpos
    have := (C20_store r1 e _ hc).1 ((pre.length + j) % Pipeline.sizeOf sep0 e) (by omega)
    rw [r4] at this
    rw [this]
    refine follows_data r5 hc _ _ ?_ (by rw [List.length_map]; exact hlive)
    rw [List.getElem?_map, hrows, List.append_assoc, List.getElem?_append_right (by omega), Nat.add_sub_cancel_left,
      List.getElem?_append_left hjl, hj]
    rfl
  · intro adds hadds hkeys key vs hkv v hv
    have hrows' : Collector.rowsOf e [s.log.flatten] = Collector.rowsOf e s.log := by simp [Collector.rowsOf]
    exact r6 e (by omega) pre ep post (by rw [hrows']; exact hrows) hpre hep hfit adds hadds hkeys key vs hkv j v hv hjl
      (by rw [hrows']; exact hlive)

/-- **C220: no errors.** If all collections are by episodes, the arrays returned by the hook have the length of the episode, and the
episodes are shorter than the sub-buffers, then storing the values does not raise. -/
theorem C220_ok (c : Collector.Cfg σ A O R I H K) (hs : c.share = false) (b : Bool) (s : Collector.Col σ A O R I H)
    (h : Collector.Usage c b s) {m0 : Mgr O A R} {sep0 : List (Buf O A R)} (h0 : Reach m0 sep0) (hn : c.envNum ≤ sep0.length)
    (hook : Hook O A R V) (hw : ∀ ep adds, hook ep = some adds → ∀ p ∈ adds, p.2.length = ep.length) (cols : Cols V)
    (hfit : EpisodesFit (Pipeline.sizeOf sep0) [] s.log.flatten) :
    ∃ x, hookRounds hook ⟨m0.reset false, cols⟩ (s.log.map fun round => (true, round)) = .ok x := by
  refine hook_rounds_ok (opts := m0.opts) (size := Pipeline.sizeOf sep0) (past := []) hw s.log (h0.reset false) (follows_reset h0) ?_
    (sync_distinct c hs b s h) hfit
  intro p hp
  rw [List.length_map]
  exact Nat.lt_of_lt_of_le (ids_lt c hs b s h p hp) hn

/-- **C220: no NaN.** If moreover no environment is in the middle of an episode, the hook returns the same names for all episodes, and
the buffer had no other arrays, then the check for NaN at the end of the collection passes. -/
theorem C220_no_nan (c : Collector.Cfg σ A O R I H K) (hs : c.share = false) (s : Collector.Col σ A O R I H)
    (h : Collector.Usage c true s) {m0 : Mgr O A R} {sep0 : List (Buf O A R)} (h0 : Reach m0 sep0) (hn : c.envNum ≤ sep0.length)
    (hm : m0.opts.stackNum = 1 ∨ m0.opts.sampleAvail = false) (hook : Hook O A R V) (ks : List String) (hks : ks.Nodup)
    (hw : ∀ ep, ep ≠ [] → ∃ adds, hook ep = some adds ∧ adds.map Prod.fst = ks ∧ ∀ p ∈ adds, p.2.length = ep.length)
    (hnil : hook [] = none) (hfit : EpisodesFit (Pipeline.sizeOf sep0) [] s.log.flatten) :
    ∃ x, hookRounds hook ⟨m0.reset false, []⟩ (s.log.map fun round => (true, round)) = .ok x ∧ nullCheck x = .ok () := by
  have hwf : ∀ ep adds, hook ep = some adds → adds.map Prod.fst = ks ∧ ∀ p ∈ adds, p.2.length = ep.length := by
    intro ep adds ha
    by_cases hne : ep = []
    · subst hne; rw [hnil] at ha; cases ha
    · obtain ⟨adds', h1, h2⟩ := hw ep hne
      rw [h1] at ha
      cases ha
      exact h2
  obtain ⟨x, hx⟩ := C220_ok c hs true s h h0 hn hook (fun ep adds ha => (hwf ep adds ha).2) [] hfit
  refine ⟨x, hx, ?_⟩
  have hlog : (s.log.map fun round => ((true, round) : Bool × List (Nat × Collector.Row O A R I))).map Prod.snd = s.log := by
    rw [List.map_map]
    exact List.map_id _
  have hnamed : Named ks x.cols := Named.rounds (fun ep adds ha p hp => by
    rw [← (hwf ep adds ha).1]; exact List.mem_map_of_mem hp) _ (x := ⟨m0.reset false, []⟩) ⟨by simp, by simp⟩ hx
  obtain ⟨sep, r1, r2, r3, r4, r5, r6⟩ := after_rounds c hs true s h h0 hn hook [] _ hlog hx
  obtain ⟨l, l1, _, _, l4⟩ := C23_all r1 (by rw [r2]; exact hm) (fun _ => 0) (fun _ _ => 0) (some 0) (.inr rfl)
  unfold nullCheck
  rw [l1]
  simp only
  rw [if_neg]
  rw [List.any_eq_true]
  rintro ⟨i, hi, hbad⟩
  rw [List.any_eq_true] at hbad
  obtain ⟨p, hp, hnone⟩ := hbad
  obtain ⟨e, cb, hcb, hlo, hhi⟩ := (l4 i).mp hi
  obtain ⟨_, hcs, hist⟩ := r5 e cb hcb
  have hI := hist.inv
  have hsize := hI.size
  simp only [ghostOf, List.length_map, hcs] at hsize
  have hlen : cb.len = cb.idx.size := rfl
  rw [r4] at hlo hhi
  -- the position of the slot in the stream
  have hslot : ∃ q, q < (Collector.rowsOf e s.log).length ∧ (Collector.rowsOf e s.log).length ≤ q + Pipeline.sizeOf sep0 e ∧
      i = startOf sep0 e + q % Pipeline.sizeOf sep0 e := by
    obtain ⟨l', _, e2, _, _, e5⟩ := C06_enumerates hist (by rw [(r5 e cb hcb).1]; exact hm) (fun _ => 0)
    have hmem : i - startOf sep0 e ∈ cb.idx.allIndices := by rw [← e2, e5]; omega
    rw [hI.allIndices_eq, List.mem_map] at hmem
    obtain ⟨k, hk, hk2⟩ := hmem
    rw [List.mem_range] at hk
    simp only [ghostOf, List.length_map, hcs] at hk2
    exact ⟨(Collector.rowsOf e s.log).length - cb.idx.size + k, by omega, by omega, by omega⟩
  obtain ⟨q, hq1, hq2, rfl⟩ := hslot
  have he : e < c.envNum := by
    by_contra hc
    have := (Collector.C61_trajectories_partial c hs true s h).2 e (by omega)
    rw [this] at hq1
    simp at hq1
  have hopen : openEpisode (Collector.rowsOf e s.log) = [] := by
    obtain ⟨po, pi, hu⟩ := Collector.usage_uinv c hs true s h
    obtain ⟨start, sit, h1, h2, _, _, _, h6⟩ := hu.traj e he
    exact fresh_open c.env start sit _ h2 (h6 rfl)
  obtain ⟨pre, ep, post, g1, g2, g3, g4, g5⟩ := episode_of_closed _ _ (Nat.le_refl _) hopen q hq1
  have hrows' : Collector.rowsOf e [s.log.flatten] = Collector.rowsOf e s.log := by simp [Collector.rowsOf]
  have hlt := fit_episode (Pipeline.sizeOf sep0) s.log.flatten [] hfit e pre ep post (by rw [List.nil_append, hrows', g1]) g2 g3 (by
    have : Collector.rowsOf e [([] : List (Nat × Collector.Row O A R I))] = [] := rfl
    rw [this, List.length_nil]; omega)
  obtain ⟨adds, w1, w2, w3⟩ := hw (ep.map fun r => expectedRow m0.opts (experience r)) (by
    intro hc
    rw [List.map_eq_nil_iff] at hc
    subst hc
    simp at g5
    omega)
  have hpk := hnamed.2 p.1 (List.mem_map_of_mem hp)
  rw [← w2, List.mem_map] at hpk
  obtain ⟨⟨key, vs⟩, hkv, hkey⟩ := hpk
  simp only at hkey
  have hvl := w3 _ hkv
  rw [List.length_map] at hvl
  simp only at hvl
  have hjlt : q - pre.length < vs.length := by omega
  obtain ⟨col, c1, c2⟩ := (C220_partial c hs true s h h0 hn hook [] _ hlog hx e he pre ep post g1 g2 g3 (by omega) (q - pre.length)
    (ep[q - pre.length]'(by omega)) (List.getElem?_eq_getElem (by omega)) (by omega)).2 adds w1 (by rw [w2]; exact hks) key vs hkv _
    (List.getElem?_eq_getElem hjlt)
  rw [hkey, lookup_of_mem hnamed.1 p hp] at c1
  cases c1
  rw [show pre.length + (q - pre.length) = q by omega] at c2
  rw [c2] at hnone
  simp at hnone

end

/-- **C220: collections by steps.** An episode that ends in a collection by a number of steps makes a hook that returns something raise
`ValueError`. -/
theorem C220_steps_raise (hook : Hook O A R V) (x : HBuf O A R V) (r : AddResult R) (idx : List Nat)
    (hi : x.mgr.getBufferIndices r.epStart (r.slot + 1) = .ok idx) (adds : List (String × List V))
    (ha : hook (idx.filterMap x.mgr.data) = some adds) : onDone hook false x r = .error .valueError := by
  unfold onDone
  rw [hi]
  simp only
  rw [ha]
  rfl

/-- **C220: Monte Carlo returns.** With `EpisodeRolloutHookMCReturn`, the `j`-th transition of an episode that fits carries, as long as it is
in the buffer, the discounted sum of the rewards from it to the end of the episode, and the discounted sum of all rewards of the episode. -/
theorem C220_mc_partial [CommRing R] [LE R] [DecidableLE R] (gamma : R) (hg0 : 0 ≤ gamma) (hg1 : gamma ≤ 1)
    (c : Collector.Cfg σ A O R I H K) (hs : c.share = false) (b : Bool) (s : Collector.Col σ A O R I H)
    (h : Collector.Usage c b s) {m0 : Mgr O A R} {sep0 : List (Buf O A R)} (h0 : Reach m0 sep0) (hn : c.envNum ≤ sep0.length)
    (cols : Cols R) (rounds : List (Bool × List (Nat × Collector.Row O A R I))) (hlog : rounds.map Prod.snd = s.log)
    {x : HBuf O A R R} (hx : hookRounds (mcEpisodeHook gamma) ⟨m0.reset false, cols⟩ rounds = .ok x)
    (e : Nat) (he : e < c.envNum) (pre ep post : List (Collector.Row O A R I))
    (hrows : Collector.rowsOf e s.log = pre ++ ep ++ post) (hpre : openEpisode pre = []) (hep : IsEpisode ep)
    (hfit : ep.length ≤ Pipeline.sizeOf sep0 e) (j : Nat) (hj : j < ep.length)
    (hlive : (Collector.rowsOf e s.log).length ≤ pre.length + j + Pipeline.sizeOf sep0 e) :
    let slot := startOf sep0 e + (pre.length + j) % Pipeline.sizeOf sep0 e
    let rew : Nat → R := fun k => ((ep[k]?).map fun r => r.out.rew).getD 0
    Carries x.cols "mc_return_to_go" slot (∑ k ∈ Finset.range (ep.length - j), gamma ^ k * rew (j + k)) ∧
    Carries x.cols "full_episode_mc_return" slot (∑ k ∈ Finset.range ep.length, gamma ^ k * rew k) := by
  intro slot rew
  have hstored := (C220_partial c hs b s h h0 hn (mcEpisodeHook gamma) cols rounds hlog hx e he pre ep post hrows hpre hep hfit j ep[j]
    (List.getElem?_eq_getElem hj) hlive).2
  have hr : (ep.map fun r => expectedRow m0.opts (experience r)).map Trans.rew = ep.map fun r => r.out.rew := by
    rw [List.map_map]
    rfl
  have hne : (ep.map fun r => r.out.rew) ≠ [] := by
    intro hc
    rw [List.map_eq_nil_iff] at hc
    subst hc
    simp at hj
  obtain ⟨toGo, full, m1, m2, m3, m4⟩ := C37_hook gamma (ep.map fun r => r.out.rew) hne hg0 hg1
  obtain ⟨l, n1, n2, n3⟩ := C37_return_to_go gamma (ep.map fun r => r.out.rew) hne
  rw [m2] at n1
  cases n1
  simp only [List.length_map, List.getElem?_map] at n3 m4
  have hh : mcEpisodeHook gamma (ep.map fun r => expectedRow m0.opts (experience r)) =
      some [("mc_return_to_go", toGo), ("full_episode_mc_return", full)] := by
    unfold mcEpisodeHook
    rw [hr, m1]
    rfl
  have hk : ([("mc_return_to_go", toGo), ("full_episode_mc_return", full)].map Prod.fst).Nodup := by simp
  exact ⟨hstored _ hh hk _ toGo (by simp) _ (n3 j hj), hstored _ hh hk _ full (by simp) _ (m4 j hj)⟩

/-! ### Examples -/

/-- A reset, followed by collections of `n1` and of `n2` episodes, in the small world of `Props/Pipeline.lean`: two environments, episodes
that grow by one step each time, rewards 1, 2, 3, ... -/
def exEpisodes (n1 n2 : Int) : Option (Collector.Col (Nat × Nat) Nat Nat Int Nat Nat) :=
  (Collector.after (Collector.collect exCfg none (some n1) false false () 100
    (Collector.reset exCfg true true () { world := ⟨fun e => (e, 7), fun _ => 0⟩ }))).bind fun s =>
  Collector.after (Collector.collect exCfg none (some n2) false false () 100 s)

theorem exEpisodes_usage (n1 n2 : Int) (s : Collector.Col (Nat × Nat) Nat Nat Int Nat Nat) (h : exEpisodes n1 n2 = some s) :
    Collector.Usage exCfg true s := by
  unfold exEpisodes at h
  rw [Option.bind_eq_some_iff] at h
  obtain ⟨s1, e1, e2⟩ := h
  obtain ⟨t1, e1⟩ := Collector.after_some e1
  obtain ⟨t2, e2⟩ := Collector.after_some e2
  exact .episodes (.episodes (.reset (.built _) true ()) n1 (.inl rfl) false false (by simp) () 100 t1 e1) n2 (.inl rfl) false false
    (by simp) () 100 t2 e2

/-- The buffer with undiscounted Monte Carlo returns. -/
def exRun (n1 n2 : Int) (sizes : List Nat) : Option (HBuf Nat Nat Int Int) :=
  (exEpisodes n1 n2).bind fun s =>
    (hookRounds (mcEpisodeHook 1) ⟨(exBuffer sizes).reset false, []⟩ (s.log.map fun round => (true, round))).toOption

/-- The arrays in the first `n` slots. -/
def exShow (n : Nat) (x : HBuf Nat Nat Int Int) : List (String × List (Option Int)) := x.cols.map fun p => (p.1, (List.range n).map p.2)

/-- Episodes of 1, 3 and 4 steps of environment 0, of 2 and 4 steps of environment 1, and unused slots at the end of the second sub-buffer. -/
example : (exRun 2 3 [8, 8]).map (exShow 16) =
    some [("mc_return_to_go", [some 1, some 6, some 5, some 3, some 10, some 9, some 7, some 4,
        some 3, some 2, some 10, some 9, some 7, some 4, none, none]),
      ("full_episode_mc_return", [some 1, some 6, some 6, some 6, some 10, some 10, some 10, some 10,
        some 3, some 3, some 10, some 10, some 10, some 10, none, none])] := by decide +kernel

/-- Five slots each: both sub-buffers have gone round, and the episodes are cut off at the front. -/
example : (exRun 2 3 [5, 5]).map (exShow 10) =
    some [("mc_return_to_go", [some 9, some 7, some 4, some 3, some 10, some 4, some 2, some 10, some 9, some 7]),
      ("full_episode_mc_return", [some 10, some 10, some 10, some 6, some 10, some 10, some 3, some 10, some 10, some 10])] := by
  decide +kernel

theorem exEpisodes_some (n1 n2 : Int) (h : (exEpisodes n1 n2).isSome = true) : exEpisodes n1 n2 = some ((exEpisodes n1 n2).get h) :=
  (Option.some_get h).symm

/-- The hypotheses of `C220_ok` and `C220_no_nan`. -/
example : ∃ s, Collector.Usage exCfg true s ∧
    EpisodesFit (Pipeline.sizeOf ([5, 5].map fun n => (Buf.new n {} : Buf Nat Nat Int))) [] s.log.flatten :=
  ⟨(exEpisodes 2 3).get (by decide +kernel), exEpisodes_usage _ _ _ (exEpisodes_some 2 3 (by decide +kernel)), by decide +kernel⟩

/-- The Monte Carlo hook returns both arrays for every episode. -/
example [CommRing R] [LE R] [DecidableLE R] (gamma : R) (h0 : 0 ≤ gamma) (h1 : gamma ≤ 1) :
    (∀ ep : List (Trans O A R), ep ≠ [] → ∃ adds, mcEpisodeHook gamma ep = some adds ∧
      adds.map Prod.fst = ["mc_return_to_go", "full_episode_mc_return"] ∧ ∀ p ∈ adds, p.2.length = ep.length) ∧
    mcEpisodeHook (O := O) (A := A) gamma [] = none := by
  constructor
  · intro ep hne
    obtain ⟨toGo, full, m1, m2, m3, _⟩ := C37_hook gamma (ep.map Trans.rew) (by simpa using hne) h0 h1
    obtain ⟨l, n1, n2, _⟩ := C37_return_to_go gamma (ep.map Trans.rew) (by simpa using hne)
    rw [m2] at n1
    cases n1
    refine ⟨_, by unfold mcEpisodeHook; rw [m1]; rfl, rfl, ?_⟩
    intro p hp
    simp only [List.mem_cons, List.not_mem_nil, or_false] at hp
    rw [List.length_map] at n2 m3
    rcases hp with rfl | rfl
    · exact n2
    · exact m3
  · unfold mcEpisodeHook mcHook mcReturnToGo
    simp

/-- The claim without the restriction to episodes that fit. -/
def C220 : Prop := ∀ (c : Collector.Cfg (Nat × Nat) Nat Nat Int Nat Nat Unit) (_ : c.share = false)
  (s : Collector.Col (Nat × Nat) Nat Nat Int Nat Nat) (_ : Collector.Usage c true s) (m0 : Mgr Nat Nat Int)
  (sep0 : List (Buf Nat Nat Int)) (_ : Reach m0 sep0) (_ : c.envNum ≤ sep0.length) (hook : Hook Nat Nat Int Int) (x : HBuf Nat Nat Int Int)
  (_ : hookRounds hook ⟨m0.reset false, []⟩ (s.log.map fun round => (true, round)) = .ok x) (_ : nullCheck x = .ok ())
  (e : Nat) (_ : e < c.envNum) (pre ep post : List (Collector.Row Nat Nat Int Nat)) (_ : Collector.rowsOf e s.log = pre ++ ep ++ post)
  (_ : openEpisode pre = []) (_ : IsEpisode ep) (j : Nat) (_ : j < ep.length)
  (_ : (Collector.rowsOf e s.log).length ≤ pre.length + j + Pipeline.sizeOf sep0 e)
  (adds : List (String × List Int)) (_ : hook (ep.map fun r => expectedRow m0.opts (experience r)) = some adds)
  (_ : (adds.map Prod.fst).Nodup) (key : String) (vs : List Int) (_ : (key, vs) ∈ adds) (v : Int) (_ : vs[j]? = some v),
  Carries x.cols key (startOf sep0 e + (pre.length + j) % Pipeline.sizeOf sep0 e) v

/-- Two collections of two episodes: environment 0 has had episodes of 1 and 3 steps. -/
def exState : Collector.Col (Nat × Nat) Nat Nat Int Nat Nat := (exEpisodes 2 2).get (by decide +kernel)

theorem exState_eq : exEpisodes 2 2 = some exState := exEpisodes_some 2 2 (by decide +kernel)

/-- The buffer, with two slots for environment 0. -/
def exFull : HBuf Nat Nat Int Int := (exRun 2 2 [2, 5]).get (by decide +kernel)

theorem exFull_eq : exRun 2 2 [2, 5] = some exFull := (Option.some_get _).symm

theorem toOption_ok {α ε : Type} {y : Except ε α} {x : α} (h : y.toOption = some x) : y = .ok x := by
  cases y with
  | error e => cases h
  | ok z => cases h; rfl

theorem exFull_run : hookRounds (mcEpisodeHook 1) ⟨(exBuffer [2, 5]).reset false, []⟩ (exState.log.map fun round => (true, round)) =
    .ok exFull := by
  have h := exFull_eq
  unfold exRun at h
  rw [exState_eq, Option.bind_some] at h
  exact toOption_ok h

def exRows : List (Collector.Row Nat Nat Int Nat) := Collector.rowsOf 0 exState.log

/-- **C220 is violated** by an episode that is longer than the sub-buffer: the second of its three transitions is still in the buffer and
should carry the return 5, but it carries 0, and no error is raised. -/
theorem C220_violated : ¬ C220 := by
  intro hC
  have hl : exRows.length = 4 := by decide +kernel
  have hsplit : Collector.rowsOf 0 exState.log = exRows.take 1 ++ exRows.drop 1 ++ [] := by
    rw [List.append_nil, List.take_append_drop, exRows]
  have hepl : (exRows.drop 1).length = 3 := by rw [List.length_drop, hl]
  have hopen : openEpisode (exRows.take 1) = [] := List.eq_nil_of_length_eq_zero (by decide +kernel)
  have hep : IsEpisode (exRows.drop 1) := by
    refine ⟨(exRows.drop 1).take 2, (exRows.drop 1)[2]'(by rw [hepl]; omega), ?_, by decide +kernel, ?_⟩
    · rw [List.take_append_getElem, List.take_of_length_le (by rw [hepl])]
    · have hd : ((exRows.drop 1)[2]?).map (fun r => r.out.ended) = some true := by decide +kernel
      rw [List.getElem?_eq_getElem (by rw [hepl]; omega), Option.map_some, Option.some.injEq] at hd
      exact hd
  have := hC exCfg rfl exState (exEpisodes_usage 2 2 _ exState_eq) (exBuffer [2, 5]) _ (exBuffer_reach [2, 5] (by decide)) (by decide)
    (mcEpisodeHook 1) exFull exFull_run (by decide +kernel) 0 (by decide) (exRows.take 1) (exRows.drop 1) [] hsplit hopen hep 1
    (by rw [hepl]; omega) (by decide +kernel) [("mc_return_to_go", [6, 5, 3]), ("full_episode_mc_return", [6, 6, 6])]
    (by decide +kernel) (by decide) "mc_return_to_go" [6, 5, 3] (by simp) 5 rfl
  obtain ⟨col, c1, c2⟩ := this
  have hcol : (lookup exFull.cols "mc_return_to_go").map (fun c => c 0) = some (some 0) := by decide +kernel
  rw [c1, Option.map_some, Option.some.injEq] at hcol
  have hz : startOf ([2, 5].map fun n => (Buf.new n {} : Buf Nat Nat Int)) 0 +
      ((exRows.take 1).length + 1) % Pipeline.sizeOf ([2, 5].map fun n => (Buf.new n {} : Buf Nat Nat Int)) 0 = 0 := by decide +kernel
  rw [hz, hcol] at c2
  exact absurd c2 (by decide)

/-- A collection by steps with a hook that returns something. -/
example : (match exHistory 3 with
    | none => none
    | some s => match hookRounds (mcEpisodeHook 1) (⟨(exBuffer [8, 8]).reset false, []⟩ : HBuf Nat Nat Int Int) (s.log.map fun round => (false, round)) with
      | .error e => some e
      | .ok _ => none) = some .valueError := by decide +kernel

end Verif.EpisodeHook
