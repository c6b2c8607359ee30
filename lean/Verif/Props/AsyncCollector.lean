import Verif.Lemmas.AsyncCollectorRun
import Verif.Props.Collector

/-! Property theorems about the asynchronous collector (properties C62, C78, C79). -/

namespace Verif.Collector

set_option linter.unusedSectionVars false

variable {σ A O R I H K : Type}

/-! ### An example

The policy counts the decisions about each environment (its recurrent state); only the environment that has waited longest is
returned by each call. -/

def exAsync (wait : Nat → List Nat → List Nat) : ACfg (Nat × Nat) Nat Nat Nat Nat Nat Unit where
  base := { exCfg false with
    isAsync := true
    policy := { exPolicy with
      forward := fun _ obs _ hidden => (obs, some (obs.zipIdx.map fun p => match hidden with
        | none => 1
        | some l => l.getD p.2 0 + 1)) } }
  entry := false
  store := some
  junk := 77
  wait := wait

/-- The one, or the two, that have waited longest. -/
def oneAtATime : Nat → List Nat → List Nat := fun k w => w.take (1 + k % 2)

theorem oneAtATime_schedule : Schedule oneAtATime := by
  intro k w hne hn
  refine ⟨?_, hn.sublist (List.take_sublist _ _), fun e he => List.mem_of_mem_take he⟩
  intro hc
  rw [oneAtATime, List.take_eq_nil_iff] at hc
  rcases hc with hc | hc
  · omega
  · exact hne hc

def exABuilt : ACol (Nat × Nat) Nat Nat Nat Nat Nat := abuilt (exAsync oneAtATime) ⟨fun e => (e, 7), fun _ => 0⟩

def aafter (x : Option (Except Err (ACol σ A O R I H × Stats))) : Option (ACol σ A O R I H) :=
  match x with
  | some (.ok (s, _)) => some s
  | _ => none

theorem aafter_some {x : Option (Except Err (ACol σ A O R I H × Stats))} {s : ACol σ A O R I H} (h : aafter x = some s) :
    ∃ st, x = some (.ok (s, st)) := by
  unfold aafter at h
  split at h
  · rename_i s' st
    rw [Option.some.injEq] at h
    subst h
    exact ⟨st, rfl⟩
  · exact absurd h (by simp)

/-! ### C62 -/

/-- **C62.** For every completion schedule and every sequence of calls: each stored transition carries the observation the
policy was asked about when it chose the environment's pending action (and the info of that moment), that action, and the action
applied to the environment is the one belonging to it. -/
theorem C62_pairing (c : ACfg σ A O R I H K) (hsch : Schedule c.wait) (s : ACol σ A O R I H) (h : AReachable c s)
    (e : Nat) (row : Row O A R I) (hr : (e, row) ∈ s.log.flatten) :
    e < c.base.envNum ∧ Asked c e row.obs row.given row.act row.applied :=
  (areachable_inv c hsch s h).stored (e, row) hr

/-- **C62, the results.** In ordinary use the stream of transitions stored for an environment is what this environment went
through since the reset: nothing is lost, repeated, reordered or taken from another environment. -/
theorem C62_trajectories (c : ACfg σ A O R I H K) (hsch : Schedule c.wait) (s : ACol σ A O R I H) (h : AUsage c s) :
    (∀ e < c.base.envNum, ∃ start sit, JustReset c.base.env start ∧ Trajectory c.base.env start (rowsOf e s.log) sit ∧
      sit.state = s.world.envs e) ∧
    ∀ e, c.base.envNum ≤ e → rowsOf e s.log = [] := by
  obtain ⟨o, i, ho, hi, ht⟩ := ausage_traj c hsch s h
  refine ⟨fun e he => ?_, fun e he => ?_⟩
  · obtain ⟨start, sit, h1, h2, h3, _⟩ := ht e he
    exact ⟨start, sit, h1, h2, h3⟩
  · rw [rowsOf, List.map_eq_nil_iff, List.filter_eq_nil_iff]
    intro p hp hc
    have hpe : p.1 = e := by simpa using hc
    have := ((areachable_inv c hsch s (ausage_reachable h)).stored p hp).1
    omega

/-- **C62, how much is collected.** The statistics count the transitions and the ends of episodes added by the call; at least the
requested number is collected, and fewer than the number of environments too many. -/
theorem C62_counts (c : ACfg σ A O R I H K) (hsch : Schedule c.wait) (s s' : ACol σ A O R I H) (h : AReachable c s)
    (nStep nEpisode : Option Int) (random before : Bool) (kw : K) (fuel : Nat) (st : Stats)
    (hc : acollect c nStep nEpisode random before kw fuel s = some (.ok (s', st))) :
    ∃ new, s'.log = s.log ++ new ∧ st.steps = (allRows new).length ∧
      st.episodes = ((allRows new).filter fun r => r.out.ended).length ∧
      (∀ n, nStep = some n → nEpisode = none → 0 < n → n ≤ st.steps ∧ (st.steps : Int) < n + c.base.envNum) ∧
      (∀ n, nStep = none → nEpisode = some n → 0 < n → n ≤ st.episodes ∧ (st.episodes : Int) < n + c.base.envNum) := by
  obtain ⟨_, t, o, i, l, ht, ho, hi, hr, rfl, rfl⟩ := acollect_ok c nStep nEpisode random before kw fuel s s' st hc
  have hti := aprepared_inv c before kw s t (areachable_inv c hsch s h) ht
  obtain ⟨i', hi', hinv⟩ := hti.both o ho
  rw [hi, Option.some.injEq] at hi'
  subst hi'
  have hlog : t.log = s.log := by
    unfold aprepared at ht
    cases before with
    | false =>
      simp only [Bool.false_eq_true, if_false, Except.ok.injEq] at ht
      rw [ht]
    | true =>
      obtain ⟨w, rfl⟩ := areset_ok c false true kw s t (by simpa using ht)
      rfl
  obtain ⟨⟨_, new, h1, h2, h3⟩, hst, u, ⟨hu, _⟩, hit, hor⟩ := arun_induct c nStep nEpisode random kw
    (fun x => AInv c x ∧ ACount t.log x)
    (fun a b ha hab => by
      obtain ⟨got, ent, hrd⟩ := aiter_round c hsch random kw a b ha.1.toAWF hab
      exact ⟨ha.1.next hrd, ha.2.next hrd⟩) fuel _ _ hr ⟨hinv, [], by simp [astart], rfl, rfl⟩
  obtain ⟨got, ent, hrd⟩ := aiter_round c hsch random kw u l hu.toAWF hit
  have hle := hrd.got_le hu
  have hfl := List.length_filter_le (fun r : Row O A R I => r.out.done) ent
  have hel := hrd.len
  refine ⟨new, by rw [← hlog]; exact h1, h2, h3, ?_, ?_⟩
  · rintro n rfl rfl hn
    have hs := hrd.steps
    simp only [stops, Bool.or_false, Bool.and_eq_true, decide_eq_true_eq, ne_eq, ge_iff_le] at hst
    refine ⟨hst.2, ?_⟩
    simp only
    rcases hor with rfl | hor
    · have : (astart t o i).stepCount = 0 := rfl
      omega
    · simp only [stops, Bool.or_false, Bool.and_eq_false_iff, decide_eq_false_iff_not, ne_eq, not_not, ge_iff_le, not_le] at hor
      omega
  · rintro n rfl rfl hn
    have hs := hrd.eps
    simp only [stops, Bool.false_or, Bool.and_eq_true, decide_eq_true_eq, ne_eq, ge_iff_le] at hst
    refine ⟨hst.2, ?_⟩
    simp only
    rcases hor with rfl | hor
    · have : (astart t o i).numEpisodes = 0 := rfl
      omega
    · simp only [stops, Bool.false_or, Bool.and_eq_false_iff, decide_eq_false_iff_not, ne_eq, not_not, ge_iff_le, not_le] at hor
      omega

/-- Two collections with this schedule: the transitions as environment, observation, action, applied action, next observation and
end of episode. -/
def exARows (s : ACol (Nat × Nat) Nat Nat Nat Nat Nat) : List (List (List Nat)) :=
  s.log.map fun l => l.map fun p => [p.1, p.2.obs, p.2.act, p.2.applied, p.2.out.obs, p.2.out.ended.toNat]

example : ((aafter (acollect (exAsync oneAtATime) (some 4) none false true () 100 exABuilt)).bind fun s =>
    aafter (acollect (exAsync oneAtATime) (some 2) none false false () 100 s)).map (fun s => (exARows s, s.waiting)) =
    some ([[[0, 0, 0, 0, 1, 1], [1, 100, 100, 200, 101, 0]], [[2, 200, 200, 400, 201, 0]],
      [[0, 0, 0, 0, 1, 1], [1, 101, 101, 202, 102, 1]], [[2, 201, 201, 402, 202, 0]],
      [[0, 0, 0, 0, 1, 1], [1, 100, 100, 200, 101, 0]]], [2]) := by
  decide +kernel

example : ∃ s, AUsage (exAsync oneAtATime) s ∧ (allRows s.log).length = 6 := by
  have h : (match areset (exAsync oneAtATime) true true () exABuilt with
    | .ok s => ((aafter (acollect (exAsync oneAtATime) (some 6) none false false () 100 s)).map fun s' => (allRows s'.log).length)
    | .error _ => none) = some 6 := by decide +kernel
  cases hr : areset (exAsync oneAtATime) true true () exABuilt with
  | error e => rw [hr] at h; simp at h
  | ok s =>
    rw [hr] at h
    simp only [Option.map_eq_some_iff] at h
    obtain ⟨s', h1, h2⟩ := h
    obtain ⟨st, h1⟩ := aafter_some h1
    exact ⟨s', .collect (.reset (.built _) true () hr) _ _ false () 100 st h1, h2⟩

/-- **C62, totals.** A new collector has collected nothing; each call of `collect` adds its statistics to the totals, which start
again from zero if the collector is reset before. -/
theorem C62_totals (c : ACfg σ A O R I H K) (w : World σ O) (s s' : ACol σ A O R I H) (nStep nEpisode : Option Int)
    (random before : Bool) (kw : K) (fuel : Nat) (st : Stats)
    (hc : acollect c nStep nEpisode random before kw fuel s = some (.ok (s', st))) :
    (abuilt c w).collectStep = 0 ∧ (abuilt c w).collectEpisode = 0 ∧ (abuilt c w).log = [] ∧
      s'.collectStep = (if before then 0 else s.collectStep) + st.steps ∧
      s'.collectEpisode = (if before then 0 else s.collectEpisode) + st.episodes := by
  obtain ⟨_, t, o, i, l, ht, ho, hi, hr, rfl, rfl⟩ := acollect_ok c nStep nEpisode random before kw fuel s s' st hc
  refine ⟨rfl, rfl, rfl, ?_⟩
  cases before with
  | false =>
    simp only [aprepared, Bool.false_eq_true, if_false, Except.ok.injEq] at ht
    subst ht
    exact ⟨rfl, rfl⟩
  | true =>
    obtain ⟨w, rfl⟩ := areset_ok c false true kw s t (by simpa [aprepared] using ht)
    exact ⟨rfl, rfl⟩

/-! ### C78 -/

theorem stateless_curHidden (c : ACfg σ A O R I H K)
    (hn : ∀ k obs info hidden, (c.base.policy.forward k obs info hidden).2 = none) (s : ACol σ A O R I H)
    (hs : s.curHidden = none) (nStep nEpisode : Option Int) (random before : Bool) (kw : K) (fuel : Nat)
    (s' : ACol σ A O R I H) (st : Stats) : acollect c nStep nEpisode random before kw fuel s ≠ some (.ok (s', st)) := by
  intro hc
  obtain ⟨_, t, o, i, l, ht, ho, hi, hr, rfl, rfl⟩ := acollect_ok c nStep nEpisode random before kw fuel s s' st hc
  have hth : t.curHidden = none := by
    unfold aprepared at ht
    cases before with
    | false =>
      simp only [Bool.false_eq_true, if_false, Except.ok.injEq] at ht
      rw [← ht]; exact hs
    | true =>
      obtain ⟨w, rfl⟩ := areset_ok c false true kw s t (by simpa using ht)
      rfl
  obtain ⟨x, hx⟩ := arun_first c nStep nEpisode random kw fuel _ _ hr
  exact aiter_stateless c hn random kw _ _ hth hx

/-- **C78 is violated**: with a policy that has no recurrent state no collection ever succeeds, whatever the environments, the
schedule and the arguments are. -/
theorem C78_stateless_violated (c : ACfg σ A O R I H K)
    (hn : ∀ k obs info hidden, (c.base.policy.forward k obs info hidden).2 = none) (s : ACol σ A O R I H) (h : AReachable c s)
    (nStep nEpisode : Option Int) (random before : Bool) (kw : K) (fuel : Nat) (s' : ACol σ A O R I H) (st : Stats) :
    acollect c nStep nEpisode random before kw fuel s ≠ some (.ok (s', st)) := by
  refine stateless_curHidden c hn s ?_ nStep nEpisode random before kw fuel s' st
  induction h with
  | built w => rfl
  | @reset s s' h b st kw hr ih =>
    obtain ⟨w, rfl⟩ := areset_ok c b st kw s s' hr
    rfl
  | collect h nStep nEpisode random before kw fuel st hc ih =>
    exact absurd hc (stateless_curHidden c hn _ ih nStep nEpisode random before kw fuel _ st)

/-- The same policy does collect with the synchronous collector, and the asynchronous one raises `IndexError` (without an entry
"policy") or `TypeError` (with one). -/
example : (after (collect (exCfg false) (some 1) none false true () 100 exCol)).isSome = true ∧
    (∀ entry : Bool, (match acollect { exAsync oneAtATime with base := exCfg false, entry := entry } (some 1) none false true () 100
        exABuilt with
      | some (.error e) => some e
      | _ => none) = some (if entry then .type else .index)) := by decide +kernel

/-- **C78 is violated**: random actions (`random=True`) can never be collected directly after a reset. -/
theorem C78_random_violated (c : ACfg σ A O R I H K) (s : ACol σ A O R I H) (nStep nEpisode : Option Int) (kw : K) (fuel : Nat)
    (s' : ACol σ A O R I H) (st : Stats) : acollect c nStep nEpisode true true kw fuel s ≠ some (.ok (s', st)) := by
  intro hc
  obtain ⟨_, t, o, i, l, ht, ho, hi, hr, rfl, rfl⟩ := acollect_ok c nStep nEpisode true true kw fuel s s' st hc
  have hth : t.known = false := by
    obtain ⟨w, rfl⟩ := areset_ok c false true kw s t (by simpa [aprepared] using ht)
    rfl
  obtain ⟨x, hx⟩ := arun_first c nStep nEpisode true kw fuel _ _ hr
  exact aiter_random c kw _ _ hth hx

example : (after (collect (exCfg false) (some 1) none true true () 100 exCol)).isSome = true := by decide +kernel

/-- **C78 is violated**: no collection succeeds whose actions cannot be stored in a one-dimensional array of floats (such as
actions that are vectors). -/
theorem C78_actions_violated (c : ACfg σ A O R I H K) (hstore : ∀ a, c.store a = none)
    (hsch : Schedule c.wait) (hN : 0 < c.base.envNum) (s : ACol σ A O R I H) (hs : AReachable c s)
    (nStep nEpisode : Option Int) (random : Bool) (kw : K) (fuel : Nat) (s' : ACol σ A O R I H) (st : Stats) :
    acollect c nStep nEpisode random true kw fuel s ≠ some (.ok (s', st)) := by
  intro hc
  obtain ⟨_, t, o, i, l, ht, ho, hi, hr, rfl, rfl⟩ := acollect_ok c nStep nEpisode random true kw fuel s s' st hc
  have hti := aprepared_inv c true kw s t (areachable_inv c hsch s hs) ht
  obtain ⟨i', hi', hinv⟩ := hti.both o ho
  rw [hi, Option.some.injEq] at hi'
  subst hi'
  obtain ⟨x, hx⟩ := arun_first c nStep nEpisode random kw fuel _ _ hr
  have hrd : t.ready = List.range c.base.envNum := by
    obtain ⟨w, rfl⟩ := areset_ok c false true kw s t (by simpa [aprepared] using ht)
    rfl
  unfold aiter at hx
  simp only at hx
  set d := decide c.base random (astart t o i).calls (astart t o i).ready (astart t o i).lastObs (astart t o i).lastInfo
    (astart t o i).lastHidden with hd
  cases hst : d.act.mapM c.store with
  | none => rw [hst] at hx; simp at hx
  | some stored =>
    rw [hst] at hx
    simp only at hx
    by_cases h1 : d.act.length = (astart t o i).ready.length
    · have hl : 0 < d.act.length := by rw [h1]; simp [astart, hrd, hN]
      obtain ⟨y, _, hy⟩ := (mapM_get _ _ _ hst).2 0 _ (List.getElem?_eq_getElem hl)
      rw [hstore] at hy
      exact absurd hy (by simp)
    · rw [if_pos h1] at hx; exact absurd hx (by simp)

/-- **C78 (partial).** With a policy that always returns recurrent states, and actions that are numbers, collecting terminates
under every schedule: by steps always, by episodes if the environments end their episodes. -/
theorem C78_stateful_partial (c : ACfg σ A O R I H K) (hsch : Schedule c.wait) (hf : Fitting c.base) (hst : Stateful c.base)
    (hstore : ∀ a, (c.store a).isSome) (hN : 0 < c.base.envNum) (s : ACol σ A O R I H) (h : AReachable c s)
    (hs : s.curObs ≠ none) (n : Int) (hn : 0 < n) (kw : K) :
    (∃ fuel₀, ∀ fuel ≥ fuel₀, ∃ s' st, acollect c (some n) none false false kw fuel s = some (.ok (s', st))) ∧
    (∀ left, TimeLimited c.base.env left →
      ∃ fuel₀, ∀ fuel ≥ fuel₀, ∃ s' st, acollect c none (some n) false false kw fuel s = some (.ok (s', st))) := by
  obtain ⟨o, ho⟩ := Option.ne_none_iff_exists'.1 hs
  obtain ⟨i, hi, hinv⟩ := (areachable_inv c hsch s h).both o ho
  have hhid : HidInv c (astart s o i) := areachable_hid c hsch hst s h
  have hne : n ≠ 0 := by omega
  constructor
  · obtain ⟨fuel, l, hr⟩ := arun_steps_terminates c hsch hf hst hstore hN n hne kw _ (astart s o i) hinv hhid le_rfl
    refine ⟨fuel, fun f hfu => ?_⟩
    exact acollect_of_run c (some n) none (by simp [validates, truthy, hne]) false false kw f s s rfl o i ho hi l
      (arun_mono c _ _ false kw fuel _ _ hr f hfu)
  · intro left hl
    obtain ⟨fuel, l, hr⟩ := arun_episodes_terminates c hsch hf hst hstore hN left hl n hne kw _ _ (astart s o i) hinv hhid
      le_rfl le_rfl
    refine ⟨fuel, fun f hfu => ?_⟩
    exact acollect_of_run c none (some n) (by simp [validates, truthy, hne]) false false kw f s s rfl o i ho hi l
      (arun_mono c _ _ false kw fuel _ _ hr f hfu)

theorem exAsync_stateful (wait : Nat → List Nat → List Nat) : Stateful (exAsync wait).base := by
  intro k obs info hidden
  exact ⟨_, rfl, by simp⟩

example (n : Int) (hn : 0 < n) (s : ACol (Nat × Nat) Nat Nat Nat Nat Nat)
    (hr : areset (exAsync oneAtATime) true true () exABuilt = .ok s) :
    ∃ fuel₀, ∀ fuel ≥ fuel₀, ∃ s' st, acollect (exAsync oneAtATime) none (some n) false false () fuel s = some (.ok (s', st)) :=
  (C78_stateful_partial (exAsync oneAtATime) oneAtATime_schedule
    (fun k obs info hidden => ⟨rfl, fun acts h => by simpa [exAsync, exCfg, exPolicy] using h⟩)
    (exAsync_stateful _) (fun _ => rfl) (by decide) s (.reset (.built _) true true () hr)
    (by obtain ⟨w, rfl⟩ := areset_ok _ _ _ _ _ _ hr; simp) n hn ()).2 _ exTimeLimited

example : (match areset (exAsync oneAtATime) true true () exABuilt with
    | .ok _ => true
    | .error _ => false) = true := by decide +kernel

/-! ### C79 -/

/-- **C79 is violated**: with three environments of which one result is returned at a time, `reset` raises after collecting one
step. -/
theorem C79_violated : ∃ (c : ACfg (Nat × Nat) Nat Nat Nat Nat Nat Unit) (s : ACol (Nat × Nat) Nat Nat Nat Nat Nat),
    Schedule c.wait ∧ AReachable c s ∧ areset c true true () s = .error .assertion := by
  have hsch : Schedule fun _ w => w.take 1 := by
    intro k w hne hn
    refine ⟨?_, hn.sublist (List.take_sublist _ _), fun e he => List.mem_of_mem_take he⟩
    intro hc
    rw [List.take_eq_nil_iff] at hc
    rcases hc with hc | hc
    · omega
    · exact hne hc
  have h : (aafter (acollect (exAsync fun _ w => w.take 1) (some 1) none false true () 100 exABuilt)).map (fun s =>
      match areset (exAsync fun _ w => w.take 1) true true () s with
      | .ok _ => none
      | .error e => some e) = some (some .assertion) := by decide +kernel
  rw [Option.map_eq_some_iff] at h
  obtain ⟨s, h1, h2⟩ := h
  obtain ⟨st, h1⟩ := aafter_some h1
  refine ⟨exAsync fun _ w => w.take 1, s, hsch, .collect (.built _) _ _ false true () 100 st h1, ?_⟩
  cases hr : areset (exAsync fun _ w => w.take 1) true true () s with
  | ok t => rw [hr] at h2; simp at h2
  | error e => rw [hr] at h2; simp only [Option.some.injEq] at h2; rw [h2]

/-- **C79 (partial).** `reset` succeeds exactly if a single look at the pending steps finds all of them completed, in particular
if at most one step is pending; afterwards no step is pending, all environments are ready and have been reset. -/
theorem C79_reset_partial (c : ACfg σ A O R I H K) (s : ACol σ A O R I H) (buffer stats : Bool) (kw : K) :
    ((∃ s', areset c buffer stats kw s = .ok s') ↔ s.waiting = [] ∨ ∀ e ∈ s.waiting, e ∈ c.wait s.calls s.waiting) ∧
    (Schedule c.wait → s.waiting.length ≤ 1 → ∃ s', areset c buffer stats kw s = .ok s') ∧
    (∀ s', areset c buffer stats kw s = .ok s' → s'.waiting = [] ∧ s'.ready = List.range c.base.envNum ∧
      ∃ o i, s'.curObs = some o ∧ s'.curInfo = some i ∧ ∀ e < c.base.envNum, ∃ x y a b,
        c.base.env.reset kw x = (y, a, b) ∧ s'.world.envs e = y ∧ o[e]? = some a ∧ i[e]? = some b) := by
  have key : (∃ s', areset c buffer stats kw s = .ok s') ↔ s.waiting = [] ∨ ∀ e ∈ s.waiting, e ∈ c.wait s.calls s.waiting := by
    by_cases hw : s.waiting = []
    · refine ⟨fun _ => Or.inl hw, fun _ => ?_⟩
      unfold areset aresetEnv
      rw [hw]
      simp
    · unfold areset aresetEnv
      simp only [hw, if_false, false_or]
      by_cases ha : s.waiting.all (c.wait s.calls s.waiting).contains
      · rw [if_pos ha]
        refine ⟨fun _ e he => ?_, fun _ => ⟨_, rfl⟩⟩
        have := List.all_eq_true.1 ha e he
        simpa using this
      · rw [if_neg ha]
        refine ⟨fun ⟨s', h⟩ => by simp at h, fun h => ?_⟩
        exfalso
        apply ha
        rw [List.all_eq_true]
        intro e he
        simpa using h e he
  refine ⟨key, ?_, ?_⟩
  · intro hsch hl
    rw [key]
    by_cases hw : s.waiting = []
    · exact Or.inl hw
    · right
      obtain ⟨e, he⟩ : ∃ e, s.waiting = [e] := List.length_eq_one_iff.1 (by
        have := List.length_pos_iff.2 hw
        omega)
      obtain ⟨h1, _, h3⟩ := hsch s.calls s.waiting hw (by rw [he]; simp)
      intro x hx
      obtain ⟨y, hy⟩ := List.exists_mem_of_ne_nil _ h1
      have hy2 := h3 y hy
      have h4 : x = e := by rw [he] at hx; simpa using hx
      have h5 : y = e := by rw [he] at hy2; simpa using hy2
      rw [h4, ← h5]; exact hy
  · intro s' h
    obtain ⟨w, rfl⟩ := areset_ok c buffer stats kw s s' h
    refine ⟨rfl, rfl, _, _, rfl, rfl, ?_⟩
    intro e he
    obtain ⟨hg1, hg2⟩ := resetEnvs_get c.base.env kw (List.range c.base.envNum) w List.nodup_range e e (List.getElem?_range he)
    exact ⟨w.envs e, _, _, _, rfl, hg2, by rw [List.getElem?_map, hg1]; rfl, by rw [List.getElem?_map, hg1]; rfl⟩

example : ∃ s, AReachable (exAsync oneAtATime) s ∧ s.waiting = [2] ∧
    ∃ s', areset (exAsync oneAtATime) true true () s = .ok s' := by
  have h : (aafter (acollect (exAsync oneAtATime) (some 1) none false true () 100 exABuilt)).map (fun s => s.waiting)
      = some [2] := by decide +kernel
  rw [Option.map_eq_some_iff] at h
  obtain ⟨s, h1, h2⟩ := h
  obtain ⟨st, h1⟩ := aafter_some h1
  exact ⟨s, .collect (.built _) _ _ false true () 100 st h1, h2,
    (C79_reset_partial _ s true true ()).2.1 oneAtATime_schedule (by rw [h2]; decide)⟩

end Verif.Collector
