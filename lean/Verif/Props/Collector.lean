import Verif.Lemmas.CollectorHidden

/-!
# Collector (properties C58-C61, C63, C64, C77)

Vocabulary: `Reachable`, `Usage`, `Trajectory`, `Decided`, `rowsOf`, `allRows` in `Verif/Spec/Collector.lean`.
-/

namespace Verif.Collector

set_option linter.unusedSectionVars false

variable {σ A O R I H K : Type}

/-! ### A small collector, used to show that the hypotheses below can be met -/

/-- Environment `(i, t)` ends its episodes after `i + 1` steps. -/
def exEnv : Env (Nat × Nat) Nat Nat Nat Nat Unit where
  step := fun s a => ((s.1, s.2 + 1), ⟨100 * s.1 + s.2 + 1, a, Nat.ble s.1 s.2, false, s.2 + 1⟩)
  reset := fun _ s => ((s.1, 0), 100 * s.1, 0)

def exPolicy : Policy Nat Nat Nat Nat where
  forward := fun k obs _ _ => (obs.map fun o => o + 1000 * k, none)
  noise := fun k acts _ => acts.map fun a => a + k
  mapAction := fun a => 2 * a
  mapActionInverse := fun a => a / 2
  sample := fun k e => 2 * (k + e)

/-- Three environments with episodes of one, two and three steps. -/
def exCfg (share : Bool) : Cfg (Nat × Nat) Nat Nat Nat Nat Nat Unit where
  env := exEnv
  policy := exPolicy
  envNum := 3
  noise := false
  share := share
  hiddenKind := .arrayOrBatch
  zeroHidden := 0
  isAsync := false

def exCol : Col (Nat × Nat) Nat Nat Nat Nat Nat where
  world := ⟨fun e => (e, 7), fun _ => 0⟩

/-- The collector after a successful call. -/
def after (x : Option (Except Err (Col σ A O R I H × Stats))) : Option (Col σ A O R I H) :=
  match x with
  | some (.ok (s, _)) => some s
  | _ => none

theorem after_some {x : Option (Except Err (Col σ A O R I H × Stats))} {s : Col σ A O R I H} (h : after x = some s) :
    ∃ st, x = some (.ok (s, st)) := by
  unfold after at h
  split at h
  · rename_i s' st
    rw [Option.some.injEq] at h
    subst h
    exact ⟨st, rfl⟩
  · exact absurd h (by simp)

theorem exFitting (share : Bool) : Fitting (exCfg share) := by
  intro k obs info hidden
  refine ⟨by simp [exCfg, exPolicy], fun acts h => by simp [exCfg, exPolicy, h]⟩

theorem exTimeLimited : TimeLimited exEnv fun s => s.1 - s.2 := by
  intro s a h
  have h' : Nat.ble s.1 s.2 = false := by simpa [exEnv, StepOut.ended] using h
  have : ¬ s.1 ≤ s.2 := by
    intro hc
    rw [Nat.ble_eq_true_of_le hc] at h'
    exact absurd h' (by simp)
  show s.1 - (s.2 + 1) < s.1 - s.2
  omega

/-! ### C58 -/

/-- **C58.** If `collect(n_episode=n)` returns, exactly `n` of the transitions added to the buffer end an episode, and the
statistics say so. -/
theorem C58_exact (c : Cfg σ A O R I H K) (s s' : Col σ A O R I H) (hs : Reachable c s) (n : Int) (hn : 0 < n)
    (random before : Bool) (kw : K) (fuel : Nat) (st : Stats)
    (hc : collect c none (some n) random before kw fuel s = some (.ok (s', st))) :
    ∃ new, s'.log = s.log ++ new ∧ (((allRows new).filter fun r => r.out.ended).length : Int) = n ∧
      (st.episodes : Int) = n ∧ st.steps = (allRows new).length ∧
      (before = false → (s'.collectEpisode : Int) = s.collectEpisode + n ∧ s'.collectStep = s.collectStep + st.steps) ∧
      (before = true → (s'.collectEpisode : Int) = n ∧ s'.collectStep = st.steps) := by
  obtain ⟨hn0, po, pi, l, hpo, hpi, hr, rfl, rfl⟩ := collect_episodes c n random before kw fuel s s' st hc
  obtain ⟨w1, w2⟩ := prepared_wf c before kw s (reachable_wf c s hs)
  have hm : (min (c.envNum : Int) n).toNat ≤ c.envNum := by omega
  obtain ⟨⟨new, hnew, hinv, _⟩, hst⟩ := run_inv c _ _ random kw fuel _ _ _ _ hr
    (start_inv (some n) _ _ po pi (by rw [w1 _ hpo]; exact hm) (by rw [w2 _ hpi]; exact hm))
  simp only [stops, Bool.false_or, Bool.and_eq_true, decide_eq_true_eq, ne_eq, ge_iff_le] at hst
  have hcount := hinv.count n rfl hn0 (by rw [List.length_range]; omega)
  have heq : (l.numEpisodes : Int) = n := by omega
  refine ⟨new, ?_, ?_, heq, hinv.steps, ?_, ?_⟩
  · show l.log = _
    rw [hinv.log, prepared_log]
  · have he := hinv.eps
    change _ = ((allRows new).filter fun r => r.out.ended).length at he
    rw [← he]; exact heq
  · rintro rfl
    refine ⟨?_, rfl⟩
    show ((s.collectEpisode + l.numEpisodes : Nat) : Int) = _
    omega
  · rintro rfl
    refine ⟨?_, ?_⟩
    · show ((0 + l.numEpisodes : Nat) : Int) = _
      omega
    · exact Nat.zero_add _

/-- **C58.** `collect(n_episode=n)` returns if every episode ends some time. -/
theorem C58_terminates (c : Cfg σ A O R I H K) (hf : Fitting c) (ha : c.isAsync = false) (hN : 0 < c.envNum)
    (left : σ → Nat) (hl : TimeLimited c.env left) (s : Col σ A O R I H) (hs : Reachable c s) (n : Int) (hn : 0 < n)
    (random before : Bool) (hb : before = true ∨ (s.preObs ≠ none ∧ s.preInfo ≠ none)) (kw : K) :
    ∃ fuel₀, ∀ fuel ≥ fuel₀, ∃ s' st, collect c none (some n) random before kw fuel s = some (.ok (s', st)) := by
  have hpre : ∃ po pi, (prepared c before kw s).preObs = some po ∧ (prepared c before kw s).preInfo = some pi := by
    cases before with
    | true => exact ⟨_, _, rfl, rfl⟩
    | false =>
      obtain ⟨h1, h2⟩ := hb.resolve_left (by simp)
      obtain ⟨po, hpo⟩ := Option.ne_none_iff_exists'.1 h1
      obtain ⟨pi, hpi⟩ := Option.ne_none_iff_exists'.1 h2
      exact ⟨po, pi, hpo, hpi⟩
  obtain ⟨po, pi, hpo, hpi⟩ := hpre
  obtain ⟨w1, w2⟩ := prepared_wf c before kw s (reachable_wf c s hs)
  have hm : (min (c.envNum : Int) n).toNat ≤ c.envNum := by omega
  have hinv := start_inv (some n) (prepared c before kw s) (min (c.envNum : Int) n).toNat po pi
    (by rw [w1 _ hpo]; exact hm) (by rw [w2 _ hpi]; exact hm)
  have hne : (start (prepared c before kw s) (List.range (min (c.envNum : Int) n).toNat) po pi).ready ≠ [] := by
    intro hc
    have : (List.range (min (c.envNum : Int) n).toNat).length = 0 := by
      rw [show List.range (min (c.envNum : Int) n).toNat = [] from hc]; rfl
    rw [List.length_range] at this
    omega
  obtain ⟨fuel₀, l, hr⟩ := run_episodes_terminates c hf left hl n (by omega) random kw _ _ _ _ _ _ hinv hne le_rfl le_rfl
  refine ⟨fuel₀, fun fuel hfuel => ?_⟩
  obtain ⟨s', h⟩ := collect_episodes_of_run c ha n (by omega) random before kw fuel s po pi l hpo hpi
    (run_mono c _ _ random kw _ _ _ hr fuel hfuel)
  exact ⟨s', _, h⟩

/-- Seven episodes in three environments: thirteen transitions, seven of which end an episode. -/
example : ∃ s', after (collect (exCfg false) none (some 7) false true () 100 exCol) = some s' ∧
    ((allRows s'.log).filter fun r => r.out.ended).length = 7 ∧ (allRows s'.log).length = 13 := by
  have h : (after (collect (exCfg false) none (some 7) false true () 100 exCol)).map (fun s' =>
      (((allRows s'.log).filter fun r => r.out.ended).length, (allRows s'.log).length)) = some (7, 13) := by decide +kernel
  rw [Option.map_eq_some_iff] at h
  obtain ⟨s', h1, h2⟩ := h
  rw [Prod.mk.injEq] at h2
  exact ⟨s', h1, h2⟩

example : ∃ fuel₀, ∀ fuel ≥ fuel₀, ∃ s' st, collect (exCfg false) none (some 1000000) false true () fuel exCol
    = some (.ok (s', st)) :=
  C58_terminates (exCfg false) (exFitting _) rfl (by decide) _ exTimeLimited exCol (.built _) _ (by decide) false true
    (Or.inl rfl) ()

/-! ### C59 -/

/-- **C59.** If `collect(n_step=n)` returns, every environment has added the same number `k` of transitions, where
`k * env_num` is the least multiple of the number of environments that is at least `n`. -/
theorem C59_exact (c : Cfg σ A O R I H K) (s s' : Col σ A O R I H) (hs : Reachable c s) (n : Int) (hn : 0 < n)
    (random before : Bool) (kw : K) (fuel : Nat) (st : Stats)
    (hc : collect c (some n) none random before kw fuel s = some (.ok (s', st))) :
    ∃ (k : Nat) (new : List (List (Nat × Row O A R I))), s'.log = s.log ++ new ∧
      n ≤ ((k * c.envNum : Nat) : Int) ∧ (∀ k' : Nat, n ≤ ((k' * c.envNum : Nat) : Int) → k ≤ k') ∧
      st.steps = k * c.envNum ∧ (allRows new).length = k * c.envNum ∧
      st.episodes = ((allRows new).filter fun r => r.out.ended).length ∧
      (∀ e < c.envNum, (rowsOf e new).length = k) ∧ (∀ e ≥ c.envNum, rowsOf e new = []) ∧
      (before = false → s'.collectStep = s.collectStep + st.steps ∧ s'.collectEpisode = s.collectEpisode + st.episodes) ∧
      (before = true → s'.collectStep = st.steps ∧ s'.collectEpisode = st.episodes) := by
  obtain ⟨hn0, po, pi, l, hpo, hpi, hr, rfl, rfl⟩ := collect_steps c n random before kw fuel s s' st hc
  obtain ⟨w1, w2⟩ := prepared_wf c before kw s (reachable_wf c s hs)
  obtain ⟨⟨new, hnew, hinv, hlt⟩, hst⟩ := run_inv c _ _ random kw fuel _ _ _ _ hr
    (start_inv none _ _ po pi (by rw [w1 _ hpo]) (by rw [w2 _ hpi]))
  simp only [stops, Bool.or_false, Bool.and_eq_true, decide_eq_true_eq, ne_eq, ge_iff_le] at hst
  obtain ⟨_, hk, hsteps⟩ := hinv.stay rfl
  have hlt' := hlt n rfl rfl hn
  rw [List.length_range] at hsteps hlt'
  refine ⟨new.length, new, ?_, ?_, ?_, hsteps, ?_, hinv.eps, ?_, ?_, ?_, ?_⟩
  · show l.log = _
    rw [hinv.log, prepared_log]
  · rw [← hsteps]; exact hst.2
  · intro k' hk'
    by_contra hcon
    have h1 : k' ≤ new.length - 1 := by omega
    have h2 := Nat.mul_le_mul_right c.envNum h1
    omega
  · rw [← hinv.steps, hsteps]
  · intro e he; exact hk e (List.mem_range.2 he)
  · intro e he; exact hinv.ids e (by rw [List.mem_range]; omega)
  · rintro rfl; exact ⟨rfl, rfl⟩
  · rintro rfl
    exact ⟨Nat.zero_add _, Nat.zero_add _⟩

/-- **C59.** `collect(n_step=n)` always returns. -/
theorem C59_terminates (c : Cfg σ A O R I H K) (hf : Fitting c) (ha : c.isAsync = false) (hN : 0 < c.envNum)
    (s : Col σ A O R I H) (hs : Reachable c s) (n : Int) (hn : 0 < n)
    (random before : Bool) (hb : before = true ∨ (s.preObs ≠ none ∧ s.preInfo ≠ none)) (kw : K) :
    ∃ fuel₀, ∀ fuel ≥ fuel₀, ∃ s' st, collect c (some n) none random before kw fuel s = some (.ok (s', st)) := by
  have hpre : ∃ po pi, (prepared c before kw s).preObs = some po ∧ (prepared c before kw s).preInfo = some pi := by
    cases before with
    | true => exact ⟨_, _, rfl, rfl⟩
    | false =>
      obtain ⟨h1, h2⟩ := hb.resolve_left (by simp)
      obtain ⟨po, hpo⟩ := Option.ne_none_iff_exists'.1 h1
      obtain ⟨pi, hpi⟩ := Option.ne_none_iff_exists'.1 h2
      exact ⟨po, pi, hpo, hpi⟩
  obtain ⟨po, pi, hpo, hpi⟩ := hpre
  obtain ⟨w1, w2⟩ := prepared_wf c before kw s (reachable_wf c s hs)
  have hinv := start_inv none (prepared c before kw s) c.envNum po pi (by rw [w1 _ hpo]) (by rw [w2 _ hpi])
  have hne : List.range c.envNum ≠ [] := by
    intro hc
    have : (List.range c.envNum).length = 0 := by rw [hc]; rfl
    rw [List.length_range] at this
    omega
  obtain ⟨fuel₀, l, hr⟩ := run_steps_terminates c hf n random kw _ hne _ _ _ _ hinv (by omega) le_rfl
  refine ⟨fuel₀, fun fuel hfuel => ?_⟩
  obtain ⟨s', h⟩ := collect_steps_of_run c ha n (by omega) random before kw fuel s po pi l hpo hpi
    (run_mono c _ _ random kw _ _ _ hr fuel hfuel)
  exact ⟨s', _, h⟩

/-- Ten steps asked of three environments: four from each. -/
example : ∃ s', after (collect (exCfg false) (some 10) none false true () 100 exCol) = some s' ∧
    (allRows s'.log).length = 12 ∧ (rowsOf 2 s'.log).length = 4 := by
  have h : (after (collect (exCfg false) (some 10) none false true () 100 exCol)).map (fun s' =>
      ((allRows s'.log).length, (rowsOf 2 s'.log).length)) = some (12, 4) := by decide +kernel
  rw [Option.map_eq_some_iff] at h
  obtain ⟨s', h1, h2⟩ := h
  rw [Prod.mk.injEq] at h2
  exact ⟨s', h1, h2⟩

example : ∃ fuel₀, ∀ fuel ≥ fuel₀, ∃ s' st, collect (exCfg false) (some 1000000) none false true () fuel exCol
    = some (.ok (s', st)) :=
  C59_terminates (exCfg false) (exFitting _) rfl (by decide) exCol (.built _) _ (by decide) false true (Or.inl rfl) ()

/-! ### C60 -/

/-- **C60.** In `collect(n_episode=n)` the first `n` environments (all of them, if there are at most `n`) contribute at least one
complete episode each, and the last transition each contributes ends an episode; the others contribute nothing. -/
theorem C60_whole_episodes (c : Cfg σ A O R I H K) (s s' : Col σ A O R I H) (hs : Reachable c s) (n : Int) (hn : 0 < n)
    (random before : Bool) (kw : K) (fuel : Nat) (st : Stats)
    (hc : collect c none (some n) random before kw fuel s = some (.ok (s', st))) :
    ∃ new, s'.log = s.log ++ new ∧
      (∀ e : Nat, e < c.envNum → (e : Int) < n → ∃ rows row, rowsOf e new = rows ++ [row] ∧ row.out.ended = true) ∧
      (∀ e : Nat, c.envNum ≤ e ∨ n ≤ (e : Int) → rowsOf e new = []) := by
  obtain ⟨hn0, po, pi, l, hpo, hpi, hr, rfl, rfl⟩ := collect_episodes c n random before kw fuel s s' st hc
  obtain ⟨w1, w2⟩ := prepared_wf c before kw s (reachable_wf c s hs)
  have hm : (min (c.envNum : Int) n).toNat ≤ c.envNum := by omega
  obtain ⟨⟨new, hnew, hinv, _⟩, hst⟩ := run_inv c _ _ random kw fuel _ _ _ _ hr
    (start_inv (some n) _ _ po pi (by rw [w1 _ hpo]; exact hm) (by rw [w2 _ hpi]; exact hm))
  simp only [stops, Bool.false_or, Bool.and_eq_true, decide_eq_true_eq, ne_eq, ge_iff_le] at hst
  have hcount := hinv.count n rfl hn0 (by rw [List.length_range]; omega)
  have hempty : l.ready = [] := List.length_eq_zero_iff.1 (by omega)
  refine ⟨new, ?_, ?_, ?_⟩
  · show l.log = _
    rw [hinv.log, prepared_log]
  · intro e he hen
    exact hinv.idle e (List.mem_range.2 (by omega)) (by rw [hempty]; simp)
  · intro e he
    apply hinv.ids
    rw [List.mem_range]
    omega

/-- With four episodes in three environments, the second one finishes its second episode in the fourth step and the third one
its only one in the third. -/
example : ∃ s', after (collect (exCfg false) none (some 4) false true () 100 exCol) = some s' ∧
    (rowsOf 0 s'.log).map (fun r => r.out.ended) = [true, true] ∧ (rowsOf 1 s'.log).map (fun r => r.out.ended) = [false, true] ∧
    (rowsOf 2 s'.log).map (fun r => r.out.ended) = [false, false, true] := by
  have h : (after (collect (exCfg false) none (some 4) false true () 100 exCol)).map (fun s' =>
      ((rowsOf 0 s'.log).map (fun r => r.out.ended), (rowsOf 1 s'.log).map (fun r => r.out.ended),
        (rowsOf 2 s'.log).map (fun r => r.out.ended)))
      = some ([true, true], [false, true], [false, false, true]) := by decide +kernel
  rw [Option.map_eq_some_iff] at h
  obtain ⟨s', h1, h2⟩ := h
  simp only [Prod.mk.injEq] at h2
  exact ⟨s', h1, h2⟩

/-! ### C61 -/

/-- **C61 (partial).** In ordinary use (`Usage`) and with observations that are values, the transitions stored for an environment
are a record of what it went through since it was reset together with the buffer, ending in the situation it is in now; the
collector holds its last observation and info; and nothing is stored for other environment numbers. Missing: calls that reset
environments in the middle of an episode (`C61_idle_violated`), shared memory (`C61_shared_violated`). -/
theorem C61_trajectories_partial (c : Cfg σ A O R I H K) (hs : c.share = false) (b : Bool) (s : Col σ A O R I H)
    (h : Usage c b s) :
    (∀ e < c.envNum, ∃ start now, JustReset c.env start ∧ Trajectory c.env start (rowsOf e s.log) now ∧
      s.world.envs e = now.state ∧ (s.preObs.bind fun l => l[e]?) = some (.val now.obs) ∧
      (s.preInfo.bind fun l => l[e]?) = some now.info) ∧
    (∀ e ≥ c.envNum, rowsOf e s.log = []) := by
  obtain ⟨po, pi, hu⟩ := usage_uinv c hs b s h
  refine ⟨fun e he => ?_, hu.others⟩
  obtain ⟨start, sit, h1, h2, h3, h4, h5, _⟩ := hu.traj e he
  exact ⟨start, sit, h1, h2, h3.symm, by rw [hu.obs]; exact h4, by rw [hu.info]; exact h5⟩

/-- Neighbouring transitions of a trajectory. -/
theorem trajectory_adjacent (E : Env σ A O R I K) (start now : Situation σ O I) (rows : List (Row O A R I))
    (hj : JustReset E start) (h : Trajectory E start rows now) :
    (∀ row ∈ rows, ∃ x, (E.step x row.applied).2 = row.out) ∧
    (∀ row, rows[0]? = some row → ∃ kw x, (E.reset kw x).2.1 = row.obs) ∧
    (∀ (i : Nat) (r r' : Row O A R I), rows[i]? = some r → rows[i + 1]? = some r' →
      (r.out.ended = false → r'.obs = r.out.obs) ∧ (r.out.ended = true → ∃ kw x, (E.reset kw x).2.1 = r'.obs)) ∧
    (rows = [] → ∃ kw x, (E.reset kw x).2.1 = now.obs) ∧
    (∀ r, rows.getLast? = some r → (r.out.ended = false → now.obs = r.out.obs ∧ now.fresh = false) ∧
      (r.out.ended = true → ∃ kw x, (E.reset kw x).2.1 = now.obs)) := by
  have snoc : ∀ (rows : List (Row O A R I)) (row : Row O A R I) (s : Situation σ O I), row.obs = s.obs →
      (∀ row, rows[0]? = some row → ∃ kw x, (E.reset kw x).2.1 = row.obs) →
      (∀ (i : Nat) (r r' : Row O A R I), rows[i]? = some r → rows[i + 1]? = some r' →
        (r.out.ended = false → r'.obs = r.out.obs) ∧ (r.out.ended = true → ∃ kw x, (E.reset kw x).2.1 = r'.obs)) →
      (rows = [] → ∃ kw x, (E.reset kw x).2.1 = s.obs) →
      (∀ r, rows.getLast? = some r → (r.out.ended = false → s.obs = r.out.obs ∧ s.fresh = false) ∧
        (r.out.ended = true → ∃ kw x, (E.reset kw x).2.1 = s.obs)) →
      (∀ row', (rows ++ [row])[0]? = some row' → ∃ kw x, (E.reset kw x).2.1 = row'.obs) ∧
      (∀ (i : Nat) (r r' : Row O A R I), (rows ++ [row])[i]? = some r → (rows ++ [row])[i + 1]? = some r' →
        (r.out.ended = false → r'.obs = r.out.obs) ∧ (r.out.ended = true → ∃ kw x, (E.reset kw x).2.1 = r'.obs)) := by
    intro rows row s hobs h1 h2 h3 h4
    constructor
    · intro row' hr
      cases rows with
      | nil =>
        simp only [List.nil_append, List.getElem?_cons_zero, Option.some.injEq] at hr
        subst hr
        rw [hobs]; exact h3 rfl
      | cons a t => exact h1 row' (by simpa using hr)
    · intro i r r' hi hi'
      have hlt : i + 1 < (rows ++ [row]).length := getElem?_some_lt hi'
      rw [List.length_append, List.length_singleton] at hlt
      by_cases hc : i + 1 < rows.length
      · rw [List.getElem?_append_left (by omega)] at hi
        rw [List.getElem?_append_left hc] at hi'
        exact h2 i r r' hi hi'
      · have heq : i + 1 = rows.length := by omega
        rw [List.getElem?_append_left (by omega)] at hi
        rw [List.getElem?_append_right (by omega), heq, Nat.sub_self] at hi'
        simp only [List.getElem?_cons_zero, Option.some.injEq] at hi'
        subst hi'
        have hlast : rows.getLast? = some r := by
          rw [List.getLast?_eq_getElem?, ← heq]; exact hi
        obtain ⟨h5, h6⟩ := h4 r hlast
        exact ⟨fun hd => by rw [hobs]; exact (h5 hd).1, fun hd => by rw [hobs]; exact h6 hd⟩
  induction h with
  | nil =>
    obtain ⟨_, kw, x, hx⟩ := hj
    refine ⟨by simp, by simp, by simp, fun _ => ⟨kw, x, by rw [hx]⟩, by simp⟩
  | @step rows s row x h hobs hinfo hstep hdone ih =>
    obtain ⟨h0, h1, h2, h3, h4⟩ := ih
    obtain ⟨a, b⟩ := snoc rows row s hobs h1 h2 h3 h4
    refine ⟨?_, a, b, by simp, ?_⟩
    · intro r hr
      rcases List.mem_append.1 hr with hr | hr
      · exact h0 r hr
      · rw [List.mem_singleton] at hr; subst hr
        exact ⟨_, by rw [hstep]⟩
    · intro r hr
      simp only [List.getLast?_append, List.getLast?_singleton, Option.some_or, Option.some.injEq] at hr
      subst hr
      exact ⟨fun _ => ⟨rfl, rfl⟩, fun hc => by rw [hdone] at hc; exact absurd hc (by simp)⟩
  | @done rows s row x y kw o i h hobs hinfo hstep hdone hreset ih =>
    obtain ⟨h0, h1, h2, h3, h4⟩ := ih
    obtain ⟨a, b⟩ := snoc rows row s hobs h1 h2 h3 h4
    refine ⟨?_, a, b, by simp, ?_⟩
    · intro r hr
      rcases List.mem_append.1 hr with hr | hr
      · exact h0 r hr
      · rw [List.mem_singleton] at hr; subst hr
        exact ⟨_, by rw [hstep]⟩
    · intro r hr
      simp only [List.getLast?_append, List.getLast?_singleton, Option.some_or, Option.some.injEq] at hr
      subst hr
      exact ⟨fun hc => (by rw [hdone] at hc; exact absurd hc (by simp)), fun _ => ⟨kw, x, by rw [hreset]⟩⟩
  | @again rows s kw y o i h hf hreset ih =>
    obtain ⟨h0, h1, h2, h3, h4⟩ := ih
    refine ⟨h0, h1, h2, fun _ => ⟨kw, s.state, by rw [hreset]⟩, ?_⟩
    intro r hr
    refine ⟨fun hd => ?_, fun _ => ⟨kw, s.state, by rw [hreset]⟩⟩
    have := ((h4 r hr).1 hd).2
    rw [hf] at this
    exact absurd this (by simp)

/-- **C61 (partial), in terms of neighbouring transitions.** In each environment's stream the observation of a transition is the
next observation of the preceding one if that did not end an episode, and one returned by a reset of this environment otherwise
(also at the beginning); and next observation, reward, flags and info are what the environment returned for the applied action. -/
theorem C61_adjacent_partial (c : Cfg σ A O R I H K) (hs : c.share = false) (b : Bool) (s : Col σ A O R I H)
    (h : Usage c b s) (e : Nat) (he : e < c.envNum) :
    (∀ row ∈ rowsOf e s.log, ∃ x, (c.env.step x row.applied).2 = row.out) ∧
    (∀ row, (rowsOf e s.log)[0]? = some row → ∃ kw x, (c.env.reset kw x).2.1 = row.obs) ∧
    (∀ (i : Nat) (r r' : Row O A R I), (rowsOf e s.log)[i]? = some r → (rowsOf e s.log)[i + 1]? = some r' →
      (r.out.ended = false → r'.obs = r.out.obs) ∧ (r.out.ended = true → ∃ kw x, (c.env.reset kw x).2.1 = r'.obs)) := by
  obtain ⟨start, now, h1, h2, _⟩ := (C61_trajectories_partial c hs b s h).1 e he
  obtain ⟨a, b, d, _⟩ := trajectory_adjacent c.env start now _ h1 h2
  exact ⟨a, b, d⟩

/-- **C61 (partial): actions.** The actions of every round come from one decision about exactly the observations stored in
this round; the environments are given the mapped actions. -/
theorem C61_actions_partial (c : Cfg σ A O R I H K) (hs : c.share = false) (b : Bool) (s : Col σ A O R I H)
    (h : Usage c b s) : ∀ round ∈ s.log, Decided c round := by
  obtain ⟨po, pi, hu⟩ := usage_uinv c hs b s h
  exact fun round hr => (hu.decided round hr).1

/-- A history with collections by steps, by episodes and by steps again, and the stream of the third environment in it. -/
def exHistory (share : Bool) (n : Int) : Option (Col (Nat × Nat) Nat Nat Nat Nat Nat) :=
  (after (collect (exCfg share) (some 3) none false false () 100 (reset (exCfg share) true true () exCol))).bind fun s1 =>
  (after (collect (exCfg share) none (some n) false false () 100 s1)).bind fun s2 =>
  after (collect (exCfg share) (some 6) none false false () 100 s2)

example : ∃ s, exHistory false 4 = some s ∧ Usage (exCfg false) false s ∧
    (rowsOf 2 s.log).map (fun r => (r.obs, r.out.obs, r.out.ended))
      = [(200, 201, false), (201, 202, false), (202, 203, true), (200, 201, false), (201, 202, false)] := by
  have h : (exHistory false 4).map (fun s => (rowsOf 2 s.log).map fun r => (r.obs, r.out.obs, r.out.ended))
      = some [(200, 201, false), (201, 202, false), (202, 203, true), (200, 201, false), (201, 202, false)] := by
    decide +kernel
  rw [Option.map_eq_some_iff] at h
  obtain ⟨s, h1, h2⟩ := h
  refine ⟨s, h1, ?_, h2⟩
  unfold exHistory at h1
  simp only [Option.bind_eq_some_iff] at h1
  obtain ⟨s1, e1, s2, e2, e3⟩ := h1
  obtain ⟨t1, e1⟩ := after_some e1
  obtain ⟨t2, e2⟩ := after_some e2
  obtain ⟨t3, e3⟩ := after_some e3
  have u0 : Usage (exCfg false) true (reset (exCfg false) true true () exCol) := .reset (.built _) true ()
  have u1 := Usage.steps u0 3 false false (by simp) () 100 t1 e1
  have u2 := Usage.episodes u1 4 (Or.inr (by decide)) false false (by simp) () 100 t2 e2
  exact Usage.steps u2 6 false false (by simp) () 100 t3 e3

/-- **C61 is violated** when fewer episodes than environments are collected while others are in the middle of an episode: these
are reset, and the next transition does not continue the last one although that did not end an episode. -/
theorem C61_idle_violated : ∃ (c : Cfg (Nat × Nat) Nat Nat Nat Nat Nat Unit) (s : Col (Nat × Nat) Nat Nat Nat Nat Nat)
    (r r' : Row Nat Nat Nat Nat), c.share = false ∧ Reachable c s ∧ (rowsOf 2 s.log)[0]? = some r ∧
      (rowsOf 2 s.log)[1]? = some r' ∧ r.out.ended = false ∧ r'.obs ≠ r.out.obs := by
  have h : (exHistory false 1).map (fun s => ((rowsOf 2 s.log)[0]?, (rowsOf 2 s.log)[1]?))
      = some (some ⟨200, 0, 200, 400, ⟨201, 400, false, false, 1⟩⟩,
        some ⟨200, 0, 2200, 4400, ⟨201, 4400, false, false, 1⟩⟩) := by decide +kernel
  rw [Option.map_eq_some_iff] at h
  obtain ⟨s, h1, h2⟩ := h
  rw [Prod.mk.injEq] at h2
  refine ⟨exCfg false, s, _, _, rfl, ?_, h2.1, h2.2, by decide, by decide⟩
  unfold exHistory at h1
  simp only [Option.bind_eq_some_iff] at h1
  obtain ⟨s1, e1, s2, e2, e3⟩ := h1
  obtain ⟨t1, e1⟩ := after_some e1
  obtain ⟨t2, e2⟩ := after_some e2
  obtain ⟨t3, e3⟩ := after_some e3
  exact .steps (.episodes (.steps (.reset (.built _) true true ()) 3 false false () 100 t1 e1) 1 false false () 100 t2 e2)
    6 false false () 100 t3 e3

/-- **C61 is violated** when observations are dictionaries of views on memory shared with the environment: the observation
stored with the first transition is not the one returned by `reset` (200) but the one returned by `step`. -/
theorem C61_shared_violated : ∃ (c : Cfg (Nat × Nat) Nat Nat Nat Nat Nat Unit) (s : Col (Nat × Nat) Nat Nat Nat Nat Nat)
    (r : Row Nat Nat Nat Nat), c.share = true ∧ Usage c false s ∧ (rowsOf 2 s.log)[0]? = some r ∧
      (∀ kw x, x.1 = 2 → (c.env.reset kw x).2.1 = 200) ∧ r.obs = 201 ∧ r.out.obs = 201 := by
  have h : (after (collect (exCfg true) (some 3) none false false () 100 (reset (exCfg true) true true () exCol))).map
      (fun s => (rowsOf 2 s.log)[0]?) = some (some ⟨201, 0, 200, 400, ⟨201, 400, false, false, 1⟩⟩) := by decide +kernel
  rw [Option.map_eq_some_iff] at h
  obtain ⟨s, h1, h2⟩ := h
  obtain ⟨t, h1⟩ := after_some h1
  refine ⟨exCfg true, s, _, rfl, .steps (.reset (.built _) true ()) 3 false false (by simp) () 100 t h1, h2, ?_, rfl, rfl⟩
  intro kw x hx
  show 100 * x.1 = 200
  rw [hx]

/-! ### C63 -/

/-- **C63 is violated**: with overlap checking, merging raises exactly when some hook returns anything at all, whether or not
two hooks share a key. -/
theorem C63_checked_violated {V : Type} (outputs : List (Option (List (String × V)))) :
    mergeHooks true outputs = none ↔ ∃ d ∈ outputs, ∃ p t, d = some (p :: t) := by
  have main : ∀ outputs : List (Option (List (String × V))),
      mergeHooks.loop true outputs [] = none ↔ ∃ d ∈ outputs, ∃ p t, d = some (p :: t) := by
    intro outputs
    induction outputs with
    | nil => simp [mergeHooks.loop]
    | cons d t ih =>
      cases d with
      | none => simpa [mergeHooks.loop] using ih
      | some new =>
        cases new with
        | nil => simpa [mergeHooks.loop] using ih
        | cons p u =>
          constructor
          · intro _; exact ⟨_, List.mem_cons_self, p, u, rfl⟩
          · intro _; simp [mergeHooks.loop]
  rw [← main outputs]
  unfold mergeHooks
  simp only [Option.map_eq_none_iff]

/-- Two hooks with different keys: no overlap, but an error. -/
example : mergeHooks true [some [("a", 1)], some [("b", 2)]] = none := by decide

/-- **C63 (partial).** Without overlap checking the result has exactly the keys of the outputs, each with the value of the last
hook that returned it; it is `None` exactly if there are none. -/
theorem C63_union_partial {V : Type} (outputs : List (Option (List (String × V))))
    (hd : ∀ d, some d ∈ outputs → (d.map Prod.fst).Nodup) :
    ∃ result, mergeHooks false outputs = some result ∧
      (result = none ↔ ∀ d, some d ∈ outputs → d = []) ∧
      ∀ r, result = some r → (r.map Prod.fst).Nodup ∧ ∀ k v, (k, v) ∈ r ↔
        ∃ pre d post, outputs = pre ++ some d :: post ∧ (k, v) ∈ d ∧ ∀ d', some d' ∈ post → ∀ v', (k, v') ∉ d' := by
  have key : ∀ (outputs : List (Option (List (String × V)))) (acc : List (String × V)),
      (∀ d, some d ∈ outputs → (d.map Prod.fst).Nodup) → (acc.map Prod.fst).Nodup →
      ∃ r, mergeHooks.loop false outputs acc = some r ∧ (r.map Prod.fst).Nodup ∧ ∀ k v, (k, v) ∈ r ↔
        ((k, v) ∈ acc ∧ ∀ d', some d' ∈ outputs → ∀ v', (k, v') ∉ d') ∨
        ∃ pre d post, outputs = pre ++ some d :: post ∧ (k, v) ∈ d ∧ ∀ d', some d' ∈ post → ∀ v', (k, v') ∉ d' := by
    intro outputs
    induction outputs with
    | nil =>
      intro acc _ hacc
      exact ⟨acc, rfl, hacc, fun k v => by simp⟩
    | cons d t ih =>
      intro acc hdd hacc
      cases d with
      | none =>
        obtain ⟨r, h1, h2, h3⟩ := ih acc (fun d hd => hdd d (by simp [hd])) hacc
        refine ⟨r, by simpa [mergeHooks.loop] using h1, h2, fun k v => ?_⟩
        rw [h3]
        constructor
        · rintro (⟨a, b⟩ | ⟨pre, d, post, rfl, a, b⟩)
          · left; refine ⟨a, fun d' hd' => b d' (by simpa using hd')⟩
          · right; exact ⟨none :: pre, d, post, rfl, a, b⟩
        · rintro (⟨a, b⟩ | ⟨pre, d, post, he, a, b⟩)
          · left; exact ⟨a, fun d' hd' => b d' (by simp [hd'])⟩
          · right
            cases pre with
            | nil => simp at he
            | cons x pre =>
              simp only [List.cons_append, List.cons.injEq] at he
              exact ⟨pre, d, post, he.2, a, b⟩
      | some new =>
        have hnew := hdd new (by simp)
        have hmem : ∀ k v, (k, v) ∈ acc.filter (fun q => !new.any fun p => p.1 == q.1) ++ new ↔
            ((k, v) ∈ acc ∧ ∀ v', (k, v') ∉ new) ∨ (k, v) ∈ new := by
          intro k v
          simp only [List.mem_append, List.mem_filter, Bool.not_eq_true', List.any_eq_false, beq_iff_eq, Prod.forall]
          constructor
          · rintro (⟨a, b⟩ | a)
            · left; exact ⟨a, fun v' hv' => b k v' hv' rfl⟩
            · right; exact a
          · rintro (⟨a, b⟩ | a)
            · left; refine ⟨a, fun k' v' hv' hk => ?_⟩
              subst hk; exact b v' hv'
            · right; exact a
        have hnd : ((acc.filter (fun q => !new.any fun p => p.1 == q.1) ++ new).map Prod.fst).Nodup := by
          rw [List.map_append, List.nodup_append']
          refine ⟨(List.filter_sublist.map _).nodup hacc, hnew, ?_⟩
          intro k hk hk'
          rw [List.mem_map] at hk hk'
          obtain ⟨⟨k1, v1⟩, h1, rfl⟩ := hk
          obtain ⟨⟨k2, v2⟩, h2, h3⟩ := hk'
          simp only [List.mem_filter, Bool.not_eq_true', List.any_eq_false, beq_iff_eq] at h1
          exact h1.2 _ h2 h3
        obtain ⟨r, h1, h2, h3⟩ := ih _ (fun d hd => hdd d (by simp [hd])) hnd
        refine ⟨r, by simpa [mergeHooks.loop] using h1, h2, fun k v => ?_⟩
        rw [h3, hmem]
        constructor
        · rintro (⟨⟨a, b⟩ | a, b'⟩ | ⟨pre, d, post, rfl, a, b⟩)
          · left
            refine ⟨a, fun d' hd' => ?_⟩
            rcases List.mem_cons.1 hd' with hd' | hd'
            · rw [Option.some.injEq] at hd'; subst hd'; exact b
            · exact b' d' hd'
          · right; exact ⟨[], new, t, rfl, a, b'⟩
          · right; exact ⟨some new :: pre, d, post, rfl, a, b⟩
        · rintro (⟨a, b⟩ | ⟨pre, d, post, he, a, b⟩)
          · left
            exact ⟨Or.inl ⟨a, b new (by simp)⟩, fun d' hd' => b d' (by simp [hd'])⟩
          · cases pre with
            | nil =>
              simp only [List.nil_append, List.cons.injEq, Option.some.injEq] at he
              obtain ⟨rfl, rfl⟩ := he
              left; exact ⟨Or.inr a, b⟩
            | cons x pre =>
              simp only [List.cons_append, List.cons.injEq] at he
              right; exact ⟨pre, d, post, he.2, a, b⟩
  obtain ⟨r, h1, h2, h3⟩ := key outputs [] hd (by simp)
  have hempty : r = [] ↔ ∀ d, some d ∈ outputs → d = [] := by
    constructor
    · rintro rfl d hdm
      by_contra hne
      -- take the last output that is not empty
      have : ∀ (l : List (Option (List (String × V)))), some d ∈ l →
          ∃ pre d' post, l = pre ++ some d' :: post ∧ d' ≠ [] ∧ ∀ x, some x ∈ post → x = [] := by
        intro l
        induction l with
        | nil => simp
        | cons a t ih =>
          intro hm
          by_cases ht : ∃ x, some x ∈ t ∧ x ≠ []
          · clear ih
            have : ∀ (l : List (Option (List (String × V)))), (∃ x, some x ∈ l ∧ x ≠ []) →
                ∃ pre d' post, l = pre ++ some d' :: post ∧ d' ≠ [] ∧ ∀ x, some x ∈ post → x = [] := by
              intro l
              induction l with
              | nil => simp
              | cons b u ih =>
                rintro ⟨x, hx, hxe⟩
                by_cases hu : ∃ x, some x ∈ u ∧ x ≠ []
                · obtain ⟨pre, d', post, rfl, h⟩ := ih hu
                  exact ⟨b :: pre, d', post, rfl, h⟩
                · rcases List.mem_cons.1 hx with hx | hx
                  · subst hx
                    exact ⟨[], x, u, rfl, hxe, fun y hy => by by_contra hc; exact hu ⟨y, hy, hc⟩⟩
                  · exact absurd ⟨x, hx, hxe⟩ hu
            obtain ⟨pre, d', post, rfl, h⟩ := this t ht
            exact ⟨a :: pre, d', post, rfl, h⟩
          · rcases List.mem_cons.1 hm with hm | hm
            · subst hm
              exact ⟨[], d, t, rfl, hne, fun y hy => by by_contra hc; exact ht ⟨y, hy, hc⟩⟩
            · exact absurd ⟨d, hm, hne⟩ ht
      obtain ⟨pre, d', post, he, hd', hp⟩ := this outputs hdm
      obtain ⟨⟨k, v⟩, hkv⟩ := List.exists_mem_of_ne_nil _ hd'
      have := (h3 k v).2 (Or.inr ⟨pre, d', post, he, hkv, fun x hx v' hv' => by rw [hp x hx] at hv'; simp at hv'⟩)
      simp at this
    · intro hall
      rw [List.eq_nil_iff_forall_not_mem]
      rintro ⟨k, v⟩ hkv
      rcases (h3 k v).1 hkv with ⟨a, _⟩ | ⟨pre, d, post, he, a, _⟩
      · simp at a
      · rw [hall d (by rw [he]; simp)] at a
        simp at a
  refine ⟨if r.isEmpty then none else some r, ?_, ?_, ?_⟩
  · show (mergeHooks.loop false outputs []).map _ = _
    rw [h1]; rfl
  · rw [← hempty]
    cases r <;> simp
  · intro r' hr'
    have : r = r' := by
      cases hr : r.isEmpty with
      | true => rw [hr] at hr'; simp at hr'
      | false => rw [hr] at hr'; simpa using hr'
    subst this
    refine ⟨h2, fun k v => ?_⟩
    rw [h3]
    simp

/-- Three hooks, the last overriding a value of the first. -/
example : mergeHooks false [some [("a", 1), ("b", 2)], none, some [("a", 3)]] = some (some [("b", 2), ("a", 3)]) := by decide

/-! ### C64 -/

/-- **C64 (partial).** A call with neither number (or with zeros only) is rejected without any effect; with exactly one positive
number it is carried out (`C58_terminates`, `C59_terminates`). Missing: calls with both, or with a negative number, are not
rejected (`C64_both_violated`, `C64_negative_violated`). -/
theorem C64_rejected_partial (c : Cfg σ A O R I H K) (s : Col σ A O R I H) (nStep nEpisode : Option Int)
    (h1 : nStep = none ∨ nStep = some 0) (h2 : nEpisode = none ∨ nEpisode = some 0) (random before : Bool) (kw : K)
    (fuel : Nat) : collect c nStep nEpisode random before kw fuel s = some (.error .value) := by
  rcases h1 with rfl | rfl <;> rcases h2 with rfl | rfl <;> simp [collect, validates, truthy]

example : collect (exCfg false) none (some 0) false true () 100 exCol = some (.error .value) :=
  C64_rejected_partial _ _ _ _ (Or.inl rfl) (Or.inr rfl) _ _ _ _

/-- **C64 is violated**: a call with both numbers is carried out (it ends with the first condition met). -/
theorem C64_both_violated : ∃ (c : Cfg (Nat × Nat) Nat Nat Nat Nat Nat Unit) (s s' : Col (Nat × Nat) Nat Nat Nat Nat Nat) (st : Stats),
    collect c (some 5) (some 5) false true () 100 s = some (.ok (s', st)) ∧ st = ⟨6, 3⟩ := by
  have h : (match collect (exCfg false) (some 5) (some 5) false true () 100 exCol with
      | some (.ok (_, st)) => some st
      | _ => none) = some ⟨6, 3⟩ := by decide +kernel
  split at h
  · rename_i s' st heq
    exact ⟨exCfg false, exCol, s', st, heq, Option.some.inj h⟩
  · exact absurd h (by simp)

/-- **C64 is violated**: a negative number of steps is accepted, and every environment makes one step. -/
theorem C64_negative_violated : ∃ (c : Cfg (Nat × Nat) Nat Nat Nat Nat Nat Unit) (s s' : Col (Nat × Nat) Nat Nat Nat Nat Nat)
    (st : Stats), collect c (some (-5)) none false true () 100 s = some (.ok (s', st)) ∧ st.steps = 3 := by
  have h : (match collect (exCfg false) (some (-5)) none false true () 100 exCol with
      | some (.ok (_, st)) => some st.steps
      | _ => none) = some 3 := by decide +kernel
  split at h
  · rename_i s' st heq
    exact ⟨exCfg false, exCol, s', st, heq, Option.some.inj h⟩
  · exact absurd h (by simp)

/-! ### C77 -/

/-- **C77 (partial).** For recurrent policies whose states are arrays or batches, the first decision (and the first after all
environments were reset) is made without a state, and the state given to the policy for an environment in any other
decision is the one returned for it in the preceding decision, or zero if its episode has ended since. This holds across
environments being dropped and across collections. Missing: states that are tensors (`C77_tensor_violated`). -/
theorem C77_recurrent_partial (c : Cfg σ A O R I H K) (hk : c.hiddenKind = .arrayOrBatch) (hf : FittingHidden c)
    (s : Col σ A O R I H) (h : Reachable c s) :
    (∀ b, s.asked[0]? = some (some b) → b.given = none) ∧
    (∀ (k : Nat) (b : Call H), s.asked[k]? = some none → s.asked[k + 1]? = some (some b) → b.given = none) ∧
    (∀ (k : Nat) (a b : Call H), s.asked[k]? = some (some a) → s.asked[k + 1]? = some (some b) → Continues c a b) := by
  have hh := reachable_hinv c hk hf s h
  exact ⟨hh.first, fun k b h1 h2 => (hh.chain k none b h1 h2).1 rfl, fun k a b h1 h2 => (hh.chain k (some a) b h1 h2).2 a rfl⟩

/-- A policy whose state counts its decisions. -/
def exRecurrent (kind : HiddenKind) : Cfg (Nat × Nat) Nat Nat Nat Nat Nat Unit :=
  { exCfg false with
    policy := { exPolicy with
      forward := fun _ obs _ hidden => (obs, some (match hidden with
        | none => obs.map fun _ => 1
        | some l => l.map fun x => x + 1)) }
    hiddenKind := kind }

def exAsked (kind : HiddenKind) : Option (List (Option (Call Nat))) :=
  (after (collect (exRecurrent kind) none (some 4) false true () 100 exCol)).map fun s => s.asked

/-- Environment 0 ends its episode in each of the first two steps. -/
example : exAsked .arrayOrBatch = some [none,
    some ⟨[0, 1, 2], none, some [1, 1, 1], [true, false, false]⟩,
    some ⟨[0, 1, 2], some [0, 1, 1], some [1, 2, 2], [true, true, false]⟩,
    some ⟨[2], some [2], some [3], [true]⟩, none] := by decide +kernel

/-- **C77 is violated** if the states are tensors: after the end of its episode, environment 0 goes on with the old state. -/
theorem C77_tensor_violated : ∃ (c : Cfg (Nat × Nat) Nat Nat Nat Nat Nat Unit) (s : Col (Nat × Nat) Nat Nat Nat Nat Nat)
    (a b : Call Nat), c.zeroHidden = 0 ∧ Reachable c s ∧ s.asked[1]? = some (some a) ∧ s.asked[2]? = some (some b) ∧
      a.ids[0]? = some 0 ∧ b.ids[0]? = some 0 ∧ a.done[0]? = some true ∧ b.given = some [1, 1, 1] := by
  have h : exAsked .tensor = some [none,
    some ⟨[0, 1, 2], none, some [1, 1, 1], [true, false, false]⟩,
    some ⟨[0, 1, 2], some [1, 1, 1], some [2, 2, 2], [true, true, false]⟩,
    some ⟨[2], some [2], some [3], [true]⟩, none] := by decide +kernel
  unfold exAsked at h
  rw [Option.map_eq_some_iff] at h
  obtain ⟨s, h1, h2⟩ := h
  obtain ⟨t, h1⟩ := after_some h1
  exact ⟨exRecurrent .tensor, s, _, _, rfl, .episodes (.built _) 4 false true () 100 t h1, by rw [h2]; rfl, by rw [h2]; rfl,
    rfl, rfl, rfl, rfl⟩

end Verif.Collector
