import Verif.Lemmas.CollectorLoop

namespace Verif.Collector

set_option linter.unusedSectionVars false

variable {σ A O R I H K : Type}

/-- The loop variables at the start. -/
def start (s : Col σ A O R I H) (ready : List Nat) (preObs : List (Cell O)) (preInfo : List I) : Loop σ A O R I H :=
  { world := s.world
    ready := ready
    lastObs := ready.filterMap fun i => preObs[i]?
    lastInfo := ready.filterMap fun i => preInfo[i]?
    lastHidden := s.preHidden.map fun h => ready.filterMap fun i => h[i]?
    stepCount := 0
    numEpisodes := 0
    calls := s.calls
    log := s.log
    asked := s.asked }

/-- The collector after the loop, before the last observations are kept or the environments reset. -/
def ended (s : Col σ A O R I H) (l : Loop σ A O R I H) : Col σ A O R I H :=
  { s with
    world := l.world
    collectStep := s.collectStep + l.stepCount
    collectEpisode := s.collectEpisode + l.numEpisodes
    calls := l.calls
    log := l.log
    asked := l.asked }

/-- The state in which the collection starts. -/
def prepared (c : Cfg σ A O R I H K) (before : Bool) (kw : K) (s : Col σ A O R I H) : Col σ A O R I H :=
  if before then reset c false true kw s else s

theorem prepared_log (c : Cfg σ A O R I H K) (before : Bool) (kw : K) (s : Col σ A O R I H) :
    (prepared c before kw s).log = s.log := by
  cases before <;> rfl

theorem collect_steps (c : Cfg σ A O R I H K) (n : Int) (random before : Bool) (kw : K) (fuel : Nat) (s s' : Col σ A O R I H)
    (st : Stats) (h : collect c (some n) none random before kw fuel s = some (.ok (s', st))) :
    n ≠ 0 ∧ ∃ po pi l, (prepared c before kw s).preObs = some po ∧ (prepared c before kw s).preInfo = some pi ∧
      run c (some n) none random kw fuel (start (prepared c before kw s) (List.range c.envNum) po pi) = some (.ok l) ∧
      s' = { ended (prepared c before kw s) l with
        preObs := some l.lastObs, preInfo := some l.lastInfo, preHidden := l.lastHidden } ∧
      st = ⟨l.stepCount, l.numEpisodes⟩ := by
  unfold collect at h
  have hn : n ≠ 0 := by
    rintro rfl
    simp [validates, truthy] at h
  rw [if_neg (by simp [validates, truthy, hn])] at h
  refine ⟨hn, ?_⟩
  change collectAux c (some n) none random kw fuel (prepared c before kw s) = _ at h
  generalize prepared c before kw s = t at h ⊢
  unfold collectAux at h
  by_cases ha : c.isAsync
  · rw [if_pos ha] at h; exact absurd h (by simp)
  rw [if_neg ha] at h
  cases hpo : t.preObs with
  | none => rw [hpo] at h; simp [initialReady] at h
  | some po =>
    cases hpi : t.preInfo with
    | none => rw [hpo, hpi] at h; simp [initialReady] at h
    | some pi =>
      rw [hpo, hpi] at h
      simp only [initialReady] at h
      cases hr : run c (some n) none random kw fuel (start t (List.range c.envNum) po pi) with
      | none => simp only [start] at hr; rw [hr] at h; simp at h
      | some x =>
        have hr2 := hr
        simp only [start] at hr2
        rw [hr2] at h
        cases x with
        | error e => simp at h
        | ok l =>
          simp only [truthy, ne_eq, hn, not_false_eq_true, decide_true, if_true, Option.some.injEq, Except.ok.injEq,
            Prod.mk.injEq] at h
          exact ⟨po, pi, l, rfl, rfl, hr, h.1.symm, h.2.symm⟩

theorem collect_episodes (c : Cfg σ A O R I H K) (n : Int) (random before : Bool) (kw : K) (fuel : Nat) (s s' : Col σ A O R I H)
    (st : Stats) (h : collect c none (some n) random before kw fuel s = some (.ok (s', st))) :
    n ≠ 0 ∧ ∃ po pi l, (prepared c before kw s).preObs = some po ∧ (prepared c before kw s).preInfo = some pi ∧
      run c none (some n) random kw fuel (start (prepared c before kw s) (List.range (min (c.envNum : Int) n).toNat) po pi)
        = some (.ok l) ∧
      s' = resetEnv c kw (ended (prepared c before kw s) l) ∧
      st = ⟨l.stepCount, l.numEpisodes⟩ := by
  unfold collect at h
  have hn : n ≠ 0 := by
    rintro rfl
    simp [validates, truthy] at h
  rw [if_neg (by simp [validates, truthy, hn])] at h
  refine ⟨hn, ?_⟩
  change collectAux c none (some n) random kw fuel (prepared c before kw s) = _ at h
  generalize prepared c before kw s = t at h ⊢
  unfold collectAux at h
  by_cases ha : c.isAsync
  · rw [if_pos ha] at h; exact absurd h (by simp)
  rw [if_neg ha] at h
  cases hpo : t.preObs with
  | none => rw [hpo] at h; simp [initialReady] at h
  | some po =>
    cases hpi : t.preInfo with
    | none => rw [hpo, hpi] at h; simp [initialReady] at h
    | some pi =>
      rw [hpo, hpi] at h
      simp only [initialReady] at h
      cases hr : run c none (some n) random kw fuel (start t (List.range (min (c.envNum : Int) n).toNat) po pi) with
      | none => simp only [start] at hr; rw [hr] at h; simp at h
      | some x =>
        have hr2 := hr
        simp only [start] at hr2
        rw [hr2] at h
        cases x with
        | error e => simp at h
        | ok l =>
          simp only [truthy, ne_eq, hn, not_false_eq_true, decide_true, if_true, Bool.false_eq_true, if_false,
            Option.some.injEq, Except.ok.injEq, Prod.mk.injEq] at h
          exact ⟨po, pi, l, rfl, rfl, hr, h.1.symm, h.2.symm⟩

/-- The converse directions. -/
theorem collect_steps_of_run (c : Cfg σ A O R I H K) (ha : c.isAsync = false) (n : Int) (hn : n ≠ 0) (random before : Bool)
    (kw : K) (fuel : Nat) (s : Col σ A O R I H) (po : List (Cell O)) (pi : List I) (l : Loop σ A O R I H)
    (hpo : (prepared c before kw s).preObs = some po) (hpi : (prepared c before kw s).preInfo = some pi)
    (hr : run c (some n) none random kw fuel (start (prepared c before kw s) (List.range c.envNum) po pi) = some (.ok l)) :
    ∃ s', collect c (some n) none random before kw fuel s = some (.ok (s', ⟨l.stepCount, l.numEpisodes⟩)) := by
  have hv : validates (some n) none = true := by simp [validates, truthy, hn]
  unfold collect
  rw [if_neg (by simp [hv])]
  change ∃ s', collectAux c (some n) none random kw fuel (prepared c before kw s) = _
  generalize prepared c before kw s = t at hpo hpi hr ⊢
  unfold collectAux
  rw [if_neg (by simp [ha]), hpo, hpi]
  simp only [initialReady]
  simp only [start] at hr
  rw [hr]
  simp only [truthy, ne_eq, hn, not_false_eq_true, decide_true, if_true]
  exact ⟨_, rfl⟩

theorem collect_episodes_of_run (c : Cfg σ A O R I H K) (ha : c.isAsync = false) (n : Int) (hn : n ≠ 0) (random before : Bool)
    (kw : K) (fuel : Nat) (s : Col σ A O R I H) (po : List (Cell O)) (pi : List I) (l : Loop σ A O R I H)
    (hpo : (prepared c before kw s).preObs = some po) (hpi : (prepared c before kw s).preInfo = some pi)
    (hr : run c none (some n) random kw fuel (start (prepared c before kw s) (List.range (min (c.envNum : Int) n).toNat) po pi)
      = some (.ok l)) :
    ∃ s', collect c none (some n) random before kw fuel s = some (.ok (s', ⟨l.stepCount, l.numEpisodes⟩)) := by
  have hv : validates none (some n) = true := by simp [validates, truthy, hn]
  unfold collect
  rw [if_neg (by simp [hv])]
  change ∃ s', collectAux c none (some n) random kw fuel (prepared c before kw s) = _
  generalize prepared c before kw s = t at hpo hpi hr ⊢
  unfold collectAux
  rw [if_neg (by simp [ha]), hpo, hpi]
  simp only [initialReady]
  simp only [start] at hr
  rw [hr]
  simp only [truthy, ne_eq, hn, not_false_eq_true, decide_true, if_true, Bool.false_eq_true, if_false]
  exact ⟨_, rfl⟩

/-- The kept observations and infos are those of all environments. -/
def WF (c : Cfg σ A O R I H K) (s : Col σ A O R I H) : Prop :=
  (∀ l, s.preObs = some l → l.length = c.envNum) ∧ (∀ l, s.preInfo = some l → l.length = c.envNum)

theorem resetEnv_wf (c : Cfg σ A O R I H K) (kw : K) (s : Col σ A O R I H) : WF c (resetEnv c kw s) := by
  constructor
  · intro l h
    simp only [resetEnv, Option.some.injEq] at h
    rw [← h]
    simp [resetEnvs_length]
  · intro l h
    simp only [resetEnv, Option.some.injEq] at h
    rw [← h]
    simp [resetEnvs_length]

theorem reset_wf (c : Cfg σ A O R I H K) (b st : Bool) (kw : K) (s : Col σ A O R I H) : WF c (reset c b st kw s) := by
  have := resetEnv_wf c kw s
  cases b <;> cases st <;> exact this

theorem prepared_wf (c : Cfg σ A O R I H K) (before : Bool) (kw : K) (s : Col σ A O R I H) (h : WF c s) :
    WF c (prepared c before kw s) := by
  cases before
  · exact h
  · exact reset_wf c false true kw s

theorem filterMap_range {α : Type} (l : List α) (m : Nat) (h : m ≤ l.length) :
    ((List.range m).filterMap fun i => l[i]?) = l.take m := by
  apply List.ext_getElem?
  intro i
  rw [filterMap_get l _ (by intro k hk; have := List.mem_range.1 hk; omega), List.getElem?_take]
  by_cases hi : i < m
  · rw [List.getElem?_range hi, if_pos hi]; rfl
  · rw [List.getElem?_eq_none (by simp; omega), if_neg hi]; rfl

theorem start_inv (nEpisode : Option Int) (s : Col σ A O R I H) (m : Nat) (po : List (Cell O)) (pi : List I)
    (ho : m ≤ po.length) (hi : m ≤ pi.length) :
    Inv nEpisode (List.range m) s.log [] (start s (List.range m) po pi) := by
  refine ⟨List.nodup_range, fun e he => he, ?_, ?_, by simp [start], rfl, rfl, fun _ _ => rfl, ?_, ?_, ?_⟩
  · simp [start, filterMap_range _ _ ho, ho]
  · simp [start, filterMap_range _ _ hi, hi]
  · intro e he hne; exact absurd he hne
  · intro _; exact ⟨rfl, fun _ _ => rfl, by simp [start]⟩
  · intro n _ _ hle; simpa [start] using hle

theorem run_inv (c : Cfg σ A O R I H K) (nStep nEpisode : Option Int) (random : Bool) (kw : K) (fuel : Nat) (ready0 : List Nat)
    (base : List (List (Nat × Row O A R I))) (s s' : Loop σ A O R I H)
    (h : run c nStep nEpisode random kw fuel s = some (.ok s')) (hi : Inv nEpisode ready0 base [] s) :
    (∃ new, new ≠ [] ∧ Inv nEpisode ready0 base new s' ∧ (∀ n, nEpisode = none → nStep = some n → 0 < n →
      (((new.length - 1) * ready0.length : Nat) : Int) < n)) ∧
      stops nStep nEpisode s'.stepCount s'.numEpisodes = true := by
  -- the invariant before every round, together with the fact that the loop has not stopped
  have key : ∀ (fuel : Nat) (s : Loop σ A O R I H) (new : List (List (Nat × Row O A R I))), Inv nEpisode ready0 base new s →
      (∀ n, nEpisode = none → nStep = some n → 0 < n → ((new.length * ready0.length : Nat) : Int) < n) →
      run c nStep nEpisode random kw fuel s = some (.ok s') →
      (∃ new, new ≠ [] ∧ Inv nEpisode ready0 base new s' ∧ (∀ n, nEpisode = none → nStep = some n → 0 < n →
      (((new.length - 1) * ready0.length : Nat) : Int) < n)) ∧
      stops nStep nEpisode s'.stepCount s'.numEpisodes = true := by
    intro fuel
    induction fuel with
    | zero => intro s new _ _ h; simp [run] at h
    | succ fuel ih =>
      intro s new hi hlt h
      rw [run] at h
      cases hit : iter c nEpisode random kw s with
      | error e => rw [hit] at h; simp at h
      | ok t =>
        rw [hit] at h
        simp only at h
        obtain ⟨ent, _, hinv⟩ := hi.iter hit
        split_ifs at h with hst
        · simp only [Option.some.injEq, Except.ok.injEq] at h
          subst h
          refine ⟨⟨_, by simp, hinv, ?_⟩, hst⟩
          intro n h1 h2 h3
          simpa using hlt n h1 h2 h3
        · refine ih t _ hinv ?_ h
          intro n h1 h2 h3
          have hs := (hinv.stay h1).2.2
          subst h1; subst h2
          simp only [stops, Bool.or_false, Bool.and_eq_true, decide_eq_true_eq, ne_eq, not_and, ge_iff_le] at hst
          have := hst (by omega)
          rw [hs] at this
          omega
  refine key fuel s [] hi ?_ h
  intro n _ _ h3
  simpa using h3

theorem reachable_wf (c : Cfg σ A O R I H K) (s : Col σ A O R I H) (h : Reachable c s) : WF c s := by
  induction h with
  | built w => exact ⟨fun l h => by simp at h, fun l h => by simp at h⟩
  | reset h b st kw ih => exact reset_wf ..
  | @steps s s' h n random before kw fuel st hc ih =>
    obtain ⟨_, po, pi, l, hpo, hpi, hr, rfl, _⟩ := collect_steps c n random before kw fuel s s' st hc
    obtain ⟨w1, w2⟩ := prepared_wf c before kw s ih
    have hi := start_inv (none : Option Int) (prepared c before kw s) c.envNum po pi (by rw [w1 _ hpo]) (by rw [w2 _ hpi])
    obtain ⟨⟨new, _, hinv, _⟩, _⟩ := run_inv c _ _ random kw fuel _ _ _ _ hr hi
    have hl : l.ready.length = c.envNum := by rw [(hinv.stay rfl).1, List.length_range]
    refine ⟨fun x hx => ?_, fun x hx => ?_⟩
    · simp only [Option.some.injEq] at hx
      rw [← hx, hinv.lenObs, hl]
    · simp only [Option.some.injEq] at hx
      rw [← hx, hinv.lenInfo, hl]
  | @episodes s s' h n random before kw fuel st hc ih =>
    obtain ⟨_, po, pi, l, hpo, hpi, hr, rfl, _⟩ := collect_episodes c n random before kw fuel s s' st hc
    exact resetEnv_wf ..

end Verif.Collector
