import Verif.Spec.VecCollector

/-! Lemmas about collectors with wrapped vector environments. -/

namespace Verif.VecCollector

open Verif.Collector (StepOut Env Row World Policy HiddenKind Err Stats Cell whereTrue writeAt dropAt truthy surplus stops validates stepEnvs resetEnvs)

variable {W W' Θ σ A O O' R I H K : Type}

/-! ### Lists -/

theorem writeAt_map {α β : Type} (f : α → β) (ps : List Nat) : ∀ (l : List α) (xs : List α), writeAt (l.map f) ps (xs.map f) = (writeAt l ps xs).map f := by
  induction ps with
  | nil => intro l xs; cases xs <;> rfl
  | cons p ps ih =>
    intro l xs
    cases xs with
    | nil => rfl
    | cons x xs =>
      simp only [List.map_cons, writeAt]
      rw [← List.map_set, ih]

theorem dropAt_map {α β : Type} (f : α → β) (l : List α) (ps : List Nat) : dropAt (l.map f) ps = (dropAt l ps).map f := by
  unfold dropAt
  rw [List.zipIdx_map, List.filter_map, List.map_map, List.map_map]
  rfl

theorem pick_map {α β : Type} (f : α → β) (l : List α) (ps : List Nat) : (ps.filterMap fun i => (l.map f)[i]?) = (ps.filterMap fun i => l[i]?).map f := by
  rw [List.map_filterMap]
  simp

theorem mem_writeAt {α : Type} (ps : List Nat) : ∀ (l xs : List α) (y : α), y ∈ writeAt l ps xs → y ∈ l ∨ y ∈ xs := by
  induction ps with
  | nil => intro l xs y h; cases xs <;> exact Or.inl h
  | cons p ps ih =>
    intro l xs y h
    cases xs with
    | nil => exact Or.inl h
    | cons x xs =>
      rcases ih _ _ _ h with h | h
      · rcases List.mem_or_eq_of_mem_set h with h | h
        · exact Or.inl h
        · exact Or.inr (by simp [h])
      · exact Or.inr (by simp [h])

theorem mem_dropAt {α : Type} (l : List α) (ps : List Nat) (y : α) (h : y ∈ dropAt l ps) : y ∈ l := by
  unfold dropAt at h
  obtain ⟨q, hq, rfl⟩ := List.mem_map.mp h
  exact List.fst_mem_of_mem_zipIdx (List.mem_filter.mp hq).1

theorem length_stepEnvs (E : Env σ A O R I K) (l : List (Nat × A)) : ∀ w, (stepEnvs E l w).2.length = l.length := by
  induction l with
  | nil => intro w; rfl
  | cons p t ih => intro w; simp [stepEnvs, ih]

theorem length_resetEnvs (E : Env σ A O R I K) (kw : K) (l : List Nat) : ∀ w, (resetEnvs E kw l w).2.length = l.length := by
  induction l with
  | nil => intro w; rfl
  | cons p t ih => intro w; simp [resetEnvs, ih]

theorem zip_map_snd {α β γ : Type} (g : β → γ) (l : List α) (l' : List β) (h : l'.length ≤ l.length) : ((l.zip l').map fun q => g q.2) = l'.map g := by
  have : (fun q : α × β => g q.2) = g ∘ Prod.snd := rfl
  rw [this, ← List.map_map, List.map_snd_zip h]

theorem whereTrue_lt (l : List Bool) (i : Nat) (h : i ∈ whereTrue l) : i < l.length := by
  unfold whereTrue at h
  simpa using (List.mem_filter.mp h).1

/-! ### The collector of `Collector.lean` -/

/-- A loop as a loop of `Collector.lean`. -/
def Loop.toLoop (s : Loop (World σ O) A O R I H) (asked : List (Option (Collector.Call H))) : Collector.Loop σ A O R I H :=
  ⟨s.world, s.ready, s.lastObs.map Cell.val, s.lastInfo, s.lastHidden, s.stepCount, s.numEpisodes, s.calls, s.log, asked⟩

/-- A collector as a collector of `Collector.lean`. -/
def Col.toCol (s : Col (World σ O) A O R I H) (asked : List (Option (Collector.Call H))) : Collector.Col σ A O R I H :=
  ⟨s.world, s.preObs.map fun l => l.map Cell.val, s.preInfo, s.preHidden, s.collectStep, s.collectEpisode, s.calls, s.log, asked⟩

theorem read_val (mem : Nat → O) (l : List O) : (l.map Cell.val).map (Cell.read mem) = l := by
  rw [List.map_map]
  exact List.map_id'' (fun _ => rfl) l

theorem decide_same (c : Setup A O I H) (E : Env σ A O R I K) : Collector.decide (⟨E, c.policy, c.envNum, c.noise, false, c.hiddenKind, c.zeroHidden, c.isAsync⟩ : Collector.Cfg σ A O R I H K) = @decide A O I H c := rfl

theorem resetHidden_same (c : Setup A O I H) (E : Env σ A O R I K) (ps : List Nat) (hidden : Option (List H)) :
    Collector.resetHidden (⟨E, c.policy, c.envNum, c.noise, false, c.hiddenKind, c.zeroHidden, c.isAsync⟩ : Collector.Cfg σ A O R I H K) ps hidden = resetHidden c ps hidden := by
  unfold Collector.resetHidden resetHidden
  cases c.hiddenKind <;> rfl

theorem cell_same (c : Setup A O I H) (E : Env σ A O R I K) (e : Nat) (o : O) : Collector.Cfg.cell (⟨E, c.policy, c.envNum, c.noise, false, c.hiddenKind, c.zeroHidden, c.isAsync⟩ : Collector.Cfg σ A O R I H K) e o = .val o := rfl

theorem iter_same (c : Setup A O I H) (E : Env σ A O R I K) (nEpisode : Option Int) (random : Bool) (kw : K) (s : Loop (World σ O) A O R I H)
    (asked : List (Option (Collector.Call H))) :
    match iter c (ofEnv E) nEpisode random kw s with
    | .error e => Collector.iter (c.cfg E) nEpisode random kw (s.toLoop asked) = .error e
    | .ok t => ∃ asked', Collector.iter (c.cfg E) nEpisode random kw (s.toLoop asked) = .ok (t.toLoop asked') := by
  unfold iter Collector.iter ofEnv Setup.cfg
  simp only [Loop.toLoop, read_val, decide_same]
  by_cases h1 : (decide c random s.calls s.ready s.lastObs s.lastInfo s.lastHidden).actNormalized.length ≠ s.ready.length
  · simp only [h1, ↓reduceIte, ne_eq, not_false_eq_true]
  · by_cases h2 : s.ready = []
    · simp only [if_neg h1, if_pos h2]
    · simp only [h1, h2, ↓reduceIte]
      generalize decide c random s.calls s.ready s.lastObs s.lastInfo s.lastHidden = d at *
      have hl := length_stepEnvs E (s.ready.zip d.actNormalized) s.world
      rw [List.length_zip, not_not.mp h1, Nat.min_self] at hl
      have hr : ∀ p : World σ O × List (StepOut O R I),
          (if whereTrue (p.2.map StepOut.done) = [] then (p.1, []) else resetEnvs E kw ((whereTrue (p.2.map StepOut.done)).filterMap fun i => s.ready[i]?) p.1) =
          resetEnvs E kw ((whereTrue (p.2.map StepOut.done)).filterMap fun i => s.ready[i]?) p.1 := by
        intro p
        split
        · rename_i h; rw [h]; rfl
        · rfl
      have e1 : ((s.ready.zip (stepEnvs E (s.ready.zip d.actNormalized) s.world).2).map fun q => (Cell.val q.2.obs : Cell O)) =
          ((stepEnvs E (s.ready.zip d.actNormalized) s.world).2.map StepOut.obs).map Cell.val := by
        rw [zip_map_snd (fun x : StepOut O R I => Cell.val x.obs) _ _ (Nat.le_of_eq hl), List.map_map]; rfl
      have e2 : ∀ (g : List Nat) (w : World σ O), ((g.zip (resetEnvs E kw g w).2).map fun q => (Cell.val q.2.1 : Cell O)) =
          ((resetEnvs E kw g w).2.map Prod.fst).map Cell.val := by
        intro g w
        rw [zip_map_snd (fun x : O × I => Cell.val x.1) _ _ (Nat.le_of_eq (length_resetEnvs E kw g w)), List.map_map]; rfl
      simp only [cell_same, resetHidden_same, hr, e1, e2, writeAt_map, dropAt_map]
      by_cases hd : whereTrue ((stepEnvs E (s.ready.zip d.actNormalized) s.world).2.map StepOut.done) = []
      · simp only [if_pos hd]
        exact ⟨_, rfl⟩
      · simp only [if_neg hd]
        exact ⟨_, rfl⟩

theorem run_same (c : Setup A O I H) (E : Env σ A O R I K) (nStep nEpisode : Option Int) (random : Bool) (kw : K) (fuel : Nat) :
    ∀ (s : Loop (World σ O) A O R I H) (asked : List (Option (Collector.Call H))),
    match run c (ofEnv E) nStep nEpisode random kw fuel s with
    | none => Collector.run (c.cfg E) nStep nEpisode random kw fuel (s.toLoop asked) = none
    | some (.error e) => Collector.run (c.cfg E) nStep nEpisode random kw fuel (s.toLoop asked) = some (.error e)
    | some (.ok t) => ∃ asked', Collector.run (c.cfg E) nStep nEpisode random kw fuel (s.toLoop asked) = some (.ok (t.toLoop asked')) := by
  induction fuel with
  | zero => intro s asked; rfl
  | succ fuel ih =>
    intro s asked
    have h := iter_same c E nEpisode random kw s asked
    unfold run Collector.run
    cases hi : iter c (ofEnv E) nEpisode random kw s with
    | error e => rw [hi] at h; simp only at h ⊢; rw [h]
    | ok t =>
      rw [hi] at h
      obtain ⟨asked', h⟩ := h
      simp only [h]
      change match (if stops nStep nEpisode t.stepCount t.numEpisodes = true then some (Except.ok t) else run c (ofEnv E) nStep nEpisode random kw fuel t) with
        | none => (if stops nStep nEpisode t.stepCount t.numEpisodes = true then _ else _) = _
        | some (.error e) => (if stops nStep nEpisode t.stepCount t.numEpisodes = true then _ else _) = _
        | some (.ok t') => ∃ asked'', (if stops nStep nEpisode t.stepCount t.numEpisodes = true then _ else _) = _
      by_cases hs : stops nStep nEpisode t.stepCount t.numEpisodes = true
      · simp only [hs, ↓reduceIte]
        exact ⟨asked', rfl⟩
      · simp only [hs]
        exact ih t asked'

theorem resetEnv_same (c : Setup A O I H) (E : Env σ A O R I K) (kw : K) (s : Col (World σ O) A O R I H) (asked : List (Option (Collector.Call H))) :
    Collector.resetEnv (c.cfg E) kw (s.toCol asked) = (resetEnv c (ofEnv E) kw s).toCol (asked ++ [none]) := by
  unfold Collector.resetEnv resetEnv
  have hl := length_resetEnvs E kw (List.range c.envNum) s.world
  simp only [Col.toCol, Setup.cfg, ofEnv, Collector.Cfg.cell, Bool.false_eq_true, ↓reduceIte, Option.map_some]
  rw [zip_map_snd (fun x : O × I => Cell.val x.1) _ _ (Nat.le_of_eq hl), List.map_map]
  rfl

theorem reset_same (c : Setup A O I H) (E : Env σ A O R I K) (buffer stats : Bool) (kw : K) (s : Col (World σ O) A O R I H)
    (asked : List (Option (Collector.Call H))) :
    Collector.reset (c.cfg E) buffer stats kw (s.toCol asked) = (reset c (ofEnv E) buffer stats kw s).toCol (asked ++ [none]) := by
  unfold Collector.reset reset
  simp only [resetEnv_same]
  cases buffer <;> cases stats <;> rfl

theorem collect_same (c : Setup A O I H) (E : Env σ A O R I K) (nStep nEpisode : Option Int) (random before : Bool) (kw : K) (fuel : Nat)
    (s : Col (World σ O) A O R I H) (asked : List (Option (Collector.Call H))) :
    match collect c (ofEnv E) nStep nEpisode random before kw fuel s with
    | none => Collector.collect (c.cfg E) nStep nEpisode random before kw fuel (s.toCol asked) = none
    | some (.error e) => Collector.collect (c.cfg E) nStep nEpisode random before kw fuel (s.toCol asked) = some (.error e)
    | some (.ok (t, st)) => ∃ asked', Collector.collect (c.cfg E) nStep nEpisode random before kw fuel (s.toCol asked) = some (.ok (t.toCol asked', st)) := by
  unfold collect Collector.collect
  cases validates nStep nEpisode with
  | false => rfl
  | true =>
    simp only [Bool.not_true, Bool.false_eq_true, ↓reduceIte]
    obtain ⟨asked1, he⟩ : ∃ asked1, (if before = true then Collector.reset (c.cfg E) false true kw (s.toCol asked) else s.toCol asked) =
        (if before = true then reset c (ofEnv E) false true kw s else s).toCol asked1 := by
      cases before
      · exact ⟨asked, rfl⟩
      · exact ⟨_, by simp only [↓reduceIte]; exact reset_same c E false true kw s asked⟩
    rw [he]
    generalize (if before = true then reset c (ofEnv E) false true kw s else s) = s at *
    unfold collectAux Collector.collectAux
    have hasync : (c.cfg E).isAsync = c.isAsync := rfl
    rw [hasync]
    cases c.isAsync with
    | true => rfl
    | false =>
      simp only [Bool.false_eq_true, ↓reduceIte]
      have hi : Collector.initialReady (c.cfg E) nStep nEpisode = initialReady c nStep nEpisode := rfl
      rw [hi]
      cases initialReady c nStep nEpisode with
      | none => rfl
      | some ready =>
        obtain ⟨w, po, pinfo, ph, cs, ce, ca, lg⟩ := s
        cases po with
        | none => rfl
        | some po =>
          cases pinfo with
          | none => rfl
          | some pinfo =>
            simp only [Col.toCol, Option.map_some]
            have hst : (Collector.Loop.mk w ready (ready.filterMap fun i => (po.map Cell.val)[i]?) (ready.filterMap fun i => pinfo[i]?)
                (ph.map fun h => ready.filterMap fun i => h[i]?) 0 0 ca lg asked1 : Collector.Loop σ A O R I H) =
                (start ready po pinfo ⟨w, some po, some pinfo, ph, cs, ce, ca, lg⟩).toLoop asked1 := by
              simp only [start, Loop.toLoop, pick_map]
            rw [hst]
            have h := run_same c E nStep nEpisode random kw fuel (start ready po pinfo ⟨w, some po, some pinfo, ph, cs, ce, ca, lg⟩) asked1
            cases hr : run c (ofEnv E) nStep nEpisode random kw fuel (start ready po pinfo ⟨w, some po, some pinfo, ph, cs, ce, ca, lg⟩) with
            | none => rw [hr] at h; simp only at h ⊢; rw [h]
            | some x =>
              rw [hr] at h
              cases x with
              | error e => simp only at h ⊢; rw [h]
              | ok t =>
                obtain ⟨asked2, h⟩ := h
                simp only [h]
                unfold finish
                cases truthy nStep with
                | true => exact ⟨asked2, rfl⟩
                | false =>
                  cases truthy nEpisode with
                  | true => exact ⟨asked2 ++ [none], by
                    have := resetEnv_same c E kw (⟨t.world, some po, some pinfo, ph, cs + t.stepCount, ce + t.numEpisodes, t.calls, t.log⟩ : Col (World σ O) A O R I H) asked2
                    simp only [Bool.false_eq_true, ↓reduceIte, Option.some.injEq, Except.ok.injEq, Prod.mk.injEq]
                    exact ⟨this, rfl⟩⟩
                  | false => exact ⟨asked2, rfl⟩

theorem use_same (c : Setup A O I H) (E : Env σ A O R I K) (ops : List (Op K)) : ∀ (s : Col (World σ O) A O R I H) (asked : List (Option (Collector.Call H))),
    match use c (ofEnv E) ops s with
    | none => useCollector (c.cfg E) ops (s.toCol asked) = none
    | some t => ∃ asked', useCollector (c.cfg E) ops (s.toCol asked) = some (t.toCol asked') := by
  induction ops with
  | nil => intro s asked; exact ⟨asked, rfl⟩
  | cons op ops ih =>
    intro s asked
    cases op with
    | reset buffer stats kw =>
      simp only [use, applyOp, Option.bind_some, useCollector, reset_same]
      exact ih _ _
    | collect nStep nEpisode random before kw fuel =>
      have h := collect_same c E nStep nEpisode random before kw fuel s asked
      unfold use useCollector applyOp
      simp only
      rcases hc : collect c (ofEnv E) nStep nEpisode random before kw fuel s with _ | (e | ⟨t, st⟩)
      · rw [hc] at h; simp only at h ⊢; rw [h]; rfl
      · rw [hc] at h; simp only at h ⊢; rw [h]; rfl
      · rw [hc] at h
        obtain ⟨asked', h⟩ := h
        simp only [h, Option.bind_some]
        exact ih t asked'

/-! ### One round in parts -/

/-- The environments that have ended an episode are reset. -/
def endings (V : VecEnv W A O R I K) (kw : K) (ready : List Nat) (p : W × List (StepOut O R I)) : W × List (O × I) :=
  if whereTrue (p.2.map StepOut.done) = [] then (p.1, []) else V.reset kw ((whereTrue (p.2.map StepOut.done)).filterMap fun i => ready[i]?) p.1

/-- The transitions of a round. -/
def rowsFor (lastObs : List O) (lastInfo : List I) (d : Collector.Decision A H) (outs : List (StepOut O R I)) : List (Row O A R I) :=
  ((lastObs.zip lastInfo).zip ((d.act.zip d.actNormalized).zip outs)).map fun q => Row.mk q.1.1 q.1.2 q.2.1.1 q.2.1.2 q.2.2

/-- The positions that are dropped. -/
def dropped (nEpisode : Option Int) (readyNum numEpisodes : Nat) (done : List Bool) : List Nat :=
  if whereTrue done = [] then [] else surplus nEpisode readyNum (numEpisodes + (whereTrue done).length) (whereTrue done)

/-- The variables after a round. -/
def next (c : Setup A O I H) (nEpisode : Option Int) (s : Loop W A O R I H) (d : Collector.Decision A H) (outs : List (StepOut O R I)) (w : W') (resets : List (O × I)) :
    Loop W' A O R I H where
  world := w
  ready := dropAt s.ready (dropped nEpisode s.ready.length s.numEpisodes (outs.map StepOut.done))
  lastObs := dropAt (writeAt (outs.map StepOut.obs) (whereTrue (outs.map StepOut.done)) (resets.map Prod.fst))
    (dropped nEpisode s.ready.length s.numEpisodes (outs.map StepOut.done))
  lastInfo := dropAt (writeAt (outs.map StepOut.info) (whereTrue (outs.map StepOut.done)) (resets.map Prod.snd))
    (dropped nEpisode s.ready.length s.numEpisodes (outs.map StepOut.done))
  lastHidden := (resetHidden c (whereTrue (outs.map StepOut.done)) d.hidden).map fun l => dropAt l (dropped nEpisode s.ready.length s.numEpisodes (outs.map StepOut.done))
  stepCount := s.stepCount + s.ready.length
  numEpisodes := s.numEpisodes + (whereTrue (outs.map StepOut.done)).length
  calls := s.calls + 1
  log := s.log ++ [s.ready.zip (rowsFor s.lastObs s.lastInfo d outs)]

theorem iter_eq (c : Setup A O I H) (V : VecEnv W A O R I K) (nEpisode : Option Int) (random : Bool) (kw : K) (s : Loop W A O R I H) :
    iter c V nEpisode random kw s =
      if (decide c random s.calls s.ready s.lastObs s.lastInfo s.lastHidden).actNormalized.length ≠ s.ready.length then .error .assertion
      else if s.ready = [] then .error .value
      else .ok (next c nEpisode s (decide c random s.calls s.ready s.lastObs s.lastInfo s.lastHidden)
        (V.step (s.ready.zip (decide c random s.calls s.ready s.lastObs s.lastInfo s.lastHidden).actNormalized) s.world).2
        (endings V kw s.ready (V.step (s.ready.zip (decide c random s.calls s.ready s.lastObs s.lastInfo s.lastHidden).actNormalized) s.world)).1
        (endings V kw s.ready (V.step (s.ready.zip (decide c random s.calls s.ready s.lastObs s.lastInfo s.lastHidden).actNormalized) s.world)).2) := rfl

/-! ### Vector environments that behave in the same way -/

/-- Two vector environments behave in the same way from related states. -/
structure Alike (V : VecEnv W A O R I K) (V' : VecEnv W' A O R I K) (r : W → W' → Prop) : Prop where
  step : ∀ acts w w', r w w' → (V'.step acts w').2 = (V.step acts w).2 ∧ r (V.step acts w).1 (V'.step acts w').1
  reset : ∀ kw ids w w', r w w' → (V'.reset kw ids w').2 = (V.reset kw ids w).2 ∧ r (V.reset kw ids w).1 (V'.reset kw ids w').1

/-- The same variables with another vector environment. -/
def Loop.at (s : Loop W A O R I H) (w : W') : Loop W' A O R I H :=
  ⟨w, s.ready, s.lastObs, s.lastInfo, s.lastHidden, s.stepCount, s.numEpisodes, s.calls, s.log⟩

/-- The same collector with another vector environment. -/
def Col.at (s : Col W A O R I H) (w : W') : Col W' A O R I H := ⟨w, s.preObs, s.preInfo, s.preHidden, s.collectStep, s.collectEpisode, s.calls, s.log⟩

section
variable {V : VecEnv W A O R I K} {V' : VecEnv W' A O R I K} {r : W → W' → Prop}

theorem Alike.endings (h : Alike V V' r) (kw : K) (ready : List Nat) (outs : List (StepOut O R I)) {w : W} {w' : W'} (hw : r w w') :
    (VecCollector.endings V' kw ready (w', outs)).2 = (VecCollector.endings V kw ready (w, outs)).2 ∧
      r (VecCollector.endings V kw ready (w, outs)).1 (VecCollector.endings V' kw ready (w', outs)).1 := by
  unfold VecCollector.endings
  split
  · exact ⟨rfl, hw⟩
  · exact h.reset _ _ _ _ hw

theorem Alike.iter (h : Alike V V' r) (c : Setup A O I H) (nEpisode : Option Int) (random : Bool) (kw : K) (s : Loop W A O R I H) {w' : W'} (hw : r s.world w')
    {t : Loop W A O R I H} (ht : VecCollector.iter c V nEpisode random kw s = .ok t) :
    ∃ x, r t.world x ∧ VecCollector.iter c V' nEpisode random kw (s.at w') = .ok (t.at x) := by
  rw [iter_eq] at ht ⊢
  change ∃ x, _ ∧ (if (VecCollector.decide c random s.calls s.ready s.lastObs s.lastInfo s.lastHidden).actNormalized.length ≠ s.ready.length then _
    else if s.ready = [] then _ else _) = _
  split at ht
  · cases ht
  · rename_i h1
    split at ht
    · cases ht
    · rename_i h2
      cases ht
      rw [if_neg h1, if_neg h2]
      obtain ⟨a1, a2⟩ := h.step (s.ready.zip (VecCollector.decide c random s.calls s.ready s.lastObs s.lastInfo s.lastHidden).actNormalized) _ _ hw
      obtain ⟨b1, b2⟩ := h.endings kw s.ready (V.step (s.ready.zip (VecCollector.decide c random s.calls s.ready s.lastObs s.lastInfo s.lastHidden).actNormalized) s.world).2 a2
      refine ⟨_, b2, ?_⟩
      rw [← b1, ← a1]
      simp only [Except.ok.injEq]
      rfl

theorem Alike.run (h : Alike V V' r) (c : Setup A O I H) (nStep nEpisode : Option Int) (random : Bool) (kw : K) (fuel : Nat) :
    ∀ (s : Loop W A O R I H) {w' : W'} (_ : r s.world w') {t : Loop W A O R I H}, VecCollector.run c V nStep nEpisode random kw fuel s = some (.ok t) →
    ∃ x, r t.world x ∧ VecCollector.run c V' nStep nEpisode random kw fuel (s.at w') = some (.ok (t.at x)) := by
  induction fuel with
  | zero => intro s w' hw t ht; cases ht
  | succ fuel ih =>
    intro s w' hw t ht
    unfold VecCollector.run at ht ⊢
    cases hi : VecCollector.iter c V nEpisode random kw s with
    | error e => rw [hi] at ht; cases ht
    | ok s1 =>
      rw [hi] at ht
      obtain ⟨x, hx, he⟩ := h.iter c nEpisode random kw s hw hi
      rw [he]
      simp only at ht ⊢
      change ∃ x', _ ∧ (if stops nStep nEpisode s1.stepCount s1.numEpisodes = true then _ else _) = _
      split at ht
      · rename_i hs
        cases ht
        exact ⟨x, hx, by rw [if_pos hs]⟩
      · rename_i hs
        rw [if_neg hs]
        exact ih s1 hx ht

theorem Alike.resetEnv (h : Alike V V' r) (c : Setup A O I H) (kw : K) (s : Col W A O R I H) {w' : W'} (hw : r s.world w') :
    ∃ x, r (VecCollector.resetEnv c V kw s).world x ∧ VecCollector.resetEnv c V' kw (s.at w') = (VecCollector.resetEnv c V kw s).at x := by
  obtain ⟨a1, a2⟩ := h.reset kw (List.range c.envNum) _ _ hw
  refine ⟨_, a2, ?_⟩
  unfold VecCollector.resetEnv
  simp only [Col.at, a1]

theorem Alike.reset' (h : Alike V V' r) (c : Setup A O I H) (buffer stats : Bool) (kw : K) (s : Col W A O R I H) {w' : W'} (hw : r s.world w') :
    ∃ x, r (VecCollector.reset c V buffer stats kw s).world x ∧ VecCollector.reset c V' buffer stats kw (s.at w') = (VecCollector.reset c V buffer stats kw s).at x := by
  obtain ⟨x, hx, he⟩ := h.resetEnv c kw s hw
  refine ⟨x, ?_, ?_⟩
  · unfold VecCollector.reset
    cases buffer <;> cases stats <;> exact hx
  · unfold VecCollector.reset
    rw [he]
    cases buffer <;> cases stats <;> rfl

theorem Alike.collect (h : Alike V V' r) (c : Setup A O I H) (nStep nEpisode : Option Int) (random before : Bool) (kw : K) (fuel : Nat) (s : Col W A O R I H) {w' : W'}
    (hw : r s.world w') {t : Col W A O R I H} {st : Stats} (ht : VecCollector.collect c V nStep nEpisode random before kw fuel s = some (.ok (t, st))) :
    ∃ x, r t.world x ∧ VecCollector.collect c V' nStep nEpisode random before kw fuel (s.at w') = some (.ok (t.at x, st)) := by
  unfold VecCollector.collect at ht ⊢
  split at ht
  · cases ht
  · rename_i hv
    rw [if_neg hv]
    obtain ⟨w1, hw1, he⟩ : ∃ w1, r (if before = true then VecCollector.reset c V false true kw s else s).world w1 ∧
        (if before = true then VecCollector.reset c V' false true kw (s.at w') else s.at w') = (if before = true then VecCollector.reset c V false true kw s else s).at w1 := by
      cases before
      · exact ⟨w', hw, rfl⟩
      · exact h.reset' c false true kw s hw
    rw [he]
    generalize (if before = true then VecCollector.reset c V false true kw s else s) = s at *
    unfold collectAux at ht ⊢
    split at ht
    · cases ht
    · rename_i hasync
      rw [if_neg hasync]
      obtain ⟨w, po, pinfo, ph, cs, ce, ca, lg⟩ := s
      simp only [Col.at] at ht ⊢
      cases hr : initialReady c nStep nEpisode with
      | none => rw [hr] at ht; cases ht
      | some ready =>
        rw [hr] at ht
        cases po with
        | none => cases ht
        | some po =>
          cases pinfo with
          | none => cases ht
          | some pinfo =>
            simp only at ht ⊢
            rcases hrun : VecCollector.run c V nStep nEpisode random kw fuel (start ready po pinfo ⟨w, some po, some pinfo, ph, cs, ce, ca, lg⟩) with _ | (e | l)
            · rw [hrun] at ht; cases ht
            · rw [hrun] at ht; cases ht
            · rw [hrun] at ht
              obtain ⟨x, hx, h2⟩ := h.run c nStep nEpisode random kw fuel _ hw1 hrun
              have : (start ready po pinfo (⟨w1, some po, some pinfo, ph, cs, ce, ca, lg⟩ : Col W' A O R I H)) =
                (start ready po pinfo ⟨w, some po, some pinfo, ph, cs, ce, ca, lg⟩ : Loop W A O R I H).at w1 := rfl
              rw [this, h2]
              simp only [Option.some.injEq, Except.ok.injEq] at ht ⊢
              unfold finish at ht ⊢
              split at ht
              · rename_i h3
                cases ht
                exact ⟨x, hx, by rw [if_pos h3]; rfl⟩
              · rename_i h3
                rw [if_neg h3]
                split at ht
                · rename_i h4
                  cases ht
                  obtain ⟨y, hy, h5⟩ := h.resetEnv c kw (⟨l.world, some po, some pinfo, ph, cs + l.stepCount, ce + l.numEpisodes, l.calls, l.log⟩ : Col W A O R I H) hx
                  exact ⟨y, hy, by rw [if_pos h4]; simp only [Prod.mk.injEq]; exact ⟨h5, rfl⟩⟩
                · rename_i h4
                  cases ht
                  exact ⟨x, hx, by rw [if_neg h4]; rfl⟩

theorem Alike.use (h : Alike V V' r) (c : Setup A O I H) (ops : List (Op K)) : ∀ (s : Col W A O R I H) {w' : W'} (_ : r s.world w') {t : Col W A O R I H},
    VecCollector.use c V ops s = some t → ∃ x, r t.world x ∧ VecCollector.use c V' ops (s.at w') = some (t.at x) := by
  induction ops with
  | nil => intro s w' hw t ht; cases ht; exact ⟨w', hw, rfl⟩
  | cons op ops ih =>
    intro s w' hw t ht
    cases op with
    | reset buffer stats kw =>
      obtain ⟨x, hx, he⟩ := h.reset' c buffer stats kw s hw
      simp only [VecCollector.use, applyOp, Option.bind_some] at ht ⊢
      rw [he]
      exact ih _ hx ht
    | collect nStep nEpisode random before kw fuel =>
      unfold VecCollector.use applyOp at ht ⊢
      simp only at ht ⊢
      rcases hc : VecCollector.collect c V nStep nEpisode random before kw fuel s with _ | (e | ⟨s1, st⟩)
      · rw [hc] at ht; cases ht
      · rw [hc] at ht; cases ht
      · rw [hc] at ht
        obtain ⟨x, hx, he⟩ := h.collect c nStep nEpisode random before kw fuel s hw hc
        rw [he]
        exact ih s1 hx ht

end

end Verif.VecCollector
