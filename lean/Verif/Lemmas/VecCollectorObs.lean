import Verif.Lemmas.VecCollector

/-! Lemmas about wrappers that change observations: the collector does the same as without the wrapper. -/

namespace Verif.VecCollector

open Verif.Collector (StepOut Env Row World Policy HiddenKind Err Stats Cell whereTrue writeAt dropAt truthy surplus stops validates stepEnvs resetEnvs)

variable {W W' Θ σ A O O' R I H K : Type}

/-! ### A wrapper without memory -/

/-- What an environment returns, with another observation. -/
def mapOut (f : O → O') (x : StepOut O R I) : StepOut O' R I := ⟨f x.obs, x.rew, x.terminated, x.truncated, x.info⟩

theorem stepEnvs_mapObs (f : O → O') (E : Env σ A O R I K) (l : List (Nat × A)) : ∀ (w : World σ O) (w' : World σ O'), w'.envs = w.envs →
    (stepEnvs (mapObs f E) l w').2 = (stepEnvs E l w).2.map (mapOut f) ∧ (stepEnvs (mapObs f E) l w').1.envs = (stepEnvs E l w).1.envs := by
  induction l with
  | nil => intro w w' h; exact ⟨rfl, h⟩
  | cons p t ih =>
    intro w w' h
    simp only [stepEnvs, List.map_cons]
    have hs : (mapObs f E).step (w'.envs p.1) p.2 = ((E.step (w.envs p.1) p.2).1, mapOut f (E.step (w.envs p.1) p.2).2) := by rw [h]; rfl
    rw [hs]
    obtain ⟨h1, h2⟩ := ih ⟨Collector.upd w.envs p.1 (E.step (w.envs p.1) p.2).1, Collector.upd w.mem p.1 (E.step (w.envs p.1) p.2).2.obs⟩
      ⟨Collector.upd w'.envs p.1 (E.step (w.envs p.1) p.2).1, Collector.upd w'.mem p.1 (mapOut f (E.step (w.envs p.1) p.2).2).obs⟩ (by simp only [h])
    exact ⟨by rw [h1], h2⟩

theorem resetEnvs_mapObs (f : O → O') (E : Env σ A O R I K) (kw : K) (l : List Nat) : ∀ (w : World σ O) (w' : World σ O'), w'.envs = w.envs →
    (resetEnvs (mapObs f E) kw l w').2 = (resetEnvs E kw l w).2.map (Prod.map f id) ∧ (resetEnvs (mapObs f E) kw l w').1.envs = (resetEnvs E kw l w).1.envs := by
  induction l with
  | nil => intro w w' h; exact ⟨rfl, h⟩
  | cons e t ih =>
    intro w w' h
    simp only [resetEnvs, List.map_cons]
    have hs : (mapObs f E).reset kw (w'.envs e) = ((E.reset kw (w.envs e)).1, f (E.reset kw (w.envs e)).2.1, (E.reset kw (w.envs e)).2.2) := by rw [h]; rfl
    rw [hs]
    obtain ⟨h1, h2⟩ := ih ⟨Collector.upd w.envs e (E.reset kw (w.envs e)).1, Collector.upd w.mem e (E.reset kw (w.envs e)).2.1⟩
      ⟨Collector.upd w'.envs e (E.reset kw (w.envs e)).1, Collector.upd w'.mem e (f (E.reset kw (w.envs e)).2.1)⟩ (by simp only [h])
    exact ⟨by rw [h1]; rfl, h2⟩

theorem zipWith_own (f : O → O') (l : List (StepOut O R I)) :
    List.zipWith (fun o (x : StepOut O R I) => (⟨o, x.rew, x.terminated, x.truncated, x.info⟩ : StepOut O' R I)) ((l.map StepOut.obs).map f) l = l.map (mapOut f) := by
  induction l with
  | nil => rfl
  | cons x l ih => simp only [List.map_cons, List.zipWith_cons_cons, ih]; rfl

theorem zip_own (f : O → O') (l : List (O × I)) : ((l.map Prod.fst).map f).zip (l.map Prod.snd) = l.map (Prod.map f id) := by
  induction l with
  | nil => rfl
  | cons x l ih => simp only [List.map_cons, List.zip_cons_cons, ih]; rfl

theorem alike_frozen (E : Env σ A O R I K) (observe : Θ → List O → Θ × List O') (θ : Θ) (f : O → O') (h : ∀ obs, observe θ obs = (θ, obs.map f)) :
    Alike ((ofEnv E).observing observe) (ofEnv (mapObs f E)) fun w w' => w.2 = θ ∧ w'.envs = w.1.envs where
  step acts w w' hw := by
    obtain ⟨w, x⟩ := w
    obtain ⟨rfl, hw⟩ := hw
    obtain ⟨h1, h2⟩ := stepEnvs_mapObs f E acts w w' hw
    refine ⟨?_, ?_, h2⟩
    · simp only [VecEnv.observing, ofEnv, h, zipWith_own]
      exact h1
    · simp only [VecEnv.observing, h]
  reset kw ids w w' hw := by
    obtain ⟨w, x⟩ := w
    obtain ⟨rfl, hw⟩ := hw
    obtain ⟨h1, h2⟩ := resetEnvs_mapObs f E kw ids w w' hw
    refine ⟨?_, ?_, h2⟩
    · simp only [VecEnv.observing, ofEnv, h, zip_own]
      exact h1
    · simp only [VecEnv.observing, h]

/-- Recording changes nothing. -/
theorem alike_recording (V : VecEnv W A O R I K) : Alike V.recording V fun w w' => w' = w.1 where
  step acts w w' hw := by
    subst hw
    refine ⟨?_, rfl⟩
    have := zipWith_own id (V.step acts w.1).2
    rw [List.map_id] at this
    simp only [VecEnv.recording, VecEnv.observing, this]
    exact (List.map_id'' (fun _ => rfl) _).symm
  reset kw ids w w' hw := by
    subst hw
    refine ⟨?_, rfl⟩
    have := zip_own id (V.reset kw ids w.1).2
    rw [List.map_id] at this
    simp only [VecEnv.recording, VecEnv.observing, this]
    exact (List.map_id'' (fun _ => rfl) _).symm

/-! ### A wrapper with memory -/

section
variable (observe : Θ → List O → Θ × List O') (θ0 : Θ)

/-- The memory after batches of observations. -/
def memory (batches : List (List O)) : Θ := batches.foldl (fun θ b => (observe θ b).1) θ0

/-- The observation `o` was part of a batch and shown as `o'`. -/
def Shown (batches : List (List O)) (o : O) (o' : O') : Prop :=
  ∃ (i : Nat) (batch : List O) (j : Nat), batches[i]? = some batch ∧ batch[j]? = some o ∧ (observe (memory observe θ0 (batches.take i)) batch).2[j]? = some o'

end

section
variable {observe : Θ → List O → Θ × List O'} {θ0 : Θ}

theorem memory_snoc (batches : List (List O)) (b : List O) : memory observe θ0 (batches ++ [b]) = (observe (memory observe θ0 batches) b).1 := by
  unfold memory
  rw [List.foldl_append]
  rfl

theorem Shown.mono {batches : List (List O)} {o : O} {o' : O'} (h : Shown observe θ0 batches o o') (b : List O) : Shown observe θ0 (batches ++ [b]) o o' := by
  obtain ⟨i, batch, j, h1, h2, h3⟩ := h
  have hi : i < batches.length := (List.getElem?_eq_some_iff.mp h1).1
  refine ⟨i, batch, j, by rw [List.getElem?_append_left hi, h1], h2, ?_⟩
  rwa [List.take_append_of_le_length (Nat.le_of_lt hi)]

theorem shown_last (batches : List (List O)) (b : List O) :
    ∀ p ∈ b.zip (observe (memory observe θ0 batches) b).2, Shown observe θ0 (batches ++ [b]) p.1 p.2 := by
  intro p hp
  obtain ⟨j, hj, he⟩ := List.getElem_of_mem hp
  rw [List.length_zip] at hj
  rw [List.getElem_zip] at he
  subst he
  refine ⟨batches.length, b, j, by simp, by simp, ?_⟩
  rw [List.take_left]
  simp

theorem SameRow.mono {shown shown' : O → O' → Prop} (h : ∀ o o', shown o o' → shown' o o') {raw : Row O A R I} {row : Row O' A R I} (hr : SameRow shown raw row) :
    SameRow shown' raw row :=
  ⟨hr.given, hr.act, hr.applied, hr.rew, hr.terminated, hr.truncated, hr.info, h _ _ hr.obs, h _ _ hr.obsNext⟩

theorem SameLog.mono {shown shown' : O → O' → Prop} (h : ∀ o o', shown o o' → shown' o o') {raw : List (List (Nat × Row O A R I))} {log : List (List (Nat × Row O' A R I))}
    (hr : SameLog shown raw log) : SameLog shown' raw log :=
  List.Forall₂.imp (fun _ _ hl => List.Forall₂.imp (fun _ _ hq => ⟨hq.1, hq.2.mono h⟩) hl) hr

/-- The policy which answers as if it was given `f n` in its `n`-th call. -/
def Setup.replay (c : Setup A O' I H) (f : Nat → List O') : Setup A O I H where
  policy :=
    { forward := fun n _ info hidden => c.policy.forward n (f n) info hidden
      noise := fun n acts _ => c.policy.noise n acts (f n)
      mapAction := c.policy.mapAction
      mapActionInverse := c.policy.mapActionInverse
      sample := c.policy.sample }
  envNum := c.envNum
  noise := c.noise
  hiddenKind := c.hiddenKind
  zeroHidden := c.zeroHidden
  isAsync := c.isAsync

theorem decide_replay (c : Setup A O' I H) (f : Nat → List O') (random : Bool) (calls : Nat) (ready : List Nat) (obs : List O) (info : List I) (hidden : Option (List H)) :
    decide (c.replay f : Setup A O I H) random calls ready obs info hidden = decide c random calls ready (f calls) info hidden := rfl

variable (observe θ0) in
/-- Observations with and without the wrapper. -/
def Both (batches : List (List O)) (raw : List O) (shown : List O') : Prop :=
  ∃ ps : List (O × O'), raw = ps.map Prod.fst ∧ shown = ps.map Prod.snd ∧ ∀ p ∈ ps, Shown observe θ0 batches p.1 p.2

theorem Both.mono {batches : List (List O)} {raw : List O} {shown : List O'} (h : Both observe θ0 batches raw shown) (b : List O) : Both observe θ0 (batches ++ [b]) raw shown := by
  obtain ⟨ps, h1, h2, h3⟩ := h
  exact ⟨ps, h1, h2, fun p hp => (h3 p hp).mono b⟩

theorem both_last (hlen : ∀ θ obs, (observe θ obs).2.length = obs.length) (batches : List (List O)) (b : List O) :
    Both observe θ0 (batches ++ [b]) b (observe (memory observe θ0 batches) b).2 := by
  refine ⟨b.zip (observe (memory observe θ0 batches) b).2, ?_, ?_, shown_last batches b⟩
  · rw [List.map_fst_zip (Nat.le_of_eq (by rw [hlen]))]
  · rw [List.map_snd_zip (Nat.le_of_eq (by rw [hlen]))]

theorem Both.writeAt {batches : List (List O)} {raw xs : List O} {shown xs' : List O'} (h : Both observe θ0 batches raw shown) (h' : Both observe θ0 batches xs xs')
    (ps : List Nat) : Both observe θ0 batches (Collector.writeAt raw ps xs) (Collector.writeAt shown ps xs') := by
  obtain ⟨l, rfl, rfl, h3⟩ := h
  obtain ⟨l', rfl, rfl, h3'⟩ := h'
  refine ⟨Collector.writeAt l ps l', writeAt_map _ _ _ _, writeAt_map _ _ _ _, fun p hp => ?_⟩
  rcases mem_writeAt _ _ _ _ hp with h | h
  · exact h3 p h
  · exact h3' p h

theorem Both.dropAt {batches : List (List O)} {raw : List O} {shown : List O'} (h : Both observe θ0 batches raw shown) (ps : List Nat) :
    Both observe θ0 batches (Collector.dropAt raw ps) (Collector.dropAt shown ps) := by
  obtain ⟨l, rfl, rfl, h3⟩ := h
  exact ⟨Collector.dropAt l ps, dropAt_map _ _ _, dropAt_map _ _ _, fun p hp => h3 p (mem_dropAt _ _ _ hp)⟩

theorem Both.pick {batches : List (List O)} {raw : List O} {shown : List O'} (h : Both observe θ0 batches raw shown) (ps : List Nat) :
    Both observe θ0 batches (ps.filterMap fun i => raw[i]?) (ps.filterMap fun i => shown[i]?) := by
  obtain ⟨l, rfl, rfl, h3⟩ := h
  refine ⟨ps.filterMap fun i => l[i]?, pick_map _ _ _, pick_map _ _ _, fun p hp => ?_⟩
  obtain ⟨i, -, hi⟩ := List.mem_filterMap.mp hp
  exact h3 p (List.mem_of_getElem? hi)

theorem both_nil (batches : List (List O)) : Both observe θ0 batches [] [] := ⟨[], rfl, rfl, by simp⟩

/-- What the wrapped environments return. -/
def rewrap (shown : List O') (outs : List (StepOut O R I)) : List (StepOut O' R I) :=
  List.zipWith (fun o x => ⟨o, x.rew, x.terminated, x.truncated, x.info⟩) shown outs

theorem rewrap_map {β : Type} (g : StepOut O' R I → β) (g' : StepOut O R I → β) (hg : ∀ o x, g (⟨o, x.rew, x.terminated, x.truncated, x.info⟩) = g' x) (outs : List (StepOut O R I)) :
    ∀ shown : List O', shown.length = outs.length → (rewrap shown outs).map g = outs.map g' := by
  induction outs with
  | nil => intro shown _; cases shown <;> rfl
  | cons x outs ih =>
    intro shown h
    cases shown with
    | nil => cases h
    | cons o shown =>
      have := ih shown (by simpa using h)
      unfold rewrap at this ⊢
      simp only [List.zipWith_cons_cons, List.map_cons, this, hg]

theorem rewrap_obs (outs : List (StepOut O R I)) : ∀ shown : List O', shown.length = outs.length → (rewrap shown outs).map StepOut.obs = shown := by
  induction outs with
  | nil => intro shown h; rw [List.length_eq_zero_iff.mp h]; rfl
  | cons x outs ih =>
    intro shown h
    cases shown with
    | nil => cases h
    | cons o shown =>
      have := ih shown (by simpa using h)
      unfold rewrap at this ⊢
      simp only [List.zipWith_cons_cons, List.map_cons, this]

/-- The transitions of a round. -/
theorem rows_link {batches : List (List O)} {raw : List O} {shown : List O'} (h : Both observe θ0 batches raw shown) (info : List I) (d : Collector.Decision A H)
    (outs : List (StepOut O R I)) (shown' : List O') (hl : shown'.length = outs.length) (hs : ∀ p ∈ (outs.map StepOut.obs).zip shown', Shown observe θ0 batches p.1 p.2)
    (ready : List Nat) :
    List.Forall₂ (fun p q => q.1 = p.1 ∧ SameRow (Shown observe θ0 batches) p.2 q.2) (ready.zip (rowsFor raw info d outs)) (ready.zip (rowsFor shown info d (rewrap shown' outs))) := by
  obtain ⟨ps, rfl, rfl, h3⟩ := h
  have ho : outs = (shown'.zip outs).map Prod.snd := (List.map_snd_zip (by omega)).symm
  have ho' : rewrap shown' outs = (shown'.zip outs).map fun q => ⟨q.1, q.2.rew, q.2.terminated, q.2.truncated, q.2.info⟩ := by
    unfold rewrap
    rw [List.zip, List.map_zipWith]
  have hz : ∀ q ∈ shown'.zip outs, Shown observe θ0 batches q.2.obs q.1 := by
    intro q hq
    apply hs (q.2.obs, q.1)
    obtain ⟨j, hj, he⟩ := List.getElem_of_mem hq
    rw [List.length_zip] at hj
    rw [List.getElem_zip] at he
    subst he
    refine List.mem_iff_getElem.mpr ⟨j, by simp; omega, by simp⟩
  rw [ho']
  conv in rowsFor _ info d outs => rw [ho]
  generalize shown'.zip outs = us at *
  unfold rowsFor
  simp only [List.zip_map_left, List.zip_map_right, List.map_map]
  rw [List.forall₂_map_left_iff, List.forall₂_map_right_iff, List.forall₂_same]
  rintro ⟨e, ⟨p, i⟩, ⟨a, a'⟩, u⟩ hm
  have hp : p ∈ ps := (List.of_mem_zip (List.of_mem_zip (List.of_mem_zip hm).2).1).1
  have hu : u ∈ us := (List.of_mem_zip (List.of_mem_zip (List.of_mem_zip hm).2).2).2
  exact ⟨rfl, rfl, rfl, rfl, rfl, rfl, rfl, rfl, h3 p hp, hz u hu⟩

/-- The variables of the loop with the wrapper, and without it (but recording the observations). -/
structure Link (observe : Θ → List O → Θ × List O') (θ0 : Θ) (s : Loop (W × Θ) A O' R I H) (s' : Loop (W × List (List O)) A O R I H) : Prop where
  world : s'.world.1 = s.world.1
  memory : s.world.2 = memory observe θ0 s'.world.2
  ready : s'.ready = s.ready
  info : s'.lastInfo = s.lastInfo
  hidden : s'.lastHidden = s.lastHidden
  stepCount : s'.stepCount = s.stepCount
  numEpisodes : s'.numEpisodes = s.numEpisodes
  calls : s'.calls = s.calls
  obs : Both observe θ0 s'.world.2 s'.lastObs s.lastObs
  log : SameLog (Shown observe θ0 s'.world.2) s'.log s.log

/-- Resets with and without the wrapper. -/
theorem reset_link (hlen : ∀ θ obs, (observe θ obs).2.length = obs.length) (V : VecEnv W A O R I K) (kw : K) (ids : List Nat) (w : W) (batches : List (List O)) :
    ∃ b, (V.recording.reset kw ids (w, batches)).1 = (((V.observing observe).reset kw ids (w, memory observe θ0 batches)).1.1, batches ++ [b]) ∧
      ((V.observing observe).reset kw ids (w, memory observe θ0 batches)).1.2 = memory observe θ0 (batches ++ [b]) ∧
      ((V.observing observe).reset kw ids (w, memory observe θ0 batches)).2.map Prod.snd = (V.recording.reset kw ids (w, batches)).2.map Prod.snd ∧
      Both observe θ0 (batches ++ [b]) ((V.recording.reset kw ids (w, batches)).2.map Prod.fst)
        (((V.observing observe).reset kw ids (w, memory observe θ0 batches)).2.map Prod.fst) := by
  refine ⟨(V.reset kw ids w).2.map Prod.fst, rfl, (memory_snoc _ _).symm, ?_, ?_⟩
  · simp only [VecEnv.recording, VecEnv.observing]
    rw [List.map_snd_zip, List.map_snd_zip]
    all_goals simp [hlen]
  · simp only [VecEnv.recording, VecEnv.observing]
    rw [List.map_fst_zip, List.map_fst_zip]
    · exact both_last hlen _ _
    all_goals simp [hlen]

theorem iter_link (hlen : ∀ θ obs, (observe θ obs).2.length = obs.length) (c : Setup A O' I H) (V : VecEnv W A O R I K) (f : Nat → List O') (nEpisode : Option Int)
    (random : Bool) (kw : K) {s t : Loop (W × Θ) A O' R I H} {s' : Loop (W × List (List O)) A O R I H} (hL : Link observe θ0 s s') (hf : f s.calls = s.lastObs)
    (ht : iter c (V.observing observe) nEpisode random kw s = .ok t) :
    ∃ t', iter (c.replay f) V.recording nEpisode random kw s' = .ok t' ∧ Link observe θ0 t t' := by
  obtain ⟨⟨w, θ⟩, ready, lastObs, lastInfo, lastHidden, stepCount, numEpisodes, calls, log⟩ := s
  obtain ⟨⟨w', batches⟩, ready', lastObs', lastInfo', lastHidden', stepCount', numEpisodes', calls', log'⟩ := s'
  obtain ⟨e1, e2, e3, e4, e5, e6, e7, e8, hobs, hlog⟩ := hL
  simp only at e1 e2 e3 e4 e5 e6 e7 e8 hobs hlog hf
  subst e1 e2 e3 e4 e5 e6 e7 e8
  rw [iter_eq] at ht ⊢
  simp only [decide_replay, hf] at ht ⊢
  generalize decide c random calls' ready' lastObs lastInfo' lastHidden' = d at *
  split at ht
  · cases ht
  · rename_i h1
    split at ht
    · cases ht
    · rename_i h2
      cases ht
      rw [if_neg h1, if_neg h2]
      refine ⟨_, rfl, ?_⟩
      -- the step
      have hrec : V.recording.step (ready'.zip d.actNormalized) (w', batches) =
          (((V.step (ready'.zip d.actNormalized) w').1, batches ++ [(V.step (ready'.zip d.actNormalized) w').2.map StepOut.obs]), (V.step (ready'.zip d.actNormalized) w').2) := by
        have := zipWith_own id (V.step (ready'.zip d.actNormalized) w').2
        rw [List.map_id] at this
        simp only [VecEnv.recording, VecEnv.observing, this]
        rw [show (V.step (ready'.zip d.actNormalized) w').2.map (mapOut id) = (V.step (ready'.zip d.actNormalized) w').2 from List.map_id'' (fun _ => rfl) _]
      have hobsv : (V.observing observe).step (ready'.zip d.actNormalized) (w', memory observe θ0 batches) =
          (((V.step (ready'.zip d.actNormalized) w').1, memory observe θ0 (batches ++ [(V.step (ready'.zip d.actNormalized) w').2.map StepOut.obs])),
            rewrap (observe (memory observe θ0 batches) ((V.step (ready'.zip d.actNormalized) w').2.map StepOut.obs)).2 (V.step (ready'.zip d.actNormalized) w').2) := by
        rw [memory_snoc]; rfl
      rw [hrec, hobsv]
      have hl : (observe (memory observe θ0 batches) ((V.step (ready'.zip d.actNormalized) w').2.map StepOut.obs)).2.length = (V.step (ready'.zip d.actNormalized) w').2.length := by
        rw [hlen, List.length_map]
      have hboth := both_last (θ0 := θ0) hlen batches ((V.step (ready'.zip d.actNormalized) w').2.map StepOut.obs)
      have hshown := shown_last (observe := observe) (θ0 := θ0) batches ((V.step (ready'.zip d.actNormalized) w').2.map StepOut.obs)
      generalize (observe (memory observe θ0 batches) ((V.step (ready'.zip d.actNormalized) w').2.map StepOut.obs)).2 = shown at *
      clear hrec hobsv
      generalize V.step (ready'.zip d.actNormalized) w' = pp at *
      obtain ⟨w1, outs⟩ := pp
      simp only at hl hboth hshown ⊢
      have hdone : (rewrap shown outs).map StepOut.done = outs.map StepOut.done := rewrap_map _ _ (fun _ _ => rfl) outs shown hl
      have hinfo : (rewrap shown outs).map StepOut.info = outs.map StepOut.info := rewrap_map _ _ (fun _ _ => rfl) outs shown hl
      have hob : (rewrap shown outs).map StepOut.obs = shown := rewrap_obs outs shown hl
      -- the log
      have hround := rows_link (hobs.mono (outs.map StepOut.obs)) lastInfo' d outs shown hl hshown ready'
      have hlog1 : SameLog (Shown observe θ0 (batches ++ [outs.map StepOut.obs])) (log' ++ [ready'.zip (rowsFor lastObs' lastInfo' d outs)])
          (log ++ [ready'.zip (rowsFor lastObs lastInfo' d (rewrap shown outs))]) :=
        List.rel_append (hlog.mono fun o o' h => h.mono _) (List.Forall₂.cons hround List.Forall₂.nil)
      unfold endings
      simp only [hdone]
      by_cases hd : whereTrue (outs.map StepOut.done) = []
      · simp only [if_pos hd]
        refine ⟨rfl, rfl, ?_, ?_, ?_, rfl, ?_, rfl, ?_, hlog1⟩
        · simp only [next, hdone]
        · simp only [next, hdone, hinfo]; rfl
        · simp only [next, hdone]; rfl
        · simp only [next, hdone]
        · simp only [next, hdone, hob]
          exact (hboth.writeAt (both_nil _) _).dropAt _
      · simp only [if_neg hd]
        obtain ⟨b', r1, r2, r3, r4⟩ := reset_link (θ0 := θ0) hlen V kw ((whereTrue (outs.map StepOut.done)).filterMap fun i => ready'[i]?) w1 (batches ++ [outs.map StepOut.obs])
        refine ⟨?_, ?_, ?_, ?_, ?_, rfl, ?_, rfl, ?_, ?_⟩
        · simp only [next, r1]
        · simp only [next, r1, r2]
        · simp only [next, hdone]
        · simp only [next, hdone, hinfo, r3]
        · simp only [next, hdone]; rfl
        · simp only [next, hdone]
        · simp only [next, hdone, hob, r1]
          exact ((hboth.mono b').writeAt r4 _).dropAt _
        · simp only [next, r1]
          exact hlog1.mono fun _ _ h => h.mono b'

theorem run_link (hlen : ∀ θ obs, (observe θ obs).2.length = obs.length) (c : Setup A O' I H) (V : VecEnv W A O R I K) (nStep nEpisode : Option Int)
    (random : Bool) (kw : K) (fuel : Nat) : ∀ {s t : Loop (W × Θ) A O' R I H}, run c (V.observing observe) nStep nEpisode random kw fuel s = some (.ok t) →
    s.calls ≤ t.calls ∧ ∃ g : Nat → List O', ∀ f : Nat → List O', (∀ n, s.calls ≤ n → n < t.calls → f n = g n) →
      ∀ s' : Loop (W × List (List O)) A O R I H, Link observe θ0 s s' →
        ∃ t', run (c.replay f) V.recording nStep nEpisode random kw fuel s' = some (.ok t') ∧ Link observe θ0 t t' := by
  induction fuel with
  | zero => intro s t ht; cases ht
  | succ fuel ih =>
    intro s t ht
    unfold run at ht
    cases hi : iter c (V.observing observe) nEpisode random kw s with
    | error e => rw [hi] at ht; cases ht
    | ok s1 =>
      rw [hi] at ht
      have hcalls : s1.calls = s.calls + 1 := by
        rw [iter_eq] at hi
        split at hi
        · cases hi
        · split at hi
          · cases hi
          · cases hi; rfl
      simp only at ht
      split at ht
      · rename_i hs
        cases ht
        refine ⟨by omega, fun _ => s.lastObs, fun f hf s' hL => ?_⟩
        obtain ⟨t', h1, h2⟩ := iter_link hlen c V f nEpisode random kw hL (hf _ (Nat.le_refl _) (by omega)) hi
        refine ⟨t', ?_, h2⟩
        unfold run
        rw [h1]
        simp only [h2.stepCount, h2.numEpisodes, hs, ↓reduceIte]
      · rename_i hs
        obtain ⟨h3, g, hg⟩ := ih ht
        refine ⟨by omega, fun n => if n = s.calls then s.lastObs else g n, fun f hf s' hL => ?_⟩
        have hf0 := hf s.calls (Nat.le_refl _) (by omega)
        simp only [↓reduceIte] at hf0
        obtain ⟨t', h1, h2⟩ := iter_link hlen c V f nEpisode random kw hL hf0 hi
        obtain ⟨t2, h4, h5⟩ := hg f (fun n hn hn' => by rw [hf n (by omega) hn']; exact if_neg (by omega)) t' h2
        refine ⟨t2, ?_, h5⟩
        unfold run
        rw [h1]
        simp only [h2.stepCount, h2.numEpisodes, hs, Bool.false_eq_true, ↓reduceIte]
        exact h4

/-- The collector with the wrapper, and without it. -/
structure ColLink (observe : Θ → List O → Θ × List O') (θ0 : Θ) (s : Col (W × Θ) A O' R I H) (s' : Col (W × List (List O)) A O R I H) : Prop where
  world : s'.world.1 = s.world.1
  memory : s.world.2 = memory observe θ0 s'.world.2
  obs : (s.preObs = none ∧ s'.preObs = none) ∨ ∃ l l', s.preObs = some l ∧ s'.preObs = some l' ∧ Both observe θ0 s'.world.2 l' l
  info : s'.preInfo = s.preInfo
  hidden : s'.preHidden = s.preHidden
  collectStep : s'.collectStep = s.collectStep
  collectEpisode : s'.collectEpisode = s.collectEpisode
  calls : s'.calls = s.calls
  log : SameLog (Shown observe θ0 s'.world.2) s'.log s.log

theorem ColLink.resetEnv (hlen : ∀ θ obs, (observe θ obs).2.length = obs.length) (c : Setup A O' I H) (V : VecEnv W A O R I K) (f : Nat → List O') (kw : K)
    {s : Col (W × Θ) A O' R I H} {s' : Col (W × List (List O)) A O R I H} (hL : ColLink observe θ0 s s') :
    ColLink observe θ0 (VecCollector.resetEnv c (V.observing observe) kw s) (VecCollector.resetEnv (c.replay f) V.recording kw s') := by
  obtain ⟨⟨w, θ⟩, po, pinfo, ph, cs, ce, ca, lg⟩ := s
  obtain ⟨⟨w', batches⟩, po', pinfo', ph', cs', ce', ca', lg'⟩ := s'
  obtain ⟨e1, e2, -, e4, e5, e6, e7, e8, hlog⟩ := hL
  simp only at e1 e2 e4 e5 e6 e7 e8 hlog
  subst e1 e2 e4 e5 e6 e7 e8
  obtain ⟨b', r1, r2, r3, r4⟩ := reset_link (θ0 := θ0) hlen V kw (List.range c.envNum) w' batches
  unfold VecCollector.resetEnv
  have hn : (c.replay f : Setup A O I H).envNum = c.envNum := rfl
  simp only [hn]
  refine ⟨?_, ?_, Or.inr ⟨_, _, rfl, rfl, ?_⟩, ?_, rfl, rfl, rfl, rfl, ?_⟩
  · simp only [r1]
  · simp only [r1, r2]
  · simp only [r1]; exact r4
  · simp only [r3]
  · simp only [r1]; exact hlog.mono fun _ _ h => h.mono b'

theorem ColLink.reset (hlen : ∀ θ obs, (observe θ obs).2.length = obs.length) (c : Setup A O' I H) (V : VecEnv W A O R I K) (f : Nat → List O') (buffer stats : Bool) (kw : K)
    {s : Col (W × Θ) A O' R I H} {s' : Col (W × List (List O)) A O R I H} (hL : ColLink observe θ0 s s') :
    ColLink observe θ0 (VecCollector.reset c (V.observing observe) buffer stats kw s) (VecCollector.reset (c.replay f) V.recording buffer stats kw s') := by
  have h := hL.resetEnv hlen c V f kw
  unfold VecCollector.reset
  obtain ⟨e1, e2, e3, e4, e5, e6, e7, e8, hlog⟩ := h
  cases buffer <;> cases stats
  · exact ⟨e1, e2, e3, e4, e5, e6, e7, e8, hlog⟩
  · exact ⟨e1, e2, e3, e4, e5, rfl, rfl, e8, hlog⟩
  · exact ⟨e1, e2, e3, e4, e5, e6, e7, e8, List.Forall₂.nil⟩
  · exact ⟨e1, e2, e3, e4, e5, rfl, rfl, e8, List.Forall₂.nil⟩

theorem reset_calls (c : Setup A O I H) (V : VecEnv W A O R I K) (buffer stats : Bool) (kw : K) (s : Col W A O R I H) : (reset c V buffer stats kw s).calls = s.calls := by
  unfold reset resetEnv
  cases buffer <;> cases stats <;> rfl

theorem collect_link (hlen : ∀ θ obs, (observe θ obs).2.length = obs.length) (c : Setup A O' I H) (V : VecEnv W A O R I K) (nStep nEpisode : Option Int)
    (random before : Bool) (kw : K) (fuel : Nat) {s t : Col (W × Θ) A O' R I H} {st : Stats}
    (ht : collect c (V.observing observe) nStep nEpisode random before kw fuel s = some (.ok (t, st))) :
    s.calls ≤ t.calls ∧ ∃ g : Nat → List O', ∀ f : Nat → List O', (∀ n, s.calls ≤ n → n < t.calls → f n = g n) →
      ∀ s' : Col (W × List (List O)) A O R I H, ColLink observe θ0 s s' →
        ∃ t', collect (c.replay f) V.recording nStep nEpisode random before kw fuel s' = some (.ok (t', st)) ∧ ColLink observe θ0 t t' := by
  unfold collect at ht
  split at ht
  · cases ht
  · rename_i hv
    -- after the optional reset
    have key : ∀ {s : Col (W × Θ) A O' R I H}, collectAux c (V.observing observe) nStep nEpisode random kw fuel s = some (.ok (t, st)) →
        s.calls ≤ t.calls ∧ ∃ g : Nat → List O', ∀ f : Nat → List O', (∀ n, s.calls ≤ n → n < t.calls → f n = g n) →
          ∀ s' : Col (W × List (List O)) A O R I H, ColLink observe θ0 s s' →
            ∃ t', collectAux (c.replay f) V.recording nStep nEpisode random kw fuel s' = some (.ok (t', st)) ∧ ColLink observe θ0 t t' := by
      intro s ht
      unfold collectAux at ht
      split at ht
      · cases ht
      · rename_i hasync
        obtain ⟨w, po, pinfo, ph, cs, ce, ca, lg⟩ := s
        simp only at ht
        cases hr : initialReady c nStep nEpisode with
        | none => rw [hr] at ht; cases ht
        | some ready =>
          rw [hr] at ht
          cases po with
          | none => cases ht
          | some po =>
            cases pinfo with
            | none => cases ht
            | some pinfo =>
              simp only at ht
              rcases hrun : run c (V.observing observe) nStep nEpisode random kw fuel (start ready po pinfo ⟨w, some po, some pinfo, ph, cs, ce, ca, lg⟩) with _ | (e | l)
              · rw [hrun] at ht; cases ht
              · rw [hrun] at ht; cases ht
              · rw [hrun] at ht
                obtain ⟨h1, g, hg⟩ := run_link (θ0 := θ0) hlen c V nStep nEpisode random kw fuel hrun
                simp only [Option.some.injEq, Except.ok.injEq] at ht
                have hcalls : t.calls = l.calls := by
                  unfold finish at ht
                  split at ht
                  · cases ht; rfl
                  · split at ht
                    · cases ht; rfl
                    · cases ht; rfl
                refine ⟨by rw [hcalls]; exact h1, g, fun f hf s' hL => ?_⟩
                obtain ⟨w', po', pinfo', ph', cs', ce', ca', lg'⟩ := s'
                obtain ⟨e1, e2, e3, e4, e5, e6, e7, e8, hlog⟩ := hL
                simp only at e1 e2 e3 e4 e5 e6 e7 e8 hlog
                subst e4 e5 e6 e7 e8
                rcases e3 with ⟨e3, -⟩ | ⟨po2, l', e3, rfl, hb⟩
                · cases e3
                · cases e3
                  obtain ⟨t', h2, h3⟩ := hg f (by rw [← hcalls]; exact hf) (start ready l' pinfo ⟨w', some l', some pinfo, ph', cs', ce', ca', lg'⟩)
                    ⟨e1, e2, rfl, rfl, rfl, rfl, rfl, rfl, hb.pick _, hlog⟩
                  have hi' : initialReady (c.replay f : Setup A O I H) nStep nEpisode = some ready := hr
                  have hs' : (c.replay f : Setup A O I H).isAsync = c.isAsync := rfl
                  unfold collectAux
                  rw [hs', if_neg hasync, hi']
                  simp only [h2]
                  unfold finish at ht ⊢
                  split at ht
                  · rename_i h4
                    cases ht
                    rw [if_pos h4, h3.stepCount, h3.numEpisodes]
                    exact ⟨_, rfl, h3.world, h3.memory, Or.inr ⟨_, _, rfl, rfl, h3.obs⟩, by rw [h3.info], by rw [h3.hidden], rfl, rfl, h3.calls, h3.log⟩
                  · rename_i h4
                    rw [if_neg h4]
                    split at ht
                    · rename_i h5
                      cases ht
                      rw [if_pos h5, h3.stepCount, h3.numEpisodes]
                      exact ⟨_, rfl, ColLink.resetEnv hlen c V f kw
                        (s := ⟨l.world, none, some pinfo, ph', cs' + l.stepCount, ce' + l.numEpisodes, l.calls, l.log⟩)
                        (s' := ⟨t'.world, none, some pinfo, ph', cs' + l.stepCount, ce' + l.numEpisodes, t'.calls, t'.log⟩)
                        ⟨h3.world, h3.memory, Or.inl ⟨rfl, rfl⟩, rfl, rfl, rfl, rfl, h3.calls, h3.log⟩⟩
                    · rename_i h5
                      simp [validates, h4, h5] at hv
    cases before with
    | false =>
      obtain ⟨h1, g, hg⟩ := key ht
      refine ⟨h1, g, fun f hf s' hL => ?_⟩
      unfold collect
      rw [if_neg hv]
      exact hg f hf s' hL
    | true =>
      obtain ⟨h1, g, hg⟩ := key ht
      have hc := reset_calls c (V.observing observe) false true kw s
      simp only [↓reduceIte, hc] at h1 hg
      refine ⟨h1, g, fun f hf s' hL => ?_⟩
      unfold collect
      rw [if_neg hv]
      exact hg f hf _ (hL.reset hlen c V f false true kw)

theorem use_link (hlen : ∀ θ obs, (observe θ obs).2.length = obs.length) (c : Setup A O' I H) (V : VecEnv W A O R I K) (ops : List (Op K)) :
    ∀ {s t : Col (W × Θ) A O' R I H}, use c (V.observing observe) ops s = some t →
    s.calls ≤ t.calls ∧ ∃ g : Nat → List O', ∀ f : Nat → List O', (∀ n, s.calls ≤ n → n < t.calls → f n = g n) →
      ∀ s' : Col (W × List (List O)) A O R I H, ColLink observe θ0 s s' →
        ∃ t', use (c.replay f) V.recording ops s' = some t' ∧ ColLink observe θ0 t t' := by
  induction ops with
  | nil =>
    intro s t ht
    cases ht
    exact ⟨Nat.le_refl _, fun _ => [], fun f _ s' hL => ⟨s', rfl, hL⟩⟩
  | cons op ops ih =>
    intro s t ht
    cases op with
    | reset buffer stats kw =>
      simp only [use, applyOp, Option.bind_some] at ht
      obtain ⟨h1, g, hg⟩ := ih ht
      rw [reset_calls] at h1 hg
      refine ⟨h1, g, fun f hf s' hL => ?_⟩
      simp only [use, applyOp, Option.bind_some]
      exact hg f hf _ (hL.reset hlen c V f buffer stats kw)
    | collect nStep nEpisode random before kw fuel =>
      unfold use applyOp at ht
      simp only at ht
      rcases hc : collect c (V.observing observe) nStep nEpisode random before kw fuel s with _ | (e | ⟨s1, st⟩)
      · rw [hc] at ht; cases ht
      · rw [hc] at ht; cases ht
      · rw [hc] at ht
        obtain ⟨h1, g1, hg1⟩ := collect_link (θ0 := θ0) hlen c V nStep nEpisode random before kw fuel hc
        obtain ⟨h2, g2, hg2⟩ := ih ht
        refine ⟨Nat.le_trans h1 h2, fun n => if n < s1.calls then g1 n else g2 n, fun f hf s' hL => ?_⟩
        obtain ⟨t1, a1, a2⟩ := hg1 f (fun n hn hn' => by rw [hf n hn (by omega)]; exact if_pos hn') s' hL
        obtain ⟨t2, b1, b2⟩ := hg2 f (fun n hn hn' => by rw [hf n (by omega) hn']; exact if_neg (by omega)) t1 a2
        refine ⟨t2, ?_, b2⟩
        unfold use applyOp
        simp only [a1, Option.bind_some]
        exact b1

end

end Verif.VecCollector
