import Verif.Lemmas.VecCollector

/-!
Lemmas: a collector with an arbitrary vector environment does in each run what it does with independent environments which return
what the vector environment returned in this run.
-/

namespace Verif.VecCollector

open Verif.Collector (StepOut Env Row World Policy HiddenKind Err Stats Cell whereTrue writeAt dropAt truthy surplus stops validates stepEnvs resetEnvs upd)

variable {W A O R I H K : Type}

/-- What an environment returns for a step or for a reset. -/
abbrev Event (O R I : Type) := StepOut O R I ⊕ (O × I)

/-- An environment which returns what is written in its state. -/
def scripted (x : StepOut O R I) (y : O × I) : Env (List (Event O R I)) A O R I K where
  step s _ :=
    match s with
    | .inl out :: rest => (rest, out)
    | s => (s, x)
  reset _ s :=
    match s with
    | .inr p :: rest => (rest, p)
    | s => (s, y)

theorem steps_scripted (x : StepOut O R I) (y : O × I) (acts : List (Nat × A)) : ∀ outs : List (StepOut O R I), outs.length = acts.length →
    ∃ piece : Nat → List (Event O R I), ∀ (rest : Nat → List (Event O R I)) (w : World (List (Event O R I)) O), (∀ e, w.envs e = piece e ++ rest e) →
      (stepEnvs (scripted x y : Env _ A O R I K) acts w).2 = outs ∧ ∀ e, (stepEnvs (scripted x y : Env _ A O R I K) acts w).1.envs e = rest e := by
  induction acts with
  | nil =>
    intro outs h
    rw [List.length_nil, List.length_eq_zero_iff] at h
    subst h
    exact ⟨fun _ => [], fun rest w h => ⟨rfl, fun e => by rw [← List.nil_append (rest e)]; exact h e⟩⟩
  | cons p t ih =>
    intro outs h
    cases outs with
    | nil => simp at h
    | cons o outs =>
      obtain ⟨piece, hp⟩ := ih outs (by simpa using h)
      refine ⟨fun e => if e = p.1 then .inl o :: piece e else piece e, fun rest w hw => ?_⟩
      have h0 : (scripted x y : Env _ A O R I K).step (w.envs p.1) p.2 = (piece p.1 ++ rest p.1, o) := by
        rw [hw p.1]
        simp only [↓reduceIte, List.cons_append]
        rfl
      simp only [stepEnvs, h0]
      obtain ⟨h1, h2⟩ := hp rest ⟨upd w.envs p.1 (piece p.1 ++ rest p.1), upd w.mem p.1 o.obs⟩ (by
        intro e
        unfold upd
        by_cases he : e = p.1
        · subst he; simp
        · simp only [he, ↓reduceIte]
          rw [hw e]; simp [he])
      exact ⟨by rw [h1], h2⟩

theorem resets_scripted (x : StepOut O R I) (y : O × I) (kw : K) (ids : List Nat) : ∀ outs : List (O × I), outs.length = ids.length →
    ∃ piece : Nat → List (Event O R I), ∀ (rest : Nat → List (Event O R I)) (w : World (List (Event O R I)) O), (∀ e, w.envs e = piece e ++ rest e) →
      (resetEnvs (scripted x y : Env _ A O R I K) kw ids w).2 = outs ∧ ∀ e, (resetEnvs (scripted x y : Env _ A O R I K) kw ids w).1.envs e = rest e := by
  induction ids with
  | nil =>
    intro outs h
    rw [List.length_nil, List.length_eq_zero_iff] at h
    subst h
    exact ⟨fun _ => [], fun rest w h => ⟨rfl, fun e => by rw [← List.nil_append (rest e)]; exact h e⟩⟩
  | cons p t ih =>
    intro outs h
    cases outs with
    | nil => simp at h
    | cons o outs =>
      obtain ⟨piece, hp⟩ := ih outs (by simpa using h)
      refine ⟨fun e => if e = p then .inr o :: piece e else piece e, fun rest w hw => ?_⟩
      have h0 : (scripted x y : Env _ A O R I K).reset kw (w.envs p) = (piece p ++ rest p, o) := by
        rw [hw p]
        simp only [↓reduceIte, List.cons_append]
        rfl
      simp only [resetEnvs, h0]
      obtain ⟨h1, h2⟩ := hp rest ⟨upd w.envs p (piece p ++ rest p), upd w.mem p o.1⟩ (by
        intro e
        unfold upd
        by_cases he : e = p
        · subst he; simp
        · simp only [he, ↓reduceIte]
          rw [hw e]; simp [he])
      exact ⟨by rw [h1], h2⟩

theorem collectAux_ok (c : Setup A O I H) (V : VecEnv W A O R I K) (nStep nEpisode : Option Int) (random : Bool) (kw : K) (fuel : Nat) (s : Col W A O R I H)
    (hasync : ¬ c.isAsync = true) {ready : List Nat} (hr : initialReady c nStep nEpisode = some ready) {po : List O} {pinfo : List I} (ho : s.preObs = some po)
    (hi : s.preInfo = some pinfo) {l : Loop W A O R I H} (hrun : run c V nStep nEpisode random kw fuel (start ready po pinfo s) = some (.ok l)) :
    collectAux c V nStep nEpisode random kw fuel s = some (.ok (finish c V nStep nEpisode kw s l)) := by
  unfold collectAux
  rw [if_neg hasync, hr, ho, hi]
  simp only [hrun]

section
variable {V : VecEnv W A O R I K} (hV : V.Sized) (x : StepOut O R I) (y : O × I)
include hV

/-- Independent environments that return what is written in their states. -/
local notation "V'" => (ofEnv (scripted x y) : VecEnv (World (List (Event O R I)) O) A O R I K)

theorem script_step (acts : List (Nat × A)) (v : W) : ∃ piece : Nat → List (Event O R I), ∀ (rest : Nat → List (Event O R I)) (w : World (List (Event O R I)) O),
    (∀ e, w.envs e = piece e ++ rest e) → ((V').step acts w).2 = (V.step acts v).2 ∧ ∀ e, ((V').step acts w).1.envs e = rest e :=
  steps_scripted x y acts _ (hV.1 acts v)

theorem script_reset (kw : K) (ids : List Nat) (v : W) : ∃ piece : Nat → List (Event O R I), ∀ (rest : Nat → List (Event O R I)) (w : World (List (Event O R I)) O),
    (∀ e, w.envs e = piece e ++ rest e) → ((V').reset kw ids w).2 = (V.reset kw ids v).2 ∧ ∀ e, ((V').reset kw ids w).1.envs e = rest e :=
  resets_scripted x y kw ids _ (hV.2 kw ids v)

theorem script_endings (kw : K) (ready : List Nat) (v : W) (outs : List (StepOut O R I)) : ∃ piece : Nat → List (Event O R I),
    ∀ (rest : Nat → List (Event O R I)) (w : World (List (Event O R I)) O), (∀ e, w.envs e = piece e ++ rest e) →
      (endings V' kw ready (w, outs)).2 = (endings V kw ready (v, outs)).2 ∧ ∀ e, (endings V' kw ready (w, outs)).1.envs e = rest e := by
  by_cases h : whereTrue (outs.map StepOut.done) = []
  · exact ⟨fun _ => [], fun rest w hw => by unfold endings; simp only [h, ↓reduceIte]; exact ⟨trivial, hw⟩⟩
  · obtain ⟨piece, hp⟩ := script_reset hV x y kw ((whereTrue (outs.map StepOut.done)).filterMap fun i => ready[i]?) v
    exact ⟨piece, fun rest w hw => by unfold endings; simp only [h, ↓reduceIte]; exact hp rest w hw⟩

theorem script_iter (c : Setup A O I H) (nEpisode : Option Int) (random : Bool) (kw : K) (s : Loop W A O R I H)
    {t : Loop W A O R I H} (ht : iter c V nEpisode random kw s = .ok t) :
    ∃ piece : Nat → List (Event O R I), ∀ (rest : Nat → List (Event O R I)) (w : World (List (Event O R I)) O), (∀ e, w.envs e = piece e ++ rest e) →
      ∃ w', (∀ e, w'.envs e = rest e) ∧ iter c V' nEpisode random kw (s.at w) = .ok (t.at w') := by
  rw [iter_eq] at ht
  split at ht
  · cases ht
  · rename_i h1
    split at ht
    · cases ht
    · rename_i h2
      cases ht
      obtain ⟨p1, hp1⟩ := script_step hV x y (s.ready.zip (decide c random s.calls s.ready s.lastObs s.lastInfo s.lastHidden).actNormalized) s.world
      generalize hq : V.step (s.ready.zip (decide c random s.calls s.ready s.lastObs s.lastInfo s.lastHidden).actNormalized) s.world = q at *
      obtain ⟨p2, hp2⟩ := script_endings hV x y kw s.ready q.1 q.2
      refine ⟨fun e => p1 e ++ p2 e, fun rest w hw => ?_⟩
      obtain ⟨a1, a2⟩ := hp1 (fun e => p2 e ++ rest e) w (fun e => by rw [hw e, List.append_assoc])
      obtain ⟨b1, b2⟩ := hp2 rest _ a2
      refine ⟨_, b2, ?_⟩
      rw [iter_eq]
      change (if (decide c random s.calls s.ready s.lastObs s.lastInfo s.lastHidden).actNormalized.length ≠ s.ready.length then _
        else if s.ready = [] then _ else _) = _
      rw [if_neg h1, if_neg h2]
      have b1' : (endings V kw s.ready q).2 = (endings V' kw s.ready (((V').step (s.ready.zip (decide c random s.calls s.ready s.lastObs s.lastInfo s.lastHidden).actNormalized) w).1, q.2)).2 := b1.symm
      rw [b1', ← a1]
      rfl

theorem script_run (c : Setup A O I H) (nStep nEpisode : Option Int) (random : Bool) (kw : K) (fuel : Nat) :
    ∀ (s : Loop W A O R I H) {t : Loop W A O R I H}, run c V nStep nEpisode random kw fuel s = some (.ok t) →
    ∃ piece : Nat → List (Event O R I), ∀ (rest : Nat → List (Event O R I)) (w : World (List (Event O R I)) O), (∀ e, w.envs e = piece e ++ rest e) →
      ∃ w', (∀ e, w'.envs e = rest e) ∧ run c V' nStep nEpisode random kw fuel (s.at w) = some (.ok (t.at w')) := by
  induction fuel with
  | zero => intro s t ht; cases ht
  | succ fuel ih =>
    intro s t ht
    unfold run at ht
    cases hi : iter c V nEpisode random kw s with
    | error e => rw [hi] at ht; cases ht
    | ok s1 =>
      rw [hi] at ht
      obtain ⟨p1, hp1⟩ := script_iter hV x y c nEpisode random kw s hi
      simp only at ht
      split at ht
      · rename_i hs
        cases ht
        refine ⟨p1, fun rest w hw => ?_⟩
        obtain ⟨w', h1, h2⟩ := hp1 rest w hw
        refine ⟨w', h1, ?_⟩
        unfold run
        rw [h2]
        change (if stops nStep nEpisode t.stepCount t.numEpisodes = true then _ else _) = _
        rw [if_pos hs]
      · rename_i hs
        obtain ⟨p2, hp2⟩ := ih s1 ht
        refine ⟨fun e => p1 e ++ p2 e, fun rest w hw => ?_⟩
        obtain ⟨w', h1, h2⟩ := hp1 (fun e => p2 e ++ rest e) w (fun e => by rw [hw e, List.append_assoc])
        obtain ⟨w'', h3, h4⟩ := hp2 rest w' h1
        refine ⟨w'', h3, ?_⟩
        unfold run
        rw [h2]
        change (if stops nStep nEpisode s1.stepCount s1.numEpisodes = true then _ else _) = _
        rw [if_neg hs]
        exact h4

theorem script_resetEnv (c : Setup A O I H) (kw : K) (s : Col W A O R I H) :
    ∃ piece : Nat → List (Event O R I), ∀ (rest : Nat → List (Event O R I)) (w : World (List (Event O R I)) O), (∀ e, w.envs e = piece e ++ rest e) →
      ∃ w', (∀ e, w'.envs e = rest e) ∧ resetEnv c V' kw (s.at w) = (resetEnv c V kw s).at w' := by
  obtain ⟨p, hp⟩ := script_reset hV x y kw (List.range c.envNum) s.world
  refine ⟨p, fun rest w hw => ?_⟩
  obtain ⟨h1, h2⟩ := hp rest w hw
  refine ⟨_, h2, ?_⟩
  unfold resetEnv
  simp only [Col.at, h1]

theorem script_reset' (c : Setup A O I H) (buffer stats : Bool) (kw : K) (s : Col W A O R I H) :
    ∃ piece : Nat → List (Event O R I), ∀ (rest : Nat → List (Event O R I)) (w : World (List (Event O R I)) O), (∀ e, w.envs e = piece e ++ rest e) →
      ∃ w', (∀ e, w'.envs e = rest e) ∧ reset c V' buffer stats kw (s.at w) = (reset c V buffer stats kw s).at w' := by
  obtain ⟨p, hp⟩ := script_resetEnv hV x y c kw s
  refine ⟨p, fun rest w hw => ?_⟩
  obtain ⟨w', h1, h2⟩ := hp rest w hw
  refine ⟨w', h1, ?_⟩
  unfold reset
  rw [h2]
  cases buffer <;> cases stats <;> rfl

theorem script_collect (c : Setup A O I H) (nStep nEpisode : Option Int) (random before : Bool) (kw : K) (fuel : Nat) (s : Col W A O R I H)
    {t : Col W A O R I H} {st : Stats} (ht : collect c V nStep nEpisode random before kw fuel s = some (.ok (t, st))) :
    ∃ piece : Nat → List (Event O R I), ∀ (rest : Nat → List (Event O R I)) (w : World (List (Event O R I)) O), (∀ e, w.envs e = piece e ++ rest e) →
      ∃ w', (∀ e, w'.envs e = rest e) ∧ collect c V' nStep nEpisode random before kw fuel (s.at w) = some (.ok (t.at w', st)) := by
  unfold collect at ht ⊢
  split at ht
  · cases ht
  · rename_i hv
    simp only [if_neg hv]
    obtain ⟨p1, hp1⟩ : ∃ piece : Nat → List (Event O R I), ∀ (rest : Nat → List (Event O R I)) (w : World (List (Event O R I)) O), (∀ e, w.envs e = piece e ++ rest e) →
        ∃ w', (∀ e, w'.envs e = rest e) ∧ (if before = true then reset c V' false true kw (s.at w) else s.at w) = (if before = true then reset c V false true kw s else s).at w' := by
      cases before
      · exact ⟨fun _ => [], fun rest w hw => ⟨w, hw, rfl⟩⟩
      · exact script_reset' hV x y c false true kw s
    generalize (if before = true then reset c V false true kw s else s) = s1 at *
    unfold collectAux at ht
    split at ht
    · cases ht
    · rename_i hasync
      obtain ⟨v, po, pinfo, ph, cs, ce, ca, lg⟩ := s1
      cases hr : initialReady c nStep nEpisode with
      | none => rw [hr] at ht; cases ht
      | some ready =>
        rw [hr] at ht
        cases po with
        | none => cases ht
        | some po =>
          cases pinfo with
          | none => cases ht
          | some pinfo =>
            simp only at ht
            rcases hrun : run c V nStep nEpisode random kw fuel (start ready po pinfo ⟨v, some po, some pinfo, ph, cs, ce, ca, lg⟩) with _ | (e | l)
            · rw [hrun] at ht; cases ht
            · rw [hrun] at ht; cases ht
            · rw [hrun] at ht
              obtain ⟨p2, hp2⟩ := script_run hV x y c nStep nEpisode random kw fuel _ hrun
              simp only [Option.some.injEq, Except.ok.injEq] at ht
              have key : ∀ (rest : Nat → List (Event O R I)) (w : World (List (Event O R I)) O), (∀ e, w.envs e = (p1 e ++ p2 e) ++ rest e) →
                  ∃ w', (∀ e, w'.envs e = rest e) ∧
                    collectAux c V' nStep nEpisode random kw fuel (if before = true then reset c V' false true kw (s.at w) else s.at w) =
                    some (Except.ok (finish c V' nStep nEpisode kw ((⟨v, some po, some pinfo, ph, cs, ce, ca, lg⟩ : Col W A O R I H).at w') (l.at w'))) := by
                intro rest w hw
                obtain ⟨w1, h1, he⟩ := hp1 (fun e => p2 e ++ rest e) w (fun e => by rw [hw e, List.append_assoc])
                obtain ⟨w2, h2, h3⟩ := hp2 rest w1 h1
                refine ⟨w2, h2, ?_⟩
                rw [he]
                have h3' : run c V' nStep nEpisode random kw fuel (start ready po pinfo ((⟨v, some po, some pinfo, ph, cs, ce, ca, lg⟩ : Col W A O R I H).at w1)) =
                  some (.ok (l.at w2)) := h3
                rw [collectAux_ok c V' nStep nEpisode random kw fuel _ hasync hr rfl rfl h3']
                rfl
              unfold finish at ht
              split at ht
              · rename_i h3
                cases ht
                refine ⟨fun e => p1 e ++ p2 e, fun rest w hw => ?_⟩
                obtain ⟨w', h4, h5⟩ := key rest w hw
                refine ⟨w', h4, h5.trans ?_⟩
                unfold finish
                rw [if_pos h3]
                rfl
              · rename_i h3
                split at ht
                · rename_i h4
                  cases ht
                  obtain ⟨p3, hp3⟩ := script_resetEnv hV x y c kw (⟨l.world, some po, some pinfo, ph, cs + l.stepCount, ce + l.numEpisodes, l.calls, l.log⟩ : Col W A O R I H)
                  refine ⟨fun e => (p1 e ++ p2 e) ++ p3 e, fun rest w hw => ?_⟩
                  obtain ⟨w', h5, h6⟩ := key (fun e => p3 e ++ rest e) w (fun e => by rw [hw e]; simp)
                  obtain ⟨w'', h7, h8⟩ := hp3 rest w' h5
                  refine ⟨w'', h7, h6.trans ?_⟩
                  unfold finish
                  rw [if_neg h3, if_pos h4]
                  simp only [Option.some.injEq, Except.ok.injEq, Prod.mk.injEq]
                  exact ⟨h8, rfl⟩
                · rename_i h4
                  cases ht
                  refine ⟨fun e => p1 e ++ p2 e, fun rest w hw => ?_⟩
                  obtain ⟨w', h5, h6⟩ := key rest w hw
                  refine ⟨w', h5, h6.trans ?_⟩
                  unfold finish
                  rw [if_neg h3, if_neg h4]
                  rfl

theorem script_use (c : Setup A O I H) (ops : List (Op K)) : ∀ (s : Col W A O R I H) {t : Col W A O R I H}, use c V ops s = some t →
    ∃ piece : Nat → List (Event O R I), ∀ (rest : Nat → List (Event O R I)) (w : World (List (Event O R I)) O), (∀ e, w.envs e = piece e ++ rest e) →
      ∃ w', (∀ e, w'.envs e = rest e) ∧ use c V' ops (s.at w) = some (t.at w') := by
  induction ops with
  | nil => intro s t ht; cases ht; exact ⟨fun _ => [], fun rest w hw => ⟨w, hw, rfl⟩⟩
  | cons op ops ih =>
    intro s t ht
    cases op with
    | reset buffer stats kw =>
      obtain ⟨p1, hp1⟩ := script_reset' hV x y c buffer stats kw s
      simp only [use, applyOp, Option.bind_some] at ht ⊢
      obtain ⟨p2, hp2⟩ := ih _ ht
      refine ⟨fun e => p1 e ++ p2 e, fun rest w hw => ?_⟩
      obtain ⟨w', h1, h2⟩ := hp1 (fun e => p2 e ++ rest e) w (fun e => by rw [hw e, List.append_assoc])
      rw [h2]
      exact hp2 rest w' h1
    | collect nStep nEpisode random before kw fuel =>
      unfold use applyOp at ht ⊢
      simp only at ht ⊢
      rcases hc : collect c V nStep nEpisode random before kw fuel s with _ | (e | ⟨s1, st⟩)
      · rw [hc] at ht; cases ht
      · rw [hc] at ht; cases ht
      · rw [hc] at ht
        obtain ⟨p1, hp1⟩ := script_collect hV x y c nStep nEpisode random before kw fuel s hc
        obtain ⟨p2, hp2⟩ := ih s1 ht
        refine ⟨fun e => p1 e ++ p2 e, fun rest w hw => ?_⟩
        obtain ⟨w', h1, h2⟩ := hp1 (fun e => p2 e ++ rest e) w (fun e => by rw [hw e, List.append_assoc])
        rw [h2]
        exact hp2 rest w' h1

end

end Verif.VecCollector
