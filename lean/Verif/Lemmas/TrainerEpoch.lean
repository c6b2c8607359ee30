import Verif.Lemmas.Trainer

/-!
Lemmas about one epoch of a trainer.
-/

namespace Verif.Trainer

set_option linter.unusedSectionVars false

variable {ω V F P : Type}

/-- The fields that a training step leaves alone. -/
structure Kept (t t' : T ω V F P) : Prop where
  bestEpoch : t'.bestEpoch = t.bestEpoch
  startEpoch : t'.startEpoch = t.startEpoch
  testInTrain : t'.testInTrain = t.testInTrain
  epoch : t'.epoch = t.epoch
  iterNum : t'.iterNum = t.iterNum
  within : t'.within = t.within

/-- The best results are the same. -/
structure SameBest (t t' : T ω V F P) : Prop where
  score : t'.bestScore = t.bestScore
  reward : t'.bestReward = t.bestReward
  std : t'.bestStd = t.bestStd

theorem Block.kept {c : Cfg ω V F P} {t t' : T ω V F P} {o : Option (CStats V)} {stop : Bool} {evs : List (Ev V F P)}
    (h : Block c t o stop evs t') : Kept t t' ∧ t'.stopFlag = t.stopFlag ∧ t'.log = t.log ++ evs := by
  cases h <;> exact ⟨⟨rfl, rfl, rfl, rfl, rfl, rfl⟩, rfl, rfl⟩

theorem Block.best {c : Cfg ω V F P} {t t' : T ω V F P} {o : Option (CStats V)} {evs : List (Ev V F P)}
    (h : Block c t o false evs t') : SameBest t t' := by
  cases h <;> exact ⟨rfl, rfl, rfl⟩

theorem Upd.pos {c : Cfg ω V F P} {n k : Nat} {g : Int} (h : Upd c n k g) : 0 < k := by
  unfold Upd at h
  cases hk : c.kind <;> rw [hk] at h <;> simp only at h <;> omega

theorem Kept.trans {a b c : T ω V F P} (h : Kept a b) (h' : Kept b c) : Kept a c :=
  ⟨h'.bestEpoch.trans h.bestEpoch, h'.startEpoch.trans h.startEpoch, h'.testInTrain.trans h.testInTrain,
    h'.epoch.trans h.epoch, h'.iterNum.trans h.iterNum, h'.within.trans h.within⟩

theorem Rounds.kept {c : Cfg ω V F P} {n : Int} {t t' : T ω V F P} {os : List (Option (CStats V))}
    {evss : List (List (Ev V F P))} (h : Rounds c n t os evss t') : Kept t t' ∧ t'.log = t.log ++ evss.flatten := by
  induction h with
  | done n t h => exact ⟨⟨rfl, rfl, rfl, rfl, rfl, rfl⟩, by simp⟩
  | stop n t t' o evs h hb =>
    obtain ⟨h1, _, h3⟩ := hb.kept
    exact ⟨⟨h1.1, h1.2, h1.3, h1.4, h1.5, h1.6⟩, by simp [h3]⟩
  | more n t t' t'' o os evs evss h hb hr ih =>
    obtain ⟨h1, _, h3⟩ := hb.kept
    obtain ⟨h4, h5⟩ := ih
    have h1' : Kept t { t' with stopFlag := false } := ⟨h1.1, h1.2, h1.3, h1.4, h1.5, h1.6⟩
    refine ⟨h1'.trans h4, ?_⟩
    rw [h5]
    simp [h3]

theorem Rounds.best {c : Cfg ω V F P} {n : Int} {t t' : T ω V F P} {os : List (Option (CStats V))}
    {evss : List (List (Ev V F P))} (h : Rounds c n t os evss t') (hflag : t'.stopFlag = false) : SameBest t t' := by
  induction h with
  | done n t h => exact ⟨rfl, rfl, rfl⟩
  | stop n t t' o evs h hb => simp at hflag
  | more n t t' t'' o os evs evss h hb hr ih =>
    have h1 := hb.best
    have h2 := ih hflag
    exact ⟨h2.1.trans h1.1, h2.2.trans h1.2, h2.3.trans h1.3⟩

/-! ### Early stops in a trace -/

/-- A collection that was accepted, right before an accepted test. -/
def HeadStop (stop : Option (F → Bool)) (mean : V → F) : List (Ev V F P) → Prop
  | .collect _ _ _ s :: .test _ _ _ _ _ r _ _ :: _ =>
    0 < s.episodes ∧ Accepts stop (mean s.returns) ∧ Accepts stop (mean r.returns)
  | _ => False

theorem stoppedEarly_nil (stop : Option (F → Bool)) (mean : V → F) :
    ¬ StoppedEarly stop mean ([] : List (Ev V F P)) := by
  rintro ⟨pre, post, b, e, n, s, why, b', e', n', raw, r, score, p, h, _⟩
  have := congrArg List.length h
  simp at this

theorem stoppedEarly_cons (stop : Option (F → Bool)) (mean : V → F) (x : Ev V F P) (l : List (Ev V F P)) :
    StoppedEarly stop mean (x :: l) ↔ HeadStop stop mean (x :: l) ∨ StoppedEarly stop mean l := by
  constructor
  · rintro ⟨pre, post, b, e, n, s, why, b', e', n', raw, r, score, p, h, hacc⟩
    cases pre with
    | nil =>
      left
      simp only [List.nil_append] at h
      rw [h]
      exact hacc
    | cons z pre =>
      right
      simp only [List.cons_append, List.cons.injEq] at h
      exact ⟨pre, post, b, e, n, s, why, b', e', n', raw, r, score, p, h.2, hacc⟩
  · rintro (h | ⟨pre, post, b, e, n, s, why, b', e', n', raw, r, score, p, h, hacc⟩)
    · unfold HeadStop at h
      split at h
      · next b e n s why b' e' n' raw r score p post heq =>
        rw [heq]
        exact ⟨[], post, b, e, n, s, why, b', e', n', raw, r, score, p, rfl, h⟩
      · exact h.elim
    · exact ⟨x :: pre, post, b, e, n, s, why, b', e', n', raw, r, score, p, by rw [h]; rfl, hacc⟩

theorem stoppedEarly_updates (stop : Option (F → Bool)) (mean : V → F) (k : Nat) (b : Bool) (l : List (Ev V F P)) :
    StoppedEarly stop mean (List.replicate k (.update b) ++ l) ↔ StoppedEarly stop mean l := by
  induction k with
  | zero => simp
  | succ k ih =>
    rw [List.replicate_succ, List.cons_append, stoppedEarly_cons, ih]
    simp [HeadStop]

theorem stoppedEarly_block {c : Cfg ω V F P} {t t' : T ω V F P} {o : Option (CStats V)} {evs : List (Ev V F P)}
    (h : Block c t o false evs t') (l : List (Ev V F P)) :
    StoppedEarly c.stopFn c.out.mean (evs ++ l) ↔ StoppedEarly c.stopFn c.out.mean l := by
  cases h with
  | offline w k g ht hu => exact stoppedEarly_updates _ _ _ _ _
  | plain w s k g ht hu hno =>
    obtain ⟨k, rfl⟩ : ∃ k', k = k' + 1 := ⟨k - 1, by have := hu.pos; omega⟩
    rw [List.cons_append, stoppedEarly_cons, stoppedEarly_updates]
    simp [HeadStop, List.replicate_succ]
  | tested w s r p k g ht hu hyes hno =>
    rw [List.cons_append, List.cons_append, stoppedEarly_cons, stoppedEarly_cons, stoppedEarly_updates]
    simp only [HeadStop, false_or, or_iff_right_iff_imp]
    intro hh
    exact (hno hh.2.2).elim

theorem stoppedEarly_stop {c : Cfg ω V F P} {t t' : T ω V F P} {o : Option (CStats V)} {evs : List (Ev V F P)}
    (h : Block c t o true evs t') (l : List (Ev V F P)) : StoppedEarly c.stopFn c.out.mean (evs ++ l) := by
  cases h with
  | stopped w s r p ht hyes hyes' =>
    rw [List.cons_append, stoppedEarly_cons]
    exact Or.inl ⟨hyes.1, hyes.2.2, hyes'⟩

theorem stoppedEarly_rounds {c : Cfg ω V F P} {n : Int} {t t' : T ω V F P} {os : List (Option (CStats V))}
    {evss : List (List (Ev V F P))} (h : Rounds c n t os evss t') (hflag : t.stopFlag = false) (tail : List (Ev V F P))
    (htail : ¬ StoppedEarly c.stopFn c.out.mean tail) :
    StoppedEarly c.stopFn c.out.mean (evss.flatten ++ tail) ↔ t'.stopFlag = true := by
  induction h with
  | done n t h =>
    rw [hflag]
    simpa using htail
  | stop n t t' o evs h hb =>
    simp only [List.flatten_cons, List.flatten_nil, List.append_nil, iff_true]
    exact stoppedEarly_stop hb _
  | more n t t' t'' o os evs evss h hb hr ih =>
    rw [List.flatten_cons, List.append_assoc, stoppedEarly_block hb]
    exact ih rfl

/-! ### The end of an epoch -/

variable [LT F] [DecidableRel (α := F) (· < ·)]

/-- What happens after the loop of an epoch if nothing is raised. -/
inductive Finish (c : Cfg ω V F P) (t : T ω V F P) : Option (CStats V) → List (Ev V F P) → T ω V F P → Prop
  | stopped (h : t.stopFlag = true) : Finish c t none [] t
  | untested (h : t.stopFlag = false) (ht : c.hasTest = false) :
    Finish c t none [.checkpoint t.epoch t.envStep t.gradientStep]
      { t with log := t.log ++ [.checkpoint t.epoch t.envStep t.gradientStep] }
  | better (w : ω) (raw s : CStats V) (h : t.stopFlag = false) (ht : c.hasTest = true) (hs : s = c.metric raw)
      (hlt : t.bestScore < c.score s) :
    Finish c t (some s) (.checkpoint t.epoch t.envStep t.gradientStep ::
        .test .epochEnd t.within t.epoch t.envStep raw s (c.score s) (c.out.policy w) ::
        (if c.saveBest then [.saveBest (c.out.policy w)] else []))
      { t with
        world := w
        bestScore := c.score s
        bestEpoch := t.epoch
        bestReward := c.out.mean s.returns
        bestStd := c.out.std s.returns
        stopFlag := c.accepts (c.out.mean s.returns)
        log := t.log ++ .checkpoint t.epoch t.envStep t.gradientStep ::
          .test .epochEnd t.within t.epoch t.envStep raw s (c.score s) (c.out.policy w) ::
          (if c.saveBest then [.saveBest (c.out.policy w)] else []) }
  | notBetter (w : ω) (raw s : CStats V) (h : t.stopFlag = false) (ht : c.hasTest = true) (hs : s = c.metric raw)
      (hlt : ¬ t.bestScore < c.score s) :
    Finish c t (some s) [.checkpoint t.epoch t.envStep t.gradientStep,
        .test .epochEnd t.within t.epoch t.envStep raw s (c.score s) (c.out.policy w)]
      { t with
        world := w
        stopFlag := c.accepts t.bestReward
        log := t.log ++ [.checkpoint t.epoch t.envStep t.gradientStep,
          .test .epochEnd t.within t.epoch t.envStep raw s (c.score s) (c.out.policy w)] }

theorem evaluate_ok (c : Cfg ω V F P) (t t' : T ω V F P) (o : Option (CStats V)) (h : evaluate c t = (t', .ok o)) :
    ∃ tail, Finish c t o tail t' := by
  unfold evaluate at h
  cases hf : t.stopFlag with
  | true =>
    rw [if_pos hf] at h
    cases h
    exact ⟨_, Finish.stopped hf⟩
  | false =>
    rw [if_neg (by simp [hf])] at h
    simp only at h
    cases ht : c.hasTest with
    | false =>
      rw [ht] at h
      simp only [Bool.false_eq_true, if_false, Prod.mk.injEq, Except.ok.injEq] at h
      obtain ⟨h1, h2⟩ := h
      rw [← h1, ← h2]
      exact ⟨_, Finish.untested hf ht⟩
    | true =>
      rw [ht] at h
      simp only [if_true] at h
      unfold testStep at h
      by_cases he : c.episodePerTest.isNone = true
      · rw [if_pos he] at h
        simp at h
      · rw [if_neg he] at h
        simp only at h
        cases hte : testEpisode c .epochEnd t.epoch true
          { t with log := t.log ++ [.checkpoint t.epoch t.envStep t.gradientStep] } with
        | mk t1 r =>
          rw [hte] at h
          cases r with
          | error e => simp at h
          | ok s =>
            simp only [Prod.mk.injEq, Except.ok.injEq] at h
            obtain ⟨h1, h2⟩ := h
            obtain ⟨w, raw, hs, hw⟩ := testEpisode_ok c _ _ _ _ _ _ hte
            simp only [if_true] at hs
            unfold updateBest at h1
            rw [← h2]
            by_cases hlt : t.bestScore < c.score s
            · rw [if_pos (by rw [hw]; exact hlt)] at h1
              have hfin : t' = { t with
                  world := w
                  bestScore := c.score s
                  bestEpoch := t.epoch
                  bestReward := c.out.mean s.returns
                  bestStd := c.out.std s.returns
                  stopFlag := c.accepts (c.out.mean s.returns)
                  log := t.log ++ .checkpoint t.epoch t.envStep t.gradientStep ::
                    .test .epochEnd t.within t.epoch t.envStep raw s (c.score s) (c.out.policy w) ::
                    (if c.saveBest then [.saveBest (c.out.policy w)] else []) } := by
                rw [← h1, hw]
                unfold callSaveBest
                by_cases hsb : c.saveBest = true
                · simp [hsb]
                · simp [hsb]
              rw [hfin]
              exact ⟨_, Finish.better w raw s hf ht hs hlt⟩
            · rw [if_neg (by rw [hw]; exact hlt)] at h1
              have hfin : t' = { t with
                  world := w
                  stopFlag := c.accepts t.bestReward
                  log := t.log ++ [.checkpoint t.epoch t.envStep t.gradientStep,
                    .test .epochEnd t.within t.epoch t.envStep raw s (c.score s) (c.out.policy w)] } := by
                rw [← h1, hw]
                simp
              rw [hfin]
              exact ⟨_, Finish.notBetter w raw s hf ht hs hlt⟩

/-- One epoch: its rounds and its end. -/
structure Epoch (c : Cfg ω V F P) (t : T ω V F P) (y : EpochStats V F P) (t' : T ω V F P)
    (os : List (Option (CStats V))) (evss : List (List (Ev V F P))) (mid : T ω V F P) (tail : List (Ev V F P)) : Prop where
  flag : t.stopFlag = false
  allowed : t.iterNum = 0 ∨ (t.epoch : Int) + 1 ≤ c.maxEpoch
  some_round : os ≠ []
  rounds : Rounds c 0 { t with epoch := t.epoch + 1, iterNum := t.iterNum + 1 } os evss mid
  finish : Finish c (if c.hasTrain then mid else offlineStep c mid) y.testStat tail t'
  epoch : y.epoch = t.epoch + 1
  gradientStep : y.gradientStep = t'.gradientStep
  bestScore : y.bestScore = t'.bestScore
  bestReward : y.bestReward = t'.bestReward
  bestStd : y.bestStd = t'.bestStd
  trace : y.trace = evss.flatten ++ tail
  log : t'.log = t.log ++ y.trace

theorem Finish.kept {c : Cfg ω V F P} {t t' : T ω V F P} {o : Option (CStats V)} {tail : List (Ev V F P)}
    (h : Finish c t o tail t') : t'.log = t.log ++ tail ∧ t'.startEpoch = t.startEpoch ∧ t'.testInTrain = t.testInTrain ∧
      t'.epoch = t.epoch ∧ t'.iterNum = t.iterNum ∧ t'.within = t.within ∧ t'.envStep = t.envStep ∧
      t'.envEpisode = t.envEpisode ∧ t'.gradientStep = t.gradientStep := by
  cases h <;> exact ⟨by simp, rfl, rfl, rfl, rfl, rfl, rfl, rfl, rfl⟩

theorem next_ok (c : Cfg ω V F P) (fuel : Nat) (t t' : T ω V F P) (y : EpochStats V F P)
    (h : next c fuel t = some (t', .ok (some y))) : ∃ os evss mid tail, Epoch c t y t' os evss mid tail := by
  unfold next at h
  simp only at h
  by_cases h1 : 1 < t.iterNum + 1 ∧ (c.maxEpoch < ((t.epoch + 1 : Nat) : Int) ∨ t.stopFlag = true)
  · rw [if_pos h1] at h
    simp at h
  · rw [if_neg h1] at h
    cases hl : trainLoop c fuel 0 false { t with epoch := t.epoch + 1, iterNum := t.iterNum + 1 } with
    | none => rw [hl] at h; simp at h
    | some res =>
      obtain ⟨mid, r⟩ := res
      rw [hl] at h
      cases r with
      | error e => simp at h
      | ok ran =>
        simp only at h
        cases hfe : finishEpoch c t.log.length ran mid with
        | mk t2 r2 =>
          rw [hfe] at h
          cases r2 with
          | error e => simp at h
          | ok y2 =>
            simp only [Option.some.injEq, Prod.mk.injEq, Except.ok.injEq] at h
            obtain ⟨rfl, rfl⟩ := h
            unfold finishEpoch at hfe
            by_cases hb : (!c.hasTrain && !c.hasBuffer) = true
            · rw [if_pos hb] at hfe; simp at hfe
            · rw [if_neg hb] at hfe
              cases hev : evaluate c (if c.hasTrain = true then mid else offlineStep c mid) with
              | mk t3 r3 =>
                rw [hev] at hfe
                cases r3 with
                | error e => simp at hfe
                | ok o =>
                  simp only at hfe
                  cases ran with
                  | false => simp at hfe
                  | true =>
                    simp only [if_true, Prod.mk.injEq, Except.ok.injEq] at hfe
                    obtain ⟨rfl, rfl⟩ := hfe
                    have hflag : t.stopFlag = false := by
                      cases hsf : t.stopFlag with
                      | false => rfl
                      | true =>
                        cases fuel with
                        | zero => simp [trainLoop] at hl
                        | succ fuel =>
                          rw [trainLoop, if_neg (by simp [hsf])] at hl
                          simp at hl
                    obtain ⟨os, evss, hr, hran⟩ := trainLoop_ok c fuel 0 false true _ _ (by exact hflag) hl
                    obtain ⟨tail, hfin⟩ := evaluate_ok c _ _ _ hev
                    obtain ⟨hk, hlog⟩ := hr.kept
                    obtain ⟨f1, _, _, f4, _⟩ := hfin.kept
                    have hlog' : t3.log = t.log ++ (evss.flatten ++ tail) := by
                      rw [f1]
                      have : (if c.hasTrain = true then mid else offlineStep c mid).log = mid.log := by
                        split_ifs <;> rfl
                      rw [this, hlog, List.append_assoc]
                    have hep : t3.epoch = t.epoch + 1 := by
                      rw [f4]
                      have : (if c.hasTrain = true then mid else offlineStep c mid).epoch = mid.epoch := by
                        split_ifs <;> rfl
                      rw [this, hk.epoch]
                    refine ⟨os, evss, mid, tail, ⟨hflag, ?_, ?_, hr, hfin, hep, rfl, rfl, rfl, rfl, ?_, ?_⟩⟩
                    · push Not at h1
                      by_cases hi : t.iterNum = 0
                      · exact Or.inl hi
                      · have := (h1 (by omega)).1
                        right
                        push_cast at this
                        exact this
                    · rintro rfl
                      simp at hran
                    · simp [hlog']
                    · simp [hlog']

end Verif.Trainer
