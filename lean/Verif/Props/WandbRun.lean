import Verif.Props.Logger

/-! C252: runs logged to W&B. -/

namespace Verif.Logger

variable {V : Type} [IntCast V]

/-! ### Lemmas -/

/-- What a `WandbLogger` and a `TensorboardLogger` have in common while they receive the same calls. -/
structure Alike (fn : Int → Int → Int → Str) (old : List Artifact) (l : WandbRun V) (t : Tb V) : Prop where
  base : l.base = t.base
  last : l.lastSave = t.lastSave
  iv : l.args.saveInterval = t.saveInterval
  saved : l.saved = t.saved
  store : l.store = old ++ l.saved.map fun c => ⟨c.1, c.2.1, c.2.2, fn c.1 c.2.1 c.2.2⟩
  inner : l.inner.isSome

theorem alike_calls (fn : Int → Int → Int → Str) (old : List Artifact) (cs : List (Call V)) (l : WandbRun V) (t : Tb V)
    (h : Alike fn old l t) : ∃ l' t', l.calls fn cs = some l' ∧ t.calls cs = some t' ∧ Alike fn old l' t' := by
  induction cs generalizing l t with
  | nil => exact ⟨l, t, rfl, rfl, h⟩
  | cons c cs ih =>
    have step : ∃ l' t', l.call fn c = some l' ∧ t.call c = some t' ∧ Alike fn old l' t' := by
      cases c with
      | log s d x =>
        obtain ⟨t', es, e1, _, _, e2, e3, e4, _, e5⟩ := t.log_eq s d x
        by_cases hd : x - l.base.last s ≥ l.base.interval s
        · obtain ⟨i, hi⟩ := Option.isSome_iff_exists.mp h.inner
          have hw : (i.write (stepType s) x (prepare d)).isSome := by
            unfold Tb.write write
            rw [Option.isSome_map]
            cases s <;> rfl
          obtain ⟨i', hi'⟩ := Option.isSome_iff_exists.mp hw
          refine ⟨{ l with inner := some i', base := l.base.log prepare s d x }, t', ?_, e1, ?_⟩
          · show l.log s d x = _
            unfold WandbRun.log
            rw [if_pos hd, hi]
            show (i.write _ _ _).map _ = _
            rw [hi']; rfl
          · exact ⟨by rw [e5, ← h.base], by rw [e3]; exact h.last, by rw [e4]; exact h.iv, by rw [e2]; exact h.saved, h.store, rfl⟩
        · refine ⟨l, t', ?_, e1, ?_⟩
          · show l.log s d x = _
            unfold WandbRun.log; rw [if_neg hd]
          · refine ⟨?_, by rw [e3]; exact h.last, by rw [e4]; exact h.iv, by rw [e2]; exact h.saved, h.store, h.inner⟩
            rw [e5, h.base]
            unfold Base.log
            rw [if_neg (by rw [← h.base]; exact hd)]
      | save e s g b =>
        obtain ⟨t', e1, e2, e3, _, e5⟩ := t.save_eq e s g b
        refine ⟨_, t', rfl, e1, ?_⟩
        cases b with
        | false =>
          rw [if_neg (by simp)] at e5
          subst e5
          exact h
        | true =>
          show Alike fn old (l.save e s g (some fn)) t'
          unfold WandbRun.save
          simp only
          by_cases hd : e - l.lastSave ≥ l.args.saveInterval
          · rw [if_pos ⟨rfl, by rw [← h.last, ← h.iv]; exact hd⟩] at e5
            rw [if_pos hd]
            refine ⟨by rw [e2]; exact h.base, e5.2.1.symm, by rw [e3]; exact h.iv, ?_, ?_, h.inner⟩
            · rw [e5.1, ← h.saved]
            · simp [h.store]
          · rw [if_neg (by rw [← h.last, ← h.iv]; exact fun hc => hd hc.2)] at e5
            rw [if_neg hd]
            subst e5
            exact h
    obtain ⟨l1, t1, h1, h2, h3⟩ := step
    obtain ⟨l', t', h4, h5, h6⟩ := ih l1 t1 h3
    exact ⟨l', t', by rw [WandbRun.calls, h1]; exact h4, by rw [Tb.calls, h2]; exact h5, h6⟩

/-! ### C252 -/

/-- C252: once a writer is loaded, the calls of a trainer never fail, what is logged and which checkpoints are saved is the same as with a
`TensorboardLogger` with the same intervals, and each checkpoint is in the store, with its path. -/
theorem C252_logs (w : Wandb) (store : List Artifact) (file file' : List (Event V)) (fn : Int → Int → Int → Str) (wf : Bool)
    (cs : List (Call V)) :
    ∃ l t, ((WandbRun.new w store).loadWriter file).calls fn cs = some l ∧
      (Tb.new w.interval w.saveInterval wf file').calls cs = some t ∧ l.base.written = t.base.written ∧ l.saved = t.saved ∧
      l.store = store ++ l.saved.map fun c => ⟨c.1, c.2.1, c.2.2, fn c.1 c.2.1 c.2.2⟩ := by
  obtain ⟨l, t, h1, h2, h3⟩ := alike_calls fn store cs ((WandbRun.new w store).loadWriter file)
    (Tb.new w.interval w.saveInterval wf file') ⟨rfl, rfl, rfl, rfl, by simp [WandbRun.loadWriter, WandbRun.new], rfl⟩
  exact ⟨l, t, h1, h2, by rw [h3.base], h3.saved, h3.store⟩

/-- C252, resuming: a new logger on a run in which a checkpoint has been saved restores the numbers and the path of the last one, and the
intervals continue as with a `TensorboardLogger` on the event files of such a run. Missing for the full claim: runs without a checkpoint,
see `C252_violated`. -/
theorem C252_resume_partial (w w' : Wandb) (file : List (Event V)) (fn : Int → Int → Int → Str) (wf : Bool)
    (cs : List (Call V)) :
    ∃ l t, ((WandbRun.new w []).loadWriter file).calls fn cs = some l ∧ (Tb.new w.interval w.saveInterval wf []).calls cs = some t ∧
      ∀ c, l.saved.getLast? = some c →
        ∃ r, (WandbRun.new (V := V) w' l.store).restore = some (r, c, fn c.1 c.2.1 c.2.2) ∧
          (Tb.new w'.interval w'.saveInterval wf t.file).restore.2 = c ∧
          r.lastSave = (Tb.new w'.interval w'.saveInterval wf t.file).restore.1.lastSave ∧
          ∀ s, r.base.last s = (Tb.new w'.interval w'.saveInterval wf t.file).restore.1.base.last s := by
  obtain ⟨l, t, h1, h2, -, h4, h5⟩ := C252_logs w [] file [] fn wf cs
  refine ⟨l, t, h1, h2, fun c hc => ?_⟩
  have hs : HasSave t.file c := Tb.calls_hasSave cs _ t h2 (by intro t ht; simp [Tb.new] at ht) c (by rw [← h4]; exact hc)
  have hr : ∃ r, (WandbRun.new (V := V) w' l.store).restore = some (r, c, fn c.1 c.2.1 c.2.2) ∧ r.lastSave = c.1 ∧
      r.base.last .train = c.2.1 ∧ r.base.last .update = c.2.2 ∧ r.base.last .test = c.1 ∧ r.base.last .info = -1 := by
    unfold WandbRun.restore
    rw [show (WandbRun.new (V := V) w' l.store).store = l.store from rfl, h5, List.nil_append, List.getLast?_map, hc]
    exact ⟨_, rfl, rfl, rfl, rfl, rfl, rfl⟩
  obtain ⟨r, hr, g1, g2, g3, g4, g5⟩ := hr
  refine ⟨r, hr, ?_, ?_⟩
  · rw [Tb.restore_eq]
    rw [show (Tb.new w'.interval w'.saveInterval wf t.file).file = t.file from rfl, hs.1, hs.2.1, hs.2.2]
    rfl
  · unfold Tb.restore Tb.restoreEpoch
    rw [show (Tb.new w'.interval w'.saveInterval wf t.file).file = t.file from rfl, hs.1, hs.2.1]
    refine ⟨by simp [hs.2.2, g1], fun s => ?_⟩
    cases s <;> simp [hs.2.2, g2, g3, g4, g5] <;> rfl

/-- The full claim: a new logger resumes every run, from the last checkpoint or from the start. -/
def C252 : Prop :=
  ∀ (w : Wandb) (file : List (Event Int)) (fn : Int → Int → Int → Str) (cs : List (Call Int)) (l : WandbRun Int),
    ((WandbRun.new w []).loadWriter file).calls fn cs = some l →
    (WandbRun.new (V := Int) w l.store).restore.map (·.2.1) = some (l.saved.getLast?.getD (0, 0, 0))

/-- C252 fails for every run that ends before its first checkpoint: `restore_data` raises, where a `TensorboardLogger` starts from zero. -/
theorem C252_violated (w : Wandb) (file : List (Event V)) (fn : Int → Int → Int → Str) (cs : List (Call V)) (l : WandbRun V)
    (h : ((WandbRun.new w []).loadWriter file).calls fn cs = some l) (hs : l.saved = []) :
    (WandbRun.new (V := V) w l.store).restore = none ∧ (Tb.new w.interval w.saveInterval true ([] : List (Event V))).restore.2 = (0, 0, 0) ∧
    ¬ C252 := by
  obtain ⟨l', _, h1, -, -, -, h5⟩ := C252_logs w [] file [] fn true cs
  rw [h] at h1
  injection h1 with h1
  subst h1
  refine ⟨?_, C129_empty _ _ _, fun hc => ?_⟩
  · unfold WandbRun.restore
    rw [show (WandbRun.new (V := V) w l.store).store = l.store from rfl, h5, hs]
    rfl
  · have := hc w [] fn [] _ rfl
    cases this

/-- C252: without a writer the first entry that is due raises, and nothing is lost before. -/
theorem C252_unloaded (w : Wandb) (store : List Artifact) (s : Scope) (d : Dict V) (x : Int) :
    (WandbRun.new (V := V) w store).log s d x = none ↔ w.interval s ≤ x + 1 := by
  unfold WandbRun.log
  show (if x - -1 ≥ w.interval s then (none : Option (Tb V)).bind _ else some _) = none ↔ _
  by_cases h : x - -1 ≥ w.interval s
  · rw [if_pos h]; exact ⟨fun _ => by omega, fun _ => rfl⟩
  · rw [if_neg h]; exact ⟨(fun hc => nomatch hc), (fun hc => by omega)⟩

/-- A run with two checkpoints, the second not due. -/
example : (((WandbRun.new (V := Int) ⟨fun _ => 1, 2, true⟩ []).loadWriter []).calls (fun e _ _ => if e = 1 then ['a'] else ['b'])
    [.log .train (.cons ['r'] (.num 7) .nil) 50, .save 1 100 9 true, .log .test (.cons ['r'] (.num 8) .nil) 100, .save 2 200 18 true]).map
      (fun l => (l.saved, (WandbRun.new (V := Int) ⟨fun _ => 1, 2, true⟩ l.store).restore.map (·.2))) =
    some ([(1, 100, 9)], some ((1, 100, 9), ['a'])) := by decide +kernel

end Verif.Logger
