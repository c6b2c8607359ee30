import Verif.Lemmas.Logger
import Mathlib.Algebra.Ring.Int.Defs
import Mathlib.Tactic.Ring

/-!
Properties of the loggers, C128-C132.
-/

namespace Verif.Logger

variable {D D' V : Type}

/-! ### C128: intervals -/

/-- C128: after any calls, the next one is written exactly if its step is at least the interval of its scope after the last entry of that
scope (-1 if there is none); otherwise nothing changes. -/
theorem C128_due (prep : D' → D) (iv : Scope → Int) (cs : List (Scope × Int × D')) (s : Scope) (x : Int) (d : D') :
    ((Base.new iv).logs prep (cs ++ [(s, x, d)])).written =
      ((Base.new iv).logs prep cs).written ++
        if x - lastOf s ((Base.new iv).logs prep cs).written ≥ iv s then [(s, x, prep d)] else [] := by
  rw [Base.logs_append]
  have ht := Base.logs_tracks prep cs (Base.new iv) (Base.new_tracks iv)
  have hi := Base.logs_interval prep cs (Base.new iv : Base D)
  show (Base.log prep _ s d x).written = _
  unfold Base.log
  rw [ht s, hi, show (Base.new iv : Base D).interval = iv from rfl]
  split <;> simp_all

/-- C128: whatever is logged, entries of a scope that follow each other are at least its interval apart, and the first is at least the
interval after -1. -/
theorem C128_spaced (prep : D' → D) (iv : Scope → Int) (cs : List (Scope × Int × D')) (s : Scope) :
    Spaced (iv s) (-1 :: stepsOf s ((Base.new iv : Base D).logs prep cs).written) := by
  refine Base.logs_spaced prep cs (Base.new iv) s [-1] (List.isChain_singleton _) ?_
  intro y hy
  have : y = -1 := by simpa [stepsOf, Base.new] using hy.symm
  rw [this]; exact le_refl _

theorem filter_logs (prep : D' → D) (s : Scope) (cs : List (Scope × Int × D')) (b b' : Base D) (hi : b.interval s = b'.interval s)
    (hl : b.last s = b'.last s) (hw : b.written.filter (fun w => w.1 = s) = b'.written.filter (fun w => w.1 = s)) :
    (b.logs prep cs).written.filter (fun w => w.1 = s) =
      (b'.logs prep (cs.filter fun c => c.1 = s)).written.filter (fun w => w.1 = s) := by
  induction cs generalizing b b' with
  | nil => exact hw
  | cons c cs ih =>
    obtain ⟨t, x, d⟩ := c
    by_cases e : t = s
    · subst e
      rw [List.filter_cons, if_pos (by simp)]
      refine ih _ _ ?_ ?_ ?_
      · rw [Base.log_interval, Base.log_interval]; exact hi
      · show (Base.log prep b t d x).last t = (Base.log prep b' t d x).last t
        unfold Base.log
        rw [hi, hl]
        split
        · simp
        · exact hl
      · show (Base.log prep b t d x).written.filter _ = (Base.log prep b' t d x).written.filter _
        unfold Base.log
        rw [hi, hl]
        split
        · simp [List.filter_append, hw]
        · exact hw
    · rw [List.filter_cons, if_neg (by simpa using e)]
      refine ih _ _ ?_ ?_ ?_
      · rw [Base.log_interval]; exact hi
      · show (Base.log prep b t d x).last s = _
        unfold Base.log
        split
        · simp only [if_neg (fun q : s = t => e q.symm)]; exact hl
        · exact hl
      · show (Base.log prep b t d x).written.filter _ = _
        unfold Base.log
        split
        · simp [List.filter_append, e, hw]
        · exact hw

/-- C128: what is written in one scope does not depend on the calls in the others. -/
theorem C128_scopes (prep : D' → D) (iv : Scope → Int) (cs : List (Scope × Int × D')) (s : Scope) :
    (((Base.new iv).logs prep cs).written.filter fun w => w.1 = s) =
      (((Base.new iv).logs prep (cs.filter fun c => c.1 = s)).written.filter fun w => w.1 = s) :=
  filter_logs prep s cs _ _ rfl rfl rfl

/-- C128: called at the steps 0, 1, 2, ... a scope with interval `k` writes at k-1, 2k-1, 3k-1, ... -/
theorem C128_every (prep : D' → D) (iv : Scope → Int) (s : Scope) (k : Nat) (hk : 0 < k) (hiv : iv s = k) (d : Nat → D') (n : Nat) :
    stepsOf s ((Base.new iv).logs prep ((List.range n).map fun i : Nat => (s, (i : Int), d i))).written =
      ((List.range n).filter fun i => (i + 1) % k = 0).map fun i : Nat => (i : Int) := by
  suffices h : stepsOf s ((Base.new iv).logs prep ((List.range n).map fun i : Nat => (s, (i : Int), d i))).written =
      ((List.range n).filter fun i => (i + 1) % k = 0).map (fun i : Nat => (i : Int)) ∧
      lastOf s ((Base.new iv).logs prep ((List.range n).map fun i : Nat => (s, (i : Int), d i))).written = ((n / k * k : Nat) : Int) - 1 from
    h.1
  induction n with
  | zero => exact ⟨rfl, by simp [lastOf, Base.logs, Base.new]⟩
  | succ n ih =>
    obtain ⟨h1, h2⟩ := ih
    rw [List.range_succ, List.map_append, List.map_singleton, C128_due, h2, hiv, List.filter_append, List.map_append]
    have hdiv := Nat.div_add_mod n k
    have hlt := Nat.mod_lt n hk
    have hc : k * (n / k) = n / k * k := Nat.mul_comm _ _
    by_cases hm : (n + 1) % k = 0
    · have hq : (n + 1) / k * k = n + 1 := Nat.div_mul_cancel (Nat.dvd_of_mod_eq_zero hm)
      have hq' : n % k = k - 1 := by
        by_contra hne
        have : n % k + 1 < k := by omega
        have : (n + 1) % k = n % k + 1 := by
          rw [Nat.add_mod, Nat.mod_eq_of_lt (show 1 < k by omega), Nat.mod_eq_of_lt this]
        omega
      rw [if_pos (by omega), stepsOf_append, lastOf_append, h1, if_pos rfl, if_pos rfl, hq]
      refine ⟨?_, by push_cast; ring⟩
      simp [hm]
    · have hq : (n + 1) / k = n / k := Nat.succ_div_of_not_dvd fun q => hm (Nat.mod_eq_zero_of_dvd q)
      have hq' : n % k ≠ k - 1 := by
        intro he
        apply hm
        have : n + 1 = k * (n / k + 1) := by
          rw [Nat.mul_add]; omega
        rw [this]; exact Nat.mul_mod_right _ _
      rw [if_neg (by omega), List.append_nil, h1, h2, hq]
      refine ⟨?_, rfl⟩
      simp [hm]

/-- Interval 3 for training data, 1 for test data: of eight calls five are written. -/
example : ((Base.new fun s => if s = .train then 3 else 1).logs (fun n : Nat => n)
    [(.train, 0, 10), (.train, 2, 11), (.test, 2, 12), (.train, 4, 13), (.test, 2, 14), (.train, 5, 15), (.test, 3, 16), (.train, 9, 17)]).written =
    [(.train, 2, 11), (.test, 2, 12), (.train, 5, 15), (.test, 3, 16), (.train, 9, 17)] := by decide +kernel

example : ((List.range 10).filter fun i => (i + 1) % 3 = 0) = [2, 5, 8] := by decide +kernel

/-! ### C129: checkpoints -/

section
variable [IntCast V]

/-- C129: the calls never fail, and a logger opened afterwards on the same directory restores the triple of the last checkpoint that was
saved; what it would have restored before, if none was saved meanwhile. -/
theorem C129_restore (iv : Scope → Int) (k : Int) (wf : Bool) (file : List (Event V)) (cs : List (Call V)) :
    ∃ l, (Tb.new iv k wf file).calls cs = some l ∧
      ∀ iv' k' wf', (Tb.new iv' k' wf' l.file).restore.2 =
        l.saved.getLast?.getD (Tb.new iv' k' wf' file).restore.2 := by
  obtain ⟨l, new, e, hs, hr⟩ := (Tb.new iv k wf file).calls_restore cs
  refine ⟨l, e, ?_⟩
  intro iv' k' wf'
  have hs' : l.saved = new := by rw [hs]; rfl
  have : (Tb.new iv' k' wf' l.file).restore.2 = l.restore.2 := by rw [Tb.restore_eq, Tb.restore_eq]; rfl
  rw [this, hr, hs', Tb.restore_eq, Tb.restore_eq]
  rfl

/-- C129: an empty directory restores to zeros. -/
theorem C129_empty (iv : Scope → Int) (k : Int) (wf : Bool) : (Tb.new iv k wf ([] : List (Event V))).restore.2 = (0, 0, 0) := by
  rw [Tb.restore_eq]; rfl

/-- C129: a checkpoint is saved exactly if there is a function for it and the epoch is at least the interval after the last one saved. -/
theorem C129_due (iv : Scope → Int) (k : Int) (wf : Bool) (file : List (Event V)) (cs : List (Call V)) (e s g : Int) (fn : Bool) :
    ∃ l l', (Tb.new iv k wf file).calls cs = some l ∧ (Tb.new iv k wf file).calls (cs ++ [.save e s g fn]) = some l' ∧
      l'.saved = l.saved ++ if fn = true ∧ e - (l.saved.getLast?.map (·.1)).getD (-1) ≥ k then [(e, s, g)] else [] := by
  obtain ⟨l, _, el, _, _⟩ := (Tb.new iv k wf file).calls_restore cs
  obtain ⟨h1, h2⟩ := Tb.calls_lastSave cs _ l el rfl
  obtain ⟨l', el', _, _, _, h⟩ := l.save_eq e s g fn
  refine ⟨l, l', el, ?_, ?_⟩
  · rw [Tb.calls_append, el]
    show ((l.save e s g fn).bind fun l => l.calls []) = some l'
    rw [el']; rfl
  · rw [← h1]
    rw [h2, show (Tb.new iv k wf file).saveInterval = k from rfl] at h
    by_cases hc : fn = true ∧ e - l.lastSave ≥ k
    · rw [if_pos hc] at h ⊢
      exact h.1
    · rw [if_neg hc] at h ⊢
      rw [h, List.append_nil]

/-- Two checkpoints, the second not due, with data in between; the next run resumes from the first. -/
example : ((Tb.new (fun _ => 1) 2 true ([] : List (Event Int))).calls
    [.log .train (.cons ['r'] (.num 7) .nil) 50, .save 1 100 9 true, .log .test (.cons ['r'] (.num 8) .nil) 100, .save 2 200 18 true,
      .save 2 200 18 false]).map (fun l => (l.saved, (Tb.new (fun _ => 1) 2 true l.file).restore.2)) =
    some ([(1, 100, 9)], (1, 100, 9)) := by decide +kernel

/-! ### C130: intervals after a restart -/

/-- C130 in full: the entries of every scope keep their distance when training is stopped after a checkpoint and resumed by a new logger. -/
def C130 (s : Scope) : Prop :=
  ∀ (iv : Scope → Int) (k : Int) (wf : Bool) (cs cs' : List (Call Int)) (l l' : Tb Int) (t : Int × Int × Int),
    (Tb.new iv k wf []).calls (cs ++ [.save t.1 t.2.1 t.2.2 true]) = some l → l.saved.getLast? = some t →
    (Tb.new iv k wf l.file).restore.1.calls cs' = some l' →
    Spaced (iv s) (stepsOf s l.base.written ++ stepsOf s l'.base.written)

/-- C130 for training data: the entries of both runs are at least the interval apart, if no entry of the first run lies beyond the
checkpoint. Missing: test and info data, see `C130_violated`. -/
theorem C130_train_partial (iv : Scope → Int) (k : Int) (wf : Bool) (cs cs' : List (Call V)) (l l' : Tb V) (t : Int × Int × Int)
    (h : (Tb.new iv k wf []).calls cs = some l) (ht : l.saved.getLast? = some t)
    (hle : ∀ x ∈ stepsOf .train l.base.written, x ≤ t.2.1) (h' : (Tb.new iv k wf l.file).restore.1.calls cs' = some l') :
    Spaced (iv .train) (stepsOf .train l.base.written ++ stepsOf .train l'.base.written) := by
  have hs : HasSave l.file t := Tb.calls_hasSave cs _ l h (by intro t ht; simp [Tb.new] at ht) t ht
  obtain ⟨r1, _, _, r4, r5⟩ := (Tb.new iv k wf l.file).restore_last t hs
  have hb := Tb.calls_base cs' _ l' h'
  have hb0 := Tb.calls_base cs _ l h
  have hsp : Spaced (iv .train) (stepsOf .train l.base.written) := by
    rw [hb0]
    exact (C128_spaced prepare iv (logCalls cs) .train).tail
  rw [hb]
  have := Base.logs_spaced prepare (logCalls cs') (Tb.new iv k wf l.file).restore.1.base .train (stepsOf .train l.base.written)
  rw [r4, r5, r1] at this
  refine this (by rw [show stepsOf .train (Tb.new iv k wf l.file).base.written = [] from rfl, List.append_nil]; exact hsp) ?_
  intro y hy
  rw [show stepsOf .train (Tb.new iv k wf l.file).base.written = [] from rfl, List.append_nil] at hy
  exact hle y (List.mem_of_getLast? hy)

/-- C130 for the data of updates, likewise. Missing: test and info data, see `C130_violated`. -/
theorem C130_update_partial (iv : Scope → Int) (k : Int) (wf : Bool) (cs cs' : List (Call V)) (l l' : Tb V) (t : Int × Int × Int)
    (h : (Tb.new iv k wf []).calls cs = some l) (ht : l.saved.getLast? = some t)
    (hle : ∀ x ∈ stepsOf .update l.base.written, x ≤ t.2.2) (h' : (Tb.new iv k wf l.file).restore.1.calls cs' = some l') :
    Spaced (iv .update) (stepsOf .update l.base.written ++ stepsOf .update l'.base.written) := by
  have hs : HasSave l.file t := Tb.calls_hasSave cs _ l h (by intro t ht; simp [Tb.new] at ht) t ht
  obtain ⟨_, r1, _, r4, r5⟩ := (Tb.new iv k wf l.file).restore_last t hs
  have hb := Tb.calls_base cs' _ l' h'
  have hb0 := Tb.calls_base cs _ l h
  have hsp : Spaced (iv .update) (stepsOf .update l.base.written) := by
    rw [hb0]
    exact (C128_spaced prepare iv (logCalls cs) .update).tail
  rw [hb]
  have := Base.logs_spaced prepare (logCalls cs') (Tb.new iv k wf l.file).restore.1.base .update (stepsOf .update l.base.written)
  rw [r4, r5, r1] at this
  refine this (by rw [show stepsOf .update (Tb.new iv k wf l.file).base.written = [] from rfl, List.append_nil]; exact hsp) ?_
  intro y hy
  rw [show stepsOf .update (Tb.new iv k wf l.file).base.written = [] from rfl, List.append_nil] at hy
  exact hle y (List.mem_of_getLast? hy)

end

/-- A run with one entry at 999, a checkpoint at 1000, and a second run: 1999 is too early, 2000 is written. -/
example : ((Tb.new (fun _ => 1000) 1 true ([] : List (Event Int))).calls [.log .train .nil 999, .save 1 1000 9 true]).bind
    (fun l => ((Tb.new (fun _ => 1000) 1 true l.file).restore.1.calls [.log .train .nil 1999, .log .train .nil 2000]).map fun l' =>
      (stepsOf .train l.base.written, stepsOf .train l'.base.written)) = some ([999], [2000]) := by decide +kernel

/-- C130 fails for test data, which are logged by environment step while the epoch is restored, and for info data, whose last step is not
restored: the test at step 1500 is written twice in spite of an interval of 1000; info written at epoch 4 is followed by epoch 6 in spite
of an interval of 5. -/
theorem C130_violated : ¬ C130 .test ∧ ¬ C130 .info := by
  constructor
  · intro h
    have := h (fun _ => 1000) 1 true [.log .test .nil 1500] [.log .test .nil 1500] _ _ (1, 1500, 100) rfl rfl rfl
    revert this
    decide +kernel
  · intro h
    have := h (fun _ => 5) 1 true [.log .info .nil 4] [.log .info .nil 6] _ _ (5, 1500, 100) rfl rfl rfl
    revert this
    decide +kernel

/-! ### C131: logged data are read back -/

/-- C131: for any calls of `write` with prepared dictionaries, in which keys are not empty and contain no slash and no path is the
beginning of another, `restore_logged_data` succeeds, and at each path it has exactly the numbers given at this path, in order; arrays and
other values leave no trace. -/
theorem C131_round_trip [IntCast V] (ws : List (Write V)) (hg : ∀ w ∈ ws, w.Good)
    (hp : ∀ w ∈ ws, ∀ w' ∈ ws, ∀ p q, (w.at? p).isSome → (w'.at? q).isSome → p <+: q → p = q) :
    ∃ file tree, fileOf ws = some file ∧ restoreLogged file = some tree ∧
      ∀ p, treeAt tree p = if ws.filterMap (fun w => w.at? p) = [] then none else some (ws.filterMap fun w => w.at? p) := by
  have hf := fileOf_eq ws hg
  obtain ⟨file, hfile⟩ : ∃ f, f = ws.flatMap fun w => w.entries.map fun pv => (⟨join pv.1, w.step, pv.2⟩ : Event V) := ⟨_, rfl⟩
  rw [← hfile] at hf
  have hent : ∀ e ∈ file, ∃ w ∈ ws, ∃ pv ∈ w.entries, e.tag = join pv.1 := by
    intro e he
    rw [hfile] at he
    obtain ⟨w, hw, he⟩ := List.mem_flatMap.1 he
    obtain ⟨pv, hpv, rfl⟩ := List.mem_map.1 he
    exact ⟨w, hw, pv, hpv, rfl⟩
  -- the paths of the tags
  have htag : ∀ t ∈ tags file, ∃ w ∈ ws, ∃ pv ∈ w.entries, t = join pv.1 := by
    intro t ht
    obtain ⟨e, he, rfl⟩ := (mem_tags file t).1 ht
    exact hent e he
  have hsplit : ∀ t ∈ tags file, join (split t) = t ∧ ∃ w ∈ ws, ∃ pv ∈ w.entries, split t = pv.1 := by
    intro t ht
    obtain ⟨w, hw, pv, hpv, rfl⟩ := htag t ht
    have := w.entries_good (hg w hw) pv hpv
    rw [split_join _ this.1 this.2]
    exact ⟨rfl, w, hw, pv, hpv, rfl⟩
  have hmap : ((tags file).map split).map join = tags file := by
    rw [List.map_map]
    conv_rhs => rw [← List.map_id (tags file)]
    exact List.map_congr_left fun t ht => (hsplit t ht).1
  have hmem : ∀ p, p ∈ (tags file).map split ↔ ∃ w ∈ ws, (w.at? p).isSome := by
    intro p
    constructor
    · intro h
      obtain ⟨t, ht, rfl⟩ := List.mem_map.1 h
      obtain ⟨_, w, hw, pv, hpv, e⟩ := hsplit t ht
      refine ⟨w, hw, ?_⟩
      rw [e, (w.entries_at? (hg w hw) pv.1 pv.2).2 hpv]; rfl
    · rintro ⟨w, hw, h⟩
      obtain ⟨x, hx⟩ := Option.isSome_iff_exists.1 h
      have hpv := (w.entries_at? (hg w hw) p x).1 hx
      have := w.entries_good (hg w hw) _ hpv
      refine List.mem_map.2 ⟨join p, ?_, split_join p this.1 this.2⟩
      rw [mem_tags]
      refine ⟨⟨join p, w.step, x⟩, ?_, rfl⟩
      rw [hfile]
      exact List.mem_flatMap.2 ⟨w, hw, List.mem_map.2 ⟨_, hpv, rfl⟩⟩
  have hgoodp : ∀ p ∈ (tags file).map split, p ≠ [] ∧ ∀ k ∈ p, GoodKey k := by
    intro p h
    obtain ⟨w, hw, hs⟩ := (hmem p).1 h
    obtain ⟨x, hx⟩ := Option.isSome_iff_exists.1 hs
    exact w.entries_good (hg w hw) _ ((w.entries_at? (hg w hw) p x).1 hx)
  obtain ⟨tree, e, ht⟩ := addTags_ok file ((tags file).map split)
    (by
      have := tags_nodup file
      rw [← hmap] at this
      exact this.of_map _)
    (fun p h => (hgoodp p h).1) (fun p h => (hgoodp p h).2) []
    (by
      intro p h1 q h2 hpre
      obtain ⟨w, hw, hs⟩ := (hmem p).1 h1
      obtain ⟨w', hw', hs'⟩ := (hmem q).1 h2
      exact hp w hw w' hw' p q hs hs' hpre)
    (by
      intro p _ q hq
      exfalso
      match q with
      | [] => simp [treeAt] at hq
      | [a] => simp [treeAt, find] at hq
      | a :: b :: q => simp [treeAt, find] at hq)
  rw [hmap] at e
  refine ⟨file, tree, hf, e, ?_⟩
  intro p
  rw [ht p]
  by_cases h : p ∈ (tags file).map split
  · rw [if_pos h, hfile, valuesOf_fileOf ws hg p (hgoodp p h).1 (hgoodp p h).2, if_neg]
    intro hnil
    obtain ⟨w, hw, hs⟩ := (hmem p).1 h
    obtain ⟨x, hx⟩ := Option.isSome_iff_exists.1 hs
    have : x ∈ ws.filterMap fun w => w.at? p := List.mem_filterMap.2 ⟨w, hw, hx⟩
    rw [hnil] at this
    simp at this
  · rw [if_neg h, if_pos]
    · match p with
      | [] => rfl
      | [a] => rfl
      | a :: b :: q => rfl
    · rw [List.filterMap_eq_nil_iff]
      intro w hw
      by_contra hne
      exact h ((hmem p).2 ⟨w, hw, Option.isSome_iff_ne_none.2 hne⟩)

/-- Two calls with nested data in one scope. -/
def c131Example : List (Write Int) :=
  [{ scope := ['t'], name := ['s'], step := 10
     data := .cons ['r'] (.dict (.cons ['m'] (.num 3) (.cons ['d'] (.num 1) .nil))) (.cons ['a'] .arr (.cons ['n'] (.num 5) .nil)) },
   { scope := ['t'], name := ['s'], step := 20
     data := .cons ['r'] (.dict (.cons ['m'] (.num 4) .nil)) (.cons ['x'] .other .nil) }]

example : ((fileOf c131Example).bind restoreLogged).map
    (fun t => [treeAt t [['t'], ['s']], treeAt t [['t'], ['r'], ['m']], treeAt t [['t'], ['r'], ['d']], treeAt t [['t'], ['n']],
      treeAt t [['t'], ['a']]]) = some [some [10, 20], some [3, 4], some [1], some [5], none] := by decide +kernel

/-- The hypotheses of C131 are needed: a number at `a` after numbers below `a` replaces them, before them it makes the call fail; and a
slash in a key makes it indistinguishable from a path. -/
example : ((fileOf [{ scope := ['t'], name := ['s'], step := 1, data := .cons ['a'] (.dict (.cons ['b'] (.num (1 : Int)) .nil)) .nil },
      { scope := ['t'], name := ['s'], step := 2, data := .cons ['a'] (.num 2) .nil }]).bind restoreLogged).map
      (fun t => (treeAt t [['t'], ['a'], ['b']], treeAt t [['t'], ['a']])) = some (none, some [2]) ∧
    ((fileOf [{ scope := ['t'], name := ['s'], step := 1, data := .cons ['a'] (.num (1 : Int)) .nil },
      { scope := ['t'], name := ['s'], step := 2, data := .cons ['a'] (.dict (.cons ['b'] (.num 2) .nil)) .nil }]).bind
      restoreLogged).isNone ∧
    prepare (.cons ['a'] (.dict (.cons ['b'] (.num (1 : Int)) .nil)) (.cons ['a', '/', 'b'] (.num 2) .nil)) =
      [(['a', '/', 'b'], 2)] := by decide +kernel

/-! ### C132: Weights and Biases -/

/-- C132 in full: the logger writes like a `TensorboardLogger` constructed with the same arguments. -/
def C132 (w : Wandb) : Prop :=
  ∀ (file : List (Event Int)) (st : Str) (x : Int) (data : List (Str × Int)),
    ((w.load file).write st x data).map (fun l => (l.file, l.flushes)) =
      ((Tb.new w.interval w.saveInterval w.writeFlush file).write st x data).map (fun l => (l.file, l.flushes))

/-- C132 for loggers that are to flush after each call. Missing: the others, see `C132_violated`. -/
theorem C132_partial (w : Wandb) (h : w.writeFlush = true) : C132 w := by
  intro file st x data
  unfold Tb.write
  show Option.map _ (Option.map _ (write st x data file)) = Option.map _ (Option.map _ (write st x data file))
  cases write st x data file with
  | none => rfl
  | some f =>
    simp only [Option.map_some]
    rw [show (w.load file).writeFlush = true from rfl,
      show (Tb.new w.interval w.saveInterval w.writeFlush file).writeFlush = w.writeFlush from rfl, h]
    rfl

/-- C132, what both loggers do: a call that does not raise flushes once if the logger is to flush after each call, and not at all
otherwise; nothing but the file changes. A new logger has flushed nothing. -/
theorem C132_flush {V : Type} [IntCast V] (l l' : Tb V) (st : Str) (x : Int) (data : List (Str × V)) (h : l.write st x data = some l') :
    l'.flushes = l.flushes + (if l.writeFlush then 1 else 0) ∧ l'.writeFlush = l.writeFlush ∧ l'.saved = l.saved ∧ l'.base = l.base ∧
    ∀ (a b : Nat) (f : Bool) (file : List (Event V)), (Tb.new a b f file).flushes = 0 ∧ (Tb.new a b f file).file = file := by
  unfold Tb.write at h
  rw [Option.map_eq_some_iff] at h
  obtain ⟨f, _, rfl⟩ := h
  refine ⟨?_, rfl, rfl, rfl, fun _ _ _ _ => ⟨rfl, rfl⟩⟩
  show (if l.writeFlush then l.flushes + 1 else l.flushes) = _
  split <;> rfl

/-- C132 fails for every logger constructed with `write_flush=False`: the argument is passed in the place of the save interval, and each
call flushes. -/
theorem C132_violated (w : Wandb) (h : w.writeFlush = false) : ¬ C132 w := by
  intro hc
  have := hc [] ['a', '/', 'b'] 0 []
  simp only [Tb.write, write, split] at this
  rw [show (w.load ([] : List (Event Int))).writeFlush = true from rfl,
    show (Tb.new w.interval w.saveInterval w.writeFlush ([] : List (Event Int))).writeFlush = w.writeFlush from rfl, h] at this
  simp [Tb.new, Wandb.load, tbArgs] at this

example : ∃ w : Wandb, w.writeFlush = false ∧ w.interval .train = 1000 := ⟨⟨fun _ => 1000, 1000, false⟩, rfl, rfl⟩

end Verif.Logger
