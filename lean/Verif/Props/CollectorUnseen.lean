import Verif.Props.CollectorEven

/-!
# Episodes are collected without looking into them (property C292)

Which episodes `collect(n_episode=n)` takes is decided while other episodes end (tianshou/data/collector.py:1009-1032). Whether an environment's `k+1`-th episode is
taken must not depend on what happens in it, or the returns of the collected episodes are a biased sample.
-/

namespace Verif.Collector

set_option linter.unusedSectionVars false

variable {σ A O R I H K : Type}

/-! ### Specification -/

/-- A relation between the states of an environment such that `S k x y` forces the same observable behaviour until `k` more episodes have ended. What is reported by the reset after
the last of them, and everything later, may differ. -/
def Forces (E : Env σ A O R I K) (kw : K) (S : Nat → σ → σ → Prop) : Prop :=
  ∀ (k : Nat) (x y : σ), S (k + 1) x y → ∀ a : A,
    (E.step x a).2 = (E.step y a).2 ∧
    ((E.step x a).2.ended = false → S (k + 1) (E.step x a).1 (E.step y a).1) ∧
    ((E.step x a).2.ended = true → k ≠ 0 →
      (E.reset kw (E.step x a).1).2 = (E.reset kw (E.step y a).1).2 ∧ S k (E.reset kw (E.step x a).1).1 (E.reset kw (E.step y a).1).1)

/-- In the states `x` and `y` the environment behaves in the same way until `k` episodes have ended. -/
def SameFor (E : Env σ A O R I K) (kw : K) (k : Nat) (x y : σ) : Prop := ∃ S, Forces E kw S ∧ S k x y

/-- The collector with another state of the environment `e`. -/
def Col.withEnv (s : Col σ A O R I H) (e : Nat) (y : σ) : Col σ A O R I H :=
  { s with world := { s.world with envs := fun i => if i = e then y else s.world.envs i } }

/-! ### Lemmas -/

def World.put (w : World σ O) (e : Nat) (y : σ) : World σ O := ⟨upd w.envs e y, w.mem⟩

def Loop.put (s : Loop σ A O R I H) (e : Nat) (y : σ) : Loop σ A O R I H := { s with world := s.world.put e y }

theorem upd_upd {α : Type} (f : Nat → α) (i : Nat) (x y : α) : upd (upd f i x) i y = upd f i y := by
  funext j
  unfold upd
  split_ifs <;> rfl

theorem upd_comm {α : Type} (f : Nat → α) (i j : Nat) (x y : α) (h : i ≠ j) : upd (upd f i x) j y = upd (upd f j y) i x := by
  funext k
  unfold upd
  split_ifs with h1 h2
  · exact absurd (h2.symm.trans h1) h
  all_goals rfl

theorem stepEnvs_put_other (E : Env σ A O R I K) (l : List (Nat × A)) (w : World σ O) (e : Nat) (y : σ) (h : e ∉ l.map Prod.fst) :
    stepEnvs E l (w.put e y) = ((stepEnvs E l w).1.put e y, (stepEnvs E l w).2) := by
  induction l generalizing w with
  | nil => rfl
  | cons p t ih =>
    obtain ⟨i, a⟩ := p
    simp only [List.map_cons, List.mem_cons, not_or] at h
    simp only [stepEnvs, World.put, upd_other _ _ _ _ (Ne.symm h.1)]
    rw [upd_comm _ _ _ _ _ h.1]
    have := ih ⟨upd w.envs i (E.step (w.envs i) a).1, upd w.mem i (E.step (w.envs i) a).2.obs⟩ h.2
    simp only [World.put] at this
    rw [this]

theorem stepEnvs_put (E : Env σ A O R I K) (l : List (Nat × A)) (w : World σ O) (e : Nat) (y : σ) (a : A) (hn : (l.map Prod.fst).Nodup)
    (h : (e, a) ∈ l) (ho : (E.step (w.envs e) a).2 = (E.step y a).2) :
    stepEnvs E l (w.put e y) = ((stepEnvs E l w).1.put e (E.step y a).1, (stepEnvs E l w).2) := by
  induction l generalizing w with
  | nil => simp at h
  | cons p t ih =>
    obtain ⟨i, b⟩ := p
    simp only [List.map_cons, List.nodup_cons] at hn
    rcases List.mem_cons.1 h with heq | hmem
    · simp only [Prod.mk.injEq] at heq
      obtain ⟨rfl, rfl⟩ := heq
      simp only [stepEnvs, World.put, upd_same, upd_upd]
      have := stepEnvs_put_other E t ⟨upd w.envs e (E.step (w.envs e) a).1, upd w.mem e (E.step (w.envs e) a).2.obs⟩ e (E.step y a).1 hn.1
      simp only [World.put, upd_upd] at this
      rw [← ho, this]
    · have hne : e ≠ i := by
        rintro rfl
        exact hn.1 (List.mem_map.2 ⟨(e, a), hmem, rfl⟩)
      simp only [stepEnvs, World.put, upd_other _ _ _ _ (Ne.symm hne)]
      rw [upd_comm _ _ _ _ _ hne]
      have := ih ⟨upd w.envs i (E.step (w.envs i) b).1, upd w.mem i (E.step (w.envs i) b).2.obs⟩ hn.2 hmem (by simpa only [upd_other _ _ _ _ hne] using ho)
      simp only [World.put] at this
      rw [this]

theorem resetEnvs_put_other (E : Env σ A O R I K) (kw : K) (l : List Nat) (w : World σ O) (e : Nat) (y : σ) (h : e ∉ l) :
    resetEnvs E kw l (w.put e y) = ((resetEnvs E kw l w).1.put e y, (resetEnvs E kw l w).2) := by
  induction l generalizing w with
  | nil => rfl
  | cons i t ih =>
    simp only [List.mem_cons, not_or] at h
    simp only [resetEnvs, World.put, upd_other _ _ _ _ (Ne.symm h.1)]
    rw [upd_comm _ _ _ _ _ h.1]
    have := ih ⟨upd w.envs i (E.reset kw (w.envs i)).1, upd w.mem i (E.reset kw (w.envs i)).2.1⟩ h.2
    simp only [World.put] at this
    rw [this]

theorem resetEnvs_put (E : Env σ A O R I K) (kw : K) (l : List Nat) (w : World σ O) (e : Nat) (y : σ) (hn : l.Nodup)
    (h : e ∈ l) (ho : (E.reset kw (w.envs e)).2 = (E.reset kw y).2) :
    resetEnvs E kw l (w.put e y) = ((resetEnvs E kw l w).1.put e (E.reset kw y).1, (resetEnvs E kw l w).2) := by
  induction l generalizing w with
  | nil => simp at h
  | cons i t ih =>
    rw [List.nodup_cons] at hn
    rcases List.mem_cons.1 h with rfl | hmem
    · simp only [resetEnvs, World.put, upd_same, upd_upd]
      have := resetEnvs_put_other E kw t ⟨upd w.envs e (E.reset kw (w.envs e)).1, upd w.mem e (E.reset kw (w.envs e)).2.1⟩ e (E.reset kw y).1 hn.1
      simp only [World.put, upd_upd] at this
      rw [← ho, this]
    · have hne : e ≠ i := by
        rintro rfl
        exact hn.1 hmem
      simp only [resetEnvs, World.put, upd_other _ _ _ _ (Ne.symm hne)]
      rw [upd_comm _ _ _ _ _ hne]
      have := ih ⟨upd w.envs i (E.reset kw (w.envs i)).1, upd w.mem i (E.reset kw (w.envs i)).2.1⟩ hn.2 hmem (by simpa only [upd_other _ _ _ _ hne] using ho)
      simp only [World.put] at this
      rw [this]

/-- One round with another state of an environment that makes the same step. -/
theorem iter_put (c : Cfg σ A O R I H K) (n : Option Int) (random : Bool) (kw : K) (s s1 s2 : Loop σ A O R I H) (e : Nat) (y : σ) (a : A) (i : Nat)
    (hn : s.ready.Nodup) (hi : s.ready[i]? = some e)
    (ha : (decide c random s.calls s.ready (s.lastObs.map (Cell.read s.world.mem)) s.lastInfo s.lastHidden).actNormalized[i]? = some a)
    (ho : (c.env.step (s.world.envs e) a).2 = (c.env.step y a).2)
    (h1 : iter c n random kw s = .ok s1) (h2 : iter c n random kw (s.put e y) = .ok s2) :
    s2.ready = s1.ready ∧ s2.stepCount = s1.stepCount ∧ s2.numEpisodes = s1.numEpisodes ∧ s2.log = s1.log ∧
    ((c.env.step (s.world.envs e) a).2.done = false → s2 = s1.put e (c.env.step y a).1) ∧
    ((c.env.step (s.world.envs e) a).2.done = true →
      (c.env.reset kw (c.env.step (s.world.envs e) a).1).2 = (c.env.reset kw (c.env.step y a).1).2 →
      s2 = s1.put e (c.env.reset kw (c.env.step y a).1).1) := by
  unfold iter at h1 h2
  simp only [Loop.put] at h1 h2
  have hmem : (s.world.put e y).mem = s.world.mem := rfl
  simp only [hmem] at h2
  set d := decide c random s.calls s.ready (s.lastObs.map (Cell.read s.world.mem)) s.lastInfo s.lastHidden with hd
  by_cases hl : d.actNormalized.length = s.ready.length
  swap
  · rw [if_pos hl] at h1; exact absurd h1 (by simp)
  rw [if_neg (by simpa using hl)] at h1 h2
  by_cases hne : s.ready = []
  · rw [if_pos hne] at h1; exact absurd h1 (by simp)
  rw [if_neg hne] at h1 h2
  have hfst : (s.ready.zip d.actNormalized).map Prod.fst = s.ready := List.map_fst_zip (by omega)
  have hz : (s.ready.zip d.actNormalized)[i]? = some (e, a) := by rw [List.getElem?_zip_eq_some]; exact ⟨hi, ha⟩
  obtain ⟨hg1, hg2⟩ := stepEnvs_get c.env _ s.world (by rw [hfst]; exact hn) i e a hz
  rw [stepEnvs_put c.env _ s.world e y a (by rw [hfst]; exact hn) (List.mem_of_getElem? hz) ho] at h2
  set p := stepEnvs c.env (s.ready.zip d.actNormalized) s.world with hp
  set doneIdx := whereTrue (p.2.map StepOut.done) with hdi
  set global := doneIdx.filterMap fun k => s.ready[k]? with hg
  have hmp : (p.1.put e (c.env.step y a).1).mem = p.1.mem := rfl
  simp only [hmp] at h2
  have hgn : global.Nodup := filterMap_ready_nodup _ _ hn (whereTrue_nodup _)
  have hin : e ∈ global ↔ (c.env.step (s.world.envs e) a).2.done = true := by
    rw [hg, List.mem_filterMap]
    constructor
    · rintro ⟨k, hk, hke⟩
      obtain rfl := nodup_idx hn hke hi
      rw [hdi, mem_whereTrue, List.getElem?_map, hg1] at hk
      simpa using hk
    · intro hdone
      refine ⟨i, ?_, hi⟩
      rw [hdi, mem_whereTrue, List.getElem?_map, hg1]
      simpa using hdone
  injection h1 with h1
  injection h2 with h2
  subst h1 h2
  refine ⟨rfl, rfl, rfl, rfl, fun hdone => ?_, fun hdone hreset => ?_⟩
  · have hout : e ∉ global := fun h => by rw [hin, hdone] at h; exact absurd h (by simp)
    rw [resetEnvs_put_other c.env kw global p.1 e _ hout]
    rfl
  · rw [resetEnvs_put c.env kw global p.1 e _ hgn (hin.2 hdone) (by rw [hg2]; exact hreset)]
    rfl

/-- What holds throughout a collection of `n` episodes. -/
structure Sound (n : Int) (x : Loop σ A O R I H) : Prop where
  nodup : x.ready.Nodup
  lenObs : x.lastObs.length = x.ready.length
  lenInfo : x.lastInfo.length = x.ready.length
  count : ((x.ready.length + x.numEpisodes : Nat) : Int) ≤ n

theorem Sound.next {c : Cfg σ A O R I H K} {n : Int} (hn0 : n ≠ 0) {random : Bool} {kw : K} {x y : Loop σ A O R I H} (hx : Sound n x)
    {ent : List (Row O A R I)} (hr : Round c (some n) random kw x y ent) : Sound n y :=
  ⟨hr.sub.nodup hx.nodup, hr.lenObs, hr.lenInfo, hr.count n rfl hn0 hx.count⟩

/-- From any round on: the environments that take part end an episode, the others store nothing. -/
theorem run_rest (c : Cfg σ A O R I H K) (n : Int) (hn0 : n ≠ 0) (random : Bool) (kw : K) (fuel : Nat) (x x' : Loop σ A O R I H) (hx : Sound n x)
    (h : run c none (some n) random kw fuel x = some (.ok x')) :
    ∃ post, x'.log = x.log ++ post ∧ ∀ e, (e ∉ x.ready → rowsOf e post = []) ∧ (e ∈ x.ready → 0 < episodesOf e post) := by
  induction fuel generalizing x with
  | zero => simp [run] at h
  | succ fuel ih =>
    rw [run] at h
    cases hit : iter c (some n) random kw x with
    | error er => rw [hit] at h; simp at h
    | ok y =>
      rw [hit] at h
      obtain ⟨ent, hr⟩ := iter_round c (some n) random kw x y hx.nodup hx.lenObs hx.lenInfo hit
      have hy := hx.next hn0 hr
      have hleft : ∀ e ∈ x.ready, e ∉ y.ready → 0 < episodesOf e [x.ready.zip ent] := by
        intro e he hne
        obtain ⟨i, hi⟩ := getElem?_mem_idx he
        have hl : i < ent.length := by rw [hr.len]; exact getElem?_some_lt hi
        obtain ⟨_, _, h3, _⟩ := hr.moved i e _ hi (List.getElem?_eq_getElem hl)
        have hdone : ent[i].out.done = true := by
          by_contra hc
          exact hne (h3 (by simpa using hc)).2.1
        unfold episodesOf
        rw [rowsOf_zip e _ _ hx.nodup i _ hi (List.getElem?_eq_getElem hl), List.filter_cons_of_pos (by exact hdone)]
        simp
      simp only at h
      split_ifs at h with hst
      · simp only [Option.some.injEq, Except.ok.injEq] at h
        subst h
        have hempty : y.ready = [] := by
          simp only [stops, Bool.false_or, Bool.and_eq_true, decide_eq_true_eq, ne_eq, ge_iff_le] at hst
          have := hy.count
          exact List.length_eq_zero_iff.1 (by omega)
        exact ⟨_, hr.log, fun e => ⟨fun he => rowsOf_zip_none e _ _ he, fun he => hleft e he (by rw [hempty]; simp)⟩⟩
      · obtain ⟨post, hlog, hpost⟩ := ih y hy h
        refine ⟨[x.ready.zip ent] ++ post, by rw [hlog, hr.log, List.append_assoc], fun e => ⟨fun he => ?_, fun he => ?_⟩⟩
        · rw [rowsOf_append, rowsOf_zip_none e _ _ he, (hpost e).1 fun hc => he (hr.sub.subset hc)]
          rfl
        · rw [episodesOf_append]
          by_cases hin : e ∈ y.ready
          · have := (hpost e).2 hin
            omega
          · have := hleft e he hin
            omega

theorem run_unseen (c : Cfg σ A O R I H K) (n : Int) (hn0 : n ≠ 0) (random : Bool) (kw : K) (S : Nat → σ → σ → Prop) (hS : Forces c.env kw S) (e : Nat)
    (fuel : Nat) : ∀ (fuel' k : Nat) (x x1 x2 : Loop σ A O R I H) (y : σ), Sound n x → S (k + 1) (x.world.envs e) y →
      run c none (some n) random kw fuel x = some (.ok x1) → run c none (some n) random kw fuel' (x.put e y) = some (.ok x2) →
      ∃ n1 n2, x1.log = x.log ++ n1 ∧ x2.log = x.log ++ n2 ∧ (k + 1 < episodesOf e n1 ↔ k + 1 < episodesOf e n2) := by
  induction fuel with
  | zero => intro _ _ _ _ _ _ _ _ h; simp [run] at h
  | succ fuel ih =>
    intro fuel' k x x1 x2 y hx hk h1 h2
    have hxp : Sound n (x.put e y) := ⟨hx.nodup, hx.lenObs, hx.lenInfo, hx.count⟩
    by_cases he : e ∈ x.ready
    swap
    · obtain ⟨n1, hl1, hp1⟩ := run_rest c n hn0 random kw _ x x1 hx h1
      obtain ⟨n2, hl2, hp2⟩ := run_rest c n hn0 random kw _ (x.put e y) x2 hxp h2
      refine ⟨n1, n2, hl1, hl2, ?_⟩
      unfold episodesOf
      rw [(hp1 e).1 he, (hp2 e).1 he]
    cases fuel' with
    | zero => simp [run] at h2
    | succ fuel' =>
      rw [run] at h1 h2
      cases hit1 : iter c (some n) random kw x with
      | error er => rw [hit1] at h1; simp at h1
      | ok s1 =>
        cases hit2 : iter c (some n) random kw (x.put e y) with
        | error er => rw [hit2] at h2; simp at h2
        | ok s2 =>
          rw [hit1] at h1
          rw [hit2] at h2
          obtain ⟨ent, hr⟩ := iter_round c (some n) random kw x s1 hx.nodup hx.lenObs hx.lenInfo hit1
          obtain ⟨ent2, hr2⟩ := iter_round c (some n) random kw (x.put e y) s2 hxp.nodup hxp.lenObs hxp.lenInfo hit2
          obtain ⟨i, hi⟩ := getElem?_mem_idx he
          have hl : i < ent.length := by rw [hr.len]; exact getElem?_some_lt hi
          have hrow : ent[i]? = some ent[i] := List.getElem?_eq_getElem hl
          generalize ent[i] = row at hrow
          obtain ⟨x', hstep, hgo, hend⟩ := hr.moved i e row hi hrow
          have ha := congrArg (fun l => l[i]?) hr.applied
          simp only [List.getElem?_map, hrow, Option.map_some] at ha
          obtain ⟨f1, f2, f3⟩ := hS k _ _ hk row.applied
          obtain ⟨g1, g2, g3, g4, g5, g6⟩ := iter_put c (some n) random kw x s1 s2 e y row.applied i hx.nodup hi ha.symm f1 hit1 hit2
          have hcount : episodesOf e [x.ready.zip ent] = if row.out.done = true then 1 else 0 := by
            unfold episodesOf
            rw [rowsOf_zip e _ _ hx.nodup i _ hi hrow]
            by_cases hd : row.out.done = true
            · rw [List.filter_cons_of_pos (by exact hd), if_pos hd]; rfl
            · rw [List.filter_cons_of_neg (by exact hd), if_neg hd]; rfl
          have hs1 := hx.next hn0 hr
          have hs2 := hxp.next hn0 hr2
          rw [hstep] at f2 f3 g5 g6
          simp only at f2 f3 g5 g6 h1 h2
          rw [g2, g3] at h2
          split_ifs at h1 h2 with hst
          · simp only [Option.some.injEq, Except.ok.injEq] at h1 h2
            subst h1 h2
            exact ⟨_, _, hr.log, g4.trans hr.log, Iff.rfl⟩
          · by_cases hd : row.out.done = true
            · rw [if_pos hd] at hcount
              cases k with
              | zero =>
                obtain ⟨n1, hl1, hp1⟩ := run_rest c n hn0 random kw _ s1 x1 hs1 h1
                obtain ⟨n2, hl2, hp2⟩ := run_rest c n hn0 random kw _ s2 x2 hs2 h2
                refine ⟨[x.ready.zip ent] ++ n1, [x.ready.zip ent] ++ n2, by rw [hl1, hr.log, List.append_assoc], by rw [hl2, g4, hr.log, List.append_assoc], ?_⟩
                rw [episodesOf_append, episodesOf_append, hcount]
                by_cases hin : e ∈ s1.ready
                · have := (hp1 e).2 hin
                  have := (hp2 e).2 (by rw [g1]; exact hin)
                  omega
                · have q1 := (hp1 e).1 hin
                  have q2 := (hp2 e).1 (by rw [g1]; exact hin)
                  unfold episodesOf
                  rw [q1, q2]
              | succ k =>
                obtain ⟨w1, w2⟩ := f3 hd (by omega)
                obtain ⟨y', o, inf, q1, q2, -⟩ := hend hd
                have hput := g6 hd w1
                rw [q1] at w2
                rw [hput] at h2
                obtain ⟨n1, n2, hl1, hl2, hiff⟩ := ih fuel' k s1 x1 x2 _ hs1 (by rw [q2]; exact w2) h1 h2
                refine ⟨[x.ready.zip ent] ++ n1, [x.ready.zip ent] ++ n2, by rw [hl1, hr.log, List.append_assoc], by rw [hl2, hr.log, List.append_assoc], ?_⟩
                rw [episodesOf_append, episodesOf_append, hcount]
                omega
            · rw [if_neg hd] at hcount
              have hd' : row.out.done = false := by simpa using hd
              have hput := g5 hd'
              rw [hput] at h2
              obtain ⟨n1, n2, hl1, hl2, hiff⟩ := ih fuel' k s1 x1 x2 _ hs1 (by rw [(hgo hd').1]; exact f2 hd') h1 h2
              refine ⟨[x.ready.zip ent] ++ n1, [x.ready.zip ent] ++ n2, by rw [hl1, hr.log, List.append_assoc], by rw [hl2, hr.log, List.append_assoc], ?_⟩
              rw [episodesOf_append, episodesOf_append, hcount]
              omega

/-! ### C292 -/

/-- **C292.** Run `collect(n_episode=n)` twice from the same state, except that from its `k+1`-th episode on the environment `e` goes another way (in `s` it is in some state, in the
other run in a state `y` that behaves in the same way until `k` episodes have ended). If both return, the `k+1`-th episode of `e` is collected in both or in neither. So whether an
episode is collected is not decided by what happens in it: neither by its length, nor by its rewards. -/
theorem C292_unseen (c : Cfg σ A O R I H K) (s s1 s2 : Col σ A O R I H) (hs : Reachable c s) (n : Int) (hn : 0 < n) (random : Bool) (kw : K)
    (fuel fuel' : Nat) (st1 st2 : Stats) (e k : Nat) (y : σ) (hsame : SameFor c.env kw k (s.world.envs e) y)
    (h1 : collect c none (some n) random false kw fuel s = some (.ok (s1, st1)))
    (h2 : collect c none (some n) random false kw fuel' (s.withEnv e y) = some (.ok (s2, st2))) :
    ∃ new1 new2, s1.log = s.log ++ new1 ∧ s2.log = s.log ++ new2 ∧ (k < episodesOf e new1 ↔ k < episodesOf e new2) := by
  obtain ⟨S, hS, hk⟩ := hsame
  obtain ⟨hn0, po, pi, l1, hpo, hpi, hr1, rfl, rfl⟩ := collect_episodes c n random false kw fuel s s1 st1 h1
  obtain ⟨-, po', pi', l2, hpo', hpi', hr2, rfl, rfl⟩ := collect_episodes c n random false kw fuel' _ s2 st2 h2
  obtain ⟨w1, w2⟩ := prepared_wf c false kw s (reachable_wf c s hs)
  have hm : (min (c.envNum : Int) n).toNat ≤ c.envNum := by omega
  have hstart := start_inv (some n) (prepared c false kw s) (min (c.envNum : Int) n).toNat po pi (by rw [w1 _ hpo]; exact hm) (by rw [w2 _ hpi]; exact hm)
  obtain rfl : po = po' := Option.some.inj (hpo.symm.trans hpo')
  obtain rfl : pi = pi' := Option.some.inj (hpi.symm.trans hpi')
  have hsound : Sound n (start (prepared c false kw s) (List.range (min (c.envNum : Int) n).toNat) po pi) :=
    ⟨hstart.nodup, hstart.lenObs, hstart.lenInfo, hstart.count n rfl hn0 (by rw [List.length_range]; omega)⟩
  have hsecond : start (prepared c false kw (s.withEnv e y)) (List.range (min (c.envNum : Int) n).toNat) po pi =
      (start (prepared c false kw s) (List.range (min (c.envNum : Int) n).toNat) po pi).put e y := rfl
  rw [hsecond] at hr2
  cases k with
  | zero =>
    obtain ⟨n1, hl1, hp1⟩ := run_rest c n hn0 random kw _ _ _ hsound hr1
    have hsound2 : Sound n ((start (prepared c false kw s) (List.range (min (c.envNum : Int) n).toNat) po pi).put e y) :=
      ⟨hsound.nodup, hsound.lenObs, hsound.lenInfo, hsound.count⟩
    obtain ⟨n2, hl2, hp2⟩ := run_rest c n hn0 random kw _ _ _ hsound2 hr2
    refine ⟨n1, n2, hl1, hl2, ?_⟩
    by_cases hin : e ∈ List.range (min (c.envNum : Int) n).toNat
    · exact ⟨fun _ => (hp2 e).2 hin, fun _ => (hp1 e).2 hin⟩
    · unfold episodesOf
      rw [(hp1 e).1 hin, (hp2 e).1 hin]
  | succ k => exact run_unseen c n hn0 random kw S hS e fuel fuel' k _ _ _ y hsound hk hr1 hr2

/-- A collection that begins with a reset is one after a reset. -/
theorem collect_before (c : Cfg σ A O R I H K) (n : Int) (random : Bool) (kw : K) (fuel : Nat) (s : Col σ A O R I H) :
    collect c none (some n) random true kw fuel s = collect c none (some n) random false kw fuel (reset c false true kw s) := rfl

/-- **C292, with a reset before the collection.** Now the episodes are counted from the reset on: what the environment `e` does after the reset is the same in both runs until `k`
episodes have ended. -/
theorem C292_reset (c : Cfg σ A O R I H K) (s s1 s2 : Col σ A O R I H) (hs : Reachable c s) (n : Int) (hn : 0 < n) (random : Bool) (kw : K)
    (fuel fuel' : Nat) (st1 st2 : Stats) (e k : Nat) (y : σ)
    (hsame : k ≠ 0 → (c.env.reset kw (s.world.envs e)).2 = (c.env.reset kw y).2 ∧ SameFor c.env kw k (c.env.reset kw (s.world.envs e)).1 (c.env.reset kw y).1)
    (h1 : collect c none (some n) random true kw fuel s = some (.ok (s1, st1)))
    (h2 : collect c none (some n) random true kw fuel' (s.withEnv e y) = some (.ok (s2, st2))) :
    ∃ new1 new2, s1.log = s.log ++ new1 ∧ s2.log = s.log ++ new2 ∧ (k < episodesOf e new1 ↔ k < episodesOf e new2) := by
  have hw1 : WF c s := reachable_wf c s hs
  have key : ∀ (u u' : Col σ A O R I H) (f : Nat) (st : Stats), WF c u → u.log = s.log → collect c none (some n) random true kw f u = some (.ok (u', st)) →
      ∃ new, u'.log = s.log ++ new ∧ (e ∈ List.range (min (c.envNum : Int) n).toNat → 0 < episodesOf e new) ∧
        (e ∉ List.range (min (c.envNum : Int) n).toNat → episodesOf e new = 0) := by
    intro u u' f st hu hlog h
    obtain ⟨hn0, po, pi, l, hpo, hpi, hr, rfl, rfl⟩ := collect_episodes c n random true kw f u u' st h
    obtain ⟨w1, w2⟩ := prepared_wf c true kw u hu
    have hm : (min (c.envNum : Int) n).toNat ≤ c.envNum := by omega
    have hstart := start_inv (some n) (prepared c true kw u) (min (c.envNum : Int) n).toNat po pi (by rw [w1 _ hpo]; exact hm) (by rw [w2 _ hpi]; exact hm)
    obtain ⟨new, hl, hp⟩ := run_rest c n hn0 random kw f _ l
      ⟨hstart.nodup, hstart.lenObs, hstart.lenInfo, hstart.count n rfl hn0 (by rw [List.length_range]; omega)⟩ hr
    refine ⟨new, ?_, (hp e).2, fun he => ?_⟩
    · rw [← hlog, ← prepared_log c true kw u]
      exact hl
    · unfold episodesOf
      rw [(hp e).1 he]
      rfl
  by_cases hk : k = 0 ∨ c.envNum ≤ e
  · obtain ⟨new1, l1, p1, q1⟩ := key s s1 fuel st1 hw1 rfl h1
    obtain ⟨new2, l2, p2, q2⟩ := key (s.withEnv e y) s2 fuel' st2 hw1 rfl h2
    refine ⟨new1, new2, l1, l2, ?_⟩
    by_cases hin : e ∈ List.range (min (c.envNum : Int) n).toNat
    · rw [List.mem_range] at hin
      obtain rfl : k = 0 := hk.resolve_right (by omega)
      exact ⟨fun _ => p2 (List.mem_range.2 hin), fun _ => p1 (List.mem_range.2 hin)⟩
    · rw [q1 hin, q2 hin]
  · obtain ⟨hk, he⟩ := not_or.1 hk
    obtain ⟨hout, hst⟩ := hsame hk
    have hi : (List.range c.envNum)[e]? = some e := List.getElem?_range (by omega)
    have henv : (reset c false true kw s).world.envs e = (c.env.reset kw (s.world.envs e)).1 :=
      (resetEnvs_get c.env kw (List.range c.envNum) s.world List.nodup_range e e hi).2
    have hput := resetEnvs_put c.env kw (List.range c.envNum) s.world e y List.nodup_range (List.mem_range.2 (by omega)) hout
    have hworld : (s.withEnv e y).world = s.world.put e y := rfl
    have hsecond : reset c false true kw (s.withEnv e y) = (reset c false true kw s).withEnv e (c.env.reset kw y).1 := by
      simp only [reset, resetEnv, hworld, hput]
      rfl
    rw [collect_before] at h1 h2
    rw [hsecond] at h2
    exact C292_unseen c _ s1 s2 (.reset hs false true kw) n hn random kw fuel fuel' st1 st2 e k _ (by rw [henv]; exact hst) h1 h2

/-- The state holds the steps left in this episode and the lengths of the coming ones. -/
def tapeEnv : Env (Nat × List Nat) Nat Nat Nat Nat Unit where
  step := fun s a => ((s.1 - 1, s.2), ⟨s.1, a, Nat.ble s.1 1, false, 0⟩)
  reset := fun _ s => ((s.2.headD 1, s.2.tail), s.2.headD 1, 0)

/-- Two environments. -/
def tapeCfg : Cfg (Nat × List Nat) Nat Nat Nat Nat Nat Unit where
  env := tapeEnv
  policy := exPolicy
  envNum := 2
  noise := false
  share := false
  hiddenKind := .arrayOrBatch
  zeroHidden := 0
  isAsync := false

/-- After a reset, the first environment has episodes of two and one steps, then more of one step; the second one of four steps. -/
def tapeCol : Col (Nat × List Nat) Nat Nat Nat Nat Nat :=
  reset tapeCfg false false () { world := ⟨fun e => if e = 0 then (0, [2, 1, 1, 1]) else (0, [4, 4]), fun _ => 0⟩ }

/-- States with the same lengths of `k` episodes behave in the same way until these have ended. -/
theorem tape_same (k l : Nat) (t t' : List Nat) (h : t.take (k - 1) = t'.take (k - 1)) : SameFor tapeEnv () k (l, t) (l, t') := by
  refine ⟨fun k x y => x.1 = y.1 ∧ x.2.take (k - 1) = y.2.take (k - 1), ?_, rfl, h⟩
  rintro k ⟨x, u⟩ ⟨y, v⟩ ⟨h1, h2⟩ a
  simp only at h1 h2
  subst h1
  refine ⟨rfl, fun _ => ⟨rfl, h2⟩, fun _ hk => ?_⟩
  obtain ⟨k, rfl⟩ := Nat.exists_eq_succ_of_ne_zero hk
  simp only [Nat.succ_eq_add_one, Nat.add_sub_cancel] at h2
  simp only [tapeEnv, Nat.succ_eq_add_one, Nat.add_sub_cancel]
  cases u with
  | nil =>
    cases v with
    | nil => simp
    | cons b v => simp at h2
  | cons b u =>
    cases v with
    | nil => simp at h2
    | cons b' v =>
      simp only [List.take_succ_cons, List.cons.injEq] at h2
      obtain ⟨rfl, h2⟩ := h2
      exact ⟨rfl, rfl, h2⟩

/-- Non-vacuity: three episodes of two environments. The second episode of the first one has one step or nine: it is collected in both runs (with one step, together with the
episode of four steps; with nine, as the last one). -/
example : ∃ s1 s2 st1 st2, collect tapeCfg none (some 3) false false () 100 tapeCol = some (.ok (s1, st1)) ∧
    collect tapeCfg none (some 3) false false () 100 (tapeCol.withEnv 0 (2, [9, 1])) = some (.ok (s2, st2)) ∧
    s1.log.flatten.length = 7 ∧ s2.log.flatten.length = 15 ∧ episodesOf 0 s1.log = 2 ∧ 1 < episodesOf 0 s2.log := by
  have h1 : (after (collect tapeCfg none (some 3) false false () 100 tapeCol)).map (fun s' => (s'.log.flatten.length, episodesOf 0 s'.log)) = some (7, 2) := by
    decide +kernel
  have h2 : (after (collect tapeCfg none (some 3) false false () 100 (tapeCol.withEnv 0 (2, [9, 1])))).map (fun s' => s'.log.flatten.length) = some 15 := by
    decide +kernel
  rw [Option.map_eq_some_iff] at h1 h2
  obtain ⟨s1, a1, b1⟩ := h1
  obtain ⟨s2, a2, b2⟩ := h2
  obtain ⟨st1, c1⟩ := after_some a1
  obtain ⟨st2, c2⟩ := after_some a2
  simp only [Prod.mk.injEq] at b1
  refine ⟨s1, s2, st1, st2, c1, c2, b1.1, b2, b1.2, ?_⟩
  · obtain ⟨n1, n2, l1, l2, hiff⟩ := C292_unseen tapeCfg tapeCol s1 s2 (.reset (.built _) _ _ _) 3 (by decide) false () 100 100 st1 st2 0 1 (2, [9, 1])
      (tape_same 1 2 [1, 1, 1] [9, 1] rfl) c1 c2
    have q1 : s1.log = n1 := by rw [l1]; rfl
    have q2 : s2.log = n2 := by rw [l2]; rfl
    rw [q2]
    exact hiff.1 (by rw [← q1, b1.2]; decide)

/-- Non-vacuity, with a reset before the collection: the same episodes, counted from that reset on. -/
example : ∃ s s1 s2 st1 st2, Reachable tapeCfg s ∧ collect tapeCfg none (some 3) false true () 100 s = some (.ok (s1, st1)) ∧
    collect tapeCfg none (some 3) false true () 100 (s.withEnv 0 (0, [2, 9, 1])) = some (.ok (s2, st2)) ∧
    episodesOf 0 s1.log = 2 ∧ 1 < episodesOf 0 s2.log := by
  let s : Col (Nat × List Nat) Nat Nat Nat Nat Nat := { world := ⟨fun e => if e = 0 then (0, [2, 1, 1, 1]) else (0, [4, 4]), fun _ => 0⟩ }
  have h1 : (after (collect tapeCfg none (some 3) false true () 100 s)).map (fun s' => episodesOf 0 s'.log) = some 2 := by decide +kernel
  have h2 : (after (collect tapeCfg none (some 3) false true () 100 (s.withEnv 0 (0, [2, 9, 1])))).isSome = true := by decide +kernel
  rw [Option.map_eq_some_iff] at h1
  obtain ⟨s1, a1, b1⟩ := h1
  obtain ⟨s2, a2⟩ := Option.isSome_iff_exists.1 h2
  obtain ⟨st1, c1⟩ := after_some a1
  obtain ⟨st2, c2⟩ := after_some a2
  refine ⟨s, s1, s2, st1, st2, .built _, c1, c2, b1, ?_⟩
  obtain ⟨n1, n2, l1, l2, hiff⟩ := C292_reset tapeCfg s s1 s2 (.built _) 3 (by decide) false () 100 100 st1 st2 0 1 (0, [2, 9, 1])
    (fun _ => ⟨rfl, tape_same 1 2 [1, 1, 1] [9, 1] rfl⟩) c1 c2
  have q1 : s1.log = n1 := by rw [l1]; rfl
  have q2 : s2.log = n2 := by rw [l2]; rfl
  rw [q2]
  exact hiff.1 (by rw [← q1, b1]; decide)

end Verif.Collector
