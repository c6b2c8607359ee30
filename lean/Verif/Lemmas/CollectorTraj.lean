import Verif.Lemmas.CollectorCollect
import Mathlib.Algebra.Order.BigOperators.Group.List
import Mathlib.Algebra.Order.Ring.Nat

namespace Verif.Collector

set_option linter.unusedSectionVars false

variable {σ A O R I H K : Type}

/-- The loop invariant about trajectories. -/
def TInv (c : Cfg σ A O R I H K) (sit0 : Nat → Situation σ O I) (s : Loop σ A O R I H) : Prop :=
  ∀ e < c.envNum, ∃ sit, Trajectory c.env (sit0 e) (rowsOf e s.log) sit ∧ sit.state = s.world.envs e ∧
    (∀ i : Nat, s.ready[i]? = some e → s.lastObs[i]? = some (.val sit.obs) ∧ s.lastInfo[i]? = some sit.info) ∧
    (e ∉ s.ready → sit.fresh = true)

theorem TInv.next {c : Cfg σ A O R I H K} (hs : c.share = false) {nEpisode : Option Int} {random : Bool} {kw : K}
    {sit0 : Nat → Situation σ O I} {s s' : Loop σ A O R I H} {ent : List (Row O A R I)} (h : TInv c sit0 s)
    (hn : s.ready.Nodup) (hr : Round c nEpisode random kw s s' ent) : TInv c sit0 s' := by
  intro e he
  obtain ⟨sit, ht, hst, hcell, hfr⟩ := h e he
  have hc : ∀ o, c.cell e o = .val o := by intro o; simp [Cfg.cell, hs]
  by_cases hin : e ∈ s.ready
  · obtain ⟨i, hi⟩ := getElem?_mem_idx hin
    have hl : i < ent.length := by rw [hr.len]; exact getElem?_some_lt hi
    have hrow := List.getElem?_eq_getElem hl
    have hz : rowsOf e [s.ready.zip ent] = [ent[i]] := rowsOf_zip e _ _ hn i _ hi hrow
    obtain ⟨ho, hinf⟩ := hcell i hi
    have hobs : ent[i].obs = sit.obs := hr.obs i _ _ ho hrow
    have hgiv : ent[i].given = sit.info := by
      have := congrArg (·[i]?) hr.given
      simp only [List.getElem?_map, hrow, hinf, Option.map_some, Option.some.injEq] at this
      exact this
    obtain ⟨x, hx, ha, hb⟩ := hr.moved i e ent[i] hi hrow
    rw [← hst] at hx
    rw [hr.log, rowsOf_append, hz]
    cases hd : ent[i].out.done with
    | false =>
      obtain ⟨h1, h2, h3⟩ := ha hd
      refine ⟨_, .step _ x ht hobs hgiv hx hd, h1.symm, ?_, fun hc => absurd h2 hc⟩
      intro j hj
      have := h3 j hj
      rw [hc] at this
      exact this
    | true =>
      obtain ⟨y, o, inf, h1, h2, h3⟩ := hb hd
      refine ⟨_, .done _ x y kw o inf ht hobs hgiv hx hd h1, h2.symm, ?_, fun _ => rfl⟩
      intro j hj
      have := h3 j hj
      rw [hc] at this
      exact this
  · refine ⟨sit, ?_, ?_, ?_, fun _ => hfr hin⟩
    · rw [hr.log, rowsOf_append, rowsOf_zip_none e _ _ hin, List.append_nil]; exact ht
    · rw [hr.others e hin]; exact hst
    · intro j hj
      exact absurd (hr.sub.subset (List.mem_of_getElem? hj)) hin

theorem Round.decided {c : Cfg σ A O R I H K} {nEpisode : Option Int} {random : Bool} {kw : K}
    {s s' : Loop σ A O R I H} {ent : List (Row O A R I)} (hlo : s.lastObs.length = s.ready.length)
    (hv : ∀ (i : Nat) (x : Cell O), s.lastObs[i]? = some x → ∃ o, x = .val o)
    (hr : Round c nEpisode random kw s s' ent) : Decided c (s.ready.zip ent) := by
  have hm : ∀ {β : Type} (f : Row O A R I → β), (s.ready.zip ent).map (fun p => f p.2) = ent.map f := by
    intro β f
    have : (s.ready.zip ent).map Prod.snd = ent := List.map_snd_zip (by rw [hr.len])
    conv_rhs => rw [← this]
    rw [List.map_map]; rfl
  have hobs : ent.map Row.obs = s.lastObs.map (Cell.read s.world.mem) := by
    apply List.ext_getElem?
    intro i
    by_cases hi : i < ent.length
    · have hi2 : i < s.lastObs.length := by rw [hlo, ← hr.len]; exact hi
      obtain ⟨o, ho⟩ := hv i _ (List.getElem?_eq_getElem hi2)
      have h1 : s.lastObs[i]? = some (.val o) := by rw [List.getElem?_eq_getElem hi2, ho]
      rw [List.getElem?_map, List.getElem?_map, h1, List.getElem?_eq_getElem hi]
      simp only [Option.map_some, Option.some.injEq, Cell.read]
      exact hr.obs i o _ h1 (List.getElem?_eq_getElem hi)
    · rw [List.getElem?_eq_none (by simp; omega), List.getElem?_eq_none (by simp [hlo, ← hr.len]; omega)]
  have hact := hr.act
  have happ := hr.applied
  rw [← hobs, ← hr.given] at hact happ
  cases random with
  | false =>
    left
    refine ⟨s.calls, s.lastHidden, ?_, ?_⟩
    · rw [hm Row.act, hm Row.obs, hm Row.given, hact]
      simp [decide]
    · have : ent.map Row.applied = ent.map fun r => c.policy.mapAction r.act := by
        rw [happ]
        have : (ent.map fun r => c.policy.mapAction r.act) = (ent.map Row.act).map c.policy.mapAction := by
          rw [List.map_map]; rfl
        rw [this, hact]
        simp [decide]
      rintro ⟨e, r⟩ hp
      exact List.map_inj_left.1 this r (List.of_mem_zip hp).2
  | true =>
    right
    refine ⟨s.calls, ?_⟩
    simp only [decide, if_true] at hact happ
    rintro ⟨e, r⟩ hp
    obtain ⟨i, hi⟩ := getElem?_mem_idx hp
    rw [List.getElem?_zip_eq_some] at hi
    have h1 := congrArg (·[i]?) happ
    have h2 := congrArg (·[i]?) hact
    simp only [List.getElem?_map, hi.1, hi.2, Option.map_some, Option.some.injEq] at h1 h2
    exact ⟨h1, by rw [h2, h1]⟩

/-- The invariant between calls. -/
structure UInv (c : Cfg σ A O R I H K) (b : Bool) (s : Col σ A O R I H) (po : List (Cell O)) (pi : List I) : Prop where
  obs : s.preObs = some po
  info : s.preInfo = some pi
  lenObs : po.length = c.envNum
  lenInfo : pi.length = c.envNum
  traj : ∀ e < c.envNum, ∃ start sit, JustReset c.env start ∧ Trajectory c.env start (rowsOf e s.log) sit ∧
    sit.state = s.world.envs e ∧ po[e]? = some (.val sit.obs) ∧ pi[e]? = some sit.info ∧ (b = true → sit.fresh = true)
  others : ∀ e, c.envNum ≤ e → rowsOf e s.log = []
  decided : ∀ round ∈ s.log, Decided c round ∧ (round.map Prod.fst).Nodup

/-- Resetting all environments at episode boundaries. -/
theorem resetEnv_uinv (c : Cfg σ A O R I H K) (hs : c.share = false) (kw : K) (s : Col σ A O R I H)
    (ht : ∀ e < c.envNum, ∃ start sit, JustReset c.env start ∧ Trajectory c.env start (rowsOf e s.log) sit ∧
      sit.state = s.world.envs e ∧ sit.fresh = true)
    (ho : ∀ e, c.envNum ≤ e → rowsOf e s.log = []) (hd : ∀ round ∈ s.log, Decided c round ∧ (round.map Prod.fst).Nodup) :
    ∃ po pi, UInv c true (resetEnv c kw s) po pi := by
  refine ⟨_, _, ⟨rfl, rfl, by simp [resetEnvs_length], by simp [resetEnvs_length], ?_, ho, hd⟩⟩
  intro e he
  obtain ⟨start, sit, h1, h2, h3, h4⟩ := ht e he
  obtain ⟨hg1, hg2⟩ := resetEnvs_get c.env kw (List.range c.envNum) s.world List.nodup_range e e (List.getElem?_range he)
  refine ⟨start, ⟨true, (c.env.reset kw sit.state).1, (c.env.reset kw sit.state).2.1, (c.env.reset kw sit.state).2.2⟩, h1,
    .again kw _ _ _ h2 h4 rfl, ?_, ?_, ?_, fun _ => rfl⟩
  · rw [h3]; exact hg2.symm
  · have : ((List.range c.envNum).zip (resetEnvs c.env kw (List.range c.envNum) s.world).2)[e]?
        = some (e, (c.env.reset kw (s.world.envs e)).2) := List.getElem?_zip_eq_some.2 ⟨List.getElem?_range he, hg1⟩
    rw [List.getElem?_map, this, h3]
    simp [Cfg.cell, hs]
  · rw [List.getElem?_map, hg1, h3]; rfl

theorem reset_uinv_fresh (c : Cfg σ A O R I H K) (hs : c.share = false) (kw : K) (st : Bool) (s : Col σ A O R I H) :
    ∃ po pi, UInv c true (reset c true st kw s) po pi := by
  have h : ∃ po pi, UInv c true { resetEnv c kw s with log := [] } po pi := by
    refine ⟨_, _, ⟨rfl, rfl, by simp [resetEnvs_length], by simp [resetEnvs_length], ?_, fun _ _ => rfl, by simp⟩⟩
    intro e he
    obtain ⟨hg1, hg2⟩ := resetEnvs_get c.env kw (List.range c.envNum) s.world List.nodup_range e e (List.getElem?_range he)
    refine ⟨⟨true, (c.env.reset kw (s.world.envs e)).1, (c.env.reset kw (s.world.envs e)).2.1,
      (c.env.reset kw (s.world.envs e)).2.2⟩, _, ⟨rfl, kw, s.world.envs e, rfl⟩, .nil, hg2.symm, ?_, ?_, fun _ => rfl⟩
    · have : ((List.range c.envNum).zip (resetEnvs c.env kw (List.range c.envNum) s.world).2)[e]?
          = some (e, (c.env.reset kw (s.world.envs e)).2) := List.getElem?_zip_eq_some.2 ⟨List.getElem?_range he, hg1⟩
      rw [List.getElem?_map, this]
      simp [Cfg.cell, hs]
    · rw [List.getElem?_map, hg1]; rfl
  obtain ⟨po, pi, h1, h2, h3, h4, h5, h6, h7⟩ := h
  cases st <;> exact ⟨po, pi, h1, h2, h3, h4, h5, h6, h7⟩

theorem reset_uinv_kept (c : Cfg σ A O R I H K) (hs : c.share = false) (kw : K) (st : Bool) (s : Col σ A O R I H)
    {po : List (Cell O)} {pi : List I} (h : UInv c true s po pi) : ∃ po pi, UInv c true (reset c false st kw s) po pi := by
  obtain ⟨po, pi, h1, h2, h3, h4, h5, h6, h7⟩ := resetEnv_uinv c hs kw s
    (fun e he => by
      obtain ⟨a, b, x1, x2, x3, _, _, x4⟩ := h.traj e he
      exact ⟨a, b, x1, x2, x3, x4 rfl⟩) h.others h.decided
  cases st <;> exact ⟨po, pi, h1, h2, h3, h4, h5, h6, h7⟩

/-- The loop started from a state between calls. -/
theorem loop_uinv (c : Cfg σ A O R I H K) (hs : c.share = false) (nStep nEpisode : Option Int) (random : Bool) (kw : K)
    (fuel m : Nat) (hm : m ≤ c.envNum) (b : Bool) (hb : b = true ∨ m = c.envNum) (s : Col σ A O R I H) (po : List (Cell O))
    (pi : List I) (h : UInv c b s po pi) (l : Loop σ A O R I H)
    (hr : run c nStep nEpisode random kw fuel (start s (List.range m) po pi) = some (.ok l)) :
    ∃ sit0 : Nat → Situation σ O I, (∀ e < c.envNum, JustReset c.env (sit0 e)) ∧ TInv c sit0 l ∧
      (∀ e, c.envNum ≤ e → rowsOf e l.log = []) ∧ (∀ round ∈ l.log, Decided c round ∧ (round.map Prod.fst).Nodup) := by
  have htr := h.traj
  have hch : ∃ sit0 : Nat → Situation σ O I, ∀ e < c.envNum, ∃ sit, JustReset c.env (sit0 e) ∧
      Trajectory c.env (sit0 e) (rowsOf e s.log) sit ∧ sit.state = s.world.envs e ∧ po[e]? = some (.val sit.obs) ∧
      pi[e]? = some sit.info ∧ (b = true → sit.fresh = true) := by
    by_cases hz : c.envNum = 0
    · refine ⟨fun _ => ⟨true, s.world.envs 0, s.world.mem 0, ?_⟩, fun e he => by omega⟩
      cases fuel with
      | zero => simp [run] at hr
      | succ fuel =>
        exfalso
        have hm0 : m = 0 := by omega
        subst hm0
        rw [run] at hr
        have : iter c nEpisode random kw (start s (List.range 0) po pi) = .error .value ∨
            iter c nEpisode random kw (start s (List.range 0) po pi) = .error .assertion := by
          unfold iter
          simp only [start, List.range_zero]
          split_ifs
          · right; rfl
          · left; rfl
        rcases this with h | h <;> rw [h] at hr <;> simp at hr
    · obtain ⟨d, _⟩ := htr 0 (by omega)
      classical
      refine ⟨fun e => if he : e < c.envNum then (htr e he).choose else d, fun e he => ?_⟩
      simp only [dif_pos he]
      exact (htr e he).choose_spec
  obtain ⟨sit0, hsit⟩ := hch
  refine ⟨sit0, fun e he => by obtain ⟨_, x, _⟩ := hsit e he; exact x, ?_⟩
  have hi := start_inv nEpisode s m po pi (by rw [h.lenObs]; exact hm) (by rw [h.lenInfo]; exact hm)
  have hP := run_induct c nStep nEpisode random kw
    (fun x => (∃ new, Inv nEpisode (List.range m) s.log new x) ∧ TInv c sit0 x ∧ (∀ e, c.envNum ≤ e → rowsOf e x.log = []) ∧
      (∀ round ∈ x.log, Decided c round ∧ (round.map Prod.fst).Nodup)) ?_ fuel _ _ hr ⟨⟨[], hi⟩, ?_, h.others, h.decided⟩
  · exact hP.1.2
  · rintro x y ⟨⟨new, hx⟩, ht, ho, hd⟩ hit
    obtain ⟨ent, hrd, hinv⟩ := hx.iter hit
    refine ⟨⟨_, hinv⟩, ht.next hs hx.nodup hrd, ?_, ?_⟩
    · intro e he
      rw [hrd.log, rowsOf_append, ho e he, rowsOf_zip_none e _ _ fun hc => ?_]; rfl
      have := List.mem_range.1 (hx.sub e hc)
      omega
    · intro round hround
      rw [hrd.log, List.mem_append, List.mem_singleton] at hround
      rcases hround with hround | rfl
      · exact hd round hround
      · refine ⟨hrd.decided hx.lenObs ?_, by rw [List.map_fst_zip (by rw [hrd.len])]; exact hx.nodup⟩
        intro i cell hcell
        have hi2 : i < x.ready.length := by rw [← hx.lenObs]; exact getElem?_some_lt hcell
        have he := List.getElem?_eq_getElem hi2
        obtain ⟨sit, _, _, h3, _⟩ := ht x.ready[i] (by
          have := List.mem_range.1 (hx.sub _ (List.mem_of_getElem? he)); omega)
        have := (h3 i he).1
        rw [hcell] at this
        exact ⟨_, Option.some.inj this⟩
  · intro e he
    obtain ⟨sit, _, h2, h3, h4, h5, h6⟩ := hsit e he
    refine ⟨sit, h2, h3, ?_, ?_⟩
    · intro i hi'
      have him : i < m := by
        have := getElem?_some_lt hi'
        simpa [start] using this
      have hie : i = e := by
        have : (List.range m)[i]? = some e := hi'
        rw [List.getElem?_range him, Option.some.injEq] at this
        exact this
      subst hie
      simp only [start]
      rw [filterMap_range _ _ (by rw [h.lenObs]; exact hm), filterMap_range _ _ (by rw [h.lenInfo]; exact hm),
        List.getElem?_take, List.getElem?_take, if_pos him, if_pos him]
      exact ⟨h4, h5⟩
    · intro hne
      apply h6
      rcases hb with hb | hb
      · exact hb
      · subst hb
        exact absurd (List.mem_range.2 he) hne

theorem prepared_uinv (c : Cfg σ A O R I H K) (hs : c.share = false) (kw : K) (before b : Bool)
    (hb : before = true → b = true) (s : Col σ A O R I H)
    {po : List (Cell O)} {pi : List I} (h : UInv c b s po pi) : ∃ po pi, UInv c b (prepared c before kw s) po pi := by
  cases before with
  | false => exact ⟨po, pi, h⟩
  | true =>
    obtain rfl := hb rfl
    exact reset_uinv_kept c hs kw true s h

theorem usage_uinv (c : Cfg σ A O R I H K) (hs : c.share = false) (b : Bool) (s : Col σ A O R I H) (h : Usage c b s) :
    ∃ po pi, UInv c b s po pi := by
  induction h with
  | reset h st kw => exact reset_uinv_fresh c hs kw st _
  | resetKept h st kw ih =>
    obtain ⟨po, pi, ih⟩ := ih
    exact reset_uinv_kept c hs kw st _ ih
  | @steps b s s' h n random before hb kw fuel st hc ih =>
    obtain ⟨_, _, ih⟩ := ih
    obtain ⟨po, pi, hp⟩ := prepared_uinv c hs kw before b hb s ih
    obtain ⟨_, po', pi', l, hpo, hpi, hr, rfl, _⟩ := collect_steps c n random before kw fuel s s' st hc
    rw [hp.obs, Option.some.injEq] at hpo
    rw [hp.info, Option.some.injEq] at hpi
    subst hpo; subst hpi
    obtain ⟨sit0, hj, ht, ho, hd⟩ := loop_uinv c hs _ _ random kw fuel c.envNum le_rfl b (Or.inr rfl) _ po pi hp l hr
    obtain ⟨⟨new, _, hinv, _⟩, _⟩ := run_inv c _ _ random kw fuel _ _ _ _ hr
      (start_inv none _ c.envNum po pi (by rw [hp.lenObs]) (by rw [hp.lenInfo]))
    have hready : l.ready = List.range c.envNum := (hinv.stay rfl).1
    refine ⟨l.lastObs, l.lastInfo, ⟨rfl, rfl, by rw [hinv.lenObs, hready, List.length_range],
      by rw [hinv.lenInfo, hready, List.length_range], ?_, ho, hd⟩⟩
    intro e he
    obtain ⟨sit, h1, h2, h3, _⟩ := ht e he
    obtain ⟨h4, h5⟩ := h3 e (by rw [hready]; exact List.getElem?_range he)
    exact ⟨sit0 e, sit, hj e he, h1, h2, h4, h5, by simp⟩
  | @episodes b s s' h n hn random before hb kw fuel st hc ih =>
    obtain ⟨_, _, ih⟩ := ih
    obtain ⟨po, pi, hp⟩ := prepared_uinv c hs kw before b hb s ih
    obtain ⟨hn0, po', pi', l, hpo, hpi, hr, rfl, _⟩ := collect_episodes c n random before kw fuel s s' st hc
    rw [hp.obs, Option.some.injEq] at hpo
    rw [hp.info, Option.some.injEq] at hpi
    subst hpo; subst hpi
    have hm : (min (c.envNum : Int) n).toNat ≤ c.envNum := by omega
    obtain ⟨sit0, hj, ht, ho, hd⟩ := loop_uinv c hs _ _ random kw fuel _ hm b (hn.imp id (by omega)) _ po pi hp l hr
    obtain ⟨⟨new, hnew, hinv, _⟩, hst⟩ := run_inv c _ _ random kw fuel _ _ _ _ hr
      (start_inv (some n) _ _ po pi (by rw [hp.lenObs]; exact hm) (by rw [hp.lenInfo]; exact hm))
    have hempty : l.ready = [] := by
      simp only [stops, Bool.false_or, Bool.and_eq_true, decide_eq_true_eq, ne_eq, ge_iff_le] at hst
      by_cases hpos : 0 < n
      · have := hinv.count n rfl hn0 (by rw [List.length_range]; omega)
        have : l.ready.length = 0 := by omega
        exact List.length_eq_zero_iff.1 this
      · have hz : (min (c.envNum : Int) n).toNat = 0 := by omega
        have hsub := hinv.sub
        rw [hz] at hsub
        rw [List.eq_nil_iff_forall_not_mem]
        intro e he
        simpa using hsub e he
    apply resetEnv_uinv c hs kw _ _ ho hd
    intro e he
    obtain ⟨sit, h1, h2, _, h4⟩ := ht e he
    exact ⟨sit0 e, sit, hj e he, h1, h2, h4 (by rw [hempty]; simp)⟩

/-- Termination of a collection by steps. -/
theorem run_steps_terminates (c : Cfg σ A O R I H K) (hf : Fitting c) (n : Int) (random : Bool) (kw : K)
    (ready0 : List Nat) (hne : ready0 ≠ []) (base : List (List (Nat × Row O A R I))) :
    ∀ (m : Nat) (s : Loop σ A O R I H) (new : List (List (Nat × Row O A R I))), Inv none ready0 base new s → n ≠ 0 →
      (n - s.stepCount).toNat ≤ m →
      ∃ fuel l, run c (some n) none random kw fuel s = some (.ok l) := by
  have hpos : 0 < ready0.length := List.length_pos_iff.2 hne
  intro m
  induction m with
  | zero =>
    intro s new hi hn hm
    obtain ⟨t, ht⟩ := iter_ok c hf none random kw s hi.lenObs (by rw [(hi.stay rfl).1]; exact hne)
    obtain ⟨ent, hrd, hinv⟩ := hi.iter ht
    refine ⟨1, t, ?_⟩
    have hst : stops (some n) none t.stepCount t.numEpisodes = true := by
      have := hrd.steps
      simp only [stops, Bool.or_false, Bool.and_eq_true, decide_eq_true_eq, ne_eq, ge_iff_le]
      exact ⟨hn, by omega⟩
    rw [run, ht]
    simp [hst]
  | succ m ih =>
    intro s new hi hn hm
    obtain ⟨t, ht⟩ := iter_ok c hf none random kw s hi.lenObs (by rw [(hi.stay rfl).1]; exact hne)
    obtain ⟨ent, hrd, hinv⟩ := hi.iter ht
    by_cases hst : stops (some n) none t.stepCount t.numEpisodes = true
    · refine ⟨1, t, ?_⟩
      rw [run, ht]
      simp [hst]
    · have h1 := hrd.steps
      rw [(hi.stay rfl).1] at h1
      obtain ⟨fuel, l, hl⟩ := ih t _ hinv hn (by omega)
      refine ⟨fuel + 1, l, ?_⟩
      rw [run, ht]
      simp only [hst]
      exact hl

/-- Termination of a collection by episodes. -/
theorem run_episodes_terminates (c : Cfg σ A O R I H K) (hf : Fitting c) (left : σ → Nat) (hl : TimeLimited c.env left)
    (n : Int) (hn : n ≠ 0) (random : Bool) (kw : K) (ready0 : List Nat) (base : List (List (Nat × Row O A R I))) :
    ∀ (m k : Nat) (s : Loop σ A O R I H) (new : List (List (Nat × Row O A R I))), Inv (some n) ready0 base new s →
      s.ready ≠ [] → (n - s.numEpisodes).toNat ≤ m → (s.ready.map fun e => left (s.world.envs e)).sum ≤ k →
      ∃ fuel l, run c none (some n) random kw fuel s = some (.ok l) := by
  intro m
  induction m with
  | zero =>
    intro k s new hi hne hm _
    obtain ⟨t, ht⟩ := iter_ok c hf (some n) random kw s hi.lenObs hne
    obtain ⟨ent, hrd, hinv⟩ := hi.iter ht
    refine ⟨1, t, ?_⟩
    have hst : stops none (some n) t.stepCount t.numEpisodes = true := by
      have := hrd.eps
      simp only [stops, Bool.false_or, Bool.and_eq_true, decide_eq_true_eq, ne_eq, ge_iff_le]
      exact ⟨hn, by omega⟩
    rw [run, ht]
    simp [hst]
  | succ m ihm =>
    intro k
    induction k with
    | zero =>
      intro s new hi hne hm hk
      obtain ⟨t, ht⟩ := iter_ok c hf (some n) random kw s hi.lenObs hne
      obtain ⟨ent, hrd, hinv⟩ := hi.iter ht
      by_cases hst : stops none (some n) t.stepCount t.numEpisodes = true
      · exact ⟨1, t, by rw [run, ht]; simp [hst]⟩
      · have hne' : t.ready ≠ [] := by
          intro hc
          apply hst
          have := hrd.last n rfl hn hc
          simp only [stops, Bool.false_or, Bool.and_eq_true, decide_eq_true_eq, ne_eq, ge_iff_le]
          exact ⟨hn, this⟩
        by_cases heq : t.numEpisodes = s.numEpisodes
        · exfalso
          obtain ⟨e, he⟩ := List.exists_mem_of_ne_nil _ hne
          obtain ⟨i, hi'⟩ := getElem?_mem_idx he
          have hlt : i < ent.length := by rw [hrd.len]; exact getElem?_some_lt hi'
          have hrow := List.getElem?_eq_getElem hlt
          have hnd : ent[i].out.done = false := by
            have h0 : (ent.filter fun r => r.out.done) = [] := List.length_eq_zero_iff.1 (by have := hrd.eps; omega)
            have := List.filter_eq_nil_iff.1 h0 ent[i] (List.getElem_mem _)
            simpa using this
          obtain ⟨x, hx, _, _⟩ := hrd.moved i e _ hi' hrow
          have := hl (s.world.envs e) ent[i].applied (by rw [hx]; exact hnd)
          have hmem := List.single_le_sum (l := s.ready.map fun e => left (s.world.envs e)) (by simp) _
            (List.mem_map.2 ⟨e, he, rfl⟩)
          omega
        · have := hrd.eps
          simp only [stops, Bool.false_or, Bool.and_eq_true, decide_eq_true_eq, ne_eq, ge_iff_le, not_and] at hst
          have := hst hn
          obtain ⟨fuel, l, hfl⟩ := ihm _ t _ hinv hne' (by omega) le_rfl
          refine ⟨fuel + 1, l, ?_⟩
          rw [run, ht]
          have hst' : stops none (some n) t.stepCount t.numEpisodes = false := by
            simp only [stops, Bool.false_or]
            simp only [ge_iff_le, Bool.and_eq_false_iff, decide_eq_false_iff_not]
            exact Or.inr this
          simp only [hst', Bool.false_eq_true, if_false]
          exact hfl
    | succ k ihk =>
      intro s new hi hne hm hk
      obtain ⟨t, ht⟩ := iter_ok c hf (some n) random kw s hi.lenObs hne
      obtain ⟨ent, hrd, hinv⟩ := hi.iter ht
      by_cases hst : stops none (some n) t.stepCount t.numEpisodes = true
      · exact ⟨1, t, by rw [run, ht]; simp [hst]⟩
      · have hst' : stops none (some n) t.stepCount t.numEpisodes = false := by simpa using hst
        have hne' : t.ready ≠ [] := by
          intro hc
          apply hst
          have := hrd.last n rfl hn hc
          simp only [stops, Bool.false_or, Bool.and_eq_true, decide_eq_true_eq, ne_eq, ge_iff_le]
          exact ⟨hn, this⟩
        suffices hh : ∃ fuel l, run c none (some n) random kw fuel t = some (.ok l) by
          obtain ⟨fuel, l, hfl⟩ := hh
          refine ⟨fuel + 1, l, ?_⟩
          rw [run, ht]
          simp only [hst', Bool.false_eq_true, if_false]
          exact hfl
        by_cases heq : t.numEpisodes = s.numEpisodes
        · apply ihk t _ hinv hne' (by omega)
          have hready := hrd.idleRound heq
          rw [hready]
          have hlt : (s.ready.map fun e => left (t.world.envs e)).sum < (s.ready.map fun e => left (s.world.envs e)).sum := by
            apply List.sum_lt_sum_of_ne_nil hne
            intro e he
            obtain ⟨i, hi'⟩ := getElem?_mem_idx he
            have hlt : i < ent.length := by rw [hrd.len]; exact getElem?_some_lt hi'
            have hrow := List.getElem?_eq_getElem hlt
            have hnd : ent[i].out.done = false := by
              have h0 : (ent.filter fun r => r.out.done) = [] := List.length_eq_zero_iff.1 (by have := hrd.eps; omega)
              have := List.filter_eq_nil_iff.1 h0 ent[i] (List.getElem_mem _)
              simpa using this
            obtain ⟨x, hx, h1, _⟩ := hrd.moved i e _ hi' hrow
            have := hl (s.world.envs e) ent[i].applied (by rw [hx]; exact hnd)
            rw [hx] at this
            rw [(h1 hnd).1]
            exact this
          omega
        · have := hrd.eps
          exact ihm _ t _ hinv hne' (by omega) le_rfl

end Verif.Collector
