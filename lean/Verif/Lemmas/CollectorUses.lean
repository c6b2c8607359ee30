import Verif.Spec.CollectorUses
import Verif.Lemmas.CollectorTraj

namespace Verif.Collector

set_option linter.unusedSectionVars false

variable {σ A O R I H K : Type}

/-- One more row, without the end of an episode. -/
theorem Segmented.step {E : Env σ A O R I K} {k : Nat} {rows : List (Row O A R I)} {s : Situation σ O I} (h : Segmented E k rows s)
    (row : Row O A R I) (x : σ) (hobs : row.obs = s.obs) (hinfo : row.given = s.info)
    (hstep : E.step s.state row.applied = (x, row.out)) (hdone : row.out.ended = false) :
    Segmented E k (rows ++ [row]) ⟨false, x, row.out.obs, row.out.info⟩ := by
  obtain ⟨segs, last, start, rfl, h2, h3, h4, h5⟩ := h
  exact ⟨segs, last ++ [row], start, by simp, h2, h3, h4, .step row x h5 hobs hinfo hstep hdone⟩

/-- One more row, the last of its episode, and a reset. -/
theorem Segmented.done {E : Env σ A O R I K} {k : Nat} {rows : List (Row O A R I)} {s : Situation σ O I} (h : Segmented E k rows s)
    (row : Row O A R I) (x y : σ) (kw : K) (o : O) (i : I) (hobs : row.obs = s.obs) (hinfo : row.given = s.info)
    (hstep : E.step s.state row.applied = (x, row.out)) (hdone : row.out.ended = true) (hreset : E.reset kw x = (y, o, i)) :
    Segmented E k (rows ++ [row]) ⟨true, y, o, i⟩ := by
  obtain ⟨segs, last, start, rfl, h2, h3, h4, h5⟩ := h
  exact ⟨segs, last ++ [row], start, by simp, h2, h3, h4, .done row x y kw o i h5 hobs hinfo hstep hdone hreset⟩

/-- A reset between episodes. -/
theorem Segmented.again {E : Env σ A O R I K} {k : Nat} {rows : List (Row O A R I)} {s : Situation σ O I} (h : Segmented E k rows s)
    (kw : K) (y : σ) (o : O) (i : I) (hf : s.fresh = true) (hreset : E.reset kw s.state = (y, o, i)) :
    Segmented E k rows ⟨true, y, o, i⟩ := by
  obtain ⟨segs, last, start, h1, h2, h3, h4, h5⟩ := h
  exact ⟨segs, last, start, h1, h2, h3, h4, .again kw y o i h5 hf hreset⟩

/-- A reset at any time. -/
theorem Segmented.broken {E : Env σ A O R I K} {k : Nat} {rows : List (Row O A R I)} {s : Situation σ O I} (h : Segmented E k rows s)
    (kw : K) (y : σ) (o : O) (i : I) (hreset : E.reset kw s.state = (y, o, i)) :
    Segmented E (k + 1) rows ⟨true, y, o, i⟩ := by
  obtain ⟨segs, last, start, rfl, h2, h3, h4, h5⟩ := h
  refine ⟨segs ++ [last], [], ⟨true, y, o, i⟩, by simp, by simp; omega, ?_, ⟨rfl, kw, s.state, hreset⟩, .nil⟩
  intro seg hseg
  rcases List.mem_append.1 hseg with hseg | hseg
  · exact h3 seg hseg
  · rw [List.mem_singleton.1 hseg]
    exact ⟨start, s, h4, h5⟩

theorem Segmented.mono {E : Env σ A O R I K} {k k' : Nat} {rows : List (Row O A R I)} {s : Situation σ O I} (h : Segmented E k rows s)
    (hk : k ≤ k') : Segmented E k' rows s := by
  obtain ⟨segs, last, start, h1, h2, h3⟩ := h
  exact ⟨segs, last, start, h1, by omega, h3⟩

/-- The loop invariant. `b0`: no environment was in the middle of an episode at the start, or all take part. -/
def SInv (c : Cfg σ A O R I H K) (k : Nat) (b0 : Bool) (s : Loop σ A O R I H) : Prop :=
  ∀ e < c.envNum, ∃ sit, Segmented c.env k (rowsOf e s.log) sit ∧ sit.state = s.world.envs e ∧
    (∀ i : Nat, s.ready[i]? = some e → s.lastObs[i]? = some (.val sit.obs) ∧ s.lastInfo[i]? = some sit.info) ∧
    (b0 = true → e ∉ s.ready → sit.fresh = true)

theorem SInv.next {c : Cfg σ A O R I H K} (hs : c.share = false) {nEpisode : Option Int} {random : Bool} {kw : K}
    {k : Nat} {b0 : Bool} {s s' : Loop σ A O R I H} {ent : List (Row O A R I)} (h : SInv c k b0 s)
    (hn : s.ready.Nodup) (hr : Round c nEpisode random kw s s' ent) : SInv c k b0 s' := by
  intro e he
  obtain ⟨sit, ht, hst, hcell, hfr⟩ := h e he
  have hc : ∀ o, c.cell e o = .val o := by intro o; simp [Cfg.cell, hs]
  by_cases hin : e ∈ s.ready
  · obtain ⟨i, hi⟩ := getElem?_mem_idx hin
    have hl : i < ent.length := by rw [hr.len]; exact getElem?_some_lt hi
    have hrow := List.getElem?_eq_getElem hl
    have hz : rowsOf e [s.ready.zip ent] = [ent[i]] := rowsOf_zip e _ _ hn i _ hi hrow
    obtain ⟨ho, hinf⟩ := hcell i hi
    have hobs : ent[i].obs = sit.obs := hr.obs i _ _ ho hrow
    have hgiv : ent[i].given = sit.info := by
      have := congrArg (·[i]?) hr.given
      simp only [List.getElem?_map, hrow, hinf, Option.map_some, Option.some.injEq] at this
      exact this
    obtain ⟨x, hx, ha, hb⟩ := hr.moved i e ent[i] hi hrow
    rw [← hst] at hx
    rw [hr.log, rowsOf_append, hz]
    cases hd : ent[i].out.done with
    | false =>
      obtain ⟨h1, h2, h3⟩ := ha hd
      refine ⟨_, ht.step _ x hobs hgiv hx hd, h1.symm, ?_, fun _ hc => absurd h2 hc⟩
      intro j hj
      have := h3 j hj
      rw [hc] at this
      exact this
    | true =>
      obtain ⟨y, o, inf, h1, h2, h3⟩ := hb hd
      refine ⟨_, ht.done _ x y kw o inf hobs hgiv hx hd h1, h2.symm, ?_, fun _ _ => rfl⟩
      intro j hj
      have := h3 j hj
      rw [hc] at this
      exact this
  · refine ⟨sit, ?_, ?_, ?_, fun hb _ => hfr hb hin⟩
    · rw [hr.log, rowsOf_append, rowsOf_zip_none e _ _ hin, List.append_nil]; exact ht
    · rw [hr.others e hin]; exact hst
    · intro j hj
      exact absurd (hr.sub.subset (List.mem_of_getElem? hj)) hin

/-- The invariant between calls. -/
structure SUInv (c : Cfg σ A O R I H K) (b : Bool) (k : Nat) (s : Col σ A O R I H) (po : List (Cell O)) (pi : List I) : Prop where
  obs : s.preObs = some po
  info : s.preInfo = some pi
  lenObs : po.length = c.envNum
  lenInfo : pi.length = c.envNum
  traj : ∀ e < c.envNum, ∃ sit, Segmented c.env k (rowsOf e s.log) sit ∧
    sit.state = s.world.envs e ∧ po[e]? = some (.val sit.obs) ∧ pi[e]? = some sit.info ∧ (b = true → sit.fresh = true)
  others : ∀ e, c.envNum ≤ e → rowsOf e s.log = []

/-- Resetting all environments. -/
theorem resetEnv_suinv (c : Cfg σ A O R I H K) (hs : c.share = false) (kw : K) (b : Bool) (k : Nat) (s : Col σ A O R I H)
    (ht : ∀ e < c.envNum, ∃ sit, Segmented c.env k (rowsOf e s.log) sit ∧ sit.state = s.world.envs e ∧ (b = true → sit.fresh = true))
    (ho : ∀ e, c.envNum ≤ e → rowsOf e s.log = []) :
    ∃ po pi, SUInv c true (if b then k else k + 1) (resetEnv c kw s) po pi := by
  refine ⟨_, _, ⟨rfl, rfl, by simp [resetEnvs_length], by simp [resetEnvs_length], ?_, ho⟩⟩
  intro e he
  obtain ⟨sit, h2, h3, h4⟩ := ht e he
  obtain ⟨hg1, hg2⟩ := resetEnvs_get c.env kw (List.range c.envNum) s.world List.nodup_range e e (List.getElem?_range he)
  refine ⟨⟨true, (c.env.reset kw sit.state).1, (c.env.reset kw sit.state).2.1, (c.env.reset kw sit.state).2.2⟩,
    ?_, ?_, ?_, ?_, fun _ => rfl⟩
  · cases b with
    | true => exact h2.again kw _ _ _ (h4 rfl) rfl
    | false => exact h2.broken kw _ _ _ rfl
  · rw [h3]; exact hg2.symm
  · have : ((List.range c.envNum).zip (resetEnvs c.env kw (List.range c.envNum) s.world).2)[e]?
        = some (e, (c.env.reset kw (s.world.envs e)).2) := List.getElem?_zip_eq_some.2 ⟨List.getElem?_range he, hg1⟩
    rw [List.getElem?_map, this, h3]
    simp [Cfg.cell, hs]
  · rw [List.getElem?_map, hg1, h3]; rfl

theorem reset_suinv_kept (c : Cfg σ A O R I H K) (hs : c.share = false) (kw : K) (st b : Bool) (k : Nat) (s : Col σ A O R I H)
    {po : List (Cell O)} {pi : List I} (h : SUInv c b k s po pi) :
    ∃ po pi, SUInv c true (if b then k else k + 1) (reset c false st kw s) po pi := by
  obtain ⟨po, pi, h1, h2, h3, h4, h5, h6⟩ := resetEnv_suinv c hs kw b k s
    (fun e he => by
      obtain ⟨b, x1, x2, _, _, x4⟩ := h.traj e he
      exact ⟨b, x1, x2, x4⟩) h.others
  cases st <;> exact ⟨po, pi, h1, h2, h3, h4, h5, h6⟩

/-- The loop started from a state between calls. -/
theorem loop_suinv (c : Cfg σ A O R I H K) (hs : c.share = false) (nStep nEpisode : Option Int) (random : Bool) (kw : K)
    (fuel m : Nat) (hm : m ≤ c.envNum) (b b0 : Bool) (hb : b0 = true → b = true ∨ m = c.envNum) (k : Nat) (s : Col σ A O R I H)
    (po : List (Cell O)) (pi : List I) (h : SUInv c b k s po pi) (l : Loop σ A O R I H)
    (hr : run c nStep nEpisode random kw fuel (start s (List.range m) po pi) = some (.ok l)) :
    SInv c k b0 l ∧ ∀ e, c.envNum ≤ e → rowsOf e l.log = [] := by
  have hi := start_inv nEpisode s m po pi (by rw [h.lenObs]; exact hm) (by rw [h.lenInfo]; exact hm)
  have hP := run_induct c nStep nEpisode random kw
    (fun x => (∃ new, Inv nEpisode (List.range m) s.log new x) ∧ SInv c k b0 x ∧ (∀ e, c.envNum ≤ e → rowsOf e x.log = []))
    ?_ fuel _ _ hr ⟨⟨[], hi⟩, ?_, h.others⟩
  · exact hP.1.2
  · rintro x y ⟨⟨new, hx⟩, ht, ho⟩ hit
    obtain ⟨ent, hrd, hinv⟩ := hx.iter hit
    refine ⟨⟨_, hinv⟩, ht.next hs hx.nodup hrd, ?_⟩
    intro e he
    rw [hrd.log, rowsOf_append, ho e he, rowsOf_zip_none e _ _ fun hc => ?_]; rfl
    have := List.mem_range.1 (hx.sub e hc)
    omega
  · intro e he
    obtain ⟨sit, h2, h3, h4, h5, h6⟩ := h.traj e he
    refine ⟨sit, h2, h3, ?_, ?_⟩
    · intro i hi'
      have him : i < m := by
        have := getElem?_some_lt hi'
        simpa [start] using this
      have hie : i = e := by
        have : (List.range m)[i]? = some e := hi'
        rw [List.getElem?_range him, Option.some.injEq] at this
        exact this
      subst hie
      simp only [start]
      rw [filterMap_range _ _ (by rw [h.lenObs]; exact hm), filterMap_range _ _ (by rw [h.lenInfo]; exact hm),
        List.getElem?_take, List.getElem?_take, if_pos him, if_pos him]
      exact ⟨h4, h5⟩
    · intro hb0 hne
      apply h6
      rcases hb hb0 with hb | hb
      · exact hb
      · subst hb
        exact absurd (List.mem_range.2 he) hne

theorem prepared_suinv (c : Cfg σ A O R I H K) (hs : c.share = false) (kw : K) (before b : Bool) (k : Nat) (s : Col σ A O R I H)
    {po : List (Cell O)} {pi : List I} (h : SUInv c b k s po pi) :
    ∃ po pi, SUInv c (before || b) (if before && !b then k + 1 else k) (prepared c before kw s) po pi := by
  cases before with
  | false => exact ⟨po, pi, h⟩
  | true =>
    obtain ⟨po, pi, h⟩ := reset_suinv_kept c hs kw true b k s h
    refine ⟨po, pi, ?_⟩
    cases b <;> exact h

theorem uses_suinv (c : Cfg σ A O R I H K) (hs : c.share = false) (b : Bool) (k : Nat) (s : Col σ A O R I H) (h : Uses c b k s) :
    ∃ po pi, SUInv c b k s po pi := by
  induction h with
  | reset h st kw =>
    obtain ⟨po, pi, h⟩ := reset_uinv_fresh c hs kw st _
    refine ⟨po, pi, h.obs, h.info, h.lenObs, h.lenInfo, ?_, h.others⟩
    intro e he
    obtain ⟨start, sit, h1, h2, h3, h4, h5, h6⟩ := h.traj e he
    exact ⟨sit, ⟨[], _, start, rfl, by simp, by simp, h1, h2⟩, h3, h4, h5, h6⟩
  | resetKept h st kw ih =>
    obtain ⟨po, pi, ih⟩ := ih
    exact reset_suinv_kept c hs kw st _ _ _ ih
  | @steps b k s s' h n random before kw fuel st hc ih =>
    obtain ⟨_, _, ih⟩ := ih
    obtain ⟨po, pi, hp⟩ := prepared_suinv c hs kw before b k s ih
    obtain ⟨_, po', pi', l, hpo, hpi, hr, rfl, _⟩ := collect_steps c n random before kw fuel s s' st hc
    rw [hp.obs, Option.some.injEq] at hpo
    rw [hp.info, Option.some.injEq] at hpi
    subst hpo; subst hpi
    obtain ⟨ht, ho⟩ := loop_suinv c hs _ _ random kw fuel c.envNum le_rfl _ true (fun _ => Or.inr rfl) _ _ po pi hp l hr
    obtain ⟨⟨new, _, hinv, _⟩, _⟩ := run_inv c _ _ random kw fuel _ _ _ _ hr
      (start_inv none _ c.envNum po pi (by rw [hp.lenObs]) (by rw [hp.lenInfo]))
    have hready : l.ready = List.range c.envNum := (hinv.stay rfl).1
    refine ⟨l.lastObs, l.lastInfo, ⟨rfl, rfl, by rw [hinv.lenObs, hready, List.length_range],
      by rw [hinv.lenInfo, hready, List.length_range], ?_, ho⟩⟩
    intro e he
    obtain ⟨sit, h1, h2, h3, _⟩ := ht e he
    obtain ⟨h4, h5⟩ := h3 e (by rw [hready]; exact List.getElem?_range he)
    exact ⟨sit, h1, h2, h4, h5, by simp⟩
  | @episodes b k s s' h n random before kw fuel st hc ih =>
    obtain ⟨_, _, ih⟩ := ih
    obtain ⟨po, pi, hp⟩ := prepared_suinv c hs kw before b k s ih
    obtain ⟨hn0, po', pi', l, hpo, hpi, hr, rfl, _⟩ := collect_episodes c n random before kw fuel s s' st hc
    rw [hp.obs, Option.some.injEq] at hpo
    rw [hp.info, Option.some.injEq] at hpi
    subst hpo; subst hpi
    have hm : (min (c.envNum : Int) n).toNat ≤ c.envNum := by omega
    obtain ⟨ht, ho⟩ := loop_suinv c hs _ _ random kw fuel _ hm _ ((before || b) || Decidable.decide ((c.envNum : Int) ≤ n))
      (fun h => by
        rw [Bool.or_eq_true, decide_eq_true_eq] at h
        exact h.imp id (by omega)) _ _ po pi hp l hr
    obtain ⟨⟨new, hnew, hinv, _⟩, hst⟩ := run_inv c _ _ random kw fuel _ _ _ _ hr
      (start_inv (some n) _ _ po pi (by rw [hp.lenObs]; exact hm) (by rw [hp.lenInfo]; exact hm))
    have hempty : l.ready = [] := by
      simp only [stops, Bool.false_or, Bool.and_eq_true, decide_eq_true_eq, ne_eq, ge_iff_le] at hst
      by_cases hpos : 0 < n
      · have := hinv.count n rfl hn0 (by rw [List.length_range]; omega)
        have : l.ready.length = 0 := by omega
        exact List.length_eq_zero_iff.1 this
      · have hz : (min (c.envNum : Int) n).toNat = 0 := by omega
        have hsub := hinv.sub
        rw [hz] at hsub
        rw [List.eq_nil_iff_forall_not_mem]
        intro e he
        simpa using hsub e he
    obtain ⟨po, pi, hfin⟩ := resetEnv_suinv c hs kw ((before || b) || Decidable.decide ((c.envNum : Int) ≤ n)) _
      { prepared c before kw s with
        world := l.world
        collectStep := (prepared c before kw s).collectStep + l.stepCount
        collectEpisode := (prepared c before kw s).collectEpisode + l.numEpisodes
        calls := l.calls
        log := l.log
        asked := l.asked } (by
        intro e he
        obtain ⟨sit, h1, h2, _, h4⟩ := ht e he
        exact ⟨sit, h1, h2, fun hb => h4 hb (by rw [hempty]; simp)⟩) ho
    refine ⟨po, pi, ?_⟩
    have hk : (if ((before || b) || Decidable.decide ((c.envNum : Int) ≤ n)) = true then (if (before && !b) = true then k + 1 else k)
        else (if (before && !b) = true then k + 1 else k) + 1) =
        if (!b && (before || Decidable.decide (n < (c.envNum : Int)))) = true then k + 1 else k := by
      have hd : Decidable.decide ((c.envNum : Int) ≤ n) = !Decidable.decide (n < (c.envNum : Int)) := by
        rw [← decide_not]; congr 1; simp
      rw [hd]
      cases before <;> cases b <;> cases Decidable.decide (n < (c.envNum : Int)) <;> simp
    rw [hk] at hfin
    exact hfin

end Verif.Collector
