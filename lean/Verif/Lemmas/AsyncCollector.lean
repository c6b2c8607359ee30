import Verif.Spec.AsyncCollector
import Verif.Lemmas.CollectorLoop

namespace Verif.Collector

set_option linter.unusedSectionVars false

variable {σ A O R I H K : Type}

theorem sendAll_other (sent : Nat → A) (l : List (Nat × A)) (e : Nat) (h : e ∉ l.map Prod.fst) :
    sendAll sent l e = sent e := by
  induction l generalizing sent with
  | nil => rfl
  | cons p t ih =>
    obtain ⟨e', a⟩ := p
    simp only [List.map_cons, List.mem_cons, not_or] at h
    rw [sendAll, ih _ h.2, upd_other _ _ _ _ h.1]

theorem sendAll_get (sent : Nat → A) (l : List (Nat × A)) (hn : (l.map Prod.fst).Nodup) (i e : Nat) (a : A)
    (h : l[i]? = some (e, a)) : sendAll sent l e = a := by
  induction l generalizing sent i with
  | nil => simp at h
  | cons p t ih =>
    obtain ⟨e', a'⟩ := p
    simp only [List.map_cons, List.nodup_cons] at hn
    rw [sendAll]
    cases i with
    | zero =>
      simp only [List.getElem?_cons_zero, Option.some.injEq, Prod.mk.injEq] at h
      obtain ⟨rfl, rfl⟩ := h
      rw [sendAll_other _ _ _ hn.1, upd_same]
    | succ i => exact ih _ hn.2 i (by simpa using h)

theorem mapM_get {α β : Type} (f : α → Option β) (l : List α) (r : List β) (h : l.mapM f = some r) :
    r.length = l.length ∧ ∀ (i : Nat) (x : α), l[i]? = some x → ∃ y, r[i]? = some y ∧ f x = some y := by
  induction l generalizing r with
  | nil =>
    simp only [List.mapM_nil, Option.pure_def, Option.some.injEq] at h
    subst h
    simp
  | cons a t ih =>
    rw [List.mapM_cons] at h
    simp only [Option.pure_def, Option.bind_eq_bind] at h
    cases ha : f a with
    | none => rw [ha] at h; simp at h
    | some b =>
      rw [ha] at h
      simp only [Option.bind_some] at h
      cases ht : t.mapM f with
      | none => rw [ht] at h; simp at h
      | some r' =>
        rw [ht] at h
        simp only [Option.bind_some, Option.some.injEq] at h
        subst h
        obtain ⟨h1, h2⟩ := ih r' ht
        refine ⟨by simp [h1], ?_⟩
        intro i x hx
        cases i with
        | zero =>
          simp only [List.getElem?_cons_zero, Option.some.injEq] at hx
          subst hx
          exact ⟨b, rfl, ha⟩
        | succ i => exact h2 i x (by simpa using hx)

/-- What one round of the asynchronous loop does: `got` are the environments whose results are returned, `ent` the transitions
stored, `act` and `sent` the stored and the applied actions after the decision. -/
structure ARound (c : ACfg σ A O R I H K) (kw : K) (s s' : ALoop σ A O R I H) (got : List Nat) (ent : List (Row O A R I)) :
    Prop where
  got_ne : got ≠ []
  got_nodup : got.Nodup
  got_sub : ∀ e ∈ got, e ∈ s.waiting ∨ e ∈ s.ready
  len : ent.length = got.length
  log : s'.log = s.log ++ [got.zip ent]
  steps : s'.stepCount = s.stepCount + got.length
  eps : s'.numEpisodes = s.numEpisodes + (ent.filter fun r => r.out.done).length
  ready : s'.ready = got
  waiting : ∀ e, e ∈ s'.waiting ↔ (e ∈ s.waiting ∨ e ∈ s.ready) ∧ e ∉ got
  waiting_nodup : s'.waiting.Nodup
  others : ∀ e, e ∉ got → s'.world.envs e = s.world.envs e
  lenObs : s'.curObs.length = s.curObs.length
  lenInfo : s'.curInfo.length = s.curInfo.length
  lenAct : s'.curAct.length = s.curAct.length
  lastObs : s'.lastObs = got.filterMap fun e => s'.curObs[e]?
  lastInfo : s'.lastInfo = got.filterMap fun e => s'.curInfo[e]?
  hid : ∃ h, s'.curHidden = some h ∧ (∀ g, s.curHidden = some g → h.length = g.length) ∧
    (s.curHidden = none → FittingHidden c.base → h.length = s.ready.length) ∧ (∀ e ∈ got, e < h.length)
  known : s'.known = true
  kept : ∀ e ∈ s.waiting, s'.curAct[e]? = s.curAct[e]? ∧ s'.sent e = s.sent e
  fresh : ∀ e ∈ s.ready, ∃ o i a, s.curObs[e]? = some o ∧ s.curInfo[e]? = some i ∧ s'.curAct[e]? = some a ∧
    Asked c e o i a (s'.sent e)
  stay : ∀ e, e ∉ got → s'.curObs[e]? = s.curObs[e]? ∧ s'.curInfo[e]? = s.curInfo[e]?
  moved : ∀ (i e : Nat) (row : Row O A R I), got[i]? = some e → ent[i]? = some row →
    s.curObs[e]? = some row.obs ∧ s.curInfo[e]? = some row.given ∧ s'.curAct[e]? = some row.act ∧ row.applied = s'.sent e ∧
    ∃ x, c.base.env.step (s.world.envs e) row.applied = (x, row.out) ∧
      (row.out.done = false → s'.world.envs e = x ∧ s'.curObs[e]? = some row.out.obs ∧ s'.curInfo[e]? = some row.out.info) ∧
      (row.out.done = true → ∃ y o inf, c.base.env.reset kw x = (y, o, inf) ∧ s'.world.envs e = y ∧
        s'.curObs[e]? = some o ∧ s'.curInfo[e]? = some inf)

/-- The part of the loop invariant about which environments are ready and which have pending steps. -/
structure AWF (c : ACfg σ A O R I H K) (s : ALoop σ A O R I H) : Prop where
  ready_nodup : s.ready.Nodup
  waiting_nodup : s.waiting.Nodup
  disjoint : ∀ e ∈ s.ready, e ∉ s.waiting
  cover : ∀ e, e < c.base.envNum ↔ e ∈ s.ready ∨ e ∈ s.waiting
  lenObs : s.curObs.length = c.base.envNum
  lenInfo : s.curInfo.length = c.base.envNum
  lenAct : s.curAct.length = c.base.envNum
  lastObs : s.lastObs = s.ready.filterMap fun e => s.curObs[e]?
  lastInfo : s.lastInfo = s.ready.filterMap fun e => s.curInfo[e]?

theorem AWF.pending_nodup {c : ACfg σ A O R I H K} {s : ALoop σ A O R I H} (h : AWF c s) : (s.waiting ++ s.ready).Nodup :=
  List.nodup_append.2 ⟨h.waiting_nodup, h.ready_nodup, fun a ha b hb hab => by
    subst hab; exact h.disjoint _ hb ha⟩

/-- The decision is about the environments that are ready. -/
theorem decide_asked {c : ACfg σ A O R I H K} {s : ALoop σ A O R I H} (hw : AWF c s) (random : Bool) (stored : List A)
    (hst : (decide c.base random s.calls s.ready s.lastObs s.lastInfo s.lastHidden).act.mapM c.store = some stored)
    (hl : (decide c.base random s.calls s.ready s.lastObs s.lastInfo s.lastHidden).act.length = s.ready.length)
    (j e : Nat) (hj : s.ready[j]? = some e) :
    ∃ o i a x, s.curObs[e]? = some o ∧ s.curInfo[e]? = some i ∧ stored[j]? = some a ∧
      (decide c.base random s.calls s.ready s.lastObs s.lastInfo s.lastHidden).actNormalized[j]? = some x ∧ Asked c e o i a x := by
  have hlt : ∀ e ∈ s.ready, e < c.base.envNum := fun e he => (hw.cover e).2 (Or.inl he)
  have he : e < c.base.envNum := hlt e (List.mem_of_getElem? hj)
  have ho : s.curObs[e]? = some (s.curObs[e]'(by rw [hw.lenObs]; exact he)) := List.getElem?_eq_getElem _
  have hi : s.curInfo[e]? = some (s.curInfo[e]'(by rw [hw.lenInfo]; exact he)) := List.getElem?_eq_getElem _
  set o := s.curObs[e]'(by rw [hw.lenObs]; exact he) with ho'
  set i := s.curInfo[e]'(by rw [hw.lenInfo]; exact he) with hi'
  have hlo : s.lastObs[j]? = some o := by
    rw [hw.lastObs, filterMap_get _ _ (by intro k hk; rw [hw.lenObs]; exact hlt k hk), hj]
    exact ho
  have hli : s.lastInfo[j]? = some i := by
    rw [hw.lastInfo, filterMap_get _ _ (by intro k hk; rw [hw.lenInfo]; exact hlt k hk), hj]
    exact hi
  obtain ⟨_, hget⟩ := mapM_get _ _ _ hst
  have hjl : j < (decide c.base random s.calls s.ready s.lastObs s.lastInfo s.lastHidden).act.length := by
    rw [hl]; exact getElem?_some_lt hj
  obtain ⟨y, hy, hsy⟩ := hget j _ (List.getElem?_eq_getElem hjl)
  have hac := List.getElem?_eq_getElem hjl
  generalize hacc : (decide c.base random s.calls s.ready s.lastObs s.lastInfo s.lastHidden).act[j] = a at hac hsy
  cases random with
  | false =>
    refine ⟨o, i, y, c.base.policy.mapAction a, ho, hi, hy, ?_, Or.inl ⟨s.calls, j, s.lastObs, s.lastInfo, s.lastHidden, a, hlo, hli,
      ?_, hsy, rfl⟩⟩
    · simp only [decide, Bool.false_eq_true, if_false] at hac ⊢
      rw [List.getElem?_map, hac]; rfl
    · simp only [decide, Bool.false_eq_true, if_false] at hac
      exact hac
  | true =>
    have hx : (s.ready.map (c.base.policy.sample s.calls))[j]? = some (c.base.policy.sample s.calls e) := by
      rw [List.getElem?_map, hj]; rfl
    refine ⟨o, i, y, c.base.policy.sample s.calls e, ho, hi, hy, ?_, Or.inr ⟨s.calls, rfl, ?_⟩⟩
    · simp only [decide, if_true]
      exact hx
    · simp only [decide, if_true] at hac
      rw [List.getElem?_map, hx, Option.map_some, Option.some.injEq] at hac
      rw [hac]; exact hsy

theorem aiter_round (c : ACfg σ A O R I H K) (hsch : Schedule c.wait) (random : Bool) (kw : K) (s s' : ALoop σ A O R I H)
    (hw : AWF c s) (h : aiter c random kw s = .ok s') : ∃ got ent, ARound c kw s s' got ent := by
  have hasked := decide_asked hw random
  unfold aiter at h
  simp only at h
  set d := decide c.base random s.calls s.ready s.lastObs s.lastInfo s.lastHidden with hd
  cases hst : d.act.mapM c.store with
  | none => rw [hst] at h; simp at h
  | some stored =>
  rw [hst] at h
  simp only at h
  by_cases h1 : d.act.length = s.ready.length
  swap
  · rw [if_pos h1] at h; exact absurd h (by simp)
  rw [if_neg (by simpa using h1)] at h
  by_cases h2 : s.ready.any s.waiting.contains
  · rw [if_pos h2] at h; exact absurd h (by simp)
  rw [if_neg h2] at h
  by_cases h3 : s.waiting ++ s.ready = []
  · rw [if_pos h3] at h; exact absurd h (by simp)
  rw [if_neg h3] at h
  set known := s.known || (!random && (c.entry || d.hidden.isSome)) with hkn
  cases hk : known with
  | false => rw [hk] at h; simp at h
  | true =>
  rw [hk] at h
  simp only [Bool.not_true, Bool.false_eq_true, if_false] at h
  cases hh : saveHidden s.ready d.hidden s.curHidden with
  | none => rw [hh] at h; simp at h
  | some g =>
  rw [hh] at h
  simp only at h
  set got := c.wait s.calls (s.waiting ++ s.ready) with hgot
  obtain ⟨hg1, hg2, hg3⟩ := hsch s.calls (s.waiting ++ s.ready) h3 hw.pending_nodup
  rw [← hgot] at hg1 hg2 hg3
  by_cases h4 : got.any fun e => Nat.ble g.length e
  · rw [if_pos h4] at h; exact absurd h (by simp)
  rw [if_neg h4] at h
  have h4' : ∀ e ∈ got, e < g.length := by
    intro e he
    by_contra hc
    apply h4
    rw [List.any_eq_true]
    exact ⟨e, he, by rw [Nat.ble_eq]; omega⟩
  have hnl : d.actNormalized.length = s.ready.length := by rw [← h1]; exact (decide_length ..).symm
  have hsl : stored.length = s.ready.length := by rw [(mapM_get _ _ _ hst).1, h1]
  set sent := sendAll s.sent (s.ready.zip d.actNormalized) with hsent
  set act := writeAt s.curAct s.ready stored with hact
  have hfst : (s.ready.zip d.actNormalized).map Prod.fst = s.ready := List.map_fst_zip (by omega)
  have hlt : ∀ e ∈ got, e < c.base.envNum := by
    intro e he
    have := hg3 e he
    rw [List.mem_append] at this
    exact (hw.cover e).2 this.symm
  set p := stepEnvs c.base.env (got.map fun e => (e, sent e)) s.world with hp
  have hgf : (got.map fun e => (e, sent e)).map Prod.fst = got := by
    rw [List.map_map]
    exact List.map_id' got
  have hol : p.2.length = got.length := by rw [hp, stepEnvs_length, List.length_map]
  have hpget : ∀ (i e : Nat), got[i]? = some e → p.2[i]? = some (c.base.env.step (s.world.envs e) (sent e)).2 ∧
      p.1.envs e = (c.base.env.step (s.world.envs e) (sent e)).1 := by
    intro i e hi
    exact stepEnvs_get c.base.env _ s.world (by rw [hgf]; exact hg2) i e (sent e) (by rw [List.getElem?_map, hi]; rfl)
  have hacl : act.length = c.base.envNum := by rw [hact, writeAt_length, hw.lenAct]
  set rows := (((got.filterMap fun e => s.curObs[e]?).zip (got.filterMap fun e => s.curInfo[e]?)).zip
                (((got.filterMap fun e => act[e]?).zip (got.map sent)).zip p.2)).map fun q =>
                  Row.mk q.1.1 q.1.2 q.2.1.1 q.2.1.2 q.2.2 with hrows
  have hb1 : ∀ k ∈ got, k < s.curObs.length := by intro k hk; rw [hw.lenObs]; exact hlt k hk
  have hb2 : ∀ k ∈ got, k < s.curInfo.length := by intro k hk; rw [hw.lenInfo]; exact hlt k hk
  have hb3 : ∀ k ∈ got, k < act.length := by intro k hk; rw [hacl]; exact hlt k hk
  have hrl : rows.length = got.length := by
    rw [hrows]
    simp only [List.length_map, List.length_zip, filterMap_get_length _ _ hb1, filterMap_get_length _ _ hb2,
      filterMap_get_length _ _ hb3, hol, Nat.min_self]
  have hget : ∀ (i e : Nat) (r : Row O A R I), got[i]? = some e → rows[i]? = some r → s.curObs[e]? = some r.obs ∧
      s.curInfo[e]? = some r.given ∧ act[e]? = some r.act ∧ r.applied = sent e ∧ p.2[i]? = some r.out := by
    intro i e r hi hr
    rw [hrows, List.getElem?_map, Option.map_eq_some_iff] at hr
    obtain ⟨q, hq, rfl⟩ := hr
    simp only [List.getElem?_zip_eq_some, filterMap_get _ _ hb1, filterMap_get _ _ hb2, filterMap_get _ _ hb3,
      List.getElem?_map, hi, Option.bind_some, Option.map_some, Option.some.injEq] at hq
    exact ⟨hq.1.1, hq.1.2, hq.2.1.1, hq.2.1.2.symm, hq.2.2⟩
  set doneIdx := whereTrue (p.2.map StepOut.done) with hdi
  have hdn : doneIdx.Nodup := whereTrue_nodup _
  have hdlt : ∀ k ∈ doneIdx, k < got.length := by
    intro k hk
    have := getElem?_some_lt ((mem_whereTrue _ _).1 hk)
    simpa [hol] using this
  set global := doneIdx.filterMap fun i => got[i]? with hgl'
  have hgn : global.Nodup := filterMap_ready_nodup _ _ hg2 hdn
  have hgget : ∀ i : Nat, global[i]? = doneIdx[i]?.bind fun k => got[k]? := filterMap_ready _ _ hdlt
  have hgl : global.length = doneIdx.length := filterMap_get_length _ _ hdlt
  set p2 := resetEnvs c.base.env kw global p.1 with hp2
  have hp2l : p2.2.length = doneIdx.length := by rw [hp2, resetEnvs_length, hgl]
  set lo := writeAt (p.2.map StepOut.obs) doneIdx (p2.2.map Prod.fst) with hlo
  set li := writeAt (p.2.map StepOut.info) doneIdx (p2.2.map Prod.snd) with hli
  have hlol : lo.length = got.length := by rw [hlo, writeAt_length, List.length_map, hol]
  have hlil : li.length = got.length := by rw [hli, writeAt_length, List.length_map, hol]
  have hwr : ∀ {α : Type} (l new : List α) (i e : Nat), l.length = c.base.envNum → new.length = got.length →
      got[i]? = some e → (writeAt l got new)[e]? = new[i]? := by
    intro α l new i e hl hn hi
    have hin : i < new.length := by rw [hn]; exact getElem?_some_lt hi
    rw [List.getElem?_eq_getElem hin]
    exact writeAt_at l got new hg2 i e _ hi (List.getElem?_eq_getElem hin) (by rw [hl]; exact hlt e (List.mem_of_getElem? hi))
  have hlast : ∀ {α : Type} (l new : List α), l.length = c.base.envNum → new.length = got.length →
      new = got.filterMap fun e => (writeAt l got new)[e]? := by
    intro α l new hl hn
    apply List.ext_getElem?
    intro i
    rw [filterMap_get _ _ (by intro k hk; rw [writeAt_length, hl]; exact hlt k hk)]
    cases hi : got[i]? with
    | none =>
      rw [List.getElem?_eq_none_iff] at hi
      rw [List.getElem?_eq_none (by omega)]; rfl
    | some e => exact (hwr l new i e hl hn hi).symm
  have hnotg : ∀ e, e ∉ got → e ∉ global := by
    intro e he hc
    obtain ⟨k, hk⟩ := getElem?_mem_idx hc
    rw [hgget] at hk
    cases hkk : doneIdx[k]? with
    | none => rw [hkk] at hk; simp at hk
    | some m => rw [hkk] at hk; exact he (List.mem_of_getElem? hk)
  injection h with h
  subst h
  refine ⟨got, rows, ⟨hg1, hg2, ?_, hrl, rfl, rfl, ?_, rfl, ?_, ?_, ?_, ?_, ?_, ?_, ?_, ?_, ?_, rfl, ?_, ?_, ?_, ?_⟩⟩
  · intro e he
    have := hg3 e he
    rwa [List.mem_append] at this
  · simp only [hdi, whereTrue_length, Nat.add_left_cancel_iff]
    have : p.2 = rows.map Row.out := by
      apply List.ext_getElem?
      intro i
      by_cases hi : i < got.length
      · have hi2 : i < rows.length := by omega
        rw [List.getElem?_map, List.getElem?_eq_getElem hi2,
          (hget i _ _ (List.getElem?_eq_getElem hi) (List.getElem?_eq_getElem hi2)).2.2.2.2]
        rfl
      · rw [List.getElem?_eq_none (by omega), List.getElem?_eq_none (by simp; omega)]
    rw [this, List.map_map, List.filter_map, List.length_map]
    rfl
  · intro e
    simp only [List.mem_filter, List.mem_append, Bool.not_eq_true', List.contains_eq_mem, decide_eq_false_iff_not]
  · exact hw.pending_nodup.filter _
  · intro e he
    change p2.1.envs e = _
    rw [hp2, resetEnvs_other _ _ _ _ _ (hnotg e he), hp]
    exact (stepEnvs_other c.base.env _ s.world e (by rw [hgf]; exact he)).1
  · simp only [writeAt_length]
  · simp only [writeAt_length]
  · simp only [hact, writeAt_length]
  · exact hlast s.curObs lo hw.lenObs hlol
  · exact hlast s.curInfo li hw.lenInfo hlil
  · have hrh : ∃ l, resetHidden c.base doneIdx (some (got.filterMap fun e => g[e]?)) = some l := by
      unfold resetHidden
      cases c.base.hiddenKind
      · exact ⟨_, rfl⟩
      · exact ⟨_, rfl⟩
    obtain ⟨l, hl⟩ := hrh
    refine ⟨writeAt g got l, by simp only [hl, Option.map_some], ?_, ?_, ?_⟩
    · intro g' hg'
      rw [writeAt_length]
      rw [hg'] at hh
      cases hdh : d.hidden with
      | none => rw [hdh, saveHidden, Option.some.injEq] at hh; rw [hh]
      | some q => rw [hdh, saveHidden, Option.some.injEq] at hh; rw [← hh, writeAt_length]
    · intro hn hf
      rw [writeAt_length]
      rw [hn] at hh
      cases hdh : d.hidden with
      | none => rw [hdh, saveHidden] at hh; exact absurd hh (by simp)
      | some q =>
        rw [hdh, saveHidden, Option.some.injEq] at hh
        subst hh
        rw [hd] at hdh
        have hll : s.lastObs.length = s.ready.length := by
          rw [hw.lastObs, filterMap_get_length]
          intro k hk
          rw [hw.lenObs]
          exact (hw.cover k).2 (Or.inl hk)
        cases random with
        | true => simp [decide] at hdh
        | false =>
          simp only [decide, Bool.false_eq_true, if_false] at hdh
          rw [hf _ _ _ _ _ hdh, hll]
    · intro e he
      rw [writeAt_length]
      exact h4' e he
  · intro e he
    have hne : e ∉ s.ready := fun hc => hw.disjoint e hc he
    exact ⟨writeAt_other _ _ _ _ hne, sendAll_other _ _ _ (by rw [hfst]; exact hne)⟩
  · intro e he
    obtain ⟨j, hj⟩ := getElem?_mem_idx he
    obtain ⟨o, i, a, x, hx1, hx2, hx3, hx4, hx5⟩ := hasked stored hst h1 j e hj
    refine ⟨o, i, a, hx1, hx2, ?_, ?_⟩
    · exact writeAt_at _ _ _ hw.ready_nodup j e a hj hx3 (by rw [hw.lenAct]; exact (hw.cover e).2 (Or.inl he))
    · have : sent e = x := sendAll_get _ _ (by rw [hfst]; exact hw.ready_nodup) j e x (List.getElem?_zip_eq_some.2 ⟨hj, hx4⟩)
      change Asked c e o i a (sent e)
      rw [this]; exact hx5
  · intro e he
    exact ⟨writeAt_other _ _ _ _ he, writeAt_other _ _ _ _ he⟩
  · intro i e row hi hr
    obtain ⟨hr1, hr2, hr3, hr4, hr5⟩ := hget i e row hi hr
    obtain ⟨hq1, hq2⟩ := hpget i e hi
    rw [hr5, Option.some.injEq] at hq1
    refine ⟨hr1, hr2, hr3, hr4, (c.base.env.step (s.world.envs e) (sent e)).1, ?_, ?_, ?_⟩
    · rw [hr4, hq1]
    · intro hnd
      have hni : i ∉ doneIdx := by
        rw [hdi, mem_whereTrue, List.getElem?_map, hr5]
        simp [hnd]
      have hng : e ∉ global := by
        intro hc
        obtain ⟨k, hk⟩ := getElem?_mem_idx hc
        rw [hgget] at hk
        cases hkk : doneIdx[k]? with
        | none => rw [hkk] at hk; simp at hk
        | some m =>
          rw [hkk] at hk
          have : m = i := nodup_idx hg2 hk hi
          subst this
          exact hni (List.mem_of_getElem? hkk)
      refine ⟨?_, ?_, ?_⟩
      · change p2.1.envs e = _
        rw [hp2, resetEnvs_other _ _ _ _ _ hng, hq2]
      · change (writeAt s.curObs got lo)[e]? = _
        rw [hwr _ _ i e hw.lenObs hlol hi, hlo, writeAt_other _ _ _ _ hni, List.getElem?_map, hr5]; rfl
      · change (writeAt s.curInfo got li)[e]? = _
        rw [hwr _ _ i e hw.lenInfo hlil hi, hli, writeAt_other _ _ _ _ hni, List.getElem?_map, hr5]; rfl
    · intro hdone
      have hid : i ∈ doneIdx := by
        rw [hdi, mem_whereTrue, List.getElem?_map, hr5]
        simp [hdone]
      obtain ⟨k, hk⟩ := getElem?_mem_idx hid
      have hgk : global[k]? = some e := by rw [hgget, hk]; exact hi
      obtain ⟨ht1, ht2⟩ := resetEnvs_get c.base.env kw global p.1 hgn k e hgk
      rw [← hp2, hq2] at ht1 ht2
      refine ⟨_, _, _, rfl, ht2, ?_, ?_⟩
      · change (writeAt s.curObs got lo)[e]? = _
        rw [hwr _ _ i e hw.lenObs hlol hi, hlo]
        exact writeAt_at _ _ _ hdn k i _ hk (by rw [List.getElem?_map, ht1]; rfl)
          (by rw [List.length_map, hol]; exact getElem?_some_lt hi)
      · change (writeAt s.curInfo got li)[e]? = _
        rw [hwr _ _ i e hw.lenInfo hlil hi, hli]
        exact writeAt_at _ _ _ hdn k i _ hk (by rw [List.getElem?_map, ht1]; rfl)
          (by rw [List.length_map, hol]; exact getElem?_some_lt hi)

end Verif.Collector
