import Verif.Lemmas.Collector

namespace Verif.Collector

set_option linter.unusedSectionVars false

variable {σ A O R I H K : Type}

theorem getElem?_some_lt {α : Type} {l : List α} {i : Nat} {x : α} (h : l[i]? = some x) : i < l.length := by
  by_contra hc
  rw [List.getElem?_eq_none (by omega)] at h
  exact absurd h (by simp)

theorem nodup_idx {α : Type} {l : List α} (hn : l.Nodup) {i j : Nat} {x : α} (hi : l[i]? = some x) (hj : l[j]? = some x) :
    i = j := by
  have h1 := getElem?_some_lt hi
  have h2 := getElem?_some_lt hj
  rw [List.getElem?_eq_getElem h1, Option.some.injEq] at hi
  rw [List.getElem?_eq_getElem h2, Option.some.injEq] at hj
  exact (List.Nodup.getElem_inj_iff hn).1 (hi.trans hj.symm)

theorem decide_length (c : Cfg σ A O R I H K) (random : Bool) (k : Nat) (ready : List Nat) (obs : List O) (info : List I)
    (hidden : Option (List H)) :
    (decide c random k ready obs info hidden).act.length = (decide c random k ready obs info hidden).actNormalized.length := by
  unfold decide
  split_ifs <;> simp

/-- What one round of the loop does; `ent` are the transitions stored in it. -/
structure Round (c : Cfg σ A O R I H K) (nEpisode : Option Int) (random : Bool) (kw : K) (s s' : Loop σ A O R I H)
    (ent : List (Row O A R I)) : Prop where
  nonempty : s.ready ≠ []
  len : ent.length = s.ready.length
  log : s'.log = s.log ++ [s.ready.zip ent]
  steps : s'.stepCount = s.stepCount + s.ready.length
  eps : s'.numEpisodes = s.numEpisodes + (ent.filter fun r => r.out.done).length
  calls : s'.calls = s.calls + 1
  act : ent.map Row.act = (decide c random s.calls s.ready (s.lastObs.map (Cell.read s.world.mem)) s.lastInfo s.lastHidden).act
  applied : ent.map Row.applied
    = (decide c random s.calls s.ready (s.lastObs.map (Cell.read s.world.mem)) s.lastInfo s.lastHidden).actNormalized
  given : ent.map Row.given = s.lastInfo
  others : ∀ e, e ∉ s.ready → s'.world.envs e = s.world.envs e
  sub : s'.ready.Sublist s.ready
  lenObs : s'.lastObs.length = s'.ready.length
  lenInfo : s'.lastInfo.length = s'.ready.length
  obs : ∀ (i : Nat) (o : O) (row : Row O A R I), s.lastObs[i]? = some (.val o) → ent[i]? = some row → row.obs = o
  moved : ∀ (i e : Nat) (row : Row O A R I), s.ready[i]? = some e → ent[i]? = some row →
    ∃ x, c.env.step (s.world.envs e) row.applied = (x, row.out) ∧
      (row.out.done = false → s'.world.envs e = x ∧ e ∈ s'.ready ∧ ∀ (j : Nat), s'.ready[j]? = some e →
        s'.lastObs[j]? = some (c.cell e row.out.obs) ∧ s'.lastInfo[j]? = some row.out.info) ∧
      (row.out.done = true → ∃ y o inf, c.env.reset kw x = (y, o, inf) ∧ s'.world.envs e = y ∧
        ∀ (j : Nat), s'.ready[j]? = some e → s'.lastObs[j]? = some (c.cell e o) ∧ s'.lastInfo[j]? = some inf)
  stay : nEpisode = none → s'.ready = s.ready
  count : ∀ n, nEpisode = some n → n ≠ 0 → ((s.ready.length + s.numEpisodes : Nat) : Int) ≤ n →
    ((s'.ready.length + s'.numEpisodes : Nat) : Int) ≤ n
  last : ∀ n, nEpisode = some n → n ≠ 0 → s'.ready = [] → n ≤ (s'.numEpisodes : Int)
  idleRound : s'.numEpisodes = s.numEpisodes → s'.ready = s.ready

theorem filterMap_ready (ready ps : List Nat) (h : ∀ p ∈ ps, p < ready.length) (i : Nat) :
    (ps.filterMap fun k => ready[k]?)[i]? = ps[i]?.bind fun k => ready[k]? := filterMap_get ready ps h i

theorem filterMap_ready_nodup (ready ps : List Nat) (hn : ready.Nodup) (hp : ps.Nodup) :
    (ps.filterMap fun k => ready[k]?).Nodup := by
  apply List.Nodup.filterMap _ hp
  intro a a' b hb hb'
  exact nodup_idx hn hb hb'

theorem getElem?_mem_idx {α : Type} {l : List α} {x : α} (h : x ∈ l) : ∃ i : Nat, l[i]? = some x := by
  obtain ⟨i, hi, rfl⟩ := List.mem_iff_getElem.1 h
  exact ⟨i, List.getElem?_eq_getElem hi⟩

theorem iter_round (c : Cfg σ A O R I H K) (nEpisode : Option Int) (random : Bool) (kw : K) (s s' : Loop σ A O R I H)
    (hn : s.ready.Nodup) (hlo : s.lastObs.length = s.ready.length) (hli : s.lastInfo.length = s.ready.length)
    (h : iter c nEpisode random kw s = .ok s') : ∃ ent, Round c nEpisode random kw s s' ent := by
  unfold iter at h
  simp only at h
  set d := decide c random s.calls s.ready (s.lastObs.map (Cell.read s.world.mem)) s.lastInfo s.lastHidden with hd
  by_cases h1 : d.actNormalized.length = s.ready.length
  swap
  · rw [if_pos h1] at h; exact absurd h (by simp)
  rw [if_neg (by simpa using h1)] at h
  by_cases h2 : s.ready = []
  · rw [if_pos h2] at h; exact absurd h (by simp)
  rw [if_neg h2] at h
  have h3 : d.act.length = s.ready.length := by rw [← h1]; exact decide_length ..
  set p := stepEnvs c.env (s.ready.zip d.actNormalized) s.world with hp
  have hzl : (s.ready.zip d.actNormalized).length = s.ready.length := by simp [h1]
  have hol : p.2.length = s.ready.length := by rw [hp, stepEnvs_length, hzl]
  have hfst : (s.ready.zip d.actNormalized).map Prod.fst = s.ready := List.map_fst_zip (by omega)
  set obs := s.lastObs.map (Cell.read p.1.mem) with hobs
  set rows := ((obs.zip s.lastInfo).zip ((d.act.zip d.actNormalized).zip p.2)).map fun q =>
      Row.mk q.1.1 q.1.2 q.2.1.1 q.2.1.2 q.2.2 with hrows
  have hobl : obs.length = s.ready.length := by rw [hobs, List.length_map, hlo]
  have hrl : rows.length = s.ready.length := by simp [hrows, hobl, hli, h1, h3, hol]
  have hmap : ∀ {β : Type} (f : Row O A R I → β) (l : List β), l.length = s.ready.length →
      (∀ (i : Nat) (r : Row O A R I), rows[i]? = some r → l[i]? = some (f r)) → rows.map f = l := by
    intro β f l hl hf
    apply List.ext_getElem?
    intro i
    by_cases hi : i < rows.length
    · have := hf i rows[i] (List.getElem?_eq_getElem hi)
      rw [List.getElem?_map, List.getElem?_eq_getElem hi, this]; rfl
    · rw [List.getElem?_eq_none (by simp; omega), List.getElem?_eq_none (by omega)]
  have hget : ∀ (i : Nat) (r : Row O A R I), rows[i]? = some r → obs[i]? = some r.obs ∧ s.lastInfo[i]? = some r.given ∧
      d.act[i]? = some r.act ∧ d.actNormalized[i]? = some r.applied ∧ p.2[i]? = some r.out := by
    intro i r hr
    rw [hrows, List.getElem?_map, Option.map_eq_some_iff] at hr
    obtain ⟨q, hq, rfl⟩ := hr
    simp only [List.getElem?_zip_eq_some] at hq
    exact ⟨hq.1.1, hq.1.2, hq.2.1.1, hq.2.1.2, hq.2.2⟩
  set doneIdx := whereTrue (p.2.map StepOut.done) with hdi
  have hdn : doneIdx.Nodup := whereTrue_nodup _
  have hdlt : ∀ k ∈ doneIdx, k < s.ready.length := by
    intro k hk
    have := getElem?_some_lt ((mem_whereTrue _ _).1 hk)
    simpa [hol] using this
  have hdmem : ∀ (i : Nat) (r : Row O A R I), rows[i]? = some r → (i ∈ doneIdx ↔ r.out.done = true) := by
    intro i r hr
    rw [hdi, mem_whereTrue, List.getElem?_map, (hget i r hr).2.2.2.2]
    simp
  set global := doneIdx.filterMap fun i => s.ready[i]? with hg
  have hgn : global.Nodup := filterMap_ready_nodup _ _ hn hdn
  have hgget : ∀ i : Nat, global[i]? = doneIdx[i]?.bind fun k => s.ready[k]? := filterMap_ready _ _ hdlt
  have hgl : global.length = doneIdx.length := filterMap_get_length _ _ hdlt
  set p2 := resetEnvs c.env kw global p.1 with hp2
  have hp2l : p2.2.length = doneIdx.length := by rw [hp2, resetEnvs_length, hgl]
  set lo := writeAt ((s.ready.zip p.2).map fun q => c.cell q.1 q.2.obs) doneIdx
      ((global.zip p2.2).map fun q => c.cell q.1 q.2.1) with hlo'
  set li := writeAt (p.2.map StepOut.info) doneIdx (p2.2.map Prod.snd) with hli'
  have hlol : lo.length = s.ready.length := by rw [hlo', writeAt_length]; simp [hol]
  have hlil : li.length = s.ready.length := by rw [hli', writeAt_length]; simp [hol]
  set ig := (if doneIdx = [] then ([] : List Nat) else surplus nEpisode s.ready.length (s.numEpisodes + doneIdx.length) doneIdx)
    with hig
  have higs : ig.Sublist doneIdx := by
    rw [hig]
    split_ifs with hx
    · exact List.nil_sublist _
    · unfold surplus
      split
      · exact List.nil_sublist _
      · split_ifs
        · exact List.nil_sublist _
        · exact List.take_sublist _ _
  injection h with h
  subst h
  -- what an environment that moved looks like before dropping
  have hmv : ∀ (i e : Nat) (row : Row O A R I), s.ready[i]? = some e → rows[i]? = some row →
      ∃ x, c.env.step (s.world.envs e) row.applied = (x, row.out) ∧
      (row.out.done = false → p2.1.envs e = x ∧ lo[i]? = some (c.cell e row.out.obs) ∧ li[i]? = some row.out.info) ∧
      (row.out.done = true → ∃ y o inf, c.env.reset kw x = (y, o, inf) ∧ p2.1.envs e = y ∧
        lo[i]? = some (c.cell e o) ∧ li[i]? = some inf) := by
    intro i e row hi hr
    obtain ⟨_, _, _, ha, ho⟩ := hget i row hr
    have hz : (s.ready.zip d.actNormalized)[i]? = some (e, row.applied) := List.getElem?_zip_eq_some.2 ⟨hi, ha⟩
    obtain ⟨hs1, hs2⟩ := stepEnvs_get c.env _ s.world (by rw [hfst]; exact hn) i e _ hz
    rw [← hp] at hs1 hs2
    have hout : (c.env.step (s.world.envs e) row.applied).2 = row.out := by
      rw [ho] at hs1; exact (Option.some.inj hs1).symm
    refine ⟨(c.env.step (s.world.envs e) row.applied).1, by rw [← hout], ?_, ?_⟩
    · intro hnd
      have hni : i ∉ doneIdx := by rw [hdmem i row hr]; simp [hnd]
      have hng : e ∉ global := by
        intro hc
        rw [hg, List.mem_filterMap] at hc
        obtain ⟨k, hk, hke⟩ := hc
        rw [nodup_idx hn hke hi] at hk
        exact hni hk
      refine ⟨by rw [hp2, resetEnvs_other _ _ _ _ _ hng, hs2], ?_, ?_⟩
      · rw [hlo', writeAt_other _ _ _ _ hni, List.getElem?_map,
          (List.getElem?_zip_eq_some.2 ⟨hi, ho⟩ : (s.ready.zip p.2)[i]? = some (e, row.out))]; rfl
      · rw [hli', writeAt_other _ _ _ _ hni, List.getElem?_map, ho]; rfl
    · intro hdone
      have hi' : i ∈ doneIdx := (hdmem i row hr).2 hdone
      obtain ⟨k, hk⟩ := getElem?_mem_idx hi'
      have hgk : global[k]? = some e := by rw [hgget, hk]; exact hi
      obtain ⟨hr1, hr2⟩ := resetEnvs_get c.env kw global p.1 hgn k e hgk
      rw [← hp2] at hr1 hr2
      rw [hs2] at hr1 hr2
      have hil : i < s.ready.length := getElem?_some_lt hi
      refine ⟨(c.env.reset kw (c.env.step (s.world.envs e) row.applied).1).1,
        (c.env.reset kw (c.env.step (s.world.envs e) row.applied).1).2.1,
        (c.env.reset kw (c.env.step (s.world.envs e) row.applied).1).2.2, rfl, hr2, ?_, ?_⟩
      · apply writeAt_at _ _ _ hdn k i _ hk _ (by simp [hol]; omega)
        have hz2 : (global.zip p2.2)[k]?
            = some (e, (c.env.reset kw (c.env.step (s.world.envs e) row.applied).1).2) :=
          List.getElem?_zip_eq_some.2 ⟨hgk, hr1⟩
        rw [List.getElem?_map, hz2]; rfl
      · apply writeAt_at _ _ _ hdn k i _ hk _ (by simp [hol]; omega)
        rw [List.getElem?_map, hr1]; rfl
  -- positions after dropping
  have hpos : ∀ (j e : Nat), (dropAt s.ready ig)[j]? = some e → ∃ i : Nat, s.ready[i]? = some e ∧
      (dropAt lo ig)[j]? = lo[i]? ∧ (dropAt li ig)[j]? = li[i]? := by
    intro j e hj
    rw [dropAt_get] at hj
    cases hk : (keep s.ready.length ig)[j]? with
    | none => rw [hk] at hj; simp at hj
    | some i =>
      rw [hk] at hj
      exact ⟨i, hj, by rw [dropAt_get, hlol, hk]; rfl, by rw [dropAt_get, hlil, hk]; rfl⟩
  refine ⟨rows, ⟨h2, hrl, rfl, rfl, ?_, rfl, ?_, ?_, ?_, ?_, dropAt_sublist _ _, ?_, ?_, ?_, ?_, ?_, ?_, ?_, ?_⟩⟩
  · show s.numEpisodes + doneIdx.length = _
    congr 1
    rw [hdi, whereTrue_length]
    have : p.2 = rows.map Row.out := (hmap Row.out p.2 hol fun i r hr => (hget i r hr).2.2.2.2).symm
    rw [this, List.map_map, List.filter_map, List.length_map]
    rfl
  · exact hmap Row.act d.act h3 fun i r hr => (hget i r hr).2.2.1
  · exact hmap Row.applied d.actNormalized h1 fun i r hr => (hget i r hr).2.2.2.1
  · exact hmap Row.given s.lastInfo hli fun i r hr => (hget i r hr).2.1
  · intro e he
    show p2.1.envs e = _
    have hng : e ∉ global := by
      intro hc
      rw [hg, List.mem_filterMap] at hc
      obtain ⟨k, _, hke⟩ := hc
      exact he (List.mem_of_getElem? hke)
    rw [hp2, resetEnvs_other _ _ _ _ _ hng, hp]
    exact (stepEnvs_other _ _ _ _ (by rw [hfst]; exact he)).1
  · show (dropAt lo ig).length = (dropAt s.ready ig).length
    rw [dropAt_length, dropAt_length, hlol]
  · show (dropAt li ig).length = (dropAt s.ready ig).length
    rw [dropAt_length, dropAt_length, hlil]
  · intro i o row hi hr
    have := (hget i row hr).1
    rw [hobs, List.getElem?_map, hi] at this
    exact (Option.some.inj this).symm
  · intro i e row hi hr
    obtain ⟨x, hx, ha, hb⟩ := hmv i e row hi hr
    refine ⟨x, hx, ?_, ?_⟩
    · intro hnd
      obtain ⟨h4, h5, h6⟩ := ha hnd
      refine ⟨h4, ?_, ?_⟩
      · show e ∈ dropAt s.ready ig
        rw [dropAt_eq, List.mem_filterMap]
        refine ⟨i, ?_, hi⟩
        simp only [keep, List.mem_filter, List.mem_range, Bool.not_eq_true', List.contains_eq_mem, decide_eq_false_iff_not]
        refine ⟨getElem?_some_lt hi, fun hc => ?_⟩
        have := (hdmem i row hr).1 (higs.subset hc)
        rw [hnd] at this; exact absurd this (by simp)
      · intro j hj
        obtain ⟨i', hi', h7, h8⟩ := hpos j e hj
        have := nodup_idx hn hi' hi
        subst this
        exact ⟨h7.trans h5, h8.trans h6⟩
    · intro hdone
      obtain ⟨y, o, inf, h4, h5, h6, h7⟩ := hb hdone
      refine ⟨y, o, inf, h4, h5, ?_⟩
      intro j hj
      obtain ⟨i', hi', h8, h9⟩ := hpos j e hj
      have := nodup_idx hn hi' hi
      subst this
      exact ⟨h8.trans h6, h9.trans h7⟩
  · rintro rfl
    show dropAt s.ready ig = s.ready
    have : ig = [] := by
      rw [hig]; split_ifs <;> rfl
    rw [this, dropAt_nil]
  · rintro n rfl hn0 hle
    show (((dropAt s.ready ig).length + (s.numEpisodes + doneIdx.length) : Nat) : Int) ≤ n
    rw [dropAt_length]
    have hkl := keep_length s.ready.length ig (higs.nodup hdn) fun q hq => hdlt q (higs.subset hq)
    have hcase : doneIdx = [] ∨ ig.length = min ((s.ready.length : Int) - (n - ((s.numEpisodes + doneIdx.length : Nat) : Int))).toNat
        doneIdx.length := by
      by_cases hx : doneIdx = []
      · exact Or.inl hx
      · right
        rw [hig, if_neg hx]
        simp only [surplus, if_neg hn0, List.length_take]
    rcases hcase with hx | hx
    · have : doneIdx.length = 0 := by rw [hx]; rfl
      omega
    · omega
  · rintro n rfl hn0 hemp
    show n ≤ ((s.numEpisodes + doneIdx.length : Nat) : Int)
    have hemp' : (dropAt s.ready ig).length = 0 := by
      have : dropAt s.ready ig = [] := hemp
      rw [this]; rfl
    rw [dropAt_length] at hemp'
    have hkl := keep_length s.ready.length ig (higs.nodup hdn) fun q hq => hdlt q (higs.subset hq)
    have hrpos : 0 < s.ready.length := List.length_pos_iff.2 h2
    by_cases hx : doneIdx = []
    · have : ig.length = 0 := by rw [hig, if_pos hx]; rfl
      omega
    · have : ig.length = min ((s.ready.length : Int) - (n - ((s.numEpisodes + doneIdx.length : Nat) : Int))).toNat
          doneIdx.length := by
        rw [hig, if_neg hx]
        simp only [surplus, if_neg hn0, List.length_take]
      omega
  · intro hidle
    show dropAt s.ready ig = s.ready
    have hz : doneIdx = [] := by
      have : s.numEpisodes + doneIdx.length = s.numEpisodes := hidle
      exact List.length_eq_zero_iff.1 (by omega)
    have : ig = [] := by rw [hig, if_pos hz]
    rw [this, dropAt_nil]

/-- A round succeeds if the policy returns one action per observation and some environment is left. -/
theorem iter_ok (c : Cfg σ A O R I H K) (hf : Fitting c) (nEpisode : Option Int) (random : Bool) (kw : K)
    (s : Loop σ A O R I H) (hlo : s.lastObs.length = s.ready.length) (hne : s.ready ≠ []) :
    ∃ s', iter c nEpisode random kw s = .ok s' := by
  have hl : (decide c random s.calls s.ready (s.lastObs.map (Cell.read s.world.mem)) s.lastInfo s.lastHidden).actNormalized.length
      = s.ready.length := by
    unfold decide
    obtain ⟨h1, h2⟩ := hf s.calls (s.lastObs.map (Cell.read s.world.mem)) s.lastInfo s.lastHidden
    split_ifs
    · simp
    · simp only [List.length_map] at h1 h2 ⊢
      rw [h2 _ h1, hlo]
    · simp only [List.length_map] at h1 ⊢
      rw [h1, hlo]
  unfold iter
  simp only
  rw [if_neg (by simpa using hl), if_neg hne]
  exact ⟨_, rfl⟩

theorem run_induct (c : Cfg σ A O R I H K) (nStep nEpisode : Option Int) (random : Bool) (kw : K)
    (P : Loop σ A O R I H → Prop) (hP : ∀ a b, P a → iter c nEpisode random kw a = .ok b → P b) :
    ∀ (fuel : Nat) (s s' : Loop σ A O R I H), run c nStep nEpisode random kw fuel s = some (.ok s') → P s →
      P s' ∧ stops nStep nEpisode s'.stepCount s'.numEpisodes = true := by
  intro fuel
  induction fuel with
  | zero => intro s s' h; simp [run] at h
  | succ fuel ih =>
    intro s s' h hs
    rw [run] at h
    cases hi : iter c nEpisode random kw s with
    | error e => rw [hi] at h; simp at h
    | ok t =>
      rw [hi] at h
      simp only at h
      split_ifs at h with hst
      · simp only [Option.some.injEq, Except.ok.injEq] at h
        subst h
        exact ⟨hP _ _ hs hi, hst⟩
      · exact ih _ _ h (hP _ _ hs hi)

theorem run_mono (c : Cfg σ A O R I H K) (nStep nEpisode : Option Int) (random : Bool) (kw : K) :
    ∀ (fuel : Nat) (s : Loop σ A O R I H) (x), run c nStep nEpisode random kw fuel s = some x →
      ∀ fuel', fuel ≤ fuel' → run c nStep nEpisode random kw fuel' s = some x := by
  intro fuel
  induction fuel with
  | zero => intro s x h; simp [run] at h
  | succ fuel ih =>
    intro s x h fuel' hle
    obtain ⟨f, rfl⟩ : ∃ f, fuel' = f + 1 := ⟨fuel' - 1, by omega⟩
    rw [run] at h ⊢
    cases hi : iter c nEpisode random kw s with
    | error e => rw [hi] at h; exact h
    | ok t =>
      rw [hi] at h
      simp only at h ⊢
      split_ifs at h ⊢ with hst
      · exact h
      · exact ih _ _ h _ (by omega)

theorem rowsOf_append (e : Nat) (l l' : List (List (Nat × Row O A R I))) :
    rowsOf e (l ++ l') = rowsOf e l ++ rowsOf e l' := by
  simp [rowsOf, List.flatten_append]

theorem allRows_append (l l' : List (List (Nat × Row O A R I))) : allRows (l ++ l') = allRows l ++ allRows l' := by
  simp [allRows, List.flatten_append]

theorem allRows_zip (ready : List Nat) (ent : List (Row O A R I)) (h : ent.length = ready.length) :
    allRows [ready.zip ent] = ent := by
  simp only [allRows, List.flatten_cons, List.flatten_nil, List.append_nil]
  exact List.map_snd_zip (by omega)

theorem rowsOf_zip_none (e : Nat) (ready : List Nat) (ent : List (Row O A R I)) (h : e ∉ ready) :
    rowsOf e [ready.zip ent] = [] := by
  simp only [rowsOf, List.flatten_cons, List.flatten_nil, List.append_nil, List.map_eq_nil_iff, List.filter_eq_nil_iff]
  rintro ⟨a, b⟩ hp hc
  simp only [decide_eq_true_eq] at hc
  subst hc
  exact h (List.of_mem_zip hp).1

theorem rowsOf_zip (e : Nat) (ready : List Nat) (ent : List (Row O A R I)) (hn : ready.Nodup) (i : Nat) (row : Row O A R I)
    (hi : ready[i]? = some e) (hr : ent[i]? = some row) : rowsOf e [ready.zip ent] = [row] := by
  simp only [rowsOf, List.flatten_cons, List.flatten_nil, List.append_nil]
  induction ready generalizing ent i with
  | nil => simp at hi
  | cons a t ih =>
    cases ent with
    | nil => simp at hr
    | cons b u =>
      simp only [List.nodup_cons] at hn
      cases i with
      | zero =>
        simp only [List.getElem?_cons_zero, Option.some.injEq] at hi hr
        subst hi; subst hr
        rw [List.zip_cons_cons, List.filter_cons_of_pos (by simp), List.map_cons]
        congr 1
        simp only [List.map_eq_nil_iff, List.filter_eq_nil_iff]
        rintro ⟨x, y⟩ hp hc
        simp only [decide_eq_true_eq] at hc
        subst hc
        exact hn.1 (List.of_mem_zip hp).1
      | succ i =>
        have hi' : t[i]? = some e := by simpa using hi
        have hne : a ≠ e := by
          rintro rfl
          exact hn.1 (List.mem_of_getElem? hi')
        rw [List.zip_cons_cons, List.filter_cons_of_neg (by simpa using hne)]
        exact ih u hn.2 i hi' (by simpa using hr)

/-- The loop invariant; `new` are the calls of `buffer.add` made so far. -/
structure Inv (nEpisode : Option Int) (ready0 : List Nat) (base new : List (List (Nat × Row O A R I)))
    (s : Loop σ A O R I H) : Prop where
  nodup : s.ready.Nodup
  sub : ∀ e ∈ s.ready, e ∈ ready0
  lenObs : s.lastObs.length = s.ready.length
  lenInfo : s.lastInfo.length = s.ready.length
  log : s.log = base ++ new
  steps : s.stepCount = (allRows new).length
  eps : s.numEpisodes = ((allRows new).filter fun r => r.out.done).length
  ids : ∀ e, e ∉ ready0 → rowsOf e new = []
  idle : ∀ e ∈ ready0, e ∉ s.ready → ∃ rows row, rowsOf e new = rows ++ [row] ∧ row.out.done = true
  stay : nEpisode = none → s.ready = ready0 ∧ (∀ e ∈ ready0, (rowsOf e new).length = new.length) ∧
    s.stepCount = new.length * ready0.length
  count : ∀ n, nEpisode = some n → n ≠ 0 → (ready0.length : Int) ≤ n → ((s.ready.length + s.numEpisodes : Nat) : Int) ≤ n

theorem Inv.next {c : Cfg σ A O R I H K} {nEpisode : Option Int} {random : Bool} {kw : K} {ready0 : List Nat}
    {base new : List (List (Nat × Row O A R I))} {s s' : Loop σ A O R I H} {ent : List (Row O A R I)}
    (h : Inv nEpisode ready0 base new s) (hr : Round c nEpisode random kw s s' ent) :
    Inv nEpisode ready0 base (new ++ [s.ready.zip ent]) s' := by
  have hmem : ∀ e ∈ s.ready, ∃ (i : Nat) (row : Row O A R I), s.ready[i]? = some e ∧ ent[i]? = some row ∧
      rowsOf e [s.ready.zip ent] = [row] := by
    intro e he
    obtain ⟨i, hi⟩ := getElem?_mem_idx he
    have hl : i < ent.length := by rw [hr.len]; exact getElem?_some_lt hi
    exact ⟨i, ent[i], hi, List.getElem?_eq_getElem hl,
      rowsOf_zip e _ _ h.nodup i _ hi (List.getElem?_eq_getElem hl)⟩
  refine ⟨hr.sub.nodup h.nodup, fun e he => h.sub e (hr.sub.subset he), hr.lenObs, hr.lenInfo, ?_, ?_, ?_, ?_, ?_, ?_, ?_⟩
  · rw [hr.log, h.log, List.append_assoc]
  · rw [allRows_append, List.length_append, allRows_zip _ _ hr.len, hr.steps, h.steps, hr.len]
  · rw [allRows_append, List.filter_append, List.length_append, allRows_zip _ _ hr.len, hr.eps, h.eps]
  · intro e he
    rw [rowsOf_append, h.ids e he, rowsOf_zip_none e _ _ fun hc => he (h.sub e hc)]; rfl
  · intro e he hne
    rw [rowsOf_append]
    by_cases hin : e ∈ s.ready
    · obtain ⟨i, row, hi, hrow, hz⟩ := hmem e hin
      refine ⟨rowsOf e new, row, by rw [hz], ?_⟩
      obtain ⟨x, _, h1, _⟩ := hr.moved i e row hi hrow
      by_contra hc
      exact hne (h1 (by simpa using hc)).2.1
    · rw [rowsOf_zip_none e _ _ hin, List.append_nil]
      exact h.idle e he hin
  · intro hn
    obtain ⟨h1, h2, h3⟩ := h.stay hn
    refine ⟨(hr.stay hn).trans h1, ?_, ?_⟩
    · intro e he
      obtain ⟨i, row, _, _, hz⟩ := hmem e (by rw [h1]; exact he)
      rw [rowsOf_append, hz, List.length_append, List.length_append, h2 e he]; rfl
    · rw [hr.steps, h3, h1, List.length_append, List.length_singleton, Nat.add_mul, Nat.one_mul]
  · intro n hn h0 hle
    exact hr.count n hn h0 (h.count n hn h0 hle)

theorem Inv.iter {c : Cfg σ A O R I H K} {nEpisode : Option Int} {random : Bool} {kw : K} {ready0 : List Nat}
    {base new : List (List (Nat × Row O A R I))} {s s' : Loop σ A O R I H}
    (h : Inv nEpisode ready0 base new s) (hi : iter c nEpisode random kw s = .ok s') :
    ∃ ent, Round c nEpisode random kw s s' ent ∧ Inv nEpisode ready0 base (new ++ [s.ready.zip ent]) s' := by
  obtain ⟨ent, hr⟩ := iter_round c nEpisode random kw s s' h.nodup h.lenObs h.lenInfo hi
  exact ⟨ent, hr, h.next hr⟩

end Verif.Collector
