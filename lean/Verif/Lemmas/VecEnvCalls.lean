import Verif.Lemmas.VecEnvInv

/-! The calls of a vector environment keep the invariant; what they hand over and return. -/

namespace Verif.VecEnv

variable {σ A K X ρ : Type} {h : Handler σ A K X ρ} {s0 : List σ} {v : Venv σ A K X ρ} {D : List (Nat × ρ)}

theorem deliveredTo_of_mem {rows : List (Nat × ρ)} {i : Nat} {x : ρ} (hnd : (rows.map Prod.fst).Nodup)
    (hm : (i, x) ∈ rows) : deliveredTo i rows = [x] := by
  induction rows with
  | nil => cases hm
  | cons r t ih =>
    obtain ⟨h1, h2⟩ := List.nodup_cons.mp (by simpa using hnd : (r.1 :: t.map Prod.fst).Nodup)
    rcases List.mem_cons.mp hm with rfl | hm
    · have : t.filter (fun row => row.1 == i) = [] := by
        rw [List.filter_eq_nil_iff]
        intro row hr he
        exact h1 (by simpa [← (beq_iff_eq.mp he)] using List.mem_map_of_mem (f := Prod.fst) hr)
      simp [deliveredTo, this]
    · have hne : r.1 ≠ i := fun e => h1 (e ▸ List.mem_map_of_mem (f := Prod.fst) hm)
      have := ih h2 hm
      simpa [deliveredTo, hne] using this

theorem deliveredTo_of_notMem {rows : List (Nat × ρ)} {i : Nat} (hm : i ∉ rows.map Prod.fst) :
    deliveredTo i rows = [] := by
  have : rows.filter (fun row => row.1 == i) = [] := by
    rw [List.filter_eq_nil_iff]
    intro row hr he
    exact hm (by simpa [← (beq_iff_eq.mp he)] using List.mem_map_of_mem (f := Prod.fst) hr)
  simp [deliveredTo, this]

theorem sentTo_eq {i : Nat} {w : Worker σ A K X ρ} (hw : v.workers[i]? = some w) : v.sentTo i = w.sent := by
  unfold Venv.sentTo; rw [hw]

theorem sentTo_congr {v' : Venv σ A K X ρ} {i : Nat} (e : v'.workers[i]? = v.workers[i]?) : v'.sentTo i = v.sentTo i := by
  unfold Venv.sentTo; rw [e]

theorem inv_update {v' : Venv σ A K X ρ} {D' : List (Nat × ρ)} (hi : Inv h s0 v D) (f : Venv.Frame v v')
    (hs : ∀ i w s, v'.workers[i]? = some w → s0[i]? = some s →
      Served h v.kind s w (v.waitingId.contains i) (deliveredTo i D')) : Inv h s0 v' D' :=
  ⟨f.2.trans hi.len, by rw [f.waitingConn, f.waitingId, hi.conn], by rw [f.waitingId, f.readyId]; exact hi.part,
    by rw [f.isAsync, f.waitingId]; exact hi.sync, by rw [f.waitNum]; exact hi.wn,
    by rw [f.kind, f.waitingId]; exact hs⟩

/-- After a call that has handed over the requests `l`, each to an idle environment, and received the replies. -/
structure Exchange (h : Handler σ A K X ρ) (s0 : List σ) (v v' : Venv σ A K X ρ) (l : List (Nat × Req A K X)) : Prop where
  frame : Venv.Frame v v'
  done : ∀ p ∈ l, ∃ s w, s0[p.1]? = some s ∧ v'.workers[p.1]? = some w ∧ Good h v.kind s w none ∧
    w.sent = v.sentTo p.1 ++ [p.2]
  rest : ∀ j, j ∉ l.map Prod.fst → v'.workers[j]? = v.workers[j]?

theorem Exchange.sentTo {v' l} (e : Exchange h s0 v v' l) {p : Nat × Req A K X} (hp : p ∈ l) :
    v'.sentTo p.1 = v.sentTo p.1 ++ [p.2] := by
  obtain ⟨s, w, -, hw, -, hs⟩ := e.done p hp
  rw [sentTo_eq hw, hs]

theorem Exchange.inv {v' l} (e : Exchange h s0 v v' l) (hi : Inv h s0 v D) (hnw : ∀ p ∈ l, p.1 ∉ v.waitingId)
    (hns : ∀ p ∈ l, p.2.NoStep) : Inv h s0 v' D := by
  refine inv_update hi e.frame fun i w s hw hs => ?_
  by_cases hm : i ∈ l.map Prod.fst
  · obtain ⟨p, hp, rfl⟩ := List.mem_map.mp hm
    obtain ⟨s', w', h1, h2, h3, h4⟩ := e.done p hp
    rw [hs] at h1
    injection h1 with h1
    rw [hw] at h2
    injection h2 with h2
    subst h1 h2
    have hl : p.1 < v.workers.length := by
      rw [← e.frame.2]; exact (List.getElem?_eq_some_iff.mp hw).1
    have hv : v.workers[p.1]? = some v.workers[p.1] := List.getElem?_eq_getElem hl
    have hc : v.waitingId.contains p.1 = false := by simpa using hnw p hp
    rw [hc]
    refine served_idle h3 ?_
    rw [h4, stepReplies_other _ _ _ _ (hns p hp), sentTo_eq hv]
    exact (hi.idle hv hs (hnw p hp)).2
  · rw [e.rest i hm] at hw
    exact hi.served i w s hw hs

theorem Exchange.inv_step {v' l rows} (e : Exchange h s0 v v' l) (hi : Inv h s0 v D) (hnw : ∀ p ∈ l, p.1 ∉ v.waitingId)
    (hst : ∀ p ∈ l, ∃ a, p.2 = .step a) (hfst : rows.map Prod.fst = l.map Prod.fst) (hnd : (l.map Prod.fst).Nodup)
    (hrows : ∀ p ∈ l, ∀ s, s0[p.1]? = some s → (p.1, replyTo h s (v.sentTo p.1) p.2) ∈ rows) :
    Inv h s0 v' (D ++ rows) := by
  refine inv_update hi e.frame fun i w s hw hs => ?_
  rw [deliveredTo_append]
  by_cases hm : i ∈ l.map Prod.fst
  · obtain ⟨p, hp, rfl⟩ := List.mem_map.mp hm
    obtain ⟨s', w', h1, h2, h3, h4⟩ := e.done p hp
    obtain ⟨a, ha⟩ := hst p hp
    have hr := hrows p hp s hs
    rw [hs] at h1
    injection h1 with h1
    rw [hw] at h2
    injection h2 with h2
    subst h1 h2
    have hl : p.1 < v.workers.length := by
      rw [← e.frame.2]; exact (List.getElem?_eq_some_iff.mp hw).1
    have hv : v.workers[p.1]? = some v.workers[p.1] := List.getElem?_eq_getElem hl
    have hc : v.waitingId.contains p.1 = false := by simpa using hnw p hp
    rw [hc]
    refine served_idle h3 ?_
    rw [deliveredTo_of_mem (by rw [hfst]; exact hnd) hr, h4, ha, stepReplies_step,
      (hi.idle hv hs (hnw p hp)).2, sentTo_eq hv]
  · have hr : deliveredTo i rows = [] := deliveredTo_of_notMem (by rw [hfst]; exact hm)
    rw [hr, List.append_nil]
    rw [e.rest i hm] at hw
    exact hi.served i w s hw hs

/-- Sending to idle environments and receiving from them. -/
theorem send_recv (hi : Inv h s0 v D) (l : List (Nat × Req A K X)) (hnd : (l.map Prod.fst).Nodup)
    (hin : ∀ p ∈ l, p.1 < v.workers.length) (hnw : ∀ p ∈ l, p.1 ∉ v.waitingId) (hsil : ∀ p ∈ l, p.2.silent = false) :
    ∃ v1 v2 rows, Venv.sendAll h l v = (v1, .ok ()) ∧ Venv.recvAll h (l.map Prod.fst) v1 = (v2, .ok rows) ∧
      Exchange h s0 v v2 l ∧ rows.map Prod.fst = l.map Prod.fst ∧
      (∀ p ∈ l, ∀ s, s0[p.1]? = some s → (p.1, replyTo h s (v.sentTo p.1) p.2) ∈ rows) := by
  obtain ⟨v1, a1, a2, a3, a4⟩ := Venv.sendAll_spec h l v hnd hin
  have key : ∀ p ∈ l, ∃ s w w2, s0[p.1]? = some s ∧ v1.workers[p.1]? = some w ∧
      w.recv v1.kind h = (w2, some (replyTo h s (v.sentTo p.1) p.2)) ∧ Good h v.kind s w2 none ∧
      w2.sent = v.sentTo p.1 ++ [p.2] := by
    intro p hp
    have hv : v.workers[p.1]? = some (v.workers[p.1]'(hin p hp)) := List.getElem?_eq_getElem _
    obtain ⟨s, hs⟩ := hi.start (hin p hp)
    have hg := send_good h p.2 (hsil p hp) (hi.idle hv hs (hnw p hp)).1
    obtain ⟨w2, r1, r2, r3⟩ := recv_good h hg
    refine ⟨s, _, w2, hs, by rw [a3 p hp, hv]; rfl, ?_, r2, ?_⟩
    · rw [a2.kind, sentTo_eq hv]; exact r1
    · rw [r3, send_sent, sentTo_eq hv]
  obtain ⟨v2, rows, b1, b2, b3, b4, b5, b6⟩ := Venv.recvAll_spec h (l.map Prod.fst) v1 hnd (fun j hj => by
    obtain ⟨p, hp, rfl⟩ := List.mem_map.mp hj
    obtain ⟨s, w, w2, -, k1, k2, -⟩ := key p hp
    exact ⟨w, w2, _, k1, k2⟩)
  refine ⟨v1, v2, rows, a1, b1, ⟨a2.trans b2, ?_, ?_⟩, b3, ?_⟩
  · intro p hp
    obtain ⟨s, w, w2, k0, k1, k2, k3, k4⟩ := key p hp
    refine ⟨s, w2, k0, ?_, k3, k4⟩
    rw [b5 p.1 (List.mem_map_of_mem (f := Prod.fst) hp), k1]
    simp [k2]
  · intro j hj
    rw [b6 j hj, a4 j hj]
  · intro p hp s hs
    obtain ⟨s', w, w2, k0, k1, k2, -⟩ := key p hp
    rw [hs] at k0
    injection k0 with k0
    subst k0
    have : p.1 ∈ rows.map Prod.fst := by rw [b3]; exact List.mem_map_of_mem (f := Prod.fst) hp
    obtain ⟨row, hr, e⟩ := List.mem_map.mp this
    obtain ⟨w', c1, c2⟩ := b4 row hr
    rw [e, k1] at c1
    injection c1 with c1
    subst c1
    rw [k2] at c2
    simp only [Option.some.injEq] at c2
    rw [← e, c2] at *
    exact hr

/-- Asking idle environments. -/
theorem ask_spec (hi : Inv h s0 v D) (l : List (Nat × Req A K X)) (hnd : (l.map Prod.fst).Nodup)
    (hin : ∀ p ∈ l, p.1 < v.workers.length) (hnw : ∀ p ∈ l, p.1 ∉ v.waitingId) (hsil : ∀ p ∈ l, p.2.silent = false) :
    ∃ v' xs, Venv.askAll h l v = (v', .ok xs) ∧ Exchange h s0 v v' l ∧
      xs.map some = l.map fun p => (s0[p.1]?).map fun s => replyTo h s (v.sentTo p.1) p.2 := by
  have key : ∀ p ∈ l, ∃ s w w2, s0[p.1]? = some s ∧ v.workers[p.1]? = some w ∧
      w.ask v.kind h p.2 = (w2, some (replyTo h s (v.sentTo p.1) p.2)) ∧ Good h v.kind s w2 none ∧
      w2.sent = v.sentTo p.1 ++ [p.2] := by
    intro p hp
    have hv : v.workers[p.1]? = some (v.workers[p.1]'(hin p hp)) := List.getElem?_eq_getElem _
    obtain ⟨s, hs⟩ := hi.start (hin p hp)
    obtain ⟨w2, r1, r2, r3⟩ := ask_good h p.2 (hsil p hp) (hi.idle hv hs (hnw p hp)).1
    exact ⟨s, _, w2, hs, hv, by rw [sentTo_eq hv]; exact r1, r2, by rw [r3, sentTo_eq hv]⟩
  obtain ⟨v2, xs, b1, b2, b3, b4, b5⟩ := Venv.askAll_spec h l v hnd (fun p hp => by
    obtain ⟨s, w, w2, -, k1, k2, -⟩ := key p hp
    exact ⟨w, w2, _, k1, k2⟩)
  refine ⟨v2, xs, b1, ⟨b2, ?_, b5⟩, ?_⟩
  · intro p hp
    obtain ⟨s, w, w2, k0, k1, k2, k3, k4⟩ := key p hp
    refine ⟨s, w2, k0, ?_, k3, k4⟩
    rw [b4 p hp, k1]
    simp [k2]
  · rw [b3]
    refine List.map_congr_left fun p hp => ?_
    obtain ⟨s, w, w2, k0, k1, k2, -⟩ := key p hp
    rw [k0, k1]
    simp [k2]

/-- Telling idle environments. -/
theorem tell_spec (hi : Inv h s0 v D) (l : List (Nat × Req A K X)) (hnd : (l.map Prod.fst).Nodup)
    (hin : ∀ p ∈ l, p.1 < v.workers.length) (hnw : ∀ p ∈ l, p.1 ∉ v.waitingId) (hsil : ∀ p ∈ l, p.2.silent = true) :
    ∃ v', Venv.tellAll h l v = (v', .ok ()) ∧ Exchange h s0 v v' l := by
  obtain ⟨v', a1, a2, a3, a4⟩ := Venv.tellAll_spec h l v hnd hin
  refine ⟨v', a1, a2, fun p hp => ?_, a4⟩
  have hv : v.workers[p.1]? = some (v.workers[p.1]'(hin p hp)) := List.getElem?_eq_getElem _
  obtain ⟨s, hs⟩ := hi.start (hin p hp)
  obtain ⟨g1, g2⟩ := tell_good h p.2 (hsil p hp) (hi.idle hv hs (hnw p hp)).1
  exact ⟨s, _, hs, by rw [a3 p hp, hv]; rfl, g1, by rw [g2, sentTo_eq hv]⟩

/-! ### Ids -/

theorem idsOk_iff (ids : List Nat) (v : Venv σ A K X ρ) :
    v.idsOk ids = true ↔ ∀ i ∈ ids, i ∉ v.waitingId ∧ i ∈ v.readyId := by
  simp [Venv.idsOk]

/-- The ids of a call that gets past the checks: they exist and are idle. -/
theorem ids_idle (hi : Inv h s0 v D) (ids : Option (List Nat)) (hn : v.Names ids)
    (hok : (v.isAsync && !v.idsOk (v.wrapId ids)) = false) :
    (v.wrapId ids).Nodup ∧ ∀ i ∈ v.wrapId ids, i < v.workers.length ∧ i ∉ v.waitingId := by
  refine ⟨hn.1, fun i hm => ?_⟩
  cases ha : v.isAsync with
  | false => exact ⟨hn.2 ha i hm, by rw [hi.sync ha]; simp⟩
  | true =>
    rw [ha] at hok
    have : v.idsOk (v.wrapId ids) = true := by simpa using hok
    obtain ⟨h1, h2⟩ := (idsOk_iff _ _).mp this i hm
    exact ⟨hi.ready_lt h2, h1⟩

theorem map_pair_fst (ids : List Nat) (r : Req A K X) : (ids.map fun j => (j, r)).map Prod.fst = ids := by
  simp [List.map_map, Function.comp_def]

theorem getEnvAttr_spec (hi : Inv h s0 v D) (key : String) (ids : Option (List Nat)) (hn : v.Names ids) :
    (∃ e, v.getEnvAttr h key ids = (v, .error e) ∧ (v.closed = true ∨ (v.isAsync && !v.idsOk (v.wrapId ids)) = true)) ∨
    ∃ v' xs, v.getEnvAttr h key ids = (v', .ok xs) ∧
      Exchange h s0 v v' ((v.wrapId ids).map fun j => (j, .getattr key)) ∧ Inv h s0 v' D ∧
      xs.map some = (v.wrapId ids).map fun i => (s0[i]?).map fun s => replyTo h s (v.sentTo i) (.getattr key) := by
  unfold Venv.getEnvAttr
  split_ifs with h1 h2
  · exact .inl ⟨_, rfl, .inl h1⟩
  · exact .inl ⟨_, rfl, .inr h2⟩
  · obtain ⟨i1, i2⟩ := ids_idle hi ids hn (by simpa using h2)
    have hnw : ∀ p ∈ ((v.wrapId ids).map fun j => ((j, .getattr key) : Nat × Req A K X)), p.1 ∉ v.waitingId := by
      intro p hp; obtain ⟨j, hj, rfl⟩ := List.mem_map.mp hp; exact (i2 j hj).2
    obtain ⟨v', xs, a1, a2, a3⟩ := ask_spec hi ((v.wrapId ids).map fun j => (j, .getattr key))
      (by rw [map_pair_fst]; exact i1)
      (by intro p hp; obtain ⟨j, hj, rfl⟩ := List.mem_map.mp hp; exact (i2 j hj).1) hnw
      (by intro p hp; obtain ⟨j, hj, rfl⟩ := List.mem_map.mp hp; rfl)
    refine .inr ⟨v', xs, a1, a2, a2.inv hi hnw ?_, by rw [a3, List.map_map]; rfl⟩
    intro p hp; obtain ⟨j, hj, rfl⟩ := List.mem_map.mp hp; trivial

theorem setEnvAttr_spec (hi : Inv h s0 v D) (key : String) (x : X) (ids : Option (List Nat)) (hn : v.Names ids) :
    (∃ e, v.setEnvAttr h key x ids = (v, .error e) ∧ (v.closed = true ∨ (v.isAsync && !v.idsOk (v.wrapId ids)) = true)) ∨
    ∃ v', v.setEnvAttr h key x ids = (v', .ok ()) ∧
      Exchange h s0 v v' ((v.wrapId ids).map fun j => (j, .setattr key x)) ∧ Inv h s0 v' D := by
  unfold Venv.setEnvAttr
  split_ifs with h1 h2
  · exact .inl ⟨_, rfl, .inl h1⟩
  · exact .inl ⟨_, rfl, .inr h2⟩
  · obtain ⟨i1, i2⟩ := ids_idle hi ids hn (by simpa using h2)
    have hnw : ∀ p ∈ ((v.wrapId ids).map fun j => ((j, .setattr key x) : Nat × Req A K X)), p.1 ∉ v.waitingId := by
      intro p hp; obtain ⟨j, hj, rfl⟩ := List.mem_map.mp hp; exact (i2 j hj).2
    obtain ⟨v', a1, a2⟩ := tell_spec hi ((v.wrapId ids).map fun j => (j, .setattr key x))
      (by rw [map_pair_fst]; exact i1)
      (by intro p hp; obtain ⟨j, hj, rfl⟩ := List.mem_map.mp hp; exact (i2 j hj).1) hnw
      (by intro p hp; obtain ⟨j, hj, rfl⟩ := List.mem_map.mp hp; rfl)
    refine .inr ⟨v', a1, a2, a2.inv hi hnw ?_⟩
    intro p hp; obtain ⟨j, hj, rfl⟩ := List.mem_map.mp hp; trivial

theorem reset_spec (hi : Inv h s0 v D) (kw : K) (ids : Option (List Nat)) (hn : v.Names ids) :
    (∃ e, v.reset h kw ids = (v, .error e) ∧ (v.closed = true ∨ (v.isAsync && !v.idsOk (v.wrapId ids)) = true)) ∨
    (∃ v' e, v.reset h kw ids = (v', .error e) ∧ Inv h s0 v' D ∧ v.wrapId ids = []) ∨
    ∃ v' rows, v.reset h kw ids = (v', .ok rows) ∧
      Exchange h s0 v v' ((v.wrapId ids).map fun j => (j, .reset kw)) ∧ Inv h s0 v' D ∧
      rows.map Prod.fst = v.wrapId ids ∧
      ∀ i ∈ v.wrapId ids, ∀ s, s0[i]? = some s → (i, replyTo h s (v.sentTo i) (.reset kw)) ∈ rows := by
  unfold Venv.reset
  split_ifs with h1 h2
  · exact .inl ⟨_, rfl, .inl h1⟩
  · exact .inl ⟨_, rfl, .inr h2⟩
  · obtain ⟨i1, i2⟩ := ids_idle hi ids hn (by simpa using h2)
    have hnw : ∀ p ∈ ((v.wrapId ids).map fun j => ((j, .reset kw) : Nat × Req A K X)), p.1 ∉ v.waitingId := by
      intro p hp; obtain ⟨j, hj, rfl⟩ := List.mem_map.mp hp; exact (i2 j hj).2
    obtain ⟨v1, v2, rows, a1, a2, a3, a4, a5⟩ := send_recv hi ((v.wrapId ids).map fun j => (j, .reset kw))
      (by rw [map_pair_fst]; exact i1)
      (by intro p hp; obtain ⟨j, hj, rfl⟩ := List.mem_map.mp hp; exact (i2 j hj).1) hnw
      (by intro p hp; obtain ⟨j, hj, rfl⟩ := List.mem_map.mp hp; rfl)
    rw [map_pair_fst] at a2 a4
    have hinv : Inv h s0 v2 D := a3.inv hi hnw (by
      intro p hp; obtain ⟨j, hj, rfl⟩ := List.mem_map.mp hp; trivial)
    rw [a1]
    simp only [a2]
    by_cases he : rows.isEmpty = true
    · rw [if_pos he]
      refine .inr (.inl ⟨v2, .index, rfl, hinv, ?_⟩)
      rw [← a4, List.isEmpty_iff.mp he, List.map_nil]
    · rw [if_neg he]
      refine .inr (.inr ⟨v2, rows, rfl, a3, hinv, a4, fun i hm s hs => ?_⟩)
      exact a5 (i, .reset kw) (List.mem_map.mpr ⟨i, hm, rfl⟩) s hs

theorem zip_fst {β : Type} (ids : List Nat) (l : List β) (e : l.length = ids.length) :
    (ids.zip l).map Prod.fst = ids := by
  rw [List.map_fst_zip]; omega

theorem fst_zip_sublist {β : Type} (l : List Nat) (m : List β) : List.Sublist ((l.zip m).map Prod.fst) l := by
  induction l generalizing m with
  | nil => simp
  | cons a t ih =>
    cases m with
    | nil => simp
    | cons b u => simpa using ih u

theorem seed_spec (hi : Inv h s0 v D) (s : Seed) (hw : v.waitingId = []) :
    (v.closed = true ∧ v.seed h s = (v, .error .assertion)) ∨
    (∃ v', v.seed h s = (v', .error .value) ∧ Inv h s0 v' D ∧ v.workers.length ≠ (v.seedList s).length) ∨
    ∃ v' xs, v.seed h s = (v', .ok xs) ∧
      Exchange h s0 v v' ((List.range v.workers.length).zip ((v.seedList s).map .seed)) ∧ Inv h s0 v' D ∧
      v.workers.length = (v.seedList s).length ∧
      xs.map some = ((List.range v.workers.length).zip ((v.seedList s).map Req.seed)).map fun p =>
        (s0[p.1]?).map fun s => replyTo h s (v.sentTo p.1) p.2 := by
  unfold Venv.seed
  by_cases h1 : v.closed = true
  · rw [if_pos h1]
    exact .inl ⟨h1, rfl⟩
  · rw [if_neg h1]
    have hmem : ∀ p ∈ (List.range v.workers.length).zip ((v.seedList s).map (Req.seed (A := A) (K := K) (X := X))),
        p.1 < v.workers.length ∧ ∃ x, p.2 = .seed x := by
      intro p hp
      obtain ⟨h1, h2⟩ := List.of_mem_zip (a := p.1) (b := p.2) hp
      obtain ⟨x, -, hx⟩ := List.mem_map.mp h2
      exact ⟨List.mem_range.mp h1, x, hx.symm⟩
    have hnw : ∀ p ∈ (List.range v.workers.length).zip ((v.seedList s).map (Req.seed (A := A) (K := K) (X := X))),
        p.1 ∉ v.waitingId := by intro p _; rw [hw]; simp
    have hnd : (((List.range v.workers.length).zip ((v.seedList s).map (Req.seed (A := A) (K := K) (X := X)))).map
        Prod.fst).Nodup := by
      exact (fst_zip_sublist _ _).nodup List.nodup_range
    obtain ⟨v', xs, a1, a2, a3⟩ := ask_spec hi _ hnd (fun p hp => (hmem p hp).1) hnw
      (fun p hp => by obtain ⟨-, x, hx⟩ := hmem p hp; rw [hx]; rfl)
    have hinv := a2.inv hi hnw (fun p hp => by obtain ⟨-, x, hx⟩ := hmem p hp; rw [hx]; trivial)
    rw [a1]
    simp only
    by_cases he : v.workers.length ≠ (v.seedList s).length
    · rw [if_pos he]
      exact .inr (.inl ⟨v', rfl, hinv, he⟩)
    · rw [if_neg he]
      exact .inr (.inr ⟨v', xs, rfl, a2, hinv, Decidable.not_not.mp he, a3⟩)

theorem render_spec (hi : Inv h s0 v D) (kw : K) :
    (∃ e, v.render h kw = (v, .error e) ∧ (v.closed = true ∨ v.waitingId ≠ [])) ∨
    ∃ v' xs, v.render h kw = (v', .ok xs) ∧
      Exchange h s0 v v' ((List.range v.workers.length).map fun j => (j, .render kw)) ∧ Inv h s0 v' D ∧
      xs.map some = (List.range v.workers.length).map fun i =>
        (s0[i]?).map fun s => replyTo h s (v.sentTo i) (.render kw) := by
  unfold Venv.render
  split_ifs with h1 h2
  · exact .inl ⟨_, rfl, .inl h1⟩
  · exact .inl ⟨_, rfl, .inr fun hw => by simp [hw] at h2⟩
  · have hw : v.waitingId = [] := by
      cases ha : v.isAsync with
      | false => exact hi.sync ha
      | true => rw [ha] at h2; simpa using h2
    have hnw : ∀ p ∈ ((List.range v.workers.length).map fun j => ((j, .render kw) : Nat × Req A K X)),
        p.1 ∉ v.waitingId := by intro p _; rw [hw]; simp
    obtain ⟨v', xs, a1, a2, a3⟩ := ask_spec hi ((List.range v.workers.length).map fun j => (j, .render kw))
      (by rw [map_pair_fst]; exact List.nodup_range)
      (by intro p hp; obtain ⟨j, hj, rfl⟩ := List.mem_map.mp hp; exact List.mem_range.mp hj) hnw
      (by intro p hp; obtain ⟨j, hj, rfl⟩ := List.mem_map.mp hp; rfl)
    refine .inr ⟨v', xs, a1, a2, a2.inv hi hnw ?_, by rw [a3, List.map_map]; rfl⟩
    intro p hp; obtain ⟨j, hj, rfl⟩ := List.mem_map.mp hp; trivial

/-! ### `step` -/

/-- Synchronous `step`. -/
theorem step_sync_spec (hi : Inv h s0 v D) (ha : v.isAsync = false) (action : Option (List A)) (ids : Option (List Nat))
    (ticks : List Tick) (hn : v.Names ids) :
    (∃ e, v.step h action ids ticks = (v, .error e) ∧ (v.closed = true ∨ action = none ∨
      ∃ acts, action = some acts ∧ acts.length ≠ (v.wrapId ids).length)) ∨
    (∃ v' e, v.step h action ids ticks = (v', .error e) ∧ Inv h s0 v' D ∧ v.wrapId ids = []) ∨
    ∃ v' rows acts, v.step h action ids ticks = (v', .ok rows) ∧ action = some acts ∧
      acts.length = (v.wrapId ids).length ∧
      Exchange h s0 v v' ((v.wrapId ids).zip (acts.map .step)) ∧ Inv h s0 v' (D ++ rows) ∧
      rows.map Prod.fst = v.wrapId ids ∧ rows ≠ [] ∧
      ∀ p ∈ (v.wrapId ids).zip (acts.map Req.step), ∀ s, s0[p.1]? = some s →
        (p.1, replyTo h s (v.sentTo p.1) p.2) ∈ rows := by
  unfold Venv.step
  simp only [ha]
  by_cases h1 : v.closed = true
  · rw [if_pos h1]
    exact .inl ⟨_, rfl, .inl h1⟩
  · rw [if_neg h1]
    simp only [Bool.not_false, if_true]
    cases action with
    | none => exact .inl ⟨_, rfl, .inr (.inl rfl)⟩
    | some acts =>
      simp only
      by_cases hl : acts.length ≠ (v.wrapId ids).length
      · rw [if_pos hl]
        exact .inl ⟨_, rfl, .inr (.inr ⟨acts, rfl, hl⟩)⟩
      · rw [if_neg hl]
        have hl := Decidable.not_not.mp hl
        obtain ⟨i1, i2⟩ := ids_idle hi ids hn (by simp [ha])
        have hfst : ((v.wrapId ids).zip (acts.map (Req.step (K := K) (X := X)))).map Prod.fst = v.wrapId ids :=
          zip_fst _ _ (by simpa using hl)
        have hmem : ∀ p ∈ (v.wrapId ids).zip (acts.map (Req.step (K := K) (X := X))),
            p.1 ∈ v.wrapId ids ∧ ∃ a, p.2 = .step a := by
          intro p hp
          obtain ⟨h1, h2⟩ := List.of_mem_zip (a := p.1) (b := p.2) hp
          obtain ⟨x, -, hx⟩ := List.mem_map.mp h2
          exact ⟨h1, x, hx.symm⟩
        obtain ⟨v1, v2, rows, a1, a2, a3, a4, a5⟩ := send_recv hi ((v.wrapId ids).zip (acts.map .step))
          (by rw [hfst]; exact i1) (fun p hp => (i2 _ (hmem p hp).1).1) (fun p hp => (i2 _ (hmem p hp).1).2)
          (fun p hp => by obtain ⟨-, x, hx⟩ := hmem p hp; rw [hx]; rfl)
        have hinv := a3.inv_step hi (fun p hp => (i2 _ (hmem p hp).1).2) (fun p hp => (hmem p hp).2) a4
          (by rw [hfst]; exact i1) a5
        rw [hfst] at a2 a4
        rw [a1]
        simp only [a2]
        by_cases he : rows.isEmpty = true
        · rw [if_pos he]
          have he' : rows = [] := List.isEmpty_iff.mp he
          subst he'
          exact .inr (.inl ⟨v2, .value, rfl, by simpa using hinv, by rw [← a4]; rfl⟩)
        · rw [if_neg he]
          exact .inr (.inr ⟨v2, rows, acts, rfl, rfl, hl, a3, hinv, a4, fun e => he (by simp [e]), a5⟩)

/-- The state of an asynchronous vector environment after the actions have been handed out. -/
structure Handed (h : Handler σ A K X ρ) (s0 : List σ) (v : Venv σ A K X ρ) (D : List (Nat × ρ))
    (ids : List Nat) (acts : List A) (v' : Venv σ A K X ρ) : Prop where
  inv : Inv h s0 v' D
  waiting : v'.waitingId = v.waitingId ++ ids
  ready : v'.readyId = v.readyId.filter fun x => !ids.contains x
  len : v'.workers.length = v.workers.length
  async : v'.isAsync = v.isAsync
  kind : v'.kind = v.kind
  waitNum : v'.waitNum = v.waitNum
  timeout : v'.timeout = v.timeout
  sent : ∀ p ∈ ids.zip acts, v'.sentTo p.1 = v.sentTo p.1 ++ [.step p.2]
  rest : ∀ j, j ∉ ids → v'.sentTo j = v.sentTo j

theorem handed_spec (hi : Inv h s0 v D) (ha : v.isAsync = true) (ids : List Nat) (acts : List A) (hnd : ids.Nodup)
    (hok : v.idsOk ids = true) (hl : acts.length = ids.length) :
    ∃ u, Venv.sendStep h (ids.zip acts) v = (u, .ok ()) ∧
      Handed h s0 v D ids acts { u with readyId := u.readyId.filter fun x => !ids.contains x } := by
  have hids := (idsOk_iff _ _).mp hok
  have hfst : (ids.zip acts).map Prod.fst = ids := zip_fst _ _ hl
  obtain ⟨u, a1, a2, a3, a4, a5⟩ := Venv.sendStep_spec h (ids.zip acts) v (by rw [hfst]; exact hnd)
    (fun p hp => hi.ready_lt (hids p.1 (List.of_mem_zip (a := p.1) (b := p.2) hp).1).2)
  rw [hfst] at a2 a5
  have w1 : u.waitingId = v.waitingId ++ ids := by rw [a2]
  have w2 : u.waitingConn = v.waitingConn ++ ids := by rw [a2]
  have w3 : u.readyId = v.readyId := by rw [a2]
  have w4 : u.isAsync = v.isAsync := by rw [a2]
  have w5 : u.kind = v.kind := by rw [a2]
  have w6 : u.waitNum = v.waitNum := by rw [a2]
  have w7 : u.timeout = v.timeout := by rw [a2]
  have hsent : ∀ p ∈ ids.zip acts, ∃ w, v.workers[p.1]? = some w ∧
      u.workers[p.1]? = some (w.send v.kind h (.step p.2)) := by
    intro p hp
    have hlt := hi.ready_lt (hids p.1 (List.of_mem_zip (a := p.1) (b := p.2) hp).1).2
    have hv : v.workers[p.1]? = some (v.workers[p.1]'hlt) := List.getElem?_eq_getElem _
    exact ⟨_, hv, by rw [a4 p hp, hv]; rfl⟩
  refine ⟨u, a1, ⟨⟨a3.trans hi.len, ?_, ?_, ?_, ?_, ?_⟩, w1, by simp only [w3], a3, w4, w5, w6, w7, ?_, ?_⟩⟩
  · show u.waitingConn = u.waitingId
    rw [w1, w2, hi.conn]
  · show (u.waitingId ++ u.readyId.filter fun x => !ids.contains x).Perm _
    rw [w1, w3]
    refine List.Perm.trans ?_ hi.part
    have hrn := (List.nodup_append.mp hi.nodup).2.1
    rw [List.append_assoc]
    refine List.Perm.append_left _ ?_
    refine (List.perm_ext_iff_of_nodup ?_ hrn).mpr ?_
    · refine List.nodup_append.mpr ⟨hnd, hrn.filter _, ?_⟩
      rintro a ha b hb rfl
      have := (List.mem_filter.mp hb).2
      simp [ha] at this
    · intro x
      simp only [List.mem_append, List.mem_filter]
      constructor
      · rintro (hx | hx)
        · exact (hids x hx).2
        · exact hx.1
      · intro hx
        by_cases hxi : x ∈ ids
        · exact .inl hxi
        · exact .inr ⟨hx, by simpa using hxi⟩
  · intro hf
    rw [show u.isAsync = v.isAsync from w4, ha] at hf
    cases hf
  · show 1 ≤ u.waitNum
    rw [w6]; exact hi.wn
  · intro i w s hw hs
    show Served h u.kind s w (u.waitingId.contains i) _
    rw [w5, w1]
    by_cases hm : i ∈ ids
    · obtain ⟨p, hp, rfl⟩ := List.mem_map.mp (by rw [hfst]; exact hm : i ∈ (ids.zip acts).map Prod.fst)
      obtain ⟨w0, k1, k2⟩ := hsent p hp
      have k3 : some (w0.send v.kind h (.step p.2)) = some w := k2.symm.trans hw
      injection k3 with k3
      subst k3
      have hnw := (hids p.1 hm).1
      obtain ⟨g1, g2⟩ := hi.idle k1 hs hnw
      have hc : (v.waitingId ++ ids).contains p.1 = true := by simp [hm]
      rw [hc]
      exact served_busy (send_sent h _ _ _) (send_good h (.step p.2) rfl g1) g2
    · have hc : (v.waitingId ++ ids).contains i = v.waitingId.contains i := by
        simp [hm]
      rw [hc]
      exact hi.served i w s (by rw [← a5 i hm]; exact hw) hs
  · intro p hp
    obtain ⟨w0, k1, k2⟩ := hsent p hp
    have k2' : ({ u with readyId := u.readyId.filter fun x => !ids.contains x } : Venv σ A K X ρ).workers[p.1]? =
      some (w0.send v.kind h (.step p.2)) := k2
    rw [sentTo_eq k2', sentTo_eq k1, send_sent]
  · intro j hj
    exact sentTo_congr (a5 j hj)

/-- Asynchronous `step`. -/
theorem step_async_spec (hi : Inv h s0 v D) (ha : v.isAsync = true) (action : Option (List A)) (ids : Option (List Nat))
    (ticks : List Tick) (hn : (v.wrapId ids).Nodup) :
    (v.step h action ids ticks = (v, .error .assertion)) ∨
    ∃ u, (match action with
        | none => u = v
        | some acts => Handed h s0 v D (v.wrapId ids) acts u ∧ acts.length = (v.wrapId ids).length ∧
            v.idsOk (v.wrapId ids) = true) ∧
      v.step h action ids ticks = Venv.collect h ticks u ∧ Inv h s0 u D := by
  unfold Venv.step
  simp only [ha]
  by_cases h1 : v.closed = true
  · rw [if_pos h1]
    exact .inl rfl
  · rw [if_neg h1]
    simp only [Bool.not_true, Bool.false_eq_true, if_false]
    cases action with
    | none => exact .inr ⟨v, rfl, rfl, hi⟩
    | some acts =>
      simp only
      by_cases hok : v.idsOk (v.wrapId ids) = true
      · by_cases hl : acts.length = (v.wrapId ids).length
        · obtain ⟨u, a1, a2⟩ := handed_spec hi ha (v.wrapId ids) acts hn hok hl
          simp only [hok, hl, a1]
          exact .inr ⟨_, ⟨a2, by simp, by simp⟩, by simp, a2.inv⟩
        · exact .inl (by simp [hok, hl])
      · exact .inl (by simp [hok])

/-! ### Histories -/

theorem inv_history {D : List (Nat × ρ)} {v : Venv σ A K X ρ} (hh : History h s0 v D) : Inv h s0 v D := by
  induction hh with
  | make hm => exact inv_make hm
  | run i _ ih => exact inv_run ih i
  | @step v rows action ids ticks v' new _ hn he ih =>
    cases ha : v.isAsync with
    | false =>
      rcases step_sync_spec ih ha action ids ticks hn with ⟨e, h1, -⟩ | ⟨v2, e, h1, -⟩ | ⟨v2, r, acts, h1, -, -, -, h2, -⟩
      · rw [he] at h1; injection h1 with _ h1; injection h1
      · rw [he] at h1; injection h1 with _ h1; injection h1
      · rw [he] at h1; injection h1 with e1 e2; injection e2 with e2; subst e1 e2; exact h2
    | true =>
      rcases step_async_spec ih ha action ids ticks hn.1 with h1 | ⟨u, -, h1, hu⟩
      · rw [he] at h1; injection h1 with _ h1; injection h1
      · have := (collect_spec (h := h) ticks hu).2 new (by rw [← h1, he])
        rw [← h1, he] at this
        exact this.1.inv
  | @stepRaises v rows action ids ticks v' e _ hn he hne ih =>
    cases ha : v.isAsync with
    | false =>
      rcases step_sync_spec ih ha action ids ticks hn with ⟨e, h1, -⟩ | ⟨v2, e, h1, h2, -⟩ | ⟨v2, r, acts, h1, -⟩
      · rw [he] at h1; injection h1 with e1 _; subst e1; exact ih
      · rw [he] at h1; injection h1 with e1 _; subst e1; exact h2
      · rw [he] at h1; injection h1 with _ h1; injection h1
    | true =>
      rcases step_async_spec ih ha action ids ticks hn.1 with h1 | ⟨u, -, h1, hu⟩
      · rw [he] at h1; injection h1 with e1 _; subst e1; exact ih
      · exact absurd ((collect_spec (h := h) ticks hu).1 e (by rw [← h1, he])) hne
  | @reset v rows kw ids v' r _ hn he hr ih =>
    rcases reset_spec ih kw ids hn with ⟨e, h1, -⟩ | ⟨v2, e, h1, h2, -⟩ | ⟨v2, rs, h1, -, h2, -⟩
    · rw [he] at h1; injection h1 with e1 _; subst e1; exact ih
    · rw [he] at h1; injection h1 with e1 _; subst e1; exact h2
    · rw [he] at h1; injection h1 with e1 _; subst e1; exact h2
  | @getEnvAttr v rows key ids v' r _ hn he hr ih =>
    rcases getEnvAttr_spec ih key ids hn with ⟨e, h1, -⟩ | ⟨v2, rs, h1, -, h2, -⟩
    · rw [he] at h1; injection h1 with e1 _; subst e1; exact ih
    · rw [he] at h1; injection h1 with e1 _; subst e1; exact h2
  | @setEnvAttr v rows key value ids v' r _ hn he ih =>
    rcases setEnvAttr_spec ih key value ids hn with ⟨e, h1, -⟩ | ⟨v2, h1, -, h2⟩
    · rw [he] at h1; injection h1 with e1 _; subst e1; exact ih
    · rw [he] at h1; injection h1 with e1 _; subst e1; exact h2
  | @seed v rows s v' r _ hw he hr ih =>
    rcases seed_spec ih s hw with ⟨-, h1⟩ | ⟨v2, h1, h2, -⟩ | ⟨v2, xs, h1, -, h2, -⟩
    · rw [he] at h1; injection h1 with e1 _; subst e1; exact ih
    · rw [he] at h1; injection h1 with e1 _; subst e1; exact h2
    · rw [he] at h1; injection h1 with e1 _; subst e1; exact h2
  | @render v rows kw v' r _ he hr ih =>
    rcases render_spec ih kw with ⟨e, h1, -⟩ | ⟨v2, xs, h1, -, h2, -⟩
    · rw [he] at h1; injection h1 with e1 _; subst e1; exact ih
    · rw [he] at h1; injection h1 with e1 _; subst e1; exact h2
  | @close v rows v' r _ he ih =>
    unfold Venv.close at he
    split_ifs at he with hc
    · injection he with e1 _; subst e1; exact ih
    · injection he with e1 _
      subst e1
      exact ⟨ih.len, ih.conn, ih.part, ih.sync, ih.wn, ih.served⟩

end Verif.VecEnv
