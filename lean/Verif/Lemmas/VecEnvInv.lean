import Verif.Lemmas.VecEnv

/-! What holds at every point of a history of calls of a vector environment. -/

namespace Verif.VecEnv

variable {σ A K X ρ : Type} (h : Handler σ A K X ρ)

theorem deliveredTo_append (i : Nat) (a b : List (Nat × ρ)) :
    deliveredTo i (a ++ b) = deliveredTo i a ++ deliveredTo i b := by
  simp [deliveredTo]

/-- The worker of an environment that started in state `s`, with the step results `d` delivered: when it is waiting it was
last sent an action, whose result will be handed over next; otherwise all is delivered. -/
def Served (kind : Kind) (s : σ) (w : Worker σ A K X ρ) (b : Bool) (d : List ρ) : Prop :=
  if b then ∃ t a, w.sent = t ++ [.step a] ∧ Good h kind s w (some (replyTo h s t (.step a))) ∧ d = stepReplies h s t
  else Good h kind s w none ∧ d = stepReplies h s w.sent

structure Inv (s0 : List σ) (v : Venv σ A K X ρ) (D : List (Nat × ρ)) : Prop where
  len : v.workers.length = s0.length
  conn : v.waitingConn = v.waitingId
  part : (v.waitingId ++ v.readyId).Perm (List.range s0.length)
  sync : v.isAsync = false → v.waitingId = []
  wn : 1 ≤ v.waitNum
  served : ∀ i w s, v.workers[i]? = some w → s0[i]? = some s →
    Served h v.kind s w (v.waitingId.contains i) (deliveredTo i D)

variable {h} {s0 : List σ} {v : Venv σ A K X ρ} {D : List (Nat × ρ)}

theorem Inv.nodup (hi : Inv h s0 v D) : (v.waitingId ++ v.readyId).Nodup :=
  hi.part.nodup_iff.mpr List.nodup_range

theorem Inv.mem_lt (hi : Inv h s0 v D) {i : Nat} (hm : i ∈ v.waitingId) : i < v.workers.length := by
  rw [hi.len]
  exact List.mem_range.mp (hi.part.mem_iff.mp (List.mem_append_left _ hm))

theorem Inv.ready_lt (hi : Inv h s0 v D) {i : Nat} (hm : i ∈ v.readyId) : i < v.workers.length := by
  rw [hi.len]
  exact List.mem_range.mp (hi.part.mem_iff.mp (List.mem_append_right _ hm))

theorem Inv.start (hi : Inv h s0 v D) {i : Nat} (hl : i < v.workers.length) : ∃ s, s0[i]? = some s :=
  ⟨s0[i]'(hi.len ▸ hl), List.getElem?_eq_getElem _⟩

/-- An environment that is not waiting. -/
theorem Inv.idle (hi : Inv h s0 v D) {i : Nat} {w s} (hw : v.workers[i]? = some w) (hs : s0[i]? = some s)
    (hn : i ∉ v.waitingId) : Good h v.kind s w none ∧ deliveredTo i D = stepReplies h s w.sent := by
  have := hi.served i w s hw hs
  have hc : v.waitingId.contains i = false := by simpa using hn
  rw [hc] at this
  simpa [Served] using this

theorem Inv.busy (hi : Inv h s0 v D) {i : Nat} {w s} (hw : v.workers[i]? = some w) (hs : s0[i]? = some s)
    (hn : i ∈ v.waitingId) : ∃ t a, w.sent = t ++ [.step a] ∧ Good h v.kind s w (some (replyTo h s t (.step a))) ∧
      deliveredTo i D = stepReplies h s t := by
  have := hi.served i w s hw hs
  have hc : v.waitingId.contains i = true := by simpa using hn
  rw [hc] at this
  simpa [Served] using this

theorem served_idle {kind : Kind} {s : σ} {w : Worker σ A K X ρ} {d : List ρ} (hg : Good h kind s w none)
    (hd : d = stepReplies h s w.sent) : Served h kind s w false d := by
  simpa [Served] using And.intro hg hd

theorem served_busy {kind : Kind} {s : σ} {w : Worker σ A K X ρ} {d : List ρ} {t a} (h1 : w.sent = t ++ [.step a])
    (hg : Good h kind s w (some (replyTo h s t (.step a)))) (hd : d = stepReplies h s t) : Served h kind s w true d := by
  simpa [Served] using ⟨t, a, h1, hg, hd⟩

/-- Two vector environments that have been sent the same requests. -/
def SameSent (v v' : Venv σ A K X ρ) : Prop :=
  ∀ i : Nat, v'.workers[i]?.map Worker.sent = v.workers[i]?.map Worker.sent

theorem SameSent.refl (v : Venv σ A K X ρ) : SameSent v v := fun _ => rfl
theorem SameSent.trans {u v w : Venv σ A K X ρ} (a : SameSent u v) (b : SameSent v w) : SameSent u w :=
  fun i => (b i).trans (a i)

theorem SameSent.sentTo {v v' : Venv σ A K X ρ} (a : SameSent v v') (i : Nat) : v'.sentTo i = v.sentTo i := by
  have := a i
  unfold Venv.sentTo
  cases h1 : v'.workers[i]? <;> cases h2 : v.workers[i]? <;> simp_all

theorem inv_make {kind : Kind} {wn timeout} (hm : Venv.make kind s0 wn timeout = .ok v) : Inv h s0 v [] := by
  unfold Venv.make at hm
  simp only at hm
  split_ifs at hm with h1 h2 h3
  injection hm with hm
  subst hm
  refine ⟨by simp, rfl, by simp, fun _ => rfl, ?_, ?_⟩
  · exact h2.1
  · intro i w s hw hs
    simp only [List.getElem?_map, hs, Option.map_some, Option.some.injEq] at hw
    subst hw
    refine served_idle ?_ rfl
    cases kind
    · exact ⟨rfl, rfl, by simp⟩
    · exact ⟨rfl, rfl⟩

theorem runWorker_frame (i : Nat) (v : Venv σ A K X ρ) : Venv.Frame v (v.runWorker h i) := by
  unfold Venv.runWorker
  split
  · exact Venv.Frame.refl v
  · exact Venv.Frame.set _ _ _

theorem runWorker_sent (i : Nat) (v : Venv σ A K X ρ) : SameSent v (v.runWorker h i) := by
  intro j
  unfold Venv.runWorker
  split
  · rfl
  · next w hw =>
    show ((v.workers.set i (w.progress h))[j]?).map _ = _
    by_cases e : i = j
    · subst e
      have hl := (List.getElem?_eq_some_iff.mp hw).1
      simp [hl, progress_sent, (List.getElem?_eq_some_iff.mp hw).2]
    · simp [e]

theorem inv_run (hi : Inv h s0 v D) (i : Nat) : Inv h s0 (v.runWorker h i) D := by
  have f := runWorker_frame (h := h) i v
  refine ⟨f.2.trans hi.len, by rw [f.waitingConn, f.waitingId, hi.conn], by rw [f.waitingId, f.readyId]; exact hi.part,
    by rw [f.isAsync, f.waitingId]; exact hi.sync, by rw [f.waitNum]; exact hi.wn, ?_⟩
  intro j w s hw hs
  rw [f.kind, f.waitingId]
  unfold Venv.runWorker at hw
  split at hw
  · exact hi.served j w s hw hs
  · next u hu =>
    by_cases e : i = j
    · subst e
      have hl := (List.getElem?_eq_some_iff.mp hu).1
      simp only [List.getElem?_set_self hl, Option.some.injEq] at hw
      subst hw
      have := hi.served i u s hu hs
      unfold Served at this ⊢
      rw [progress_sent]
      split_ifs at this ⊢
      · obtain ⟨t, a, t1, t2, t3⟩ := this
        exact ⟨t, a, t1, progress_good h t2, t3⟩
      · exact ⟨progress_good h this.1, this.2⟩
    · simp only [List.getElem?_set_ne e] at hw
      exact hi.served j w s hw hs

/-! ### Waiting and taking -/

/-- The loop of `wait`: the processes go on, and a list of different waiting workers comes out. -/
theorem pollLoop_frame (ticks : List Tick) (remain ready : List Nat) (v : Venv σ A K X ρ)
    (hnd : (ready ++ remain).Nodup) :
    let out := Venv.pollLoop h ticks remain ready v
    Venv.Frame v out.1 ∧ SameSent v out.1 ∧
    (∀ e, out.2 = .error e → e = .hangs) ∧
    (∀ r, out.2 = .ok r → r ≠ [] ∧ r.Nodup ∧ (∀ j ∈ r, j ∈ ready ++ remain) ∧
      (v.timeout = false → (min v.waitNum (ready ++ remain).length) ≤ r.length)) := by
  have base : ∀ (remain ready : List Nat) (v : Venv σ A K X ρ), (ready ++ remain).Nodup →
      ¬ (remain.length > 0 ∧ ready.length < v.waitNum) →
      ∀ r, (if ready.length = 0 then Except.error Err.hangs else .ok ready) = Except.ok r →
        r ≠ [] ∧ r.Nodup ∧ (∀ j ∈ r, j ∈ ready ++ remain) ∧
          (v.timeout = false → (min v.waitNum (ready ++ remain).length) ≤ r.length) := by
    intro remain ready v hnd hc r hr
    split_ifs at hr with h1
    injection hr with hr
    subst hr
    refine ⟨by rintro rfl; simp at h1, (List.nodup_append.mp hnd).1, fun j hj => by simp [hj], fun _ => ?_⟩
    simp only [List.length_append]
    omega
  induction ticks generalizing remain ready v with
  | nil =>
    unfold Venv.pollLoop
    split_ifs with hc h1
    · exact ⟨Venv.Frame.refl v, SameSent.refl v, fun e he => by injection he with he; exact he.symm,
        fun r hr => by injection hr⟩
    · exact ⟨Venv.Frame.refl v, SameSent.refl v, fun e he => by injection he with he; exact he.symm,
        fun r hr => by injection hr⟩
    · refine ⟨Venv.Frame.refl v, SameSent.refl v, fun e he => by (injection he), fun r hr => ?_⟩
      exact base remain ready v hnd hc r (by rw [if_neg h1]; exact hr)
  | cons tick ts ih =>
    unfold Venv.pollLoop
    by_cases hc : remain.length > 0 ∧ ready.length < v.waitNum
    · rw [if_pos hc]
      cases tick with
      | run i =>
        obtain ⟨e1, e2, e4, e5⟩ := ih remain ready (v.runWorker h i) hnd
        have f := runWorker_frame (h := h) i v
        refine ⟨f.trans e1, (runWorker_sent i v).trans e2, e4, fun r hr => ?_⟩
        have := e5 r hr
        rwa [f.timeout, f.waitNum] at this
      | poll order =>
        have hrn : remain.Nodup := (List.nodup_append.mp hnd).2.1
        simp only [hrn, not_true_eq_false, if_false]
        set new := (order.filter fun j => remain.contains j && v.hasReply j).dedup with hnew
        have hmem : ∀ j ∈ new, j ∈ remain := by
          intro j hj
          rw [hnew, List.mem_dedup, List.mem_filter] at hj
          simpa using (Bool.and_eq_true_iff.mp hj.2).1
        have hnd2 : ((ready ++ new) ++ remain.filter fun j => !(ready ++ new).contains j).Nodup := by
          have h1 := List.nodup_append.mp hnd
          refine List.nodup_append.mpr ⟨List.nodup_append.mpr ⟨h1.1, List.nodup_dedup _, ?_⟩, hrn.filter _, ?_⟩
          · intro a ha b hb
            exact h1.2.2 a ha b (hmem b hb)
          · intro a ha b hb hab
            subst hab
            have := (List.mem_filter.mp hb).2
            simp only [Bool.not_eq_true', List.contains_eq_mem, decide_eq_false_iff_not] at this
            exact this ha
        obtain ⟨e1, e2, e4, e5⟩ := ih _ (ready ++ new) v hnd2
        refine ⟨e1, e2, e4, fun r hr => ?_⟩
        obtain ⟨r1, r2, r3, r4⟩ := e5 r hr
        refine ⟨r1, r2, fun j hj => ?_, fun ht => ?_⟩
        · have := r3 j hj
          simp only [List.mem_append, List.mem_filter] at this ⊢
          rcases this with (a | a) | a
          · exact .inl a
          · exact .inr (hmem j a)
          · exact .inr a.1
        · refine Nat.le_trans ?_ (r4 ht)
          have : (ready ++ remain).length ≤ ((ready ++ new) ++ remain.filter fun j => !(ready ++ new).contains j).length := by
            refine List.Subperm.length_le ?_
            refine List.subperm_of_subset hnd ?_
            intro j hj
            simp only [List.mem_append, List.mem_filter] at hj ⊢
            rcases hj with a | a
            · exact .inl (.inl a)
            · by_cases hjn : j ∈ ready ++ new
              · exact .inl (List.mem_append.mp hjn)
              · exact .inr ⟨a, by simpa using hjn⟩
          omega
      | expire =>
        by_cases ht : (v.timeout && decide (ready.length > 0)) = true
        · simp only [ht, if_true]
          refine ⟨Venv.Frame.refl v, SameSent.refl v, fun e he => by (injection he), fun r hr => ?_⟩
          injection hr with hr
          subst hr
          simp only [Bool.and_eq_true, decide_eq_true_eq] at ht
          refine ⟨by rintro rfl; simp at ht, (List.nodup_append.mp hnd).1, fun j hj => by simp [hj], fun h0 => ?_⟩
          rw [h0] at ht
          exact absurd ht.1 (by simp)
        · simp only [ht]
          exact ih remain ready v hnd
    · rw [if_neg hc]
      refine ⟨Venv.Frame.refl v, SameSent.refl v, fun e he => ?_, fun r hr => base remain ready v hnd hc r hr⟩
      simp only at he
      split_ifs at he
      injection he with he
      exact he.symm

theorem pollLoop_inv (ticks : List Tick) (remain ready : List Nat) (v : Venv σ A K X ρ) (hi : Inv h s0 v D) :
    Inv h s0 (Venv.pollLoop h ticks remain ready v).1 D := by
  induction ticks generalizing remain ready v with
  | nil =>
    unfold Venv.pollLoop
    split_ifs <;> exact hi
  | cons tick ts ih =>
    unfold Venv.pollLoop
    by_cases hc : remain.length > 0 ∧ ready.length < v.waitNum
    · rw [if_pos hc]
      cases tick with
      | run i => exact ih remain ready _ (inv_run hi i)
      | poll order =>
        simp only
        by_cases hn : ¬ remain.Nodup
        · rw [if_pos hn]; exact hi
        · rw [if_neg hn]; exact ih _ _ v hi
      | expire =>
        simp only
        by_cases ht : (v.timeout && decide (ready.length > 0)) = true
        · rw [if_pos ht]; exact hi
        · rw [if_neg ht]; exact ih _ _ v hi
    · rw [if_neg hc]; exact hi

/-- The result handed over for environment `i` answers the action last sent to it. -/
def Answers (h : Handler σ A K X ρ) (s0 : List σ) (v : Venv σ A K X ρ) (row : Nat × ρ) : Prop :=
  ∃ s t a, s0[row.1]? = some s ∧ v.sentTo row.1 = t ++ [.step a] ∧ row.2 = replyTo h s t (.step a)

theorem Answers.same {v v' : Venv σ A K X ρ} (hs : SameSent v v') {row : Nat × ρ} (ha : Answers h s0 v' row) :
    Answers h s0 v row := by
  obtain ⟨s, t, a, h1, h2, h3⟩ := ha
  exact ⟨s, t, a, h1, by rw [← hs.sentTo]; exact h2, h3⟩

theorem eraseIdx_idxOf (l : List Nat) (c : Nat) : l.eraseIdx (l.idxOf c) = l.erase c := by
  rw [List.erase_eq_eraseIdx_of_idxOf rfl]

theorem takeOne_spec (hi : Inv h s0 v D) {c : Nat} (hc : c ∈ v.waitingId) :
    ∃ v' x, Venv.takeOne h c v = (v', .ok (c, x)) ∧ Inv h s0 v' (D ++ [(c, x)]) ∧ SameSent v v' ∧
      v'.waitingId = v.waitingId.erase c ∧ v'.readyId = v.readyId ++ [c] ∧ v'.isAsync = v.isAsync ∧
      v'.workers.length = v.workers.length ∧ v'.kind = v.kind ∧ Answers h s0 v (c, x) := by
  have hl := hi.mem_lt hc
  obtain ⟨s, hs⟩ := hi.start hl
  have hw : v.workers[c]? = some v.workers[c] := List.getElem?_eq_getElem hl
  obtain ⟨t, a, t1, t2, t3⟩ := hi.busy hw hs hc
  obtain ⟨w', r1, r2, r3⟩ := recv_good h t2
  have hk : v.waitingId[v.waitingId.idxOf c]? = some c := by
    rw [List.getElem?_eq_getElem (List.idxOf_lt_length_iff.mpr hc)]
    simp
  refine ⟨{ v with
      workers := v.workers.set c w'
      waitingConn := v.waitingId.eraseIdx (v.waitingId.idxOf c)
      waitingId := v.waitingId.eraseIdx (v.waitingId.idxOf c)
      readyId := v.readyId ++ [c] }, replyTo h s t (.step a), ?_, ?_, ?_, ?_, ?_, ?_, ?_, ?_, ?_⟩
  · unfold Venv.takeOne
    simp only [hi.conn, hk, hw, r1]
  · have hnw : v.waitingId.Nodup := (List.nodup_append.mp hi.nodup).1
    refine ⟨by simpa using hi.len, by simp only, ?_, ?_, hi.wn, ?_⟩
    · simp only [eraseIdx_idxOf]
      refine List.Perm.trans ?_ hi.part
      have hp := List.perm_cons_erase hc
      refine List.Perm.trans ?_ (hp.append_right v.readyId).symm
      rw [← List.append_assoc]
      refine (List.perm_append_comm).trans ?_
      simp
    · intro hf
      have := hi.sync hf
      rw [this] at hc
      cases hc
    · intro i w s' hw' hs'
      simp only [eraseIdx_idxOf]
      rw [deliveredTo_append]
      by_cases e : c = i
      · subst e
        have e2 : (v.waitingId.erase c).contains c = false := by
          simpa using hnw.not_mem_erase
        simp only [List.getElem?_set_self hl, Option.some.injEq] at hw'
        subst hw'
        rw [hs] at hs'
        injection hs' with hs'
        subst hs'
        rw [e2]
        refine served_idle r2 ?_
        rw [r3, t1, stepReplies_step, t3]
        simp [deliveredTo]
      · have e2 : (v.waitingId.erase c).contains i = v.waitingId.contains i := by
          simp only [List.contains_eq_mem]
          exact decide_eq_decide.mpr (List.mem_erase_of_ne (Ne.symm e))
        simp only [List.getElem?_set_ne e] at hw'
        rw [e2]
        have e3 : deliveredTo i [(c, replyTo h s t (.step a))] = [] := by simp [deliveredTo, e]
        rw [e3, List.append_nil]
        exact hi.served i w s' hw' hs'
  · intro i
    show ((v.workers.set c w')[i]?).map _ = _
    by_cases e : c = i
    · subst e; simp [hl, r3]
    · simp [e]
  · simp only [eraseIdx_idxOf]
  · rfl
  · rfl
  · simp
  · rfl
  · exact ⟨s, t, a, hs, by unfold Venv.sentTo; rw [hw]; exact t1, rfl⟩

/-- What taking the results of a number of workers does. -/
structure Taken (h : Handler σ A K X ρ) (s0 : List σ) (v : Venv σ A K X ρ) (D : List (Nat × ρ))
    (v' : Venv σ A K X ρ) (rows : List (Nat × ρ)) : Prop where
  inv : Inv h s0 v' (D ++ rows)
  sent : SameSent v v'
  async : v'.isAsync = v.isAsync
  len : v'.workers.length = v.workers.length
  waiting : v'.waitingId.Perm (v.waitingId.diff (rows.map Prod.fst))
  ready : v'.readyId = v.readyId ++ rows.map Prod.fst
  nodup : (rows.map Prod.fst).Nodup
  sub : ∀ row ∈ rows, row.1 ∈ v.waitingId
  answers : ∀ row ∈ rows, Answers h s0 v row

theorem taken_nil (hi : Inv h s0 v D) : Taken h s0 v D v [] :=
  ⟨by simpa using hi, SameSent.refl v, rfl, rfl, by simp, by simp, by simp, by simp, by simp⟩

theorem taken_cons (hi : Inv h s0 v D) {c x} {v' v'' : Venv σ A K X ρ} {rows} (hc : c ∈ v.waitingId)
    (h2 : SameSent v v') (h3 : v'.waitingId = v.waitingId.erase c)
    (h4 : v'.readyId = v.readyId ++ [c]) (h5 : v'.isAsync = v.isAsync) (h6 : v'.workers.length = v.workers.length)
    (h7 : Answers h s0 v (c, x)) (ht : Taken h s0 v' (D ++ [(c, x)]) v'' rows) :
    Taken h s0 v D v'' ((c, x) :: rows) := by
  have hnw : v.waitingId.Nodup := (List.nodup_append.mp hi.nodup).1
  refine ⟨by simpa using ht.inv, h2.trans ht.sent, ht.async.trans h5, ht.len.trans h6, ?_, ?_, ?_, ?_, ?_⟩
  · have := ht.waiting
    rw [h3] at this
    simpa [List.diff_cons] using this
  · rw [ht.ready, h4]; simp
  · rw [List.map_cons, List.nodup_cons]
    refine ⟨fun hm => ?_, ht.nodup⟩
    obtain ⟨row, hr, e⟩ := List.mem_map.mp hm
    have := ht.sub row hr
    rw [h3, e] at this
    exact hnw.not_mem_erase this
  · intro row hr
    rcases List.mem_cons.mp hr with rfl | hr
    · exact hc
    · have := ht.sub row hr
      rw [h3] at this
      exact List.mem_of_mem_erase this
  · intro row hr
    rcases List.mem_cons.mp hr with rfl | hr
    · exact h7
    · exact (ht.answers row hr).same h2

theorem takeAll_spec (l : List Nat) (hi : Inv h s0 v D) (hnd : l.Nodup) (hsub : ∀ c ∈ l, c ∈ v.waitingId) :
    ∃ v' rows, Venv.takeAll h l v = (v', .ok rows) ∧ Taken h s0 v D v' rows ∧ rows.map Prod.fst = l := by
  induction l generalizing v D with
  | nil => exact ⟨v, [], rfl, taken_nil hi, rfl⟩
  | cons c t ih =>
    obtain ⟨hct, hnd'⟩ := List.nodup_cons.mp hnd
    obtain ⟨v', x, e1, e2, e3, e4, e5, e6, e7, e8, e9⟩ := takeOne_spec hi (hsub c (by simp))
    obtain ⟨v'', rows, f1, f2, f3⟩ := ih e2 hnd' (fun j hj => by
      rw [e4]
      exact (List.mem_erase_of_ne (fun e : j = c => hct (e ▸ hj))).mpr (hsub j (by simp [hj])))
    refine ⟨v'', (c, x) :: rows, ?_, taken_cons hi (hsub c (by simp)) e3 e4 e5 e6 e7 e9 f2, by simp [f3]⟩
    unfold Venv.takeAll
    rw [e1]
    simp only [f1]

theorem drain_spec (fuel i : Nat) (hi : Inv h s0 v D) :
    ∃ v' rows, Venv.drain h fuel i v = (v', .ok rows) ∧ Taken h s0 v D v' rows ∧
      (0 < fuel → i < v.waitingId.length → rows ≠ []) := by
  induction fuel generalizing i v D with
  | zero => exact ⟨v, [], rfl, taken_nil hi, fun h0 => absurd h0 (by omega)⟩
  | succ fuel ih =>
    unfold Venv.drain
    by_cases hl : i < v.waitingConn.length
    · have hw : v.waitingConn[i]? = some v.waitingConn[i] := List.getElem?_eq_getElem hl
      have hc : v.waitingConn[i] ∈ v.waitingId := by rw [← hi.conn]; exact List.getElem_mem _
      obtain ⟨v', x, e1, e2, e3, e4, e5, e6, e7, e8, e9⟩ := takeOne_spec hi hc
      obtain ⟨v'', rows, f1, f2, -⟩ := ih (i + 1) e2
      refine ⟨v'', (v.waitingConn[i], x) :: rows, ?_, taken_cons hi hc e3 e4 e5 e6 e7 e9 f2, fun _ _ => by simp⟩
      rw [hw]
      simp only [e1, f1]
    · have hw : v.waitingConn[i]? = none := List.getElem?_eq_none (Nat.not_lt.mp hl)
      rw [hw]
      refine ⟨v, [], rfl, taken_nil hi, fun _ h2 => ?_⟩
      rw [hi.conn] at hl
      exact absurd h2 hl

theorem Taken.before {u : Venv σ A K X ρ} {v' rows} (f : Venv.Frame u v) (hs : SameSent u v)
    (ht : Taken h s0 v D v' rows) : Taken h s0 u D v' rows :=
  ⟨ht.inv, hs.trans ht.sent, ht.async.trans f.isAsync, ht.len.trans f.2, by rw [← f.waitingId]; exact ht.waiting,
    by rw [← f.readyId]; exact ht.ready, ht.nodup, fun r hr => by rw [← f.waitingId]; exact ht.sub r hr,
    fun r hr => (ht.answers r hr).same hs⟩

/-- Waiting for results: it goes on for ever or results are taken. -/
theorem collect_spec (ticks : List Tick) (hi : Inv h s0 v D) :
    let out := Venv.collect h ticks v
    (∀ e, out.2 = .error e → e = .hangs) ∧
    (∀ rows, out.2 = .ok rows → Taken h s0 v D out.1 rows ∧ rows ≠ [] ∧
      (v.kind = .subproc → v.timeout = false → min v.waitNum v.waitingId.length ≤ rows.length)) := by
  unfold Venv.collect
  cases hk : v.kind with
  | dummy =>
    simp only
    by_cases h0 : v.waitingConn.length = 0
    · rw [if_pos h0]
      exact ⟨fun e he => by injection he with he; exact he.symm, fun r hr => by (injection hr)⟩
    · rw [if_neg h0]
      obtain ⟨v', rows, e1, e2, e3⟩ := drain_spec (h := h) v.waitingConn.length 0 hi
      rw [e1]
      refine ⟨fun e he => by (injection he), fun r hr => ?_⟩
      injection hr with hr
      subst hr
      exact ⟨e2, e3 (by omega) (by rw [← hi.conn]; omega), fun hf => by simp at hf⟩
  | subproc =>
    simp only
    have hp := pollLoop_frame (h := h) ticks v.waitingConn [] v (by
      rw [hi.conn]; exact (List.nodup_append.mp hi.nodup).1)
    simp only [List.nil_append] at hp
    obtain ⟨p1, p2, p4, p5⟩ := hp
    have p3 := pollLoop_inv ticks v.waitingConn [] v hi
    generalize Venv.pollLoop h ticks v.waitingConn [] v = out at p1 p2 p3 p4 p5 ⊢
    obtain ⟨u, res⟩ := out
    cases res with
    | error e =>
      refine ⟨fun e' he => ?_, fun r hr => by (injection hr)⟩
      injection he with he
      subst he
      exact p4 e rfl
    | ok ready =>
      obtain ⟨r1, r2, r3, r4⟩ := p5 ready rfl
      obtain ⟨v', rows, e1, e2, e3⟩ := takeAll_spec ready p3 r2 (fun c hc => by
        have := r3 c hc
        rw [hi.conn] at this
        have hu : u.waitingId = v.waitingId := p1.waitingId
        rw [hu]
        simpa using this)
      simp only [e1]
      refine ⟨fun e he => by (injection he), fun r hr => ?_⟩
      injection hr with hr
      subst hr
      refine ⟨e2.before p1 p2, fun h0 => r1 (by rw [← e3, h0]; rfl), fun _ ht => ?_⟩
      have := r4 ht
      rw [hi.conn] at this
      rw [← e3, List.length_map] at this
      exact this

end Verif.VecEnv
