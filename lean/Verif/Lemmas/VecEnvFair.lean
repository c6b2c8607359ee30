import Verif.Lemmas.VecEnvLive
import Verif.Lemmas.VecEnvAny

/-! No environment is passed over for ever. -/

namespace Verif.VecEnv

variable {σ A K X ρ : Type} {h : Handler σ A K X ρ} {v : Venv σ A K X ρ} {n : Nat}

/-- Where the environment at position `p` of the waiting list is after a loop of a dummy worker's results that starts at
position `i`. -/
theorem drain_pos (fuel i : Nat) (hp : PInv n v) (hf : v.waitingId.length ≤ fuel + i) {v' : Venv σ A K X ρ}
    {rows : List (Nat × ρ)} (he : Venv.drain h fuel i v = (v', .ok rows)) (p c : Nat) (hc : v.waitingId[p]? = some c) :
    (p < i → v'.waitingId[p]? = some c) ∧ (i ≤ p → (p - i) % 2 = 0 → c ∈ rows.map Prod.fst) ∧
    (i ≤ p → (p - i) % 2 = 1 → v'.waitingId[i + (p - i) / 2]? = some c) := by
  have hlt : p < v.waitingId.length := (List.getElem?_eq_some_iff.mp hc).1
  induction fuel generalizing i v rows p with
  | zero =>
    unfold Venv.drain at he
    injection he with e1 e2
    subst e1
    exact ⟨fun _ => hc, fun _ => by omega, fun _ => by omega⟩
  | succ fuel ih =>
    unfold Venv.drain at he
    by_cases hl : i < v.waitingConn.length
    · have hw : v.waitingConn[i]? = some v.waitingConn[i] := List.getElem?_eq_getElem hl
      have hm : v.waitingConn[i] ∈ v.waitingId := by rw [← hp.conn]; exact List.getElem_mem _
      rw [hw] at he
      simp only at he
      rcases takeOne_moved (h := h) hp hm with ⟨w, e⟩ | ⟨w, x, e1, e2, e3, -⟩
      · rw [e] at he; injection he with _ he; injection he
      · rw [e1] at he
        simp only at he
        have hnd : v.waitingId.Nodup := (List.nodup_append.mp hp.nodup).1
        have hii : v.waitingId[i]? = some v.waitingConn[i] := by rw [← hp.conn]; exact hw
        have her : w.waitingId = v.waitingId.eraseIdx i := by
          rw [e3, ← eraseIdx_idxOf]
          congr 1
          have hil : i < v.waitingId.length := by rw [← hp.conn]; exact hl
          have : v.waitingConn[i] = v.waitingId[i] := by
            have := List.getElem?_eq_getElem hil
            rw [hii] at this
            exact Option.some.inj this
          rw [this]
          exact hnd.idxOf_getElem i hil
        have hil : i < v.waitingId.length := by rw [← hp.conn]; exact hl
        have hlen : w.waitingId.length ≤ fuel + (i + 1) := by
          rw [her, List.length_eraseIdx_of_lt hil]
          omega
        rcases hd : Venv.drain h fuel (i + 1) w with ⟨u, r⟩
        rw [hd] at he
        cases r with
        | error e => simp only at he; injection he with _ he; injection he
        | ok rs =>
          simp only at he
          injection he with a1 a2
          injection a2 with a2
          subst a1 a2
          have hlw : w.waitingId.length = v.waitingId.length - 1 := by rw [her, List.length_eraseIdx_of_lt hil]
          rcases Nat.lt_trichotomy p i with hpi | hpi | hpi
          · have hq : w.waitingId[p]? = some c := by rw [her, List.getElem?_eraseIdx_of_lt hpi]; exact hc
            exact ⟨fun _ => (ih (i + 1) e2 hlen hd p hq (List.getElem?_eq_some_iff.mp hq).1).1 (by omega),
              fun _ => by omega, fun _ => by omega⟩
          · subst hpi
            have hcc : c = v.waitingConn[p] := Option.some.inj (hc.symm.trans hii)
            exact ⟨fun _ => by omega, fun _ _ => by rw [hcc]; simp, fun _ h1 => by simp at h1⟩
          · obtain ⟨q, rfl⟩ : ∃ q, p = q + 1 := ⟨p - 1, by omega⟩
            have hq : w.waitingId[q]? = some c := by
              rw [her, List.getElem?_eraseIdx_of_ge (by omega)]; exact hc
            have hi' := ih (i + 1) e2 hlen hd q hq (List.getElem?_eq_some_iff.mp hq).1
            refine ⟨fun _ => by omega, fun _ h0 => ?_, fun _ h1 => ?_⟩
            · rw [List.map_cons]
              exact List.mem_cons_of_mem _ (hi'.2.1 (by omega) (by omega))
            · by_cases hqi : q = i
              · subst hqi
                have := hi'.1 (by omega)
                have e0 : q + (q + 1 - q) / 2 = q := by omega
                rw [e0]
                exact this
              · have := hi'.2.2 (by omega) (by omega)
                have e0 : i + (q + 1 - i) / 2 = i + 1 + (q - (i + 1)) / 2 := by omega
                rw [e0]
                exact this
    · rw [hp.conn] at hl
      have hw : v.waitingConn[i]? = none := by rw [hp.conn]; exact List.getElem?_eq_none (Nat.not_lt.mp hl)
      rw [hw] at he
      injection he with e1 e2
      subst e1
      exact ⟨fun _ => hc, fun _ => by omega, fun _ => by omega⟩

/-- An asynchronous step that returns: the actions are handed out, then results are collected. -/
theorem step_parts (hp : PInv n v) (ha : v.isAsync = true) (action : Option (List A)) (ids : Option (List Nat))
    (ticks : List Tick) (hn : (v.wrapId ids).Nodup) {v' : Venv σ A K X ρ} {new : List (Nat × ρ)}
    (he : v.step h action ids ticks = (v', .ok new)) :
    ∃ u, Sent n (handedTo action (v.wrapId ids)) v u ∧ Venv.collect h ticks u = (v', .ok new) ∧
      (∀ j, j ∉ handedTo action (v.wrapId ids) → u.workers[j]? = v.workers[j]?) ∧ u.isAsync = v.isAsync := by
  unfold Venv.step at he
  by_cases hc : v.closed = true
  · simp [hc] at he
  · simp only [hc, ha, Bool.false_eq_true, if_false, Bool.not_true] at he
    cases action with
    | none => exact ⟨v, ⟨hp, by simp [handedTo], by simp [handedTo], rfl, rfl, rfl⟩, he, fun _ _ => rfl, rfl⟩
    | some acts =>
      simp only at he
      by_cases hok : v.idsOk (v.wrapId ids) = true
      · by_cases hl : acts.length = (v.wrapId ids).length
        · obtain ⟨u, a1, a2⟩ := sendStep_sent (h := h) hp (v.wrapId ids) acts hn hok hl
          have hids := (idsOk_iff _ _).mp hok
          have hfst : ((v.wrapId ids).zip acts).map Prod.fst = v.wrapId ids := zip_fst _ _ hl
          obtain ⟨u', b1, b2, -, -, b5⟩ := Venv.sendStep_spec h ((v.wrapId ids).zip acts) v (by rw [hfst]; exact hn)
            (fun p hq => hp.mem_lt (List.mem_append_right _
              (hids p.1 (List.of_mem_zip (a := p.1) (b := p.2) hq).1).2))
          rw [a1] at b1
          injection b1 with b1 _
          subst b1
          rw [hfst] at b5
          refine ⟨_, a2, ?_, fun j hj => b5 j hj, by rw [b2]⟩
          simpa [hok, hl, a1] using he
        · simp [hok, hl] at he
      · simp [hok] at he

/-- An asynchronous step that raises changes nothing. -/
theorem step_raises (hp : PInv n v) (ha : v.isAsync = true) (action : Option (List A)) (ids : Option (List Nat))
    (ticks : List Tick) (hn : (v.wrapId ids).Nodup) {v' : Venv σ A K X ρ} {e : Err}
    (he : v.step h action ids ticks = (v', .error e)) (hh : e ≠ .hangs) : v' = v := by
  have col : ∀ u, PInv n u → Venv.collect h ticks u ≠ (v', .error e) := by
    intro u hu h0
    rcases collect_moved (h := h) ticks hu with ⟨x, f⟩ | ⟨x, rows, f, -⟩
    · rw [f] at h0
      injection h0 with _ h0
      injection h0 with h0
      exact hh h0.symm
    · rw [f] at h0
      injection h0 with _ h0
      injection h0
  unfold Venv.step at he
  by_cases hc : v.closed = true
  · simp [hc] at he
    exact he.1.symm
  · simp only [hc, ha, Bool.false_eq_true, if_false, Bool.not_true] at he
    cases action with
    | none => exact absurd he (col v hp)
    | some acts =>
      simp only at he
      by_cases hok : v.idsOk (v.wrapId ids) = true
      · by_cases hl : acts.length = (v.wrapId ids).length
        · obtain ⟨u, a1, a2⟩ := sendStep_sent (h := h) hp (v.wrapId ids) acts hn hok hl
          refine absurd ?_ (col _ a2.inv)
          simpa [hok, hl, a1] using he
        · simp [hok, hl] at he
          exact he.1.symm
      · simp [hok] at he
        exact he.1.symm

/-- The mode and the kind of the workers never change. -/
def Same (v v' : Venv σ A K X ρ) : Prop := v'.isAsync = v.isAsync ∧ v'.kind = v.kind

theorem Same.refl (v : Venv σ A K X ρ) : Same v v := ⟨rfl, rfl⟩

theorem Same.trans {u v w : Venv σ A K X ρ} (a : Same u v) (b : Same v w) : Same u w :=
  ⟨b.1.trans a.1, b.2.trans a.2⟩

theorem Same.frame {v v' : Venv σ A K X ρ} (f : Venv.Frame v v') : Same v v' := ⟨f.isAsync, f.kind⟩

theorem takeOne_same (c : Nat) (v : Venv σ A K X ρ) : Same v (Venv.takeOne h c v).1 := by
  unfold Venv.takeOne
  simp only
  split
  · split <;> exact ⟨rfl, rfl⟩
  · exact Same.refl v

theorem takeAll_same (l : List Nat) (v : Venv σ A K X ρ) : Same v (Venv.takeAll h l v).1 := by
  induction l generalizing v with
  | nil => exact Same.refl v
  | cons c t ih =>
    unfold Venv.takeAll
    have h1 := takeOne_same (h := h) c v
    split
    · next e => rw [e] at h1; exact h1
    · next v1 _ e =>
      rw [e] at h1
      have h2 := h1.trans (ih v1)
      split <;> (next e2 => rw [e2] at h2; exact h2)

theorem drain_same (fuel i : Nat) (v : Venv σ A K X ρ) : Same v (Venv.drain h fuel i v).1 := by
  induction fuel generalizing i v with
  | zero => exact Same.refl v
  | succ fuel ih =>
    unfold Venv.drain
    split
    · exact Same.refl v
    · next c _ =>
      have h1 := takeOne_same (h := h) c v
      split
      · next e => rw [e] at h1; exact h1
      · next v1 _ e =>
        rw [e] at h1
        have h2 := h1.trans (ih (i + 1) v1)
        split <;> (next e2 => rw [e2] at h2; exact h2)

theorem collect_same (ticks : List Tick) (hp : PInv n v) : Same v (Venv.collect h ticks v).1 := by
  unfold Venv.collect
  split
  · split
    · exact Same.refl v
    · exact drain_same _ _ _
  · have hq := (pollLoop_frame (h := h) ticks v.waitingConn [] v (by
      rw [hp.conn]; exact (List.nodup_append.mp hp.nodup).1)).1
    split
    · next e => rw [e] at hq; exact Same.frame hq
    · next u ready e =>
      rw [e] at hq
      exact (Same.frame hq).trans (takeAll_same ready u)

theorem step_keeps (hp : PInv n v) (ha : v.isAsync = true) (action : Option (List A)) (ids : Option (List Nat))
    (ticks : List Tick) (hn : (v.wrapId ids).Nodup) {v' : Venv σ A K X ρ} {new : List (Nat × ρ)}
    (he : v.step h action ids ticks = (v', .ok new)) : Same v v' := by
  obtain ⟨u, hs, hcol, -, hu⟩ := step_parts hp ha action ids ticks hn he
  have := collect_same (h := h) ticks hs.inv
  rw [hcol] at this
  exact Same.trans ⟨hu, hs.kind⟩ this

/-- One step with dummy workers: an environment at an even position of the waiting list is returned, one at an odd position
goes to half of it. -/
theorem step_dummy_pos (hp : PInv n v) (ha : v.isAsync = true) (hk : v.kind = .dummy) (action : Option (List A))
    (ids : Option (List Nat)) (ticks : List Tick) (hn : (v.wrapId ids).Nodup) {v' : Venv σ A K X ρ}
    {new : List (Nat × ρ)} (he : v.step h action ids ticks = (v', .ok new)) (p c : Nat) (hc : v.waitingId[p]? = some c) :
    (p % 2 = 0 → c ∈ new.map Prod.fst) ∧ (p % 2 = 1 → v'.waitingId[p / 2]? = some c) := by
  obtain ⟨u, hs, hcol, -⟩ := step_parts hp ha action ids ticks hn he
  have hcu : u.waitingId[p]? = some c := by
    rw [hs.waiting, List.getElem?_append_left (List.getElem?_eq_some_iff.mp hc).1]
    exact hc
  unfold Venv.collect at hcol
  rw [hs.kind, hk] at hcol
  simp only at hcol
  by_cases h0 : u.waitingConn.length = 0
  · rw [if_pos h0] at hcol; injection hcol with _ hcol; injection hcol
  · rw [if_neg h0] at hcol
    have := drain_pos u.waitingConn.length 0 hs.inv (by rw [hs.inv.conn]; omega) hcol p c hcu
    simpa using this.2

/-- A process going on does not take back a reply. -/
theorem runWorker_reply (i j : Nat) (hr : v.hasReply j = true) : (v.runWorker h i).hasReply j = true := by
  unfold Venv.runWorker
  cases hw : v.workers[i]? with
  | none => exact hr
  | some w =>
    simp only
    unfold Venv.hasReply at hr ⊢
    by_cases hij : i = j
    · subst hij
      rw [hw] at hr
      simp only at hr
      rw [List.getElem?_set_self (List.getElem?_eq_some_iff.mp hw).1]
      simp only
      unfold Worker.progress
      split
      · exact hr
      · simp only
        split
        · exact hr
        · simp
    · rw [List.getElem?_set_ne hij]
      exact hr

/-- If `connection.wait` reports all connections that have a reply, a reply that was there before is among the results. -/
theorem pollLoop_fair (c : Nat) (ticks : List Tick) (remain ready : List Nat) (v : Venv σ A K X ρ)
    (hth : ∀ order, Tick.poll order ∈ ticks → c ∈ order)
    (hs : c ∈ ready ∨ (c ∈ remain ∧ v.hasReply c = true ∧ ready = [])) {u : Venv σ A K X ρ} {r : List Nat}
    (he : Venv.pollLoop h ticks remain ready v = (u, .ok r)) : c ∈ r := by
  have fin : ∀ (ready : List Nat), (c ∈ ready ∨ ready = []) →
      (if ready.length = 0 then Except.error Err.hangs else Except.ok ready) = Except.ok r → c ∈ r := by
    intro ready hs hr
    by_cases h0 : ready.length = 0
    · rw [if_pos h0] at hr; cases hr
    · rw [if_neg h0] at hr
      injection hr with hr
      subst hr
      rcases hs with hs | hs
      · exact hs
      · exact absurd (by rw [hs]; rfl) h0
  induction ticks generalizing remain ready v with
  | nil =>
    unfold Venv.pollLoop at he
    split at he
    · injection he with _ he; injection he
    · injection he with _ he
      exact fin ready (hs.imp id fun x => x.2.2) he
  | cons tick ts ih =>
    have hth' : ∀ order, Tick.poll order ∈ ts → c ∈ order := fun o ho => hth o (List.mem_cons_of_mem _ ho)
    unfold Venv.pollLoop at he
    split at he
    · cases tick with
      | run i =>
        exact ih remain ready _ hth' (hs.imp id fun x => ⟨x.1, runWorker_reply i c x.2.1, x.2.2⟩) he
      | poll order =>
        simp only at he
        split at he
        · injection he with _ he; injection he
        · refine ih _ _ v hth' (.inl ?_) he
          rcases hs with hs | ⟨h1, h2, -⟩
          · exact List.mem_append_left _ hs
          · refine List.mem_append_right _ ?_
            rw [List.mem_dedup, List.mem_filter]
            exact ⟨hth order (by simp), by simp [h1, h2]⟩
      | expire =>
        simp only at he
        split at he
        · next ht =>
          injection he with _ he
          injection he with he
          subst he
          rcases hs with hs | ⟨-, -, h0⟩
          · exact hs
          · rw [h0] at ht; simp at ht
        · exact ih remain ready v hth' hs he
    · injection he with _ he
      exact fin ready (hs.imp id fun x => x.2.2) he

/-- One step with subprocess workers. -/
theorem step_subproc_fair (hp : PInv n v) (ha : v.isAsync = true) (hk : v.kind = .subproc) (action : Option (List A))
    (ids : Option (List Nat)) (ticks : List Tick) (hn : (v.wrapId ids).Nodup) {v' : Venv σ A K X ρ}
    {new : List (Nat × ρ)} (he : v.step h action ids ticks = (v', .ok new)) (c : Nat) (hc : c ∈ v.waitingId)
    (hr : v.hasReply c = true) (hth : ∀ order, Tick.poll order ∈ ticks → c ∈ order) : c ∈ new.map Prod.fst := by
  obtain ⟨u, hs, hcol, hrest, -⟩ := step_parts hp ha action ids ticks hn he
  have hcu : c ∈ u.waitingId := by rw [hs.waiting]; exact List.mem_append_left _ hc
  have hru : u.hasReply c = true := by
    unfold Venv.hasReply at hr ⊢
    rw [hrest c (fun hm => by
      have := (List.nodup_append.mp hs.inv.nodup).1
      rw [hs.waiting] at this
      exact (List.nodup_append.mp this).2.2 c hc c hm rfl)]
    exact hr
  unfold Venv.collect at hcol
  rw [hs.kind, hk] at hcol
  simp only at hcol
  have hq := pollLoop_frame (h := h) ticks u.waitingConn [] u (by
    rw [hs.inv.conn]; exact (List.nodup_append.mp hs.inv.nodup).1)
  simp only [List.nil_append] at hq
  obtain ⟨p1, -, p4, p5⟩ := hq
  rcases hd : Venv.pollLoop h ticks u.waitingConn [] u with ⟨w, res⟩
  rw [hd] at hcol p1 p5
  cases res with
  | error e => simp only at hcol; injection hcol with _ hcol; injection hcol
  | ok ready =>
    simp only at hcol
    obtain ⟨-, r2, r3, -⟩ := p5 ready rfl
    have hcr : c ∈ ready := pollLoop_fair c ticks u.waitingConn [] u hth
      (.inr ⟨by rw [hs.inv.conn]; exact hcu, hru, rfl⟩) hd
    rcases takeAll_moved (h := h) ready (hs.inv.frame p1) r2 (fun j hj => by
        have := r3 j hj
        rw [hs.inv.conn] at this
        rw [p1.waitingId]
        exact this) with ⟨x, e⟩ | ⟨x, rows, e1, -, e3⟩
    · rw [e] at hcol; injection hcol with _ hcol; injection hcol
    · rw [e1] at hcol
      injection hcol with _ hcol
      injection hcol with hcol
      subst hcol
      rw [e3]
      exact hcr

end Verif.VecEnv
