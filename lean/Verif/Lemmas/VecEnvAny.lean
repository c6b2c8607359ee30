import Verif.Lemmas.VecEnvCalls

/-! The partition into ready and stepping environments, for arbitrary calls. -/

namespace Verif.VecEnv

variable {σ A K X ρ : Type} {h : Handler σ A K X ρ} {v : Venv σ A K X ρ} {n : Nat}

structure PInv (n : Nat) (v : Venv σ A K X ρ) : Prop where
  len : v.workers.length = n
  conn : v.waitingConn = v.waitingId
  part : (v.waitingId ++ v.readyId).Perm (List.range n)

theorem PInv.frame {v' : Venv σ A K X ρ} (hp : PInv n v) (f : Venv.Frame v v') : PInv n v' :=
  ⟨f.2.trans hp.len, by rw [f.waitingConn, f.waitingId, hp.conn], by rw [f.waitingId, f.readyId]; exact hp.part⟩

theorem PInv.nodup (hp : PInv n v) : (v.waitingId ++ v.readyId).Nodup := hp.part.nodup_iff.mpr List.nodup_range

theorem PInv.mem_lt (hp : PInv n v) {i : Nat} (hm : i ∈ v.waitingId ++ v.readyId) : i < v.workers.length := by
  rw [hp.len]; exact List.mem_range.mp (hp.part.mem_iff.mp hm)

theorem sendAll_frame (l : List (Nat × Req A K X)) (v : Venv σ A K X ρ) : Venv.Frame v (Venv.sendAll h l v).1 := by
  induction l generalizing v with
  | nil => exact Venv.Frame.refl v
  | cons p t ih =>
    unfold Venv.sendAll
    split
    · exact Venv.Frame.refl v
    · exact (Venv.Frame.set _ _ _).trans (ih _)

theorem tellAll_frame (l : List (Nat × Req A K X)) (v : Venv σ A K X ρ) : Venv.Frame v (Venv.tellAll h l v).1 := by
  induction l generalizing v with
  | nil => exact Venv.Frame.refl v
  | cons p t ih =>
    unfold Venv.tellAll
    split
    · exact Venv.Frame.refl v
    · exact (Venv.Frame.set _ _ _).trans (ih _)

theorem recvAll_frame (l : List Nat) (v : Venv σ A K X ρ) : Venv.Frame v (Venv.recvAll h l v).1 := by
  induction l generalizing v with
  | nil => exact Venv.Frame.refl v
  | cons j t ih =>
    unfold Venv.recvAll
    split
    · exact Venv.Frame.refl v
    · next w hw =>
      simp only
      have f := (Venv.Frame.set v j (w.recv v.kind h).1).trans (ih _)
      split
      · exact Venv.Frame.set _ _ _
      · split <;> (next e => rw [e] at f; exact f)

theorem askAll_frame (l : List (Nat × Req A K X)) (v : Venv σ A K X ρ) : Venv.Frame v (Venv.askAll h l v).1 := by
  induction l generalizing v with
  | nil => exact Venv.Frame.refl v
  | cons p t ih =>
    unfold Venv.askAll
    split
    · exact Venv.Frame.refl v
    · next w hw =>
      simp only
      have f := (Venv.Frame.set v p.1 (w.ask v.kind h p.2).1).trans (ih _)
      split
      · exact Venv.Frame.set _ _ _
      · split <;> (next e => rw [e] at f; exact f)

theorem reset_frame (kw : K) (ids : Option (List Nat)) (v : Venv σ A K X ρ) : Venv.Frame v (v.reset h kw ids).1 := by
  unfold Venv.reset
  split_ifs
  · exact Venv.Frame.refl v
  · exact Venv.Frame.refl v
  · have f := sendAll_frame (h := h) ((v.wrapId ids).map fun j => (j, .reset kw)) v
    split
    · next e => rw [e] at f; exact f
    · next v1 e =>
      rw [e] at f
      have g := f.trans (recvAll_frame (h := h) (v.wrapId ids) v1)
      split <;> (next e => rw [e] at g; exact g)

theorem getEnvAttr_frame (key : String) (ids : Option (List Nat)) (v : Venv σ A K X ρ) :
    Venv.Frame v (v.getEnvAttr h key ids).1 := by
  unfold Venv.getEnvAttr
  split_ifs
  · exact Venv.Frame.refl v
  · exact Venv.Frame.refl v
  · exact askAll_frame _ v

theorem setEnvAttr_frame (key : String) (x : X) (ids : Option (List Nat)) (v : Venv σ A K X ρ) :
    Venv.Frame v (v.setEnvAttr h key x ids).1 := by
  unfold Venv.setEnvAttr
  split_ifs
  · exact Venv.Frame.refl v
  · exact Venv.Frame.refl v
  · exact tellAll_frame _ v

theorem render_frame (kw : K) (v : Venv σ A K X ρ) : Venv.Frame v (v.render h kw).1 := by
  unfold Venv.render
  split_ifs
  · exact Venv.Frame.refl v
  · exact Venv.Frame.refl v
  · exact askAll_frame _ v

theorem seed_frame (s : Seed) (v : Venv σ A K X ρ) : Venv.Frame v (v.seed h s).1 := by
  unfold Venv.seed
  by_cases hc : v.closed = true
  · rw [if_pos hc]; exact Venv.Frame.refl v
  · rw [if_neg hc]
    have f := askAll_frame (h := h) ((List.range v.workers.length).zip ((v.seedList s).map .seed)) v
    split <;> (next e => rw [e] at f; exact f)

/-- What taking results does to the lists of ids. -/
structure Moved (n : Nat) (v v' : Venv σ A K X ρ) (rows : List (Nat × ρ)) : Prop where
  inv : PInv n v'
  waiting : v'.waitingId = v.waitingId.diff (rows.map Prod.fst)
  ready : v'.readyId = v.readyId ++ rows.map Prod.fst
  sub : ∀ row ∈ rows, row.1 ∈ v.waitingId
  nodup : (rows.map Prod.fst).Nodup

theorem takeOne_moved (hp : PInv n v) {c : Nat} (hc : c ∈ v.waitingId) :
    (∃ v', Venv.takeOne h c v = (v', .error .hangs)) ∨
    ∃ v' x, Venv.takeOne h c v = (v', .ok (c, x)) ∧ PInv n v' ∧ v'.waitingId = v.waitingId.erase c ∧
      v'.readyId = v.readyId ++ [c] := by
  have hl := hp.mem_lt (List.mem_append_left _ hc)
  have hw : v.workers[c]? = some v.workers[c] := List.getElem?_eq_getElem hl
  have hk : v.waitingId[v.waitingId.idxOf c]? = some c := by
    rw [List.getElem?_eq_getElem (List.idxOf_lt_length_iff.mpr hc)]
    simp
  unfold Venv.takeOne
  simp only [hp.conn, hk, hw]
  cases hr : ((v.workers[c]).recv v.kind h).2 with
  | none => exact .inl ⟨_, rfl⟩
  | some x =>
    refine .inr ⟨_, x, rfl, ⟨by simpa using hp.len, rfl, ?_⟩, eraseIdx_idxOf _ _, rfl⟩
    simp only [eraseIdx_idxOf]
    refine List.Perm.trans ?_ hp.part
    have hq := List.perm_cons_erase hc
    refine List.Perm.trans ?_ (hq.append_right v.readyId).symm
    rw [← List.append_assoc]
    refine (List.perm_append_comm).trans ?_
    simp

theorem moved_nil (hp : PInv n v) : Moved n v v ([] : List (Nat × ρ)) :=
  ⟨hp, by simp, by simp, by simp, by simp⟩

theorem moved_cons (hp : PInv n v) {c : Nat} {x : ρ} {v' v'' : Venv σ A K X ρ} {rows} (hc : c ∈ v.waitingId)
    (h1 : v'.waitingId = v.waitingId.erase c) (h2 : v'.readyId = v.readyId ++ [c]) (hm : Moved n v' v'' rows) :
    Moved n v v'' ((c, x) :: rows) := by
  have hnw : v.waitingId.Nodup := (List.nodup_append.mp hp.nodup).1
  refine ⟨hm.inv, by rw [hm.waiting, h1]; simp [List.diff_cons], by rw [hm.ready, h2]; simp, ?_, ?_⟩
  · intro row hr
    rcases List.mem_cons.mp hr with rfl | hr
    · exact hc
    · have := hm.sub row hr
      rw [h1] at this
      exact List.mem_of_mem_erase this
  · rw [List.map_cons, List.nodup_cons]
    refine ⟨fun hx => ?_, hm.nodup⟩
    obtain ⟨row, hr, e⟩ := List.mem_map.mp hx
    have := hm.sub row hr
    rw [h1, e] at this
    exact hnw.not_mem_erase this

theorem takeAll_moved (l : List Nat) (hp : PInv n v) (hnd : l.Nodup) (hsub : ∀ c ∈ l, c ∈ v.waitingId) :
    (∃ v', Venv.takeAll h l v = (v', .error .hangs)) ∨
    ∃ v' rows, Venv.takeAll h l v = (v', .ok rows) ∧ Moved n v v' rows ∧ rows.map Prod.fst = l := by
  induction l generalizing v with
  | nil => exact .inr ⟨v, [], rfl, moved_nil hp, rfl⟩
  | cons c t ih =>
    obtain ⟨hct, hnd'⟩ := List.nodup_cons.mp hnd
    unfold Venv.takeAll
    rcases takeOne_moved (h := h) hp (hsub c (by simp)) with ⟨v', e⟩ | ⟨v', x, e1, e2, e3, e4⟩
    · rw [e]; exact .inl ⟨v', rfl⟩
    · rw [e1]
      simp only
      rcases ih e2 hnd' (fun j hj => by
        rw [e3]
        exact (List.mem_erase_of_ne (fun e : j = c => hct (e ▸ hj))).mpr (hsub j (by simp [hj]))) with
        ⟨v'', f⟩ | ⟨v'', rows, f1, f2, f3⟩
      · rw [f]; exact .inl ⟨v'', rfl⟩
      · rw [f1]
        exact .inr ⟨v'', _, rfl, moved_cons hp (hsub c (by simp)) e3 e4 f2, by simp [f3]⟩

theorem drain_moved (fuel i : Nat) (hp : PInv n v) :
    (∃ v', Venv.drain h fuel i v = (v', .error .hangs)) ∨
    ∃ v' rows, Venv.drain h fuel i v = (v', .ok rows) ∧ Moved n v v' rows ∧
      (0 < fuel → i < v.waitingId.length → rows ≠ []) := by
  induction fuel generalizing i v with
  | zero => exact .inr ⟨v, [], rfl, moved_nil hp, fun h0 => absurd h0 (by omega)⟩
  | succ fuel ih =>
    unfold Venv.drain
    by_cases hl : i < v.waitingConn.length
    · have hw : v.waitingConn[i]? = some v.waitingConn[i] := List.getElem?_eq_getElem hl
      have hc : v.waitingConn[i] ∈ v.waitingId := by rw [← hp.conn]; exact List.getElem_mem _
      rw [hw]
      simp only
      rcases takeOne_moved (h := h) hp hc with ⟨v', e⟩ | ⟨v', x, e1, e2, e3, e4⟩
      · rw [e]; exact .inl ⟨v', rfl⟩
      · rw [e1]
        simp only
        rcases ih (i + 1) e2 with ⟨v'', f⟩ | ⟨v'', rows, f1, f2, -⟩
        · rw [f]; exact .inl ⟨v'', rfl⟩
        · rw [f1]
          exact .inr ⟨v'', _, rfl, moved_cons hp hc e3 e4 f2, fun _ _ => by simp⟩
    · have hw : v.waitingConn[i]? = none := List.getElem?_eq_none (Nat.not_lt.mp hl)
      rw [hw]
      refine .inr ⟨v, [], rfl, moved_nil hp, fun _ h2 => ?_⟩
      rw [hp.conn] at hl
      exact absurd h2 hl

theorem collect_moved (ticks : List Tick) (hp : PInv n v) :
    (∃ v', Venv.collect h ticks v = (v', .error .hangs)) ∨
    ∃ v' rows, Venv.collect h ticks v = (v', .ok rows) ∧ Moved n v v' rows ∧ rows ≠ [] ∧
      (v.kind = .subproc → v.timeout = false → min v.waitNum v.waitingId.length ≤ rows.length) := by
  unfold Venv.collect
  cases hk : v.kind with
  | dummy =>
    simp only
    by_cases h0 : v.waitingConn.length = 0
    · rw [if_pos h0]
      exact .inl ⟨v, rfl⟩
    · rw [if_neg h0]
      rcases drain_moved (h := h) v.waitingConn.length 0 hp with e | ⟨v', rows, e1, e2, e3⟩
      · exact .inl e
      · exact .inr ⟨v', rows, e1, e2, e3 (by omega) (by rw [← hp.conn]; omega), fun hf => by simp at hf⟩
  | subproc =>
    simp only
    have hq := pollLoop_frame (h := h) ticks v.waitingConn [] v (by
      rw [hp.conn]; exact (List.nodup_append.mp hp.nodup).1)
    simp only [List.nil_append] at hq
    obtain ⟨p1, -, p4, p5⟩ := hq
    generalize Venv.pollLoop h ticks v.waitingConn [] v = out at p1 p4 p5 ⊢
    obtain ⟨u, res⟩ := out
    have hu : u.waitingId = v.waitingId := p1.waitingId
    have hr : u.readyId = v.readyId := p1.readyId
    cases res with
    | error e => rw [p4 e rfl]; exact .inl ⟨u, rfl⟩
    | ok ready =>
      obtain ⟨r1, r2, r3, r4⟩ := p5 ready rfl
      simp only
      rcases takeAll_moved (h := h) ready (hp.frame p1) r2 (fun c hc => by
        have := r3 c hc
        rw [hp.conn] at this
        show c ∈ u.waitingId
        rw [hu]
        simpa using this) with e | ⟨v', rows, e1, e2, e3⟩
      · exact .inl e
      · refine .inr ⟨v', rows, e1, ⟨e2.inv, by rw [e2.waiting, hu], by rw [e2.ready, hr],
          fun r hr => by rw [← hu]; exact e2.sub r hr, e2.nodup⟩, fun h0 => r1 (by rw [← e3, h0]; rfl), fun _ ht => ?_⟩
        have := r4 ht
        rw [hp.conn] at this
        rw [← e3, List.length_map] at this
        exact this

/-- `v'` is `v` with the environments `ids` handed an action. -/
structure Sent (n : Nat) (ids : List Nat) (v v' : Venv σ A K X ρ) : Prop where
  inv : PInv n v'
  waiting : v'.waitingId = v.waitingId ++ ids
  ready : v'.readyId = v.readyId.filter fun x => !ids.contains x
  kind : v'.kind = v.kind
  waitNum : v'.waitNum = v.waitNum
  timeout : v'.timeout = v.timeout

theorem sendStep_sent (hp : PInv n v) (ids : List Nat) (acts : List A) (hnd : ids.Nodup)
    (hok : v.idsOk ids = true) (hl : acts.length = ids.length) :
    ∃ u, Venv.sendStep h (ids.zip acts) v = (u, .ok ()) ∧
      Sent n ids v { u with readyId := u.readyId.filter fun x => !ids.contains x } := by
  have hids := (idsOk_iff _ _).mp hok
  have hfst : (ids.zip acts).map Prod.fst = ids := zip_fst _ _ hl
  obtain ⟨u, a1, a2, a3, a4, a5⟩ := Venv.sendStep_spec h (ids.zip acts) v (by rw [hfst]; exact hnd)
    (fun p hq => hp.mem_lt (List.mem_append_right _ (hids p.1 (List.of_mem_zip (a := p.1) (b := p.2) hq).1).2))
  rw [hfst] at a2 a5
  have w1 : u.waitingId = v.waitingId ++ ids := by rw [a2]
  have w2 : u.waitingConn = v.waitingConn ++ ids := by rw [a2]
  have w3 : u.readyId = v.readyId := by rw [a2]
  refine ⟨u, a1, ⟨⟨a3.trans hp.len, ?_, ?_⟩, w1, by simp only [w3], by rw [a2], by rw [a2], by rw [a2]⟩⟩
  · show u.waitingConn = u.waitingId
    rw [w1, w2, hp.conn]
  · show (u.waitingId ++ u.readyId.filter fun x => !ids.contains x).Perm _
    rw [w1, w3]
    refine List.Perm.trans ?_ hp.part
    have hrn := (List.nodup_append.mp hp.nodup).2.1
    rw [List.append_assoc]
    refine List.Perm.append_left _ ?_
    refine (List.perm_ext_iff_of_nodup ?_ hrn).mpr ?_
    · refine List.nodup_append.mpr ⟨hnd, hrn.filter _, ?_⟩
      rintro a ha b hb rfl
      have := (List.mem_filter.mp hb).2
      simp [ha] at this
    · intro x
      simp only [List.mem_append, List.mem_filter]
      constructor
      · rintro (hx | hx)
        · exact (hids x hx).2
        · exact hx.1
      · intro hx
        by_cases hxi : x ∈ ids
        · exact .inl hxi
        · exact .inr ⟨hx, by simpa using hxi⟩

/-- The environments that a call of `step` hands an action to. -/
def handedTo (action : Option (List A)) (ids : List Nat) : List Nat :=
  match action with
  | none => []
  | some _ => ids

theorem step_any (hp : PInv n v) (action : Option (List A)) (ids : Option (List Nat)) (ticks : List Tick)
    (hn : (v.wrapId ids).Nodup) :
    (∃ v', v.step h action ids ticks = (v', .error .hangs)) ∨
    (∃ v' e, v.step h action ids ticks = (v', .error e) ∧ PInv n v') ∨
    (v.isAsync = false ∧ ∃ v' rows, v.step h action ids ticks = (v', .ok rows) ∧ PInv n v') ∨
    (v.isAsync = true ∧ ∃ u v' rows, v.step h action ids ticks = (v', .ok rows) ∧
      Sent n (handedTo action (v.wrapId ids)) v u ∧ Moved n u v' rows ∧ rows ≠ [] ∧
      (v.kind = .subproc → v.timeout = false → min v.waitNum u.waitingId.length ≤ rows.length)) := by
  unfold Venv.step
  by_cases hc : v.closed = true
  · simp only [hc, if_true]
    exact .inr (.inl ⟨v, _, rfl, hp⟩)
  · simp only [hc, Bool.false_eq_true, if_false]
    cases ha : v.isAsync with
    | false =>
      simp only [Bool.not_false, if_true]
      cases action with
      | none => exact .inr (.inl ⟨v, _, rfl, hp⟩)
      | some acts =>
        simp only
        by_cases hl : acts.length ≠ (v.wrapId ids).length
        · rw [if_pos hl]
          exact .inr (.inl ⟨v, _, rfl, hp⟩)
        · rw [if_neg hl]
          have f := sendAll_frame (h := h) ((v.wrapId ids).zip (acts.map .step)) v
          split
          · next v1 e he => rw [he] at f; exact .inr (.inl ⟨v1, e, rfl, hp.frame f⟩)
          · next v1 he =>
            rw [he] at f
            have g := f.trans (recvAll_frame (h := h) (v.wrapId ids) v1)
            split
            · next v2 e he2 => rw [he2] at g; exact .inr (.inl ⟨v2, e, rfl, hp.frame g⟩)
            · next v2 rows he2 =>
              rw [he2] at g
              by_cases hr : rows.isEmpty = true
              · rw [if_pos hr]
                exact .inr (.inl ⟨v2, _, rfl, hp.frame g⟩)
              · rw [if_neg hr]
                exact .inr (.inr (.inl ⟨trivial, v2, rows, rfl, hp.frame g⟩))
    | true =>
      simp only [Bool.not_true, Bool.false_eq_true, if_false]
      have fin : ∀ u, Sent n (handedTo action (v.wrapId ids)) v u →
          (∃ v', Venv.collect h ticks u = (v', .error .hangs)) ∨
          (∃ v' e, Venv.collect h ticks u = (v', .error e) ∧ PInv n v') ∨
          (true = false ∧ ∃ v' rows, Venv.collect h ticks u = (v', .ok rows) ∧ PInv n v') ∨
          (true = true ∧ ∃ u' v' rows, Venv.collect h ticks u = (v', .ok rows) ∧
            Sent n (handedTo action (v.wrapId ids)) v u' ∧ Moved n u' v' rows ∧ rows ≠ [] ∧
            (v.kind = .subproc → v.timeout = false → min v.waitNum u'.waitingId.length ≤ rows.length)) := by
        intro u hu
        rcases collect_moved (h := h) ticks hu.inv with e | ⟨v', rows, e1, e2, e3, e4⟩
        · exact .inl e
        · refine .inr (.inr (.inr ⟨rfl, u, v', rows, e1, hu, e2, e3, fun k t => ?_⟩))
          have := e4 (by rw [hu.kind]; exact k) (by rw [hu.timeout]; exact t)
          rwa [hu.waitNum] at this
      cases action with
      | none =>
        simpa using fin v ⟨hp, by simp [handedTo], by simp [handedTo], rfl, rfl, rfl⟩
      | some acts =>
        by_cases hok : v.idsOk (v.wrapId ids) = true
        · by_cases hl : acts.length = (v.wrapId ids).length
          · obtain ⟨u, a1, a2⟩ := sendStep_sent (h := h) hp (v.wrapId ids) acts hn hok hl
            have := fin _ a2
            simpa [hok, hl, a1] using this
          · exact .inr (.inl ⟨v, .assertion, by simp [hok, hl], hp⟩)
        · exact .inr (.inl ⟨v, .assertion, by simp [hok], hp⟩)

theorem pinv_make (h : Handler σ A K X ρ) {s0 : List σ} {kind : Kind} {wn timeout} (hm : Venv.make kind s0 wn timeout = .ok v) :
    PInv s0.length v := by
  have hi : Inv h s0 v [] := inv_make hm
  exact ⟨hi.len, hi.conn, hi.part⟩

theorem pinv_history {s0 : List σ} (hh : AnyHistory h s0 v) : PInv s0.length v := by
  induction hh with
  | make hm => exact pinv_make h hm
  | run i _ ih => exact ih.frame (runWorker_frame i _)
  | @step v action ids ticks v' r _ hn he hr ih =>
    rcases step_any (h := h) ih action ids ticks hn with ⟨u, e⟩ | ⟨u, e', e, hu⟩ | ⟨-, u, rows, e, hu⟩ |
      ⟨-, u, v2, rows, e, -, hm, -⟩
    · rw [he] at e; injection e with _ e; exact absurd e hr
    · rw [he] at e; injection e with e _; subst e; exact hu
    · rw [he] at e; injection e with e _; subst e; exact hu
    · rw [he] at e; injection e with e _; subst e; exact hm.inv
  | @reset v kw ids v' r _ he hr ih => have := reset_frame (h := h) kw ids v; rw [he] at this; exact ih.frame this
  | @getEnvAttr v key ids v' r _ he hr ih =>
    have := getEnvAttr_frame (h := h) key ids v; rw [he] at this; exact ih.frame this
  | @setEnvAttr v key x ids v' r _ he ih =>
    have := setEnvAttr_frame (h := h) key x ids v; rw [he] at this; exact ih.frame this
  | @seed v s v' r _ he hr ih => have := seed_frame (h := h) s v; rw [he] at this; exact ih.frame this
  | @render v kw v' r _ he hr ih => have := render_frame (h := h) kw v; rw [he] at this; exact ih.frame this
  | @close v v' r _ he ih =>
    unfold Venv.close at he
    split_ifs at he with hc
    · injection he with e1 _; subst e1; exact ih
    · injection he with e1 _
      subst e1
      exact ⟨ih.len, ih.conn, ih.part⟩

end Verif.VecEnv
