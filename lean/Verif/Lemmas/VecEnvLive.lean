import Verif.Lemmas.VecEnvAny

/-! A call of `step` never gets stuck: however far the workers are, it returns once they go on. -/

namespace Verif.VecEnv

variable {σ A K X ρ : Type} {h : Handler σ A K X ρ} {s0 : List σ} {v : Venv σ A K X ρ} {D : List (Nat × ρ)}

/-- Let the process of worker `c` handle `k` commands. -/
def runs (h : Handler σ A K X ρ) (c : Nat) : Nat → Venv σ A K X ρ → Venv σ A K X ρ
  | 0, v => v
  | k + 1, v => runs h c k (v.runWorker h c)

theorem pollLoop_runs (c k : Nat) (ts : List Tick) (remain ready : List Nat) (v : Venv σ A K X ρ)
    (hc : remain.length > 0 ∧ ready.length < v.waitNum) :
    Venv.pollLoop h (List.replicate k (.run c) ++ ts) remain ready v = Venv.pollLoop h ts remain ready (runs h c k v) := by
  induction k generalizing v with
  | zero => rfl
  | succ k ih =>
    rw [List.replicate_succ, List.cons_append, Venv.pollLoop]
    rw [if_pos hc]
    exact ih _ (by rw [(runWorker_frame c v).waitNum]; exact hc)

theorem runs_frame (c k : Nat) (v : Venv σ A K X ρ) : Venv.Frame v (runs h c k v) := by
  induction k generalizing v with
  | zero => exact Venv.Frame.refl v
  | succ k ih => exact (runWorker_frame c v).trans (ih _)

theorem inv_runs (c k : Nat) (hi : Inv h s0 v D) : Inv h s0 (runs h c k v) D := by
  induction k generalizing v with
  | zero => exact hi
  | succ k ih => exact ih (inv_run hi c)

theorem runs_inbox (c k : Nat) (v : Venv σ A K X ρ) {w} (hw : v.workers[c]? = some w) (hk : w.inbox.length ≤ k) :
    ∃ w', (runs h c k v).workers[c]? = some w' ∧ w'.inbox = [] := by
  induction k generalizing v w with
  | zero => exact ⟨w, hw, by simpa using hk⟩
  | succ k ih =>
    have hl := (List.getElem?_eq_some_iff.mp hw).1
    refine ih (v.runWorker h c) (w := w.progress h) ?_ ?_
    · unfold Venv.runWorker
      rw [hw]
      simp [hl]
    · unfold Worker.progress
      split
      · next hi => rw [hi]; exact Nat.zero_le _
      · next r rest hi => rw [hi] at hk; simpa using hk

theorem waiting_ready (hi : Inv h s0 v D) (hk : v.kind = .subproc) {c : Nat} (hc : c ∈ v.waitingId) :
    ∃ k, (runs h c k v).hasReply c = true := by
  have hl := hi.mem_lt hc
  have hw : v.workers[c]? = some v.workers[c] := List.getElem?_eq_getElem hl
  refine ⟨(v.workers[c]).inbox.length, ?_⟩
  obtain ⟨w', e1, e2⟩ := runs_inbox (h := h) c _ v hw (Nat.le_refl _)
  have hi' := inv_runs c (v.workers[c]).inbox.length hi
  have f := runs_frame (h := h) c (v.workers[c]).inbox.length v
  obtain ⟨s, hs⟩ := hi.start hl
  obtain ⟨t, a, -, g, -⟩ := hi'.busy e1 hs (by rw [f.waitingId]; exact hc)
  rw [f.kind, hk] at g
  have := g.2
  rw [e2] at this
  unfold Venv.hasReply
  rw [e1]
  have ho : w'.outbox = [replyTo h s t (.step a)] := by simpa [loud] using this
  simp [ho]

theorem pollLoop_more (m : Nat) (remain ready : List Nat) (v : Venv σ A K X ρ) (hi : Inv h s0 v D)
    (hk : v.kind = .subproc) (hm : remain.length ≤ m) (hnd : (ready ++ remain).Nodup)
    (hsub : ∀ c ∈ remain, c ∈ v.waitingId) (hne : ready ++ remain ≠ []) :
    ∃ more r, (Venv.pollLoop h more remain ready v).2 = .ok r := by
  induction m generalizing remain ready v with
  | zero =>
    have hr : remain = [] := by simpa using hm
    subst hr
    refine ⟨[], ready, ?_⟩
    have : ready.length ≠ 0 := fun e => hne (by simpa using e)
    simp [Venv.pollLoop, this]
  | succ m ih =>
    by_cases hc : remain.length > 0 ∧ ready.length < v.waitNum
    · obtain ⟨c, t, rfl⟩ : ∃ c t, remain = c :: t := by
        cases remain with
        | nil => simp at hc
        | cons c t => exact ⟨c, t, rfl⟩
      obtain ⟨k, hrep⟩ := waiting_ready hi hk (hsub c (by simp))
      have f := runs_frame (h := h) c k v
      have hrn : (c :: t).Nodup := (List.nodup_append.mp hnd).2.1
      have hnew : (([c] : List Nat).filter fun j => (c :: t).contains j && (runs h c k v).hasReply j).dedup = [c] := by
        simp [hrep]
      have hcr : c ∉ ready := fun hcr => (List.nodup_append.mp hnd).2.2 c hcr c (by simp) rfl
      have htc : ∀ j ∈ t, j ≠ c := fun j hj e => (List.nodup_cons.mp hrn).1 (e ▸ hj)
      have htr : ∀ j ∈ t, j ∉ ready := fun j hj hr => (List.nodup_append.mp hnd).2.2 j hr j (by simp [hj]) rfl
      have hrem : ((c :: t).filter fun j => !(ready ++ [c]).contains j) = t := by
        rw [List.filter_cons_of_neg (by simp)]
        refine List.filter_eq_self.mpr fun j hj => ?_
        simp [htc j hj, htr j hj]
      obtain ⟨more, r, hr⟩ := ih t (ready ++ [c]) (runs h c k v) (inv_runs c k hi) (f.kind.trans hk)
        (by simpa using hm) (by simpa using hnd) (fun j hj => by rw [f.waitingId]; exact hsub j (by simp [hj]))
        (by simp)
      refine ⟨List.replicate k (.run c) ++ .poll [c] :: more, r, ?_⟩
      rw [pollLoop_runs c k _ _ _ _ hc, Venv.pollLoop, if_pos (by rw [f.waitNum]; exact hc)]
      simp only [hrn, not_true_eq_false, if_false]
      rw [hnew, hrem]
      exact hr
    · refine ⟨[], ready, ?_⟩
      have h1 := hi.wn
      have : ready.length ≠ 0 := by
        intro e
        have : remain.length ≠ 0 := fun e' => hne (by
          rw [List.length_eq_zero_iff.mp e, List.length_eq_zero_iff.mp e']; rfl)
        omega
      simp [Venv.pollLoop, hc, this]

theorem pollLoop_live (ticks : List Tick) (remain ready : List Nat) (v : Venv σ A K X ρ) (hi : Inv h s0 v D)
    (hk : v.kind = .subproc) (hnd : (ready ++ remain).Nodup) (hsub : ∀ c ∈ remain, c ∈ v.waitingId)
    (hne : ready ++ remain ≠ []) :
    ∃ more r, (Venv.pollLoop h (ticks ++ more) remain ready v).2 = .ok r := by
  induction ticks generalizing remain ready v with
  | nil => exact pollLoop_more remain.length remain ready v hi hk (Nat.le_refl _) hnd hsub hne
  | cons tick ts ih =>
    by_cases hc : remain.length > 0 ∧ ready.length < v.waitNum
    · simp only [List.cons_append]
      unfold Venv.pollLoop
      simp only [if_pos hc]
      cases tick with
      | run i =>
        exact ih remain ready _ (inv_run hi i) ((runWorker_frame i v).kind.trans hk) hnd
          (fun j hj => by rw [(runWorker_frame i v).waitingId]; exact hsub j hj) hne
      | poll order =>
        have hrn : remain.Nodup := (List.nodup_append.mp hnd).2.1
        simp only [hrn, not_true_eq_false, if_false]
        set new := (order.filter fun j => remain.contains j && v.hasReply j).dedup with hnew
        have hmem : ∀ j ∈ new, j ∈ remain := by
          intro j hj
          rw [hnew, List.mem_dedup, List.mem_filter] at hj
          simpa using (Bool.and_eq_true_iff.mp hj.2).1
        refine ih _ _ v hi hk ?_ (fun j hj => hsub j (List.mem_filter.mp hj).1) ?_
        · have h1 := List.nodup_append.mp hnd
          refine List.nodup_append.mpr ⟨List.nodup_append.mpr ⟨h1.1, List.nodup_dedup _, ?_⟩, hrn.filter _, ?_⟩
          · intro a ha b hb
            exact h1.2.2 a ha b (hmem b hb)
          · intro a ha b hb hab
            subst hab
            have := (List.mem_filter.mp hb).2
            simp only [Bool.not_eq_true', List.contains_eq_mem, decide_eq_false_iff_not] at this
            exact this ha
        · intro e
          obtain ⟨e1, e2⟩ := List.append_eq_nil_iff.mp e
          rw [e1] at e2
          obtain ⟨e3, -⟩ := List.append_eq_nil_iff.mp e1
          refine hne ?_
          rw [e3]
          simpa using e2
      | expire =>
        simp only
        by_cases ht : (v.timeout && decide (ready.length > 0)) = true
        · simp only [ht, if_true]
          exact ⟨[], ready, rfl⟩
        · simp only [ht]
          exact ih remain ready v hi hk hnd hsub hne
    · refine ⟨[], ready, ?_⟩
      have h1 := hi.wn
      have : ready.length ≠ 0 := by
        intro e
        have : remain.length ≠ 0 := fun e' => hne (by
          rw [List.length_eq_zero_iff.mp e, List.length_eq_zero_iff.mp e']; rfl)
        omega
      simp [Venv.pollLoop, hc, this]

theorem collect_live (ticks : List Tick) (hi : Inv h s0 v D) (hw : v.waitingId ≠ []) :
    ∃ more rows, (Venv.collect h (ticks ++ more) v).2 = .ok rows := by
  unfold Venv.collect
  cases hk : v.kind with
  | dummy =>
    simp only
    have h0 : v.waitingConn.length ≠ 0 := by rw [hi.conn]; simpa using hw
    obtain ⟨v', rows, e1, -⟩ := drain_spec (h := h) v.waitingConn.length 0 hi
    exact ⟨[], rows, by rw [if_neg h0, e1]⟩
  | subproc =>
    have hnd := (List.nodup_append.mp hi.nodup).1
    obtain ⟨more, r, hr⟩ := pollLoop_live ticks v.waitingConn [] v hi hk (by rw [hi.conn]; simpa using hnd)
      (fun c hc => by rw [← hi.conn]; exact hc) (by rw [hi.conn]; simpa using hw)
    have hp := pollLoop_frame (h := h) (ticks ++ more) v.waitingConn [] v (by rw [hi.conn]; simpa using hnd)
    simp only [List.nil_append] at hp
    obtain ⟨p1, -, -, p5⟩ := hp
    have p3 := pollLoop_inv (ticks ++ more) v.waitingConn [] v hi
    obtain ⟨r1, r2, r3, -⟩ := p5 r hr
    obtain ⟨v', rows, e1, -, -⟩ := takeAll_spec r p3 r2 (fun c hc => by
      have := r3 c hc
      rw [p1.waitingId, ← hi.conn]; exact this)
    refine ⟨more, rows, ?_⟩
    have e2 : Venv.pollLoop h (ticks ++ more) v.waitingConn [] v =
        ((Venv.pollLoop h (ticks ++ more) v.waitingConn [] v).1, .ok r) := by rw [← hr]
    simp only
    rw [e2]
    simp only [e1]

end Verif.VecEnv
