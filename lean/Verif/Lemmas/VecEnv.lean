import Verif.Spec.VecEnv
import Mathlib.Data.List.Nodup
import Mathlib.Data.List.Perm.Basic
import Mathlib.Tactic.SplitIfs

/-! Lemmas about the model of vectorised environments. -/

namespace Verif.VecEnv

variable {σ A K X ρ : Type} (h : Handler σ A K X ρ)

theorem after_append (s : σ) (l m : List (Req A K X)) : after h s (l ++ m) = after h (after h s l) m := by
  simp [after, List.foldl_append]

theorem after_cons (s : σ) (r : Req A K X) (m : List (Req A K X)) : after h s (r :: m) = after h (h s r).1 m := rfl

theorem stepReplies_append (s : σ) (l m : List (Req A K X)) :
    stepReplies h s (l ++ m) = stepReplies h s l ++ stepReplies h (after h s l) m := by
  induction l generalizing s with
  | nil => rfl
  | cons r t ih => cases r <;> simp [stepReplies, ih, after_cons]

theorem stepReplies_step (s : σ) (l : List (Req A K X)) (a : A) :
    stepReplies h s (l ++ [.step a]) = stepReplies h s l ++ [replyTo h s l (.step a)] := by
  rw [stepReplies_append]; rfl

/-- A request that is not a step. -/
def Req.NoStep : Req A K X → Prop
  | .step _ => False
  | _ => True

theorem stepReplies_other (s : σ) (l : List (Req A K X)) (r : Req A K X) (hr : r.NoStep) :
    stepReplies h s (l ++ [r]) = stepReplies h s l := by
  rw [stepReplies_append]; cases r <;> simp_all [stepReplies, Req.NoStep]

/-- The replies that appear in the pipe when the requests are handled. -/
def loud (s : σ) : List (Req A K X) → List ρ
  | [] => []
  | r :: t => (if r.silent then [] else [(h s r).2]) ++ loud (h s r).1 t

theorem loud_append (s : σ) (l m : List (Req A K X)) : loud h s (l ++ m) = loud h s l ++ loud h (after h s l) m := by
  induction l generalizing s with
  | nil => rfl
  | cons r t ih => simp [loud, ih, after_cons]

/-- The worker of an environment that started in state `s` will hand over the replies `p`, and no others. -/
def Good (kind : Kind) (s : σ) (w : Worker σ A K X ρ) (p : Option ρ) : Prop :=
  match kind with
  | .dummy => w.env = after h s w.sent ∧ w.inbox = [] ∧ ∀ x, p = some x → w.result = some x
  | .subproc => after h w.env w.inbox = after h s w.sent ∧ w.outbox ++ loud h w.env w.inbox = p.toList

theorem progress_sent (w : Worker σ A K X ρ) : (w.progress h).sent = w.sent := by
  unfold Worker.progress; split <;> rfl

theorem progress_future (w : Worker σ A K X ρ) :
    (w.progress h).outbox ++ loud h (w.progress h).env (w.progress h).inbox = w.outbox ++ loud h w.env w.inbox ∧
    after h (w.progress h).env (w.progress h).inbox = after h w.env w.inbox := by
  unfold Worker.progress
  split
  · exact ⟨rfl, rfl⟩
  · next r rest hi =>
    rw [hi]
    by_cases hs : r.silent = true <;> simp [loud, hs, after_cons]

theorem progress_good {kind : Kind} {s : σ} {w : Worker σ A K X ρ} {p : Option ρ} (hg : Good h kind s w p) :
    Good h kind s (w.progress h) p := by
  cases kind with
  | dummy =>
    obtain ⟨h1, h2, h3⟩ := hg
    have : w.progress h = w := by unfold Worker.progress; rw [h2]
    rw [this]; exact ⟨h1, h2, h3⟩
  | subproc =>
    obtain ⟨h1, h2⟩ := hg
    obtain ⟨p1, p2⟩ := progress_future h w
    exact ⟨by rw [p2, h1, progress_sent], by rw [p1, h2]⟩

theorem send_sent (kind : Kind) (r : Req A K X) (w : Worker σ A K X ρ) : (w.send kind h r).sent = w.sent ++ [r] := by
  cases kind <;> rfl

theorem send_good {kind : Kind} {s : σ} {w : Worker σ A K X ρ} (r : Req A K X) (hr : r.silent = false)
    (hg : Good h kind s w none) : Good h kind s (w.send kind h r) (some (replyTo h s w.sent r)) := by
  cases kind with
  | dummy =>
    obtain ⟨h1, h2, -⟩ := hg
    refine ⟨?_, h2, ?_⟩
    · show (h w.env r).1 = after h s (w.sent ++ [r])
      rw [after_append, h1]; rfl
    · rintro x hx
      injection hx with hx
      subst hx
      show some (h w.env r).2 = _
      rw [h1]; rfl
  | subproc =>
    obtain ⟨h1, h2⟩ := hg
    constructor
    · show after h w.env (w.inbox ++ [r]) = after h s (w.sent ++ [r])
      rw [after_append, after_append, h1]
    · show w.outbox ++ loud h w.env (w.inbox ++ [r]) = _
      rw [loud_append, ← List.append_assoc, h2]
      simp [loud, hr, replyTo, h1]

theorem await_spec (n : Nat) (w : Worker σ A K X ρ) (x : ρ) (hn : w.inbox.length ≤ n)
    (hx : w.outbox ++ loud h w.env w.inbox = [x]) :
    ∃ w', w.await h n = (w', some x) ∧ w'.outbox ++ loud h w'.env w'.inbox = [] ∧
      after h w'.env w'.inbox = after h w.env w.inbox ∧ w'.sent = w.sent := by
  induction n generalizing w with
  | zero =>
    have hi : w.inbox = [] := by simpa using hn
    rw [hi] at hx
    unfold Worker.await
    cases ho : w.outbox with
    | nil => rw [ho] at hx; simp [loud] at hx
    | cons y ys =>
      rw [ho] at hx
      simp [loud] at hx
      exact ⟨{ w with outbox := ys }, by rw [hx.1], by simp [hx.2, hi, loud], rfl, rfl⟩
  | succ n ih =>
    unfold Worker.await
    cases ho : w.outbox with
    | nil =>
      obtain ⟨p1, p2⟩ := progress_future h w
      have hlen : (w.progress h).inbox.length ≤ n := by
        unfold Worker.progress
        split
        · next hi => rw [hi]; exact Nat.zero_le _
        · next r rest hi => rw [hi] at hn; simpa using hn
      obtain ⟨w', e1, e2, e3, e4⟩ := ih (w.progress h) hlen (by rw [p1]; exact hx)
      exact ⟨w', e1, e2, by rw [e3, p2], by rw [e4, progress_sent]⟩
    | cons y ys =>
      rw [ho] at hx
      simp at hx
      exact ⟨{ w with outbox := ys }, by rw [hx.1], by simp [hx.2.1, hx.2.2], rfl, rfl⟩

theorem recv_good {kind : Kind} {s : σ} {w : Worker σ A K X ρ} {x : ρ} (hg : Good h kind s w (some x)) :
    ∃ w', w.recv kind h = (w', some x) ∧ Good h kind s w' none ∧ w'.sent = w.sent := by
  cases kind with
  | dummy =>
    obtain ⟨h1, h2, h3⟩ := hg
    exact ⟨w, by simp [Worker.recv, h3 x rfl], ⟨h1, h2, by simp⟩, rfl⟩
  | subproc =>
    obtain ⟨h1, h2⟩ := hg
    obtain ⟨w', e1, e2, e3, e4⟩ := await_spec h w.inbox.length w x (Nat.le_refl _) (by simpa using h2)
    exact ⟨w', e1, ⟨by rw [e3, h1, e4], by simpa using e2⟩, e4⟩

theorem ask_good {kind : Kind} {s : σ} {w : Worker σ A K X ρ} (r : Req A K X) (hr : r.silent = false)
    (hg : Good h kind s w none) :
    ∃ w', w.ask kind h r = (w', some (replyTo h s w.sent r)) ∧ Good h kind s w' none ∧ w'.sent = w.sent ++ [r] := by
  cases kind with
  | dummy =>
    obtain ⟨h1, h2, -⟩ := hg
    refine ⟨{ w with env := (h w.env r).1, sent := w.sent ++ [r] }, by simp [Worker.ask, replyTo, h1], ⟨?_, h2, by simp⟩, rfl⟩
    show (h w.env r).1 = after h s (w.sent ++ [r])
    rw [after_append, h1]; rfl
  | subproc =>
    obtain ⟨w', e1, e2, e3⟩ := recv_good h (send_good h r hr hg)
    exact ⟨w', e1, e2, e3⟩

theorem tell_good {kind : Kind} {s : σ} {w : Worker σ A K X ρ} (r : Req A K X) (hr : r.silent = true)
    (hg : Good h kind s w none) : Good h kind s (w.tell kind h r) none ∧ (w.tell kind h r).sent = w.sent ++ [r] := by
  cases kind with
  | dummy =>
    obtain ⟨h1, h2, -⟩ := hg
    refine ⟨⟨?_, h2, by simp⟩, rfl⟩
    show (h w.env r).1 = after h s (w.sent ++ [r])
    rw [after_append, h1]; rfl
  | subproc =>
    obtain ⟨h1, h2⟩ := hg
    refine ⟨⟨?_, ?_⟩, rfl⟩
    · show after h w.env (w.inbox ++ [r]) = after h s (w.sent ++ [r])
      rw [after_append, after_append, h1]
    · show w.outbox ++ loud h w.env (w.inbox ++ [r]) = _
      rw [loud_append, ← List.append_assoc, h2]
      simp [loud, hr]

/-! ### Loops over workers -/

namespace Venv

/-- `v'` differs from `v` only in its workers, of which there are as many. -/
def Frame (v v' : Venv σ A K X ρ) : Prop :=
  v' = { v with workers := v'.workers } ∧ v'.workers.length = v.workers.length

theorem Frame.refl (v : Venv σ A K X ρ) : Frame v v := ⟨rfl, rfl⟩

theorem Frame.trans {u v w : Venv σ A K X ρ} (a : Frame u v) (b : Frame v w) : Frame u w := by
  obtain ⟨a1, a2⟩ := a
  obtain ⟨b1, b2⟩ := b
  refine ⟨?_, b2.trans a2⟩
  rw [b1, a1]

theorem Frame.set (v : Venv σ A K X ρ) (j : Nat) (w : Worker σ A K X ρ) :
    Frame v { v with workers := v.workers.set j w } := ⟨rfl, by simp⟩

theorem Frame.kind {v v' : Venv σ A K X ρ} (f : Frame v v') : v'.kind = v.kind := by rw [f.1]
theorem Frame.isAsync {v v' : Venv σ A K X ρ} (f : Frame v v') : v'.isAsync = v.isAsync := by rw [f.1]
theorem Frame.waitNum {v v' : Venv σ A K X ρ} (f : Frame v v') : v'.waitNum = v.waitNum := by rw [f.1]
theorem Frame.waitingId {v v' : Venv σ A K X ρ} (f : Frame v v') : v'.waitingId = v.waitingId := by rw [f.1]
theorem Frame.waitingConn {v v' : Venv σ A K X ρ} (f : Frame v v') : v'.waitingConn = v.waitingConn := by rw [f.1]
theorem Frame.readyId {v v' : Venv σ A K X ρ} (f : Frame v v') : v'.readyId = v.readyId := by rw [f.1]
theorem Frame.timeout {v v' : Venv σ A K X ρ} (f : Frame v v') : v'.timeout = v.timeout := by rw [f.1]

theorem sendAll_spec (l : List (Nat × Req A K X)) (v : Venv σ A K X ρ) (hnd : (l.map Prod.fst).Nodup)
    (hin : ∀ p ∈ l, p.1 < v.workers.length) :
    ∃ v', sendAll h l v = (v', .ok ()) ∧ Frame v v' ∧
      (∀ p ∈ l, v'.workers[p.1]? = v.workers[p.1]?.map (Worker.send v.kind h p.2)) ∧
      (∀ j, j ∉ l.map Prod.fst → v'.workers[j]? = v.workers[j]?) := by
  induction l generalizing v with
  | nil => exact ⟨v, rfl, Frame.refl v, by simp, by simp⟩
  | cons p t ih =>
    obtain ⟨j, r⟩ := p
    have hj : j < v.workers.length := hin (j, r) (by simp)
    have hw : v.workers[j]? = some v.workers[j] := List.getElem?_eq_getElem hj
    obtain ⟨hj', hnd'⟩ := List.nodup_cons.mp (by simpa using hnd : (j :: t.map Prod.fst).Nodup)
    obtain ⟨v', e1, e2, e3, e4⟩ := ih { v with workers := v.workers.set j ((v.workers[j]).send v.kind h r) } hnd'
      (fun p hp => by simpa using hin p (by simp [hp]))
    refine ⟨v', by unfold sendAll; rw [hw]; exact e1, (Frame.set _ _ _).trans e2, ?_, ?_⟩
    · intro p hp
      rcases List.mem_cons.mp hp with rfl | hp
      · rw [e4 j hj']
        simp [hj]
      · have hne : j ≠ p.1 := fun e => hj' (e ▸ List.mem_map_of_mem (f := Prod.fst) hp)
        rw [e3 p hp]
        simp [hne]
    · intro i hi
      simp only [List.map_cons, List.mem_cons, not_or] at hi
      rw [e4 i hi.2]
      simp [Ne.symm hi.1]

theorem recvAll_spec (ids : List Nat) (v : Venv σ A K X ρ) (hnd : ids.Nodup)
    (hin : ∀ j ∈ ids, ∃ w w' x, v.workers[j]? = some w ∧ w.recv v.kind h = (w', some x)) :
    ∃ v' rows, recvAll h ids v = (v', .ok rows) ∧ Frame v v' ∧ rows.map Prod.fst = ids ∧
      (∀ row ∈ rows, ∃ w, v.workers[row.1]? = some w ∧ (w.recv v.kind h).2 = some row.2) ∧
      (∀ j ∈ ids, v'.workers[j]? = v.workers[j]?.map fun w => (w.recv v.kind h).1) ∧
      (∀ j, j ∉ ids → v'.workers[j]? = v.workers[j]?) := by
  induction ids generalizing v with
  | nil => exact ⟨v, [], rfl, Frame.refl v, rfl, by simp, by simp, by simp⟩
  | cons j t ih =>
    obtain ⟨hj', hnd'⟩ := List.nodup_cons.mp hnd
    obtain ⟨w, w', x, hw, hr⟩ := hin j (by simp)
    have hj : j < v.workers.length := (List.getElem?_eq_some_iff.mp hw).1
    have hother : ∀ i, i ≠ j → (v.workers.set j w')[i]? = v.workers[i]? := by
      intro i hi; simp [Ne.symm hi]
    obtain ⟨v', rows, e1, e2, e3, e4, e5, e6⟩ := ih { v with workers := v.workers.set j w' } hnd' (fun i hi => by
      obtain ⟨u, u', y, hu, hy⟩ := hin i (by simp [hi])
      exact ⟨u, u', y, by rw [← hu]; exact hother i (fun e => hj' (e ▸ hi)), hy⟩)
    refine ⟨v', (j, x) :: rows, ?_, (Frame.set _ _ _).trans e2, by simp [e3], ?_, ?_, ?_⟩
    · unfold recvAll
      rw [hw]
      simp only [hr, e1]
    · intro row hrow
      rcases List.mem_cons.mp hrow with rfl | hrow
      · exact ⟨w, hw, by rw [hr]⟩
      · obtain ⟨u, hu, hy⟩ := e4 row hrow
        refine ⟨u, ?_, hy⟩
        rw [← hu]
        refine (hother row.1 ?_).symm
        intro e
        exact hj' (e ▸ e3 ▸ List.mem_map_of_mem (f := Prod.fst) hrow)
    · intro i hi
      rcases List.mem_cons.mp hi with rfl | hi
      · rw [e6 _ hj', hw]
        simp [hj, hr]
      · have : i ≠ j := fun e => hj' (e ▸ hi)
        rw [e5 i hi]
        show ((v.workers.set j w')[i]?).map _ = _
        rw [hother i this]
    · intro i hi
      simp only [List.mem_cons, not_or] at hi
      rw [e6 i hi.2]
      exact hother i hi.1

theorem askAll_spec (l : List (Nat × Req A K X)) (v : Venv σ A K X ρ) (hnd : (l.map Prod.fst).Nodup)
    (hin : ∀ p ∈ l, ∃ w w' x, v.workers[p.1]? = some w ∧ w.ask v.kind h p.2 = (w', some x)) :
    ∃ v' xs, askAll h l v = (v', .ok xs) ∧ Frame v v' ∧
      xs.map some = l.map (fun p => v.workers[p.1]?.bind fun w => (w.ask v.kind h p.2).2) ∧
      (∀ p ∈ l, v'.workers[p.1]? = v.workers[p.1]?.map fun w => (w.ask v.kind h p.2).1) ∧
      (∀ j, j ∉ l.map Prod.fst → v'.workers[j]? = v.workers[j]?) := by
  induction l generalizing v with
  | nil => exact ⟨v, [], rfl, Frame.refl v, rfl, by simp, by simp⟩
  | cons p t ih =>
    obtain ⟨j, r⟩ := p
    obtain ⟨hj', hnd'⟩ := List.nodup_cons.mp (by simpa using hnd : (j :: t.map Prod.fst).Nodup)
    obtain ⟨w, w', x, hw, hr⟩ := hin (j, r) (by simp)
    have hj : j < v.workers.length := (List.getElem?_eq_some_iff.mp hw).1
    have hother : ∀ i, i ≠ j → (v.workers.set j w')[i]? = v.workers[i]? := by
      intro i hi; simp [Ne.symm hi]
    have hne : ∀ p ∈ t, p.1 ≠ j := fun p hp e => hj' (e ▸ List.mem_map_of_mem (f := Prod.fst) hp)
    obtain ⟨v', xs, e1, e2, e3, e4, e5⟩ := ih { v with workers := v.workers.set j w' } hnd' (fun p hp => by
      obtain ⟨u, u', y, hu, hy⟩ := hin p (by simp [hp])
      exact ⟨u, u', y, by rw [← hu]; exact hother p.1 (hne p hp), hy⟩)
    simp only at hw hr
    refine ⟨v', x :: xs, ?_, (Frame.set _ _ _).trans e2, ?_, ?_, ?_⟩
    · unfold askAll
      rw [hw]
      simp only [hr, e1]
    · simp only [List.map_cons, e3, hw, Option.bind_some, hr, List.cons.injEq, true_and]
      refine List.map_congr_left fun p hp => ?_
      rw [hother p.1 (hne p hp)]
    · intro p hp
      rcases List.mem_cons.mp hp with rfl | hp
      · rw [e5 _ hj', hw]
        simp [hj, hr]
      · rw [e4 p hp]
        show ((v.workers.set j w')[p.1]?).map _ = _
        rw [hother p.1 (hne p hp)]
    · intro i hi
      simp only [List.map_cons, List.mem_cons, not_or] at hi
      rw [e5 i hi.2]
      exact hother i hi.1

theorem tellAll_spec (l : List (Nat × Req A K X)) (v : Venv σ A K X ρ) (hnd : (l.map Prod.fst).Nodup)
    (hin : ∀ p ∈ l, p.1 < v.workers.length) :
    ∃ v', tellAll h l v = (v', .ok ()) ∧ Frame v v' ∧
      (∀ p ∈ l, v'.workers[p.1]? = v.workers[p.1]?.map (Worker.tell v.kind h p.2)) ∧
      (∀ j, j ∉ l.map Prod.fst → v'.workers[j]? = v.workers[j]?) := by
  induction l generalizing v with
  | nil => exact ⟨v, rfl, Frame.refl v, by simp, by simp⟩
  | cons p t ih =>
    obtain ⟨j, r⟩ := p
    have hj : j < v.workers.length := hin (j, r) (by simp)
    have hw : v.workers[j]? = some v.workers[j] := List.getElem?_eq_getElem hj
    obtain ⟨hj', hnd'⟩ := List.nodup_cons.mp (by simpa using hnd : (j :: t.map Prod.fst).Nodup)
    obtain ⟨v', e1, e2, e3, e4⟩ := ih { v with workers := v.workers.set j ((v.workers[j]).tell v.kind h r) } hnd'
      (fun p hp => by simpa using hin p (by simp [hp]))
    refine ⟨v', by unfold tellAll; rw [hw]; exact e1, (Frame.set _ _ _).trans e2, ?_, ?_⟩
    · intro p hp
      rcases List.mem_cons.mp hp with rfl | hp
      · rw [e4 j hj']
        simp [hj]
      · have hne : j ≠ p.1 := fun e => hj' (e ▸ List.mem_map_of_mem (f := Prod.fst) hp)
        rw [e3 p hp]
        simp [hne]
    · intro i hi
      simp only [List.map_cons, List.mem_cons, not_or] at hi
      rw [e4 i hi.2]
      simp [Ne.symm hi.1]

/-- An asynchronous step hands over the actions and notes the environments as waiting. -/
theorem sendStep_spec (l : List (Nat × A)) (v : Venv σ A K X ρ) (hnd : (l.map Prod.fst).Nodup)
    (hin : ∀ p ∈ l, p.1 < v.workers.length) :
    ∃ v', sendStep h l v = (v', .ok ()) ∧
      v' = { v with workers := v'.workers, waitingConn := v.waitingConn ++ l.map Prod.fst,
                    waitingId := v.waitingId ++ l.map Prod.fst } ∧
      v'.workers.length = v.workers.length ∧
      (∀ p ∈ l, v'.workers[p.1]? = v.workers[p.1]?.map (Worker.send v.kind h (.step p.2))) ∧
      (∀ j, j ∉ l.map Prod.fst → v'.workers[j]? = v.workers[j]?) := by
  induction l generalizing v with
  | nil => exact ⟨v, rfl, by simp, rfl, by simp, by simp⟩
  | cons p t ih =>
    obtain ⟨j, r⟩ := p
    have hj : j < v.workers.length := hin (j, r) (by simp)
    have hw : v.workers[j]? = some v.workers[j] := List.getElem?_eq_getElem hj
    obtain ⟨hj', hnd'⟩ := List.nodup_cons.mp (by simpa using hnd : (j :: t.map Prod.fst).Nodup)
    obtain ⟨v', e1, e2, e3, e4, e5⟩ := ih
      { v with
        workers := v.workers.set j ((v.workers[j]).send v.kind h (.step r))
        waitingConn := v.waitingConn ++ [j]
        waitingId := v.waitingId ++ [j] } hnd'
      (fun p hp => by simpa using hin p (by simp [hp]))
    refine ⟨v', by unfold sendStep; rw [hw]; exact e1, by rw [e2]; simp, by rw [e3]; simp, ?_, ?_⟩
    · intro p hp
      rcases List.mem_cons.mp hp with rfl | hp
      · rw [e5 j hj']
        simp [hj]
      · have hne : j ≠ p.1 := fun e => hj' (e ▸ List.mem_map_of_mem (f := Prod.fst) hp)
        rw [e4 p hp]
        simp [hne]
    · intro i hi
      simp only [List.map_cons, List.mem_cons, not_or] at hi
      rw [e5 i hi.2]
      simp [Ne.symm hi.1]

end Venv

end Verif.VecEnv
