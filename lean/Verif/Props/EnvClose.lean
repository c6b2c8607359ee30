import Mathlib.Logic.Function.Iterate
import Verif.Model.EnvClose
import Verif.Spec.VecEnv

/-!
C219: closing a vector environment.

`after h s l` is the state of an environment that started in state `s` and has served the requests `l`; `v.sentTo i` are the requests handed to
environment `i`. A history is any list of calls and of turns of the processes of the workers.
-/

namespace Verif.VecEnv

variable {σ A K X ρ : Type} {h : Handler σ A K X ρ} {s0 : List σ}

/-! ### The states of the environments -/

/-- What is true of the worker of an environment that started in state `s`. -/
def Sane (h : Handler σ A K X ρ) (kind : Kind) (s : σ) (w : Worker σ A K X ρ) : Prop :=
  after h w.env w.inbox = after h s w.sent ∧ (kind = .dummy → w.inbox = [])

theorem after_append (h : Handler σ A K X ρ) (s : σ) (l m : List (Req A K X)) : after h s (l ++ m) = after h (after h s l) m := by
  simp [after, List.foldl_append]

theorem Sane.progress {kind : Kind} {s : σ} {w : Worker σ A K X ρ} (hw : Sane h kind s w) : Sane h kind s (w.progress h) := by
  unfold Worker.progress
  split
  · exact hw
  · next r rest e =>
    refine ⟨?_, fun hk => ?_⟩
    · have := hw.1
      rw [e] at this
      exact this
    · have := hw.2 hk
      rw [e] at this
      cases this

theorem Sane.await {kind : Kind} {s : σ} (fuel : Nat) {w : Worker σ A K X ρ} (hw : Sane h kind s w) : Sane h kind s (w.await h fuel).1 := by
  induction fuel generalizing w with
  | zero =>
    unfold Worker.await
    split
    · exact hw
    · exact hw
  | succ n ih =>
    unfold Worker.await
    split
    · exact hw
    · exact ih hw.progress

theorem Sane.send {kind : Kind} {s : σ} {w : Worker σ A K X ρ} (hw : Sane h kind s w) (r : Req A K X) : Sane h kind s (w.send kind h r) := by
  obtain ⟨h1, h2⟩ := hw
  cases kind with
  | dummy =>
    have e := h2 rfl
    refine ⟨?_, fun _ => e⟩
    simp only [Worker.send, e]
    rw [after_append, ← h1, e]
    rfl
  | subproc =>
    refine ⟨?_, fun hk => by cases hk⟩
    simp only [Worker.send]
    rw [after_append, after_append, h1]

theorem Sane.recv {kind : Kind} {s : σ} {w : Worker σ A K X ρ} (hw : Sane h kind s w) : Sane h kind s (w.recv kind h).1 := by
  cases kind with
  | dummy => exact hw
  | subproc => exact hw.await _

theorem Sane.ask {kind : Kind} {s : σ} {w : Worker σ A K X ρ} (hw : Sane h kind s w) (r : Req A K X) : Sane h kind s (w.ask kind h r).1 := by
  cases kind with
  | dummy =>
    have := hw.send r
    exact this
  | subproc => exact (hw.send r).recv

theorem Sane.tell {kind : Kind} {s : σ} {w : Worker σ A K X ρ} (hw : Sane h kind s w) (r : Req A K X) : Sane h kind s (w.tell kind h r) := by
  cases kind with
  | dummy => exact hw.send r
  | subproc => exact hw.send r

/-- All workers of an open vector environment whose environments started in the states `s0`. -/
def AllSane (h : Handler σ A K X ρ) (s0 : List σ) (v : Venv σ A K X ρ) : Prop :=
  (v.closed = false ∧ v.workers.length = s0.length) ∧ ∀ (i : Nat) (w : Worker σ A K X ρ) (s : σ), v.workers[i]? = some w → s0[i]? = some s → Sane h v.kind s w

theorem AllSane.set {v : Venv σ A K X ρ} (hv : AllSane h s0 v) (j : Nat) {w w' : Worker σ A K X ρ} (hj : v.workers[j]? = some w)
    (hw : ∀ s, Sane h v.kind s w → Sane h v.kind s w') : AllSane h s0 { v with workers := v.workers.set j w' } := by
  refine ⟨⟨hv.1.1, by simpa using hv.1.2⟩, fun i x s hx hs => ?_⟩
  simp only [List.getElem?_set] at hx
  split_ifs at hx with h1 h2
  · subst h1
    cases hx
    exact hw s (hv.2 _ _ _ hj hs)
  · exact hv.2 _ _ _ hx hs

/-- The part of a vector environment that says how the environments do. -/
theorem AllSane.same {v v' : Venv σ A K X ρ} (hv : AllSane h s0 v) (h1 : v'.workers = v.workers) (h2 : v'.kind = v.kind)
    (h3 : v'.closed = v.closed) : AllSane h s0 v' := by
  unfold AllSane
  rw [h1, h2, h3]
  exact hv

theorem AllSane.run {v : Venv σ A K X ρ} (hv : AllSane h s0 v) (i : Nat) : AllSane h s0 (v.runWorker h i) := by
  unfold Venv.runWorker
  split
  · exact hv
  · next w e => exact hv.set i e fun s hs => hs.progress

theorem AllSane.sendAll {v : Venv σ A K X ρ} (l : List (Nat × Req A K X)) (hv : AllSane h s0 v) : AllSane h s0 (Venv.sendAll h l v).1 := by
  induction l generalizing v with
  | nil => exact hv
  | cons p t ih =>
    unfold Venv.sendAll
    split
    · exact hv
    · next w e => exact ih (hv.set _ e fun s hs => hs.send _)

theorem AllSane.tellAll {v : Venv σ A K X ρ} (l : List (Nat × Req A K X)) (hv : AllSane h s0 v) : AllSane h s0 (Venv.tellAll h l v).1 := by
  induction l generalizing v with
  | nil => exact hv
  | cons p t ih =>
    unfold Venv.tellAll
    split
    · exact hv
    · next w e => exact ih (hv.set _ e fun s hs => hs.tell _)

theorem AllSane.recvAll {v : Venv σ A K X ρ} (l : List Nat) (hv : AllSane h s0 v) : AllSane h s0 (Venv.recvAll h l v).1 := by
  induction l generalizing v with
  | nil => exact hv
  | cons j t ih =>
    unfold Venv.recvAll
    split
    · exact hv
    · next w e =>
      simp only
      have f := ih (hv.set j e fun s hs => hs.recv)
      split
      · exact hv.set j e fun s hs => hs.recv
      · split <;> (next e => rw [e] at f; exact f)

theorem AllSane.askAll {v : Venv σ A K X ρ} (l : List (Nat × Req A K X)) (hv : AllSane h s0 v) : AllSane h s0 (Venv.askAll h l v).1 := by
  induction l generalizing v with
  | nil => exact hv
  | cons p t ih =>
    unfold Venv.askAll
    split
    · exact hv
    · next w e =>
      simp only
      have f := ih (hv.set p.1 e fun s hs => hs.ask p.2)
      split
      · exact hv.set p.1 e fun s hs => hs.ask p.2
      · split <;> (next e => rw [e] at f; exact f)

theorem AllSane.sendStep {v : Venv σ A K X ρ} (l : List (Nat × A)) (hv : AllSane h s0 v) : AllSane h s0 (Venv.sendStep h l v).1 := by
  induction l generalizing v with
  | nil => exact hv
  | cons p t ih =>
    unfold Venv.sendStep
    split
    · exact hv
    · next w e => exact ih ((hv.set _ e fun s hs => hs.send (.step p.2)).same rfl rfl rfl)

theorem AllSane.pollLoop {v : Venv σ A K X ρ} (ticks : List Tick) (remain ready : List Nat) (hv : AllSane h s0 v) :
    AllSane h s0 (Venv.pollLoop h ticks remain ready v).1 := by
  induction ticks generalizing v remain ready with
  | nil =>
    unfold Venv.pollLoop
    split_ifs <;> exact hv
  | cons t ts ih =>
    cases t with
    | run i =>
      unfold Venv.pollLoop
      by_cases hc : remain.length > 0 ∧ ready.length < v.waitNum
      · rw [if_pos hc]; exact ih _ _ (hv.run i)
      · rw [if_neg hc]; exact hv
    | poll order =>
      unfold Venv.pollLoop
      by_cases hc : remain.length > 0 ∧ ready.length < v.waitNum
      · rw [if_pos hc]
        by_cases hd : remain.Nodup
        · simp only [hd, not_true, if_false]; exact ih _ _ hv
        · simp only [hd, not_false_iff, if_true]; exact hv
      · rw [if_neg hc]; exact hv
    | expire =>
      unfold Venv.pollLoop
      by_cases hc : remain.length > 0 ∧ ready.length < v.waitNum
      · rw [if_pos hc]
        cases hd : (v.timeout && decide (ready.length > 0)) with
        | true => simp only [hd, if_true]; exact hv
        | false => simp only [hd, Bool.false_eq_true, if_false]; exact ih _ _ hv
      · rw [if_neg hc]; exact hv

theorem AllSane.takeOne {v : Venv σ A K X ρ} (c : Nat) (hv : AllSane h s0 v) : AllSane h s0 (Venv.takeOne h c v).1 := by
  unfold Venv.takeOne
  simp only
  split
  · next id w e1 e2 =>
    have f := hv.set c e2 fun s hs => hs.recv
    split <;> exact f.same rfl rfl rfl
  · exact hv

theorem AllSane.takeAll {v : Venv σ A K X ρ} (l : List Nat) (hv : AllSane h s0 v) : AllSane h s0 (Venv.takeAll h l v).1 := by
  induction l generalizing v with
  | nil => exact hv
  | cons c t ih =>
    have f := hv.takeOne c
    unfold Venv.takeAll
    split
    · next e => rw [e] at f; exact f
    · next e =>
      rw [e] at f
      have g := ih f
      split <;> (next e => rw [e] at g; exact g)

theorem AllSane.drain {v : Venv σ A K X ρ} (fuel i : Nat) (hv : AllSane h s0 v) : AllSane h s0 (Venv.drain h fuel i v).1 := by
  induction fuel generalizing v i with
  | zero => exact hv
  | succ n ih =>
    unfold Venv.drain
    split
    · exact hv
    · next c _ =>
      have f := hv.takeOne c
      split
      · next e => rw [e] at f; exact f
      · next e =>
        rw [e] at f
        have g := ih (i + 1) f
        split <;> (next e => rw [e] at g; exact g)

theorem AllSane.collect {v : Venv σ A K X ρ} (ticks : List Tick) (hv : AllSane h s0 v) : AllSane h s0 (Venv.collect h ticks v).1 := by
  unfold Venv.collect
  split
  · split_ifs
    · exact hv
    · exact hv.drain _ _
  · have f := hv.pollLoop ticks v.waitingConn []
    split
    · next e => rw [e] at f; exact f
    · next e => rw [e] at f; exact f.takeAll _

theorem AllSane.step {v : Venv σ A K X ρ} (hv : AllSane h s0 v) (action : Option (List A)) (ids : Option (List Nat)) (ticks : List Tick) :
    AllSane h s0 (v.step h action ids ticks).1 := by
  cases action with
  | none =>
    unfold Venv.step
    simp only
    split_ifs
    · exact hv
    · exact hv
    · exact hv.collect _
  | some acts =>
    have f := hv.sendAll ((v.wrapId ids).zip (acts.map .step))
    have f' := hv.sendStep ((v.wrapId ids).zip acts)
    unfold Venv.step
    simp only
    split
    · exact hv
    · split
      · split
        · exact hv
        · split
          · next e => rw [e] at f; exact f
          · next e =>
            rw [e] at f
            have g := f.recvAll (v.wrapId ids)
            split <;> (next e => rw [e] at g; exact g)
      · split
        · exact hv
        · split
          · exact hv
          · split
            · next e => rw [e] at f'; exact f'
            · next e =>
              rw [e] at f'
              refine AllSane.collect _ ?_
              exact f'.same rfl rfl rfl

theorem AllSane.reset {v : Venv σ A K X ρ} (hv : AllSane h s0 v) (kw : K) (ids : Option (List Nat)) : AllSane h s0 (v.reset h kw ids).1 := by
  unfold Venv.reset
  split_ifs
  · exact hv
  · exact hv
  · have f := hv.sendAll ((v.wrapId ids).map fun j => (j, .reset kw))
    split
    · next e => rw [e] at f; exact f
    · next e =>
      rw [e] at f
      have g := f.recvAll (v.wrapId ids)
      split <;> (next e => rw [e] at g; exact g)

theorem AllSane.getEnvAttr {v : Venv σ A K X ρ} (hv : AllSane h s0 v) (key : String) (ids : Option (List Nat)) :
    AllSane h s0 (v.getEnvAttr h key ids).1 := by
  unfold Venv.getEnvAttr
  split_ifs
  · exact hv
  · exact hv
  · exact hv.askAll _

theorem AllSane.setEnvAttr {v : Venv σ A K X ρ} (hv : AllSane h s0 v) (key : String) (x : X) (ids : Option (List Nat)) :
    AllSane h s0 (v.setEnvAttr h key x ids).1 := by
  unfold Venv.setEnvAttr
  split_ifs
  · exact hv
  · exact hv
  · exact hv.tellAll _

theorem AllSane.render {v : Venv σ A K X ρ} (hv : AllSane h s0 v) (kw : K) : AllSane h s0 (v.render h kw).1 := by
  unfold Venv.render
  split_ifs
  · exact hv
  · exact hv
  · exact hv.askAll _

theorem AllSane.seed {v : Venv σ A K X ρ} (hv : AllSane h s0 v) (s : Seed) : AllSane h s0 (v.seed h s).1 := by
  unfold Venv.seed
  split
  · exact hv
  · have f := hv.askAll ((List.range v.workers.length).zip ((v.seedList s).map .seed))
    split <;> (next e => rw [e] at f; exact f)

theorem finish_env (w : Worker σ A K X ρ) : (w.finish h w.inbox.length).env = after h w.env w.inbox := by
  generalize hn : w.inbox.length = n
  induction n generalizing w with
  | zero => rw [List.length_eq_zero_iff.mp hn]; rfl
  | succ n ih =>
    match e : w.inbox, hn with
    | r :: rest, hn =>
      have hp : (w.progress h).inbox = rest ∧ (w.progress h).env = (h w.env r).1 := by
        unfold Worker.progress
        rw [e]
        exact ⟨rfl, rfl⟩
      simp only [List.length_cons, Nat.add_right_cancel_iff] at hn
      have := ih (w.progress h) (by rw [hp.1]; exact hn)
      rw [Worker.finish, this, hp.1, hp.2]
      rfl

theorem finish_sent (n : Nat) (w : Worker σ A K X ρ) : (w.finish h n).sent = w.sent := by
  induction n generalizing w with
  | zero => rfl
  | succ n ih =>
    rw [Worker.finish, ih]
    unfold Worker.progress
    split <;> rfl

/-! ### C219 -/

/-- What holds of a vector environment at any time: as long as it is open no environment has been closed. Afterwards each has been closed once,
in the state after all the requests it has been handed. -/
inductive CInv (h : Handler σ A K X ρ) (s0 : List σ) (c : CVenv σ A K X ρ) : Prop
  | isOpen : AllSane h s0 c.venv → (∀ b ∈ c.flags, b = false) → (c.closedIn = s0.map fun _ => []) → CInv h s0 c
  | isClosed : c.venv.closed = true → c.closedIn.length = s0.length →
      (∀ (i : Nat) (s : σ), s0[i]? = some s → c.closedIn[i]? = some [after h s (c.venv.sentTo i)]) → CInv h s0 c

theorem CInv.new {kind : Kind} {wn : Option Nat} {timeout : Option Int} {v : Venv σ A K X ρ} (hm : Venv.make kind s0 wn timeout = .ok v) :
    CInv h s0 (CVenv.new v) := by
  have hv : v.workers = s0.map (fun s => { env := s }) ∧ v.closed = false := by
    unfold Venv.make at hm
    simp only at hm
    by_cases h1 : s0.length = 0
    · rw [if_pos h1] at hm; cases hm
    · rw [if_neg h1] at hm
      split_ifs at hm
      cases hm
      exact ⟨rfl, rfl⟩
  refine .isOpen ⟨⟨hv.2, by simp [CVenv.new, hv.1]⟩, fun i w s hw hs => ?_⟩ (by simp [CVenv.new]) (by simp only [CVenv.new, hv.1, List.map_map, Function.comp_def])
  simp only [CVenv.new, hv.1, List.getElem?_map, hs, Option.map_some, Option.some.injEq] at hw
  subst hw
  exact ⟨rfl, fun _ => rfl⟩

theorem closed_call {c : CVenv σ A K X ρ} (hc : c.venv.closed = true) (x : Call A K X) : c.call h x = (c, .error .assertion) := by
  cases x with
  | step action ids ticks => simp [CVenv.call, Venv.step, hc, outcome]
  | reset kw ids => simp [CVenv.call, Venv.reset, hc, outcome]
  | getEnvAttr key ids => simp [CVenv.call, Venv.getEnvAttr, hc, outcome]
  | setEnvAttr key x ids => simp [CVenv.call, Venv.setEnvAttr, hc, outcome]
  | seed s => simp [CVenv.call, Venv.seed, hc, outcome]
  | render kw => simp [CVenv.call, Venv.render, hc, outcome]
  | close => simp [CVenv.call, CVenv.close, hc]

theorem CInv.close {c : CVenv σ A K X ρ} (hs : AllSane h s0 c.venv) (hf : ∀ b ∈ c.flags, b = false) (hcl : c.closedIn = s0.map fun _ => []) :
    CInv h s0 (c.close h).1 ∧ (c.close h).2 = .ok () ∧ (c.close h).1.venv.closed = true ∧ ∀ i, (c.close h).1.venv.sentTo i = c.venv.sentTo i := by
  have hflag : ∀ i, c.flags.getD i false = false := by
    intro i
    rw [List.getD_eq_getElem?_getD]
    cases e : c.flags[i]? with
    | none => rfl
    | some b => exact hf b (List.mem_of_getElem? e)
  have hsent : ∀ i, (c.close h).1.venv.sentTo i = c.venv.sentTo i := by
    intro i
    unfold CVenv.close Venv.sentTo
    rw [hs.1.1]
    simp only [Bool.false_eq_true, if_false, CVenv.workers, List.map_map, List.getElem?_map, List.getElem?_mapIdx, Option.map_map]
    cases e : c.venv.workers[i]? with
    | none => rfl
    | some w =>
      simp only [Option.map_some, Function.comp_apply, CWorker.close, hflag, Bool.false_eq_true, if_false, CWorker.closeEnv]
      cases c.venv.kind with
      | dummy => rfl
      | subproc => exact finish_sent _ _
  refine ⟨.isClosed ?_ ?_ fun i s hi => ?_, ?_, ?_, hsent⟩
  · simp [CVenv.close, hs.1.1]
  · simp [CVenv.close, hs.1.1, CVenv.workers, hs.1.2]
  · rw [hsent i]
    unfold CVenv.close
    rw [hs.1.1]
    have hlt : i < c.venv.workers.length := by
      rw [hs.1.2]
      exact (List.getElem?_eq_some_iff.mp hi).1
    have e : c.venv.workers[i]? = some c.venv.workers[i] := List.getElem?_eq_getElem hlt
    have hcl' : c.closedIn.getD i [] = [] := by rw [hcl, List.getD_eq_getElem?_getD, List.getElem?_map, hi]; rfl
    simp only [Bool.false_eq_true, if_false, CVenv.workers, List.map_map, List.getElem?_map, List.getElem?_mapIdx, e, Option.map_some,
      Function.comp_apply, CWorker.close, hflag, CWorker.closeEnv, Venv.sentTo, hcl']
    have hw := hs.2 i _ s e hi
    cases hk : c.venv.kind with
    | dummy =>
      have := hw.1
      rw [hw.2 hk] at this
      simp only [List.nil_append]
      rw [← this]
      rfl
    | subproc =>
      simp only [List.nil_append]
      rw [finish_env, hw.1]
  · simp [CVenv.close, hs.1.1]
  · simp [CVenv.close, hs.1.1]

theorem CInv.call {c : CVenv σ A K X ρ} (hc : CInv h s0 c) (x : Call A K X) : CInv h s0 (c.call h x).1 := by
  cases hc with
  | isClosed h1 h2 h3 => rw [closed_call h1]; exact .isClosed h1 h2 h3
  | isOpen h1 h2 h3 =>
    cases x with
    | step action ids ticks => exact .isOpen (h1.step _ _ _) h2 h3
    | reset kw ids => exact .isOpen (h1.reset _ _) h2 h3
    | getEnvAttr key ids => exact .isOpen (h1.getEnvAttr _ _) h2 h3
    | setEnvAttr key x ids => exact .isOpen (h1.setEnvAttr _ _ _) h2 h3
    | seed s => exact .isOpen (h1.seed _) h2 h3
    | render kw => exact .isOpen (h1.render _) h2 h3
    | close => exact (CInv.close h1 h2 h3).1

theorem run_sent (v : Venv σ A K X ρ) (j i : Nat) : (v.runWorker h j).sentTo i = v.sentTo i := by
  unfold Venv.runWorker
  split
  · rfl
  · next w e =>
    unfold Venv.sentTo
    simp only [List.getElem?_set]
    split_ifs with h1 h2
    · subst h1
      rw [e]
      show (w.progress h).sent = w.sent
      unfold Worker.progress
      split <;> rfl
    · subst h1
      rw [List.getElem?_eq_none (by omega)] 
    · rfl

theorem run_closed (v : Venv σ A K X ρ) (j : Nat) : (v.runWorker h j).closed = v.closed := by
  unfold Venv.runWorker
  split <;> rfl

theorem CInv.run {c : CVenv σ A K X ρ} (hc : CInv h s0 c) (j : Nat) : CInv h s0 { c with venv := c.venv.runWorker h j } := by
  cases hc with
  | isOpen h1 h2 h3 => exact .isOpen (h1.run j) h2 h3
  | isClosed h1 h2 h3 => exact .isClosed (by rw [← h1]; exact run_closed _ _) h2 fun i s hi => by rw [run_sent]; exact h3 i s hi

theorem CInv.events {c : CVenv σ A K X ρ} (hc : CInv h s0 c) (es : List (CEvent A K X)) : CInv h s0 (c.events h es).1 := by
  induction es generalizing c with
  | nil => exact hc
  | cons e es ih =>
    cases e with
    | call x => exact ih (hc.call x)
    | run i => exact ih (hc.run i)

theorem closed_events {c : CVenv σ A K X ρ} (hc : c.venv.closed = true) (es : List (CEvent A K X)) :
    (∀ r ∈ (c.events h es).2, r = .error .assertion) ∧ (c.events h es).1.closedIn = c.closedIn ∧
    (∀ i, (c.events h es).1.venv.sentTo i = c.venv.sentTo i) := by
  induction es generalizing c with
  | nil => exact ⟨by simp [CVenv.events], rfl, fun _ => rfl⟩
  | cons e es ih =>
    cases e with
    | call x =>
      simp only [CVenv.events, closed_call hc]
      obtain ⟨h1, h2, h3⟩ := ih hc
      exact ⟨by simpa using h1, h2, h3⟩
    | run i =>
      obtain ⟨h1, h2, h3⟩ := ih (c := { c with venv := c.venv.runWorker h i }) (by rw [← hc]; exact run_closed _ _)
      exact ⟨h1, h2, fun j => by rw [CVenv.events, h3]; exact run_sent _ _ _⟩

/-- **C219.** Whatever calls are made of a new vector environment and however its workers run: as long as `close` has not been called, no environment has been
closed; `close` returns, and closes each environment exactly once, in the state in which it has served all requests it had been handed, also one
that is still being stepped; after that every call raises an `AssertionError`, nothing is handed to the environments any more, and none is closed a second time. -/
theorem C219_close {kind : Kind} {wn : Option Nat} {timeout : Option Int} {v : Venv σ A K X ρ} (hm : Venv.make kind s0 wn timeout = .ok v)
    (before later : List (CEvent A K X)) (hb : .call .close ∉ before) :
    (∀ l ∈ ((CVenv.new v).events h before).1.closedIn, l = []) ∧
    (((CVenv.new v).events h before).1.close h).2 = .ok () ∧
    (∀ (i : Nat) (s : σ), s0[i]? = some s →
      ((((CVenv.new v).events h before).1.close h).1.events h later).1.closedIn[i]? =
        some [after h s (((CVenv.new v).events h before).1.venv.sentTo i)] ∧
      ((((CVenv.new v).events h before).1.close h).1.events h later).1.venv.sentTo i = ((CVenv.new v).events h before).1.venv.sentTo i) ∧
    ∀ r ∈ ((((CVenv.new v).events h before).1.close h).1.events h later).2, r = .error .assertion := by
  have hopen : ∀ (es : List (CEvent A K X)) (c : CVenv σ A K X ρ), .call .close ∉ es → AllSane h s0 c.venv →
      AllSane h s0 (c.events h es).1.venv ∧ (c.events h es).1.flags = c.flags ∧ (c.events h es).1.closedIn = c.closedIn := by
    intro es
    induction es with
    | nil => exact fun c _ hs => ⟨hs, rfl, rfl⟩
    | cons e es ih =>
      intro c hn hs
      have hn' : .call .close ∉ es := fun hh => hn (List.mem_cons_of_mem _ hh)
      cases e with
      | run i => exact ih _ hn' (hs.run i)
      | call x =>
        cases x with
        | step action ids ticks => exact ih _ hn' (hs.step _ _ _)
        | reset kw ids => exact ih _ hn' (hs.reset _ _)
        | getEnvAttr key ids => exact ih _ hn' (hs.getEnvAttr _ _)
        | setEnvAttr key x ids => exact ih _ hn' (hs.setEnvAttr _ _ _)
        | seed s => exact ih _ hn' (hs.seed _)
        | render kw => exact ih _ hn' (hs.render _)
        | close => exact absurd (List.mem_cons_self ..) hn
  have h0 := CInv.new (h := h) hm
  cases h0 with
  | isClosed h1 _ _ =>
    have : v.closed = false := by
      unfold Venv.make at hm
      simp only at hm
      by_cases h1 : s0.length = 0
      · rw [if_pos h1] at hm; cases hm
      · rw [if_neg h1] at hm
        split_ifs at hm
        cases hm
        rfl
    simp only [CVenv.new, this, Bool.false_eq_true] at h1
  | isOpen h1 h2 h3 =>
    obtain ⟨a1, a2, a3⟩ := hopen before _ hb h1
    obtain ⟨b1, b2, b3, b4⟩ := CInv.close a1 (by rw [a2]; exact h2) (by rw [a3]; exact h3)
    obtain ⟨c1, c2, c3⟩ := closed_events (h := h) b3 later
    refine ⟨by rw [a3, h3]; simp, b2, fun i s hi => ⟨?_, by rw [c3, b4]⟩, c1⟩
    rw [c2]
    cases b1 with
    | isOpen g1 _ _ => rw [g1.1.1] at b3; cases b3
    | isClosed _ _ g3 => rw [g3 i s hi, b4]

/-- `Venv.close` of the model of C50-C53, which leaves out the workers, says the same about the attribute `is_closed` and the result. -/
theorem C219_attribute (c : CVenv σ A K X ρ) :
    (c.close h).1.venv.closed = true ∧ c.venv.close.1.closed = true ∧ outcome (c.close h).2 = outcome c.venv.close.2 ∧
    (outcome (c.close h).2 = .ok () ↔ c.venv.closed = false) := by
  unfold CVenv.close Venv.close
  cases e : c.venv.closed <;> simp [e, outcome]

/-- `close` of a worker closes its environment the first time it is called and never again. -/
theorem C219_worker (kind : Kind) (w : Worker σ A K X ρ) (n : Nat) :
    (((CWorker.close kind h)^[n + 1] ⟨w, false, []⟩).isClosed = true ∧ ((CWorker.close kind h)^[n + 1] ⟨w, false, []⟩).closedIn.length = 1) ∧
    (CWorker.close kind h)^[n + 1] ⟨w, false, []⟩ = CWorker.close kind h ⟨w, false, []⟩ := by
  have h0 : (CWorker.close kind h ⟨w, false, []⟩).isClosed = true ∧ (CWorker.close kind h ⟨w, false, []⟩).closedIn.length = 1 := by
    cases kind <;> simp [CWorker.close, CWorker.closeEnv]
  have h1 : ∀ x : CWorker σ A K X ρ, x.isClosed = true → CWorker.close kind h x = x := fun x hx => by simp [CWorker.close, hx]
  have h2 : (CWorker.close kind h)^[n + 1] ⟨w, false, []⟩ = CWorker.close kind h ⟨w, false, []⟩ := by
    rw [Function.iterate_succ_apply]
    exact Function.iterate_fixed (h1 _ h0.1) n
  rw [h2]
  exact ⟨h0, rfl⟩

/-- A counter: a step adds the action and returns the sum. -/
def clH : Handler Nat Nat Unit Nat Nat
  | s, .step a => (s + a, s + a)
  | _, .reset _ => (0, 100)
  | s, _ => (s, s)

/-- Three counters in subprocesses, of which a step waits for two. -/
def clVenv : Venv Nat Nat Unit Nat Nat :=
  { kind := .subproc, workers := [{ env := 0 }, { env := 10 }, { env := 20 }], waitNum := 2, timeout := false,
    isAsync := true, readyId := [0, 1, 2] }

/-- Environment 1 is still being stepped when the vector environment is closed. -/
def clBefore : List (CEvent Nat Unit Nat) := [.call (.step (some [5, 6, 7]) none [.run 2, .poll [2], .run 0, .poll [0]])]

example : ((((CVenv.new clVenv).events clH clBefore).1.close clH).1.events clH [.call (.reset () none), .call .close]).1.closedIn =
      [[5], [16], [27]] ∧
    ((CVenv.new clVenv).events clH clBefore).1.venv.waitingId = [1] := by decide +kernel

example (later : List (CEvent Nat Unit Nat)) :
    ((((CVenv.new clVenv).events clH clBefore).1.close clH).1.events clH later).1.closedIn[1]? = some [16] := by
  have hm : Venv.make (A := Nat) (K := Unit) (X := Nat) (ρ := Nat) .subproc [0, 10, 20] (some 2) none = .ok clVenv := rfl
  exact ((C219_close (h := clH) hm clBefore later (by simp [clBefore])).2.2.1 1 10 rfl).1

end Verif.VecEnv
