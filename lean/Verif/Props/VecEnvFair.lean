import Verif.Lemmas.VecEnvFair
import Verif.Props.VecEnv

/-!
C232: in an asynchronous vector environment no environment is passed over for ever.
-/

namespace Verif.VecEnv

variable {σ A K X ρ : Type} {h : Handler σ A K X ρ} {s0 : List σ} {v : Venv σ A K X ρ}

/-- `Later h v rs u`: starting from the vector environment `v`, further calls of any methods, in the course of which the
processes of the workers may go on, have led to `u`; `rs` are the results of the calls of `step` among them that returned, in
order. (Calls of `step` name each environment at most once.) -/
inductive Later (h : Handler σ A K X ρ) (v : Venv σ A K X ρ) : List (List (Nat × ρ)) → Venv σ A K X ρ → Prop
  | start : Later h v [] v
  | run {rs u} (i : Nat) : Later h v rs u → Later h v rs (u.runWorker h i)
  | step {rs u action ids ticks u' new} : Later h v rs u → (u.wrapId ids).Nodup →
      u.step h action ids ticks = (u', .ok new) → Later h v (rs ++ [new]) u'
  | stepRaises {rs u action ids ticks u' e} : Later h v rs u → (u.wrapId ids).Nodup →
      u.step h action ids ticks = (u', .error e) → e ≠ .hangs → Later h v rs u'
  | reset {rs u kw ids u' r} : Later h v rs u → u.reset h kw ids = (u', r) → r ≠ .error .hangs → Later h v rs u'
  | getEnvAttr {rs u key ids u' r} : Later h v rs u → u.getEnvAttr h key ids = (u', r) → r ≠ .error .hangs → Later h v rs u'
  | setEnvAttr {rs u key x ids u' r} : Later h v rs u → u.setEnvAttr h key x ids = (u', r) → Later h v rs u'
  | seed {rs u s u' r} : Later h v rs u → u.seed h s = (u', r) → r ≠ .error .hangs → Later h v rs u'
  | render {rs u kw u' r} : Later h v rs u → u.render h kw = (u', r) → r ≠ .error .hangs → Later h v rs u'

/-- What holds along the way: the environment has been returned, or it is at a position `p` with `2 ^ k * (p + 1)` at most the
number of environments, after `k` steps. -/
theorem later_inv {n : Nat} {rs : List (List (Nat × ρ))} {u : Venv σ A K X ρ} (hp : PInv n v) (ha : v.isAsync = true)
    (hk : v.kind = .dummy) (c : Nat) (hc : c ∈ v.waitingId) (hl : Later h v rs u) :
    PInv n u ∧ u.isAsync = true ∧ u.kind = .dummy ∧
      ((∃ new ∈ rs, c ∈ new.map Prod.fst) ∨ ∃ p, u.waitingId[p]? = some c ∧ 2 ^ rs.length * (p + 1) ≤ n) := by
  have frame : ∀ {rs : List (List (Nat × ρ))} {u u' : Venv σ A K X ρ}, Venv.Frame u u' →
      (PInv n u ∧ u.isAsync = true ∧ u.kind = .dummy ∧
        ((∃ new ∈ rs, c ∈ new.map Prod.fst) ∨ ∃ p, u.waitingId[p]? = some c ∧ 2 ^ rs.length * (p + 1) ≤ n)) →
      PInv n u' ∧ u'.isAsync = true ∧ u'.kind = .dummy ∧
        ((∃ new ∈ rs, c ∈ new.map Prod.fst) ∨ ∃ p, u'.waitingId[p]? = some c ∧ 2 ^ rs.length * (p + 1) ≤ n) := by
    rintro rs u u' f ⟨h1, h2, h3, h4⟩
    exact ⟨h1.frame f, by rw [f.isAsync, h2], by rw [f.kind, h3], by rw [f.waitingId]; exact h4⟩
  induction hl with
  | start =>
    obtain ⟨p, hpl, hpc⟩ := List.getElem_of_mem hc
    refine ⟨hp, ha, hk, .inr ⟨p, by rw [List.getElem?_eq_getElem hpl, hpc], ?_⟩⟩
    have := hp.part.length_eq
    simp only [List.length_append, List.length_range] at this
    simp only [List.length_nil, Nat.pow_zero, Nat.one_mul]
    omega
  | run i _ ih => exact frame (runWorker_frame i _) ih
  | @step rs u action ids ticks u' new _ hn he ih =>
    obtain ⟨h1, h2, h3, h4⟩ := ih
    obtain ⟨w, hs, hcol, -⟩ := step_parts h1 h2 action ids ticks hn he
    have hmv : PInv n u' := by
      rcases collect_moved (h := h) ticks hs.inv with ⟨x, e⟩ | ⟨x, rows, e1, e2, -⟩
      · rw [e] at hcol; injection hcol with _ hcol; injection hcol
      · rw [e1] at hcol; injection hcol with e3 _; rw [← e3]; exact e2.inv
    obtain ⟨f1, f2⟩ := step_keeps h1 h2 action ids ticks hn he
    refine ⟨hmv, by rw [f1, h2], by rw [f2, h3], ?_⟩
    rcases h4 with ⟨old, ho, hco⟩ | ⟨p, hpc, hpn⟩
    · exact .inl ⟨old, by simp [ho], hco⟩
    · have := step_dummy_pos h1 h2 h3 action ids ticks hn he p c hpc
      rcases Nat.mod_two_eq_zero_or_one p with e | e
      · exact .inl ⟨new, by simp, this.1 e⟩
      · refine .inr ⟨p / 2, this.2 e, ?_⟩
        have e2 : p + 1 = 2 * (p / 2 + 1) := by omega
        rw [List.length_append, List.length_singleton, Nat.pow_succ, Nat.mul_assoc, ← e2]
        exact hpn
  | @stepRaises rs u action ids ticks u' e _ hn he hh ih =>
    rw [step_raises ih.1 ih.2.1 action ids ticks hn he hh]
    exact ih
  | @reset rs u kw ids u' r _ he _ ih => exact frame (by have := reset_frame (h := h) kw ids u; rw [he] at this; exact this) ih
  | @getEnvAttr rs u key ids u' r _ he _ ih =>
    exact frame (by have := getEnvAttr_frame (h := h) key ids u; rw [he] at this; exact this) ih
  | @setEnvAttr rs u key x ids u' r _ he ih =>
    exact frame (by have := setEnvAttr_frame (h := h) key x ids u; rw [he] at this; exact this) ih
  | @seed rs u s u' r _ he _ ih => exact frame (by have := seed_frame (h := h) s u; rw [he] at this; exact this) ih
  | @render rs u kw u' r _ he _ ih => exact frame (by have := render_frame (h := h) kw u; rw [he] at this; exact this) ih

/-- **C232, dummy workers.** Whatever is called, an environment that is being stepped has its result returned by one of the next
`k` calls of `step` that return, if `2 ^ k` exceeds the number of environments. -/
theorem C232_dummy (hh : AnyHistory h s0 v) (ha : v.isAsync = true) (hk : v.kind = .dummy) (i : Nat)
    (hi : i ∈ v.waitingId) {rs : List (List (Nat × ρ))} {u : Venv σ A K X ρ} (hl : Later h v rs u)
    (hn : s0.length < 2 ^ rs.length) : ∃ new ∈ rs, i ∈ new.map Prod.fst := by
  rcases (later_inv (pinv_history hh) ha hk i hi hl).2.2.2 with h1 | ⟨p, -, h2⟩
  · exact h1
  · exfalso
    have : 2 ^ rs.length * 1 ≤ 2 ^ rs.length * (p + 1) := Nat.mul_le_mul_left _ (by omega)
    omega

/-- **C232, subprocesses.** A call of `step` that returns has the result of every environment whose process had put it into the
pipe before the call (`connection.wait` reports all connections with something to read: `hth`). -/
theorem C232_subproc (hh : AnyHistory h s0 v) (ha : v.isAsync = true) (hk : v.kind = .subproc) (i : Nat)
    (hi : i ∈ v.waitingId) (w : Worker σ A K X ρ) (hw : v.workers[i]? = some w) (hr : w.outbox ≠ [])
    (action : Option (List A)) (ids : Option (List Nat)) (ticks : List Tick) (hn : (v.wrapId ids).Nodup)
    (hth : ∀ order, Tick.poll order ∈ ticks → ∀ j ∈ v.waitingId, j ∈ order)
    {v' : Venv σ A K X ρ} {new : List (Nat × ρ)} (he : v.step h action ids ticks = (v', .ok new)) :
    i ∈ new.map Prod.fst := by
  refine step_subproc_fair (pinv_history hh) ha hk action ids ticks hn he i hi ?_ (fun o ho => hth o ho i hi)
  unfold Venv.hasReply
  rw [hw]
  cases hb : w.outbox with
  | nil => exact absurd hb hr
  | cons a b => simp [hb]

/-! ### An example: four counters -/

/-- Four counters with dummy workers, of which a step waits for one. -/
def exDummy : Venv Nat Nat Unit Nat Nat :=
  { kind := .dummy, workers := [{ env := 0 }, { env := 10 }, { env := 20 }, { env := 30 }], waitNum := 1, timeout := false,
    isAsync := true, readyId := [0, 1, 2, 3] }

/-- After the first call, which hands an action to each and returns the results of environments 0 and 2. -/
def exDummy1 : Venv Nat Nat Unit Nat Nat := (exDummy.step exH (some [1, 2, 3, 4]) none []).1

/-- After a second call, which hands another action to environment 0. -/
def exDummy2 : Venv Nat Nat Unit Nat Nat := (exDummy1.step exH (some [5]) (some [0]) []).1

/-- After a third call. -/
def exDummy3 : Venv Nat Nat Unit Nat Nat := (exDummy2.step exH none none []).1

theorem exDummy1_history : AnyHistory exH [0, 10, 20, 30] exDummy1 :=
  .step (action := some [1, 2, 3, 4]) (ids := none) (ticks := []) (r := .ok [(0, 1), (2, 23)])
    (AnyHistory.make (kind := .dummy) (wn := some 1) (timeout := none) rfl) (by decide +kernel)
    (Prod.ext rfl (by decide +kernel)) (by simp)

/-- The hypotheses of `C232_dummy` with four environments. The result of environment 3, whose step was over at once, is returned
by the third call only: with fewer than `k` calls the claim would be false. -/
example : AnyHistory exH [0, 10, 20, 30] exDummy1 ∧ 3 ∈ exDummy1.waitingId ∧
    (exDummy.step exH (some [1, 2, 3, 4]) none []).2 = .ok [(0, 1), (2, 23)] ∧
    Later exH exDummy1 [[(1, 12), (0, 6)], [(3, 34)]] exDummy3 :=
  ⟨exDummy1_history, by decide +kernel, by decide +kernel,
    .step (rs := [[(1, 12), (0, 6)]]) (action := none) (ids := none) (ticks := [])
      (.step (rs := []) (action := some [5]) (ids := some [0]) (ticks := []) .start (by decide +kernel)
        (Prod.ext rfl (by decide +kernel))) (by decide +kernel) (Prod.ext rfl (by decide +kernel))⟩

/-- The hypotheses of `C232_subproc`: environment 1 finishes after the first call. -/
example : AnyHistory exH [0, 10, 20] (exAfter.runWorker exH 1) ∧ 1 ∈ (exAfter.runWorker exH 1).waitingId ∧
    ((exAfter.runWorker exH 1).workers[1]?.map Worker.outbox) = some [16] ∧
    ((exAfter.runWorker exH 1).step exH (some [1]) (some [0]) [.run 0, .poll [0, 1, 2]]).2.toOption =
      some [(0, 6), (1, 16)] :=
  ⟨.run 1 exAfter_history.any, by decide +kernel, by decide +kernel, by decide +kernel⟩

end Verif.VecEnv
