import Verif.Lemmas.VecEnvLive

/-!
C50-C53: vectorised environments.

`h` says how an environment answers requests, `s0` are the states the environments start in. `v.sentTo i` are the requests
handed to environment `i` so far, `replyTo h s l r` is the reply of an environment that started in state `s` and has served
the requests `l` to the request `r`. `AnyHistory` are histories of arbitrary calls; `History` excludes calls of `seed`
while environments are being stepped, ids that do not exist (synchronous mode), and repeated ids in a call.
-/

namespace Verif.VecEnv

variable {σ A K X ρ : Type} {h : Handler σ A K X ρ} {s0 : List σ} {v : Venv σ A K X ρ} {rows : List (Nat × ρ)}

/-! ### A running example: counters -/

/-- A counter: a step adds the action and returns the sum; a seed sets it. -/
def exH : Handler Nat Nat Unit Nat Nat
  | s, .step a => (s + a, s + a)
  | _, .reset _ => (0, 100)
  | s, .render _ => (s, 1000 + s)
  | _, .seed x => ((x.getD 0).toNat, 7)
  | s, .getattr _ => (s, s)
  | _, .setattr _ x => (x, 0)

/-- Three counters in subprocesses, of which a step waits for two. -/
def exAsync : Venv Nat Nat Unit Nat Nat :=
  { kind := .subproc, workers := [{ env := 0 }, { env := 10 }, { env := 20 }], waitNum := 2, timeout := false,
    isAsync := true, readyId := [0, 1, 2] }

/-- Three counters in subprocesses, synchronous. -/
def exSync : Venv Nat Nat Unit Nat Nat := { exAsync with waitNum := 3, isAsync := false }

theorem exAsync_history : History exH [0, 10, 20] exAsync [] := History.make (kind := .subproc) (wn := some 2)
  (timeout := none) rfl

theorem exSync_history : History exH [0, 10, 20] exSync [] := History.make (kind := .subproc) (wn := none)
  (timeout := none) rfl

/-- The workers finish in the order 2, 0. -/
def exTicks : List Tick := [.run 2, .poll [2], .run 0, .poll [0]]

example : (exAsync.step exH (some [5, 6, 7]) none exTicks).2 = .ok [(2, 27), (0, 5)] := by decide +kernel

/-- The state after that step: environment 1 is still being stepped. -/
def exAfter : Venv Nat Nat Unit Nat Nat := (exAsync.step exH (some [5, 6, 7]) none exTicks).1

theorem exAfter_history : History exH [0, 10, 20] exAfter [(2, 27), (0, 5)] :=
  History.step (action := some [5, 6, 7]) (ids := none) (ticks := exTicks) exAsync_history
    ⟨by decide +kernel, by intro e; cases e⟩
    (Prod.ext rfl (by decide +kernel : (exAsync.step exH (some [5, 6, 7]) none exTicks).2 = .ok [(2, 27), (0, 5)]))

/-! ### C50 -/

/-- C50, the constructor: it accepts a `wait_num` between 1 and the number of environments (0 and `None` mean all) and a positive
`timeout`; the environment is asynchronous if and only if it need not wait for all environments or has a timeout, and each call
of `step` then waits for `wait_num` environments. -/
theorem C50_made (kind : Kind) (envs : List σ) (waitNum : Option Nat) (timeout : Option Int) :
    ((∃ v : Venv σ A K X ρ, Venv.make kind envs waitNum timeout = .ok v) ↔
      envs ≠ [] ∧ (∀ k, waitNum = some k → k ≤ envs.length) ∧ ∀ t, timeout = some t → 0 < t) ∧
    ∀ v : Venv σ A K X ρ, Venv.make kind envs waitNum timeout = .ok v →
      (v.isAsync = true ↔ (∃ k, waitNum = some k ∧ 0 < k ∧ k < envs.length) ∨ timeout ≠ none) ∧
      (∀ k, waitNum = some k → 0 < k → v.waitNum = k) ∧ (waitNum = none ∨ waitNum = some 0 → v.waitNum = envs.length) ∧
      v.kind = kind ∧ (v.timeout = true ↔ timeout ≠ none) := by
  unfold Venv.make
  cases envs with
  | nil => simp
  | cons e t =>
    simp only [List.length_cons, Nat.succ_ne_zero, if_false]
    rcases waitNum with _ | _ | k
    · rcases timeout with _ | τ
      · simp
      · by_cases h : τ ≤ 0
        · simp [h]
        · simp [h, show 0 < τ by omega]
    · rcases timeout with _ | τ
      · simp
      · by_cases h : τ ≤ 0
        · simp [h]
        · simp [h, show 0 < τ by omega]
    · by_cases hk : k ≤ t.length
      · have hlt : k ≠ t.length ↔ k < t.length := by omega
        rcases timeout with _ | τ
        · simp [hk, hlt]
        · by_cases h : τ ≤ 0
          · simp [h, hk]
          · simp [h, hk, show 0 < τ by omega]
      · simp [hk]

example : (∃ v : Venv Nat Nat Unit Nat Nat, Venv.make .subproc [0, 10, 20] (some 2) none = .ok v) ∧
    ¬ (∃ v : Venv Nat Nat Unit Nat Nat, Venv.make .subproc [0, 10, 20] (some 4) none = .ok v) := by
  rw [(C50_made .subproc [0, 10, 20] (some 2) none).1, (C50_made .subproc [0, 10, 20] (some 4) none).1]
  simp

/-- C50: at every point of any history of calls that name each environment at most once per `step`, every environment is
ready or being stepped, never both, and nothing else is listed. -/
theorem C50_partition (hh : AnyHistory h s0 v) :
    (∀ i : Nat, i < s0.length ↔ i ∈ v.readyId ∨ i ∈ v.waitingId) ∧ (∀ i, ¬ (i ∈ v.readyId ∧ i ∈ v.waitingId)) ∧
    v.readyId.Nodup ∧ v.waitingId.Nodup := by
  have hp := pinv_history hh
  have hn := List.nodup_append.mp hp.nodup
  refine ⟨fun i => ?_, fun i hi => hn.2.2 i hi.2 i hi.1 rfl, hn.2.1, hn.1⟩
  rw [← List.mem_range, ← hp.part.mem_iff, List.mem_append, or_comm]

/-- A history of the restricted kind is a history. -/
theorem History.any (hh : History h s0 v rows) : AnyHistory h s0 v := by
  induction hh with
  | make hm => exact .make hm
  | run i _ ih => exact .run i ih
  | step _ hn he ih => exact .step ih hn.1 he (fun e => by injection e)
  | stepRaises _ hn he hne ih => exact .step ih hn.1 he (fun e => hne (by injection e))
  | reset _ _ he hr ih => exact .reset ih he hr
  | getEnvAttr _ _ he hr ih => exact .getEnvAttr ih he hr
  | setEnvAttr _ _ he ih => exact .setEnvAttr ih he
  | seed _ _ he hr ih => exact .seed ih he hr
  | render _ he hr ih => exact .render ih he hr
  | close _ he ih => exact .close ih he

example : AnyHistory exH [0, 10, 20] exAfter ∧ exAfter.readyId = [2, 0] ∧ exAfter.waitingId = [1] :=
  ⟨exAfter_history.any, by decide +kernel, by decide +kernel⟩

/-- C50: `step`, `reset`, `get_env_attr` and `set_env_attr` are rejected, without any effect, when they name an environment
that is being stepped. -/
theorem C50_rejected (ha : v.isAsync = true) (ids : Option (List Nat)) (i : Nat) (hi : i ∈ v.wrapId ids)
    (hw : i ∈ v.waitingId) (acts : List A) (ticks : List Tick) (kw : K) (key : String) (x : X) :
    v.step h (some acts) ids ticks = (v, .error .assertion) ∧ v.reset h kw ids = (v, .error .assertion) ∧
    v.getEnvAttr h key ids = (v, .error .assertion) ∧ v.setEnvAttr h key x ids = (v, .error .assertion) := by
  have hok : v.idsOk (v.wrapId ids) = false := by
    cases e : v.idsOk (v.wrapId ids) with
    | false => rfl
    | true => exact absurd hw ((idsOk_iff _ _).mp e i hi).1
  unfold Venv.step Venv.reset Venv.getEnvAttr Venv.setEnvAttr
  refine ⟨?_, ?_, ?_, ?_⟩ <;> simp [ha, hok]

example : 1 ∈ exAfter.wrapId (some [0, 1]) ∧ 1 ∈ exAfter.waitingId ∧ exAfter.isAsync = true := by decide +kernel

/-- C50: a call of `step` that returns has at least one result, of environments that were being stepped or were named in
this call; no environment has two; exactly those environments are ready afterwards, besides the ones that were ready
and were not handed an action. With subprocess workers and without a timeout, `wait_num` results are returned, or as many as
there are. -/
theorem C50_returns (hh : AnyHistory h s0 v) (ha : v.isAsync = true) (action : Option (List A)) (ids : Option (List Nat))
    (ticks : List Tick) (hn : (v.wrapId ids).Nodup) {v' : Venv σ A K X ρ} {new : List (Nat × ρ)}
    (he : v.step h action ids ticks = (v', .ok new)) :
    let named := if action.isSome then v.wrapId ids else []
    new ≠ [] ∧ (new.map Prod.fst).Nodup ∧
    (∀ i ∈ new.map Prod.fst, i ∈ v.waitingId ∨ i ∈ named) ∧
    (∀ i, i ∈ v'.waitingId ↔ (i ∈ v.waitingId ∨ i ∈ named) ∧ i ∉ new.map Prod.fst) ∧
    (∀ i, i ∈ v'.readyId ↔ i ∈ new.map Prod.fst ∨ (i ∈ v.readyId ∧ i ∉ named)) ∧
    (v.kind = .subproc → v.timeout = false → min v.waitNum (v.waitingId.length + named.length) ≤ new.length) := by
  have hp := pinv_history hh
  have hnm : handedTo action (v.wrapId ids) = if action.isSome then v.wrapId ids else [] := by
    cases action <;> rfl
  rcases step_any (h := h) hp action ids ticks hn with ⟨u, e⟩ | ⟨u, e', e, -⟩ | ⟨hf, -⟩ |
      ⟨-, u, v2, rs, e, hs, hm, hne, hen⟩
  · rw [he] at e; injection e with _ e; injection e
  · rw [he] at e; injection e with _ e; injection e
  · rw [ha] at hf; cases hf
  · rw [he] at e
    injection e with e1 e2
    injection e2 with e2
    subst e1 e2
    rw [hnm] at hs
    have hun : u.waitingId.Nodup := (List.nodup_append.mp hs.inv.nodup).1
    refine ⟨hne, hm.nodup, ?_, ?_, ?_, ?_⟩
    · intro i hi
      obtain ⟨row, hr, rfl⟩ := List.mem_map.mp hi
      have := hm.sub row hr
      rwa [hs.waiting, List.mem_append] at this
    · intro i
      rw [hm.waiting, hun.mem_sdiff_iff, hs.waiting, List.mem_append]
    · intro i
      rw [hm.ready, List.mem_append, hs.ready, List.mem_filter, or_comm]
      cases action <;> simp
    · intro k t
      have := hen k t
      rwa [hs.waiting, List.length_append] at this

example : (exAfter.step exH (some [1]) (some [0]) [.run 1, .run 0, .poll [0, 1]]).2.toOption = some [(0, 6), (1, 16)] := by
  decide +kernel

/-- C50: a call of `step` that has something to wait for never gets stuck: whatever has happened since it was made, it
returns if the workers go on. -/
theorem C50_live (hh : History h s0 v rows) (ha : v.isAsync = true) (hc : v.closed = false) (action : Option (List A))
    (ids : Option (List Nat)) (ticks : List Tick) (hn : v.Names ids)
    (hacts : ∀ acts, action = some acts → acts.length = (v.wrapId ids).length ∧ ∀ i ∈ v.wrapId ids, i ∈ v.readyId)
    (hw : v.waitingId ≠ [] ∨ (action.isSome ∧ v.wrapId ids ≠ [])) :
    ∃ more new, (v.step h action ids (ticks ++ more)).2 = .ok new := by
  have hi := inv_history hh
  cases action with
  | none =>
    have hw : v.waitingId ≠ [] := by simpa using hw
    obtain ⟨more, new, e⟩ := collect_live ticks hi hw
    refine ⟨more, new, ?_⟩
    unfold Venv.step
    simp only [hc, ha]
    simpa using e
  | some acts =>
    obtain ⟨hl, hr⟩ := hacts acts rfl
    have hok : v.idsOk (v.wrapId ids) = true := by
      refine (idsOk_iff _ _).mpr fun i hm => ⟨fun hiw => ?_, hr i hm⟩
      exact (List.nodup_append.mp hi.nodup).2.2 i hiw i (hr i hm) rfl
    obtain ⟨u, a1, a2⟩ := handed_spec hi ha (v.wrapId ids) acts hn.1 hok hl
    obtain ⟨more, new, e⟩ := collect_live ticks a2.inv (by
      rw [a2.waiting]
      intro e
      obtain ⟨e1, e2⟩ := List.append_eq_nil_iff.mp e
      rcases hw with hw | hw
      · exact hw e1
      · exact hw.2 e2)
    refine ⟨more, new, ?_⟩
    unfold Venv.step
    simp only [hc, ha]
    simpa [hok, hl, a1] using e

example : History exH [0, 10, 20] exAfter [(2, 27), (0, 5)] ∧ exAfter.isAsync = true ∧ exAfter.closed = false ∧
    exAfter.Names none ∧ exAfter.waitingId ≠ [] :=
  ⟨exAfter_history, by decide +kernel, by decide +kernel, ⟨by decide +kernel, by intro e; cases e⟩, by decide +kernel⟩

/-- C50: a call of `step` that is accepted hands `actions[k]` to environment `ids[k]`, and nothing to the others. Missing for
the full claim: this and the two theorems below are about histories without calls of `seed` while environments are being
stepped (`C52_seed_violated`) and without repeated ids in `reset` and `get_env_attr`. -/
theorem C50_hands_over_partial (hh : History h s0 v rows) (ha : v.isAsync = true) (acts : List A) (ids : Option (List Nat))
    (ticks : List Tick) (hn : v.Names ids) {v' : Venv σ A K X ρ} {new : List (Nat × ρ)}
    (he : v.step h (some acts) ids ticks = (v', .ok new)) :
    acts.length = (v.wrapId ids).length ∧
    (∀ p ∈ (v.wrapId ids).zip acts, v'.sentTo p.1 = v.sentTo p.1 ++ [.step p.2]) ∧
    (∀ j, j ∉ v.wrapId ids → v'.sentTo j = v.sentTo j) := by
  have hi := inv_history hh
  rcases step_async_spec hi ha (some acts) ids ticks hn.1 with h1 | ⟨u, ⟨hu, hl, -⟩, h1, hui⟩
  · rw [he] at h1; injection h1 with _ h1; injection h1
  · have ht := (collect_spec (h := h) ticks hui).2 new (by rw [← h1, he])
    rw [← h1, he] at ht
    have hs := ht.1.sent
    exact ⟨hl, fun p hp => by rw [hs.sentTo, hu.sent p hp], fun j hj => by rw [hs.sentTo, hu.rest j hj]⟩

/-- C50: each result answers the action last sent to the environment whose id it carries. (See above for what is missing.) -/
theorem C50_answers_partial (hh : History h s0 v rows) (ha : v.isAsync = true) (action : Option (List A))
    (ids : Option (List Nat)) (ticks : List Tick) (hn : v.Names ids) {v' : Venv σ A K X ρ} {new : List (Nat × ρ)}
    (he : v.step h action ids ticks = (v', .ok new)) :
    ∀ row ∈ new, ∃ s l a, s0[row.1]? = some s ∧ v'.sentTo row.1 = l ++ [.step a] ∧ row.2 = replyTo h s l (.step a) := by
  have hi := inv_history hh
  rcases step_async_spec hi ha action ids ticks hn.1 with h1 | ⟨u, -, h1, hui⟩
  · rw [he] at h1; injection h1 with _ h1; injection h1
  · have ht := (collect_spec (h := h) ticks hui).2 new (by rw [← h1, he])
    rw [← h1, he] at ht
    intro row hr
    obtain ⟨s, l, a, e1, e2, e3⟩ := ht.1.answers row hr
    exact ⟨s, l, a, e1, by rw [ht.1.sent.sentTo, e2], e3⟩

example : exAfter.sentTo 2 = [.step 7] ∧ replyTo exH 20 [] (.step 7) = 27 := by decide +kernel

/-- C50: over a whole history, the results delivered for an environment are the replies to the actions sent to it, each
once and in order; only the reply to the last one is outstanding, while the environment is being stepped. (See above for
what is missing.) -/
theorem C50_exactly_once_partial (hh : History h s0 v rows) (i : Nat) (s : σ) (hs : s0[i]? = some s) :
    (i ∉ v.waitingId → deliveredTo i rows = stepReplies h s (v.sentTo i)) ∧
    (i ∈ v.waitingId → ∃ l a, v.sentTo i = l ++ [.step a] ∧ deliveredTo i rows = stepReplies h s l) := by
  have hi := inv_history hh
  have hl : i < v.workers.length := by rw [hi.len]; exact (List.getElem?_eq_some_iff.mp hs).1
  have hw : v.workers[i]? = some v.workers[i] := List.getElem?_eq_getElem hl
  refine ⟨fun hn => ?_, fun hn => ?_⟩
  · rw [sentTo_eq hw]; exact (hi.idle hw hs hn).2
  · obtain ⟨t, a, t1, -, t3⟩ := hi.busy hw hs hn
    exact ⟨t, a, by rw [sentTo_eq hw]; exact t1, t3⟩

example : deliveredTo 2 [((2 : Nat), 27), (0, 5)] = stepReplies exH 20 (exAfter.sentTo 2) ∧ 1 ∈ exAfter.waitingId ∧
    deliveredTo 1 [((2 : Nat), 27), (0, 5)] = ([] : List Nat) := by decide +kernel

/-- What goes wrong with an id given twice: the environment is then both ready and being stepped (here with dummy
workers). -/
theorem C50_duplicate_violated :
    ∃ v : Venv Nat Nat Unit Nat Nat, AnyHistory exH [0, 10, 20] v ∧ v.isAsync = true ∧
      ∃ new, (v.step exH (some [5, 6]) (some [0, 0]) []).2 = .ok new ∧
        0 ∈ (v.step exH (some [5, 6]) (some [0, 0]) []).1.readyId ∧
        0 ∈ (v.step exH (some [5, 6]) (some [0, 0]) []).1.waitingId :=
  ⟨{ exAsync with kind := .dummy }, .make (kind := .dummy) (wn := some 2) (timeout := none) rfl, rfl, [(0, 11)],
    by decide +kernel, by decide +kernel, by decide +kernel⟩

/-- With dummy workers, an asynchronous step passes over every second result, although `wait_num` are asked for. -/
theorem C50_dummy_skips :
    ∃ v : Venv Nat Nat Unit Nat Nat, AnyHistory exH [0, 10, 20] v ∧ v.waitNum = 2 ∧
      (v.step exH (some [5, 6]) (some [0, 1]) []).2 = .ok [(0, 5)] :=
  ⟨{ exAsync with kind := .dummy }, .make (kind := .dummy) (wn := some 2) (timeout := none) rfl, rfl, by decide +kernel⟩

/-! ### C51 -/

/-- C51: in synchronous mode `step(actions, ids)` applies `actions[k]` to environment `ids[k]`, row `k` of the result is that
environment's response, and the other environments are untouched. Missing for the full claim: the history must be free
of calls with ids that do not exist (`C51_bad_id_violated`). -/
theorem C51_routing_partial (hh : History h s0 v rows) (ha : v.isAsync = false) (hc : v.closed = false) (acts : List A)
    (ids : Option (List Nat)) (ticks : List Tick) (hn : v.Names ids) (hl : acts.length = (v.wrapId ids).length)
    (hne : v.wrapId ids ≠ []) :
    ∃ v' new, v.step h (some acts) ids ticks = (v', .ok new) ∧ new.length = acts.length ∧
      (∀ (k i : Nat) (a : A) (s : σ), (v.wrapId ids)[k]? = some i → acts[k]? = some a → s0[i]? = some s →
        new[k]? = some (i, replyTo h s (v.sentTo i) (.step a)) ∧ v'.sentTo i = v.sentTo i ++ [.step a]) ∧
      (∀ j, j ∉ v.wrapId ids → v'.workers[j]? = v.workers[j]?) := by
  have hi := inv_history hh
  rcases step_sync_spec hi ha (some acts) ids ticks hn with ⟨e, -, h1⟩ | ⟨v2, e, -, -, h1⟩ |
    ⟨v', new, acts', e1, e2, e3, e4, -, e6, -, e8⟩
  · rcases h1 with h1 | h1 | ⟨acts', h1, h2⟩
    · rw [hc] at h1; cases h1
    · cases h1
    · injection h1 with h1; subst h1; exact absurd hl h2
  · exact absurd h1 hne
  · injection e2 with e2
    subst e2
    have hfst : ((v.wrapId ids).zip (acts.map (Req.step (K := K) (X := X)))).map Prod.fst = v.wrapId ids :=
      zip_fst _ _ (by simpa using hl)
    refine ⟨v', new, e1, by rw [hl, ← e6, List.length_map], ?_, fun j hj => e4.rest j (by rw [hfst]; exact hj)⟩
    intro k i a s hk hka hs
    have hp : (i, Req.step a) ∈ (v.wrapId ids).zip (acts.map (Req.step (K := K) (X := X))) := by
      refine List.mem_of_getElem? (i := k) ?_
      rw [List.getElem?_zip_eq_some]
      exact ⟨hk, by simp [hka]⟩
    refine ⟨?_, e4.sentTo hp⟩
    have hm := e8 _ hp s hs
    have hk2 : (new.map Prod.fst)[k]? = some i := by rw [e6]; exact hk
    rw [List.getElem?_map] at hk2
    obtain ⟨row, hr1, hr2⟩ := Option.map_eq_some_iff.mp hk2
    rw [hr1]
    have hnd : (new.map Prod.fst).Nodup := by rw [e6]; exact hn.1
    have d1 := deliveredTo_of_mem hnd hm
    have d2 := deliveredTo_of_mem (i := row.1) (x := row.2) hnd (List.mem_of_getElem? hr1)
    rw [hr2, d1] at d2
    injection d2 with d2
    rw [← hr2, Option.some.injEq]
    refine Prod.ext rfl ?_
    rw [← d2, hr2]

example : exSync.Names (some [2, 0]) ∧ (exSync.step exH (some [5, 6]) (some [2, 0]) []).2 = .ok [(2, 25), (0, 6)] :=
  ⟨⟨by decide +kernel, fun _ => by decide +kernel⟩, by decide +kernel⟩

/-- C51, `reset`: row `k` is the response of environment `ids[k]`, the other environments are untouched. (Missing as
above.) -/
theorem C51_reset_partial (hh : History h s0 v rows) (kw : K) (ids : Option (List Nat)) (hn : v.Names ids)
    {v' : Venv σ A K X ρ} {new : List (Nat × ρ)} (he : v.reset h kw ids = (v', .ok new)) :
    new.map Prod.fst = v.wrapId ids ∧
    (∀ i ∈ v.wrapId ids, ∀ s, s0[i]? = some s → (i, replyTo h s (v.sentTo i) (.reset kw)) ∈ new ∧
      v'.sentTo i = v.sentTo i ++ [.reset kw]) ∧
    (∀ j, j ∉ v.wrapId ids → v'.workers[j]? = v.workers[j]?) := by
  rcases reset_spec (inv_history hh) kw ids hn with ⟨e, h1, -⟩ | ⟨v2, e, h1, -⟩ | ⟨v2, rs, h1, h2, -, h3, h4⟩
  · rw [he] at h1; injection h1 with _ h1; injection h1
  · rw [he] at h1; injection h1 with _ h1; injection h1
  · rw [he] at h1
    injection h1 with e1 e2
    injection e2 with e2
    subst e1 e2
    refine ⟨h3, fun i hi s hs => ⟨h4 i hi s hs, h2.sentTo (p := (i, .reset kw)) (List.mem_map.mpr ⟨i, hi, rfl⟩)⟩, ?_⟩
    intro j hj
    exact h2.rest j (by rw [map_pair_fst]; exact hj)

example : (exSync.reset exH () (some [1])).2 = .ok [(1, 100)] := by decide +kernel

/-- What goes wrong after a call with an id that does not exist: environment 0 has been sent an action before the call
raises, and the next call returns the reply to that action (5), not to its own (5 + 1). -/
theorem C51_bad_id_violated :
    ∃ v : Venv Nat Nat Unit Nat Nat, AnyHistory exH [0, 10, 20] v ∧ v.isAsync = false ∧
      (v.step exH (some [5, 6]) (some [0, 99]) []).2 = .error .index ∧
      ((v.step exH (some [5, 6]) (some [0, 99]) []).1.step exH (some [1]) (some [0]) []).2 = .ok [(0, 5)] ∧
      replyTo exH 0 [.step 5] (.step 1) = 6 :=
  ⟨exSync, exSync_history.any, rfl, by decide +kernel, by decide +kernel, by decide +kernel⟩

/-! ### C52 -/

/-- C52: every value returned by `get_env_attr` is the reply of the environment to this very request. Missing for the full
claim: the histories of `C52_*_partial` have no call of `seed` while environments are being stepped (`C52_seed_violated`).
For `step` and `reset` see `C50_answers_partial`, `C51_routing_partial` and `C51_reset_partial`. -/
theorem C52_getattr_partial (hh : History h s0 v rows) (key : String) (ids : Option (List Nat)) (hn : v.Names ids)
    {v' : Venv σ A K X ρ} {xs : List ρ} (he : v.getEnvAttr h key ids = (v', .ok xs)) :
    xs.map some = ((v.wrapId ids).map fun i => (s0[i]?).map fun s => replyTo h s (v.sentTo i) (.getattr key)) ∧
    ∀ i ∈ v.wrapId ids, v'.sentTo i = v.sentTo i ++ [.getattr key] := by
  rcases getEnvAttr_spec (inv_history hh) key ids hn with ⟨e, h1, -⟩ | ⟨v2, rs, h1, h2, -, h3⟩
  · rw [he] at h1; injection h1 with _ h1; injection h1
  · rw [he] at h1
    injection h1 with e1 e2
    injection e2 with e2
    subst e1 e2
    exact ⟨h3, fun i hi => h2.sentTo (p := (i, .getattr key)) (List.mem_map.mpr ⟨i, hi, rfl⟩)⟩

example : (exAfter.getEnvAttr exH "n" (some [2, 0])).2 = .ok [27, 5] := by decide +kernel

/-- C52, `render`. -/
theorem C52_render_partial (hh : History h s0 v rows) (kw : K) {v' : Venv σ A K X ρ} {xs : List ρ}
    (he : v.render h kw = (v', .ok xs)) :
    xs.map some = ((List.range s0.length).map fun i => (s0[i]?).map fun s => replyTo h s (v.sentTo i) (.render kw)) := by
  have hi := inv_history hh
  rcases render_spec hi kw with ⟨e, h1, -⟩ | ⟨v2, rs, h1, h2, -, h3⟩
  · rw [he] at h1; injection h1 with _ h1; injection h1
  · rw [he] at h1
    injection h1 with e1 e2
    injection e2 with e2
    subst e1 e2
    rw [h3, hi.len]

example : (exSync.render exH ()).2 = .ok [1000, 1010, 1020] ∧ (exAfter.render exH ()).2 = .error .runtime := by
  decide +kernel

/-- An existing environment that is not being stepped passes the check of the ids. -/
theorem ids_pass (hh : History h s0 v rows) (ids : Option (List Nat))
    (hid : ∀ i ∈ v.wrapId ids, i < s0.length ∧ i ∉ v.waitingId) : (v.isAsync && !v.idsOk (v.wrapId ids)) = false := by
  have hi := inv_history hh
  have : v.idsOk (v.wrapId ids) = true := by
    rw [idsOk_iff]
    intro i hm
    obtain ⟨h1, h2⟩ := hid i hm
    refine ⟨h2, ?_⟩
    rcases List.mem_append.mp (hi.part.mem_iff.mpr (List.mem_range.mpr h1)) with h3 | h3
    · exact absurd h3 h2
    · exact h3
  simp [this]

/-- C52, nothing is refused without reason: as long as the vector environment is open, `reset`, `get_env_attr` and
`set_env_attr` answer for all environments that exist and are not being stepped, and `render` answers whenever no environment
is being stepped, in synchronous and in asynchronous mode. -/
theorem C52_accepted (hh : History h s0 v rows) (hc : v.closed = false) :
    (∀ ids, (v.wrapId ids).Nodup → (∀ i ∈ v.wrapId ids, i < s0.length ∧ i ∉ v.waitingId) →
      (∀ key, ∃ v' xs, v.getEnvAttr h key ids = (v', .ok xs)) ∧
      (∀ key x, ∃ v', v.setEnvAttr h key x ids = (v', .ok ())) ∧
      (∀ kw, v.wrapId ids ≠ [] → ∃ v' xs, v.reset h kw ids = (v', .ok xs))) ∧
    (v.waitingId = [] → ∀ kw, ∃ v' xs, v.render h kw = (v', .ok xs)) := by
  have hi := inv_history hh
  refine ⟨fun ids hnd hid => ?_, fun hw kw => ?_⟩
  · have hp := ids_pass hh ids hid
    have hn : v.Names ids := ⟨hnd, fun _ i hm => by rw [hi.len]; exact (hid i hm).1⟩
    refine ⟨fun key => ?_, fun key x => ?_, fun kw hne => ?_⟩
    · rcases getEnvAttr_spec hi key ids hn with ⟨e, -, h1 | h1⟩ | ⟨v', xs, h1, -⟩
      · rw [hc] at h1; cases h1
      · rw [hp] at h1; cases h1
      · exact ⟨v', xs, h1⟩
    · rcases setEnvAttr_spec hi key x ids hn with ⟨e, -, h1 | h1⟩ | ⟨v', h1, -⟩
      · rw [hc] at h1; cases h1
      · rw [hp] at h1; cases h1
      · exact ⟨v', h1⟩
    · rcases reset_spec hi kw ids hn with ⟨e, -, h1 | h1⟩ | ⟨_, _, -, -, h1⟩ | ⟨v', xs, h1, -⟩
      · rw [hc] at h1; cases h1
      · rw [hp] at h1; cases h1
      · exact absurd h1 hne
      · exact ⟨v', xs, h1⟩
  · rcases render_spec hi kw with ⟨e, -, h1 | h1⟩ | ⟨v', xs, h1, -⟩
    · rw [hc] at h1; cases h1
    · exact absurd hw h1
    · exact ⟨v', xs, h1⟩

example : exAfter.isAsync = true ∧ exAfter.closed = false ∧ (exAfter.wrapId (some [2, 0])).Nodup ∧
    (∀ i ∈ exAfter.wrapId (some [2, 0]), i < 3 ∧ i ∉ exAfter.waitingId) ∧ exAfter.waitingId = [1] ∧
    exAsync.isAsync = true ∧ exAsync.waitingId = [] := by decide +kernel

/-- C52, `seed`, when no environment is being stepped. -/
theorem C52_seed_partial (hh : History h s0 v rows) (hw : v.waitingId = []) (s : Seed) {v' : Venv σ A K X ρ} {xs : List ρ}
    (he : v.seed h s = (v', .ok xs)) :
    xs.length = s0.length ∧ ∀ (i : Nat) (st : σ) (x : Option Int), s0[i]? = some st → (v.seedList s)[i]? = some x →
      xs[i]? = some (replyTo h st (v.sentTo i) (.seed x)) := by
  have hi := inv_history hh
  rcases seed_spec hi s hw with ⟨-, h1⟩ | ⟨v2, h1, -⟩ | ⟨v2, rs, h1, h2, -, hl, h3⟩
  · rw [he] at h1; injection h1 with _ h1; injection h1
  · rw [he] at h1; injection h1 with _ h1; injection h1
  · rw [he] at h1
    injection h1 with e1 e2
    injection e2 with e2
    subst e1 e2
    constructor
    · have := congrArg List.length h3
      simp only [List.length_map, List.length_zip, List.length_range] at this
      rw [this, ← hl, hi.len]
      simp
    · intro i st x hs hx
      have hil : i < v.workers.length := by rw [hi.len]; exact (List.getElem?_eq_some_iff.mp hs).1
      have hz : ((List.range v.workers.length).zip ((v.seedList s).map (Req.seed (A := A) (K := K) (X := X))))[i]? =
          some (i, .seed x) := by
        rw [List.getElem?_zip_eq_some]
        exact ⟨by simp [hil], by simp [hx]⟩
      have := congrArg (fun l => l[i]?) h3
      simp only [List.getElem?_map, hz, Option.map_some, hs] at this
      obtain ⟨y, hy1, hy2⟩ := Option.map_eq_some_iff.mp this
      injection hy2 with hy2
      rw [hy1, hy2]

example : exSync.waitingId = [] ∧ (exSync.seed exH (.int 3)).2 = .ok [7, 7, 7] := by decide +kernel

/-- The full claim fails: `seed` called while environment 1 is being stepped returns, for that environment, the reply to the
step (16) instead of the reply to the seed (7); the next step then returns the latter as the result of the step. -/
theorem C52_seed_violated :
    ∃ v : Venv Nat Nat Unit Nat Nat, History exH [0, 10, 20] v [(2, 27), (0, 5)] ∧ v.isAsync = true ∧
      (v.seed exH (.int 3)).2 = .ok [7, 16, 7] ∧
      ((v.seed exH (.int 3)).1.step exH none none [.run 1, .poll [1]]).2 = .ok [(1, 7)] :=
  ⟨exAfter, exAfter_history, by decide +kernel, by decide +kernel, by decide +kernel⟩

/-! ### C53 -/

/-- C53: `seed(s)` with an integer hands environment `i` the seed `s + i`, and these seeds are different. -/
theorem C53_int (hh : History h s0 v rows) (hw : v.waitingId = []) (hc : v.closed = false) (s : Int) :
    ∃ v' xs, v.seed h (.int s) = (v', .ok xs) ∧
      (∀ i : Nat, i < s0.length → v'.sentTo i = v.sentTo i ++ [.seed (some (s + i))]) ∧
      ∀ i j : Nat, i ≠ j → s + (i : Int) ≠ s + (j : Int) := by
  have hi := inv_history hh
  have hlen : (v.seedList (.int s)).length = v.workers.length := by simp [Venv.seedList]
  rcases seed_spec hi (.int s) hw with ⟨h1, -⟩ | ⟨v2, h1, -, h2⟩ | ⟨v2, rs, h1, h2, -, hl, -⟩
  · rw [hc] at h1; cases h1
  · exact absurd hlen.symm h2
  · refine ⟨v2, rs, h1, fun i hil => ?_, fun i j hij => by omega⟩
    have hil' : i < v.workers.length := by rw [hi.len]; exact hil
    refine h2.sentTo (p := (i, .seed (some (s + i)))) (List.mem_of_getElem? (i := i) ?_)
    rw [List.getElem?_zip_eq_some]
    exact ⟨by simp [hil'], by simp [Venv.seedList, hil']⟩

/-- C53: with a list of the right length, environment `i` is handed the `i`-th entry. -/
theorem C53_list (hh : History h s0 v rows) (hw : v.waitingId = []) (hc : v.closed = false) (l : List Int)
    (hl : l.length = s0.length) :
    ∃ v' xs, v.seed h (.list l) = (v', .ok xs) ∧
      ∀ (i : Nat) (x : Int), l[i]? = some x → v'.sentTo i = v.sentTo i ++ [.seed (some x)] := by
  have hi := inv_history hh
  have hlen : (v.seedList (.list l)).length = v.workers.length := by simp [Venv.seedList, hl, hi.len]
  rcases seed_spec hi (.list l) hw with ⟨h1, -⟩ | ⟨v2, h1, -, h2⟩ | ⟨v2, rs, h1, h2, -, -, -⟩
  · rw [hc] at h1; cases h1
  · exact absurd hlen.symm h2
  · refine ⟨v2, rs, h1, fun i x hx => ?_⟩
    have hil' : i < v.workers.length := by rw [hi.len, ← hl]; exact (List.getElem?_eq_some_iff.mp hx).1
    refine h2.sentTo (p := (i, .seed (some x))) (List.mem_of_getElem? (i := i) ?_)
    rw [List.getElem?_zip_eq_some]
    exact ⟨by simp [hil'], by simp [Venv.seedList, hx]⟩

/-- C53: a list of the wrong length is rejected. -/
theorem C53_wrong_length (hh : History h s0 v rows) (hw : v.waitingId = []) (l : List Int) (hl : l.length ≠ s0.length) :
    ∃ v' e, v.seed h (.list l) = (v', .error e) := by
  have hi := inv_history hh
  rcases seed_spec hi (.list l) hw with ⟨-, h1⟩ | ⟨v2, h1, -⟩ | ⟨v2, rs, -, -, -, h1, -⟩
  · exact ⟨_, _, h1⟩
  · exact ⟨_, _, h1⟩
  · exact absurd h1 (by simp [Venv.seedList, hi.len]; omega)

example : (exSync.seed exH (.int 3)).1.sentTo 2 = [.seed (some 5)] ∧
    (exSync.seed exH (.list [4, 4, 9])).1.sentTo 2 = [.seed (some 9)] ∧
    (exSync.seed exH (.list [4, 4])).2 = .error .value := by decide +kernel

/-- A list of the wrong length is rejected only after the first environments have been seeded. -/
theorem C53_rejected_late :
    (exSync.seed exH (.list [4, 8])).2 = .error .value ∧ (exSync.seed exH (.list [4, 8])).1.sentTo 0 = [.seed (some 4)] :=
  ⟨by decide +kernel, by decide +kernel⟩

end Verif.VecEnv
