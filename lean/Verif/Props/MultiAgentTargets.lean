import Verif.Lemmas.MultiAgentTargets

/-!
Properties C225-C226: targets and advantages of the agents of a multi-agent policy.

`Reach m sep`: the vector buffer `m` is reached by any sequence of additions, its sub-buffers (one per environment) are
`sep`; `stored cb` is the content of one, oldest first. Observations name the agent to move (`agentOf`), rewards have a
column per agent. The vocabulary is in `Verif.Spec.MultiAgentTargets`.
-/

set_option linter.unusedSectionVars false

namespace Verif.MultiAgent

open Verif.Buffer Verif.Spec Verif.Returns

variable {Id J O A R : Type} [DecidableEq Id] [CommRing R]

/-! ### C225 -/

/-- C225, the rewards: the target of a move of the agent at step `k` of an environment sums what the agent received in
the transitions `k`, `k + 1`, ... of that episode, whoever moved, at most `N` of them; the value added is that of the
state after the last of these transitions (the row `after`). -/
theorem C225_rewards {m : Mgr O A (J → R)} {sep : List (Buf O A (J → R))} (hr : Reach m sep) (agentOf : O → Id)
    (column : Id → J) (a : Id) (indices : List Nat)
    (hind : ∀ i ∈ indices, ∃ (b : Nat) (cb : Buf O A (J → R)) (j : Nat), sep[b]? = some cb ∧ j ∈ cb.idx.allIndices ∧
      i = j + startOf sep b)
    (targetQ : List Nat → List (List R)) (hQ : ∀ l, (targetQ l).length = l.length) (gamma : R) (N : Nat) (hN : 0 < N) :
    ∃ (own after : List Nat) (out : List (List R)), own = indices.filter (fun i => (m.data i).any (moveOf agentOf a)) ∧
      nstepTargets m agentOf column indices a targetQ gamma N = some out ∧ out.length = own.length ∧
      after.length = own.length ∧
      ∀ (p b k i : Nat) (cb : Buf O A (J → R)), sep[b]? = some cb → own[p]? = some (i + startOf sep b) →
        cb.idx.allIndices[k]? = some i →
        after[p]? = (cb.idx.allIndices[k + (nstepLen (stored cb) N k - 1)]?).map (· + startOf sep b) ∧
        ∃ q, (targetQ after)[p]? = some q ∧
          out[p]? = some (q.map (nstepValue ((stored cb).map (ownReward (column a))) gamma N k)) := by
  set own := indices.filter (fun i => (m.data i).any (moveOf agentOf a)) with hown
  set bs : Blocks O A R := (mgrBlocks sep).map fun B => (B.1, B.2.map (ownReward (column a))) with hbs
  have hslots : bs.slots = (mgrBlocks sep).slots := by
    simp [hbs, Blocks.slots, Function.comp_def]
  have hget : ∀ (b : Nat) (cb : Buf O A (J → R)), sep[b]? = some cb →
      (cb.idx.allIndices.map (· + startOf sep b), (stored cb).map (ownReward (column a))) ∈ bs := by
    intro b cb hb
    exact List.mem_map.mpr ⟨_, List.mem_of_getElem? (mgrBlocks_get hb), rfl⟩
  obtain ⟨after, out, h1, h2, h3, h4⟩ := nstep_blocks (w := agentView (ofMgr m) (column a)) bs (by
    intro B hB
    obtain ⟨B', hB', rfl⟩ := List.mem_map.mp hB
    exact shows_column (mgrBlocks_shows hr B' hB') _) own (by
    intro i hi
    obtain ⟨b, cb, j, hb, hj, rfl⟩ := hind i (List.mem_filter.mp hi).1
    simp only [Blocks.slots, List.mem_flatten, List.mem_map]
    exact ⟨_, ⟨_, hget b cb hb, rfl⟩, List.mem_map.mpr ⟨j, hj, rfl⟩⟩) targetQ hQ gamma N hN
  refine ⟨own, after, out, rfl, ?_, h2, h3, ?_⟩
  · unfold nstepTargets
    rw [ownIndices_eq]
    exact h1
  · intro p b k i cb hb hp hk
    have := h4 p (i + startOf sep b) _ k hp (hget b cb hb) (by simp only [List.getElem?_map, hk, Option.map_some])
    simpa only [List.getElem?_map, nstepLen_own] using this

theorem turns_iterate {S : Type} (agentOf : O → Id) (rot : Id → Id) (c : List (Trans O A S)) (h : Turns agentOf rot c)
    (k : Nat) (t : Trans O A S) (hk : c[k]? = some t) (l : Nat) (hl : k + l ≤ epLast Trans.done c k) :
    ∃ t', c[k + l]? = some t' ∧ agentOf t'.obs = rot^[l] (agentOf t.obs) := by
  have hkl := (List.getElem?_eq_some_iff.mp hk).1
  induction l with
  | zero => exact ⟨t, hk, rfl⟩
  | succ l ih =>
    obtain ⟨t', h1, h2⟩ := ih (by omega)
    have hlt := epLast_lt Trans.done c hkl
    have hcont := continues_of_lt_epLast Trans.done c hkl (l := k + l + 1) (by omega) (by omega)
    simp only [continues, h1] at hcont
    have hd : t'.done = false := by revert hcont; cases t'.done <;> simp
    obtain ⟨t'', h3⟩ : ∃ t'', c[k + l + 1]? = some t'' := ⟨_, List.getElem?_eq_getElem (by omega)⟩
    refine ⟨t'', h3, ?_⟩
    rw [h.2 (k + l) t' t'' h1 h3 hd, h2, Function.iterate_succ_apply']

/-- **C225 (partial)** if the agents move in turn, the state whose value is added after `n` transitions is one in which
`rot^n` of the agent is to move. So with `N` a multiple of the number of agents (`rot^[N] a = a`) and an episode that
goes on for `N` transitions it is the agent's turn. Missing: any other `N`, and episodes that are cut before
(`C225_violated`): there the agent's network values a state in which another agent moves. -/
theorem C225_turns_partial {m : Mgr O A (J → R)} {sep : List (Buf O A (J → R))} (hr : Reach m sep) (agentOf : O → Id)
    (column : Id → J) (a : Id) (indices : List Nat)
    (hind : ∀ i ∈ indices, ∃ (b : Nat) (cb : Buf O A (J → R)) (j : Nat), sep[b]? = some cb ∧ j ∈ cb.idx.allIndices ∧
      i = j + startOf sep b)
    (targetQ : List Nat → List (List R)) (hQ : ∀ l, (targetQ l).length = l.length) (gamma : R) (N : Nat) (hN : 0 < N)
    (rot : Id → Id) (hturn : ∀ cb ∈ sep, Turns agentOf rot (stored cb)) :
    ∃ (own after : List Nat) (out : List (List R)), own = indices.filter (fun i => (m.data i).any (moveOf agentOf a)) ∧
      nstepTargets m agentOf column indices a targetQ gamma N = some out ∧
      ∀ (p b k i : Nat) (cb : Buf O A (J → R)), sep[b]? = some cb → own[p]? = some (i + startOf sep b) →
        cb.idx.allIndices[k]? = some i →
        (∃ q, (targetQ after)[p]? = some q ∧
          out[p]? = some (q.map (nstepValue ((stored cb).map (ownReward (column a))) gamma N k))) ∧
        ∃ (e : Nat) (t : Trans O A (J → R)), after[p]? = some e ∧ m.data e = some t ∧
          (∀ o, t.obsNext = some o → agentOf o = rot^[nstepLen (stored cb) N k] a) ∧
          (nstepLen (stored cb) N k = N → rot^[N] a = a → ∀ o, t.obsNext = some o → agentOf o = a) := by
  obtain ⟨own, after, out, hown, h1, -, -, h4⟩ :=
    C225_rewards hr agentOf column a indices hind targetQ hQ gamma N hN
  refine ⟨own, after, out, hown, h1, ?_⟩
  intro p b k i cb hb hp hk
  obtain ⟨h5, h6⟩ := h4 p b k i cb hb hp hk
  refine ⟨h6, ?_⟩
  have hcb := List.mem_of_getElem? hb
  obtain ⟨hd, -⟩ := mgrBlocks_data hr hb
  have hdat : ∀ (l i' : Nat), cb.idx.allIndices[l]? = some i' → ∃ t, (stored cb)[l]? = some t ∧
      m.data (i' + startOf sep b) = some t := by
    intro l i' hl
    have h7 := congrArg (·[l]?) hd
    simp only [List.getElem?_map, hl, Option.map_some] at h7
    cases hc : (stored cb)[l]? with
    | none => rw [hc] at h7; simp at h7
    | some t => rw [hc] at h7; exact ⟨t, rfl, by simpa using h7⟩
  obtain ⟨t0, ht0, hd0⟩ := hdat k i hk
  have hk0 := (List.getElem?_eq_some_iff.mp ht0).1
  have ha : agentOf t0.obs = a := by
    have hm : (i + startOf sep b) ∈ own := List.mem_of_getElem? hp
    rw [hown, List.mem_filter, hd0] at hm
    simpa [moveOf] using hm.2
  have hle := le_epLast Trans.done (stored cb) hk0
  have hlt := epLast_lt Trans.done (stored cb) hk0
  have hn1 : 0 < nstepLen (stored cb) N k := by unfold nstepLen; omega
  have hn2 : nstepLen (stored cb) N k ≤ epLast Trans.done (stored cb) k - k + 1 := by unfold nstepLen; omega
  obtain ⟨t, ht, htl⟩ := turns_iterate agentOf rot (stored cb) (hturn cb hcb) k t0 ht0
    (nstepLen (stored cb) N k - 1) (by omega)
  have hlen : cb.idx.allIndices.length = (stored cb).length := by
    have := congrArg List.length hd
    simpa using this
  have htl' := (List.getElem?_eq_some_iff.mp ht).1
  obtain ⟨i', hi'⟩ : ∃ i', cb.idx.allIndices[k + (nstepLen (stored cb) N k - 1)]? = some i' :=
    ⟨_, List.getElem?_eq_getElem (by omega)⟩
  obtain ⟨t2, h8, h9⟩ := hdat _ i' hi'
  rw [ht] at h8
  cases h8
  have hobs : ∀ o, t.obsNext = some o → agentOf o = rot^[nstepLen (stored cb) N k] a := by
    intro o ho
    rw [(hturn cb hcb).1 t (List.mem_of_getElem? ht) o ho, htl, ha, ← Function.iterate_succ_apply' rot]
    congr 2
    omega
  refine ⟨i' + startOf sep b, t, by rw [h5, hi', Option.map_some], h9, hobs, ?_⟩
  intro hN' hrot o ho
  rw [hobs o ho, hN', hrot]

/-- A game of two agents who move in turn; observations are the numbers of the moves, `o % 2` is to move. Each move
pays its number to agent 0 and 100 times it to agent 1. -/
def gameMove (o : Nat) (terminated : Bool) : Trans Nat Nat (Nat → Int) :=
  ⟨o, 0, fun j => if j = 0 then o else 100 * o, terminated, false, some (o + 1)⟩

/-- One environment: a game of four moves, and the first two moves of the next. -/
def gameMgr : Mgr Nat Nat (Nat → Int) :=
  (Mgr.new [8] {} : Mgr Nat Nat (Nat → Int)).addAll
    [([0], [gameMove 10 false]), ([0], [gameMove 11 false]), ([0], [gameMove 12 false]), ([0], [gameMove 13 true]),
     ([0], [gameMove 20 false]), ([0], [gameMove 21 false])]

/-- The buffer of the game is reached by additions. -/
theorem gameMgr_reach : ∃ sep, Reach gameMgr sep ∧ sep.length = 1 :=
  (Reach.new [8] (by decide) {}).addAll _ (by simp)

/-- The target network: the value of a state is its observation times 1000. -/
def gameQ (l : List Nat) : List (List Int) :=
  l.map fun i => [match gameMgr.data i with | some t => 1000 * ((t.obsNext.getD 0 : Nat) : Int) | none => 0]

/-- Two-step targets (discount 1) of agent 0 for its moves 10, 12 and 20: the rewards of both transitions, and the
state in which it is to move again (12), nothing after the end of the game, and 22 after the newest transition. -/
example : nstepTargets gameMgr (· % 2) id [0, 1, 2, 3, 4, 5] 0 gameQ 1 2 =
    some [[10 + 11 + 12000], [12 + 13], [20 + 21 + 22000]] := by decide +kernel

/-- **C225 (violated)** with one-step targets the state whose value is added to the reward of agent 0 is one in which
the other agent is to move: 11 after the move 10. -/
theorem C225_violated :
    nstepTargets gameMgr (· % 2) id [0] 0 gameQ 1 1 = some [[10 + 11000]] ∧ 11 % 2 ≠ 0 := by
  decide +kernel

/-! ### C226 -/

/-- **C226 (partial)** if the agent makes the last stored move of every episode, its advantages are the generalised
advantage estimates over its own moves: those from this move to the end of the same episode in the same environment.
Missing: an agent that does not make the last move (`C226_crosses`, `C226_violated`). The rewards counted are those of
the agent's own moves; what it receives in the moves of others is not counted (`C226_lost`). -/
theorem C226_partial {m : Mgr O A (J → R)} {sep : List (Buf O A (J → R))} (hr : Reach m sep)
    (hm : m.opts.stackNum = 1 ∨ m.opts.sampleAvail = false) {draw : Nat → Nat} {rng : Nat → Nat → Nat}
    {indices : List Nat} (hi : m.sampleIndices draw rng (some 0) = .ok indices) (agentOf : O → Id) (column : Id → J)
    (a : Id) (hlast : ∀ cb ∈ sep, MovesLast agentOf a (stored cb)) (v v' : Nat → R) (gamma lam : R) (isClose : Bool) :
    ∃ own ret adv, own = indices.filter (fun i => (m.data i).any (moveOf agentOf a)) ∧
      agentAdvantages m agentOf column indices a v v' gamma lam isClose = some (ret, adv) ∧ adv.length = own.length ∧
      ∀ (b : Nat) (cb : Buf O A (J → R)) (k : Nat) (t : Trans O A (J → R)), sep[b]? = some cb →
        (stored cb)[k]? = some t → agentOf t.obs = a →
        (∃ i, own[ownOffset agentOf a sep b + movesBefore agentOf a (stored cb) k]? = some i ∧ m.data i = some t) ∧
        adv[ownOffset agentOf a sep b + movesBefore agentOf a (stored cb) k]? =
          some (ownAdvantage agentOf a (column a) (stored cb) gamma lam (fun r => v (ownOffset agentOf a sep b + r))
            (fun r => v' (ownOffset agentOf a sep b + r)) k) := by
  set bs := ownBlocks m agentOf a (column a) sep with hbs
  have hshown := ownBlocks_shown hr agentOf a (column a) hlast
  obtain ⟨ret, adv, h1, h2, -, h4⟩ := gae_blocks bs hshown v v' gamma lam isClose
  have hslots : bs.slots = indices.filter fun i => (m.data i).any (moveOf agentOf a) :=
    ownBlocks_slots hr hm hi agentOf a (column a)
  refine ⟨bs.slots, ret, adv, hslots, ?_, h2, ?_⟩
  · unfold agentAdvantages
    rw [ownIndices_eq, ← hslots]
    simp only
    rw [hbs, ownBlocks_rows hr]
    exact h1
  · intro b cb k t hb hk ht
    have hcb := List.mem_of_getElem? hb
    have hmine : moveOf agentOf a t = true := decide_eq_true ht
    have hkl := (List.getElem?_eq_some_iff.mp hk).1
    have hget := ownBlocks_get m agentOf a (column a) hb
    -- the move among the agent's own
    have hpos : ((stored cb).filter (moveOf agentOf a))[movesBefore agentOf a (stored cb) k]? = some t :=
      filter_getElem? _ _ _ _ hk hmine
    have hrl := (List.getElem?_eq_some_iff.mp hpos).1
    have hrl' : movesBefore agentOf a (stored cb) k < (ownMoves agentOf a (column a) (stored cb)).length := by
      rw [ownMoves, List.length_map]; exact hrl
    have hstart : bs.start b = ownOffset agentOf a sep b := ownBlocks_start m agentOf a (column a) sep b
    have h5 := (h4 b _ _ hget hrl').1
    rw [hstart] at h5
    constructor
    · have h6 : bs.slots[bs.start b + movesBefore agentOf a (stored cb) k]? =
          ((cb.idx.allIndices.map (· + startOf sep b)).filter fun i => (m.data i).any (moveOf agentOf a))[
            movesBefore agentOf a (stored cb) k]? :=
        flatten_getElem? bs Prod.fst (fun B => B.2.length) (fun B' hB' => (hshown B' hB').len) b _ hget _ hrl'
      rw [hstart] at h6
      obtain ⟨hd, -⟩ := mgrBlocks_data hr hb
      have h8 := congrArg (·[movesBefore agentOf a (stored cb) k]?) (own_data _ _ _ hd (moveOf agentOf a))
      simp only [List.getElem?_map (l := List.filter _ _), hpos, Option.map_some] at h8
      rw [h6]
      cases h9 : ((cb.idx.allIndices.map (· + startOf sep b)).filter fun i =>
          (m.data i).any (moveOf agentOf a))[movesBefore agentOf a (stored cb) k]? with
      | none => rw [h9] at h8; simp at h8
      | some i => rw [h9] at h8; exact ⟨i, rfl, by simpa using h8⟩
    · rw [h5]
      unfold gaeSum ownAdvantage
      have h6 : epLast Trans.done (ownMoves agentOf a (column a) (stored cb)) (movesBefore agentOf a (stored cb) k) + 1 =
          movesBefore agentOf a (stored cb) (epLast Trans.done (stored cb) k + 1) := by
        rw [ownMoves, epLast_map (ownReward (column a)) Trans.done (done_ownReward (column a))]
        exact epLast_own (stored cb) (moveOf agentOf a)
          (fun k t hk hd => decide_eq_true (hlast cb hcb k t hk (Or.inl hd))) k t hk hmine
      have h7 := le_epLast Trans.done (ownMoves agentOf a (column a) (stored cb)) hrl'
      simp only
      rw [← h6, show epLast Trans.done (ownMoves agentOf a (column a) (stored cb)) (movesBefore agentOf a (stored cb) k) + 1 -
        movesBefore agentOf a (stored cb) k = epLast Trans.done (ownMoves agentOf a (column a) (stored cb))
          (movesBefore agentOf a (stored cb) k) - movesBefore agentOf a (stored cb) k + 1 by omega]

/-- **C226** what happens to an agent that never makes the last stored move of an episode: the advantage of each of
its moves sums over all its later moves in the buffer, those of later episodes and of the environments after this one,
without a break. -/
theorem C226_crosses {m : Mgr O A (J → R)} {sep : List (Buf O A (J → R))} (hr : Reach m sep)
    (hm : m.opts.stackNum = 1 ∨ m.opts.sampleAvail = false) {draw : Nat → Nat} {rng : Nat → Nat → Nat}
    {indices : List Nat} (hi : m.sampleIndices draw rng (some 0) = .ok indices) (agentOf : O → Id) (column : Id → J)
    (a : Id) (hnever : ∀ cb ∈ sep, ∀ (k : Nat) (t : Trans O A (J → R)), (stored cb)[k]? = some t → agentOf t.obs = a →
      t.done = false ∧ k + 1 ≠ (stored cb).length) (v v' : Nat → R) (gamma lam : R) (isClose : Bool) :
    ∃ ret adv moves, moves = (sep.map fun cb => ownMoves agentOf a (column a) (stored cb)).flatten ∧
      agentAdvantages m agentOf column indices a v v' gamma lam isClose = some (ret, adv) ∧ adv.length = moves.length ∧
      ∀ p, p < moves.length → adv[p]? = some (∑ l ∈ Finset.range (moves.length - p), (gamma * lam) ^ l *
        (rewOf moves (p + l) + gamma * v' (p + l) - v (p + l))) := by
  set moves := (sep.map fun cb => ownMoves agentOf a (column a) (stored cb)).flatten with hmoves
  set bs := ownBlocks m agentOf a (column a) sep with hbs
  have hslots : bs.slots = indices.filter fun i => (m.data i).any (moveOf agentOf a) :=
    ownBlocks_slots hr hm hi agentOf a (column a)
  have hrows : bs.rows = moves.map rowOf := by
    rw [hmoves, List.map_flatten, List.map_map, hbs]
    unfold Blocks.rows ownBlocks
    rw [List.map_map]
    congr 1
    apply List.ext_getElem?
    intro k
    simp only [List.getElem?_map, List.getElem?_zipIdx]
    cases sep[k]? <;> rfl
  have hflags : ∀ i ∈ bs.slots, (ofMgr m).terminated i = false ∧ (ofMgr m).unfinished.contains i = false ∧
      (m.data i).any (fun t => t.done) = false ∧ (m.data i).isSome = true := by
    intro i hi'
    simp only [hbs, Blocks.slots, ownBlocks, List.map_map, List.mem_flatten, List.mem_map] at hi'
    obtain ⟨l, ⟨⟨cb, b⟩, hp, rfl⟩, hmem⟩ := hi'
    rw [List.mem_zipIdx_iff_getElem?] at hp
    simp only [Function.comp_apply] at hp hmem
    rw [List.mem_filter] at hmem
    obtain ⟨hmem, hmine⟩ := hmem
    obtain ⟨k, hk, he⟩ := List.getElem_of_mem hmem
    have he' := List.getElem?_eq_getElem hk
    rw [he] at he'
    have hs := mgrBlocks_shows hr _ (List.mem_of_getElem? (mgrBlocks_get hp))
    obtain ⟨hd, -⟩ := mgrBlocks_data hr hp
    have h1 := congrArg (·[k]?) hd
    simp only [List.getElem?_map (l := List.map _ _), he', Option.map_some] at h1
    cases hc : (stored cb)[k]? with
    | none => rw [List.getElem?_map, hc] at h1; simp at h1
    | some t =>
      rw [List.getElem?_map, hc] at h1
      simp only [Option.map_some, Option.some.injEq] at h1
      rw [h1] at hmine ⊢
      have ha : agentOf t.obs = a := by simpa [moveOf] using hmine
      obtain ⟨h2, h3⟩ := hnever cb (List.mem_of_getElem? hp) k t hc ha
      obtain ⟨-, h5⟩ := hs.ended k i t he' hc
      have h6 := hs.terminated k i he'
      refine ⟨?_, ?_, by simpa using h2, rfl⟩
      · rw [h6]
        simp only [termOf, hc, Option.map_some, Option.getD_some]
        revert h2; unfold Trans.done; cases t.terminated <;> simp
      · rw [Bool.eq_false_iff]
        intro h7
        exact h3 (h5.mp h7).1
  have hlen : bs.slots.length = moves.length := by
    have h1 := congrArg List.length (ownBlocks_rows hr agentOf a (column a))
    rw [← hbs, hrows, List.length_map] at h1
    rw [← h1]
    unfold agentRows
    have hall : ∀ (l : List Nat), (∀ i ∈ l, (m.data i).isSome = true) →
        (l.filterMap fun i => (m.data i).map fun t : Trans O A (J → R) =>
          (⟨t.rew (column a), t.terminated, t.truncated⟩ : BRow R)).length = l.length := by
      intro l hl
      induction l with
      | nil => rfl
      | cons i l ih =>
        obtain ⟨t, ht⟩ := Option.isSome_iff_exists.mp (hl i (by simp))
        simp [ht, ih (fun i hi => hl i (by simp [hi]))]
    exact (hall _ fun i hi => (hflags i hi).2.2.2).symm
  set n := moves.length with hn
  set slotOf : Nat → Nat := fun k => (bs.slots[k]?).getD 0 with hslot
  set rowF : Nat → BRow R := fun k => ((moves.map rowOf)[k]?).getD ⟨0, false, false⟩ with hrowF
  have hR : moves.map rowOf = rows n (fun k => (rowF k).rew) (fun k => (rowF k).terminated) (fun k => (rowF k).truncated) := by
    have := as_range (moves.map rowOf) ⟨0, false, false⟩
    rw [List.length_map] at this
    exact this
  have hS : bs.slots = (List.range n).map slotOf := by rw [← hlen]; exact as_range bs.slots 0
  have hslotMem : ∀ k, k < n → slotOf k ∈ bs.slots := by
    intro k hk
    rw [hS]
    exact List.mem_map.mpr ⟨k, List.mem_range.mpr hk, rfl⟩
  obtain ⟨ret, adv, h1, h2, -, h4⟩ := C33_gae (agentView (ofMgr m) (column a)) n (fun k => (rowF k).rew) v v'
    (fun k => (rowF k).terminated) (fun k => (rowF k).truncated) slotOf gamma lam isClose
  refine ⟨ret, adv, moves, rfl, ?_, h2, ?_⟩
  · unfold agentAdvantages
    rw [ownIndices_eq, ← hslots]
    simp only
    rw [ownBlocks_rows hr, ← hbs, hrows, hR, hlen, hS]
    exact h1
  · intro p hp
    have hdone : ∀ x ∈ moves, x.done = false := by
      intro x hx
      rw [hmoves] at hx
      simp only [List.mem_flatten, List.mem_map] at hx
      obtain ⟨l, ⟨cb, hcb, rfl⟩, hx⟩ := hx
      unfold ownMoves at hx
      obtain ⟨t, ht, rfl⟩ := List.mem_map.mp hx
      obtain ⟨ht1, ht2⟩ := List.mem_filter.mp ht
      obtain ⟨k, hk, he⟩ := List.getElem_of_mem ht1
      exact (hnever cb hcb k t (by rw [List.getElem?_eq_getElem hk, he]) (by simpa [moveOf] using ht2)).1
    have hends : endsAt (agentView (ofMgr m) (column a)) n (fun k => (rowF k).terminated) (fun k => (rowF k).truncated)
        slotOf = (List.range n).map fun _ => false := by
      apply List.map_congr_left
      intro k hk
      have hk' := List.mem_range.mp hk
      have h5 : (agentView (ofMgr m) (column a)).unfinished.contains (slotOf k) = false :=
        (hflags _ (hslotMem k hk')).2.1
      rw [h5]
      have h6 := hdone _ (List.getElem_mem (l := moves) hk')
      have h7 : rowF k = rowOf moves[k] := by
        simp only [hrowF, List.getElem?_map, List.getElem?_eq_getElem hk', Option.map_some, Option.getD_some]
      simp only [h7]
      simpa [rowOf, Trans.done] using h6
    have hep : epLast id ((List.range n).map fun _ => false) p = n - 1 := by
      unfold epLast
      have : (((List.range n).map fun _ => false).drop p).takeWhile (fun t => !id t) =
          ((List.range n).map fun _ => false).drop p := by
        rw [List.takeWhile_eq_self_iff]
        intro x hx
        have := List.mem_of_mem_drop hx
        simp only [List.mem_map] at this
        obtain ⟨_, _, rfl⟩ := this
        rfl
      rw [this, List.length_drop, List.length_map, List.length_range]
      omega
    have h5 := h4 p hp
    rw [hends, hep, show n - 1 - p + 1 = n - p by omega] at h5
    rw [h5]
    congr 1
    apply Finset.sum_congr rfl
    intro l hl
    have hl' := Finset.mem_range.mp hl
    have h6 : (agentView (ofMgr m) (column a)).terminated (slotOf (p + l)) = false :=
      (hflags _ (hslotMem (p + l) (by omega))).1
    have h7 : (rowF (p + l)).rew = rewOf moves (p + l) := by
      simp only [hrowF, List.getElem?_map, rewOf]
      cases moves[p + l]? <;> rfl
    rw [h6, h7]
    rfl

/-- The environment of the game. -/
theorem gameMgr_sep {sep : List (Buf Nat Nat (Nat → Int))} (h : Reach gameMgr sep) : ∀ cb ∈ sep,
    (stored cb).map (fun t => (t.obs, t.done, t.obsNext)) =
      [(10, false, some 11), (11, false, some 12), (12, false, some 13), (13, true, some 14), (20, false, some 21),
        (21, false, some 22)] := by
  rw [← C20_children h]
  decide +kernel

theorem gameMgr_at {sep : List (Buf Nat Nat (Nat → Int))} (h : Reach gameMgr sep) {cb : Buf Nat Nat (Nat → Int)}
    (hcb : cb ∈ sep) : (stored cb).length = 6 ∧ ∀ (k : Nat) (t : Trans Nat Nat (Nat → Int)), (stored cb)[k]? = some t →
      k < 6 ∧ t.obsNext = some (t.obs + 1) ∧ t.obs = (if k < 4 then 10 + k else 16 + k) ∧ t.done = decide (k = 3) := by
  have hs := gameMgr_sep h cb hcb
  have hl : (stored cb).length = 6 := by
    have := congrArg List.length hs
    simpa using this
  refine ⟨hl, ?_⟩
  intro k t hk
  have hk2 := congrArg (·[k]?) hs
  simp only [List.getElem?_map, hk, Option.map_some] at hk2
  have hlt := (List.getElem?_eq_some_iff.mp hk).1
  rw [hl] at hlt
  refine ⟨hlt, ?_⟩
  rcases k with _ | _ | _ | _ | _ | _ | k <;> simp at hk2
  all_goals first
    | (obtain ⟨h1, h2, h3⟩ := hk2; simp [h1, h2, h3])
    | omega

/-- `C225_turns_partial` applies: the agents move in turn, and after two turns it is the same agent's again. -/
example : ∃ sep, Reach gameMgr sep ∧ (∀ cb ∈ sep, Turns (· % 2) (fun x => (x + 1) % 2) (stored cb)) ∧
    (fun x => (x + 1) % 2)^[2] 0 = 0 := by
  obtain ⟨sep, h, -⟩ := gameMgr_reach
  refine ⟨sep, h, ?_, rfl⟩
  intro cb hcb
  obtain ⟨hl, hat⟩ := gameMgr_at h hcb
  constructor
  · intro t ht o ho
    obtain ⟨k, hk, he⟩ := List.getElem_of_mem ht
    obtain ⟨-, h1, -⟩ := hat k t (by rw [List.getElem?_eq_getElem hk, he])
    rw [h1] at ho
    cases ho
    simp only
    omega
  · intro k t t' hk hk' hd
    obtain ⟨h1, -, h2, h3⟩ := hat k t hk
    obtain ⟨h4, -, h5, -⟩ := hat (k + 1) t' hk'
    rw [h3] at hd
    have : k ≠ 3 := by simpa using hd
    simp only [h2, h5]
    split <;> split <;> omega

/-- `C226_partial` applies to agent 1, who makes the last move of the game (13) and the newest (21), `C226_crosses` to
agent 0. -/
example : ∃ sep, Reach gameMgr sep ∧ (∀ cb ∈ sep, MovesLast (· % 2) 1 (stored cb)) ∧
    ∀ cb ∈ sep, ∀ (k : Nat) (t : Trans Nat Nat (Nat → Int)), (stored cb)[k]? = some t → t.obs % 2 = 0 →
      t.done = false ∧ k + 1 ≠ (stored cb).length := by
  obtain ⟨sep, h, -⟩ := gameMgr_reach
  refine ⟨sep, h, ?_, ?_⟩
  · intro cb hcb k t hk he
    obtain ⟨hl, hat⟩ := gameMgr_at h hcb
    obtain ⟨h1, -, h2, h3⟩ := hat k t hk
    rw [h3, hl] at he
    have : k = 3 ∨ k = 5 := by simpa using he
    rcases this with rfl | rfl <;> rw [h2] <;> rfl
  · intro cb hcb k t hk he
    obtain ⟨hl, hat⟩ := gameMgr_at h hcb
    obtain ⟨h1, -, h2, h3⟩ := hat k t hk
    rw [h2] at he
    rw [h3, hl]
    have : k ≠ 3 ∧ k ≠ 5 := by split at he <;> omega
    exact ⟨by simpa using this.1, by omega⟩

/-- The advantages (discount 1, lambda 1, values 0) of agent 1: 1100 + 1300 for the move 11, the last move 13, and 21
in the next game. -/
example : ((agentAdvantages gameMgr (· % 2) id [0, 1, 2, 3, 4, 5] 1 (fun _ => 0) (fun _ => 0) 1 1 false).map Prod.snd) =
    some [1100 + 1300, 1300, 2100] := by decide +kernel

/-- **C226 (violated)** agent 0 makes the moves 10 and 12 of the first game and 20 of the second: the advantages of
its moves in the first game contain the reward of the second game. -/
theorem C226_violated :
    (agentAdvantages gameMgr (· % 2) id [0, 1, 2, 3, 4, 5] 0 (fun _ => 0) (fun _ => 0) 1 1 false).map Prod.snd =
      some [10 + 12 + 20, 12 + 20, 20] := by decide +kernel

/-- Two environments, each with a finished game of two moves. -/
def gameMgr2 : Mgr Nat Nat (Nat → Int) :=
  (Mgr.new [4, 4] {} : Mgr Nat Nat (Nat → Int)).addAll
    [([0, 1], [gameMove 10 false, gameMove 20 false]), ([0, 1], [gameMove 11 true, gameMove 21 true])]

/-- **C226 (violated)** also from one environment to the next: the advantage of the move 10 of the first environment
contains the reward of the move 20 of the second. -/
theorem C226_environments_violated :
    (agentAdvantages gameMgr2 (· % 2) id [0, 1, 4, 5] 0 (fun _ => 0) (fun _ => 0) 1 1 false).map Prod.snd =
      some [10 + 20, 20] := by decide +kernel

/-- The rewards of the moves of the others changed to `prize`, slot by slot. -/
def withPrizes (agentOf : O → Id) (a : Id) (prize : Nat → J → R) (m : Mgr O A (J → R)) : Mgr O A (J → R) :=
  { m with data := fun i => (m.data i).map fun t => if agentOf t.obs = a then t else { t with rew := prize i } }

/-- **C226** what an agent receives in the moves of the others does not enter its returns and advantages: they are the
same whatever it receives there. -/
theorem C226_lost (m : Mgr O A (J → R)) (agentOf : O → Id) (column : Id → J) (a : Id) (prize : Nat → J → R)
    (indices : List Nat) (v v' : Nat → R) (gamma lam : R) (isClose : Bool) :
    agentAdvantages (withPrizes agentOf a prize m) agentOf column indices a v v' gamma lam isClose =
      agentAdvantages m agentOf column indices a v v' gamma lam isClose := by
  have hdone : ∀ i, doneAt (withPrizes agentOf a prize m).data i = doneAt m.data i := by
    intro i
    simp only [doneAt, withPrizes]
    cases m.data i with
    | none => rfl
    | some t => simp only [Option.map_some]; split <;> rfl
  have hterm : ∀ i, terminatedAt (withPrizes agentOf a prize m).data i = terminatedAt m.data i := by
    intro i
    simp only [terminatedAt, withPrizes]
    cases m.data i with
    | none => rfl
    | some t => simp only [Option.map_some]; split <;> rfl
  have hunf : (withPrizes agentOf a prize m).unfinishedIndex = m.unfinishedIndex := by
    unfold Mgr.unfinishedIndex
    congr 1
    apply List.map_congr_left
    intro s _
    have : ∀ i, doneAt ((withPrizes agentOf a prize m).child s).data i = doneAt (m.child s).data i := by
      intro i
      simp only [Mgr.child, childOf, doneAt]
      by_cases hi : i < s.idx.maxsize
      · simp only [if_pos hi]
        exact hdone (s.offset + i)
      · simp only [if_neg hi]
    unfold Buf.unfinishedIndex
    simp only [this]
    rfl
  have hown : ownIndices agentOf (withPrizes agentOf a prize m).data indices a = ownIndices agentOf m.data indices a := by
    rw [ownIndices_eq, ownIndices_eq]
    apply List.filter_congr
    intro i _
    simp only [withPrizes]
    cases m.data i with
    | none => rfl
    | some t =>
      simp only [Option.map_some, Option.any_some]
      split <;> rfl
  have hrows : agentRows (withPrizes agentOf a prize m).data (ownIndices agentOf m.data indices a) (column a) =
      agentRows m.data (ownIndices agentOf m.data indices a) (column a) := by
    apply List.filterMap_congr
    intro i hi
    rw [ownIndices_eq, List.mem_filter] at hi
    simp only [withPrizes]
    cases hd : m.data i with
    | none => rfl
    | some t =>
      rw [hd] at hi
      have ha : agentOf t.obs = a := by simpa [moveOf] using hi.2
      simp only [Option.map_some, if_pos ha]
  have hterm' : (ofMgr (withPrizes agentOf a prize m)).terminated = (ofMgr m).terminated := funext hterm
  have hunf' : (ofMgr (withPrizes agentOf a prize m)).unfinished = (ofMgr m).unfinished := by
    simp only [ofMgr, hunf]
  unfold agentAdvantages
  simp only [hown, hrows]
  simp only [computeEpisodicReturn, nextValues, valueMask, agentView, hterm', hunf']

/-- A prize of 99 for agent 0 in the moves of agent 1: the advantages are those of `C226_violated`. -/
example : ((withPrizes (· % 2) 0 (fun _ _ => 99) gameMgr).data 3).map (fun t => t.rew 0) = some 99 ∧
    (gameMgr.data 3).map (fun t => t.rew 0) = some 13 := by decide +kernel

end Verif.MultiAgent
