import Verif.Lemmas.MultiAgent

/-! Property C43: multi-agent dispatch. -/

set_option linter.unusedSectionVars false

namespace Verif.MultiAgent

variable {Id Row Act R Out : Type} [DecidableEq Id] [Zero R]

theorem rank_eq (batch : List (MRow Id Row R)) (a : Id) (i : Nat) :
    (((batch.map MRow.agent).take i).filter fun b => b = a).length = rank batch a i := by
  unfold rank ownRows
  rw [← List.map_take, List.filter_map, List.length_map]
  rfl

theorem own_length (batch : List (MRow Id Row R)) (a : Id) :
    (agentIndex (batch.map MRow.agent) a).length = (ownRows batch a).length := by
  rw [agentIndex_length, ownRows, List.filter_map, List.length_map]
  rfl

theorem rank_index (batch : List (MRow Id Row R)) (i : Nat) (r : MRow Id Row R) (hr : batch[i]? = some r) :
    (agentIndex (batch.map MRow.agent) r.agent)[rank batch r.agent i]? = some i := by
  rw [← rank_eq]
  exact agentIndex_rank _ _ _ (by rw [List.getElem?_map, hr]; rfl)

/-- **C43** `forward`: for agents with distinct names, policies that return one action per row, and rows of known
agents in any interleaving, row `i` of the result is what its agent's policy, applied to exactly its own rows with
its own reward column, returned at the place of row `i` among them. -/
theorem C43_forward (agents : List (Id × (List (Row × R) → List Act))) (column : Id → Nat)
    (batch : List (MRow Id Row R)) (hnames : (agents.map Prod.fst).Nodup)
    (hknown : ∀ r ∈ batch, r.agent ∈ agents.map Prod.fst)
    (hpolicy : ∀ p ∈ agents, ∀ rows, (p.2 rows).length = rows.length) :
    ∃ out, forward agents column batch = some out ∧ out.length = batch.length ∧
      ∀ (i : Nat) (r : MRow Id Row R) (f : List (Row × R) → List Act), batch[i]? = some r → (r.agent, f) ∈ agents →
        (f (view column batch r.agent)).length = (ownRows batch r.agent).length ∧
        out[i]? = (f (view column batch r.agent))[rank batch r.agent i]? := by
  set ids := batch.map MRow.agent with hids
  have hgather : ∀ a, (gather batch (agentIndex ids a)).map (fun r => (r.data, r.rew.getD (column a) 0)) =
      view column batch a := by
    intro a
    rw [hids, gather_own]
    rfl
  have hviewlen : ∀ a, (view column batch a).length = (agentIndex ids a).length := by
    intro a
    rw [hids, own_length, view, List.length_map]
  set Y : (Id × (List (Row × R) → List Act)) → List Act → List Act := fun p _ => p.2 (view column batch p.1) with hY
  -- the holder has one entry per row
  have hhold : ((dispatch agents column batch).map Prod.snd).flatten.length = ids.length := by
    rw [List.length_flatten, List.map_map, dispatch, List.map_map, ← sum_counts (agents.map Prod.fst) ids hnames
      (by intro b hb; rw [hids, List.mem_map] at hb; obtain ⟨r, hr, rfl⟩ := hb; exact hknown r hr), List.map_map]
    congr 1
    apply List.map_congr_left
    intro p hp
    simp only [Function.comp]
    rw [← agentIndex_length]
    by_cases he : agentIndex ids p.1 = []
    · simp [← hids, he]
    · simp only [← hids, if_neg he]
      rw [hgather, hpolicy p hp, hviewlen]
  have hfold : forward agents column batch =
      agents.foldl (writeStep ids Y Prod.fst) (some ((dispatch agents column batch).map Prod.snd).flatten) := by
    unfold forward
    simp only
    conv_lhs => rw [dispatch, List.foldl_map]
    congr 1
    funext h p
    unfold writeStep
    congr 1
    funext h
    by_cases he : agentIndex ids p.1 = []
    · simp only [← hids, if_pos he]
      simp [scatter]
    · simp only [← hids, if_neg he]
      rw [hgather]
  obtain ⟨out, h1, h2, h3, _⟩ := writes_spec ids Y Prod.fst agents hnames _ hhold
    (by intro p hp h _; rw [hY]; simp only; rw [hpolicy p hp, hviewlen])
    (by intro p _ h h' _; rfl)
  refine ⟨out, hfold.trans h1, by rw [h2, hids, List.length_map], ?_⟩
  intro i r f hr hf
  refine ⟨?_, ?_⟩
  · have := hpolicy _ hf (view column batch r.agent)
    rw [this, hviewlen, hids, own_length]
  · exact h3 (r.agent, f) hf _ i (rank_index batch i r hr)

/-- **C43** in particular, with policies that treat rows separately, every row gets its own agent's action for
that row. -/
theorem C43_rowwise (agents : List (Id × (Row × R → Act))) (column : Id → Nat) (batch : List (MRow Id Row R))
    (hnames : (agents.map Prod.fst).Nodup) (hknown : ∀ r ∈ batch, r.agent ∈ agents.map Prod.fst) :
    ∃ out, forward (agents.map fun p => (p.1, List.map p.2)) column batch = some out ∧ out.length = batch.length ∧
      ∀ (i : Nat) (r : MRow Id Row R) (g : Row × R → Act), batch[i]? = some r → (r.agent, g) ∈ agents →
        out[i]? = some (g (r.data, r.rew.getD (column r.agent) 0)) := by
  have hn : (agents.map fun p => (p.1, List.map p.2)).map Prod.fst = agents.map Prod.fst := by simp [Function.comp_def]
  obtain ⟨out, h1, h2, h3⟩ := C43_forward (agents.map fun p => (p.1, List.map p.2)) column batch (by rw [hn]; exact hnames)
    (by rw [hn]; exact hknown) (by
      intro p hp rows
      rw [List.mem_map] at hp
      obtain ⟨q, _, rfl⟩ := hp
      simp)
  refine ⟨out, h1, h2, ?_⟩
  intro i r g hr hg
  obtain ⟨_, h4⟩ := h3 i r (List.map g) hr (List.mem_map.mpr ⟨_, hg, rfl⟩)
  rw [h4, view, List.map_map, List.getElem?_map]
  have : (ownRows batch r.agent)[rank batch r.agent i]? = some r := by
    rw [← gather_own]
    have hk := rank_index batch i r hr
    have hall : ∀ j ∈ agentIndex (batch.map MRow.agent) r.agent, ∃ x, batch[j]? = some x := by
      intro j hj
      have := agentIndex_lt hj
      rw [List.length_map] at this
      exact ⟨_, List.getElem?_eq_getElem this⟩
    generalize agentIndex (batch.map MRow.agent) r.agent = idx at hk hall
    generalize rank batch r.agent i = k at hk
    clear h3 h4
    induction idx generalizing k with
    | nil => simp at hk
    | cons j idx ih =>
      obtain ⟨x, hx⟩ := hall j (by simp)
      unfold gather
      rw [List.filterMap_cons_some hx]
      cases k with
      | zero =>
        simp only [List.getElem?_cons_zero, Option.some.injEq] at hk ⊢
        subst hk
        rw [hr] at hx
        exact (Option.some.inj hx).symm
      | succ k =>
        simp only [List.getElem?_cons_succ] at hk ⊢
        exact ih (fun j hj => hall j (by simp [hj])) k hk
  rw [this]
  rfl

/-- What agent `a`'s `process_fn` has to be called with. -/
def expectedArgs (column : Id → Nat) (batch : List (MRow Id Row R)) (indices : List Nat) (bufferRew : List (List R))
    (a : Id) : ProcessArgs Row R where
  rows := view column batch a
  bufferRew := bufferRew.map fun r => r.getD (column a) 0
  indices := ownOf batch indices a

theorem processLoop_spec (column : Id → Nat) (batch : List (MRow Id Row R)) (indices : List Nat)
    (hlen : batch.length = indices.length) (bufferRew : List (List R))
    (agents : List (Id × (ProcessArgs Row R → Option Out))) (rew : BufRew R)
    (hok : ∀ p ∈ agents, ownRows batch p.1 ≠ [] → (p.2 (expectedArgs column batch indices bufferRew p.1)).isSome) :
    (processLoop column batch indices bufferRew agents rew).2 = some (agents.map fun p =>
      (p.1, if ownRows batch p.1 = [] then none else p.2 (expectedArgs column batch indices bufferRew p.1))) := by
  induction agents generalizing rew with
  | nil => rfl
  | cons p agents ih =>
    obtain ⟨a, f⟩ := p
    have hempty : agentIndex (batch.map MRow.agent) a = [] ↔ ownRows batch a = [] := by
      rw [← List.length_eq_zero_iff, own_length, List.length_eq_zero_iff]
    have ih' := fun rew => ih rew (fun p hp => hok p (by simp [hp]))
    rw [processLoop]
    by_cases he : ownRows batch a = []
    · simp only [if_pos (hempty.mpr he), ih', List.map_cons, if_pos he, Option.map_some]
    · simp only [if_neg (fun h => he (hempty.mp h)), List.map_cons, if_neg he]
      have h1 := hok (a, f) (by simp) he
      have h2 : f ⟨(gather batch (agentIndex (batch.map MRow.agent) a)).map fun r => (r.data, r.rew.getD (column a) 0),
        bufferRew.map fun r => r.getD (column a) 0, gather indices (agentIndex (batch.map MRow.agent) a)⟩ =
          f (expectedArgs column batch indices bufferRew a) := by
        rw [gather_own, gather_ownOf _ _ hlen]
        rfl
      rw [h2]
      simp only at h1
      cases hf : f (expectedArgs column batch indices bufferRew a) with
      | none => rw [hf] at h1; simp at h1
      | some out => simp only [ih', Option.map_some]

/-- **C43** `process_fn`: if no agent's `process_fn` raises, each agent with rows gets exactly its own rows in
order, with its own reward column, its own buffer indices, and the buffer showing its own reward column meanwhile;
agents without rows get an empty batch; afterwards the buffer's rewards are what they were. -/
theorem C43_process_fn (column : Id → Nat) (batch : List (MRow Id Row R)) (indices : List Nat)
    (hlen : batch.length = indices.length) (bufferRew : List (List R))
    (agents : List (Id × (ProcessArgs Row R → Option Out)))
    (hok : ∀ p ∈ agents, ownRows batch p.1 ≠ [] → (p.2 (expectedArgs column batch indices bufferRew p.1)).isSome) :
    processFn agents column batch indices bufferRew = (.full bufferRew, some (agents.map fun p =>
      (p.1, if ownRows batch p.1 = [] then none else p.2 (expectedArgs column batch indices bufferRew p.1)))) := by
  have h := processLoop_spec column batch indices hlen bufferRew agents .empty hok
  unfold processFn
  generalize processLoop column batch indices bufferRew agents .empty = res at h
  obtain ⟨rew, r⟩ := res
  simp only at h
  subst h
  rfl

/-- **C43** whenever `process_fn` returns, the buffer's rewards are restored. (When an agent's `process_fn` raises
they are not: see the example below.) -/
theorem C43_restored (column : Id → Nat) (batch : List (MRow Id Row R)) (indices : List Nat) (bufferRew : List (List R))
    (agents : List (Id × (ProcessArgs Row R → Option Out))) (results : List (Id × Option Out))
    (h : (processFn agents column batch indices bufferRew).2 = some results) :
    (processFn agents column batch indices bufferRew).1 = .full bufferRew := by
  unfold processFn at h ⊢
  generalize processLoop column batch indices bufferRew agents .empty = res at h
  obtain ⟨rew, r⟩ := res
  cases r with
  | none => simp at h
  | some r => rfl

/-- **C43** an exception in an agent's `process_fn` is passed on, but leaves that agent's column in the buffer. -/
theorem C43_raise_leaves_column (column : Id → Nat) (batch : List (MRow Id Row R)) (indices : List Nat)
    (hlen : batch.length = indices.length) (bufferRew : List (List R)) (a : Id) (f : ProcessArgs Row R → Option Out)
    (rest : List (Id × (ProcessArgs Row R → Option Out))) (hrows : ownRows batch a ≠ [])
    (hraise : f (expectedArgs column batch indices bufferRew a) = none) :
    processFn ((a, f) :: rest) column batch indices bufferRew =
      (.column (bufferRew.map fun r => r.getD (column a) 0), none) := by
  have hempty : agentIndex (batch.map MRow.agent) a ≠ [] := by
    rw [← List.length_pos_iff, own_length, List.length_pos_iff]
    exact hrows
  have h2 : f ⟨(gather batch (agentIndex (batch.map MRow.agent) a)).map fun r => (r.data, r.rew.getD (column a) 0),
        bufferRew.map fun r => r.getD (column a) 0, gather indices (agentIndex (batch.map MRow.agent) a)⟩ = none := by
    rw [gather_own, gather_ownOf _ _ hlen]
    exact hraise
  unfold processFn
  rw [processLoop]
  simp only [if_neg hempty, h2]

/-- **C43** `exploration_noise`: rows of agents with a policy get that policy's noisy action, computed from exactly
that agent's actions and rows; rows of other agents are left alone. -/
theorem C43_noise (agents : List (Id × (List Act → List (MRow Id Row R) → List Act))) (batch : List (MRow Id Row R))
    (act : List Act) (hlen : batch.length = act.length) (hnames : (agents.map Prod.fst).Nodup)
    (hpolicy : ∀ p ∈ agents, ∀ acts rows, acts.length = rows.length → (p.2 acts rows).length = rows.length) :
    ∃ out, explorationNoise agents batch act = some out ∧ out.length = act.length ∧
      (∀ (i : Nat) (r : MRow Id Row R) (f : List Act → List (MRow Id Row R) → List Act), batch[i]? = some r →
        (r.agent, f) ∈ agents → out[i]? = (f (ownOf batch act r.agent) (ownRows batch r.agent))[rank batch r.agent i]?) ∧
      ∀ (i : Nat) (r : MRow Id Row R), batch[i]? = some r → r.agent ∉ agents.map Prod.fst → out[i]? = act[i]? := by
  set ids := batch.map MRow.agent with hids
  set Y : (Id × (List Act → List (MRow Id Row R) → List Act)) → List Act → List Act :=
    fun p h => p.2 (gather h (agentIndex ids p.1)) (gather batch (agentIndex ids p.1)) with hY
  have hgl : ∀ (h : List Act) (a : Id), h.length = ids.length → (gather h (agentIndex ids a)).length = (agentIndex ids a).length := by
    intro h a hh
    unfold gather
    have : ∀ i ∈ agentIndex ids a, (h[i]?).isSome := by
      intro i hi
      have := agentIndex_lt hi
      simp [hh, this]
    generalize agentIndex ids a = idx at this
    induction idx with
    | nil => rfl
    | cons i idx ih =>
      obtain ⟨v, hv⟩ := Option.isSome_iff_exists.mp (this i (by simp))
      rw [List.filterMap_cons_some hv, List.length_cons, List.length_cons, ih (fun i hi => this i (by simp [hi]))]
  have hbl : ∀ a, (gather batch (agentIndex ids a)).length = (agentIndex ids a).length := by
    intro a
    rw [hids, gather_own, own_length]
  obtain ⟨out, h1, h2, h3, h4⟩ := writes_spec ids Y Prod.fst agents hnames act (by rw [hids, List.length_map, hlen])
    (by intro p hp h hh; rw [hY]; simp only; rw [hpolicy p hp _ _ (by rw [hgl h _ hh, hbl]), hbl])
    (by intro p _ h h' hh; rw [hY]; simp only; rw [hh])
  refine ⟨out, h1, by rw [h2, hids, List.length_map, hlen], ?_, ?_⟩
  · intro i r f hr hf
    have := h3 (r.agent, f) hf _ i (rank_index batch i r hr)
    rw [this, hY]
    simp only
    rw [hids, gather_own, gather_ownOf _ _ hlen]
  · intro i r hr hn
    exact h4 i r.agent (by rw [hids, List.getElem?_map, hr]; rfl) hn

/-- Three agents, one without rows; the policies return 100, 200 or 300 plus data plus reward. -/
def exBatch : List (MRow Nat Int Int) :=
  [⟨2, 5, [1, 2, 3]⟩, ⟨1, 6, [10, 20, 30]⟩, ⟨2, 7, [4, 5, 6]⟩, ⟨2, 8, [0, 0, 0]⟩, ⟨1, 9, [7, 8, 9]⟩]

example : forward [(1, List.map fun r : Int × Int => 100 + r.1 + r.2), (3, List.map fun r => 300 + r.1 + r.2),
    (2, List.map fun r => 200 + r.1 + r.2)] (fun a => a - 1) exBatch = some [207, 116, 212, 208, 116] := by decide

example : processFn [((1 : Nat), fun x : ProcessArgs Int Int => some (x.rows, x.bufferRew, x.indices)), (3, fun _ => none),
    (2, fun x => some (x.rows, x.bufferRew, x.indices))] (fun a => a - 1) exBatch [40, 41, 42, 43, 44] [[1, 2, 3], [4, 5, 6]] =
    (.full [[1, 2, 3], [4, 5, 6]], some [(1, some ([(6, 10), (9, 7)], [1, 4], [41, 44])), (3, none),
      (2, some ([(5, 2), (7, 5), (8, 0)], [2, 5], [40, 42, 43]))]) := rfl

/-- Agent 2's `process_fn` raises: the buffer is left with its column. -/
example : (processFn [(1, fun x : ProcessArgs Int Int => some x.rows), (2, fun _ => none)] (fun a => a - 1) exBatch
    [40, 41, 42, 43, 44] [[1, 2, 3], [4, 5, 6]]).1 = .column [2, 5] := by decide

/-- A row of an unknown agent: the concatenated holder is too short. -/
example : forward [(1, List.map fun r : Int × Int => r.1)] (fun a => a - 1) exBatch = none := by decide

end Verif.MultiAgent
