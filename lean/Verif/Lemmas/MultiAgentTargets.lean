import Verif.Lemmas.MultiAgent
import Verif.Props.Returns
import Verif.Model.MultiAgentTargets
import Verif.Spec.MultiAgentTargets
import Mathlib.Algebra.Ring.Pi
import Mathlib.Data.List.TakeWhile

/-! Lemmas for the targets and advantages of several agents. -/

set_option linter.unusedSectionVars false

namespace Verif.MultiAgent

open Verif.Buffer Verif.Spec Verif.Returns

variable {Id J O A R : Type} [DecidableEq Id] [CommRing R]

theorem ownIndices_eq (agentOf : O → Id) (data : Nat → Option (Trans O A (J → R))) (indices : List Nat) (a : Id) :
    ownIndices agentOf data indices a = indices.filter fun i => (data i).any (moveOf agentOf a) := by
  have h := gather_agentIndex (indices.map fun i => ((data i).map fun t => agentOf t.obs, i)) (some a)
  have h1 : (indices.map fun i => ((data i).map fun t => agentOf t.obs, i)).map Prod.snd = indices := by
    simp [Function.comp_def]
  have h2 : (indices.map fun i => ((data i).map fun t => agentOf t.obs, i)).map Prod.fst = agentIds agentOf data indices := by
    simp [Function.comp_def, agentIds]
  rw [h1, h2] at h
  unfold ownIndices
  rw [h, List.filter_map, List.map_map]
  simp only [Function.comp_def, List.map_id']
  apply List.filter_congr
  intro i _
  cases data i <;> simp [moveOf]

theorem epLast_map {S : Type} (f : S → Trans O A R) (done : S → Bool) (hf : ∀ t, (f t).done = done t) (c : List S) (k : Nat) :
    epLast Trans.done (c.map f) k = epLast done c k := by
  unfold epLast
  rw [← List.map_drop, List.takeWhile_map, List.length_map, List.length_map]
  congr 4
  funext t
  simp [Function.comp, hf]

theorem done_ownReward (j : J) (t : Trans O A (J → R)) : (ownReward j t).done = t.done := rfl

theorem rewOf_own (c : List (Trans O A (J → R))) (j : J) (k : Nat) : rewOf (c.map (ownReward j)) k = rewOf c k j := by
  unfold rewOf
  rw [List.getElem?_map]
  cases c[k]? <;> rfl

theorem termOf_own (c : List (Trans O A (J → R))) (j : J) (k : Nat) : termOf (c.map (ownReward j)) k = termOf c k := by
  unfold termOf
  rw [List.getElem?_map]
  cases c[k]? <;> rfl

theorem shows_column {w : View (J → R)} {slots : List Nat} {c : List (Trans O A (J → R))} (h : Shows w slots c) (j : J) :
    Shows (agentView w j) slots (c.map (ownReward j)) := by
  refine ⟨⟨by rw [List.length_map]; exact h.len, ?_, ?_, ?_⟩, ?_⟩
  · intro k i hi
    rw [rewOf_own]
    exact congrFun (h.rew k i hi) j
  · intro k i hi
    rw [termOf_own]
    exact h.terminated k i hi
  · intro k i t hi ht
    rw [List.getElem?_map, Option.map_eq_some_iff] at ht
    obtain ⟨t', ht', rfl⟩ := ht
    rw [List.length_map]
    exact h.ended k i t' hi ht'
  · intro k i l hi
    rw [epLast_map (ownReward j) Trans.done (done_ownReward j)]
    exact h.next k i l hi

theorem nstepLen_own (c : List (Trans O A (J → R))) (j : J) (N k : Nat) :
    nstepLen (c.map (ownReward j)) N k = nstepLen c N k := by
  unfold nstepLen
  rw [epLast_map (ownReward j) Trans.done (done_ownReward j)]

theorem own_data {S : Type} (slots : List Nat) (c : List S) (data : Nat → Option S) (hd : slots.map data = c.map some)
    (mine : S → Bool) : (slots.filter fun i => (data i).any mine).map data = (c.filter mine).map some := by
  have h1 : (slots.map data).filter (fun o => o.any mine) = (c.map some).filter fun o => o.any mine := by rw [hd]
  rw [List.filter_map, List.filter_map] at h1
  simpa [Function.comp_def] using h1

theorem filter_getElem? {S : Type} (c : List S) (mine : S → Bool) (k : Nat) (t : S) (hk : c[k]? = some t)
    (ht : mine t = true) : (c.filter mine)[(c.take k).countP mine]? = some t := by
  induction c generalizing k with
  | nil => simp at hk
  | cons x c ih =>
    cases k with
    | zero =>
      simp only [List.getElem?_cons_zero, Option.some.injEq] at hk
      subst hk
      simp [ht]
    | succ k =>
      rw [List.getElem?_cons_succ] at hk
      have := ih k hk
      cases hx : mine x <;> simp [hx, this]

/-- The rows of one agent in a block. -/
theorem own_shown {w : View (J → R)} {slots : List Nat} {c : List (Trans O A (J → R))} (h : Shown w slots c)
    (hnd : slots.Nodup) (data : Nat → Option (Trans O A (J → R))) (hd : slots.map data = c.map some) (j : J)
    (mine : Trans O A (J → R) → Bool)
    (hlast : ∀ (k : Nat) (t : Trans O A (J → R)), c[k]? = some t → k + 1 = c.length → mine t = true) :
    Shown (agentView w j) (slots.filter fun i => (data i).any mine) ((c.filter mine).map (ownReward j)) := by
  have hmap : (slots.filter fun i => (data i).any mine).map data = (c.filter mine).map some :=
    own_data slots c data hd mine
  have hat : ∀ (k i : Nat), (slots.filter fun i => (data i).any mine)[k]? = some i →
      ∃ (k' : Nat) (t : Trans O A (J → R)), (c.filter mine)[k]? = some t ∧ slots[k']? = some i ∧ c[k']? = some t := by
    intro k i hi
    have h1 := congrArg (·[k]?) hmap
    simp only [List.getElem?_map, hi, Option.map_some] at h1
    cases ht : (c.filter mine)[k]? with
    | none => rw [ht] at h1; simp at h1
    | some t =>
      rw [ht] at h1
      simp only [Option.map_some, Option.some.injEq] at h1
      have hm : i ∈ slots := (List.mem_filter.mp (List.mem_of_getElem? hi)).1
      obtain ⟨k', hk', he⟩ := List.getElem_of_mem hm
      have h2 := congrArg (·[k']?) hd
      have h3 : slots[k']? = some i := by rw [List.getElem?_eq_getElem hk', he]
      simp only [List.getElem?_map, h3, Option.map_some, h1] at h2
      refine ⟨k', t, rfl, h3, ?_⟩
      cases hc : c[k']? with
      | none => rw [hc] at h2; simp at h2
      | some t' => rw [hc] at h2; simp only [Option.map_some, Option.some.injEq] at h2; rw [h2]
  refine ⟨?_, ?_, ?_, ?_⟩
  · have := congrArg List.length hmap
    simpa using this
  · intro k i hi
    obtain ⟨k', t, h1, h2, h3⟩ := hat k i hi
    rw [rewOf_own]
    have := h.rew k' i h2
    simp only [agentView, this, rewOf, h1, h3]
  · intro k i hi
    obtain ⟨k', t, h1, h2, h3⟩ := hat k i hi
    rw [termOf_own]
    have := h.terminated k' i h2
    simp only [agentView, this, termOf, h1, h3]
  · intro k i t hi ht
    obtain ⟨k', t', h1, h2, h3⟩ := hat k i hi
    rw [List.getElem?_map, h1, Option.map_some, Option.some.injEq] at ht
    subst ht
    obtain ⟨h4, h5⟩ := h.ended k' i t' h2 h3
    refine ⟨h4, ?_⟩
    show w.unfinished.contains i = true ↔ _
    rw [h5, List.length_map]
    show (k' + 1 = c.length ∧ t'.done = false) ↔ (k + 1 = (c.filter mine).length ∧ t'.done = false)
    refine and_congr_left fun _ => ?_
    have hkl := (List.getElem?_eq_some_iff.mp h1).1
    have hkl' := (List.getElem?_eq_some_iff.mp h3).1
    -- the newest transition is the last of the agent's
    obtain ⟨init, x, hx⟩ : ∃ init x, slots = init ++ [x] := by
      have : slots ≠ [] := by intro h0; rw [h0] at h2; simp at h2
      exact ⟨_, _, (List.dropLast_append_getLast this).symm⟩
    have hlen := h.len
    have hxm : (data x).any mine = true := by
      have hx1 : slots[init.length]? = some x := by rw [hx]; simp
      have h6 := congrArg (·[init.length]?) hd
      simp only [List.getElem?_map, hx1, Option.map_some] at h6
      have hcl : init.length + 1 = c.length := by rw [← hlen, hx]; simp
      rw [List.getElem?_eq_getElem (by omega), Option.map_some, Option.some.injEq] at h6
      rw [h6]
      exact hlast init.length _ (List.getElem?_eq_getElem (by omega)) hcl
    have hf : (slots.filter fun i => (data i).any mine) = (init.filter fun i => (data i).any mine) ++ [x] := by
      rw [hx, List.filter_append]; simp [hxm]
    have hfl : (c.filter mine).length = (init.filter fun i => (data i).any mine).length + 1 := by
      have := congrArg List.length hmap
      rw [hf] at this
      simpa using this.symm
    have hcl : init.length + 1 = c.length := by rw [← hlen, hx]; simp
    have hfn := hnd.filter fun i => (data i).any mine
    have hx1 : slots[init.length]? = some x := by rw [hx]; simp
    have hx2 : (slots.filter fun i => (data i).any mine)[(init.filter fun i => (data i).any mine).length]? = some x := by
      rw [hf]; simp
    constructor
    · intro he
      have : k' = init.length := by omega
      rw [this, hx1] at h2
      cases h2
      have := (List.getElem?_inj (List.getElem?_eq_some_iff.mp hi).1 hfn).mp (hi.trans hx2.symm)
      omega
    · intro he
      have : k = (init.filter fun i => (data i).any mine).length := by omega
      rw [this, hx2] at hi
      cases hi
      have := (List.getElem?_inj (List.getElem?_eq_some_iff.mp h2).1 hnd).mp (h2.trans hx1.symm)
      omega

/-- The episode of a move among the moves of the agent, if the agent makes the last move of every episode. -/
theorem epLast_own {S : Type} (c : List (Trans O A S)) (mine : Trans O A S → Bool)
    (hlast : ∀ (k : Nat) (t : Trans O A S), c[k]? = some t → t.done = true → mine t = true)
    (k : Nat) (t : Trans O A S) (hk : c[k]? = some t) (ht : mine t = true) :
    epLast Trans.done (c.filter mine) ((c.take k).countP mine) + 1 = (c.take (epLast Trans.done c k + 1)).countP mine := by
  have hkl := (List.getElem?_eq_some_iff.mp hk).1
  have hsplit : c.filter mine = (c.take k).filter mine ++ (c.drop k).filter mine := by
    rw [← List.filter_append, List.take_append_drop]
  have hr : (c.take k).countP mine = ((c.take k).filter mine).length := List.countP_eq_length_filter
  have hdrop : (c.filter mine).drop ((c.take k).countP mine) = (c.drop k).filter mine := by
    rw [hsplit, hr, List.drop_left]
  have htk : t ∈ (c.drop k).filter mine := by
    rw [List.mem_filter]
    refine ⟨?_, ht⟩
    have : (c.drop k)[0]? = some t := by rw [List.getElem?_drop]; simpa using hk
    exact List.mem_of_getElem? this
  have hpos := List.length_pos_of_mem htk
  have hlen : (c.filter mine).length = (c.take k).countP mine + ((c.drop k).filter mine).length := by
    rw [hsplit, hr, List.length_append]
  set ep := (c.drop k).takeWhile fun t => !t.done with hep
  set rest := (c.drop k).dropWhile fun t => !t.done with hrest
  have hd : c.drop k = ep ++ rest := (List.takeWhile_append_dropWhile).symm
  have hepn : ∀ x ∈ ep, x.done = false := by
    intro x hx
    have := List.mem_takeWhile_imp hx
    simpa using this
  have hdl : (c.drop k).length = c.length - k := List.length_drop
  have hd2 : c.length - k = ep.length + rest.length := by rw [← hdl, hd, List.length_append]
  unfold epLast
  rw [hdrop, hlen, ← hep]
  cases hrc : rest with
  | nil =>
    rw [hrc, List.append_nil] at hd
    rw [hrc] at hd2
    simp only [List.length_nil, Nat.add_zero] at hd2
    have h1 : ((c.drop k).filter mine).takeWhile (fun t => !t.done) = (c.drop k).filter mine := by
      rw [List.takeWhile_eq_self_iff]
      intro x hx
      rw [List.mem_filter, hd] at hx
      simp [hepn x hx.1]
    have h2 : min (k + ep.length) (c.length - 1) + 1 = c.length := by omega
    rw [h1, h2, List.take_length, List.countP_eq_length_filter (l := c), hlen]
    omega
  | cons x rest' =>
    have hxd : x.done = true := by
      have : rest.head? = some x := by rw [hrc]; rfl
      have h3 := List.head?_dropWhile_not (p := fun t : Trans O A S => !t.done) (l := c.drop k)
      rw [← hrest, this] at h3
      simpa using h3
    rw [hrc] at hd hd2
    simp only [List.length_cons] at hd2
    have hxc : c[k + ep.length]? = some x := by
      have : (c.drop k)[ep.length]? = some x := by rw [hd]; simp
      rwa [List.getElem?_drop] at this
    have hxm := hlast _ x hxc hxd
    have h1 : ((c.drop k).filter mine).takeWhile (fun t => !t.done) = ep.filter mine := by
      rw [hd, List.filter_append, List.filter_cons_of_pos hxm, List.takeWhile_append_of_pos]
      · simp [hxd]
      · intro y hy
        simp [hepn y (List.mem_filter.mp hy).1]
    have h2 : min (k + ep.length) (c.length - 1) + 1 = k + (ep.length + 1) := by omega
    have h3 : (c.drop k).filter mine = ep.filter mine ++ x :: rest'.filter mine := by
      rw [hd, List.filter_append, List.filter_cons_of_pos hxm]
    have h4 : c.take (k + (ep.length + 1)) = c.take k ++ (ep ++ [x]) := by
      rw [List.take_add, hd]
      congr 1
      rw [show ep ++ x :: rest' = (ep ++ [x]) ++ rest' by simp, List.take_left' (by simp)]
    rw [h1, h2, h4, List.countP_append, List.countP_append, List.countP_eq_length_filter (l := ep), h3]
    simp only [List.length_append, List.length_cons, List.countP_cons, List.countP_nil, hxm, if_true]
    omega

/-! ### The blocks of one agent -/

theorem mgrBlocks_data {m : Mgr O A (J → R)} {sep : List (Buf O A (J → R))} (hr : Reach m sep) {b : Nat}
    {cb : Buf O A (J → R)} (hb : sep[b]? = some cb) :
    (cb.idx.allIndices.map (· + startOf sep b)).map m.data = (stored cb).map some ∧
      (cb.idx.allIndices.map (· + startOf sep b)).Nodup := by
  obtain ⟨g, hg⟩ := hr.inv.hist cb (List.mem_of_getElem? hb)
  have hsize : ∀ i ∈ cb.idx.allIndices, i < cb.len := by
    intro i hi
    obtain ⟨k, hk, he⟩ := List.getElem_of_mem hi
    have he' := List.getElem?_eq_getElem hk
    rw [he] at he'
    rw [hg.holds.allIndices_length] at hk
    rw [hg.holds.allIndices_getElem? k hk] at he'
    cases he'
    exact slot_lt hg.holds.ins_le hk
  constructor
  · rw [stored_eq hg]
    have h1 : cb.idx.allIndices.map cb.data = (content cb g).map some := C05_fifo hg
    rw [← h1, List.map_map]
    apply List.map_congr_left
    intro i hi
    simp only [Function.comp]
    rw [Nat.add_comm]
    exact (C20_store hr b cb hb).1 i (lt_of_lt_of_le (hsize i hi) hg.holds.size_le)
  · have hnd : cb.idx.allIndices.Nodup := by
      have := hg.holds.ins_le
      rw [allIndices_eq this]
      rw [List.nodup_map_iff_inj_on List.nodup_range]
      intro x hx y hy hxy
      exact slot_inj this (List.mem_range.mp hx) (List.mem_range.mp hy) hxy
    exact hnd.map fun x y h => by simpa using h

/-- The blocks of the rows of one agent. -/
def ownBlocks (m : Mgr O A (J → R)) (agentOf : O → Id) (a : Id) (j : J) (sep : List (Buf O A (J → R))) : Blocks O A R :=
  sep.zipIdx.map fun p => ((p.1.idx.allIndices.map (· + startOf sep p.2)).filter fun i => (m.data i).any (moveOf agentOf a),
    ownMoves agentOf a j (stored p.1))

theorem ownBlocks_get (m : Mgr O A (J → R)) (agentOf : O → Id) (a : Id) (j : J) {sep : List (Buf O A (J → R))} {b : Nat}
    {cb : Buf O A (J → R)} (hb : sep[b]? = some cb) :
    (ownBlocks m agentOf a j sep)[b]? =
      some ((cb.idx.allIndices.map (· + startOf sep b)).filter fun i => (m.data i).any (moveOf agentOf a),
        ownMoves agentOf a j (stored cb)) := by
  unfold ownBlocks
  rw [List.getElem?_map, List.getElem?_zipIdx, hb]
  simp

theorem ownBlocks_start (m : Mgr O A (J → R)) (agentOf : O → Id) (a : Id) (j : J) (sep : List (Buf O A (J → R))) (b : Nat) :
    (ownBlocks m agentOf a j sep).start b = ownOffset agentOf a sep b := by
  unfold Blocks.start ownOffset ownBlocks
  rw [List.map_map]
  congr 2
  apply List.ext_getElem?
  intro k
  simp only [List.getElem?_map, List.getElem?_zipIdx]
  cases sep[k]? with
  | none => rfl
  | some c => simp [ownMoves, List.countP_eq_length_filter]

theorem ownBlocks_shown {m : Mgr O A (J → R)} {sep : List (Buf O A (J → R))} (hr : Reach m sep) (agentOf : O → Id) (a : Id)
    (j : J) (hlast : ∀ cb ∈ sep, MovesLast agentOf a (stored cb)) :
    ∀ B ∈ ownBlocks m agentOf a j sep, Shown (agentView (ofMgr m) j) B.1 B.2 := by
  intro B hB
  simp only [ownBlocks, List.mem_map] at hB
  obtain ⟨⟨cb, b⟩, hp, rfl⟩ := hB
  rw [List.mem_zipIdx_iff_getElem?] at hp
  obtain ⟨h1, h2⟩ := mgrBlocks_data hr hp
  refine own_shown (mgrBlocks_shows hr _ (List.mem_of_getElem? (mgrBlocks_get hp))).toShown h2 m.data h1 j
    (moveOf agentOf a) ?_
  intro k t hk he
  exact decide_eq_true (hlast cb (List.mem_of_getElem? hp) k t hk (Or.inr he))

theorem ownBlocks_slots {m : Mgr O A (J → R)} {sep : List (Buf O A (J → R))} (hr : Reach m sep)
    (hm : m.opts.stackNum = 1 ∨ m.opts.sampleAvail = false) {draw : Nat → Nat} {rng : Nat → Nat → Nat}
    {indices : List Nat} (hi : m.sampleIndices draw rng (some 0) = .ok indices) (agentOf : O → Id) (a : Id) (j : J) :
    (ownBlocks m agentOf a j sep).slots = indices.filter fun i => (m.data i).any (moveOf agentOf a) := by
  rw [← mgrBlocks_slots hr hm hi]
  unfold Blocks.slots ownBlocks mgrBlocks
  rw [List.filter_flatten, List.map_map, List.map_map, List.map_map]
  rfl

theorem ownBlocks_rows {m : Mgr O A (J → R)} {sep : List (Buf O A (J → R))} (hr : Reach m sep) (agentOf : O → Id) (a : Id)
    (j : J) : agentRows m.data (ownBlocks m agentOf a j sep).slots j = (ownBlocks m agentOf a j sep).rows := by
  unfold Blocks.slots Blocks.rows ownBlocks agentRows
  rw [List.filterMap_flatten, List.map_map, List.map_map, List.map_map]
  congr 1
  apply List.map_congr_left
  rintro ⟨cb, b⟩ hp
  rw [List.mem_zipIdx_iff_getElem?] at hp
  obtain ⟨h1, -⟩ := mgrBlocks_data hr hp
  simp only [Function.comp_apply] at h1 ⊢
  generalize cb.idx.allIndices.map (· + startOf sep b) = sl at h1 ⊢
  have h2 := congrArg (List.filter fun o => o.any (moveOf agentOf a)) h1
  rw [List.filter_map, List.filter_map] at h2
  have h3 := congrArg (List.filterMap fun o => o.map fun t : Trans O A (J → R) =>
    (⟨t.rew j, t.terminated, t.truncated⟩ : BRow R)) h2
  rw [List.filterMap_map, List.filterMap_map] at h3
  simp only [Function.comp_def, Option.map_some, Option.any_some] at h3 ⊢
  rw [h3, ownMoves, List.map_map, ← List.filterMap_eq_map]
  rfl

end Verif.MultiAgent
