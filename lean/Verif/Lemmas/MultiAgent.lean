import Verif.Spec.MultiAgent
import Mathlib.Data.List.Induction
import Mathlib.Data.List.Count
import Mathlib.Algebra.BigOperators.Group.List.Basic
import Mathlib.Data.List.Nodup
import Mathlib.Tactic.Ring
import Mathlib.Tactic.SplitIfs

/-! Lemmas about index arrays and scattering. -/

set_option linter.unusedSectionVars false

namespace Verif.MultiAgent

variable {Id Row Act R Out : Type} [DecidableEq Id]

theorem agentIndex_append (ids : List Id) (b a : Id) :
    agentIndex (ids ++ [b]) a = agentIndex ids a ++ if b = a then [ids.length] else [] := by
  unfold agentIndex
  rw [List.zipIdx_append, List.filter_append, List.map_append]
  congr 1
  by_cases h : b = a <;> simp [h]

theorem mem_agentIndex {ids : List Id} {a : Id} {i : Nat} : i ∈ agentIndex ids a ↔ ids[i]? = some a := by
  unfold agentIndex
  simp only [List.mem_map, List.mem_filter, decide_eq_true_eq, Prod.exists, List.mem_zipIdx_iff_getElem?]
  constructor
  · rintro ⟨b, j, ⟨h1, rfl⟩, rfl⟩
    exact h1
  · intro h
    exact ⟨a, i, ⟨h, rfl⟩, rfl⟩

theorem agentIndex_lt {ids : List Id} {a : Id} {i : Nat} (h : i ∈ agentIndex ids a) : i < ids.length :=
  (List.getElem?_eq_some_iff.mp (mem_agentIndex.mp h)).1

theorem agentIndex_nodup (ids : List Id) (a : Id) : (agentIndex ids a).Nodup := by
  induction ids using List.reverseRecOn with
  | nil => simp [agentIndex]
  | append_singleton ids b ih =>
    rw [agentIndex_append, List.nodup_append]
    refine ⟨ih, by split <;> simp, ?_⟩
    intro x hx y hy
    have := agentIndex_lt hx
    split at hy
    · simp at hy; omega
    · simp at hy

theorem agentIndex_length (ids : List Id) (a : Id) : (agentIndex ids a).length = (ids.filter fun b => b = a).length := by
  induction ids using List.reverseRecOn with
  | nil => simp [agentIndex]
  | append_singleton ids b ih =>
    rw [agentIndex_append, List.filter_append, List.length_append, List.length_append, ih]
    by_cases h : b = a <;> simp [h]

/-- Row `i` is the `rank`-th of its agent. -/
theorem agentIndex_rank (ids : List Id) (a : Id) (i : Nat) (h : ids[i]? = some a) :
    (agentIndex ids a)[((ids.take i).filter fun b => b = a).length]? = some i := by
  induction ids using List.reverseRecOn with
  | nil => simp at h
  | append_singleton ids b ih =>
    rw [agentIndex_append]
    by_cases hi : i < ids.length
    · rw [List.getElem?_append_left hi] at h
      have := ih h
      rw [List.take_append_of_le_length hi.le, List.getElem?_append_left (List.getElem?_eq_some_iff.mp this).1, this]
    · have hi2 := (List.getElem?_eq_some_iff.mp h).1
      simp only [List.length_append, List.length_singleton] at hi2
      have hi3 : i = ids.length := by omega
      subst hi3
      simp at h
      subst h
      rw [List.take_append_of_le_length le_rfl, List.take_length, ← agentIndex_length,
        List.getElem?_append_right le_rfl]
      simp

theorem gather_append_left {α : Type} (x : List α) (y : α) (idx : List Nat) (h : ∀ i ∈ idx, i < x.length) :
    gather (x ++ [y]) idx = gather x idx := by
  unfold gather
  apply List.filterMap_congr
  intro i hi
  rw [List.getElem?_append_left (h i hi)]

theorem gather_agentIndex {α : Type} (x : List (Id × α)) (a : Id) :
    gather (x.map Prod.snd) (agentIndex (x.map Prod.fst) a) = (x.filter fun p => p.1 = a).map Prod.snd := by
  induction x using List.reverseRecOn with
  | nil => simp [gather, agentIndex]
  | append_singleton x p ih =>
    rw [List.map_append, List.map_append, List.map_cons, List.map_nil, List.map_cons, List.map_nil, agentIndex_append,
      List.filter_append, List.map_append, ← ih]
    unfold gather
    rw [List.filterMap_append]
    congr 1
    · exact gather_append_left _ _ _ (fun i hi => by have := agentIndex_lt hi; simpa using this)
    · by_cases h : p.1 = a <;> simp [h]

theorem gather_own (batch : List (MRow Id Row R)) (a : Id) :
    gather batch (agentIndex (batch.map MRow.agent) a) = ownRows batch a := by
  have h := gather_agentIndex (batch.map fun r => (r.agent, r)) a
  have h1 : (batch.map fun r => (r.agent, r)).map Prod.snd = batch := by simp [Function.comp_def]
  have h2 : (batch.map fun r => (r.agent, r)).map Prod.fst = batch.map MRow.agent := by simp [Function.comp_def]
  rw [h1, h2] at h
  rw [h, List.filter_map, List.map_map]
  simp [ownRows, Function.comp_def]

theorem gather_ownOf {α : Type} (batch : List (MRow Id Row R)) (x : List α) (hlen : batch.length = x.length) (a : Id) :
    gather x (agentIndex (batch.map MRow.agent) a) = ownOf batch x a := by
  have h := gather_agentIndex ((batch.zip x).map fun p => (p.1.agent, p.2)) a
  have h1 : ((batch.zip x).map fun p => (p.1.agent, p.2)).map Prod.snd = x := by
    rw [List.map_map]
    exact List.map_snd_zip (by omega)
  have h2 : ((batch.zip x).map fun p => (p.1.agent, p.2)).map Prod.fst = batch.map MRow.agent := by
    rw [List.map_map]
    have : (Prod.fst ∘ fun p : MRow Id Row R × α => (p.1.agent, p.2)) = MRow.agent ∘ Prod.fst := rfl
    rw [this, ← List.map_map, List.map_fst_zip (by omega)]
  rw [h1, h2] at h
  rw [h, List.filter_map, List.map_map]
  simp [ownOf, Function.comp_def]

theorem foldl_set_length {α : Type} (l : List (Nat × α)) (x : List α) :
    (l.foldl (fun x p => x.set p.1 p.2) x).length = x.length := by
  induction l generalizing x with
  | nil => rfl
  | cons p l ih => rw [List.foldl_cons, ih, List.length_set]

theorem foldl_set_other {α : Type} (l : List (Nat × α)) (x : List α) (j : Nat) (h : ∀ p ∈ l, p.1 ≠ j) :
    (l.foldl (fun x p => x.set p.1 p.2) x)[j]? = x[j]? := by
  induction l generalizing x with
  | nil => rfl
  | cons p l ih =>
    rw [List.foldl_cons, ih _ (fun q hq => h q (by simp [hq])), List.getElem?_set_ne (h p (by simp))]

theorem foldl_set_at {α : Type} (idx : List Nat) (y : List α) (x : List α) (hlen : idx.length = y.length)
    (hnd : idx.Nodup) (hlt : ∀ i ∈ idx, i < x.length) (k i : Nat) (hk : idx[k]? = some i) :
    ((idx.zip y).foldl (fun x p => x.set p.1 p.2) x)[i]? = y[k]? := by
  induction idx generalizing y x k with
  | nil => simp at hk
  | cons i0 idx ih =>
    cases y with
    | nil => simp at hlen
    | cons y0 y =>
      rw [List.zip_cons_cons, List.foldl_cons]
      rw [List.nodup_cons] at hnd
      cases k with
      | zero =>
        simp only [List.getElem?_cons_zero, Option.some.injEq] at hk ⊢
        subst hk
        rw [foldl_set_other]
        · rw [List.getElem?_set_self (hlt i0 (by simp))]
        · intro p hp hpi
          exact hnd.1 (hpi ▸ (List.of_mem_zip hp).1)
      | succ k =>
        simp only [List.getElem?_cons_succ] at hk ⊢
        exact ih y _ (by simpa using hlen) hnd.2 (fun i hi => by rw [List.length_set]; exact hlt i (by simp [hi])) k hk

theorem scatter_spec {α : Type} (x : List α) (idx : List Nat) (y : List α) (hlen : idx.length = y.length)
    (hnd : idx.Nodup) (hlt : ∀ i ∈ idx, i < x.length) :
    ∃ out, scatter x idx y = some out ∧ out.length = x.length ∧
      (∀ k i : Nat, idx[k]? = some i → out[i]? = y[k]?) ∧ ∀ j : Nat, j ∉ idx → out[j]? = x[j]? := by
  refine ⟨_, if_pos ⟨hlen, hlt⟩, foldl_set_length _ _, fun k i hk => foldl_set_at idx y x hlen hnd hlt k i hk, ?_⟩
  intro j hj
  apply foldl_set_other
  intro p hp hpj
  exact hj (hpj ▸ (List.of_mem_zip hp).1)

/-- One agent's write: its positions get `Y`. -/
def writeStep {α P : Type} (ids : List Id) (Y : P → List α → List α) (name : P → Id) (h : Option (List α)) (p : P) :
    Option (List α) :=
  h.bind fun h => if agentIndex ids (name p) = [] then some h else scatter h (agentIndex ids (name p)) (Y p h)

/-- Writing the agents' values one after the other: a row of a listed agent gets that agent's value, computed from
the original array; the others keep theirs. -/
theorem writes_spec {α P : Type} (ids : List Id) (Y : P → List α → List α) (name : P → Id) (ps : List P)
    (hnd : (ps.map name).Nodup) (x : List α) (hx : x.length = ids.length)
    (hY : ∀ p ∈ ps, ∀ h : List α, h.length = ids.length → (Y p h).length = (agentIndex ids (name p)).length)
    (hdep : ∀ p ∈ ps, ∀ h h' : List α, gather h (agentIndex ids (name p)) = gather h' (agentIndex ids (name p)) →
      Y p h = Y p h') :
    ∃ out, ps.foldl (writeStep ids Y name) (some x) = some out ∧ out.length = ids.length ∧
      (∀ p ∈ ps, ∀ k i : Nat, (agentIndex ids (name p))[k]? = some i → out[i]? = (Y p x)[k]?) ∧
      ∀ (j : Nat) (a : Id), ids[j]? = some a → a ∉ ps.map name → out[j]? = x[j]? := by
  induction ps generalizing x with
  | nil => exact ⟨x, rfl, hx, by simp, by simp⟩
  | cons p ps ih =>
    rw [List.map_cons, List.nodup_cons] at hnd
    obtain ⟨x', hx1, hx2, hx3, hx4⟩ : ∃ x', writeStep ids Y name (some x) p = some x' ∧ x'.length = ids.length ∧
        (∀ k i : Nat, (agentIndex ids (name p))[k]? = some i → x'[i]? = (Y p x)[k]?) ∧
        ∀ j : Nat, j ∉ agentIndex ids (name p) → x'[j]? = x[j]? := by
      by_cases he : agentIndex ids (name p) = []
      · exact ⟨x, by simp [writeStep, he], hx, by simp [he], fun _ _ => rfl⟩
      · obtain ⟨out, h1, h2, h3, h4⟩ := scatter_spec x (agentIndex ids (name p)) (Y p x)
          (hY p (by simp) x hx).symm (agentIndex_nodup _ _) (fun i hi => by rw [hx]; exact agentIndex_lt hi)
        exact ⟨out, by simp [writeStep, he, h1], h2.trans hx, h3, h4⟩
    obtain ⟨out, h1, h2, h3, h4⟩ := ih hnd.2 x' hx2 (fun q hq => hY q (by simp [hq])) (fun q hq => hdep q (by simp [hq]))
    have hother : ∀ (j : Nat) (a : Id), ids[j]? = some a → a ≠ name p → j ∉ agentIndex ids (name p) := by
      intro j a hj ha hmem
      rw [mem_agentIndex, hj] at hmem
      exact ha (Option.some.inj hmem)
    refine ⟨out, by rw [List.foldl_cons, hx1, h1], h2, ?_, ?_⟩
    · intro q hq k i hk
      rcases List.mem_cons.mp hq with rfl | hq
      · have hi : ids[i]? = some (name q) := mem_agentIndex.mp (List.mem_of_getElem? hk)
        rw [h4 i (name q) hi hnd.1, hx3 k i hk]
      · rw [h3 q hq k i hk, hdep q (by simp [hq]) x' x]
        unfold gather
        apply List.filterMap_congr
        intro j hj
        apply hx4
        apply hother j (name q) (mem_agentIndex.mp hj)
        intro he
        exact hnd.1 (he ▸ List.mem_map_of_mem hq)
    · intro j a hj ha
      simp only [List.map_cons, List.mem_cons, not_or] at ha
      rw [h4 j a hj ha.2, hx4 j (hother j a hj ha.1)]

/-- Every row belongs to exactly one agent. -/
theorem sum_counts (as ids : List Id) (hnd : as.Nodup) (hall : ∀ b ∈ ids, b ∈ as) :
    (as.map fun a => (ids.filter fun b => b = a).length).sum = ids.length := by
  induction ids with
  | nil => simp
  | cons b ids ih =>
    have h1 : (as.map fun a => ((b :: ids).filter fun b => b = a).length) =
        as.map fun a => (if b = a then 1 else 0) + (ids.filter fun b => b = a).length := by
      apply List.map_congr_left
      intro a _
      by_cases h : b = a
      · simp [h]; omega
      · simp [h]
    have h2 : ∀ as : List Id, (as.map fun a => if b = a then 1 else 0).sum = as.count b := by
      intro as
      induction as with
      | nil => rfl
      | cons c as ih =>
        rw [List.map_cons, List.sum_cons, ih, List.count_cons]
        by_cases h : b = c
        · simp [h]; omega
        · simp [h, Ne.symm h]
    rw [h1, List.sum_map_add, h2, ih (fun x hx => hall x (by simp [hx])),
      List.count_eq_one_of_mem hnd (hall b (by simp)), List.length_cons]
    omega

end Verif.MultiAgent
