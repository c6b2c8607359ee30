import Verif.Model.BufferCopy
import Verif.Lemmas.Cached
import Verif.Lemmas.ManagerReads

set_option linter.unusedSectionVars false

namespace Verif.Buffer

open Verif.Spec

variable {O A R : Type} [AddCommMonoid R]

theorem addLoop_bound (items : List (Nat × Trans O A R)) {subs subs' : List (Sub R)} {rs : List (AddResult R)}
    (h : addLoop subs items = .ok (subs', rs)) : ∀ p ∈ items, p.1 < subs.length := by
  induction items generalizing subs subs' rs with
  | nil => simp
  | cons q items ih =>
    obtain ⟨b, t⟩ := q
    unfold addLoop at h
    cases hb : subs[b]? with
    | none => rw [hb] at h; cases h
    | some s =>
      rw [hb] at h
      simp only at h
      have hlt : b < subs.length := by
        by_contra hc
        rw [List.getElem?_eq_none (by omega)] at hb
        cases hb
      cases hp : s.idx.preAdd t.rew t.done with
      | error e => rw [hp] at h; cases h
      | ok q =>
        obtain ⟨x, r⟩ := q
        rw [hp] at h
        simp only at h
        split at h
        · cases h
        · rename_i hh
          have := ih hh
          intro p hp
          rcases List.mem_cons.mp hp with rfl | hp
          · exact hlt
          · simpa using this p hp

theorem Mgr.add_bound {m m' : Mgr O A R} {ids : List Nat} {rows : List (Trans O A R)} {rs : List (AddResult R)}
    (h : m.add ids rows = .ok (m', rs)) : ∀ b ∈ ids, b < m.subs.length := by
  have hl := Mgr.add_length h
  unfold Mgr.add at h
  rw [if_neg (by omega)] at h
  simp only at h
  split at h
  · cases h
  · rename_i hh
    intro b hb
    have : b ∈ (ids.zip (rows.map (prep m.opts))).map Prod.fst := by
      rw [List.map_fst_zip (by simp [hl])]; exact hb
    obtain ⟨p, hp, rfl⟩ := List.mem_map.mp this
    exact addLoop_bound _ hh p hp

/-- Same bookkeeping, possibly other contents. -/
structure Twin (m n : Mgr O A R) : Prop where
  opts : m.opts = n.opts
  subs : m.subs = n.subs

theorem Twin.add {m n : Mgr O A R} (T : Twin m n) {ids : List Nat} {rows : List (Trans O A R)} {n' : Mgr O A R}
    {rs : List (AddResult R)} (h : n.add ids rows = .ok (n', rs)) :
    ∃ m', m.add ids rows = .ok (m', rs) ∧ Twin m' n' ∧
      m'.data = scatter m.data ((rs.map AddResult.slot).zip ((rows.map (prep n.opts)).map some)) := by
  have hl := Mgr.add_length h
  unfold Mgr.add at h ⊢
  rw [if_neg (by omega)] at h ⊢
  simp only at h ⊢
  rw [T.opts, T.subs]
  cases ha : addLoop n.subs (ids.zip (rows.map (prep n.opts))) with
  | error e => rw [ha] at h; cases h
  | ok q =>
    obtain ⟨subs, rs'⟩ := q
    rw [ha] at h
    simp only [Except.ok.injEq, Prod.mk.injEq] at h ⊢
    obtain ⟨h1, h2⟩ := h
    subst h2
    refine ⟨_, ⟨rfl, rfl⟩, ?_, rfl⟩
    rw [← h1]
    exact ⟨rfl, rfl⟩

theorem update_idx {b b' src src' : Buf O A R} (h : b.idx = b'.idx) (hs : src.idx = src'.idx) :
    (b.update src).1.idx = (b'.update src').1.idx ∧ (b.update src).2 = (b'.update src').2 := by
  unfold Buf.update Buf.len
  rw [h, hs]
  split
  · exact ⟨h, rfl⟩
  · simp only
    split
    · exact ⟨h, rfl⟩
    · exact ⟨rfl, rfl⟩

theorem Twin.move {c : Unlinked O A R} {n : Mgr O A R} (T : Twin c.mgr n) {b : Nat} {n' : Mgr O A R} {p : Int × Int}
    (h : n.move b = .ok (n', p)) :
    ∃ c', c.move b = .ok (c', p) ∧ Twin c'.mgr n' ∧ c'.mgr.data = c.mgr.data := by
  unfold Mgr.move at h
  unfold Unlinked.move
  rw [T.subs]
  cases h0 : n.subs[0]? with
  | none => rw [h0] at h; simp only at h; cases h
  | some s0 =>
    cases hb : n.subs[b]? with
    | none => rw [h0, hb] at h; simp only at h; cases h
    | some sb =>
      rw [h0, hb] at h
      simp only at h ⊢
      obtain ⟨e1, e2⟩ := update_idx (b := c.child s0) (b' := n.child s0) (src := c.child sb) (src' := n.child sb)
        rfl rfl
      simp only [Except.ok.injEq, Prod.mk.injEq] at h ⊢
      obtain ⟨h1, h2⟩ := h
      refine ⟨_, ⟨rfl, ?_⟩, ?_, rfl⟩
      · rw [e2]; exact h2
      · rw [← h1]
        refine ⟨T.opts, ?_⟩
        simp only [e1, e2]
        rfl

theorem Twin.moves {c : Unlinked O A R} {n : Mgr O A R} (T : Twin c.mgr n) (l : List Nat) {n' : Mgr O A R}
    {ps : List (Int × Int)} (h : n.moves l = .ok (n', ps)) :
    ∃ c', c.moves l = .ok (c', ps) ∧ Twin c'.mgr n' ∧ c'.mgr.data = c.mgr.data := by
  induction l generalizing c n n' ps with
  | nil => cases h; exact ⟨c, rfl, T, rfl⟩
  | cons b l ih =>
    unfold Mgr.moves at h
    cases hm : n.move b with
    | error e => rw [hm] at h; cases h
    | ok q =>
      obtain ⟨n1, p⟩ := q
      rw [hm] at h
      simp only at h
      cases hr : n1.moves l with
      | error e => rw [hr] at h; cases h
      | ok q =>
        obtain ⟨n2, ps'⟩ := q
        rw [hr] at h
        simp only [Except.ok.injEq, Prod.mk.injEq] at h
        obtain ⟨rfl, rfl⟩ := h
        obtain ⟨c1, g1, T1, d1⟩ := T.move hm
        obtain ⟨c2, g2, T2, d2⟩ := ih T1 hr
        refine ⟨c2, ?_, T2, d2.trans d1⟩
        unfold Unlinked.moves
        rw [g1]
        simp only
        rw [g2]

theorem update_maxsize (b src : Buf O A R) : (b.update src).1.idx.maxsize = b.idx.maxsize := by
  unfold Buf.update
  split
  · rfl
  · simp only
    split
    · rfl
    · simp only
      generalize src.idx.allIndices.length = n
      generalize b.idx = x
      induction n generalizing x with
      | zero => rfl
      | succ n ih => rw [Idx.advance]; simp only; rw [ih]

theorem moveAll_startOf (l : List Nat) {sep sep' : List (Buf O A R)} (h : moveAll sep l = some sep') (k : Nat) :
    startOf sep' k = startOf sep k := by
  induction l generalizing sep with
  | nil => cases h; rfl
  | cons b l ih =>
    unfold moveAll at h
    cases h0 : sep[0]? with
    | none => rw [h0] at h; cases h
    | some main =>
      cases hb : sep[b]? with
      | none => rw [h0, hb] at h; cases h
      | some c =>
        rw [h0, hb] at h
        rw [ih h]
        unfold startOf
        congr 2
        rw [List.map_set, List.map_set]
        apply List.ext_getElem?
        intro i
        simp only [List.getElem?_set, List.length_set, List.length_map, List.getElem?_map]
        have l0 : 0 < sep.length := by
          by_contra hc; rw [List.getElem?_eq_none (by omega)] at h0; cases h0
        have lb : b < sep.length := by
          by_contra hc; rw [List.getElem?_eq_none (by omega)] at hb; cases hb
        by_cases e : b = i
        · subst e; rw [if_pos rfl, if_pos lb, hb]; rfl
        · rw [if_neg e]
          by_cases e0 : 0 = i
          · subst e0; rw [if_pos rfl, if_pos l0, h0, update_maxsize]; rfl
          · rw [if_neg e0]

theorem sum_take_mono (l : List Nat) {a b : Nat} (h : a ≤ b) : (l.take a).sum ≤ (l.take b).sum := by
  have : l.take b = l.take a ++ (l.take b).drop a := by
    conv_lhs => rw [← List.take_append_drop a (l.take b)]
    rw [List.take_take, Nat.min_eq_left h]
  rw [this, List.sum_append]
  omega

theorem cached_step {m n n' : Mgr O A R} {c : Unlinked O A R} {sep : List (Buf O A R)} (hR : Reach n sep)
    (T : Twin c.mgr n) {ids : List Nat} {rows : List (Trans O A R)} (hnd : ids.Nodup) {res : List (CachedResult R)}
    (h : n.cachedAdd ids rows = .ok (n', res)) (hm : ∀ i, i < startOf sep 1 → c.mgr.data i = m.data i) :
    ∃ c' sep', c.cachedAdd ids rows = .ok (c', res) ∧ Twin c'.mgr n' ∧ Reach n' sep' ∧
      startOf sep' 1 = startOf sep 1 ∧ ∀ i, i < startOf sep 1 → c'.mgr.data i = m.data i := by
  have h' := h
  unfold Mgr.cachedAdd at h'
  cases ha : n.add (ids.map (· + 1)) rows with
  | error e => rw [ha] at h'; cases h'
  | ok q =>
    obtain ⟨n1, rs⟩ := q
    rw [ha] at h'
    simp only at h'
    have hl : ids.length = rows.length := by simpa using Mgr.add_length ha
    have hb : ∀ b ∈ ids, b + 1 < sep.length := by
      intro b hb
      rw [← hR.inv.sub_length]
      exact Mgr.add_bound ha _ (List.mem_map.mpr ⟨b, hb, rfl⟩)
    obtain ⟨n3, res3, sep1, rs1, sep2, k1, k2, k3, k4, _⟩ := hR.inv.cachedAdd hl hb hnd
    rw [h] at k1
    cases k1
    have hR' : Reach n' sep2 := hR.cachedAdd hnd h k2 k3
    obtain ⟨n4, rs4, sep4, rs4', a1, a2, a3, a4, _, _, a7, _⟩ := hR.inv.add (ids.map (· + 1)) rows (by simpa using hl)
      (by
        intro b hb'
        obtain ⟨b0, hb0, rfl⟩ := List.mem_map.mp hb'
        exact hb b0 hb0)
    rw [ha] at a1
    cases a1
    cases hmv : n1.moves (((ids.zip rows).filter fun p => p.2.done).map fun p => p.1 + 1) with
    | error e => rw [hmv] at h'; cases h'
    | ok q =>
      obtain ⟨n2, ps⟩ := q
      rw [hmv] at h'
      simp only [Except.ok.injEq, Prod.mk.injEq] at h'
      obtain ⟨rfl, rfl⟩ := h'
      obtain ⟨m1, g1, T1, d1⟩ := T.add ha
      obtain ⟨c2, g2, T2, d2⟩ := Twin.moves (c := { c with mgr := m1 }) T1 _ hmv
      refine ⟨c2, sep2, ?_, T2, hR', ?_, ?_⟩
      · unfold Unlinked.cachedAdd Unlinked.add
        rw [g1]
        simp only
        rw [g2]
      · rw [a2] at k2
        cases k2
        rw [moveAll_startOf _ k3, a7]
      · intro i hi
        rw [d2, d1, scatter_not_mem, hm i hi]
        intro p hp
        have hp1 := (List.of_mem_zip hp).1
        rw [a4, List.mem_map] at hp1
        obtain ⟨r, hr, hrs⟩ := hp1
        rw [← hrs]
        have : startOf sep 1 ≤ r.slot := by
          obtain ⟨k, hk, hke⟩ := List.getElem_of_mem hr
          rw [List.getElem_zipWith] at hke
          rw [← hke]
          simp only [AddResult.shift, List.getElem_map]
          have : startOf sep 1 ≤ startOf sep (ids[k]'(by simp at hk; omega) + 1) := by
            unfold startOf
            exact sum_take_mono _ (by omega)
          omega
        omega

end Verif.Buffer
