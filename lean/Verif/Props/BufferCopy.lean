import Verif.Lemmas.BufferCopy
import Verif.Props.Manager

/-! Property C224: copies (deep copies, pickles) of vector and cached buffers.

`m.copy` is the copy of the vector buffer `m`; `run`/`cachedRun` are calls made on the buffer or on the copy,
with the list of values returned. -/

set_option linter.unusedSectionVars false

namespace Verif.Buffer

open Verif.Spec

variable {O A R : Type} [AddCommMonoid R]

/-- The calls on the copy act on its own arrays as they would on the original. -/
theorem Unlinked.run_eq (c : Unlinked O A R) (us : List (Use O A R)) :
    c.run us = match c.mgr.run us with
      | .error e => .error e
      | .ok (m, rss) => .ok ({ c with mgr := m }, rss) := by
  induction us generalizing c with
  | nil => rfl
  | cons u us ih =>
    cases u with
    | reset k => exact ih _
    | add ids rows =>
      unfold Unlinked.run Mgr.run Unlinked.add
      cases c.mgr.add ids rows with
      | error e => rfl
      | ok q =>
        obtain ⟨m, rs⟩ := q
        simp only
        rw [ih]
        simp only
        cases m.run us with
        | error e => rfl
        | ok q => rfl

theorem Reach.run {m m' : Mgr O A R} {sep : List (Buf O A R)} (h : Reach m sep) (us : List (Use O A R))
    {rss : List (List (AddResult R))} (hr : m.run us = .ok (m', rss)) : ∃ sep', Reach m' sep' := by
  induction us generalizing m sep rss with
  | nil => cases hr; exact ⟨sep, h⟩
  | cons u us ih =>
    cases u with
    | reset k => exact ih (h.reset k) hr
    | add ids rows =>
      unfold Mgr.run at hr
      cases ha : m.add ids rows with
      | error e => rw [ha] at hr; cases hr
      | ok q =>
        obtain ⟨m1, rs⟩ := q
        rw [ha] at hr
        simp only at hr
        obtain ⟨m2, sep2, res, h1, h2, _, h4, _⟩ := C20_add h ids rows (Mgr.add_length ha)
          (by rw [← h.inv.sub_length]; exact Mgr.add_bound ha)
        rw [ha] at h2
        cases h2
        split at hr
        · cases hr
        · rename_i hh
          cases hr
          exact ih h4 hh

theorem sampleIndices_data (b b' : Buf O A R) (ho : b.opts = b'.opts) (hi : b.idx = b'.idx)
    (h : b.opts.stackNum = 1 ∨ ¬ b.opts.sampleAvail) (rng : Nat → Nat) (bs : Option Int) :
    b.sampleIndices rng bs = b'.sampleIndices rng bs := by
  unfold Buf.sampleIndices Buf.len
  simp only
  have h' : b'.opts.stackNum = 1 ∨ ¬ b'.opts.sampleAvail := ho ▸ h
  simp only [h, h', if_true, hi]

/-- **C224** A copy of a vector buffer used like the original: the calls succeed or fail alike, return the same
slots and episode statistics, and afterwards the copy holds the same rows, has the same length and the same
`prev` and `next`; it draws the same samples unless frames are stacked and only complete stacks are sampled.
(`_partial`: `unfinished_index` differs, see `C224_unfinished`.) -/
theorem C224_same_partial (m : Mgr O A R) (us : List (Use O A R)) :
    match m.run us, m.copy.run us with
    | .error e, .error e' => e = e'
    | .ok (m', rss), .ok (c, rss') =>
        rss = rss' ∧ c.len = m'.len ∧ (∀ i, c.row i = m'.data i) ∧ (∀ i, c.prev i = m'.prev i) ∧
        (∀ i, c.next i = m'.next i) ∧
        (m'.opts.stackNum = 1 ∨ m'.opts.sampleAvail = false → ∀ draw rng batchSize,
          c.sampleIndices draw rng batchSize = m'.sampleIndices draw rng batchSize)
    | _, _ => False := by
  rw [Unlinked.run_eq]
  simp only [Mgr.copy]
  cases m.run us with
  | error e => rfl
  | ok q =>
    obtain ⟨m', rss⟩ := q
    refine ⟨rfl, rfl, fun _ => rfl, fun _ => rfl, fun _ => rfl, ?_⟩
    intro h draw rng bs
    have hcs : ∀ num, { m' with data := m.data }.concatSamples rng num = m'.concatSamples rng num := by
      intro num
      unfold Mgr.concatSamples
      congr 1
      apply List.map_congr_left
      intro p _
      congr 1
      refine sampleIndices_data (({ m' with data := m.data } : Mgr O A R).child p.1) (m'.child p.1) rfl rfl ?_ _ _
      rcases h with h | h
      · exact Or.inl h
      · right
        show ¬ m'.opts.sampleAvail = true
        rw [h]; decide
    simp only [Unlinked.sampleIndices, Mgr.sampleIndices, hcs]

/-- The slot at which `old` (the rows stored at the time of the copy) has a row that does not end an episode, or
no row at all. -/
def openThen (old : Nat → Option (Trans O A R)) (i : Nat) : Bool :=
  match old i with
  | none => true
  | some t => !(t.terminated || t.truncated)

/-- **C224** What `unfinished_index` gives on a copy after any calls: for each sub-buffer (those of the original
after the same calls) its newest slot, if at the time of the copy that slot did not hold the end of an
episode, whatever it holds now. -/
theorem C224_unfinished {m m' : Mgr O A R} {sep : List (Buf O A R)} (h : Reach m sep) (us : List (Use O A R))
    {rss : List (List (AddResult R))} (hr : m.run us = .ok (m', rss)) :
    ∃ c sep', m.copy.run us = .ok (c, rss) ∧ Reach m' sep' ∧
      c.unfinishedIndex = .ok ((sep'.zipIdx.map fun p =>
        (p.1.idx.allIndices.getLast?.toList.map (· + startOf sep' p.2)).filter (openThen m.data)).flatten) := by
  obtain ⟨sep', hR⟩ := h.run us hr
  refine ⟨{ mgr := m', own := m.data }, sep', ?_, hR, ?_⟩
  · rw [Unlinked.run_eq]
    simp only [Mgr.copy, hr]
  · unfold Unlinked.unfinishedIndex
    rw [concatOk_map _ _ (fun s => (s.idx.allIndices.getLast?.toList.map (· + s.offset)).filter (openThen m.data))]
    · congr 2
      apply List.ext_getElem?
      intro b
      simp only [List.getElem?_map, List.getElem?_zipIdx]
      cases hb : m'.subs[b]? with
      | none =>
        have : sep'[b]? = none := by rw [← hR.inv.children]; simp [hb]
        simp [this]
      | some s =>
        rw [hR.inv.get hb]
        simp [hR.inv.offset_eq hb, Mgr.child, childOf]
    · intro s hs
      obtain ⟨b, hlt, he⟩ := List.getElem_of_mem hs
      have hb : m'.subs[b]? = some s := by rw [List.getElem?_eq_getElem hlt, he]
      obtain ⟨g, hg⟩ := hR.inv.child_hist hb
      have hsz : s.idx.size ≤ s.idx.maxsize := by
        have := hg.inv.size
        simp only [Mgr.child, childOf] at this
        omega
      have hlen : s.idx.allIndices.length = s.idx.size := hg.holds.allIndices_length
      have hi : s.idx.ins ≤ s.idx.size := hg.holds.ins_le
      unfold Buf.unfinishedIndex
      simp only [Unlinked.child, childOf, not_true_eq_false, if_false]
      rcases Nat.eq_zero_or_pos s.idx.size with h0 | h0
      · have : s.idx.allIndices = [] := List.length_eq_zero_iff.mp (by omega)
        simp [h0, this, Except.map]
      · have hlast : (((s.idx.ins : Int) - 1) % (s.idx.size : Int)).toNat =
            slot s.idx.ins s.idx.size (s.idx.size - 1) := by
          rcases Nat.lt_or_ge s.idx.ins s.idx.size with hlt | hge
          · rw [pred_mod _ _ hlt]; unfold slot; split_ifs <;> omega
          · have : s.idx.ins = s.idx.size := by omega
            rw [this, Int.emod_eq_of_lt (by omega) (by omega)]
            unfold slot; split_ifs <;> omega
        have hal : s.idx.allIndices.getLast? = some (slot s.idx.ins s.idx.size (s.idx.size - 1)) := by
          rw [List.getLast?_eq_getElem?, hlen]
          exact hg.holds.allIndices_getElem? _ (by simp only [Mgr.child, childOf]; omega)
        have hslot : slot s.idx.ins s.idx.size (s.idx.size - 1) < s.idx.maxsize := by
          unfold slot; split_ifs <;> omega
        have hne : s.idx.size ≠ 0 := by omega
        rw [hal]
        simp only [hne, ne_eq, not_false_eq_true, if_true, and_true, hlast, Except.map, Option.toList_some,
          List.map_cons, List.map_nil]
        generalize slot s.idx.ins s.idx.size (s.idx.size - 1) = k at *
        have hd : doneAt (fun i => if i < s.idx.maxsize then m.data (s.offset + i) else none) k =
            !openThen m.data (k + s.offset) := by
          unfold doneAt openThen
          simp only [hslot, if_true]
          rw [Nat.add_comm]
          cases m.data (k + s.offset) <;> simp [Trans.done]
        rw [hd]
        cases ho : openThen m.data (k + s.offset) <;> simp [ho]

/-- **C224** In particular, an episode that ends after the copy in a slot that was free at that time is reported as
unfinished for as long as its last transition is the newest of its sub-buffer. -/
theorem C224_reported_open {m m' : Mgr O A R} {sep : List (Buf O A R)} (h : Reach m sep) (us : List (Use O A R))
    {rss : List (List (AddResult R))} (hr : m.run us = .ok (m', rss)) :
    ∃ c sep' l, m.copy.run us = .ok (c, rss) ∧ Reach m' sep' ∧ c.unfinishedIndex = .ok l ∧
      ∀ (b : Nat) (buf : Buf O A R) (i : Nat), sep'[b]? = some buf → buf.idx.allIndices.getLast? = some i →
        m.data (i + startOf sep' b) = none → i + startOf sep' b ∈ l := by
  obtain ⟨c, sep', h1, h2, h3⟩ := C224_unfinished h us hr
  refine ⟨c, sep', _, h1, h2, h3, ?_⟩
  intro b buf i hb hi hf
  rw [List.mem_flatten]
  refine ⟨_, List.mem_map.mpr ⟨(buf, b), ?_, rfl⟩, ?_⟩
  · rw [List.mem_zipIdx_iff_getElem?]
    exact hb
  · simp [hi, openThen, hf]

/-- **C224** After `set_batch(buf._meta)` the copy is an ordinary buffer again, holding the same rows. -/
theorem C224_relink (m : Mgr O A R) (us : List (Use O A R)) {m' : Mgr O A R} {rss : List (List (AddResult R))}
    (hr : m.run us = .ok (m', rss)) :
    ∃ c, m.copy.run us = .ok (c, rss) ∧ c.relink.unfinishedIndex = m'.unfinishedIndex ∧
      ∀ draw rng batchSize, c.relink.sampleIndices draw rng batchSize = m'.sampleIndices draw rng batchSize := by
  refine ⟨{ mgr := m', own := m.data }, ?_, rfl, fun _ _ _ => rfl⟩
  rw [Unlinked.run_eq]
  simp only [Mgr.copy, hr]

/-- Two sub-buffers of size 2; one open transition in each. -/
def exCopied : Mgr Nat Nat Int := (Mgr.new [2, 2] {} : Mgr Nat Nat Int).addAll
  [([0, 1], [tr 10 false false, tr 20 true false])]

theorem exCopied_reach : ∃ sep, Reach exCopied sep ∧ sep.length = 2 :=
  (Reach.new [2, 2] (by decide) {}).addAll _ (by simp)

/-- Sub-buffer 0 ends its episode; sub-buffer 1 begins one and, having wrapped around, is in its third transition,
stored in the slot that held the end of an episode when the copy was made. -/
def exUses : List (Use Nat Nat Int) :=
  [.add [0, 1] [tr 11 true false, tr 21 false false], .add [1] [tr 22 false false]]

example : (exCopied.run exUses).toOption.map (fun p => (p.1.len, (p.1.data 1).map Trans.done)) =
    some (4, some true) := by decide +kernel

/-- **C224 violated** (`unfinished_index` of a copy is that of the original): after the same calls the original reports
the open episode of sub-buffer 1 (slot 2), and the copy reports instead slot 1, where the episode of
sub-buffer 0 has ended. -/
theorem C224_violated : ∃ (m m' : Mgr Nat Nat Int) (sep : List (Buf Nat Nat Int)) (us : List (Use Nat Nat Int))
    (c : Unlinked Nat Nat Int) (rss : List (List (AddResult Int))),
    Reach m sep ∧ m.run us = .ok (m', rss) ∧ m.copy.run us = .ok (c, rss) ∧
    m'.unfinishedIndex.toOption = some [2] ∧ c.unfinishedIndex.toOption = some [1] ∧
    (c.row 1).map Trans.terminated = some true ∧ (c.row 2).map Trans.terminated = some false := by
  obtain ⟨sep, h, _⟩ := exCopied_reach
  obtain ⟨m', rss, hr⟩ : ∃ m' rss, exCopied.run exUses = .ok (m', rss) := ⟨_, _, rfl⟩
  have hu : (exCopied.run exUses).toOption.map (fun p => p.1.unfinishedIndex.toOption) = some (some [2]) := by
    decide +kernel
  have hc : (exCopied.copy.run exUses).toOption.map (fun p => (p.1.unfinishedIndex.toOption,
      (p.1.row 1).map Trans.terminated, (p.1.row 2).map Trans.terminated)) =
      some (some [1], some true, some false) := by decide +kernel
  obtain ⟨c, sep', h1, _, _⟩ := C224_unfinished h exUses hr
  rw [hr] at hu
  rw [h1] at hc
  simp only [Except.toOption, Option.map_some, Option.some.injEq, Prod.mk.injEq] at hu hc
  exact ⟨exCopied, m', sep, exUses, c, rss, h, hr, h1, hu, hc.1, hc.2.1, hc.2.2⟩

/-- The example also meets the hypotheses of `C224_reported_open`: slot 1 was free at the time of the copy. -/
example : exCopied.data 1 = none ∧ ((exCopied.run exUses).toOption.map fun p =>
    (p.1.subs.map fun s => s.idx.allIndices.getLast?)) = some [some 1, some 0] := by decide +kernel

/-- **C224** On a copy of a cached buffer, calls of `add` return what they return on the original, and the length
agrees, but no finished episode ever arrives in the main part: its rows stay those of the time of the copy. -/
theorem C224_cached {m m' : Mgr O A R} {sep : List (Buf O A R)} (h : Reach m sep)
    (us : List (List Nat × List (Trans O A R))) (hnd : ∀ u ∈ us, u.1.Nodup) {rss : List (List (CachedResult R))}
    (hr : m.cachedRun us = .ok (m', rss)) :
    ∃ c, m.copy.cachedRun us = .ok (c, rss) ∧ c.len = m'.len ∧
      ∀ main, sep[0]? = some main → ∀ i, i < main.idx.maxsize → c.row i = m.data i := by
  have key : ∀ (us : List (List Nat × List (Trans O A R))) (n : Mgr O A R) (c : Unlinked O A R)
      (sep : List (Buf O A R)) (rss : List (List (CachedResult R))), Reach n sep → Twin c.mgr n →
      (∀ u ∈ us, u.1.Nodup) → n.cachedRun us = .ok (m', rss) →
      (∀ i, i < startOf sep 1 → c.mgr.data i = m.data i) →
      ∃ c', c.cachedRun us = .ok (c', rss) ∧ Twin c'.mgr m' ∧ ∀ i, i < startOf sep 1 → c'.mgr.data i = m.data i := by
    intro us
    induction us with
    | nil =>
      intro n c sep rss _ T _ hr hm
      cases hr
      exact ⟨c, rfl, T, hm⟩
    | cons u us ih =>
      intro n c sep rss hR T hnd hr hm
      obtain ⟨ids, rows⟩ := u
      unfold Mgr.cachedRun at hr
      cases ha : n.cachedAdd ids rows with
      | error e => rw [ha] at hr; cases hr
      | ok q =>
        obtain ⟨n1, rs⟩ := q
        rw [ha] at hr
        simp only at hr
        cases hb : n1.cachedRun us with
        | error e => rw [hb] at hr; cases hr
        | ok q =>
          obtain ⟨n2, rss'⟩ := q
          rw [hb] at hr
          simp only [Except.ok.injEq, Prod.mk.injEq] at hr
          obtain ⟨rfl, rfl⟩ := hr
          obtain ⟨c1, sep1, g1, T1, R1, hs1, d1⟩ := cached_step hR T (hnd (ids, rows) List.mem_cons_self) ha hm
          obtain ⟨c2, g2, T2, d2⟩ := ih n1 c1 sep1 rss' R1 T1 (fun u hu => hnd u (by simp [hu])) hb
            (by rw [hs1]; exact d1)
          refine ⟨c2, ?_, T2, by rw [← hs1]; exact d2⟩
          unfold Unlinked.cachedRun
          rw [g1]
          simp only
          rw [g2]
  obtain ⟨c, g, T, d⟩ := key us m m.copy sep rss h ⟨rfl, rfl⟩ hnd hr (fun _ _ => rfl)
  refine ⟨c, g, ?_, ?_⟩
  · simp only [Unlinked.len, Mgr.len, T.subs]
  · intro main hm i hi
    apply d
    cases sep with
    | nil => cases hm
    | cons a sep =>
      simp only [List.getElem?_cons_zero, Option.some.injEq] at hm
      subst hm
      simpa [startOf] using hi

/-- Apply several calls of `CachedReplayBuffer.add`. -/
def Mgr.cachedAll (m : Mgr O A R) : List (List Nat × List (Trans O A R)) → Mgr O A R
  | [] => m
  | (ids, rows) :: rest => match m.cachedAdd ids rows with
    | .ok (m', _) => m'.cachedAll rest
    | .error _ => m

theorem Reach.cachedAll {m : Mgr O A R} {sep : List (Buf O A R)} (h : Reach m sep)
    (calls : List (List Nat × List (Trans O A R))) (hnd : ∀ p ∈ calls, p.1.Nodup) :
    ∃ sep', Reach (m.cachedAll calls) sep' := by
  induction calls generalizing m sep with
  | nil => exact ⟨sep, h⟩
  | cons p rest ih =>
    obtain ⟨ids, rows⟩ := p
    unfold Mgr.cachedAll
    cases ha : m.cachedAdd ids rows with
    | error e => exact ⟨sep, h⟩
    | ok q =>
      obtain ⟨m1, rs⟩ := q
      obtain ⟨_, sep1, _, _, R1, _⟩ := cached_step (m := m) (c := m.copy) h ⟨rfl, rfl⟩ (hnd (ids, rows) List.mem_cons_self) ha
        (fun _ _ => rfl)
      exact ih R1 (fun p hp => hnd p (List.mem_cons_of_mem _ hp))

/-- A cached buffer that holds one finished episode (observations 10, 11) and an open one (20). -/
def exCachedCopy : Mgr Nat Nat Int := (Mgr.newCached 6 2 3 {} : Mgr Nat Nat Int).cachedAll
  [([0, 1], [tr 10 false false, tr 20 false false]), ([0], [tr 11 true false])]

/-- **C224 violated** (a copied cached buffer collects finished episodes): after the copy the episode 20, 21 ends; the
original stores it in slots 2 and 3 of the main part; the copy reports the same slots and the same length, and
`sample` will draw them, but nothing has ever been written there. -/
theorem C224_cached_violated : ∃ (m m' : Mgr Nat Nat Int) (sep : List (Buf Nat Nat Int)) (c : Unlinked Nat Nat Int)
    (rss : List (List (CachedResult Int))), Reach m sep ∧
    m.cachedRun [([1], [tr 21 true false])] = .ok (m', rss) ∧
    m.copy.cachedRun [([1], [tr 21 true false])] = .ok (c, rss) ∧
    rss.flatten.map (fun r => (r.epStart, r.slot)) = [(2, 3)] ∧ m'.len = 4 ∧ c.len = 4 ∧
    [2, 3].map (fun i => (m'.data i).map Trans.obs) = [some 20, some 21] ∧
    [2, 3].map (fun i => (c.row i).map Trans.obs) = [none, none] ∧
    (c.sampleIndices id (fun _ => id) (some 0)).toOption = some [0, 1, 2, 3] := by
  obtain ⟨sep, h⟩ : ∃ sep, Reach exCachedCopy sep :=
    Reach.cachedAll (Reach.new [6, 3, 3] (by decide) {}) _ (by decide)
  obtain ⟨m', rss, hr⟩ : ∃ m' rss, exCachedCopy.cachedRun [([1], [tr 21 true false])] = .ok (m', rss) := ⟨_, _, rfl⟩
  obtain ⟨c, hc, _⟩ := C224_cached h [([1], [tr 21 true false])] (by decide) hr
  have e1 : (exCachedCopy.cachedRun [([1], [tr 21 true false])]).toOption.map (fun p =>
      (p.2.flatten.map (fun r => (r.epStart, r.slot)), p.1.len, [2, 3].map fun i => (p.1.data i).map Trans.obs)) =
      some ([(2, 3)], 4, [some 20, some 21]) := by decide +kernel
  have e2 : (exCachedCopy.copy.cachedRun [([1], [tr 21 true false])]).toOption.map (fun p =>
      (p.1.len, [2, 3].map (fun i => (p.1.row i).map Trans.obs),
        (p.1.sampleIndices id (fun _ => id) (some 0)).toOption)) =
      some (4, [none, none], some [0, 1, 2, 3]) := by decide +kernel
  rw [hr] at e1
  rw [hc] at e2
  simp only [Except.toOption, Option.map_some, Option.some.injEq, Prod.mk.injEq] at e1 e2
  exact ⟨exCachedCopy, m', sep, c, rss, h, hr, hc, e1.1, e1.2.1, e2.1, e1.2.2, e2.2.1, e2.2.2⟩

end Verif.Buffer
