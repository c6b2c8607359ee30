import Verif.Lemmas.Pipeline

/-! Lemmas for `Verif/Props/Pipeline.lean` and `Verif/Props/CachedPipeline.lean`: targets depend only on the rest of the episode. -/

namespace Verif.Pipeline

open Verif.Buffer Verif.Spec Verif.Returns

set_option linter.unusedSectionVars false

variable {O A R I : Type}

/-- The stored rest of the episode of step `k`, that step included. -/
def rest (c : List (Trans O A R)) (k : Nat) : List (Trans O A R) := (c.drop k).take (epLast Trans.done c k - k + 1)

theorem epLast_bounds (c : List (Trans O A R)) (k : Nat) (h : k < c.length) :
    k ≤ epLast Trans.done c k ∧ epLast Trans.done c k < c.length := by
  unfold epLast
  omega

theorem rest_length (c : List (Trans O A R)) (k : Nat) (h : k < c.length) :
    (rest c k).length = epLast Trans.done c k - k + 1 := by
  have := epLast_bounds c k h
  rw [rest, List.length_take, List.length_drop]
  omega

theorem rest_get (c : List (Trans O A R)) (k j : Nat) (h : k < c.length) (hj : j < (rest c k).length) :
    c[k + j]? = (rest c k)[j]? := by
  rw [rest_length c k h] at hj
  rw [rest, List.getElem?_take_of_lt hj, List.getElem?_drop]

theorem rest_drop (c : List (Trans O A R)) (a k : Nat) (h : a + k < c.length) : rest (c.drop a) k = rest c (a + k) := by
  have h1 := epLast_drop Trans.done c a k h
  unfold rest
  rw [List.drop_drop, show epLast Trans.done (c.drop a) k - k = epLast Trans.done c (a + k) - (a + k) by omega]

theorem nstepLen_rest (c : List (Trans O A R)) (N k : Nat) (h : k < c.length) :
    nstepLen c N k = min N (rest c k).length := by
  rw [nstepLen, rest_length c k h]

theorem nstepValue_rest [CommRing R] (c : List (Trans O A R)) (gamma : R) (N k : Nat) (hN : 0 < N) (x : R) (h : k < c.length) :
    nstepValue c gamma N k x =
      (∑ j ∈ Finset.range (min N (rest c k).length), gamma ^ j * rewOf (rest c k) j) +
        gamma ^ min N (rest c k).length * bootstrap (rest c k) (min N (rest c k).length - 1) x := by
  unfold nstepValue
  rw [nstepLen_rest c N k h]
  have hpos : 0 < (rest c k).length := by rw [rest_length c k h]; omega
  congr 1
  · apply Finset.sum_congr rfl
    intro j hj
    rw [Finset.mem_range] at hj
    unfold rewOf
    rw [rest_get c k j h (by omega)]
  · unfold bootstrap termOf
    rw [rest_get c k _ h (by omega)]

theorem streamGae_rest [CommRing R] (c : List (Trans O A R)) (gamma lam : R) (v v' : Nat → R) (val val' : Trans O A R → R) (k : Nat)
    (h : k < c.length) (hv : ∀ j, k + j < c.length → v (k + j) = valueAt c val (k + j))
    (hv' : ∀ j, k + j < c.length → v' (k + j) = valueAt c val' (k + j)) :
    gaeSum c gamma lam v v' k = ∑ l ∈ Finset.range (rest c k).length,
      (gamma * lam) ^ l * (rewOf (rest c k) l + gamma * bootstrap (rest c k) l (valueAt (rest c k) val' l) - valueAt (rest c k) val l) := by
  unfold gaeSum
  rw [rest_length c k h]
  apply Finset.sum_congr rfl
  intro j hj
  rw [Finset.mem_range, ← rest_length c k h] at hj
  have hj' := hj
  rw [rest_length c k h] at hj'
  have hb := epLast_bounds c k h
  rw [hv j (by omega), hv' j (by omega)]
  unfold bootstrap termOf rewOf valueAt
  rw [rest_get c k j h hj]

/-- Every transition stored in one of the buffers `sep` is a step of one of `num` streams, and the rest of its episode in the buffer is the rest
of its episode in this stream. -/
def Embeds [AddCommMonoid R] (o : Opts O) (num : Nat) (log : List (List (Nat × Collector.Row O A R I))) (sep : List (Buf O A R)) : Prop :=
  ∀ (b : Nat) (cb : Buf O A R), sep[b]? = some cb → cb.opts = o ∧ ∀ k < (stored cb).length, ∃ e k', e < num ∧
    k' < (Collector.rowsOf e log).length ∧
    rest (stored cb) k = rest ((Collector.rowsOf e log).map fun r => expectedRow o (experience r)) k'

/-- The targets computed for slots that hold transitions, from buffers whose transitions are steps of the streams. -/
theorem nstep_at [CommRing R] (log : List (List (Nat × Collector.Row O A R I))) (num : Nat) {o : Opts O}
    (hm : o.stackNum = 1 ∨ o.sampleAvail = false) {m : Mgr O A R} {sep : List (Buf O A R)} (r1 : Reach m sep) (ro : m.opts = o)
    (r3 : Embeds o num log sep) (indices : List Nat) (g3 : ∀ i ∈ indices, LiveIn sep i) (targetQ : List Nat → List (List R))
    (hQ : ∀ l, (targetQ l).length = l.length) (gamma : R) (N : Nat) (hN : 0 < N) :
    ∃ (after : List Nat) (out : List (List R)), computeNstepReturn (ofMgr m) indices.length indices targetQ gamma N = some out ∧ out.length = indices.length ∧
      ∀ (p i : Nat), indices[p]? = some i → ∃ (e k i' : Nat) (rk rl : Collector.Row O A R I) (q : List R), e < num ∧
        (let stream := (Collector.rowsOf e log).map experience
         (Collector.rowsOf e log)[k]? = some rk ∧ m.data i = some (expectedRow o (experience rk)) ∧
         (Collector.rowsOf e log)[k + (nstepLen stream N k - 1)]? = some rl ∧
         after[p]? = some i' ∧ m.data i' = some (expectedRow o (experience rl)) ∧
         (targetQ after)[p]? = some q ∧ out[p]? = some (q.map (nstepValue stream gamma N k))) := by
  rw [← ro] at hm
  -- every live slot is a slot of a separate buffer
  have hlive : ∀ i ∈ indices, ∃ (b : Nat) (cb : Buf O A R) (j : Nat), sep[b]? = some cb ∧ j ∈ cb.idx.allIndices ∧
      i = j + startOf sep b := by
    intro i hi
    obtain ⟨b, cb, hb, hlo, hhi⟩ := g3 i hi
    obtain ⟨g, hg⟩ := (C20_store r1 b cb hb).2
    obtain ⟨o1, _⟩ := r3 b cb hb
    obtain ⟨l, _, hl, _, _, hmem⟩ := C06_enumerates hg (by rw [o1, ← ro]; exact hm) (fun _ => 0)
    refine ⟨b, cb, i - startOf sep b, hb, ?_, by omega⟩
    rw [← hl, hmem]
    omega
  obtain ⟨after, out, q1, q2, q3, q4⟩ := C36_vector r1 indices hlive targetQ hQ gamma N hN
  refine ⟨after, out, q1, q2, ?_⟩
  intro p i hp
  obtain ⟨e, cb, j, hb, hj, rfl⟩ := hlive i (List.mem_of_getElem? hp)
  obtain ⟨k, hk, hkj⟩ := List.getElem_of_mem hj
  have hkj' : cb.idx.allIndices[k]? = some j := by rw [List.getElem?_eq_getElem hk, hkj]
  obtain ⟨q5, q, q6, q7⟩ := q4 p e k j cb hb hp hkj'
  obtain ⟨o1, o2⟩ := r3 e cb hb
  obtain ⟨hdata, g, hg⟩ := C20_store r1 e cb hb
  have hfifo := C05_fifo hg
  have hst := stored_eq hg
  unfold content at hst
  rw [← hst] at hfifo
  have hlenall : cb.idx.allIndices.length = (stored cb).length := by
    have := congrArg List.length hfifo
    simpa using this
  -- slots and transitions
  have hslot : ∀ (k' i' : Nat), cb.idx.allIndices[k']? = some i' → ∃ row, (stored cb)[k']? = some row ∧ m.data (i' + startOf sep e) = some row := by
    intro k' i' hk'
    have h1 := congrArg (fun l => l[k']?) hfifo
    simp only [List.getElem?_map, hk', Option.map_some] at h1
    cases h2 : (stored cb)[k']? with
    | none => rw [h2] at h1; simp at h1
    | some row =>
      rw [h2] at h1
      simp only [Option.map_some, Option.some.injEq] at h1
      refine ⟨row, rfl, ?_⟩
      have hi' : i' ∈ cb.idx.allIndices := List.mem_of_getElem? hk'
      have hmax : i' < cb.idx.maxsize := by
        obtain ⟨l, _, hl, _, _, hmem⟩ := C06_enumerates hg (by rw [o1, ← ro]; exact hm) (fun _ => 0)
        have h3 := (hmem i').1 (by rw [hl]; exact hi')
        have h4 := hg.holds.size_le
        unfold Buf.len at h3
        omega
      rw [Nat.add_comm, hdata i' hmax, h1]
  have hk2 : k < (stored cb).length := by rw [← hlenall]; exact hk
  obtain ⟨e', k', he, hk', hrest⟩ := o2 k hk2
  generalize hstream : ((Collector.rowsOf e' log).map fun r => expectedRow o (experience r)) = stream at hrest
  have hsl : k' < stream.length := by rw [← hstream, List.length_map]; exact hk'
  have hcongr := nstep_congr ((Collector.rowsOf e' log).map (experience (O := O) (A := A) (R := R))) (expectedRow o)
    (fun _ => rfl) (fun _ => rfl) (fun _ => rfl) gamma N k'
  rw [List.map_map, Function.comp_def, hstream] at hcongr
  have hL : nstepLen (stored cb) N k = nstepLen ((Collector.rowsOf e' log).map experience) N k' := by
    rw [← (hcongr 0).1, nstepLen_rest _ _ _ hsl, nstepLen_rest _ _ _ hk2, hrest]
  have hV : nstepValue (stored cb) gamma N k = nstepValue ((Collector.rowsOf e' log).map experience) gamma N k' := by
    funext x
    rw [← (hcongr x).2, nstepValue_rest _ _ _ _ hN _ hsl, nstepValue_rest _ _ _ _ hN _ hk2, hrest]
  have hrow : ∀ (j : Nat) (row : Trans O A R), j < (rest (stored cb) k).length → (stored cb)[k + j]? = some row →
      ∃ r, (Collector.rowsOf e' log)[k' + j]? = some r ∧ row = expectedRow o (experience r) := by
    intro j row hj hrow
    rw [rest_get _ _ _ hk2 hj, hrest, ← rest_get _ _ _ hsl (by rw [← hrest]; exact hj), ← hstream, List.getElem?_map,
      Option.map_eq_some_iff] at hrow
    obtain ⟨r, g1, g2⟩ := hrow
    exact ⟨r, g1, g2.symm⟩
  have hrpos : 0 < (rest (stored cb) k).length := by rw [rest_length _ _ hk2]; omega
  obtain ⟨row, w1, w2⟩ := hslot k j hkj'
  obtain ⟨rk, w3, w4⟩ := hrow 0 row hrpos w1
  have hplt : p < after.length := by
    rw [q3]; exact (List.getElem?_eq_some_iff.mp hp).1
  have hafter := List.getElem?_eq_getElem hplt
  rw [hafter] at q5
  cases hk2 : cb.idx.allIndices[k + (nstepLen (stored cb) N k - 1)]? with
  | none => rw [hk2] at q5; simp at q5
  | some j' =>
    rw [hk2] at q5
    simp only [Option.map_some, Option.some.injEq] at q5
    obtain ⟨row', w5, w6⟩ := hslot _ _ hk2
    have hlt : nstepLen (stored cb) N k - 1 < (rest (stored cb) k).length := by
      rw [nstepLen_rest _ _ _ (by assumption)]; omega
    obtain ⟨rl, w7, w8⟩ := hrow _ row' hlt w5
    refine ⟨e', k', j' + startOf sep e, rk, rl, q, he, w3, by rw [w2, w4], ?_, by rw [hafter, q5], by rw [w6, w8], q6, ?_⟩
    · rw [← hL, ← w7]
    · rw [q7, hV]

/-- The targets computed from buffers whose transitions are steps of the streams. -/
theorem nstep_of_embeds [CommRing R] (log : List (List (Nat × Collector.Row O A R I))) (num : Nat) {o : Opts O}
    (hm : o.stackNum = 1 ∨ o.sampleAvail = false) {m : Mgr O A R} {sep : List (Buf O A R)} (r1 : Reach m sep) (ro : m.opts = o)
    (r3 : Embeds o num log sep) (hlen : 0 < m.len)
    (draw : Nat → Nat) (rng : Nat → Nat → Nat) (n : Nat) (hpos : 0 < n) (targetQ : List Nat → List (List R))
    (hQ : ∀ l, (targetQ l).length = l.length) (gamma : R) (N : Nat) (hN : 0 < N) :
    ∃ (indices after : List Nat) (out : List (List R)), m.sampleIndices draw rng (some n) = .ok indices ∧ indices.length = n ∧
      computeNstepReturn (ofMgr m) n indices targetQ gamma N = some out ∧ out.length = n ∧
      ∀ (p i : Nat), indices[p]? = some i → ∃ (e k i' : Nat) (rk rl : Collector.Row O A R I) (q : List R), e < num ∧
        (let stream := (Collector.rowsOf e log).map experience
         (Collector.rowsOf e log)[k]? = some rk ∧ m.data i = some (expectedRow o (experience rk)) ∧
         (Collector.rowsOf e log)[k + (nstepLen stream N k - 1)]? = some rl ∧
         after[p]? = some i' ∧ m.data i' = some (expectedRow o (experience rl)) ∧
         (targetQ after)[p]? = some q ∧ out[p]? = some (q.map (nstepValue stream gamma N k))) := by
  obtain ⟨indices, g1, g2, g3⟩ := C23_sample r1 (by rw [ro]; exact hm) draw rng n hpos hlen
  obtain ⟨after, out, q1, q2, q3⟩ := nstep_at log num hm r1 ro r3 indices g3 targetQ hQ gamma N hN
  rw [g2] at q1 q2
  exact ⟨indices, after, out, g1, g2, q1, q2, q3⟩

/-- The advantages computed from buffers whose transitions are steps of the streams. -/
theorem gae_of_embeds [CommRing R] (log : List (List (Nat × Collector.Row O A R I))) (num : Nat) {o : Opts O}
    (hm : o.stackNum = 1 ∨ o.sampleAvail = false) {m : Mgr O A R} {sep : List (Buf O A R)} (r1 : Reach m sep) (ro : m.opts = o)
    (r3 : Embeds o num log sep)
    (draw : Nat → Nat) (rng : Nat → Nat → Nat) (val val' : Trans O A R → R) (gamma lam : R) (isClose : Bool) :
    ∃ (indices : List Nat) (ret adv : List R), m.sampleIndices draw rng (some 0) = .ok indices ∧
      computeEpisodicReturn (ofMgr m) (rowsAt m.data indices) indices
        (some (indices.map fun i => ((m.data i).map val').getD 0)) (some (indices.map fun i => ((m.data i).map val).getD 0))
        gamma lam isClose = some (ret, adv) ∧ adv.length = indices.length ∧
      ∀ (p i : Nat), indices[p]? = some i → ∃ (e k : Nat) (rk : Collector.Row O A R I), e < num ∧
        (Collector.rowsOf e log)[k]? = some rk ∧ m.data i = some (expectedRow o (experience rk)) ∧
        adv[p]? = some (streamGae ((Collector.rowsOf e log).map fun r => expectedRow o (experience r)) gamma lam val val' k) := by
  rw [← ro] at hm
  have hi := C23_order r1 hm draw rng
  generalize hind : (sep.zipIdx.map fun p => p.1.idx.allIndices.map (· + startOf sep p.2)).flatten = indices at hi
  have hrange : ∀ f : Nat → R, indices.map f = (List.range indices.length).map fun j => ((indices[j]?).map f).getD 0 := by
    intro f
    apply List.ext_getElem?
    intro j
    rw [List.getElem?_map, List.getElem?_map]
    by_cases hj : j < indices.length
    · rw [List.getElem?_eq_getElem hj, List.getElem?_range hj]
      simp [List.getElem?_eq_getElem hj]
    · rw [List.getElem?_eq_none (by omega), List.getElem?_eq_none (by simp; omega)]
      rfl
  obtain ⟨ret, adv, a1, a2, a3⟩ := C33_vector r1 hm hi
    (fun j => ((indices[j]?).map fun i => ((m.data i).map val).getD 0).getD 0)
    (fun j => ((indices[j]?).map fun i => ((m.data i).map val').getD 0).getD 0) gamma lam isClose
  refine ⟨indices, ret, adv, hi, by rw [hrange, hrange]; exact a1, a2, ?_⟩
  intro p i hp
  -- facts about sub-buffer `e`
  have hall : ∀ (e : Nat) (cb : Buf O A R), sep[e]? = some cb → cb.idx.allIndices.length = (stored cb).length ∧
      ∀ (k i : Nat), cb.idx.allIndices[k]? = some i → m.data (i + startOf sep e) = (stored cb)[k]? := by
    intro e cb hb
    obtain ⟨hdata, g, hg⟩ := C20_store r1 e cb hb
    have hfifo := C05_fifo hg
    have hst := stored_eq hg
    unfold content at hst
    rw [← hst] at hfifo
    refine ⟨by simpa using congrArg List.length hfifo, ?_⟩
    intro k i hk
    have h1 := congrArg (fun l => l[k]?) hfifo
    simp only [List.getElem?_map, hk, Option.map_some] at h1
    have hmax : i < cb.idx.maxsize := by
      obtain ⟨l, _, hl, _, _, hmem⟩ := C06_enumerates hg (by rw [(r3 e cb hb).1, ← ro]; exact hm) (fun _ => 0)
      have h3 := (hmem i).1 (by rw [hl]; exact List.mem_of_getElem? hk)
      have h4 := hg.holds.size_le
      unfold Buf.len at h3
      omega
    rw [Nat.add_comm, hdata i hmax]
    cases h2 : (stored cb)[k]? with
    | none => rw [h2] at h1; simp at h1
    | some row => rw [h2] at h1; simpa using h1
  have hlens : (sep.zipIdx.map fun p => p.1.idx.allIndices.map (· + startOf sep p.2)).map List.length =
      sep.map fun cb => (stored cb).length := by
    apply List.ext_getElem?
    intro e
    simp only [List.getElem?_map, List.getElem?_zipIdx, Option.map_map]
    cases hb : sep[e]? with
    | none => rfl
    | some cb => simp [(hall e cb hb).1]
  -- position `offset + k` of the batch is step `k` of sub-buffer `e`
  have hpos : ∀ (e : Nat) (cb : Buf O A R) (k : Nat), sep[e]? = some cb → k < (stored cb).length →
      ∃ i, cb.idx.allIndices[k]? = some i ∧ indices[offset sep e + k]? = some (i + startOf sep e) := by
    intro e cb k hb hk
    have hk' : k < cb.idx.allIndices.length := by rw [(hall e cb hb).1]; exact hk
    refine ⟨_, List.getElem?_eq_getElem hk', ?_⟩
    have hL : (sep.zipIdx.map fun p => p.1.idx.allIndices.map (· + startOf sep p.2))[e]? =
        some (cb.idx.allIndices.map (· + startOf sep e)) := by
      simp [List.getElem?_zipIdx, hb]
    generalize (sep.zipIdx.map fun p => p.1.idx.allIndices.map (· + startOf sep p.2)) = L at hL hind hlens
    have hoff : offset sep e = (L.take e).flatten.length := by
      rw [List.length_flatten, ← List.map_take.symm, hlens]
      rfl
    have hsplit : L.flatten = (L.take e).flatten ++ (cb.idx.allIndices.map (· + startOf sep e) ++ (L.drop (e + 1)).flatten) := by
      have h1 : L = L.take e ++ cb.idx.allIndices.map (· + startOf sep e) :: L.drop (e + 1) := by
        obtain ⟨h1, h2⟩ := List.getElem?_eq_some_iff.mp hL
        rw [← h2, List.getElem_cons_drop, List.take_append_drop]
      conv_lhs => rw [h1]
      rw [List.flatten_append, List.flatten_cons]
    rw [← hind, hsplit, hoff, List.getElem?_append_right (by omega), List.getElem?_append_left (by simp; omega)]
    simp [List.getElem?_eq_getElem hk']
  rw [← hind] at hp
  obtain ⟨e, l, k, f1, f2, f3⟩ := flatten_get _ p i hp
  rw [List.getElem?_map, List.getElem?_zipIdx, Option.map_map, Option.map_eq_some_iff] at f1
  obtain ⟨cb, hb, rfl⟩ := f1
  rw [hlens] at f3
  simp only [Function.comp, Nat.zero_add, List.getElem?_map, Option.map_eq_some_iff] at f2
  obtain ⟨i0, f4, rfl⟩ := f2
  obtain ⟨hlen, hslot⟩ := hall e cb hb
  have hk : k < (stored cb).length := by rw [← hlen]; exact (List.getElem?_eq_some_iff.mp f4).1
  obtain ⟨o1, o2⟩ := r3 e cb hb
  obtain ⟨e', k', he, hk', hrest⟩ := o2 k hk
  generalize hstream : ((Collector.rowsOf e' log).map fun r => expectedRow o (experience r)) = stream at hrest
  have hsl : k' < stream.length := by rw [← hstream, List.length_map]; exact hk'
  have hrow := hslot k i0 f4
  have hrpos : 0 < (rest (stored cb) k).length := by rw [rest_length _ _ hk]; omega
  have hget : (stored cb)[k]? = stream[k']? := by
    have := rest_get (stored cb) k 0 hk hrpos
    rw [hrest, ← rest_get stream k' 0 hsl (by rw [← hrest]; exact hrpos)] at this
    exact this
  have hval : ∀ (f : Trans O A R → R) (j : Nat), k + j < (stored cb).length →
      ((indices[offset sep e + (k + j)]?).map fun i => ((m.data i).map f).getD 0).getD 0 = valueAt (stored cb) f (k + j) := by
    intro f j hj
    obtain ⟨i1, g1, g2⟩ := hpos e cb (k + j) hb hj
    rw [g2, Option.map_some, Option.getD_some, hslot (k + j) i1 g1, valueAt]
  have hadv := a3 e cb k hb hk
  have hsk : stream[k']? = some (expectedRow o (experience ((Collector.rowsOf e' log)[k']))) := by
    rw [← hstream, List.getElem?_map, List.getElem?_eq_getElem hk', Option.map_some]
  refine ⟨e', k', _, he, List.getElem?_eq_getElem hk', by rw [hrow, hget, hsk], ?_⟩
  rw [f3]
  change adv[offset sep e + k]? = _
  rw [hadv, hstream, streamGae]
  congr 1
  rw [streamGae_rest (stored cb) gamma lam _ _ val val' k hk (hval val) (hval val'),
    streamGae_rest stream gamma lam _ _ val val' k' hsl (fun _ _ => rfl) (fun _ _ => rfl), hrest]

end Verif.Pipeline
