import Verif.Spec.Manager
import Verif.Lemmas.BufferReads

set_option linter.unusedSectionVars false

namespace Verif.Buffer

open Verif.Spec

variable {O A R : Type} [AddCommMonoid R]

/-! ### Layout -/

def maxs (subs : List (Sub R)) : List Nat := subs.map fun s => s.idx.maxsize

structure Layout (subs : List (Sub R)) (total : Nat) : Prop where
  offset : ∀ b s, subs[b]? = some s → s.offset = ((maxs subs).take b).sum
  total : total = (maxs subs).sum

theorem sum_take_add_le (l : List Nat) {i j : Nat} (h : i < j) (x : Nat) (hx : l[i]? = some x) :
    (l.take i).sum + x ≤ (l.take j).sum := by
  induction l generalizing i j with
  | nil => simp at hx
  | cons a l ih =>
    cases j with
    | zero => omega
    | succ j =>
      cases i with
      | zero =>
        simp only [List.getElem?_cons_zero, Option.some.injEq] at hx
        simp [hx]
      | succ i =>
        simp only [List.getElem?_cons_succ] at hx
        have := ih (by omega : i < j) hx
        simp only [List.take_succ_cons, List.sum_cons]
        omega

theorem maxs_getElem? {subs : List (Sub R)} {b : Nat} {s : Sub R} (h : subs[b]? = some s) :
    (maxs subs)[b]? = some s.idx.maxsize := by simp [maxs, h]

theorem Layout.disjoint {subs : List (Sub R)} {total : Nat} (L : Layout subs total) {i j : Nat} {s t : Sub R}
    (hi : subs[i]? = some s) (hj : subs[j]? = some t) (h : i < j) :
    s.offset + s.idx.maxsize ≤ t.offset := by
  rw [L.offset i s hi, L.offset j t hj]
  exact sum_take_add_le _ h _ (maxs_getElem? hi)

theorem Layout.le_total {subs : List (Sub R)} {total : Nat} (L : Layout subs total) {i : Nat} {s : Sub R}
    (hi : subs[i]? = some s) : s.offset + s.idx.maxsize ≤ total := by
  rw [L.offset i s hi, L.total]
  have hlt : i < subs.length := (List.getElem?_eq_some_iff.mp hi).1
  have := sum_take_add_le (maxs subs) hlt _ (maxs_getElem? hi)
  have e : (maxs subs).take subs.length = maxs subs := List.take_of_length_le (by simp [maxs])
  rwa [e] at this

theorem maxs_set {subs : List (Sub R)} {b : Nat} {s s' : Sub R} (h : subs[b]? = some s)
    (hm : s'.idx.maxsize = s.idx.maxsize) : maxs (subs.set b s') = maxs subs := by
  unfold maxs
  rw [List.map_set, hm]
  apply List.ext_getElem?
  intro i
  rw [List.getElem?_set]
  split
  · rename_i hbi
    subst hbi
    obtain ⟨hlt, he⟩ := List.getElem?_eq_some_iff.mp h
    simp [hlt, he]
  · rfl

theorem Layout.set {subs : List (Sub R)} {total : Nat} (L : Layout subs total) {b : Nat} {s s' : Sub R}
    (h : subs[b]? = some s) (hm : s'.idx.maxsize = s.idx.maxsize) (ho : s'.offset = s.offset) :
    Layout (subs.set b s') total := by
  constructor
  · intro i t hi
    rw [maxs_set h hm]
    rw [List.getElem?_set] at hi
    split at hi
    · rename_i hbi
      subst hbi
      split at hi
      · cases hi; rw [ho]; exact L.offset _ _ h
      · cases hi
    · exact L.offset i t hi
  · rw [maxs_set h hm]; exact L.total

/-- Every position below the total lies in exactly one sub-buffer. -/
theorem exists_take_sum (l : List Nat) (i : Nat) (h : i < l.sum) :
    ∃ b x, l[b]? = some x ∧ (l.take b).sum ≤ i ∧ i < (l.take b).sum + x := by
  induction l generalizing i with
  | nil => simp at h
  | cons a l ih =>
    by_cases hi : i < a
    · exact ⟨0, a, rfl, by simp, by simpa using hi⟩
    · simp only [List.sum_cons] at h
      obtain ⟨b, x, h1, h2, h3⟩ := ih (i - a) (by omega)
      refine ⟨b + 1, x, by simpa using h1, ?_, ?_⟩
      · simp only [List.take_succ_cons, List.sum_cons]; omega
      · simp only [List.take_succ_cons, List.sum_cons]; omega

theorem Layout.find {subs : List (Sub R)} {total : Nat} (L : Layout subs total) {i : Nat} (h : i < total) :
    ∃ (b : Nat) (s : Sub R), subs[b]? = some s ∧ s.offset ≤ i ∧ i < s.offset + s.idx.maxsize := by
  rw [L.total] at h
  obtain ⟨b, x, h1, h2, h3⟩ := exists_take_sum _ _ h
  simp only [maxs, List.getElem?_map, Option.map_eq_some_iff] at h1
  obtain ⟨s, hs, rfl⟩ := h1
  refine ⟨b, s, hs, ?_, ?_⟩ <;> rw [L.offset b s hs]
  · exact h2
  · exact h3

/-! ### Children -/

theorem child_write_self (opts : Opts O) (data : Nat → Option (Trans O A R)) (s s' : Sub R)
    (ho : s'.offset = s.offset) (hm : s'.idx.maxsize = s.idx.maxsize) (k : Nat) (hk : k < s.idx.maxsize)
    (v : Option (Trans O A R)) :
    childOf opts (Function.update data (k + s.offset) v) s' =
      { opts := opts, idx := s'.idx, data := Function.update (childOf opts data s).data k v } := by
  unfold childOf
  congr 1
  funext i
  rw [hm, ho]
  by_cases hik : i = k
  · subst hik
    rw [if_pos hk, Function.update_self, Nat.add_comm, Function.update_self]
  · rw [Function.update_of_ne hik, Function.update_of_ne (by omega)]

theorem child_congr (opts : Opts O) (data data' : Nat → Option (Trans O A R)) (s : Sub R)
    (h : ∀ i, s.offset ≤ i → i < s.offset + s.idx.maxsize → data' i = data i) :
    childOf opts data' s = childOf opts data s := by
  unfold childOf
  congr 1
  funext i
  split
  · exact h _ (by omega) (by omega)
  · rfl

structure MInv (m : Mgr O A R) (sep : List (Buf O A R)) : Prop where
  children : m.subs.map m.child = sep
  layout : Layout m.subs m.total
  last : ∀ s ∈ m.subs, s.last = ((s.offset + s.idx.last : Nat) : Int)
  length : ∀ s ∈ m.subs, s.length = s.idx.size
  hist : ∀ b ∈ sep, ∃ g, History b g

theorem MInv.get {m : Mgr O A R} {sep : List (Buf O A R)} (I : MInv m sep) {b : Nat} {s : Sub R}
    (h : m.subs[b]? = some s) : sep[b]? = some (m.child s) := by
  rw [← I.children]; simp [h]

theorem MInv.get' {m : Mgr O A R} {sep : List (Buf O A R)} (I : MInv m sep) {b : Nat} {c : Buf O A R}
    (h : sep[b]? = some c) : ∃ s, m.subs[b]? = some s ∧ c = m.child s := by
  rw [← I.children, List.getElem?_map, Option.map_eq_some_iff] at h
  obtain ⟨s, h1, h2⟩ := h
  exact ⟨s, h1, h2.symm⟩

theorem MInv.child_hist {m : Mgr O A R} {sep : List (Buf O A R)} (I : MInv m sep) {b : Nat} {s : Sub R}
    (h : m.subs[b]? = some s) : ∃ g, History (m.child s) g :=
  I.hist _ (List.mem_of_getElem? (I.get h))

theorem MInv.sub_length {m : Mgr O A R} {sep : List (Buf O A R)} (I : MInv m sep) :
    m.subs.length = sep.length := by rw [← I.children]; simp

theorem MInv.maxs_eq {m : Mgr O A R} {sep : List (Buf O A R)} (I : MInv m sep) :
    maxs m.subs = sep.map fun s => s.idx.maxsize := by
  rw [← I.children]; simp [maxs, Mgr.child, childOf]

theorem MInv.offset_eq {m : Mgr O A R} {sep : List (Buf O A R)} (I : MInv m sep) {b : Nat} {s : Sub R}
    (h : m.subs[b]? = some s) : s.offset = startOf sep b := by
  rw [I.layout.offset b s h, I.maxs_eq]; rfl

/-- Replace entry `b` and write inside its slice only. -/
theorem MInv.set {m : Mgr O A R} {sep : List (Buf O A R)} (I : MInv m sep) {b : Nat} {s s' : Sub R}
    {data' : Nat → Option (Trans O A R)} {c' : Buf O A R}
    (h : m.subs[b]? = some s) (hm : s'.idx.maxsize = s.idx.maxsize) (ho : s'.offset = s.offset)
    (hc : childOf m.opts data' s' = c') (hh : ∃ g, History c' g)
    (hl : s'.last = ((s'.offset + s'.idx.last : Nat) : Int)) (hn : s'.length = s'.idx.size)
    (hd : ∀ i, ¬ (s.offset ≤ i ∧ i < s.offset + s.idx.maxsize) → data' i = m.data i) :
    MInv { m with subs := m.subs.set b s', data := data' } (sep.set b c') := by
  refine ⟨?_, I.layout.set h hm ho, ?_, ?_, ?_⟩
  · show (m.subs.set b s').map (childOf m.opts data') = _
    rw [List.map_set, hc, ← I.children]
    apply List.ext_getElem?
    intro i
    rw [List.getElem?_set, List.getElem?_set]
    simp only [List.length_map]
    split
    · rfl
    · rename_i hbi
      rw [List.getElem?_map, List.getElem?_map]
      cases hi : m.subs[i]? with
      | none => rfl
      | some t =>
        simp only [Option.map_some]
        congr 1
        apply child_congr
        intro p hp1 hp2
        apply hd
        intro hp
        rcases Nat.lt_or_gt_of_ne hbi with hlt | hgt
        · have := I.layout.disjoint h hi hlt; omega
        · have := I.layout.disjoint hi h hgt; omega
  · intro t ht
    rcases List.mem_or_eq_of_mem_set ht with ht | ht
    · exact I.last t ht
    · rw [ht]; exact hl
  · intro t ht
    rcases List.mem_or_eq_of_mem_set ht with ht | ht
    · exact I.length t ht
    · rw [ht]; exact hn
  · intro t ht
    rcases List.mem_or_eq_of_mem_set ht with ht | ht
    · exact I.hist t ht
    · rw [ht]; exact hh

theorem startOf_set (sep : List (Buf O A R)) {b : Nat} {c c' : Buf O A R} (h : sep[b]? = some c)
    (hm : c'.idx.maxsize = c.idx.maxsize) (i : Nat) : startOf (sep.set b c') i = startOf sep i := by
  unfold startOf
  congr 2
  rw [List.map_set, hm]
  apply List.ext_getElem?
  intro j
  rw [List.getElem?_set]
  split
  · rename_i hbi
    subst hbi
    obtain ⟨hlt, he⟩ := List.getElem?_eq_some_iff.mp h
    simp [hlt, he]
  · rfl

theorem preAdd_shape {x x' : Idx R} {rew : R} {d : Bool} {r : AddResult R}
    (h : x.preAdd rew d = .ok (x', r)) : x'.maxsize = x.maxsize ∧ x'.last = r.slot ∧ r.slot = x.ins := by
  unfold Idx.preAdd at h
  split at h
  · cases h
  · simp only at h
    split at h
    · cases h
    · cases h; exact ⟨rfl, rfl, rfl⟩

/-- The loop of `add`, together with the scatter after it, is routing to separate buffers. -/
theorem addLoop_sim (items : List (Nat × Trans O A R)) {m : Mgr O A R} {sep : List (Buf O A R)}
    (I : MInv m sep) (hid : ∀ p ∈ items, p.1 < sep.length) :
    ∃ subs' rs sep' rs', addLoop m.subs (items.map (Prod.map id (prep m.opts))) = .ok (subs', rs) ∧
      routeAll sep items = some (sep', rs') ∧
      MInv ⟨m.opts, subs', m.total, scatter m.data
        ((rs.map AddResult.slot).zip (items.map fun p => some (prep m.opts p.2)))⟩ sep' ∧
      rs = List.zipWith (fun (p : Nat × Trans O A R) r => AddResult.shift (startOf sep p.1) r) items rs' ∧
      rs'.length = items.length ∧
      (∀ b, (∀ p ∈ items, p.1 ≠ b) → sep'[b]? = sep[b]?) ∧
      (∀ i, startOf sep' i = startOf sep i) ∧ sep'.length = sep.length := by
  induction items generalizing m sep with
  | nil =>
    exact ⟨m.subs, [], sep, [], rfl, rfl, by simpa [scatter] using I, rfl, rfl, fun _ _ => rfl, fun _ => rfl, rfl⟩
  | cons p items ih =>
    obtain ⟨b, t⟩ := p
    have hb : b < m.subs.length := by rw [I.sub_length]; exact hid (b, t) (by simp)
    have hs : m.subs[b]? = some m.subs[b] := List.getElem?_eq_getElem hb
    generalize m.subs[b] = s at hs
    obtain ⟨g, hg⟩ := I.child_hist hs
    obtain ⟨c', r, hadd⟩ := hg.inv.add_ok t
    have hg' := hg.add hadd
    have hins : s.idx.ins < s.idx.maxsize := hg.inv.ins_lt
    have hc' : c'.idx.maxsize = (m.child s).idx.maxsize := (hg.inv.add hadd).2.2.1
    have hadd' := hadd
    unfold Buf.add at hadd'
    simp only at hadd'
    have hopts : (m.child s).opts = m.opts := rfl
    have hidx : (m.child s).idx = s.idx := rfl
    rw [hopts, hidx] at hadd'
    cases hpre : s.idx.preAdd (prep m.opts t).rew (prep m.opts t).done with
    | error e => rw [hpre] at hadd'; cases hadd'
    | ok xr =>
      obtain ⟨x, r0⟩ := xr
      rw [hpre] at hadd'
      simp only [Except.ok.injEq, Prod.mk.injEq] at hadd'
      obtain ⟨hc, rfl⟩ := hadd'
      obtain ⟨hxm, hxl, hrs⟩ := preAdd_shape hpre
      set s' : Sub R := { s with idx := x, last := ((r0.slot + s.offset : Nat) : Int), length := x.size } with hs'
      have I' := I.set (s' := s') (c' := c')
        (data' := Function.update m.data (r0.slot + s.offset) (some (prep m.opts t))) hs hxm rfl
        (by
          rw [child_write_self m.opts m.data s s' rfl hxm r0.slot (by omega)]
          rw [← hc]; rfl)
        ⟨_, hg'⟩ (by simp only [hs', hxl]; congr 1; omega) rfl
        (by
          intro i hi
          rw [Function.update_of_ne]
          omega)
      obtain ⟨subs', rs, sep', rs', h1, h2, h3, h4, h5, h6, h7, h8⟩ := ih I'
        (by intro p hp; rw [List.length_set]; exact hid p (by simp [hp]))
      have hsepb := I.get hs
      refine ⟨subs', AddResult.shift s.offset r0 :: rs, sep', r0 :: rs', ?_, ?_, ?_, ?_, ?_, ?_, ?_, ?_⟩
      · simp only [List.map_cons, Prod.map, id, addLoop, hs, hpre]
        simp only at h1
        rw [h1]
        rfl
      · simp only [routeAll, hsepb, hadd, h2]
      · simp only [List.map_cons, List.zip_cons_cons, scatter]
        exact h3
      · rw [h4]
        simp only [List.zipWith_cons_cons]
        congr 1
        · rw [I.offset_eq hs]
        · congr 1
          funext p r
          rw [startOf_set sep hsepb hc']
      · simp [h5]
      · intro b' hb'
        rw [h6 b' (fun p hp => hb' p (by simp [hp]))]
        have : b ≠ b' := hb' (b, t) (by simp)
        rw [List.getElem?_set_ne this]
      · intro i; rw [h7 i, startOf_set sep hsepb hc']
      · rw [h8, List.length_set]

theorem MInv.add {m : Mgr O A R} {sep : List (Buf O A R)} (I : MInv m sep) (ids : List Nat)
    (rows : List (Trans O A R)) (hl : ids.length = rows.length) (hid : ∀ b ∈ ids, b < sep.length) :
    ∃ m' rs sep' rs', m.add ids rows = .ok (m', rs) ∧ routeAll sep (ids.zip rows) = some (sep', rs') ∧
      MInv m' sep' ∧ rs = List.zipWith (fun b r => AddResult.shift (startOf sep b) r) ids rs' ∧
      rs'.length = ids.length ∧ (∀ b, b ∉ ids → sep'[b]? = sep[b]?) ∧
      (∀ i, startOf sep' i = startOf sep i) ∧ sep'.length = sep.length := by
  have hz : ∀ p ∈ ids.zip rows, p.1 < sep.length := fun p hp => hid _ (List.of_mem_zip hp).1
  obtain ⟨subs', rs, sep', rs', h1, h2, h3, h4, h5, h6, h7, h8⟩ := addLoop_sim (ids.zip rows) I hz
  refine ⟨_, rs, sep', rs', ?_, h2, h3, ?_, ?_, ?_, h7, h8⟩
  · unfold Mgr.add
    rw [if_neg (by omega)]
    simp only
    rw [List.zip_map_right, h1]
    simp only [Except.ok.injEq, Prod.mk.injEq, and_true]
    congr 2
    congr 1
    rw [List.map_map]
    rw [show (ids.zip rows).map (fun p => some (prep m.opts p.2)) =
      ((ids.zip rows).map Prod.snd).map (fun t => some (prep m.opts t)) by rw [List.map_map]; rfl]
    rw [List.map_snd_zip (by omega)]
    rfl
  · rw [h4]
    apply List.ext_getElem
    · simp; omega
    · intro i _ _; simp
  · rw [h5]; simp; omega
  · intro b hb
    apply h6
    intro p hp hpb
    exact hb (hpb ▸ (List.of_mem_zip hp).1)

theorem MInv.reset {m : Mgr O A R} {sep : List (Buf O A R)} (I : MInv m sep) (keep : Bool) :
    MInv (m.reset keep) (sep.map fun b => b.reset keep) := by
  refine ⟨?_, ?_, ?_, ?_, ?_⟩
  · rw [← I.children]
    simp only [Mgr.reset, List.map_map]
    apply List.map_congr_left
    intro s _
    rfl
  · have hm : maxs (m.reset keep).subs = maxs m.subs := by
      simp only [maxs, Mgr.reset, List.map_map]; rfl
    constructor
    · intro b s hs
      rw [hm]
      simp only [Mgr.reset, List.getElem?_map, Option.map_eq_some_iff] at hs
      obtain ⟨s0, h1, rfl⟩ := hs
      exact I.layout.offset b s0 h1
    · rw [hm]; exact I.layout.total
  · intro s hs
    simp only [Mgr.reset, List.mem_map] at hs
    obtain ⟨s0, _, rfl⟩ := hs
    simp [Idx.reset]
  · intro s hs
    simp only [Mgr.reset, List.mem_map] at hs
    obtain ⟨s0, _, rfl⟩ := hs
    simp [Idx.reset]
  · intro b hb
    rw [List.mem_map] at hb
    obtain ⟨b0, h0, rfl⟩ := hb
    obtain ⟨g, hg⟩ := I.hist b0 h0
    exact ⟨_, hg.reset keep⟩

theorem initSubs_spec (sizes : List Nat) (a : Nat) :
    ((initSubs sizes a).1.map fun s : Sub R => s.idx) = sizes.map Idx.new ∧
    (initSubs (R := R) sizes a).2 = a + sizes.sum ∧
    (∀ b s, (initSubs (R := R) sizes a).1[b]? = some s →
      s.offset = a + (sizes.take b).sum ∧ s.last = s.offset ∧ s.length = 0) := by
  induction sizes generalizing a with
  | nil => simp [initSubs]
  | cons x xs ih =>
    obtain ⟨h1, h2, h3⟩ := ih (a + x)
    refine ⟨by simp [initSubs, h1], by simp [initSubs, h2]; omega, ?_⟩
    intro b s hs
    cases b with
    | zero =>
      simp only [initSubs, List.getElem?_cons_zero, Option.some.injEq] at hs
      subst hs
      simp
    | succ b =>
      simp only [initSubs, List.getElem?_cons_succ] at hs
      obtain ⟨h4, h5, h6⟩ := h3 b s hs
      refine ⟨?_, h5, h6⟩
      rw [h4]; simp; omega

theorem MInv.new (sizes : List Nat) (hs : ∀ s ∈ sizes, 0 < s) (opts : Opts O) :
    MInv (Mgr.new (A := A) (R := R) sizes opts) (sizes.map fun s => Buf.new s opts) := by
  obtain ⟨h1, h2, h3⟩ := initSubs_spec (R := R) sizes 0
  have hm : maxs (Mgr.new (A := A) (R := R) sizes opts).subs = sizes := by
    have := congrArg (List.map Idx.maxsize) h1
    rw [List.map_map, List.map_map] at this
    simpa [maxs, Mgr.new, Function.comp_def, Idx.new] using this
  have hmem : ∀ s ∈ (Mgr.new (A := A) (R := R) sizes opts).subs, s.idx = Idx.new s.idx.maxsize ∧
      s.last = s.offset ∧ s.length = 0 := by
    intro s hs'
    obtain ⟨b, hb, he⟩ := List.getElem_of_mem hs'
    have he' := List.getElem?_eq_getElem hb
    rw [he] at he'
    have hc := congrArg (fun l => l[b]?) h1
    obtain ⟨_, h5, h6⟩ := h3 b s he'
    simp only [List.getElem?_map] at hc
    simp only [Mgr.new] at he'
    rw [he'] at hc
    refine ⟨?_, h5, h6⟩
    simp only [Option.map_some] at hc
    cases hz : sizes[b]? with
    | none => rw [hz] at hc; cases hc
    | some z => rw [hz] at hc; simp only [Option.map_some, Option.some.injEq] at hc; rw [hc]; rfl
  refine ⟨?_, ⟨?_, ?_⟩, ?_, ?_, ?_⟩
  · have := congrArg (List.map fun x : Idx R => (⟨opts, x, fun _ => none⟩ : Buf O A R)) h1
    rw [List.map_map, List.map_map] at this
    rw [show (sizes.map fun s => (Buf.new s opts : Buf O A R)) =
      sizes.map ((fun x : Idx R => (⟨opts, x, fun _ => none⟩ : Buf O A R)) ∘ Idx.new) from rfl, ← this]
    apply List.map_congr_left
    intro s _
    simp [Mgr.child, childOf, Mgr.new]
  · intro b s hb
    rw [hm]
    have := (h3 b s hb).1
    simpa using this
  · rw [hm]; simpa [Mgr.new] using h2
  · intro s hs'
    obtain ⟨h4, h5, _⟩ := hmem s hs'
    rw [h4, h5]; simp [Idx.new]
  · intro s hs'
    obtain ⟨h4, _, h6⟩ := hmem s hs'
    rw [h4, h6]; simp [Idx.new]
  · intro b hb
    rw [List.mem_map] at hb
    obtain ⟨s, hs', rfl⟩ := hb
    exact ⟨_, History.new s (hs s hs') opts⟩

end Verif.Buffer
