import Verif.Spec.HerManager
import Verif.Props.Her
import Verif.Props.Manager

set_option linter.unusedSectionVars false

namespace Verif.Buffer

open Verif.Spec

variable {P G A R : Type} [AddCommMonoid R] {K : ℚ}

theorem HHistory.restore {h : HBuf P G A R} {g : Ghost (GObs P G) A R} (H : HHistory K h g) : HHistory K h.restore g := by
  refine HHistory.sample (rng := fun _ => 0) (u := fun _ => 0) (pick := fun _ _ => []) (batchSize := some (-1)) (l := []) H ?_
  have hs := H.restored.2
  have : h.restore.base.sampleIndices (fun _ => 0) (some (-1)) = .ok [] := by
    unfold Buf.sampleIndices
    have hs' : h.restore.base.opts.stackNum = 1 := hs
    simp [hs']
  simp only [HBuf.sampleIndices, this]
  simp [HBuf.rewrite]

theorem HHistory.beyond {h : HBuf P G A R} {g : Ghost (GObs P G) A R} (H : HHistory K h g) (i : Nat)
    (hi : h.base.idx.maxsize ≤ i) : h.base.data i = none := by
  have hr : h.restore.base.data i = none := H.restored.1.beyond i hi
  rcases C31_only_goal_and_reward H i with h1 | ⟨t, t', goal, h1, _⟩
  · rw [h1, hr]
  · rw [hr] at h1; cases h1

/-- What sampling and restoring leave alone. -/
theorem sample_fixed {h h' : HBuf P G A R} {rng : Nat → Nat} {u : Nat → ℚ} {pick : Nat → Nat → List Nat}
    {bs : Option Int} {l : List Nat} (hs : h.sampleIndices rng u pick bs = .ok (h', l)) :
    h'.base.idx = h.base.idx ∧ h'.base.opts = h.base.opts ∧ h'.computeReward = h.computeReward ∧
      h'.horizon = h.horizon ∧ h'.futureP = h.futureP := by
  unfold HBuf.sampleIndices at hs
  simp only at hs
  split at hs
  · cases hs
  · split at hs
    · cases hs
    · cases hs
      unfold HBuf.rewrite
      split <;> exact ⟨rfl, rfl, rfl, rfl, rfl⟩

theorem sample_restore {h h' : HBuf P G A R} {rng : Nat → Nat} {u : Nat → ℚ} {pick : Nat → Nat → List Nat}
    {bs : Option Int} {l : List Nat} (hs : h.sampleIndices rng u pick bs = .ok (h', l)) : h'.restore = h.restore := by
  unfold HBuf.sampleIndices at hs
  simp only at hs
  split at hs
  · cases hs
  · split at hs
    · cases hs
    · cases hs
      exact rewrite_restore _ _ _ _ rfl

theorem put_child {m : HMgr P G A R} (L : Layout m.mgr.subs m.mgr.total) {b : Nat} {s : Sub R}
    (hb : m.mgr.subs[b]? = some s) {c : HBuf P G A R} (h1 : c.base.idx = s.idx) (h2 : c.base.opts = m.mgr.opts)
    (h3 : c.computeReward = m.computeReward) (h4 : c.horizon = m.horizon) (h5 : c.futureP = m.futureP)
    (hd : ∀ i, s.idx.maxsize ≤ i → c.base.data i = none) :
    (m.put b s c).child b s = c ∧
      ∀ (j : Nat) (t : Sub R), m.mgr.subs[j]? = some t → j ≠ b → (m.put b s c).child j t = m.child j t := by
  constructor
  · obtain ⟨⟨copts, cidx, cdata⟩, ccr, chor, cfp, csaved⟩ := c
    simp only at h1 h2 h3 h4 h5 hd
    subst h1 h2 h3 h4 h5
    simp only [HMgr.put, HMgr.child, Function.update_self, HBuf.mk.injEq, and_true]
    simp only [Mgr.child, childOf, Buf.mk.injEq, true_and]
    funext i
    split
    · unfold writeBack
      rw [if_pos (by omega)]
      congr 1
      omega
    · rw [hd i (by omega)]
  · intro j t hj hne
    simp only [HMgr.put, HMgr.child, Function.update_of_ne hne, HBuf.mk.injEq, and_true]
    refine child_congr m.mgr.opts m.mgr.data (writeBack m.mgr.data s c.base.data) t ?_
    intro i hi1 hi2
    unfold writeBack
    rw [if_neg]
    rcases Nat.lt_or_gt_of_ne hne with h | h
    · have := L.disjoint hj hb h; omega
    · have := L.disjoint hb hj h; omega

/-- The parts of the manager that hindsight never changes. -/
structure Same (m m' : HMgr P G A R) : Prop where
  subs : m'.mgr.subs = m.mgr.subs
  total : m'.mgr.total = m.mgr.total
  opts : m'.mgr.opts = m.mgr.opts
  cr : m'.computeReward = m.computeReward
  horizon : m'.horizon = m.horizon
  futureP : m'.futureP = m.futureP

theorem Same.refl (m : HMgr P G A R) : Same m m := ⟨rfl, rfl, rfl, rfl, rfl, rfl⟩

theorem Same.trans {a b c : HMgr P G A R} (h : Same a b) (h' : Same b c) : Same a c :=
  ⟨h'.subs.trans h.subs, h'.total.trans h.total, h'.opts.trans h.opts, h'.cr.trans h.cr, h'.horizon.trans h.horizon,
    h'.futureP.trans h.futureP⟩

theorem put_same (m : HMgr P G A R) (b : Nat) (s : Sub R) (c : HBuf P G A R) : Same m (m.put b s c) :=
  ⟨rfl, rfl, rfl, rfl, rfl, rfl⟩

theorem restoreLoop_spec (bs : List Nat) : ∀ {m : HMgr P G A R}, Layout m.mgr.subs m.mgr.total → bs.Nodup →
    (∀ b ∈ bs, b < m.mgr.subs.length) →
    (∀ (j : Nat) (s : Sub R), m.mgr.subs[j]? = some s → ∃ g, HHistory K (m.child j s) g) →
    Same m (m.restoreLoop bs) ∧ ∀ (j : Nat) (s : Sub R), m.mgr.subs[j]? = some s →
      (j ∈ bs → (m.restoreLoop bs).child j s = (m.child j s).restore) ∧
      (j ∉ bs → (m.restoreLoop bs).child j s = m.child j s) := by
  induction bs with
  | nil => intro m _ _ _ _; exact ⟨Same.refl m, fun j s _ => ⟨by simp, fun _ => rfl⟩⟩
  | cons b bs ih =>
    intro m L hnd hlt hh
    obtain ⟨s, hs⟩ : ∃ s, m.mgr.subs[b]? = some s := ⟨_, List.getElem?_eq_getElem (hlt b (by simp))⟩
    rw [List.nodup_cons] at hnd
    obtain ⟨g, hg⟩ := hh b s hs
    obtain ⟨p1, p2⟩ := put_child L hs (c := (m.child b s).restore) rfl rfl rfl rfl rfl fun i hi => hg.restore.beyond i hi
    have hst : m.restoreLoop (b :: bs) = (m.put b s (m.child b s).restore).restoreLoop bs := by
      rw [HMgr.restoreLoop, hs]
    obtain ⟨i1, i2⟩ := ih (m := m.put b s (m.child b s).restore) L hnd.2 (fun x hx => hlt x (by simp [hx])) fun j t hj => by
      by_cases hjb : j = b
      · subst hjb
        have : t = s := by
          have hj' : m.mgr.subs[j]? = some t := hj
          rw [hs] at hj'; injection hj' with e; exact e.symm
        subst this
        exact ⟨g, by rw [p1]; exact hg.restore⟩
      · rw [p2 j t hj hjb]; exact hh j t hj
    rw [hst]
    refine ⟨(put_same m b s _).trans i1, fun j t hj => ?_⟩
    obtain ⟨k1, k2⟩ := i2 j t hj
    by_cases hjb : j = b
    · subst hjb
      have : t = s := by rw [hs] at hj; injection hj with e; exact e.symm
      subst this
      refine ⟨fun _ => ?_, fun h => absurd (by simp) h⟩
      rw [k2 hnd.1, p1]
    · refine ⟨fun h => ?_, fun h => ?_⟩
      · have hm : j ∈ bs := by
          rcases List.mem_cons.1 h with h | h
          · exact absurd h hjb
          · exact h
        rw [k1 hm, p2 j t hj hjb]
      · rw [k2 (fun hm => h (List.mem_cons_of_mem _ hm)), p2 j t hj hjb]

theorem sampleLoop_spec {rng : Nat → Nat → Nat} {u : Nat → Nat → ℚ} {pick : Nat → Nat → Nat → List Nat} {num : Nat → Int}
    (bs : List Nat) : ∀ {m m' : HMgr P G A R} {l : List Nat}, Layout m.mgr.subs m.mgr.total → bs.Nodup →
    (∀ (j : Nat) (s : Sub R), m.mgr.subs[j]? = some s → ∃ g, HHistory K (m.child j s) g) →
    m.sampleLoop rng u pick num bs = .ok (m', l) →
    Same m m' ∧ ∃ ls : Nat → List Nat,
      l = bs.flatMap (fun b => (ls b).map (· + ((m.mgr.subs[b]?).map Sub.offset).getD 0)) ∧
      ∀ (j : Nat) (s : Sub R), m.mgr.subs[j]? = some s →
      (j ∈ bs → (m.child j s).sampleIndices (rng j) (u j) (pick j) (some (num j)) = .ok (m'.child j s, ls j)) ∧
      (j ∉ bs → m'.child j s = m.child j s) := by
  induction bs with
  | nil =>
    intro m m' l _ _ _ h
    rw [HMgr.sampleLoop] at h
    cases h
    exact ⟨Same.refl m, fun _ => [], by simp, fun j s _ => ⟨by simp, fun _ => rfl⟩⟩
  | cons b bs ih =>
    intro m m' l L hnd hh h
    rw [List.nodup_cons] at hnd
    rw [HMgr.sampleLoop] at h
    cases hs : m.mgr.subs[b]? with
    | none => rw [hs] at h; cases h
    | some s =>
      rw [hs] at h
      simp only at h
      cases hc : (m.child b s).sampleIndices (rng b) (u b) (pick b) (some (num b)) with
      | error e => rw [hc] at h; cases h
      | ok q =>
        obtain ⟨c, lb⟩ := q
        rw [hc] at h
        simp only at h
        cases hl : (m.put b s c).sampleLoop rng u pick num bs with
        | error e => rw [hl] at h; cases h
        | ok q =>
          obtain ⟨m'', ls'⟩ := q
          rw [hl] at h
          simp only [Except.ok.injEq, Prod.mk.injEq] at h
          obtain ⟨rfl, rfl⟩ := h
          obtain ⟨g, hg⟩ := hh b s hs
          have hg' : HHistory K c g := hg.sample hc
          obtain ⟨f1, f2, f3, f4, f5⟩ := sample_fixed hc
          obtain ⟨p1, p2⟩ := put_child L hs (c := c) f1 f2 f3 f4 f5 fun i hi => hg'.beyond i (by
            have hm : c.base.idx.maxsize = s.idx.maxsize := by rw [f1]; rfl
            omega)
          obtain ⟨i1, ls, i2, i3⟩ := ih (m := m.put b s c) L hnd.2 (fun j t hj => by
            by_cases hjb : j = b
            · subst hjb
              have : t = s := by
                have hj' : m.mgr.subs[j]? = some t := hj
                rw [hs] at hj'; injection hj' with e; exact e.symm
              subst this
              exact ⟨g, by rw [p1]; exact hg'⟩
            · rw [p2 j t hj hjb]; exact hh j t hj) hl
          have hlsb : ∀ j ∈ bs, Function.update ls b lb j = ls j := by
            intro j hj
            rw [Function.update_of_ne]
            rintro rfl
            exact hnd.1 hj
          refine ⟨(put_same m b s _).trans i1, Function.update ls b lb, ?_, fun j t hj => ?_⟩
          · rw [List.flatMap_cons, Function.update_self, hs, i2]
            congr 1
            rw [List.flatMap, List.flatMap]
            congr 1
            apply List.map_congr_left
            intro j hj
            rw [hlsb j hj]
            rfl
          · obtain ⟨k1, k2⟩ := i3 j t hj
            by_cases hjb : j = b
            · subst hjb
              have : t = s := by rw [hs] at hj; injection hj with e; exact e.symm
              subst this
              refine ⟨fun _ => ?_, fun h => absurd (by simp) h⟩
              rw [k2 hnd.1, p1, Function.update_self]
              exact hc
            · refine ⟨fun h => ?_, fun h => ?_⟩
              · have hm : j ∈ bs := by
                  rcases List.mem_cons.1 h with h | h
                  · exact absurd h hjb
                  · exact h
                have := k1 hm
                rw [p2 j t hj hjb] at this
                rw [hlsb j hm]
                exact this
              · rw [k2 (fun hm => h (List.mem_cons_of_mem _ hm)), p2 j t hj hjb]

structure HMInv (K : ℚ) (m : HMgr P G A R) (gs : List (Ghost (GObs P G) A R)) : Prop where
  layout : Layout m.mgr.subs m.mgr.total
  last : ∀ s ∈ m.mgr.subs, s.last = ((s.offset + s.idx.last : Nat) : Int)
  length : ∀ s ∈ m.mgr.subs, s.length = s.idx.size
  num : m.mgr.subs.length = gs.length
  stack : m.mgr.opts.stackNum = 1
  hist : ∀ (b : Nat) (s : Sub R) (g : Ghost (GObs P G) A R), m.mgr.subs[b]? = some s → gs[b]? = some g →
    HHistory K (m.child b s) g

theorem HMInv.hist' {m : HMgr P G A R} {gs : List (Ghost (GObs P G) A R)} (I : HMInv K m gs) (b : Nat) (s : Sub R)
    (hs : m.mgr.subs[b]? = some s) : ∃ g, gs[b]? = some g ∧ HHistory K (m.child b s) g := by
  have hlt : b < gs.length := by rw [← I.num]; exact (List.getElem?_eq_some_iff.mp hs).1
  exact ⟨gs[b], List.getElem?_eq_getElem hlt, I.hist b s _ hs (List.getElem?_eq_getElem hlt)⟩

theorem HMInv.restore_spec {m : HMgr P G A R} {gs : List (Ghost (GObs P G) A R)} (I : HMInv K m gs) :
    Same m m.restore ∧ ∀ (j : Nat) (s : Sub R), m.mgr.subs[j]? = some s → m.restore.child j s = (m.child j s).restore := by
  obtain ⟨h1, h2⟩ := restoreLoop_spec (K := K) (List.range m.mgr.subs.length) I.layout List.nodup_range (by simp)
    fun j s hj => (I.hist' j s hj).imp fun g hg => hg.2
  exact ⟨h1, fun j s hj => (h2 j s hj).1 (by simpa using (List.getElem?_eq_some_iff.mp hj).1)⟩

/-- Changing only the contents. -/
theorem HMInv.same {m m' : HMgr P G A R} {gs : List (Ghost (GObs P G) A R)} (I : HMInv K m gs) (S : Same m m')
    (h : ∀ (b : Nat) (s : Sub R) (g : Ghost (GObs P G) A R), m.mgr.subs[b]? = some s → gs[b]? = some g →
      HHistory K (m'.child b s) g) : HMInv K m' gs := by
  refine ⟨?_, ?_, ?_, ?_, ?_, ?_⟩
  · rw [S.subs, S.total]; exact I.layout
  · rw [S.subs]; exact I.last
  · rw [S.subs]; exact I.length
  · rw [S.subs]; exact I.num
  · rw [S.opts]; exact I.stack
  · rw [S.subs]; exact h

theorem HMInv.restore {m : HMgr P G A R} {gs : List (Ghost (GObs P G) A R)} (I : HMInv K m gs) : HMInv K m.restore gs := by
  obtain ⟨h1, h2⟩ := I.restore_spec
  refine I.same h1 fun b s g hs hg => ?_
  rw [h2 b s hs]
  exact (I.hist b s g hs hg).restore

/-- With nothing relabelled the manager is a plain one. -/
theorem HMInv.plain {m : HMgr P G A R} {gs : List (Ghost (GObs P G) A R)} (I : HMInv K m gs)
    (hs : ∀ (b : Nat) (s : Sub R), m.mgr.subs[b]? = some s → (m.child b s).saved = []) :
    MInv m.mgr (m.mgr.subs.map m.mgr.child) := by
  refine ⟨rfl, I.layout, I.last, I.length, ?_⟩
  intro c hc
  obtain ⟨s, hs', rfl⟩ := List.mem_map.1 hc
  obtain ⟨b, hb⟩ := List.getElem?_of_mem hs'
  obtain ⟨g, _, hg⟩ := I.hist' b s hb
  have := hg.restored.1
  rw [restore_of_saved_nil _ (hs b s hb)] at this
  exact ⟨g, this⟩

/-- Adding the rows one by one, buffer by buffer, and the histories. -/
theorem route_hist (mk : Buf (GObs P G) A R → HBuf P G A R) (hmk : ∀ c, (mk c).base = c ∧ (mk c).saved = [])
    (hmk' : ∀ (c c' : Buf (GObs P G) A R) , { mk c with base := c' } = mk c') (opts : Opts (GObs P G))
    (items : List (Nat × Trans (GObs P G) A R)) : ∀ {sep sep' : List (Buf (GObs P G) A R)} {rs : List (AddResult R)}
    {gs : List (Ghost (GObs P G) A R)}, routeAll sep items = some (sep', rs) → sep.length = gs.length →
    (∀ c ∈ sep, c.opts = opts) →
    (∀ (b : Nat) (c : Buf (GObs P G) A R) (g : Ghost (GObs P G) A R), sep[b]? = some c → gs[b]? = some g → HHistory K (mk c) g) →
    sep'.length = gs.length ∧ (items.foldl (give opts) gs).length = gs.length ∧
    ∀ (b : Nat) (c : Buf (GObs P G) A R) (g : Ghost (GObs P G) A R), sep'[b]? = some c →
      (items.foldl (give opts) gs)[b]? = some g → HHistory K (mk c) g := by
  induction items with
  | nil =>
    intro sep sep' rs gs h hlen _ hh
    rw [routeAll] at h
    cases h
    exact ⟨hlen, rfl, hh⟩
  | cons p items ih =>
    intro sep sep' rs gs h hlen ho hh
    obtain ⟨b, t⟩ := p
    rw [routeAll] at h
    cases hb : sep[b]? with
    | none => rw [hb] at h; cases h
    | some buf =>
      rw [hb] at h
      simp only at h
      cases ha : buf.add t with
      | error e => rw [ha] at h; cases h
      | ok q =>
        obtain ⟨buf', r⟩ := q
        rw [ha] at h
        simp only at h
        cases hr : routeAll (sep.set b buf') items with
        | none => rw [hr] at h; cases h
        | some q =>
          obtain ⟨sep1, rs1⟩ := q
          rw [hr] at h
          simp only [Option.some.injEq, Prod.mk.injEq] at h
          obtain ⟨rfl, rfl⟩ := h
          have hbl : b < gs.length := by rw [← hlen]; exact (List.getElem?_eq_some_iff.mp hb).1
          have hgb := List.getElem?_eq_getElem hbl
          have hH := hh b buf gs[b] hb hgb
          have hadd : (mk buf).add t = .ok (mk buf', r) := by
            unfold HBuf.add
            rw [restore_of_saved_nil _ (hmk buf).2]
            simp only [(hmk buf).1, ha, hmk']
          have hH' := hH.add hadd
          have hob : buf.opts = opts := ho buf (List.mem_of_getElem? hb)
          have hobs : (mk buf).base.opts = opts := by rw [(hmk buf).1]; exact hob
          rw [hobs] at hH'
          have hob' : buf'.opts = opts := by
            have hhist := hH.restored.1
            rw [restore_of_saved_nil _ (hmk buf).2, (hmk buf).1] at hhist
            obtain ⟨_, ho', _⟩ := hhist.inv.add ha
            rw [ho', hob]
          have hlen' : (give opts gs (b, t)).length = gs.length := by simp [give]
          obtain ⟨j1, j2, j3⟩ := ih (gs := give opts gs (b, t)) hr (by simp [hlen, hlen']) (by
            intro c hc
            rcases List.mem_or_eq_of_mem_set hc with hc | hc
            · exact ho c hc
            · rw [hc]; exact hob') (by
            intro j c g hc hg
            simp only [give, List.getElem?_modify] at hg
            rw [List.getElem?_set] at hc
            by_cases hjb : b = j
            · subst hjb
              rw [if_pos rfl] at hc
              rw [hgb] at hg
              simp only [if_true] at hg
              split_ifs at hc with hl
              injection hc with hc
              injection hg with hg
              subst hc hg
              exact hH'
            · rw [if_neg hjb] at hc
              simp only [hjb, if_false] at hg
              exact hh j c g hc (by simpa using hg))
          rw [hlen'] at j1 j2
          rw [List.foldl_cons]
          exact ⟨j1, j2, j3⟩

theorem HMInv.add {m m' : HMgr P G A R} {gs : List (Ghost (GObs P G) A R)} (I : HMInv K m gs) {ids : List Nat}
    {rows : List (Trans (GObs P G) A R)} {rs : List (AddResult R)} (hid : ∀ b ∈ ids, b < gs.length)
    (h : m.add ids rows = .ok (m', rs)) : HMInv K m' ((ids.zip rows).foldl (give m.mgr.opts) gs) := by
  obtain ⟨S, hr⟩ := I.restore_spec
  have I0 := I.restore
  have hsv : ∀ (b : Nat) (s : Sub R), m.restore.mgr.subs[b]? = some s → (m.restore.child b s).saved = [] := by
    intro b s hs
    rw [S.subs] at hs
    rw [hr b s hs]; rfl
  have M := I0.plain hsv
  unfold HMgr.add at h
  simp only at h
  cases ha : m.restore.mgr.add ids rows with
  | error e => rw [ha] at h; cases h
  | ok q =>
    obtain ⟨mgr', rs'⟩ := q
    rw [ha] at h
    simp only [Except.ok.injEq, Prod.mk.injEq] at h
    obtain ⟨rfl, rfl⟩ := h
    have hl : ids.length = rows.length := by
      unfold Mgr.add at ha
      split_ifs at ha with hne
      · exact Decidable.not_not.1 hne
    have hid' : ∀ b ∈ ids, b < (m.restore.mgr.subs.map m.restore.mgr.child).length := by
      intro b hb
      rw [List.length_map, I0.num]
      exact hid b hb
    obtain ⟨m1, rs1, sep', rs2, h1, h2, h3, _, _, _, _, h8⟩ := M.add ids rows hl hid'
    rw [ha] at h1
    simp only [Except.ok.injEq, Prod.mk.injEq] at h1
    obtain ⟨rfl, _⟩ := h1
    have hopts : mgr'.opts = m.mgr.opts := by
      unfold Mgr.add at ha
      split_ifs at ha
      simp only at ha
      split at ha
      · cases ha
      · cases ha; exact S.opts
    obtain ⟨r1, r2, r3⟩ := route_hist (K := K)
      (fun c => ⟨c, m.computeReward, m.horizon, m.futureP, []⟩) (fun c => ⟨rfl, rfl⟩) (fun c c' => rfl) m.mgr.opts
      (ids.zip rows) (gs := gs) h2 (by rw [List.length_map, I0.num]) (by
        intro c hc
        obtain ⟨s, _, rfl⟩ := List.mem_map.1 hc
        exact S.opts) (by
        intro b c g hc hg
        rw [List.getElem?_map] at hc
        cases hs : m.restore.mgr.subs[b]? with
        | none => rw [hs] at hc; cases hc
        | some s =>
          rw [hs] at hc
          injection hc with hc
          subst hc
          have hh := I0.hist b s g hs hg
          have hb0 := hsv b s hs
          have e : m.restore.child b s = ⟨m.restore.mgr.child s, m.computeReward, m.horizon, m.futureP, []⟩ := by
            have hb1 : m.restore.saved b = [] := hb0
            rw [HMgr.child, S.cr, S.horizon, S.futureP, hb1]
          rw [e] at hh
          exact hh)
    refine ⟨h3.layout, h3.last, h3.length, ?_, by rw [← I.stack, ← hopts], ?_⟩
    · show mgr'.subs.length = _
      rw [r2, ← r1, ← h3.children, List.length_map]
    · intro b s g hs hg
      have hs' : mgr'.subs[b]? = some s := hs
      have hc : sep'[b]? = some (mgr'.child s) := by rw [← h3.children, List.getElem?_map, hs']; rfl
      have := r3 b _ g hc hg
      have hb1 : m.restore.saved b = [] := by
        have hlt : b < m.restore.mgr.subs.length := by
          have := (List.getElem?_eq_some_iff.mp hc).1
          rw [I0.num, ← r1]; exact this
        exact hsv b _ (List.getElem?_eq_getElem hlt)
      show HHistory K ⟨mgr'.child s, m.restore.computeReward, m.restore.horizon, m.restore.futureP, m.restore.saved b⟩ g
      rw [S.cr, S.horizon, S.futureP, hb1]
      exact this

theorem HMInv.reset {m : HMgr P G A R} {gs : List (Ghost (GObs P G) A R)} (I : HMInv K m gs) (keep : Bool) :
    HMInv K (m.reset keep) (gs.map fun g => ⟨[], if keep then g.openEp else [], 0⟩) := by
  obtain ⟨S, hr⟩ := I.restore_spec
  have I0 := I.restore
  have hsv : ∀ (b : Nat) (s : Sub R), m.restore.mgr.subs[b]? = some s → (m.restore.child b s).saved = [] := by
    intro b s hs
    rw [S.subs] at hs
    rw [hr b s hs]; rfl
  have M := (I0.plain hsv).reset keep
  refine ⟨M.layout, M.last, M.length, ?_, I0.stack, ?_⟩
  · show (m.restore.mgr.reset keep).subs.length = _
    simp only [Mgr.reset, List.length_map]
    exact I0.num
  · intro b s g hs hg
    have hs' : (m.restore.mgr.reset keep).subs[b]? = some s := hs
    simp only [Mgr.reset, List.getElem?_map] at hs'
    cases h0 : m.restore.mgr.subs[b]? with
    | none => rw [h0] at hs'; cases hs'
    | some s0 =>
      rw [h0] at hs'
      injection hs' with hs'
      subst hs'
      obtain ⟨g0, hg0, hh⟩ := I0.hist' b s0 h0
      rw [List.getElem?_map, hg0] at hg
      injection hg with hg
      subst hg
      have := hh.reset keep
      have e : (m.reset keep).child b { s0 with last := s0.offset, length := 0, idx := s0.idx.reset keep } =
          (m.restore.child b s0).reset keep := by
        have hb0 : m.restore.saved b = [] := hsv b s0 h0
        unfold HBuf.reset
        rw [restore_of_saved_nil _ (hsv b s0 h0)]
        rfl
      rw [e]
      exact this

theorem HMInv.new (sizes : List Nat) (hs : ∀ s ∈ sizes, 0 < s) (computeReward : G → G → R) (horizon : Nat)
    (opts : Opts (GObs P G)) (hstack : opts.stackNum = 1) :
    HMInv K (HMgr.new (A := A) sizes computeReward horizon K opts) (sizes.map fun _ => ⟨[], [], 0⟩) := by
  have M := MInv.new (A := A) (R := R) sizes hs opts
  refine ⟨M.layout, M.last, M.length, ?_, hstack, ?_⟩
  · have := M.sub_length
    simp only [List.length_map] at this ⊢
    exact this
  · intro b s g hb hg
    have hc := M.get hb
    rw [List.getElem?_map] at hc hg
    cases hz : sizes[b]? with
    | none => rw [hz] at hc; cases hc
    | some z =>
      rw [hz] at hc hg
      injection hc with hc
      injection hg with hg
      subst hg
      show HHistory K ⟨(Mgr.new sizes opts).child s, computeReward, horizon, 1 - 1 / K, []⟩ _
      rw [← hc]
      exact HHistory.new z (hs z (List.mem_of_getElem? hz)) computeReward horizon opts hstack

theorem HMInv.sample {m m' : HMgr P G A R} {gs : List (Ghost (GObs P G) A R)} (I : HMInv K m gs) {draw : Nat → Nat}
    {rng : Nat → Nat → Nat} {u : Nat → Nat → ℚ} {pick : Nat → Nat → Nat → List Nat} {bs : Option Int} {l : List Nat}
    (h : m.sampleIndices draw rng u pick bs = .ok (m', l)) : HMInv K m' gs := by
  have key : ∀ num : Nat → Int, m.sampleLoop rng u pick num (List.range m.mgr.subs.length) = .ok (m', l) → HMInv K m' gs := by
    intro num h
    obtain ⟨S, ls, _, h2⟩ := sampleLoop_spec (K := K) _ I.layout List.nodup_range
      (fun j s hj => (I.hist' j s hj).imp fun g hg => hg.2) h
    refine I.same S fun b s g hs hg => ?_
    exact (I.hist b s g hs hg).sample ((h2 b s hs).1 (by simpa using (List.getElem?_eq_some_iff.mp hs).1))
  unfold HMgr.sampleIndices at h
  split_ifs at h
  · cases h; exact I
  · exact key _ h
  · simp only at h
    split at h
    · cases h
    · exact key _ h

/-- Contents outside all sub-buffers. -/
def Outside (m m' : HMgr P G A R) : Prop :=
  ∀ i, (∀ s ∈ m.mgr.subs, ¬ (s.offset ≤ i ∧ i < s.offset + s.idx.maxsize)) → m'.mgr.data i = m.mgr.data i

theorem put_outside (m : HMgr P G A R) (b : Nat) (s : Sub R) (hs : s ∈ m.mgr.subs) (c : HBuf P G A R) :
    Outside m (m.put b s c) := by
  intro i hi
  simp only [HMgr.put, writeBack]
  rw [if_neg (hi s hs)]

theorem restoreLoop_outside (bs : List Nat) : ∀ (m : HMgr P G A R), Outside m (m.restoreLoop bs) := by
  induction bs with
  | nil => intro m i _; rfl
  | cons b bs ih =>
    intro m i hi
    rw [HMgr.restoreLoop]
    cases hs : m.mgr.subs[b]? with
    | none => rfl
    | some s =>
      rw [ih (m.put b s (m.child b s).restore) i hi]
      exact put_outside m b s (List.mem_of_getElem? hs) _ i hi

theorem sampleLoop_outside {rng : Nat → Nat → Nat} {u : Nat → Nat → ℚ} {pick : Nat → Nat → Nat → List Nat} {num : Nat → Int}
    (bs : List Nat) : ∀ {m m' : HMgr P G A R} {l : List Nat}, m.sampleLoop rng u pick num bs = .ok (m', l) → Outside m m' := by
  induction bs with
  | nil => intro m m' l h; rw [HMgr.sampleLoop] at h; cases h; intro i _; rfl
  | cons b bs ih =>
    intro m m' l h i hi
    rw [HMgr.sampleLoop] at h
    cases hs : m.mgr.subs[b]? with
    | none => rw [hs] at h; cases h
    | some s =>
      rw [hs] at h
      simp only at h
      split at h
      · cases h
      · rename_i c lb _
        split at h
        · cases h
        · rename_i m'' ls' hl
          cases h
          rw [ih hl i hi]
          exact put_outside m b s (List.mem_of_getElem? hs) _ i hi

/-- The contents of a manager are those of its sub-buffers and what is outside. -/
theorem data_ext {m m' : HMgr P G A R} (S : Same m m') (ho : Outside m m')
    (hc : ∀ (b : Nat) (s : Sub R), m.mgr.subs[b]? = some s → (m'.child b s).base.data = (m.child b s).base.data) :
    m'.mgr = m.mgr := by
  have hd : m'.mgr.data = m.mgr.data := by
    funext i
    by_cases h : ∃ s ∈ m.mgr.subs, s.offset ≤ i ∧ i < s.offset + s.idx.maxsize
    · obtain ⟨s, hs, h1, h2⟩ := h
      obtain ⟨b, hb⟩ := List.getElem?_of_mem hs
      have := congrFun (hc b s hb) (i - s.offset)
      simp only [HMgr.child, Mgr.child, childOf] at this
      rw [if_pos (by omega), if_pos (by omega)] at this
      have e : s.offset + (i - s.offset) = i := by omega
      rw [e] at this
      exact this
    · exact ho i fun s hs hi => h ⟨s, hs, hi⟩
  have h1 := S.subs
  have h2 := S.total
  have h3 := S.opts
  cases hm : m.mgr
  cases hm' : m'.mgr
  rw [hm, hm'] at hd h1 h2 h3
  simp only at hd h1 h2 h3
  subst hd h1 h2 h3
  rfl

/-- Restoring what is not relabelled. -/
theorem HMInv.restore_nil {m : HMgr P G A R} {gs : List (Ghost (GObs P G) A R)} (I : HMInv K m gs)
    (hs : ∀ (b : Nat) (s : Sub R), m.mgr.subs[b]? = some s → (m.child b s).saved = []) : m.restore.mgr = m.mgr := by
  obtain ⟨S, hr⟩ := I.restore_spec
  refine data_ext S (restoreLoop_outside _ m) fun b s hb => ?_
  rw [hr b s hb, restore_of_saved_nil _ (hs b s hb)]

theorem HMInv.saved_restore {m : HMgr P G A R} {gs : List (Ghost (GObs P G) A R)} (I : HMInv K m gs) (b : Nat) (s : Sub R)
    (hs : m.mgr.subs[b]? = some s) : m.restore.saved b = [] := by
  obtain ⟨_, hr⟩ := I.restore_spec
  exact congrArg HBuf.saved (hr b s hs)

theorem sample_same {m m' : HMgr P G A R} {gs : List (Ghost (GObs P G) A R)} (I : HMInv K m gs) {draw : Nat → Nat}
    {rng : Nat → Nat → Nat} {u : Nat → Nat → ℚ} {pick : Nat → Nat → Nat → List Nat} {bs : Option Int} {l : List Nat}
    (h : m.sampleIndices draw rng u pick bs = .ok (m', l)) : m'.restore.mgr = m.restore.mgr := by
  have key : ∀ num : Nat → Int, m.sampleLoop rng u pick num (List.range m.mgr.subs.length) = .ok (m', l) →
      m'.restore.mgr = m.restore.mgr := by
    intro num hl
    obtain ⟨S, ls, _, h2⟩ := sampleLoop_spec (K := K) _ I.layout List.nodup_range
      (fun j s hj => (I.hist' j s hj).imp fun g hg => hg.2) hl
    have I' := I.sample h
    obtain ⟨S1, hr⟩ := I.restore_spec
    obtain ⟨S2, hr'⟩ := I'.restore_spec
    have S3 : Same m.restore m'.restore := by
      have := S.trans S2
      exact ⟨this.subs.trans S1.subs.symm, this.total.trans S1.total.symm, this.opts.trans S1.opts.symm,
        this.cr.trans S1.cr.symm, this.horizon.trans S1.horizon.symm, this.futureP.trans S1.futureP.symm⟩
    refine data_ext S3 ?_ ?_
    · intro i hi
      rw [S1.subs] at hi
      have h5 := restoreLoop_outside (List.range m.mgr.subs.length) m i hi
      have h3 := restoreLoop_outside (List.range m'.mgr.subs.length) m' i (by rw [S.subs]; exact hi)
      have h4 := sampleLoop_outside _ hl i hi
      exact h3.trans (h4.trans h5.symm)
    · intro b s hb
      rw [S1.subs] at hb
      rw [hr b s hb, hr' b s (by rw [S.subs]; exact hb)]
      have := (h2 b s hb).1 (by simpa using (List.getElem?_eq_some_iff.mp hb).1)
      rw [sample_restore this]
  have h0 := h
  unfold HMgr.sampleIndices at h
  split_ifs at h
  · cases h; rfl
  · exact key _ h
  · simp only at h
    split at h
    · cases h
    · exact key _ h

theorem HMHistory.inv {m : HMgr P G A R} {gs : List (Ghost (GObs P G) A R)} (H : HMHistory K m gs) : HMInv K m gs := by
  induction H with
  | new sizes hs cr hor opts hstack => exact HMInv.new sizes hs cr hor opts hstack
  | add _ hid h ih => exact ih.add hid h
  | reset keep _ ih => exact ih.reset keep
  | sample _ h ih => exact ih.sample h

/-- Undoing the relabelling gives a plain vector buffer used in the same way. -/
theorem HMHistory.plain {m : HMgr P G A R} {gs : List (Ghost (GObs P G) A R)} (H : HMHistory K m gs) :
    ∃ sep, Reach m.restore.mgr sep := by
  induction H with
  | new sizes hs cr hor opts hstack =>
    rw [(HMInv.new (K := K) sizes hs cr hor opts hstack).restore_nil fun _ _ _ => rfl]
    exact ⟨_, Reach.new sizes hs opts⟩
  | @add m m' gs ids rows rs H hid h ih =>
    have I := H.inv
    have I' := I.add hid h
    obtain ⟨sep, hsep⟩ := ih
    have hn : m.restore.mgr.subs.length = gs.length := I.restore.num
    unfold HMgr.add at h
    simp only at h
    cases ha : m.restore.mgr.add ids rows with
    | error e => rw [ha] at h; cases h
    | ok q =>
      obtain ⟨mgr', rs'⟩ := q
      rw [ha] at h
      simp only [Except.ok.injEq, Prod.mk.injEq] at h
      obtain ⟨rfl, rfl⟩ := h
      have hl : ids.length = rows.length := by
        unfold Mgr.add at ha
        split_ifs at ha with hne
        · exact Decidable.not_not.1 hne
      obtain ⟨m1, sep', res, r1, r2, _, r4, _, _⟩ := C20_add hsep ids rows hl (by
        rw [← hsep.inv.sub_length, hn]; exact hid)
      rw [ha] at r2
      simp only [Except.ok.injEq, Prod.mk.injEq] at r2
      obtain ⟨rfl, _⟩ := r2
      refine ⟨sep', ?_⟩
      rw [I'.restore_nil]
      · exact r4
      · intro b s hs
        have hlt : b < m.mgr.subs.length := by
          have h1 := (List.getElem?_eq_some_iff.mp hs).1
          have h2 := I'.num
          have h3 : ((ids.zip rows).foldl (give m.mgr.opts) gs).length = gs.length := by
            clear * -
            generalize ids.zip rows = items
            induction items generalizing gs with
            | nil => rfl
            | cons p items ih => rw [List.foldl_cons, ih]; simp [give]
          rw [I.num]; omega
        exact I.saved_restore b _ (List.getElem?_eq_getElem hlt)
  | @reset m gs keep H ih =>
    have I := H.inv
    obtain ⟨sep, hsep⟩ := ih
    refine ⟨sep.map fun b => b.reset keep, ?_⟩
    rw [(I.reset keep).restore_nil]
    · exact hsep.reset keep
    · intro b s hs
      have hlt : b < m.mgr.subs.length := by
        have h1 := (List.getElem?_eq_some_iff.mp hs).1
        have h2 := (I.reset keep).num
        rw [List.length_map] at h2
        rw [I.num]; omega
      exact I.saved_restore b _ (List.getElem?_eq_getElem hlt)
  | sample H h ih => rw [sample_same H.inv h]; exact ih

end Verif.Buffer
