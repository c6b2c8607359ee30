import Verif.Lemmas.Cached

set_option linter.unusedSectionVars false

namespace Verif.Buffer

open Verif.Spec

variable {O A R : Type} [AddCommMonoid R]

/-! ### prev / next -/

theorem foldl_skip {α β : Type} (f : β → α → β) (l : List α) (a : β) (h : ∀ t ∈ l, ∀ acc, f acc t = acc) :
    l.foldl f a = a := by
  induction l generalizing a with
  | nil => rfl
  | cons x l ih =>
    rw [List.foldl_cons, h x (by simp), ih _ (fun t ht => h t (by simp [ht]))]

theorem foldl_unique {α β : Type} (f : β → α → β) (l : List α) (a : β) (b : Nat) (s : α) (v : β)
    (hs : l[b]? = some s) (hv : ∀ acc, f acc s = v)
    (ho : ∀ j t, l[j]? = some t → j ≠ b → ∀ acc, f acc t = acc) : l.foldl f a = v := by
  induction l generalizing a b with
  | nil => simp at hs
  | cons x l ih =>
    rw [List.foldl_cons]
    cases b with
    | zero =>
      simp only [List.getElem?_cons_zero, Option.some.injEq] at hs
      subst hs
      rw [hv]
      apply foldl_skip
      intro t ht acc
      obtain ⟨j, hj, he⟩ := List.getElem_of_mem ht
      exact ho (j + 1) t (by simp [← he]) (by omega) acc
    | succ b =>
      rw [ih _ b (by simpa using hs)]
      intro j t hj hjb
      exact ho (j + 1) t (by simpa using hj) (by omega)

theorem MInv.not_in {m : Mgr O A R} {sep : List (Buf O A R)} (I : MInv m sep) {b j : Nat} {s t : Sub R}
    (hs : m.subs[b]? = some s) (ht : m.subs[j]? = some t) (hj : j ≠ b) {p : Nat} (hp1 : s.offset ≤ p)
    (hp2 : p < s.offset + s.idx.maxsize) : ¬ (t.offset ≤ p ∧ p < t.offset + t.idx.maxsize) := by
  rcases Nat.lt_or_gt_of_ne hj with h | h
  · have := I.layout.disjoint ht hs h; omega
  · have := I.layout.disjoint hs ht h; omega

theorem MInv.prev_eq {m : Mgr O A R} {sep : List (Buf O A R)} (I : MInv m sep) {b : Nat} {s : Sub R}
    (hs : m.subs[b]? = some s) (z : Int) {p : Nat} (hz : z % (m.total : Int) = (p : Int)) (hp1 : s.offset ≤ p)
    (hp2 : p < s.offset + s.idx.maxsize) : m.prev z = prevStep m.data p 0 s := by
  unfold Mgr.prev
  rw [hz, Int.toNat_natCast]
  apply foldl_unique _ _ _ b s _ hs
  · intro acc; unfold prevStep; rw [if_pos ⟨hp1, hp2⟩, if_pos ⟨hp1, hp2⟩]
  · intro j t ht hj acc
    unfold prevStep
    rw [if_neg (I.not_in hs ht hj hp1 hp2)]

theorem MInv.next_eq {m : Mgr O A R} {sep : List (Buf O A R)} (I : MInv m sep) {b : Nat} {s : Sub R}
    (hs : m.subs[b]? = some s) (z : Int) {p : Nat} (hz : z % (m.total : Int) = (p : Int)) (hp1 : s.offset ≤ p)
    (hp2 : p < s.offset + s.idx.maxsize) : m.next z = nextStep m.data p 0 s := by
  unfold Mgr.next
  rw [hz, Int.toNat_natCast]
  apply foldl_unique _ _ _ b s _ hs
  · intro acc; unfold nextStep; rw [if_pos ⟨hp1, hp2⟩, if_pos ⟨hp1, hp2⟩]
  · intro j t ht hj acc
    unfold nextStep
    rw [if_neg (I.not_in hs ht hj hp1 hp2)]

theorem doneAt_child (m : Mgr O A R) (s : Sub R) (i : Nat) (hi : i < s.idx.maxsize) :
    doneAt (m.child s).data i = doneAt m.data (i + s.offset) := by
  unfold doneAt Mgr.child childOf
  simp only
  rw [if_pos hi, Nat.add_comm]

theorem flag_last (s : Sub R) (hl : s.last = ((s.offset + s.idx.last : Nat) : Int)) (i : Nat) :
    ((((i + s.offset : Nat) : Int)) == s.last) = (i == s.idx.last) := by
  rw [hl, Bool.eq_iff_iff]
  simp only [beq_iff_eq]
  omega

theorem MInv.prev_live {m : Mgr O A R} {sep : List (Buf O A R)} (I : MInv m sep) {b : Nat} {s : Sub R}
    (hs : m.subs[b]? = some s) (z : Int) {i : Nat} (hz : z % (m.total : Int) = ((s.offset + i : Nat) : Int))
    (hi : i < s.idx.size) : m.prev z = (m.child s).prev i + s.offset := by
  obtain ⟨g, hg⟩ := I.child_hist hs
  have hsm : s.idx.size ≤ s.idx.maxsize := hg.holds.size_le
  rw [I.prev_eq hs z hz (by omega) (by omega)]
  unfold prevStep
  rw [if_pos ⟨by omega, by omega⟩]
  have hmem := List.mem_of_getElem? hs
  have hlen := I.length s hmem
  simp only
  rw [hlen, show max 1 s.idx.size = s.idx.size by omega]
  have e : (((s.offset + i : Nat) : Int) - (s.offset : Int) - 1) = (i : Int) - 1 := by omega
  rw [e]
  unfold Buf.prev
  simp only
  have hidx : (m.child s).idx = s.idx := rfl
  rw [hidx]
  have hsub : (((i : Int) - 1) % (s.idx.size : Int)).toNat < s.idx.size := by
    rw [pred_mod _ _ hi]; split <;> omega
  rw [flag_last s (I.last s hmem), doneAt_child m s _ (by omega)]

theorem MInv.next_live {m : Mgr O A R} {sep : List (Buf O A R)} (I : MInv m sep) {b : Nat} {s : Sub R}
    (hs : m.subs[b]? = some s) (z : Int) {i : Nat} (hz : z % (m.total : Int) = ((s.offset + i : Nat) : Int))
    (hi : i < s.idx.size) : m.next z = (m.child s).next i + s.offset := by
  obtain ⟨g, hg⟩ := I.child_hist hs
  have hsm : s.idx.size ≤ s.idx.maxsize := hg.holds.size_le
  rw [I.next_eq hs z hz (by omega) (by omega)]
  unfold nextStep
  rw [if_pos ⟨by omega, by omega⟩]
  have hmem := List.mem_of_getElem? hs
  have hlen := I.length s hmem
  simp only
  rw [hlen, show max 1 s.idx.size = s.idx.size by omega]
  unfold Buf.next
  simp only
  have hidx : (m.child s).idx = s.idx := rfl
  rw [hidx, Nat.add_comm s.offset i, flag_last s (I.last s hmem), doneAt_child m s _ (by omega),
    Nat.add_sub_cancel]

theorem MInv.prev_in {m : Mgr O A R} {sep : List (Buf O A R)} (I : MInv m sep) {b : Nat} {s : Sub R}
    (hs : m.subs[b]? = some s) (z : Int) {p : Nat} (hz : z % (m.total : Int) = (p : Int)) (hp1 : s.offset ≤ p)
    (hp2 : p < s.offset + s.idx.maxsize) :
    s.offset ≤ m.prev z ∧ m.prev z < s.offset + s.idx.maxsize := by
  obtain ⟨g, hg⟩ := I.child_hist hs
  have hsm : s.idx.size ≤ s.idx.maxsize := hg.holds.size_le
  have hpos : 0 < s.idx.maxsize := hg.holds.pos
  rw [I.prev_eq hs z hz hp1 hp2]
  unfold prevStep
  rw [if_pos ⟨hp1, hp2⟩]
  have hlen := I.length s (List.mem_of_getElem? hs)
  simp only
  generalize _ + Bool.toNat _ = q
  have := Nat.mod_lt q (show 0 < max 1 s.length by omega)
  omega

theorem MInv.next_in {m : Mgr O A R} {sep : List (Buf O A R)} (I : MInv m sep) {b : Nat} {s : Sub R}
    (hs : m.subs[b]? = some s) (z : Int) {p : Nat} (hz : z % (m.total : Int) = (p : Int)) (hp1 : s.offset ≤ p)
    (hp2 : p < s.offset + s.idx.maxsize) :
    s.offset ≤ m.next z ∧ m.next z < s.offset + s.idx.maxsize := by
  obtain ⟨g, hg⟩ := I.child_hist hs
  have hsm : s.idx.size ≤ s.idx.maxsize := hg.holds.size_le
  have hpos : 0 < s.idx.maxsize := hg.holds.pos
  rw [I.next_eq hs z hz hp1 hp2]
  unfold nextStep
  rw [if_pos ⟨hp1, hp2⟩]
  have hlen := I.length s (List.mem_of_getElem? hs)
  simp only
  generalize _ + (1 - Bool.toNat _) = q
  have := Nat.mod_lt q (show 0 < max 1 s.length by omega)
  omega

/-! ### Concatenation of children results -/

theorem concatOk_map {α : Type} (l : List α) (f : α → Except Err (List Nat)) (g : α → List Nat)
    (h : ∀ a ∈ l, f a = .ok (g a)) : concatOk (l.map f) = .ok (l.map g).flatten := by
  induction l with
  | nil => rfl
  | cons a l ih =>
    rw [List.map_cons, h a (by simp), concatOk, ih (fun x hx => h x (by simp [hx]))]
    rfl

theorem MInv.concatSamples {m : Mgr O A R} {sep : List (Buf O A R)} (I : MInv m sep)
    (rng : Nat → Nat → Nat) (num : Nat → Int) (f : Nat → List Nat)
    (h : ∀ (b : Nat) (c : Buf O A R), sep[b]? = some c → c.sampleIndices (rng b) (some (num b)) = .ok (f b)) :
    m.concatSamples rng num =
      .ok (((List.range sep.length).map fun b => (f b).map (· + startOf sep b)).flatten) := by
  unfold Mgr.concatSamples
  rw [concatOk_map _ _ (fun p => (f p.2).map (· + p.1.offset))]
  · congr 2
    apply List.ext_getElem?
    intro b
    simp only [List.getElem?_map, List.getElem?_zipIdx]
    cases hb : m.subs[b]? with
    | none =>
      have : ¬ b < sep.length := by
        rw [← I.sub_length]
        rw [List.getElem?_eq_none_iff] at hb
        omega
      simp [this]
    | some s =>
      have hlt : b < sep.length := by
        rw [← I.sub_length]; exact (List.getElem?_eq_some_iff.mp hb).1
      simp [hlt, I.offset_eq hb]
  · intro p hp
    obtain ⟨s, b⟩ := p
    have hb : m.subs[b]? = some s := by
      have := List.mem_zipIdx_iff_getElem?.mp hp
      simpa using this
    simp only
    rw [h b _ (I.get hb)]
    rfl

theorem sum_count (n : Nat) (l : List Nat) (h : ∀ x ∈ l, x < n) :
    ((List.range n).map fun b => l.count b).sum = l.length := by
  induction l with
  | nil => simp
  | cons a l ih =>
    have ha := h a (by simp)
    have ih := ih (fun x hx => h x (by simp [hx]))
    have e : ∀ n, ((List.range n).map fun b => (a :: l).count b).sum =
        ((List.range n).map fun b => l.count b).sum + if a < n then 1 else 0 := by
      intro n
      induction n with
      | zero => simp
      | succ n ihn =>
        rw [List.range_succ, List.map_append, List.map_append, List.sum_append, List.sum_append, ihn]
        simp only [List.map_cons, List.map_nil, List.sum_cons, List.sum_nil, List.count_cons, beq_iff_eq]
        split_ifs <;> omega
    rw [e, ih, if_pos ha]
    rfl

theorem startOf_succ (sep : List (Buf O A R)) {b : Nat} {c : Buf O A R} (h : sep[b]? = some c) :
    startOf sep (b + 1) = startOf sep b + c.idx.maxsize := by
  unfold startOf
  have : (sep.map fun s => s.idx.maxsize)[b]? = some c.idx.maxsize := by simp [h]
  rw [List.take_add_one, this]
  simp

theorem startOf_mono (sep : List (Buf O A R)) {b b' : Nat} {c : Buf O A R} (h : sep[b]? = some c) (hb : b < b') :
    startOf sep b + c.idx.maxsize ≤ startOf sep b' := by
  unfold startOf
  exact sum_take_add_le _ hb _ (by simp [h])

/-! ### CachedReplayBuffer -/

/-- Every separate buffer has a history with the given received transitions. -/
def Tracks (opts : Opts O) (size : Nat → Nat) (sep : List (Buf O A R)) (G : Nat → List (Trans O A R)) : Prop :=
  ∀ (b : Nat) (c : Buf O A R), sep[b]? = some c →
    c.opts = opts ∧ c.idx.maxsize = size b ∧ ∃ g, History c g ∧ g.received = G b

theorem Tracks.route {opts : Opts O} {size : Nat → Nat} (items : List (Nat × Trans O A R))
    {sep sep' : List (Buf O A R)} {G : Nat → List (Trans O A R)} (T : Tracks opts size sep G)
    {rs : List (AddResult R)} (h : routeAll sep items = some (sep', rs)) :
    Tracks opts size sep' (items.foldl
      (fun G p => Function.update G p.1 (G p.1 ++ [expectedRow opts p.2])) G) := by
  induction items generalizing sep rs G with
  | nil => cases h; exact T
  | cons p items ih =>
    obtain ⟨b0, t⟩ := p
    simp only [routeAll] at h
    cases hb0 : sep[b0]? with
    | none => rw [hb0] at h; cases h
    | some buf =>
      simp only [hb0] at h
      cases ha : buf.add t with
      | error e => rw [ha] at h; cases h
      | ok q =>
        obtain ⟨buf', r⟩ := q
        simp only [ha] at h
        cases hr : routeAll (sep.set b0 buf') items with
        | none => rw [hr] at h; cases h
        | some q =>
          obtain ⟨sep1, rs1⟩ := q
          simp only [hr, Option.some.injEq, Prod.mk.injEq] at h
          obtain ⟨rfl, rfl⟩ := h
          rw [List.foldl_cons]
          apply ih _ hr
          intro b c hc
          rw [List.getElem?_set] at hc
          split at hc
          · rename_i hbb
            subst hbb
            split at hc
            · cases hc
              obtain ⟨h1, h2, g, hg, hgr⟩ := T b0 buf hb0
              obtain ⟨_, h4, h5, _⟩ := hg.inv.add ha
              refine ⟨h4.trans h1, h5.trans h2, _, hg.add ha, ?_⟩
              simp only [Function.update_self, h1, hgr]
            · cases hc
          · rename_i hbb
            obtain ⟨h1, h2, g, hg, hgr⟩ := T b c hc
            refine ⟨h1, h2, g, hg, ?_⟩
            rw [hgr, Function.update_of_ne (Ne.symm hbb)]

/-- The effect of moving on the received transitions. -/
def moveG (size : Nat → Nat) (G : Nat → List (Trans O A R)) (b : Nat) : Nat → List (Trans O A R) :=
  Function.update (Function.update G 0 (G 0 ++ lastN (size b) (G b))) b []

theorem Tracks.moves {opts : Opts O} {size : Nat → Nat} (l : List Nat) (h0 : 0 ∉ l)
    {sep sep' : List (Buf O A R)} {G : Nat → List (Trans O A R)} (T : Tracks opts size sep G)
    (h : moveAll sep l = some sep') : Tracks opts size sep' (l.foldl (moveG size) G) := by
  induction l generalizing sep G with
  | nil => cases h; exact T
  | cons b l ih =>
    simp only [moveAll] at h
    have hb0 : b ≠ 0 := by intro h; apply h0; simp [h]
    cases hm : sep[0]? with
    | none => rw [hm] at h; cases h
    | some main =>
      cases hc : sep[b]? with
      | none => rw [hm, hc] at h; cases h
      | some c =>
        rw [hm, hc] at h
        simp only at h
        rw [List.foldl_cons]
        apply ih (by intro h; apply h0; simp [h]) _ h
        obtain ⟨m1, m2, gm, hgm, hgmr⟩ := T 0 main hm
        obtain ⟨c1, c2, gc, hgc, hgcr⟩ := T b c hc
        intro j d hd
        rw [List.getElem?_set] at hd
        split at hd
        · rename_i hbj
          subst hbj
          split at hd
          · cases hd
            refine ⟨c1, c2, _, hgc.reset false, ?_⟩
            simp [moveG]
          · cases hd
        · rename_i hbj
          rw [List.getElem?_set] at hd
          split at hd
          · rename_i h0j
            subst h0j
            split at hd
            · cases hd
              obtain ⟨_, _, u1, u2⟩ := hgm.inv.update hgc.inv
              refine ⟨u1.trans m1, u2.trans m2, _, hgm.update hgc, ?_⟩
              simp only [moveG]
              rw [Function.update_of_ne (Ne.symm hbj), Function.update_self, hgmr, hgcr, c2]
            · cases hd
          · rename_i h0j
            obtain ⟨d1, d2, g, hg, hgr⟩ := T j d hd
            refine ⟨d1, d2, g, hg, ?_⟩
            rw [moveG, Function.update_of_ne (Ne.symm hbj), Function.update_of_ne (Ne.symm h0j), hgr]

/-- Index 0 is the main part, index `b + 1` environment `b`. -/
def Cached.flat (s : Cached O A R) : Nat → List (Trans O A R)
  | 0 => s.main
  | b + 1 => s.opened b

/-- Processing a call row by row is the same as first appending all rows and then moving the finished
episodes, if the ids are distinct. -/
theorem receive_all (L : Nat) (opts : Opts O) (size : Nat → Nat) (hsize : ∀ b, size (b + 1) = L)
    (items : List (Nat × Trans O A R)) (hnd : (items.map Prod.fst).Nodup) (s : Cached O A R) :
    (items.foldl (Cached.receive L opts) s).flat =
      ((items.filter fun p => p.2.terminated || p.2.truncated).map fun p => p.1 + 1).foldl (moveG size)
        ((items.map fun p => (p.1 + 1, p.2)).foldl
          (fun G p => Function.update G p.1 (G p.1 ++ [expectedRow opts p.2])) s.flat) := by
  induction items generalizing s with
  | nil => rfl
  | cons p items ih =>
    obtain ⟨b, t⟩ := p
    simp only [List.map_cons, List.nodup_cons] at hnd
    have hcomm : ∀ (items : List (Nat × Trans O A R)), b ∉ items.map Prod.fst →
        ∀ (G : Nat → List (Trans O A R)) (v : List (Trans O A R)),
        Function.update ((items.map fun p => (p.1 + 1, p.2)).foldl
          (fun G p => Function.update G p.1 (G p.1 ++ [expectedRow opts p.2])) G) (b + 1) v =
        (items.map fun p => (p.1 + 1, p.2)).foldl
          (fun G p => Function.update G p.1 (G p.1 ++ [expectedRow opts p.2])) (Function.update G (b + 1) v) := by
      intro items
      induction items with
      | nil => intro _ _ _; rfl
      | cons q items ih2 =>
        intro hb G v
        obtain ⟨b2, t2⟩ := q
        simp only [List.map_cons, List.mem_cons, not_or] at hb
        simp only [List.map_cons, List.foldl_cons]
        rw [ih2 hb.2]
        congr 1
        rw [Function.update_comm (by omega), Function.update_of_ne (by omega : b2 + 1 ≠ b + 1)]
    have hzero : ∀ (items : List (Nat × Trans O A R)) (G : Nat → List (Trans O A R)) (v : List (Trans O A R)),
        Function.update ((items.map fun p => (p.1 + 1, p.2)).foldl
          (fun G p => Function.update G p.1 (G p.1 ++ [expectedRow opts p.2])) G) 0 v =
        (items.map fun p => (p.1 + 1, p.2)).foldl
          (fun G p => Function.update G p.1 (G p.1 ++ [expectedRow opts p.2])) (Function.update G 0 v) := by
      intro items
      induction items with
      | nil => intro _ _; rfl
      | cons q items ih2 =>
        intro G v
        obtain ⟨b2, t2⟩ := q
        simp only [List.map_cons, List.foldl_cons]
        rw [ih2]
        congr 1
        rw [Function.update_comm (by omega), Function.update_of_ne (by omega : b2 + 1 ≠ 0)]
    have hval : ∀ (items : List (Nat × Trans O A R)) (k : Nat), (∀ p ∈ items, p.1 + 1 ≠ k) →
        ∀ (G : Nat → List (Trans O A R)), ((items.map fun p => (p.1 + 1, p.2)).foldl
          (fun G p => Function.update G p.1 (G p.1 ++ [expectedRow opts p.2])) G) k = G k := by
      intro items
      induction items with
      | nil => intro _ _ _; rfl
      | cons q items ih2 =>
        intro k hk G
        simp only [List.map_cons, List.foldl_cons]
        rw [ih2 k (fun p hp => hk p (by simp [hp])), Function.update_of_ne]
        exact (hk q (by simp)).symm
    rw [List.foldl_cons, ih hnd.2]
    simp only [List.map_cons, List.foldl_cons]
    have hbn : ∀ p ∈ items, p.1 + 1 ≠ b + 1 := by
      intro p hp h
      apply hnd.1
      rw [List.mem_map]
      exact ⟨p, hp, by omega⟩
    have hflat : ∀ v, (Cached.flat { main := s.main, opened := Function.update s.opened b v }) =
        Function.update s.flat (b + 1) v := by
      intro v
      funext k
      cases k with
      | zero => rw [Function.update_of_ne (by omega)]; rfl
      | succ k =>
        simp only [Cached.flat]
        by_cases hk : k = b
        · subst hk; rw [Function.update_self, Function.update_self]
        · rw [Function.update_of_ne hk, Function.update_of_ne (by omega)]; rfl
    by_cases hd : (t.terminated || t.truncated) = true
    · have hf : ((b, t) :: items).filter (fun p => p.2.terminated || p.2.truncated) =
          (b, t) :: items.filter (fun p => p.2.terminated || p.2.truncated) := by
        rw [List.filter_cons, if_pos hd]
      rw [hf, List.map_cons, List.foldl_cons]
      congr 1
      have hr : Cached.receive L opts s (b, t) =
          { main := s.main ++ lastN L (s.opened b ++ [expectedRow opts t]),
            opened := Function.update s.opened b [] } := by
        unfold Cached.receive; simp only; rw [if_pos hd]
      rw [hr, moveG, hzero, hcomm items hnd.1, hval items 0 (fun p _ => by omega),
        hval items (b + 1) hbn]
      congr 1
      funext k
      cases k with
      | zero =>
        rw [Function.update_of_ne (by omega), Function.update_self, Function.update_of_ne (by omega),
          Function.update_self, hsize]
        rfl
      | succ k =>
        by_cases hk : k = b
        · subst hk; simp [Cached.flat]
        · rw [Function.update_of_ne (by omega), Function.update_of_ne (by omega),
            Function.update_of_ne (by omega)]
          simp [Cached.flat, hk]
    · have hf : ((b, t) :: items).filter (fun p => p.2.terminated || p.2.truncated) =
          items.filter (fun p => p.2.terminated || p.2.truncated) := by
        rw [List.filter_cons, if_neg hd]
      rw [hf]
      congr 2
      have hr : Cached.receive L opts s (b, t) =
          { main := s.main, opened := Function.update s.opened b (s.opened b ++ [expectedRow opts t]) } := by
        unfold Cached.receive; simp only; rw [if_neg hd]
      rw [hr, hflat]
      rfl

/-- Sizes of the sub-buffers of a cached buffer. -/
def cachedSize (mainSize L : Nat) : Nat → Nat
  | 0 => mainSize
  | _ + 1 => L

theorem CHistory.tracks {n L : Nat} {opts : Opts O} {m : Mgr O A R} {s : Cached O A R}
    (h : CHistory n L opts m s) : ∃ sep M, 0 < M ∧ 0 < L ∧ Reach m sep ∧ sep.length = n + 1 ∧
      Tracks opts (cachedSize M L) sep s.flat := by
  induction h with
  | new mainSize hm hL =>
    refine ⟨_, mainSize, hm, hL, Reach.new (mainSize :: List.replicate n L) ?_ opts, by simp, ?_⟩
    · intro x hx
      rcases List.mem_cons.mp hx with rfl | hx
      · exact hm
      · rw [(List.mem_replicate.mp hx).2]; exact hL
    · intro b c hc
      rw [List.getElem?_map, Option.map_eq_some_iff] at hc
      obtain ⟨x, hx, rfl⟩ := hc
      have hx' : x = cachedSize mainSize L b ∧ 0 < x := by
        cases b with
        | zero =>
          simp only [List.getElem?_cons_zero, Option.some.injEq] at hx
          exact ⟨hx.symm, hx ▸ hm⟩
        | succ b =>
          simp only [List.getElem?_cons_succ, List.getElem?_replicate] at hx
          split at hx
          · simp only [Option.some.injEq] at hx
            exact ⟨hx.symm, hx ▸ hL⟩
          · cases hx
      refine ⟨rfl, hx'.1, _, History.new x hx'.2 opts, ?_⟩
      cases b <;> rfl
  | @add m m' s ids rows res _ hnd ha ih =>
    obtain ⟨sep, M, hM, hL, hR, hlen, hT⟩ := ih
    have hl : ids.length = rows.length := by
      unfold Mgr.cachedAdd at ha
      cases h1 : m.add (ids.map (· + 1)) rows with
      | error e => rw [h1] at ha; cases ha
      | ok q => simpa using Mgr.add_length h1
    have hid : ∀ b ∈ ids, b + 1 < sep.length := by
      intro b hb
      by_contra hc
      unfold Mgr.cachedAdd at ha
      cases h1 : m.add (ids.map (· + 1)) rows with
      | error e => rw [h1] at ha; cases ha
      | ok q =>
        unfold Mgr.add at h1
        rw [if_neg (by simp [hl])] at h1
        simp only at h1
        have herr : ∀ (items : List (Nat × Trans O A R)) (subs : List (Sub R)), subs.length = sep.length →
            (∃ p ∈ items, ¬ p.1 < sep.length) → ∃ e, addLoop subs items = .error e := by
          intro items
          induction items with
          | nil => intro _ _ ⟨p, hp, _⟩; simp at hp
          | cons q items ih2 =>
            intro subs hsub hex
            obtain ⟨b2, t2⟩ := q
            simp only [addLoop]
            cases hb2 : subs[b2]? with
            | none => exact ⟨_, rfl⟩
            | some s2 =>
              simp only
              cases hp2 : s2.idx.preAdd t2.rew t2.done with
              | error e => exact ⟨_, rfl⟩
              | ok xr =>
                obtain ⟨e, he⟩ := ih2 (subs.set b2 { s2 with
                  idx := xr.1, last := ((xr.2.slot + s2.offset : Nat) : Int), length := xr.1.size })
                  (by simpa using hsub) (by
                  obtain ⟨p, hp, hpl⟩ := hex
                  rcases List.mem_cons.mp hp with rfl | hp
                  · exfalso
                    apply hpl
                    rw [← hsub]
                    exact (List.getElem?_eq_some_iff.mp hb2).1
                  · exact ⟨p, hp, hpl⟩)
                obtain ⟨x, r⟩ := xr
                simp only at he ⊢
                rw [he]
                exact ⟨_, rfl⟩
        obtain ⟨e, he⟩ := herr ((ids.map (· + 1)).zip (rows.map (prep m.opts))) m.subs hR.inv.sub_length (by
          have : b + 1 ∈ ((ids.map (· + 1)).zip (rows.map (prep m.opts))).map Prod.fst := by
            rw [List.map_fst_zip (by simp [hl])]
            exact List.mem_map.mpr ⟨b, hb, rfl⟩
          obtain ⟨p, hp, hpe⟩ := List.mem_map.mp this
          exact ⟨p, hp, by omega⟩)
        rw [he] at h1
        cases h1
    obtain ⟨m1, rs, sep1, rs', sep2, h1, h2, h3, I1, _⟩ := hR.inv.cachedAdd hl hid hnd
    rw [ha] at h1
    cases h1
    have hl2 := (routeAll_bound _ h2).2
    have T1 := hT.route _ h2
    have h0 : 0 ∉ ((ids.zip rows).filter fun p => p.2.terminated || p.2.truncated).map fun p => p.1 + 1 := by
      intro h
      obtain ⟨p, _, hp⟩ := List.mem_map.mp h
      omega
    have T2 := T1.moves _ h0 h3
    refine ⟨sep2, M, hM, hL, hR.cachedAdd hnd ha h2 h3, ?_, ?_⟩
    · have hml : ∀ (l : List Nat) (sep sep' : List (Buf O A R)), moveAll sep l = some sep' →
          sep'.length = sep.length := by
        intro l
        induction l with
        | nil => intro sep sep' h; cases h; rfl
        | cons b l ih2 =>
          intro sep sep' h
          simp only [moveAll] at h
          cases hm : sep[0]? with
          | none => rw [hm] at h; cases h
          | some main =>
            cases hc : sep[b]? with
            | none => rw [hm, hc] at h; cases h
            | some c =>
              rw [hm, hc] at h
              rw [ih2 _ _ h]; simp
      rw [hml _ _ _ h3, hl2, hlen]
    · rw [receive_all L opts (cachedSize M L) (fun _ => rfl) (ids.zip rows)
        (by rw [List.map_fst_zip (by omega)]; exact hnd)]
      rw [List.zip_map_left] at T2
      exact T2
  | reset keep _ ih =>
    obtain ⟨sep, M, hM, hL, hR, hlen, hT⟩ := ih
    refine ⟨_, M, hM, hL, hR.reset keep, by simpa using hlen, ?_⟩
    intro b c hc
    rw [List.getElem?_map, Option.map_eq_some_iff] at hc
    obtain ⟨c0, hc0, rfl⟩ := hc
    obtain ⟨h1, h2, g, hg, _⟩ := hT b c0 hc0
    refine ⟨h1, h2, _, hg.reset keep, ?_⟩
    cases b <;> rfl

/-! ### `get_buffer_indices` over several sub-buffers -/

theorem filter_length_prefix (l : List Nat) (p : Nat → Bool) (n : Nat) (hn : n ≤ l.length)
    (h1 : ∀ (i x : Nat), i < n → l[i]? = some x → p x = true)
    (h2 : ∀ (i x : Nat), n ≤ i → l[i]? = some x → p x = false) : (l.filter p).length = n := by
  rw [← List.take_append_drop n l, List.filter_append]
  have e1 : (l.take n).filter p = l.take n := by
    rw [List.filter_eq_self]
    intro x hx
    obtain ⟨i, hi, he⟩ := List.getElem_of_mem hx
    rw [List.length_take] at hi
    refine h1 i x (by omega) ?_
    rw [← he, List.getElem_take, List.getElem?_eq_getElem (by omega)]
  have e2 : (l.drop n).filter p = [] := by
    rw [List.filter_eq_nil_iff]
    intro x hx
    obtain ⟨i, hi, he⟩ := List.getElem_of_mem hx
    rw [List.length_drop] at hi
    rw [h2 (n + i) x (by omega) (by rw [← he, List.getElem_drop, List.getElem?_eq_getElem (by omega)])]
    simp
  rw [e1, e2]
  simp
  omega

/-- Strictly increasing. -/
def Increasing (l : List Nat) : Prop :=
  ∀ (i j x y : Nat), i < j → l[i]? = some x → l[j]? = some y → x < y

theorem Increasing.le {l : List Nat} (h : Increasing l) {i j x y : Nat} (hij : i ≤ j) (hx : l[i]? = some x)
    (hy : l[j]? = some y) : x ≤ y := by
  rcases Nat.lt_or_eq_of_le hij with h1 | h1
  · exact Nat.le_of_lt (h i j x y h1 hx hy)
  · subst h1; rw [hx] at hy; cases hy; exact Nat.le_refl _

theorem searchRight_in {l : List Nat} (h : Increasing l) {k lo hi x : Nat} (hlo : l[k]? = some lo)
    (hhi : l[k + 1]? = some hi) (h1 : lo ≤ x) (h2 : x < hi) : searchRight l (x : Int) = k + 1 := by
  unfold searchRight
  have hlen := (List.getElem?_eq_some_iff.mp hhi).1
  apply filter_length_prefix _ _ _ (by omega)
  · intro i y hi' hy
    have := h.le (by omega : i ≤ k) hy hlo
    simp; omega
  · intro i y hi' hy
    have := h.le hi' hhi hy
    simp; omega

theorem searchLeft_in {l : List Nat} (h : Increasing l) {k lo hi x : Nat} (hlo : l[k]? = some lo)
    (hhi : l[k + 1]? = some hi) (h1 : lo < x) (h2 : x < hi) : searchLeft l (x : Int) = k + 1 := by
  unfold searchLeft
  have hlen := (List.getElem?_eq_some_iff.mp hhi).1
  apply filter_length_prefix _ _ _ (by omega)
  · intro i y hi' hy
    have := h.le (by omega : i ≤ k) hy hlo
    simp; omega
  · intro i y hi' hy
    have := h.le hi' hhi hy
    simp; omega

theorem getBufferIndices_in {l : List Nat} (h : Increasing l) {k lo hi start stop : Nat} (hlo : l[k]? = some lo)
    (hhi : l[k + 1]? = some hi) (h1 : lo ≤ start) (h2 : start < hi) (h3 : lo < stop) (h4 : stop ≤ hi) :
    getBufferIndices l start stop =
      if start < stop then .ok (arange start stop)
      else if stop < start then .ok (arange start hi ++ arange lo stop)
      else .error .valueError := by
  unfold getBufferIndices
  rw [show ((stop : Int) - 1) = ((stop - 1 : Nat) : Int) by omega, searchRight_in h hlo hhi h1 h2,
    searchRight_in h hlo hhi (by omega : lo ≤ stop - 1) (by omega)]
  simp only [ne_eq, not_true_eq_false, if_false]
  by_cases c1 : start < stop
  · rw [if_pos c1, if_pos c1]
  · rw [if_neg c1, if_neg c1]
    by_cases c2 : stop < start
    · rw [if_pos c2]
      unfold crossing
      rw [if_neg (by omega), searchLeft_in h hlo hhi (by omega) h2]
      simp only [Nat.add_eq_zero_iff, Nat.one_ne_zero, and_false, if_false, Nat.add_sub_cancel, hlo, hhi]
      rw [if_neg (by omega)]
    · rw [if_neg c2]
      unfold crossing
      rw [if_pos (by omega)]

theorem getBufferIndices_out {l : List Nat} (h : Increasing l) {k k' lo hi lo' hi' start stop : Nat}
    (hlo : l[k]? = some lo) (hhi : l[k + 1]? = some hi) (hlo' : l[k']? = some lo') (hhi' : l[k' + 1]? = some hi')
    (hk : k ≠ k') (h1 : lo ≤ start) (h2 : start < hi) (h3 : lo' < stop) (h4 : stop ≤ hi') :
    getBufferIndices l start stop = .error .valueError := by
  unfold getBufferIndices
  rw [show ((stop : Int) - 1) = ((stop - 1 : Nat) : Int) by omega, searchRight_in h hlo hhi h1 h2,
    searchRight_in h hlo' hhi' (by omega : lo' ≤ stop - 1) (by omega), if_pos (by omega)]

theorem arange_shift (a b o : Nat) : arange (a + o) (b + o) = (arange a b).map (· + o) := by
  unfold arange
  rw [show b + o - (a + o) = b - a by omega, List.map_map]
  apply List.map_congr_left
  intro j _
  simp only [Function.comp]
  omega

theorem MInv.edges {m : Mgr O A R} {sep : List (Buf O A R)} (h : MInv m sep) :
    m.edges = (List.range (sep.length + 1)).map (startOf sep) := by
  unfold Mgr.edges
  rw [List.range_succ, List.map_append]
  congr 1
  · apply List.ext_getElem?
    intro b
    simp only [List.getElem?_map, List.getElem?_range]
    cases hb : m.subs[b]? with
    | none =>
      have : sep[b]? = none := by rw [← h.children]; simp [hb]
      rw [List.getElem?_eq_none_iff] at this
      rw [List.getElem?_eq_none (by simpa using this)]
      rfl
    | some s =>
      have := (List.getElem?_eq_some_iff.mp (h.get hb)).1
      rw [List.getElem?_range this]
      simp [h.offset_eq hb]
  · have := h.layout.total
    rw [h.maxs_eq] at this
    simp only [List.map_cons, List.map_nil, this, startOf]
    rw [List.take_of_length_le (by simp)]

theorem startOf_le (sep : List (Buf O A R)) {a : Nat} {c : Buf O A R} (ha : sep[a]? = some c) :
    startOf sep (a + 1) = startOf sep a + c.idx.maxsize := startOf_succ sep ha

theorem MInv.edges_increasing {m : Mgr O A R} {sep : List (Buf O A R)} (h : MInv m sep) : Increasing m.edges := by
  intro i j x y hij hx hy
  rw [h.edges] at hx hy
  obtain ⟨h1, rfl⟩ := List.getElem?_eq_some_iff.mp hx
  obtain ⟨h2, rfl⟩ := List.getElem?_eq_some_iff.mp hy
  simp only [List.length_map, List.length_range] at h1 h2
  simp only [List.getElem_map, List.getElem_range]
  have hi := List.getElem?_eq_getElem (l := sep) (by omega : i < sep.length)
  have := startOf_mono sep hi hij
  obtain ⟨g, hg⟩ := h.hist _ (List.getElem_mem (by omega : i < sep.length))
  have := hg.holds.pos
  omega

theorem MInv.edges_get {m : Mgr O A R} {sep : List (Buf O A R)} (h : MInv m sep) {b : Nat} (hb : b ≤ sep.length) :
    m.edges[b]? = some (startOf sep b) := by
  rw [h.edges]
  simp [List.getElem?_range (by omega : b < sep.length + 1)]

end Verif.Buffer
