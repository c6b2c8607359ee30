import Verif.Lemmas.Manager

set_option linter.unusedSectionVars false

namespace Verif.Buffer

open Verif.Spec

variable {O A R : Type} [AddCommMonoid R]

theorem scatter_not_mem {α : Type} (a : Nat → Option α) (kv : List (Nat × Option α)) (i : Nat)
    (h : ∀ p ∈ kv, p.1 ≠ i) : scatter a kv i = a i := by
  induction kv generalizing a with
  | nil => rfl
  | cons p kv ih =>
    obtain ⟨k, v⟩ := p
    rw [scatter, ih _ (fun q hq => h q (by simp [hq])), Function.update_of_ne]
    exact (h (k, v) (by simp)).symm

theorem advance_slots_lt (x : Idx R) (h : x.ins < x.maxsize) (n : Nat) : ∀ i ∈ (x.advance n).1, i < x.maxsize := by
  rw [(advance_ins x h n).2]
  intro i hi
  rw [List.mem_map] at hi
  obtain ⟨j, _, rfl⟩ := hi
  exact Nat.mod_lt _ (by omega)

theorem update_data_beyond {b src : Buf O A R} (hins : b.idx.ins < b.idx.maxsize)
    (h : ∀ i, b.idx.maxsize ≤ i → b.data i = none) :
    ∀ i, b.idx.maxsize ≤ i → (b.update src).1.data i = none := by
  intro i hi
  unfold Buf.update
  split
  · exact h i hi
  · simp only
    split
    · exact h i hi
    · simp only
      rw [scatter_not_mem, h i hi]
      intro p hp
      have := advance_slots_lt b.idx hins _ p.1 (List.of_mem_zip hp).1
      omega

theorem History.beyond {b : Buf O A R} {g : Ghost O A R} (h : History b g) :
    ∀ i, b.idx.maxsize ≤ i → b.data i = none := by
  induction h with
  | new => intro _ _; rfl
  | add hb ha ih =>
    intro i hi
    obtain ⟨_, _, hm, _, _, hd⟩ := hb.inv.add ha
    have := hb.inv.ins_lt
    rw [hd, Function.update_of_ne (by omega), ih i (by omega)]
  | update hb hs ih _ =>
    intro i hi
    rw [(hb.inv.update hs.inv).2.2.2] at hi
    exact update_data_beyond hb.inv.ins_lt ih i hi
  | reset keep _ ih => exact ih

theorem advance_last (x : Idx R) (n : Nat) : (x.advance (n + 1)).1.getLast? = some (x.advance (n + 1)).2.last := by
  induction n generalizing x with
  | zero => rfl
  | succ n ih =>
    rw [Idx.advance]
    simp only
    have := ih { x with last := x.ins, ins := (x.ins + 1) % x.maxsize, size := min (x.size + 1) x.maxsize }
    rw [List.getLast?_cons, this]
    rfl

theorem update_last {b src : Buf O A R} {g gs : Ghost O A R} (h : History b g) (hs : History src gs)
    (hn : 0 < src.len) : (b.update src).2.getLast? = some (b.update src).1.idx.last := by
  have hpos := h.inv.holds.pos
  have hall := hs.holds.allIndices_length
  unfold Buf.len at hn
  unfold Buf.update Buf.len
  rw [if_neg (by omega)]
  simp only
  rw [if_neg (by omega)]
  simp only
  obtain ⟨n, hn'⟩ : ∃ n, src.idx.allIndices.length = n + 1 := ⟨src.idx.size - 1, by omega⟩
  rw [hn']
  exact advance_last _ _

theorem MInv.move {m : Mgr O A R} {sep : List (Buf O A R)} (I : MInv m sep) {b : Nat} (hb : b ≠ 0)
    {main c : Buf O A R} (h0 : sep[0]? = some main) (hc : sep[b]? = some c) (hn : 0 < c.len) :
    ∃ m' first last, m.move b = .ok (m', ((first : Nat) : Int), ((last : Nat) : Int)) ∧
      MInv m' ((sep.set 0 (main.update c).1).set b (c.reset false)) ∧
      (main.update c).2.head? = some first ∧ (main.update c).2.getLast? = some last ∧ m'.opts = m.opts := by
  obtain ⟨s0, hs0, rfl⟩ := I.get' h0
  obtain ⟨sb, hsb, rfl⟩ := I.get' hc
  obtain ⟨g0, hg0⟩ := I.child_hist hs0
  obtain ⟨gb, hgb⟩ := I.child_hist hsb
  have hlast := update_last hg0 hgb hn
  obtain ⟨Iu, hslots, hopts, hmax⟩ := hg0.inv.update hgb.inv
  have hhist := hg0.update hgb
  have hlen : ((m.child s0).update (m.child sb)).2.length = (m.child sb).len := by rw [hslots]; simp
  generalize hr : (m.child s0).update (m.child sb) = r at *
  obtain ⟨first, hfirst⟩ : ∃ a, r.2.head? = some a := by
    cases hh : r.2 with
    | nil => rw [hh] at hlen; simp at hlen; omega
    | cons a l => exact ⟨a, rfl⟩
  have hoff : s0.offset = 0 := by rw [I.offset_eq hs0]; simp [startOf]
  have hmax' : r.1.idx.maxsize = s0.idx.maxsize := hmax
  set s0' : Sub R := { s0 with idx := r.1.idx, length := r.1.idx.size, last := ((r.1.idx.last : Nat) : Int) } with hs0'
  have I0 := I.set (s' := s0') (c' := r.1) (data' := writeBack m.data s0 r.1.data) hs0 hmax' rfl
    (by
      unfold childOf
      have hopts' : r.1.opts = m.opts := hopts
      have : r.1 = ⟨r.1.opts, r.1.idx, r.1.data⟩ := rfl
      rw [this, hopts']
      simp only [hs0']
      congr 1
      funext i
      rw [hmax']
      split
      · unfold writeBack
        rw [if_pos (by omega)]
        congr 1
        omega
      · rename_i hi
        rw [hhist.beyond i (by omega)])
    ⟨_, hhist⟩ (by simp [hs0', hoff]) rfl
    (by
      intro i hi
      unfold writeBack
      rw [if_neg hi])
  have hsb' : (m.subs.set 0 s0')[b]? = some sb := by rw [List.getElem?_set_ne (Ne.symm hb)]; exact hsb
  have hcb := I0.get (s := sb) hsb'
  rw [List.getElem?_set_ne (Ne.symm hb), hc] at hcb
  simp only [Option.some.injEq] at hcb
  have I1 := I0.set (s' := { sb with idx := sb.idx.reset false, length := 0, last := sb.offset })
    (c' := (m.child sb).reset false) (data' := writeBack m.data s0 r.1.data) hsb' rfl rfl
    (by
      rw [hcb]; rfl)
    ⟨_, hgb.reset false⟩ (by simp [Idx.reset]) (by simp [Idx.reset]) (by intro _ _; rfl)
  refine ⟨_, first, r.1.idx.last, ?_, I1, hfirst, hlast, rfl⟩
  unfold Mgr.move
  simp only [hs0, hsb, hr, hfirst, hlast]
  rfl

theorem MInv.moves (l : List Nat) {m : Mgr O A R} {sep : List (Buf O A R)} (I : MInv m sep) (hnd : l.Nodup)
    (h0 : 0 ∉ l) (hs : 0 < sep.length) (hl : ∀ b ∈ l, ∃ c, sep[b]? = some c ∧ 0 < c.len) :
    ∃ m' ps sep', m.moves l = .ok (m', ps) ∧ moveAll sep l = some sep' ∧ MInv m' sep' ∧
      sep'.length = sep.length ∧ ps.length = l.length ∧ m'.opts = m.opts ∧
      List.Forall₂ (fun (p : Int × Int) (slots : List Nat) => ∃ first last : Nat, p = (↑first, ↑last) ∧
        slots.head? = some first ∧ slots.getLast? = some last) ps (moveSlots sep l) := by
  induction l generalizing m sep with
  | nil => exact ⟨m, [], sep, rfl, rfl, I, rfl, rfl, rfl, .nil⟩
  | cons b l ih =>
    have hb : b ≠ 0 := by intro h; apply h0; simp [h]
    obtain ⟨c, hc, hcn⟩ := hl b (by simp)
    have hmain : sep[0]? = some sep[0] := List.getElem?_eq_getElem hs
    obtain ⟨m1, first, last, hmv, I1, hfi, hla, ho⟩ := I.move hb hmain hc hcn
    obtain ⟨m2, ps, sep', h1, h2, h3, h4, h5, h6, h7⟩ := ih I1 (List.nodup_cons.mp hnd).2
      (by intro h; apply h0; simp [h]) (by simpa using hs)
      (by
        intro b' hb'
        obtain ⟨c', hc', hcn'⟩ := hl b' (by simp [hb'])
        refine ⟨c', ?_, hcn'⟩
        have h1 : b ≠ b' := by intro h; subst h; exact (List.nodup_cons.mp hnd).1 hb'
        have h2 : 0 ≠ b' := by intro h; subst h; apply h0; simp [hb']
        rw [List.getElem?_set_ne h1, List.getElem?_set_ne h2]
        exact hc')
    refine ⟨m2, (↑first, ↑last) :: ps, sep', ?_, ?_, h3, ?_, by simp [h5], by rw [h6, ho], ?_⟩
    · simp only [Mgr.moves, hmv, h1]
    · simp only [moveAll, hmain, hc, h2]
    · rw [h4]; simp
    · simp only [moveSlots, hmain, hc]
      exact .cons ⟨first, last, rfl, hfi, hla⟩ h7

theorem overwrite_results (ds : List Bool) (rs : List (AddResult R)) (ps : List (Int × Int)) (ss : List (List Nat))
    (hl : ds.length = rs.length) (hn : ps.length = ds.count true)
    (h : List.Forall₂ (fun (p : Int × Int) (slots : List Nat) => ∃ first last : Nat, p = (↑first, ↑last) ∧
        slots.head? = some first ∧ slots.getLast? = some last) ps ss) :
    CachedResults ds rs ss (overwrite rs ds ps) := by
  induction ds generalizing rs ps ss with
  | nil =>
    have : ps = [] := by simpa using hn
    subst this
    cases h
    match rs, hl with
    | [], _ => exact .nil
  | cons d ds ih =>
    match rs, hl with
    | r :: rs, hl =>
      cases d with
      | false =>
        simp only [overwrite]
        exact .opened r (ih rs ps ss (by simpa using hl) (by simpa using hn) h)
      | true =>
        cases h with
        | nil => simp at hn
        | cons hp h =>
          obtain ⟨first, last, rfl, h1, h2⟩ := hp
          simp only [overwrite]
          exact .ended r _ first last h1 h2 (ih rs _ _ (by simpa using hl) (by simpa using hn) h)

theorem routeAll_bound (items : List (Nat × Trans O A R)) {sep sep' : List (Buf O A R)}
    {rs : List (AddResult R)} (h : routeAll sep items = some (sep', rs)) :
    (∀ p ∈ items, p.1 < sep.length) ∧ sep'.length = sep.length := by
  induction items generalizing sep rs with
  | nil => cases h; simp
  | cons p items ih =>
    obtain ⟨b, t⟩ := p
    simp only [routeAll] at h
    cases hb : sep[b]? with
    | none => rw [hb] at h; cases h
    | some buf =>
      simp only [hb] at h
      cases ha : buf.add t with
      | error e => rw [ha] at h; cases h
      | ok q =>
        obtain ⟨buf', r⟩ := q
        simp only [ha] at h
        cases hr : routeAll (sep.set b buf') items with
        | none => rw [hr] at h; cases h
        | some q =>
          obtain ⟨sep1, rs1⟩ := q
          simp only [hr, Option.some.injEq, Prod.mk.injEq] at h
          obtain ⟨rfl, rfl⟩ := h
          have := ih hr
          rw [List.length_set] at this
          refine ⟨?_, this.2⟩
          intro p hp
          rcases List.mem_cons.mp hp with rfl | hp
          · exact (List.getElem?_eq_some_iff.mp hb).1
          · exact this.1 p hp

theorem add_len_pos {b b' : Buf O A R} {t : Trans O A R} {r : AddResult R} (h : b.add t = .ok (b', r)) :
    0 < b'.len := by
  unfold Buf.add at h
  simp only at h
  cases hp : b.idx.preAdd (prep b.opts t).rew (prep b.opts t).done with
  | error e => rw [hp] at h; cases h
  | ok q =>
    obtain ⟨x, r'⟩ := q
    rw [hp] at h
    simp only [Except.ok.injEq, Prod.mk.injEq] at h
    obtain ⟨rfl, rfl⟩ := h
    unfold Idx.preAdd at hp
    split at hp
    · cases hp
    · rename_i hm
      simp only at hp
      split at hp
      · cases hp
      · cases hp
        simp only [Buf.len]
        omega

theorem routeAll_nonempty (items : List (Nat × Trans O A R)) {sep sep' : List (Buf O A R)}
    {rs : List (AddResult R)} (h : routeAll sep items = some (sep', rs)) (b : Nat)
    (hb : (∃ p ∈ items, p.1 = b) ∨ ∃ c, sep[b]? = some c ∧ 0 < c.len) :
    ∃ c, sep'[b]? = some c ∧ 0 < c.len := by
  induction items generalizing sep rs with
  | nil =>
    cases h
    rcases hb with ⟨p, hp, _⟩ | hb
    · simp at hp
    · exact hb
  | cons p items ih =>
    obtain ⟨b0, t⟩ := p
    simp only [routeAll] at h
    cases hb0 : sep[b0]? with
    | none => rw [hb0] at h; cases h
    | some buf =>
      simp only [hb0] at h
      cases ha : buf.add t with
      | error e => rw [ha] at h; cases h
      | ok q =>
        obtain ⟨buf', r⟩ := q
        simp only [ha] at h
        cases hr : routeAll (sep.set b0 buf') items with
        | none => rw [hr] at h; cases h
        | some q =>
          obtain ⟨sep1, rs1⟩ := q
          simp only [hr, Option.some.injEq, Prod.mk.injEq] at h
          obtain ⟨rfl, rfl⟩ := h
          apply ih hr
          by_cases hbb : b0 = b
          · right
            subst hbb
            refine ⟨buf', ?_, add_len_pos ha⟩
            rw [List.getElem?_set_self (List.getElem?_eq_some_iff.mp hb0).1]
          · rcases hb with ⟨p, hp, hpb⟩ | ⟨c, hc, hn⟩
            · rcases List.mem_cons.mp hp with rfl | hp
              · exact absurd hpb hbb
              · exact Or.inl ⟨p, hp, hpb⟩
            · right
              exact ⟨c, by rw [List.getElem?_set_ne hbb]; exact hc, hn⟩

theorem Mgr.add_length {m m' : Mgr O A R} {ids : List Nat} {rows : List (Trans O A R)} {rs : List (AddResult R)}
    (h : m.add ids rows = .ok (m', rs)) : ids.length = rows.length := by
  unfold Mgr.add at h
  split at h
  · cases h
  · omega

theorem MInv.cachedAdd {m : Mgr O A R} {sep : List (Buf O A R)} (I : MInv m sep) {ids : List Nat}
    {rows : List (Trans O A R)} (hl : ids.length = rows.length) (hid : ∀ b ∈ ids, b + 1 < sep.length)
    (hnd : ids.Nodup) :
    ∃ m' res sep' res' sep'', m.cachedAdd ids rows = .ok (m', res) ∧
      routeAll sep ((ids.map (· + 1)).zip rows) = some (sep', res') ∧
      moveAll sep' (((ids.zip rows).filter fun p => p.2.terminated || p.2.truncated).map fun p => p.1 + 1) =
        some sep'' ∧ MInv m' sep'' ∧
      CachedResults (rows.map fun t => t.terminated || t.truncated)
        (List.zipWith (fun b r => AddResult.shift (startOf sep (b + 1)) r) ids res')
        (moveSlots sep' (((ids.zip rows).filter fun p => p.2.terminated || p.2.truncated).map fun p => p.1 + 1))
        res := by
  obtain ⟨m1, rs, sep1, rs', h1, h2, I1, h4, h5, _, _, h8⟩ := I.add (ids.map (· + 1)) rows (by simpa using hl)
    (by
      intro b hb
      rw [List.mem_map] at hb
      obtain ⟨b0, hb0, rfl⟩ := hb
      exact hid b0 hb0)
  set l := ((ids.zip rows).filter fun p => p.2.terminated || p.2.truncated).map fun p => p.1 + 1 with hldef
  have hlnd : l.Nodup := by
    have e : l = (((ids.zip rows).filter fun p => p.2.terminated || p.2.truncated).map Prod.fst).map (· + 1) := by
      rw [List.map_map]; rfl
    rw [e]
    have hsub : (((ids.zip rows).filter fun p => p.2.terminated || p.2.truncated).map Prod.fst).Sublist ids := by
      have h1 := (List.filter_sublist (l := ids.zip rows)
        (p := fun p => p.2.terminated || p.2.truncated)).map Prod.fst
      rwa [List.map_fst_zip (by omega)] at h1
    refine List.pairwise_map.mpr ((List.Nodup.sublist hsub hnd).imp ?_)
    intro a b hab h
    omega
  have hpos : l ≠ [] → 0 < sep1.length := by
    intro hne
    obtain ⟨b, hb⟩ := List.exists_mem_of_ne_nil l hne
    rw [hldef, List.mem_map] at hb
    obtain ⟨p, hp, rfl⟩ := hb
    have := hid p.1 (List.of_mem_zip (List.mem_filter.mp hp).1).1
    omega
  have hmoves : ∃ m' ps sep', m1.moves l = .ok (m', ps) ∧ moveAll sep1 l = some sep' ∧ MInv m' sep' ∧
      ps.length = l.length ∧
      List.Forall₂ (fun (p : Int × Int) (slots : List Nat) => ∃ first last : Nat, p = (↑first, ↑last) ∧
        slots.head? = some first ∧ slots.getLast? = some last) ps (moveSlots sep1 l) := by
    by_cases hne : l = []
    · rw [hne]; exact ⟨m1, [], sep1, rfl, rfl, I1, rfl, .nil⟩
    · obtain ⟨m', ps, sep', g1, g2, g3, _, g5, _, g7⟩ := I1.moves l hlnd
        (by
          intro h
          rw [hldef, List.mem_map] at h
          obtain ⟨p, _, hp⟩ := h
          omega) (hpos hne)
        (by
          intro b hb
          apply routeAll_nonempty _ h2
          left
          rw [hldef, List.mem_map] at hb
          obtain ⟨p, hp, rfl⟩ := hb
          have hz := (List.mem_filter.mp hp).1
          refine ⟨(p.1 + 1, p.2), ?_, rfl⟩
          rw [List.zip_map_left]
          exact List.mem_map.mpr ⟨p, hz, rfl⟩)
      exact ⟨m', ps, sep', g1, g2, g3, g5, g7⟩
  obtain ⟨m2, ps, sep2, g1, g2, g3, g5, g7⟩ := hmoves
  have hres : CachedResults (rows.map fun t => t.terminated || t.truncated) rs (moveSlots sep1 l)
      (overwrite rs (rows.map Trans.done) ps) := by
    apply overwrite_results _ _ _ _ ?_ ?_ g7
    · rw [h4]; simp at h5; simp [h5, hl]
    · rw [g5, hldef, List.length_map, ← List.countP_eq_length_filter, List.count, List.countP_map]
      have : rows = (ids.zip rows).map Prod.snd := by rw [List.map_snd_zip (by omega)]
      conv_rhs => rw [this, List.countP_map]
      congr 1
      funext p
      simp
  have hrs : rs = List.zipWith (fun b r => AddResult.shift (startOf sep (b + 1)) r) ids rs' := by
    rw [h4, List.zipWith_map_left]
  rw [hrs] at hres
  refine ⟨m2, overwrite rs (rows.map Trans.done) ps, sep1, rs', sep2, ?_, h2, g2, g3, by rw [hrs]; exact hres⟩
  unfold Mgr.cachedAdd
  rw [h1]
  simp only
  have hl' : (((ids.zip rows).filter fun p => p.2.done).map fun p => p.1 + 1) = l := rfl
  rw [hl', g1]

theorem Reach.inv {m : Mgr O A R} {sep : List (Buf O A R)} (h : Reach m sep) : MInv m sep := by
  induction h with
  | new sizes hs opts => exact MInv.new sizes hs opts
  | @add m m' sep sep' ids rows res res' _ ha hr I =>
    have hl := Mgr.add_length ha
    obtain ⟨hb, _⟩ := routeAll_bound _ hr
    obtain ⟨m1, rs, sep1, rs', h1, h2, I1, _⟩ := I.add ids rows hl (by
      intro b hbm
      have : b ∈ (ids.zip rows).map Prod.fst := by rw [List.map_fst_zip (by omega)]; exact hbm
      obtain ⟨p, hp, rfl⟩ := List.mem_map.mp this
      exact hb p hp)
    rw [ha] at h1
    rw [hr] at h2
    cases h1; cases h2
    exact I1
  | reset keep _ I => exact I.reset keep
  | @cachedAdd m m' sep sep' sep'' ids rows res res' _ hnd ha hr hmv I =>
    have hl : ids.length = rows.length := by
      unfold Mgr.cachedAdd at ha
      cases h1 : m.add (ids.map (· + 1)) rows with
      | error e => rw [h1] at ha; cases ha
      | ok q => simpa using Mgr.add_length h1
    obtain ⟨hb, _⟩ := routeAll_bound _ hr
    obtain ⟨m1, rs, sep1, rs', sep2, h1, h2, h3, I1, _⟩ := I.cachedAdd hl (by
      intro b hbm
      have : b ∈ (ids.zip rows).map Prod.fst := by rw [List.map_fst_zip (by omega)]; exact hbm
      obtain ⟨p, hp, rfl⟩ := List.mem_map.mp this
      have := hb (p.1 + 1, p.2) (by rw [List.zip_map_left]; exact List.mem_map.mpr ⟨p, hp, rfl⟩)
      exact this) hnd
    rw [ha] at h1
    rw [hr] at h2
    cases h1; cases h2
    rw [hmv] at h3
    cases h3
    exact I1

end Verif.Buffer
