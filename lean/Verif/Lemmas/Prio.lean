import Verif.Spec.Prio
import Verif.Lemmas.ManagerReads
import Verif.Props.SegTree
import Verif.Props.Manager

set_option linter.unusedSectionVars false

namespace Verif.Buffer

open Verif.Spec Finset

variable {O A R : Type} [AddCommMonoid R]

/-! ### Weights -/

structure WInv (o : PrioOpts) (w : Weights) (size : Nat) (T : Nat → Prop) (ps : List ℝ) : Prop where
  tree : ∃ calls, SegTree.After size calls w.tree
  pos : ∀ i, T i → 0 < SegTree.getitem w.tree i
  zero : ∀ i, ¬ T i → SegTree.getitem w.tree i = 0
  sub : ∀ i, T i → i < size
  le : ∀ i, SegTree.getitem w.tree i ≤ w.maxPrio ^ o.alpha
  ge : 0 < o.alpha → ∀ i, T i → w.minPrio ^ o.alpha ≤ SegTree.getitem w.tree i
  maxp : w.maxPrio = ps.foldl max 1
  minp : w.minPrio = ps.foldl min 1
  psPos : ∀ p ∈ ps, 0 < p

theorem le_foldl_max (l : List ℝ) (a : ℝ) : a ≤ l.foldl max a ∧ ∀ x ∈ l, x ≤ l.foldl max a := by
  induction l generalizing a with
  | nil => simp
  | cons y l ih =>
    obtain ⟨h1, h2⟩ := ih (max a y)
    refine ⟨(le_max_left a y).trans h1, ?_⟩
    intro x hx
    rcases List.mem_cons.mp hx with rfl | hx
    · exact (le_max_right a x).trans h1
    · exact h2 x hx

theorem foldl_max_mem (l : List ℝ) (a : ℝ) : l.foldl max a = a ∨ l.foldl max a ∈ l := by
  induction l generalizing a with
  | nil => simp
  | cons y l ih =>
    simp only [List.foldl_cons, List.mem_cons]
    rcases ih (max a y) with h | h
    · rw [h]
      rcases max_choice a y with h' | h' <;> simp [h']
    · exact Or.inr (Or.inr h)

theorem foldl_min_pos (l : List ℝ) (a : ℝ) (ha : 0 < a) (h : ∀ x ∈ l, 0 < x) : 0 < l.foldl min a := by
  induction l generalizing a with
  | nil => simpa
  | cons y l ih =>
    exact ih _ (lt_min ha (h y (by simp))) fun x hx => h x (by simp [hx])

theorem foldl_min_le (l : List ℝ) (a : ℝ) : l.foldl min a ≤ a ∧ ∀ x ∈ l, l.foldl min a ≤ x := by
  induction l generalizing a with
  | nil => simp
  | cons y l ih =>
    obtain ⟨h1, h2⟩ := ih (min a y)
    refine ⟨h1.trans (min_le_left a y), ?_⟩
    intro x hx
    rcases List.mem_cons.mp hx with rfl | hx
    · exact h1.trans (min_le_right a x)
    · exact h2 x hx

theorem foldl_min_mem (l : List ℝ) (a : ℝ) : l.foldl min a = a ∨ l.foldl min a ∈ l := by
  induction l generalizing a with
  | nil => simp
  | cons y l ih =>
    simp only [List.foldl_cons, List.mem_cons]
    rcases ih (min a y) with h | h
    · rw [h]
      rcases min_choice a y with h' | h' <;> simp [h']
    · exact Or.inr (Or.inr h)

theorem WInv.max_pos {o w size T ps} (I : WInv o w size T ps) : 1 ≤ w.maxPrio := by
  rw [I.maxp]; exact (le_foldl_max ps 1).1

theorem WInv.min_pos {o w size T ps} (I : WInv o w size T ps) : 0 < w.minPrio := by
  rw [I.minp]; exact foldl_min_pos ps 1 one_pos I.psPos

theorem WInv.new (o : PrioOpts) (size : Nat) : WInv o (Weights.new size) size (fun _ => False) [] where
  tree := ⟨[], rfl⟩
  pos := by intro i h; exact h.elim
  zero := by intro i _; rfl
  sub := by intro i h; exact h.elim
  le := by
    intro i
    show (0 : ℝ) ≤ (1 : ℝ) ^ o.alpha
    rw [Real.one_rpow]; exact zero_le_one
  ge := by intro _ i h; exact h.elim
  maxp := rfl
  minp := rfl
  psPos := by simp

theorem after_snoc {size : Nat} {calls : List (List (Int × ℝ))} {t t' : SegTree.Tree ℝ}
    (h : SegTree.After size calls t) {kv : List (Int × ℝ)} (hs : SegTree.setitem t kv = some t') :
    SegTree.After size (calls ++ [kv]) t' := by
  unfold SegTree.After at h ⊢
  rw [List.foldlM_append, h]
  show (List.foldlM SegTree.setitem t [kv]) = some t'
  rw [List.foldlM_cons, hs]
  rfl

/-- Entries after a write of a list of (slot, value) pairs. -/
theorem setitem_get {size : Nat} {calls : List (List (Int × ℝ))} {t t' : SegTree.Tree ℝ}
    (h : SegTree.After size calls t) {kv : List (Nat × ℝ)}
    (hs : SegTree.setitem t (kv.map fun p => ((p.1 : Int), p.2)) = some t') (i : Nat) :
    (i ∉ kv.map Prod.fst ∧ SegTree.getitem t' i = SegTree.getitem t i) ∨
      ∃ p ∈ kv, p.1 = i ∧ SegTree.getitem t' i = p.2 := by
  have hw := (SegTree.after_inv size calls t h).1
  have := (SegTree.setitem_spec t t' hw _ hs).2.2 i
  rw [List.map_map] at this
  have e : ((fun p : Int × ℝ => (p.1.toNat, p.2)) ∘ fun p : Nat × ℝ => ((p.1 : Int), p.2)) = id := by
    funext p; simp
  rw [e, List.map_id] at this
  rw [this]
  generalize SegTree.getitem t = a
  clear this e hw hs h
  induction kv generalizing a with
  | nil => left; simp [SegTree.scatter]
  | cons p kv ih =>
    obtain ⟨j, x⟩ := p
    rcases ih (Function.update a j x) with ⟨h1, h2⟩ | ⟨p, hp, h1, h2⟩
    · by_cases hij : i = j
      · subst hij
        right
        exact ⟨(i, x), by simp, rfl, by rw [SegTree.scatter, h2, Function.update_self]⟩
      · left
        refine ⟨by simp [hij]; simpa using h1, ?_⟩
        rw [SegTree.scatter, h2, Function.update_of_ne hij]
    · right
      exact ⟨p, List.mem_cons_of_mem _ hp, h1, by rw [SegTree.scatter]; exact h2⟩

theorem setitem_total {size : Nat} {calls : List (List (Int × ℝ))} {t : SegTree.Tree ℝ}
    (h : SegTree.After size calls t) (kv : List (Nat × ℝ)) (hne : kv ≠ []) (hlt : ∀ p ∈ kv, p.1 < size) :
    ∃ t', SegTree.setitem t (kv.map fun p => ((p.1 : Int), p.2)) = some t' := by
  cases hs : SegTree.setitem t (kv.map fun p => ((p.1 : Int), p.2)) with
  | some t' => exact ⟨t', rfl⟩
  | none =>
    rw [SegTree.C01_rejects size calls t h] at hs
    rcases hs with hs | ⟨p, hp, hlt'⟩
    · simp at hs; exact absurd hs hne
    · rw [List.mem_map] at hp
      obtain ⟨q, hq, rfl⟩ := hp
      have := hlt q hq
      simp at hlt'
      omega

theorem setitem_lt {size : Nat} {calls : List (List (Int × ℝ))} {t t' : SegTree.Tree ℝ}
    (h : SegTree.After size calls t) {kv : List (Nat × ℝ)}
    (hs : SegTree.setitem t (kv.map fun p => ((p.1 : Int), p.2)) = some t') : ∀ p ∈ kv, p.1 < size := by
  have hn : SegTree.setitem t (kv.map fun p => ((p.1 : Int), p.2)) ≠ none := by rw [hs]; simp
  rw [Ne, SegTree.C01_rejects size calls t h] at hn
  push Not at hn
  intro p hp
  have := hn.2 _ (List.mem_map.mpr ⟨p, hp, rfl⟩)
  simp at this
  omega

theorem WInv.initWeight {o w size T ps} (I : WInv o w size T ps) {slots : List Nat} {w' : Weights}
    (h : w.initWeight o slots = some w') :
    WInv o w' size (fun i => T i ∨ i ∈ slots) ps ∧ (∀ i ∈ slots, SegTree.getitem w'.tree i = w.maxPrio ^ o.alpha) ∧
      w'.maxPrio = w.maxPrio := by
  unfold Weights.initWeight at h
  rw [Option.map_eq_some_iff] at h
  obtain ⟨t, ht, rfl⟩ := h
  obtain ⟨calls, hc⟩ := I.tree
  have e : (slots.map fun (i : Nat) => ((i : Int), w.maxPrio ^ o.alpha)) =
      (slots.map fun i => (i, w.maxPrio ^ o.alpha)).map fun p => ((p.1 : Int), p.2) := by
    rw [List.map_map]; rfl
  rw [e] at ht
  have hmax : 0 < w.maxPrio ^ o.alpha := Real.rpow_pos_of_pos (by linarith [I.max_pos]) _
  have hget := setitem_get hc ht
  have hlt := setitem_lt hc ht
  have hmem : ∀ i ∈ slots, SegTree.getitem t i = w.maxPrio ^ o.alpha := by
    intro i hi
    rcases hget i with ⟨h1, _⟩ | ⟨p, hp, h1, h2⟩
    · exact absurd (by rw [List.map_map]; simpa using hi) h1
    · rw [List.mem_map] at hp
      obtain ⟨j, _, rfl⟩ := hp
      exact h2
  have hnot : ∀ i, i ∉ slots → SegTree.getitem t i = SegTree.getitem w.tree i := by
    intro i hi
    rcases hget i with ⟨_, h2⟩ | ⟨p, hp, h1, h2⟩
    · exact h2
    · rw [List.mem_map] at hp
      obtain ⟨j, hj, rfl⟩ := hp
      simp only at h1
      subst h1
      exact absurd hj hi
  refine ⟨⟨⟨_, after_snoc hc ht⟩, ?_, ?_, ?_, ?_, ?_, I.maxp, I.minp, I.psPos⟩, hmem, rfl⟩
  · intro i hi
    by_cases hs : i ∈ slots
    · rw [hmem i hs]; exact hmax
    · rw [hnot i hs]; exact I.pos i (hi.resolve_right hs)
  · intro i hi
    rw [not_or] at hi
    rw [hnot i hi.2]; exact I.zero i hi.1
  · intro i hi
    rcases hi with hi | hi
    · exact I.sub i hi
    · exact hlt (i, w.maxPrio ^ o.alpha) (List.mem_map.mpr ⟨i, hi, rfl⟩)
  · intro i
    by_cases hs : i ∈ slots
    · rw [hmem i hs]
    · rw [hnot i hs]; exact I.le i
  · intro ha i hi
    by_cases hs : i ∈ slots
    · rw [hmem i hs]
      refine Real.rpow_le_rpow I.min_pos.le (le_trans ?_ I.max_pos) ha.le
      show w.minPrio ≤ 1
      rw [I.minp]; exact (foldl_min_le ps 1).1
    · rw [hnot i hs]; exact I.ge ha i (hi.resolve_right hs)

theorem WInv.updateWeight {o w size T ps} (I : WInv o w size T ps) (ha : 0 < o.alpha) (he : 0 < o.eps)
    {kv : List (Nat × ℝ)} {w' : Weights} (hT : ∀ q ∈ kv, T q.1) (h : w.updateWeight o kv = some w') :
    WInv o w' size T (ps ++ kv.map fun q => |q.2| + o.eps) := by
  unfold Weights.updateWeight at h
  rw [Option.map_eq_some_iff] at h
  obtain ⟨t, ht, rfl⟩ := h
  obtain ⟨calls, hc⟩ := I.tree
  have e : (kv.map fun p => ((p.1 : Int), prioOf o p.2 ^ o.alpha)) =
      (kv.map fun p => (p.1, prioOf o p.2 ^ o.alpha)).map fun p => ((p.1 : Int), p.2) := by
    rw [List.map_map]; rfl
  rw [e] at ht
  have hp0 : ∀ x : ℝ, 0 < prioOf o x := fun x => by unfold prioOf; positivity
  have hget := setitem_get hc ht
  have hmx : w.maxPrio ≤ (kv.map fun p => prioOf o p.2).foldl max w.maxPrio := (le_foldl_max _ _).1
  have h1 := I.max_pos
  refine ⟨⟨_, after_snoc hc ht⟩, ?_, ?_, I.sub, ?_, ?_, ?_, ?_, ?_⟩
  · intro i hi
    rcases hget i with ⟨_, h2⟩ | ⟨p, hp, _, h2⟩
    · show 0 < SegTree.getitem t i
      rw [h2]; exact I.pos i hi
    · rw [List.mem_map] at hp
      obtain ⟨q, _, rfl⟩ := hp
      show 0 < SegTree.getitem t i
      rw [h2]; exact Real.rpow_pos_of_pos (hp0 _) _
  · intro i hi
    rcases hget i with ⟨_, h2⟩ | ⟨p, hp, h3, h2⟩
    · show SegTree.getitem t i = 0
      rw [h2]; exact I.zero i hi
    · rw [List.mem_map] at hp
      obtain ⟨q, hq, rfl⟩ := hp
      simp only at h3
      subst h3
      exact absurd (hT q hq) hi
  · intro i
    rcases hget i with ⟨_, h2⟩ | ⟨p, hp, _, h2⟩
    · show SegTree.getitem t i ≤ _
      rw [h2]
      exact (I.le i).trans (Real.rpow_le_rpow (by linarith) hmx ha.le)
    · rw [List.mem_map] at hp
      obtain ⟨q, hq, rfl⟩ := hp
      show SegTree.getitem t i ≤ _
      rw [h2]
      refine Real.rpow_le_rpow (hp0 _).le ?_ ha.le
      exact (le_foldl_max _ _).2 _ (List.mem_map.mpr ⟨q, hq, rfl⟩)
  · intro _ i hi
    have hm0 : 0 < (kv.map fun p => prioOf o p.2).foldl min w.minPrio :=
      foldl_min_pos _ _ I.min_pos (by
        intro x hx
        rw [List.mem_map] at hx
        obtain ⟨q, _, rfl⟩ := hx
        exact hp0 _)
    rcases hget i with ⟨_, h2⟩ | ⟨p, hp, _, h2⟩
    · show _ ≤ SegTree.getitem t i
      rw [h2]
      exact (Real.rpow_le_rpow hm0.le (foldl_min_le _ _).1 ha.le).trans (I.ge ha i hi)
    · rw [List.mem_map] at hp
      obtain ⟨q, hq, rfl⟩ := hp
      show _ ≤ SegTree.getitem t i
      rw [h2]
      exact Real.rpow_le_rpow hm0.le ((foldl_min_le _ _).2 _ (List.mem_map.mpr ⟨q, hq, rfl⟩)) ha.le
  · rw [List.foldl_append, ← I.maxp]; rfl
  · rw [List.foldl_append, ← I.minp]; rfl
  · intro p hp
    rcases List.mem_append.mp hp with hp | hp
    · exact I.psPos p hp
    · rw [List.mem_map] at hp
      obtain ⟨q, _, rfl⟩ := hp
      positivity

theorem WInv.congr {o w size T T' ps} (I : WInv o w size T ps) (h : ∀ i, T i ↔ T' i) : WInv o w size T' ps := by
  have : T = T' := funext fun i => propext (h i)
  rw [← this]; exact I

theorem WInv.nonneg {o w size T ps} (I : WInv o w size T ps) (i : Nat) : 0 ≤ SegTree.getitem w.tree i := by
  by_cases h : T i
  · exact (I.pos i h).le
  · rw [I.zero i h]

theorem WInv.total_pos {o w size T ps} (I : WInv o w size T ps) {i : Nat} (h : T i) :
    0 < ∑ j ∈ range size, SegTree.getitem w.tree j :=
  Finset.sum_pos' (fun j _ => I.nonneg j) ⟨i, mem_range.mpr (I.sub i h), I.pos i h⟩

/-- The draw: as many indices as asked for; each is a slot with positive weight (for `u = 0`: slot 0), and
slot `i` is drawn exactly if `u` lies in an interval of length weight/total. -/
theorem WInv.sample {o w size T ps} (I : WInv o w size T ps) {i0 : Nat} (h0 : T i0) (u : Nat → ℝ)
    (hu : ∀ k, 0 ≤ u k ∧ u k < 1) (n : Nat) :
    ∃ l, w.sample u n = some l ∧ l.length = n ∧
      ∀ (k : Nat), k < n → ∃ i, l[k]? = some i ∧ (0 < u k → T i) ∧ (u k = 0 → i = 0) ∧
        (0 < u k → ∀ i', i' = i ↔
          (∑ j ∈ range i', SegTree.getitem w.tree j) / (∑ j ∈ range size, SegTree.getitem w.tree j) < u k ∧
          u k ≤ ((∑ j ∈ range i', SegTree.getitem w.tree j) + SegTree.getitem w.tree i') /
            (∑ j ∈ range size, SegTree.getitem w.tree j)) := by
  obtain ⟨calls, hc⟩ := I.tree
  have htot := SegTree.C02_reduce_all size calls w.tree hc
  set tot := ∑ j ∈ range size, SegTree.getitem w.tree j with htd
  have hpos : 0 < tot := I.total_pos h0
  set values := (List.range n).map fun k => u k * SegTree.reduce w.tree 0 none with hvals
  have hacc : ∀ v ∈ values, 0 ≤ v ∧ v < tot := by
    intro v hv
    rw [hvals, List.mem_map] at hv
    obtain ⟨k, _, rfl⟩ := hv
    rw [htot]
    exact ⟨mul_nonneg (hu k).1 hpos.le, by nlinarith [(hu k).2]⟩
  obtain ⟨idx, after, hq, hlen⟩ := (SegTree.C03_accepts size calls w.tree hc values).mpr hacc
  refine ⟨idx, by unfold Weights.sample; rw [← hvals, hq]; rfl, by simpa [hvals] using hlen, ?_⟩
  intro k hk
  have hvk : values[k]? = some (u k * tot) := by
    rw [hvals, List.getElem?_map, List.getElem?_range hk, htot]; rfl
  obtain ⟨i, h1, h2, h3, h4, h5⟩ := SegTree.C03_prefix_sum_idx size calls w.tree hc (fun i _ => I.nonneg i)
    values idx after hq k _ hvk
  have mono : ∀ a b, a ≤ b → ∑ j ∈ range a, SegTree.getitem w.tree j ≤ ∑ j ∈ range b, SegTree.getitem w.tree j := by
    intro a b hab
    apply sum_le_sum_of_subset_of_nonneg
    · intro j; simp only [Finset.mem_range]; omega
    · intro j _ _; exact I.nonneg j
  refine ⟨i, h1, ?_, ?_, ?_⟩
  · intro huk
    by_contra hT
    have := h3 (mul_pos huk hpos)
    rw [I.zero i hT] at this
    exact lt_irrefl _ this
  · intro huk
    rw [huk, zero_mul] at h5
    by_contra hi
    have := h5 0 (by omega)
    rw [sum_range_one] at this
    exact absurd this (not_lt.mpr (I.nonneg 0))
  · intro huk i'
    rw [div_lt_iff₀ hpos, le_div_iff₀ hpos, ← sum_range_succ]
    constructor
    · rintro rfl
      refine ⟨?_, h4⟩
      rcases Nat.eq_zero_or_pos i' with rfl | hp
      · simpa using mul_pos huk hpos
      · have := h5 (i' - 1) (by omega)
        rwa [Nat.sub_add_cancel hp] at this
    · rintro ⟨ha, hb⟩
      rcases Nat.lt_trichotomy i' i with hlt | heq | hgt
      · exact absurd (h5 i' hlt) (not_lt.mpr hb)
      · exact heq
      · exact absurd (lt_of_lt_of_le ha h4) (not_lt.mpr (mono (i + 1) i' hgt))

/-- Any slot with positive weight is drawn by some random number. -/
theorem WInv.sample_hits {o w size T ps} (I : WInv o w size T ps) {i : Nat} (h : T i) :
    ∃ x : ℝ, 0 < x ∧ x < 1 ∧ w.sample (fun _ => x) 1 = some [i] := by
  have hpos := I.total_pos h
  set tot := ∑ j ∈ range size, SegTree.getitem w.tree j with htd
  have hle : (∑ j ∈ range i, SegTree.getitem w.tree j) + SegTree.getitem w.tree i ≤ tot := by
    rw [← sum_range_succ]
    apply sum_le_sum_of_subset_of_nonneg
    · intro j; simp only [Finset.mem_range]; have := I.sub i h; omega
    · intro j _ _; exact I.nonneg j
  have hS : 0 ≤ ∑ j ∈ range i, SegTree.getitem w.tree j := sum_nonneg fun j _ => I.nonneg j
  have hw := I.pos i h
  set x := ((∑ j ∈ range i, SegTree.getitem w.tree j) + SegTree.getitem w.tree i / 2) / tot with hx
  have hx0 : 0 < x := by rw [hx]; positivity
  have hx1 : x < 1 := by rw [hx, div_lt_one hpos]; linarith
  refine ⟨x, hx0, hx1, ?_⟩
  obtain ⟨l, h1, h2, h3⟩ := I.sample h (fun _ => x) (fun _ => ⟨hx0.le, hx1⟩) 1
  obtain ⟨i', h4, _, _, h5⟩ := h3 0 one_pos
  have := (h5 hx0 i).mpr ⟨by rw [hx]; exact (div_lt_div_iff_of_pos_right hpos).mpr (by linarith), by
    rw [hx]; exact (div_le_div_iff_of_pos_right hpos).mpr (by linarith)⟩
  subst this
  rw [h1]
  match l, h2 with
  | [a], _ =>
    simp at h4
    rw [h4]

/-! ### Single buffer -/

theorem add_len {b b' : Buf O A R} {g : Ghost O A R} (h : History b g) {t : Trans O A R} {r : AddResult R}
    (ha : b.add t = .ok (b', r)) (i : Nat) : i < b'.len ↔ i < b.len ∨ i = r.slot := by
  obtain ⟨I', _, hm, hr, _, _⟩ := h.inv.add ha
  have hs' := I'.size
  have hs := h.inv.size
  simp only [List.length_append, List.length_cons, List.length_nil, hm] at hs'
  have hins := h.inv.ins
  have hpos := h.inv.holds.pos
  rw [hr]
  unfold Buf.len
  simp only [hins]
  by_cases hc : g.received.length < b.idx.maxsize
  · rw [Nat.mod_eq_of_lt hc]; omega
  · have := Nat.mod_lt g.received.length hpos; omega

theorem update_len {b src : Buf O A R} {g gs : Ghost O A R} (h : History b g) (hs : History src gs) (i : Nat) :
    i < (b.update src).1.len ↔ i < b.len ∨ i ∈ (b.update src).2 := by
  obtain ⟨I', hr, _, hm⟩ := h.inv.update hs.inv
  have hs' := I'.size
  have hs0 := h.inv.size
  have hpos := h.inv.holds.pos
  have hlen : (content src gs).length = src.len := hs.inv.holds.len
  simp only [List.length_append, hm, hlen] at hs'
  rw [hr, List.mem_map]
  unfold Buf.len at *
  constructor
  · intro hi
    by_cases hc : i < b.idx.size
    · exact Or.inl hc
    · right
      refine ⟨i - g.received.length, List.mem_range.mpr (by omega), ?_⟩
      rw [show g.received.length + (i - g.received.length) = i by omega, Nat.mod_eq_of_lt (by omega)]
  · rintro (hi | ⟨j, hj, rfl⟩)
    · omega
    · have hj := List.mem_range.mp hj
      by_cases hc : g.received.length + j < b.idx.maxsize
      · rw [Nat.mod_eq_of_lt hc]; omega
      · have := Nat.mod_lt (g.received.length + j) hpos; omega

structure PInv (p : PBuf O A R) (ps : List ℝ) (old : Nat) : Prop where
  hist : ∃ g, History p.base g
  alpha : 0 < p.popts.alpha
  eps : 0 < p.popts.eps
  oldLe : old ≤ p.base.idx.maxsize
  w : WInv p.popts p.w p.base.idx.maxsize (fun i => i < max old p.base.len) ps

theorem PHistory.inv {p : PBuf O A R} {ps : List ℝ} {old : Nat} (h : PHistory p ps old) : PInv p ps old := by
  induction h with
  | new size hs opts popts heps beta weightNorm hp =>
    unfold PBuf.new at hp
    split at hp
    · rename_i hc
      cases hp
      exact ⟨⟨_, History.new size hs opts⟩, hc.1, heps, Nat.zero_le _,
        (WInv.new popts size).congr fun i => by simp [Buf.len, Buf.new, Idx.new]⟩
    · cases hp
  | @add p p' ps old t r _ ha ih =>
    unfold PBuf.add at ha
    obtain ⟨⟨g, hg⟩, h1, h2, h3, hw⟩ := ih
    cases hb : p.base.add t with
    | error e => rw [hb] at ha; cases ha
    | ok q =>
      obtain ⟨b, r'⟩ := q
      rw [hb] at ha
      simp only [Option.map_eq_some_iff, Prod.mk.injEq] at ha
      obtain ⟨w, hw', rfl, rfl⟩ := ha
      have hm := (hg.inv.add hb).2.2.1
      refine ⟨⟨_, hg.add hb⟩, h1, h2, by rw [hm]; exact h3, ?_⟩
      simp only [hm]
      refine (hw.initWeight hw').1.congr fun i => ?_
      have := add_len hg hb i
      simp only [List.mem_singleton, lt_max_iff]
      tauto
  | @update p p' ps old src gs l _ hsrc hu ih =>
    unfold PBuf.update at hu
    obtain ⟨⟨g, hg⟩, h1, h2, h3, hw⟩ := ih
    simp only [Option.map_eq_some_iff, Prod.mk.injEq] at hu
    obtain ⟨w, hw', rfl, rfl⟩ := hu
    have hm := (hg.inv.update hsrc.inv).2.2.2
    refine ⟨⟨_, hg.update hsrc⟩, h1, h2, by simp only [hm]; exact h3, ?_⟩
    simp only [hm]
    refine (hw.initWeight hw').1.congr fun i => ?_
    have := update_len hg hsrc i
    simp only [lt_max_iff]
    tauto
  | @updateWeight p p' ps old kv _ hkv hu ih =>
    unfold PBuf.updateWeight at hu
    obtain ⟨hg, h1, h2, h3, hw⟩ := ih
    rw [Option.map_eq_some_iff] at hu
    obtain ⟨w, hw', rfl⟩ := hu
    exact ⟨hg, h1, h2, h3, hw.updateWeight h1 h2 hkv hw'⟩
  | setBeta beta _ ih => exact ⟨ih.hist, ih.alpha, ih.eps, ih.oldLe, ih.w⟩
  | @reset p ps old keep _ ih =>
    obtain ⟨⟨g, hg⟩, h1, h2, h3, hw⟩ := ih
    have := hg.holds.size_le
    refine ⟨⟨_, hg.reset keep⟩, h1, h2, ?_, hw.congr fun i => ?_⟩
    · show max old p.base.len ≤ p.base.idx.maxsize
      exact max_le h3 this
    · simp [PBuf.reset, Buf.reset, Idx.reset, Buf.len]

theorem PBuf.add_ok {p : PBuf O A R} {ps : List ℝ} {old : Nat} (h : PInv p ps old) (t : Trans O A R) :
    ∃ p' r, p.add t = some (p', r) := by
  obtain ⟨g, hg⟩ := h.hist
  obtain ⟨b', r, hb⟩ := hg.inv.add_ok t
  obtain ⟨calls, hc⟩ := h.w.tree
  have hslot : r.slot < p.base.idx.maxsize := by
    rw [(hg.inv.add hb).2.2.2.1]
    simp only
    rw [hg.inv.ins]
    exact Nat.mod_lt _ hg.inv.holds.pos
  obtain ⟨t', ht⟩ := setitem_total hc [(r.slot, p.w.maxPrio ^ p.popts.alpha)] (by simp) (by simpa using hslot)
  refine ⟨{ p with base := b', w := { p.w with tree := t' } }, r, ?_⟩
  unfold PBuf.add
  rw [hb]
  simp only [Weights.initWeight]
  have e : (List.map (fun (i : Nat) => ((i : Int), p.w.maxPrio ^ p.popts.alpha)) [r.slot]) =
      List.map (fun q : Nat × ℝ => ((q.1 : Int), q.2)) [(r.slot, p.w.maxPrio ^ p.popts.alpha)] := rfl
  rw [e, ht]
  rfl

/-! ### Vector buffer -/

theorem routeAll_live (items : List (Nat × Trans O A R)) {sep sep' : List (Buf O A R)}
    {rs : List (AddResult R)} (hh : ∀ c ∈ sep, ∃ g, History c g) (h : routeAll sep items = some (sep', rs)) (i : Nat) :
    LiveIn sep' i ↔ LiveIn sep i ∨
      i ∈ List.zipWith (fun (p : Nat × Trans O A R) (r : AddResult R) => r.slot + startOf sep p.1) items rs := by
  induction items generalizing sep rs with
  | nil => cases h; simp
  | cons p items ih =>
    obtain ⟨b, t⟩ := p
    simp only [routeAll] at h
    cases hb : sep[b]? with
    | none => rw [hb] at h; cases h
    | some c =>
      rw [hb] at h
      cases ha : c.add t with
      | error e => simp only [ha] at h; cases h
      | ok q =>
        obtain ⟨c', r⟩ := q
        simp only [ha] at h
        cases hr : routeAll (sep.set b c') items with
        | none => rw [hr] at h; cases h
        | some q =>
          obtain ⟨sep1, rs1⟩ := q
          rw [hr] at h
          cases h
          obtain ⟨g, hg⟩ := hh c (List.mem_of_getElem? hb)
          have hm := (hg.inv.add ha).2.2.1
          have hst : ∀ i, startOf (sep.set b c') i = startOf sep i := startOf_set sep hb hm
          have hh' : ∀ d ∈ sep.set b c', ∃ g, History d g := by
            intro d hd
            rcases List.mem_or_eq_of_mem_set hd with hd | rfl
            · exact hh d hd
            · exact ⟨_, hg.add ha⟩
          rw [ih hh' hr]
          simp only [List.zipWith_cons_cons, List.mem_cons, hst]
          have key : LiveIn (sep.set b c') i ↔ LiveIn sep i ∨ i = r.slot + startOf sep b := by
            have hblt := (List.getElem?_eq_some_iff.mp hb).1
            unfold LiveIn
            simp only [hst]
            constructor
            · rintro ⟨a, d, hd, h1, h2⟩
              by_cases hab : a = b
              · subst hab
                rw [List.getElem?_set_self hblt] at hd
                cases hd
                rcases (add_len hg ha (i - startOf sep a)).mp (by omega) with h3 | h3
                · exact Or.inl ⟨a, c, hb, h1, by omega⟩
                · exact Or.inr (by omega)
              · rw [List.getElem?_set_ne (Ne.symm hab)] at hd
                exact Or.inl ⟨a, d, hd, h1, h2⟩
            · rintro (⟨a, d, hd, h1, h2⟩ | h3)
              · by_cases hab : a = b
                · subst hab
                  rw [hb] at hd
                  cases hd
                  have := (add_len hg ha (i - startOf sep a)).mpr (Or.inl (by omega))
                  exact ⟨a, c', List.getElem?_set_self hblt, h1, by omega⟩
                · exact ⟨a, d, by rw [List.getElem?_set_ne (Ne.symm hab)]; exact hd, h1, h2⟩
              · have := (add_len hg ha r.slot).mpr (Or.inr rfl)
                exact ⟨b, c', List.getElem?_set_self hblt, by omega, by omega⟩
          rw [key]
          tauto

structure PMInv (p : PMgr O A R) (sep : List (Buf O A R)) (ps : List ℝ) : Prop where
  reach : Reach p.base sep
  alpha : 0 < p.popts.alpha
  eps : 0 < p.popts.eps
  w : WInv p.popts p.w p.base.total (LiveIn sep) ps

theorem PMHistory.inv {p : PMgr O A R} {sep : List (Buf O A R)} {ps : List ℝ} (h : PMHistory p sep ps) :
    PMInv p sep ps := by
  induction h with
  | new totalSize bufferNum hs opts popts heps beta weightNorm hp =>
    unfold PMgr.new at hp
    split at hp
    · rename_i hc
      cases hp
      refine ⟨?_, hc.1, heps, (WInv.new popts _).congr fun i => ?_⟩
      · have := Reach.new (A := A) (R := R) (List.replicate bufferNum ((totalSize + bufferNum - 1) / bufferNum))
          (by
            intro s hs'
            rw [List.mem_replicate] at hs'
            rw [hs'.2]
            exact Nat.div_pos (by omega) hc.2.2) opts
        rwa [List.map_replicate] at this
      · simp only [false_iff]
        rintro ⟨b, c, hb, h1, h2⟩
        have := List.mem_of_getElem? hb
        rw [List.mem_replicate] at this
        have hl : c.len = 0 := by rw [this.2]; rfl
        omega
    · cases hp
  | @add p p' sep sep' ps ids rows res res' _ ha hr ih =>
    unfold PMgr.add at ha
    obtain ⟨hR, h1, h2, hw⟩ := ih
    cases hb : p.base.add ids rows with
    | error e => rw [hb] at ha; cases ha
    | ok q =>
      obtain ⟨m, rs⟩ := q
      rw [hb] at ha
      simp only [Option.map_eq_some_iff, Prod.mk.injEq] at ha
      obtain ⟨w, hw', rfl, rfl⟩ := ha
      have hl := Mgr.add_length hb
      have hid : ∀ b ∈ ids, b < sep.length := by
        intro b hb'
        obtain ⟨k, hk, he⟩ := List.getElem_of_mem hb'
        have hz : (ids.zip rows)[k]? = some (b, rows[k]'(by omega)) := by
          rw [List.getElem?_eq_getElem (by simp; omega)]
          simp [he]
        exact (routeAll_bound _ hr).1 _ (List.mem_of_getElem? hz)
      have hreach := hR.add hb hr
      obtain ⟨m1, rs1, sep1, rs1', e1, e2, _, e4, e5, _, _, _⟩ := hR.inv.add ids rows hl hid
      rw [hb] at e1
      cases e1
      rw [hr] at e2
      cases e2
      have ht : m.total = p.base.total := by
        have := hreach.inv.layout.total
        have h' := hR.inv.layout.total
        unfold Mgr.add at hb
        rw [if_neg (by omega)] at hb
        simp only at hb
        split at hb
        · cases hb
        · cases hb; rfl
      refine ⟨hreach, h1, h2, ?_⟩
      simp only [ht]
      refine (hw.initWeight hw').1.congr fun i => ?_
      rw [routeAll_live _ hR.inv.hist hr i]
      have : rs.map AddResult.slot =
          List.zipWith (fun (p : Nat × Trans O A R) (r : AddResult R) => r.slot + startOf sep p.1) (ids.zip rows) res' := by
        rw [e4]
        apply List.ext_getElem
        · simp [e5, hl]
        · intro k h3 h4
          simp [AddResult.shift]
      rw [this]
  | @updateWeight p p' sep ps kv _ hkv hu ih =>
    unfold PMgr.updateWeight at hu
    obtain ⟨hR, h1, h2, hw⟩ := ih
    rw [Option.map_eq_some_iff] at hu
    obtain ⟨w, hw', rfl⟩ := hu
    exact ⟨hR, h1, h2, hw.updateWeight h1 h2 hkv hw'⟩
  | setBeta beta _ ih => exact ⟨ih.reach, ih.alpha, ih.eps, ih.w⟩

end Verif.Buffer
