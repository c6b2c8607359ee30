import Verif.Spec.Her
import Verif.Lemmas.Cached
import Mathlib.Tactic.Linarith
import Mathlib.Data.List.Sort
import Mathlib.Tactic.FieldSimp

set_option linter.unusedSectionVars false

namespace Verif.Buffer

open Verif.Spec

variable {P G A R : Type} [AddCommMonoid R] {K : ℚ}

/-! ### Scatter -/

theorem scatter_self {α : Type} (a b : Nat → Option α) (slots : List Nat) (h : ∀ i, i ∉ slots → b i = a i) :
    scatter b (slots.map fun i => (i, a i)) = a := by
  induction slots generalizing b with
  | nil => funext i; exact h i (by simp)
  | cons s slots ih =>
    simp only [List.map_cons, scatter]
    apply ih
    intro i hi
    by_cases his : i = s
    · subst his; simp
    · rw [Function.update_of_ne his]
      exact h i (by simp [his, hi])

theorem scatter_const {α : Type} (a : Nat → Option α) (kv : List (Nat × Option α)) (i : Nat) (v : Option α)
    (hmem : ∃ p ∈ kv, p.1 = i) (h : ∀ p ∈ kv, p.1 = i → p.2 = v) : scatter a kv i = v := by
  induction kv generalizing a with
  | nil => simp at hmem
  | cons p kv ih =>
    obtain ⟨k, x⟩ := p
    rw [scatter]
    by_cases hk : ∃ p ∈ kv, p.1 = i
    · exact ih _ hk fun p hp => h p (by simp [hp])
    · have hki : k = i := by
        obtain ⟨p, hp, hpi⟩ := hmem
        rcases List.mem_cons.mp hp with rfl | hp
        · exact hpi
        · exact absurd ⟨p, hp, hpi⟩ hk
      rw [scatter_not_mem]
      · subst hki
        rw [Function.update_self]
        exact h (k, x) (by simp) rfl
      · intro p hp hpi
        exact hk ⟨p, hp, hpi⟩

/-! ### Restoring -/

theorem restore_of_saved_nil (h : HBuf P G A R) (hs : h.saved = []) : h.restore = h := by
  cases h
  simp only at hs
  subst hs
  rfl

theorem restore_restore (h : HBuf P G A R) : h.restore.restore = h.restore := restore_of_saved_nil _ rfl

theorem rewrite_restore (h : HBuf P G A R) (u : Nat → ℚ) (pick : Nat → Nat → List Nat) (l : List Nat)
    (hs : h.saved = []) : (h.rewrite u pick l).restore = h := by
  unfold HBuf.rewrite
  split
  · exact restore_of_saved_nil h hs
  · unfold HBuf.restore
    cases h with
    | mk base cr hor fp saved =>
      simp only at hs
      subst hs
      simp only [HBuf.mk.injEq, and_true, true_and]
      cases base with
      | mk opts idx data =>
        simp only [Buf.mk.injEq, true_and]
        generalize (HBuf.cells _ _) = cells
        have e : (cells.map fun x => (x.1, data x.1)) = (cells.map fun x => x.1).map fun i => (i, data i) := by
          rw [List.map_map]; rfl
        rw [e]
        apply scatter_self
        intro i hi
        apply scatter_not_mem
        intro p hp hpi
        apply hi
        rw [List.mem_map] at hp
        obtain ⟨x, hx, rfl⟩ := hp
        exact List.mem_map.mpr ⟨x, hx, hpi⟩

/-- The parameters fixed at construction. -/
theorem HHistory.restored {h : HBuf P G A R} {g : Ghost (GObs P G) A R} (H : HHistory K h g) :
    History h.restore.base g ∧ h.base.opts.stackNum = 1 := by
  induction H with
  | new m hm cr hor opts hs => exact ⟨History.new m hm opts, hs⟩
  | @add h h' g t r H ha ih =>
    unfold HBuf.add at ha
    simp only at ha
    cases hb : h.restore.base.add t with
    | error e => rw [hb] at ha; cases ha
    | ok q =>
      obtain ⟨b, r'⟩ := q
      rw [hb] at ha
      simp only [Except.ok.injEq, Prod.mk.injEq] at ha
      obtain ⟨rfl, rfl⟩ := ha
      refine ⟨?_, ?_⟩
      · rw [restore_of_saved_nil _ rfl]
        exact ih.1.add hb
      · obtain ⟨_, ho, _⟩ := ih.1.inv.add hb
        show b.opts.stackNum = 1
        rw [ho]; exact ih.2
  | @update h g src gs H hs ih =>
    refine ⟨?_, ?_⟩
    · rw [restore_of_saved_nil _ rfl]
      exact ih.1.update hs
    · show (h.restore.base.update src).1.opts.stackNum = 1
      rw [(ih.1.inv.update hs.inv).2.2.1]; exact ih.2
  | @reset h g keep H ih =>
    refine ⟨?_, ih.2⟩
    rw [restore_of_saved_nil _ rfl]
    exact ih.1.reset keep
  | @sample h h' g rng u pick bs l H ha ih =>
    unfold HBuf.sampleIndices at ha
    simp only at ha
    split at ha
    · cases ha
    · split at ha
      · cases ha
      · cases ha
        rw [rewrite_restore _ _ _ _ rfl]
        refine ⟨ih.1, ?_⟩
        unfold HBuf.rewrite
        split
        · exact ih.2
        · exact ih.2

/-- `future_p` is fixed at construction. -/
theorem HHistory.futureP {h : HBuf P G A R} {g : Ghost (GObs P G) A R} (H : HHistory K h g) :
    h.futureP = 1 - 1 / K := by
  induction H with
  | new m hm cr hor opts hs => rfl
  | @add h h' g t r H ha ih =>
    unfold HBuf.add at ha
    simp only at ha
    split at ha
    · cases ha
    · cases ha; exact ih
  | update H hs ih => exact ih
  | reset keep H ih => exact ih
  | @sample h h' g rng u pick bs l H ha ih =>
    unfold HBuf.sampleIndices at ha
    simp only at ha
    split at ha
    · cases ha
    · split at ha
      · cases ha
      · cases ha
        unfold HBuf.rewrite
        split <;> exact ih

/-! ### Rounding -/

theorem roundEven_le {x : ℚ} {n : Nat} (h0 : 0 ≤ x) (h : x ≤ n) : roundEven x ≤ n := by
  have hf0 : 0 ≤ ⌊x⌋ := Int.floor_nonneg.mpr h0
  have hfn : ⌊x⌋ ≤ (n : Int) := by
    have := Int.floor_le_floor h
    simpa using this
  have hle : ⌊x⌋.toNat ≤ n := by omega
  have hcast : ((⌊x⌋.toNat : Nat) : ℚ) = ((⌊x⌋ : Int) : ℚ) := by
    have : ((⌊x⌋.toNat : Nat) : Int) = ⌊x⌋ := Int.toNat_of_nonneg hf0
    exact_mod_cast this
  unfold roundEven
  simp only
  by_cases heq : ⌊x⌋.toNat = n
  · have hx : x - (⌊x⌋.toNat : Nat) ≤ 0 := by rw [heq]; linarith
    rw [if_pos (by linarith)]
    omega
  · split_ifs <;> omega

/-- Every number of steps up to the maximum can be drawn. -/
theorem roundEven_surj {o n : Nat} (h : o ≤ n) : ∃ u : ℚ, 0 ≤ u ∧ u < 1 ∧ roundEven (u * n) = o := by
  by_cases hon : o = n
  · subst hon
    by_cases h0 : o = 0
    · subst h0; exact ⟨0, le_refl _, one_pos, by simp [roundEven]⟩
    · have hpos : (1 : ℚ) ≤ o := by exact_mod_cast Nat.one_le_iff_ne_zero.mpr h0
      refine ⟨(o - 1 / 4) / o, div_nonneg (by linarith) (by linarith), ?_, ?_⟩
      · rw [div_lt_one (by linarith)]; linarith
      · have e : (o - 1 / 4 : ℚ) / o * o = o - 1 / 4 := by field_simp
        rw [e]
        have hfl : ⌊(o : ℚ) - 1 / 4⌋ = (o : Int) - 1 := by
          rw [Int.floor_eq_iff]
          push_cast
          constructor <;> linarith
        unfold roundEven
        simp only [hfl]
        have e2 : ((o : Int) - 1).toNat = o - 1 := by omega
        rw [e2]
        have e3 : ((o - 1 : Nat) : ℚ) = o - 1 := by rw [Nat.cast_sub (by omega)]; simp
        rw [if_neg (by rw [e3]; linarith), if_pos (by rw [e3]; linarith)]
        omega
  · have hlt : o < n := by omega
    have hn : (0 : ℚ) < n := by exact_mod_cast (by omega : 0 < n)
    refine ⟨o / n, by positivity, (div_lt_one hn).mpr (by exact_mod_cast hlt), ?_⟩
    have e : (o : ℚ) / n * n = o := by field_simp
    rw [e]
    simp [roundEven]

/-! ### Grouping sampled positions by episode -/

section Groups

variable {n : Nat} {ts : Nat → Nat}

theorem mem_opens {k : Nat} : k ∈ openPositions n ts ↔ k < n ∧ ∀ j < k, ts j ≠ ts k := by
  unfold openPositions
  simp

theorem opens_sorted : (openPositions n ts).Pairwise (· < ·) := by
  unfold openPositions
  exact List.pairwise_lt_range.filter _

theorem exists_open {k : Nat} (hk : k < n) : ∃ q ∈ openPositions n ts, q ≤ k ∧ ts q = ts k := by
  induction k using Nat.strong_induction_on with
  | _ k ih =>
    by_cases h : ∀ j < k, ts j ≠ ts k
    · exact ⟨k, mem_opens.mpr ⟨hk, h⟩, le_refl _, rfl⟩
    · push Not at h
      obtain ⟨j, hj, he⟩ := h
      obtain ⟨q, hq, hle, hqe⟩ := ih j hj (by omega)
      exact ⟨q, hq, by omega, hqe.trans he⟩

theorem closes_length (h : openPositions n ts ≠ []) :
    (closePositions n (openPositions n ts)).length = (openPositions n ts).length := by
  unfold closePositions
  have : 0 < (openPositions n ts).length := List.length_pos_iff.mpr h
  simp
  omega

/-- Equal keys are contiguous. -/
def Contig (n : Nat) (ts : Nat → Nat) : Prop := ∀ a b c, a ≤ b → b ≤ c → c < n → ts a = ts c → ts b = ts a

theorem group_spec (hc : Contig n ts) {j o z : Nat} (ho : (openPositions n ts)[j]? = some o)
    (hz : (closePositions n (openPositions n ts))[j]? = some z) :
    o ≤ z ∧ z < n ∧ ts z = ts o ∧ ∀ m, m < n → ts m = ts o → o ≤ m ∧ m ≤ z := by
  set l := openPositions n ts with hl
  have hmem : ∀ {i a : Nat}, l[i]? = some a → a < n ∧ ∀ j < a, ts j ≠ ts a :=
    fun h => mem_opens.mp (List.mem_of_getElem? h)
  have hlt : ∀ {i i' a a' : Nat}, l[i]? = some a → l[i']? = some a' → i < i' → a < a' := by
    intro i i' a a' h1 h2 h3
    obtain ⟨g1, e1⟩ := List.getElem?_eq_some_iff.mp h1
    obtain ⟨g2, e2⟩ := List.getElem?_eq_some_iff.mp h2
    rw [← e1, ← e2]
    exact List.pairwise_iff_getElem.mp opens_sorted i i' g1 g2 h3
  have hjl : j < l.length := (List.getElem?_eq_some_iff.mp ho).1
  obtain ⟨hon, hofirst⟩ := hmem ho
  have hlow : ∀ m, m < n → ts m = ts o → o ≤ m := by
    intro m hm he
    by_contra hlt'
    exact hofirst m (by omega) he
  unfold closePositions at hz
  by_cases hlast : j + 1 < l.length
  · rw [List.getElem?_append_left (by simp; omega), List.getElem?_map, List.getElem?_drop,
      Nat.add_comm, List.getElem?_eq_getElem hlast] at hz
    simp only [Option.map_some, Option.some.injEq] at hz
    set m1 := l[j + 1] with hm1
    have hm1' : l[j + 1]? = some m1 := List.getElem?_eq_getElem hlast
    have h01 := hlt ho hm1' (by omega)
    obtain ⟨hm1n, hm1first⟩ := hmem hm1'
    refine ⟨by omega, by omega, ?_, ?_⟩
    · obtain ⟨q, hq, hqz, hqe⟩ := exists_open (n := n) (ts := ts) (k := z) (by omega)
      obtain ⟨j', hj', he'⟩ := List.getElem_of_mem hq
      have hj'q : l[j']? = some q := by rw [List.getElem?_eq_getElem hj', he']
      have hqo : q ≤ o := by
        rcases Nat.lt_trichotomy j' j with h | h | h
        · exact (hlt hj'q ho h).le
        · subst h; rw [ho] at hj'q; cases hj'q; exact le_refl _
        · rcases Nat.lt_or_ge (j + 1) j' with h' | h'
          · have := hlt hm1' hj'q h'; omega
          · have : j' = j + 1 := by omega
            subst this
            rw [hm1'] at hj'q; cases hj'q
            omega
      have := hc q o z hqo (by omega) (by omega) hqe
      rw [this, hqe]
    · intro m hm he
      refine ⟨hlow m hm he, ?_⟩
      by_contra hgt
      have h1 : m1 ≤ m := by omega
      have := hc o m1 m (by omega) h1 hm he.symm
      exact hm1first o h01 this.symm
  · have hj : j = l.length - 1 := by omega
    have hlen : ((l.drop 1).map (· - 1)).length = j := by simp; omega
    rw [List.getElem?_append_right (by omega), hlen, Nat.sub_self] at hz
    simp only [List.getElem?_cons_zero, Option.some.injEq] at hz
    refine ⟨by omega, by omega, ?_, fun m hm he => ⟨hlow m hm he, by omega⟩⟩
    obtain ⟨q, hq, hqz, hqe⟩ := exists_open (n := n) (ts := ts) (k := z) (by omega)
    obtain ⟨j', hj', he'⟩ := List.getElem_of_mem hq
    have hj'q : l[j']? = some q := by rw [List.getElem?_eq_getElem hj', he']
    have hqo : q ≤ o := by
      rcases Nat.lt_trichotomy j' j with h | h | h
      · exact (hlt hj'q ho h).le
      · subst h; rw [ho] at hj'q; cases hj'q; exact le_refl _
      · change j' < l.length at hj'; omega
    have := hc q o z hqo (by omega) (by omega) hqe
    rw [this, hqe]

end Groups

/-! ### Chronological sorting -/

theorem sortChron_spec {b : Buf (GObs P G) A R} {c : List (Trans (GObs P G) A R)} (H : Holds b.idx b.data c)
    (hins : b.idx.ins < b.idx.maxsize) (l : List Nat) (hl : ∀ i ∈ l, i < b.idx.size) :
    ∃ ks : List Nat, sortChron b.idx l = ks.map (slot b.idx.ins b.idx.size) ∧ ks.Pairwise (· ≤ ·) ∧
      (∀ k ∈ ks, k < b.idx.size) ∧ (sortChron b.idx l).Perm l := by
  set x := b.idx with hx
  have hsz := H.size_le
  have hil := H.ins_le
  set s := fun i => if i < x.ins then i + x.maxsize else i with hs
  set us := fun i => if i ≥ x.maxsize then i - x.maxsize else i with hus
  have hus_s : ∀ i, i < x.size → us (s i) = i := by
    intro i hi
    simp only [hs, hus]
    split_ifs <;> omega
  set sorted := (l.map s).insertionSort (· ≤ ·) with hsorted
  have hperm : sorted.Perm (l.map s) := List.perm_insertionSort _ _
  have hsort : sorted.Pairwise (· ≤ ·) := List.pairwise_insertionSort _ _
  have hrange : ∀ y ∈ sorted, ∃ i < x.size, y = s i := by
    intro y hy
    have := hperm.mem_iff.mp hy
    rw [List.mem_map] at this
    obtain ⟨i, hi, rfl⟩ := this
    exact ⟨i, hl i hi, rfl⟩
  -- chronological position of a shifted slot
  set pos := fun y => y - (if x.size < x.maxsize then x.maxsize else x.ins) with hpos
  have hslot : ∀ i, i < x.size → pos (s i) < x.size ∧ slot x.ins x.size (pos (s i)) = i ∧
      (∀ i', i' < x.size → s i ≤ s i' → pos (s i) ≤ pos (s i')) := by
    intro i hi
    have hcase := H.fill
    refine ⟨?_, ?_, ?_⟩
    · simp only [hpos, hs]
      split_ifs <;> omega
    · simp only [hpos, hs, slot]
      split_ifs <;> omega
    · intro i' hi' hle
      simp only [hpos]
      split_ifs <;> omega
  refine ⟨sorted.map pos, ?_, ?_, ?_, ?_⟩
  · show sorted.map us = _
    rw [List.map_map]
    apply List.map_congr_left
    intro y hy
    obtain ⟨i, hi, rfl⟩ := hrange y hy
    simp only [Function.comp]
    rw [hus_s i hi, (hslot i hi).2.1]
  · rw [List.pairwise_map]
    refine hsort.imp_of_mem ?_
    intro a b' ha hb hab
    obtain ⟨i, hi, rfl⟩ := hrange a ha
    obtain ⟨i', hi', rfl⟩ := hrange b' hb
    exact (hslot i hi).2.2 i' hi' hab
  · intro k hk
    rw [List.mem_map] at hk
    obtain ⟨y, hy, rfl⟩ := hk
    obtain ⟨i, hi, rfl⟩ := hrange y hy
    exact (hslot i hi).1
  · show (sorted.map us).Perm l
    have := hperm.map us
    rw [List.map_map] at this
    refine this.trans ?_
    have e : l.map (us ∘ s) = l := by
      conv_rhs => rw [← List.map_id l]
      apply List.map_congr_left
      intro i hi
      exact hus_s i (hl i hi)
    rw [e]

/-! ### The episodes found by `rewrite_transitions` -/

/-- What the table of unique episodes looks like: for each row the position `k0` of its first sampled step and
the position `f` of the future step. The future step of row `j` comes from the number `u (z j)`. -/
structure EpTable (h : HBuf P G A R) (c : List (Trans (GObs P G) A R)) (ks : List Nat) (z : Nat → Nat) (u : Nat → ℚ)
    (eps : List (Nat × Nat)) : Prop where
  rows : ∀ (j : Nat) (e : Nat × Nat), eps[j]? = some e → ∃ k0 f, k0 ∈ ks ∧ k0 < c.length ∧
    e = (slot h.base.idx.ins h.base.idx.size k0, slot h.base.idx.ins h.base.idx.size f) ∧
    f ≤ epLast Trans.done c k0 ∧
    ∀ k ∈ ks, epLast Trans.done c k = epLast Trans.done c k0 → k0 ≤ k ∧ k ≤ f
  cover : ∀ k ∈ ks, ∃ (j : Nat) (k0 : Nat) (x : Nat), eps[j]? = some (slot h.base.idx.ins h.base.idx.size k0, x) ∧
    k0 ∈ ks ∧ epLast Trans.done c k = epLast Trans.done c k0
  uniq : ∀ (j j' k0 k0' x x' : Nat), eps[j]? = some (slot h.base.idx.ins h.base.idx.size k0, x) →
    eps[j']? = some (slot h.base.idx.ins h.base.idx.size k0', x') → k0 ∈ ks → k0' ∈ ks →
    epLast Trans.done c k0 = epLast Trans.done c k0' → j = j'
  draw : ∀ (j k0 x : Nat), eps[j]? = some (slot h.base.idx.ins h.base.idx.size k0, x) → k0 ∈ ks →
    ∃ kz ∈ ks, epLast Trans.done c kz = epLast Trans.done c k0 ∧ ks[z j]? = some kz ∧
      (∀ k ∈ ks, epLast Trans.done c k = epLast Trans.done c k0 → k ≤ kz) ∧
      x = slot h.base.idx.ins h.base.idx.size (kz + roundEven (u (z j) * ((epLast Trans.done c kz - kz : Nat) : ℚ)))

theorem epLast_mono {c : List (Trans (GObs P G) A R)} {k l : Nat} (h : k ≤ l) (hl : l < c.length) :
    epLast Trans.done c k ≤ epLast Trans.done c l := by
  by_cases h2 : l ≤ epLast Trans.done c k
  · exact (epLast_step Trans.done c (by omega) h h2).ge
  · have := le_epLast Trans.done c hl
    omega

theorem episodes_table {h : HBuf P G A R} {c : List (Trans (GObs P G) A R)}
    (H : Holds h.base.idx h.base.data c) (hins : h.base.idx.ins < h.base.idx.maxsize)
    (l : List Nat) (hl : ∀ i ∈ l, i < h.base.idx.size) (hne : l ≠ []) :
    ∃ (ks : List Nat) (z : Nat → Nat), (∀ i, i ∈ l ↔ ∃ k ∈ ks, slot h.base.idx.ins h.base.idx.size k = i) ∧
      (∀ k ∈ ks, k < h.base.idx.size) ∧
      ∀ (u : Nat → ℚ), (∀ k, 0 ≤ u k ∧ u k < 1) → (∀ k ∈ ks, epLast Trans.done c k - k < h.horizon) →
        EpTable h c ks z u (h.episodes u l) := by
  obtain ⟨ks, hcur, hsorted, hlt, hperm⟩ := sortChron_spec H hins l hl
  set x := h.base.idx with hx
  have hlen := H.len
  have hil := H.ins_le
  have hsz := H.size_le
  refine ⟨ks, fun j => (closePositions (sortChron h.base.idx l).length (openPositions (sortChron h.base.idx l).length
    fun k => h.terminal ((sortChron h.base.idx l).getD k 0))).getD j 0, ?_, hlt, ?_⟩
  · intro i
    rw [← hperm.mem_iff, hcur, List.mem_map]
  intro u hu hhor
  have hksne : ks ≠ [] := by
    intro h0
    rw [h0] at hcur
    rw [hcur] at hperm
    exact hne (List.nil_perm.mp hperm)
  have hterm : ∀ k ∈ ks, h.terminal (slot x.ins x.size k) = slot x.ins x.size (epLast Trans.done c k) := by
    intro k hk
    unfold HBuf.terminal
    rw [next_iter H k _ (hlt k hk)]
    have := hhor k hk
    have := le_epLast Trans.done c (k := k) (by have := hlt k hk; omega)
    congr 1
    omega
  have hel : ∀ k ∈ ks, k ≤ epLast Trans.done c k ∧ epLast Trans.done c k < x.size := by
    intro k hk
    have := hlt k hk
    have h1 := le_epLast Trans.done c (k := k) (by omega)
    have h2 := epLast_lt Trans.done c (k := k) (by omega)
    omega
  set cur := sortChron x l with hcurdef
  have hcl : cur.length = ks.length := by rw [hcur]; simp
  set ts := fun k => h.terminal (cur.getD k 0) with hts
  have hget : ∀ m, m < ks.length → ∃ k ∈ ks, ks[m]? = some k ∧ cur.getD m 0 = slot x.ins x.size k ∧
      ts m = slot x.ins x.size (epLast Trans.done c k) := by
    intro m hm
    refine ⟨ks[m], List.getElem_mem _, List.getElem?_eq_getElem hm, ?_, ?_⟩
    · rw [hcur, List.getD_eq_getElem?_getD, List.getElem?_map, List.getElem?_eq_getElem hm]; rfl
    · simp only [hts]
      rw [hcur, List.getD_eq_getElem?_getD, List.getElem?_map, List.getElem?_eq_getElem hm]
      exact hterm _ (List.getElem_mem _)
  have hmono : ∀ {m m' k k' : Nat}, ks[m]? = some k → ks[m']? = some k' → m ≤ m' → k ≤ k' := by
    intro m m' k k' h1 h2 hle
    obtain ⟨g1, e1⟩ := List.getElem?_eq_some_iff.mp h1
    obtain ⟨g2, e2⟩ := List.getElem?_eq_some_iff.mp h2
    rcases Nat.lt_or_eq_of_le hle with h | h
    · rw [← e1, ← e2]; exact List.pairwise_iff_getElem.mp hsorted m m' g1 g2 h
    · subst h; rw [h1] at h2; cases h2; exact le_refl _
  have hcontig : Contig cur.length ts := by
    intro a b d hab hbd hd hte
    rw [hcl] at hd
    obtain ⟨ka, hka, ga, _, ta⟩ := hget a (by omega)
    obtain ⟨kb, hkb, gb, _, tb⟩ := hget b (by omega)
    obtain ⟨kd, hkd, gd, _, td⟩ := hget d hd
    rw [ta, td] at hte
    have heq := slot_inj hil (hel ka hka).2 (hel kd hkd).2 hte
    have h1 := epLast_mono (c := c) (hmono ga gb hab) (by have := hlt kb hkb; omega)
    have h2 := epLast_mono (c := c) (hmono gb gd hbd) (by have := hlt kd hkd; omega)
    rw [ta, tb]
    congr 1
    omega
  set opens := openPositions cur.length ts with hopens
  have hopne : opens ≠ [] := by
    have hpos : 0 < cur.length := by rw [hcl]; exact List.length_pos_iff.mpr hksne
    obtain ⟨q, hq, _⟩ := exists_open (n := cur.length) (ts := ts) (k := 0) hpos
    exact List.ne_nil_of_mem hq
  have hcll : (closePositions cur.length opens).length = opens.length := closes_length hopne
  have heps : h.episodes u l = opens.zipWith (fun o c => (cur.getD o 0, h.futureT u c (cur.getD c 0)))
      (closePositions cur.length opens) := rfl
  have hrow : ∀ (j : Nat) (e : Nat × Nat), (h.episodes u l)[j]? = some e → ∃ o z, opens[j]? = some o ∧
      (closePositions cur.length opens)[j]? = some z ∧ e = (cur.getD o 0, h.futureT u z (cur.getD z 0)) := by
    intro j e he
    rw [heps, List.getElem?_zipWith] at he
    cases ho : opens[j]? with
    | none => rw [ho] at he; simp at he
    | some o =>
      cases hz : (closePositions cur.length opens)[j]? with
      | none => rw [ho, hz] at he; simp at he
      | some z =>
        rw [ho, hz] at he
        simp only [Option.some.injEq] at he
        exact ⟨o, z, rfl, rfl, he.symm⟩
  have hbase : ∀ (j : Nat) (e : Nat × Nat), (h.episodes u l)[j]? = some e → ∃ ko kz z, ko ∈ ks ∧ kz ∈ ks ∧ kz < c.length ∧
      ko < c.length ∧ (closePositions cur.length opens)[j]? = some z ∧ ks[z]? = some kz ∧
      epLast Trans.done c kz = epLast Trans.done c ko ∧
      roundEven (u z * ((epLast Trans.done c kz - kz : Nat) : ℚ)) ≤ epLast Trans.done c kz - kz ∧
      e = (slot x.ins x.size ko, slot x.ins x.size (kz + roundEven (u z * ((epLast Trans.done c kz - kz : Nat) : ℚ)))) ∧
      ∀ k ∈ ks, epLast Trans.done c k = epLast Trans.done c ko → ko ≤ k ∧ k ≤ kz := by
    intro j e he
    obtain ⟨o, z, ho, hz, rfl⟩ := hrow j e he
    obtain ⟨hoz, hzn, htz, hgrp⟩ := group_spec hcontig ho hz
    rw [hcl] at hzn
    obtain ⟨ko, hko, go, co, tO⟩ := hget o (by omega)
    obtain ⟨kz, hkz, gz, cz, tz⟩ := hget z hzn
    rw [tz, tO] at htz
    have heq := slot_inj hil (hel kz hkz).2 (hel ko hko).2 htz
    set d := epLast Trans.done c kz - kz with hd
    have hkz' := hlt kz hkz
    -- the future offset
    have hepl : (h.terminal (slot x.ins x.size kz) + x.maxsize - slot x.ins x.size kz) % x.maxsize = d := by
      rw [hterm kz hkz]
      have h1 := hel kz hkz
      have hfill := H.fill
      unfold slot
      split_ifs with g1 g2 g2
      · rw [show x.ins + epLast Trans.done c kz + x.maxsize - (x.ins + kz) = d + x.maxsize by omega,
          Nat.add_mod_right, Nat.mod_eq_of_lt (by omega)]
      · omega
      · rw [show x.ins + epLast Trans.done c kz - x.size + x.maxsize - (x.ins + kz) = d by omega,
          Nat.mod_eq_of_lt (by omega)]
      · rw [show x.ins + epLast Trans.done c kz - x.size + x.maxsize - (x.ins + kz - x.size) = d + x.maxsize by omega,
          Nat.add_mod_right, Nat.mod_eq_of_lt (by omega)]
    have hro : roundEven (u z * (d : ℚ)) ≤ d := by
      obtain ⟨h0, h1⟩ := hu z
      have hd0 : (0 : ℚ) ≤ d := by positivity
      apply roundEven_le (by positivity)
      nlinarith
    set off := roundEven (u z * (d : ℚ)) with hoff
    have hft : h.futureT u z (cur.getD z 0) = slot x.ins x.size (kz + off) := by
      unfold HBuf.futureT
      rw [cz]
      simp only
      erw [hepl]
      show (slot x.ins x.size kz + off) % x.maxsize = _
      have h1 := hel kz hkz
      have hfill := H.fill
      unfold slot
      split_ifs with g1 g2 g2
      · rw [Nat.mod_eq_of_lt (by omega)]; omega
      · rw [show x.ins + kz + off = (x.ins + (kz + off) - x.size) + x.maxsize by omega,
          Nat.add_mod_right, Nat.mod_eq_of_lt (by omega)]
      · omega
      · rw [Nat.mod_eq_of_lt (by omega)]; omega
    refine ⟨ko, kz, z, hko, hkz, by omega, by have := hlt ko hko; omega, hz, gz, heq, hro, by rw [co, hft], ?_⟩
    intro k hk hke
    obtain ⟨m, hm, hme⟩ := List.getElem_of_mem hk
    obtain ⟨k', hk', gm, _, tm⟩ := hget m hm
    rw [List.getElem?_eq_getElem hm, hme] at gm
    cases gm
    have := hgrp m (by omega) (by rw [tm, tO, hke])
    have h1 := hmono go (by rw [List.getElem?_eq_getElem hm, hme]) this.1
    have h2 := hmono (by rw [List.getElem?_eq_getElem hm, hme]) gz this.2
    omega
  refine ⟨?_, ?_, ?_, ?_⟩
  · intro j e he
    obtain ⟨ko, kz, z, hko, hkz, hkzc, hkoc, -, -, heq, hro, rfl, hall⟩ := hbase j e he
    refine ⟨ko, _, hko, hkoc, rfl, ?_, ?_⟩
    · have := le_epLast Trans.done c hkzc
      omega
    · intro k hk hke
      have := hall k hk hke
      omega
  · intro k hk
    obtain ⟨m, hm, hme⟩ := List.getElem_of_mem hk
    obtain ⟨k', hk', gm, _, tm⟩ := hget m hm
    rw [List.getElem?_eq_getElem hm, hme] at gm
    cases gm
    obtain ⟨q, hq, hqm, hqe⟩ := exists_open (n := cur.length) (ts := ts) (k := m) (by omega)
    obtain ⟨j, hj, hje⟩ := List.getElem_of_mem hq
    obtain ⟨k0, hk0, g0, c0, t0⟩ := hget q (by omega)
    have hjz : j < (closePositions cur.length opens).length := by rw [hcll]; exact hj
    refine ⟨j, k0, h.futureT u ((closePositions cur.length opens)[j]) (cur.getD (closePositions cur.length opens)[j] 0),
      ?_, hk0, ?_⟩
    · rw [heps, List.getElem?_zipWith, List.getElem?_eq_getElem hj, List.getElem?_eq_getElem hjz]
      simp only [Option.some.injEq]
      have hje' : opens[j] = q := hje
      rw [hje', c0]
    · rw [t0, tm] at hqe
      exact (slot_inj hil (hel k0 hk0).2 (hel _ hk).2 hqe).symm
  · intro j j' k0 k0' y y' h1 h2 hk0 hk0' he
    obtain ⟨o, z, ho, hz, e1⟩ := hrow j _ h1
    obtain ⟨o', z', ho', hz', e2⟩ := hrow j' _ h2
    obtain ⟨gon, gof⟩ := mem_opens.mp (List.mem_of_getElem? ho)
    obtain ⟨gon', gof'⟩ := mem_opens.mp (List.mem_of_getElem? ho')
    obtain ⟨ko, hko, go, co, tO⟩ := hget o (by omega)
    obtain ⟨ko', hko', go', co', tO'⟩ := hget o' (by omega)
    simp only [Prod.mk.injEq] at e1 e2
    have a1 := slot_inj hil (hlt _ hk0) (hlt _ hko) (e1.1.trans co)
    have a2 := slot_inj hil (hlt _ hk0') (hlt _ hko') (e2.1.trans co')
    have htt : ts o = ts o' := by rw [tO, tO', ← a1, ← a2, he]
    have hoo : o = o' := by
      rcases Nat.lt_trichotomy o o' with hh | hh | hh
      · exact absurd htt (gof' o hh)
      · exact hh
      · exact absurd htt.symm (gof o' hh)
    subst hoo
    have hnd : opens.Nodup := opens_sorted.imp (fun h => Nat.ne_of_lt h)
    obtain ⟨b1, b2⟩ := List.getElem?_eq_some_iff.mp ho
    obtain ⟨b3, b4⟩ := List.getElem?_eq_some_iff.mp ho'
    exact (List.Nodup.getElem_inj_iff hnd).mp (b2.trans b4.symm)
  · intro j k0 y he hk0
    obtain ⟨ko, kz, z, hko, hkz, hkzc, hkoc, hz, gz, heq, hro, e1, hall⟩ := hbase j _ he
    simp only [Prod.mk.injEq] at e1
    have a1 := slot_inj hil (hlt _ hk0) (hlt _ hko) e1.1
    subst a1
    have hzj : (closePositions cur.length opens).getD j 0 = z := by
      rw [List.getD_eq_getElem?_getD, hz]; rfl
    refine ⟨kz, hkz, heq, ?_, fun k hk hke => (hall k hk hke).2, ?_⟩
    · show ks[(closePositions cur.length opens).getD j 0]? = _
      rw [hzj]; exact gz
    · show _ = slot x.ins x.size (kz + roundEven (u ((closePositions cur.length opens).getD j 0) * _))
      rw [hzj]; exact e1.2

end Verif.Buffer
