import Verif.Lemmas.SampleDist
import Verif.Props.Prio
import Mathlib.Probability.ProductMeasure
import Mathlib.MeasureTheory.Measure.Prod
import Mathlib.MeasureTheory.Function.Floor
import Mathlib.Probability.Independence.InfinitePi

/-! Properties C227, C228: how often a stored transition is drawn.

`Draws` (Spec/SampleDist.lean) says what numpy promises about its random numbers. -/

set_option linter.unusedSectionVars false

namespace Verif.Buffer

open Verif Verif.Spec MeasureTheory

variable {O A R : Type} [AddCommMonoid R]

/-! ### Expectations -/

section expect

variable {Ω : Type} [MeasurableSpace Ω] {P : Measure Ω} {U : ℕ → Ω → ℝ} {J : ℕ → ℕ → Ω → ℕ} {size : ℕ → ℕ}

theorem count_map_range (n : ℕ) (g : ℕ → ℕ) (x : ℕ) :
    ((List.range n).map g).count x = ∑ k ∈ Finset.range n, if g k = x then 1 else 0 := by
  induction n with
  | zero => rfl
  | succ n ih =>
    rw [List.range_succ, List.map_append, List.count_append, ih, Finset.sum_range_succ]
    simp [List.count_singleton]

theorem lintegral_count (n : ℕ) (E : ℕ → Set Ω) (hE : ∀ k, MeasurableSet (E k)) [∀ k ω, Decidable (ω ∈ E k)] :
    ∫⁻ ω, ((∑ k ∈ Finset.range n, if ω ∈ E k then 1 else 0 : ℕ) : ENNReal) ∂P = ∑ k ∈ Finset.range n, P (E k) := by
  have : ∀ ω, ((∑ k ∈ Finset.range n, if ω ∈ E k then 1 else 0 : ℕ) : ENNReal) =
      ∑ k ∈ Finset.range n, (E k).indicator 1 ω := by
    intro ω
    push_cast
    apply Finset.sum_congr rfl
    intro k _
    by_cases h : ω ∈ E k <;> simp [h]
  simp_rw [this]
  rw [lintegral_finsetSum _ (fun k _ => measurable_one.indicator (hE k))]
  apply Finset.sum_congr rfl
  intro k _
  exact lintegral_indicator_one (hE k)

theorem _root_.Verif.Spec.Draws.interval (D : Draws P U J size) (k : ℕ) {a b : ℝ} (ha : 0 ≤ a) (hb : b ≤ 1) :
    P {ω | a ≤ U k ω ∧ U k ω < b} = ENNReal.ofReal (b - a) := by
  have : {ω | a ≤ U k ω ∧ U k ω < b} = U k ⁻¹' Set.Ico a b := rfl
  rw [this, ← Measure.map_apply (D.measU k) measurableSet_Ico, D.law, unit, Measure.restrict_apply measurableSet_Ico,
    Set.inter_eq_left.mpr (Set.Ico_subset_Ico ha hb), Real.volume_Ico]

theorem _root_.Verif.Spec.Draws.interval' (D : Draws P U J size) (k : ℕ) {a b : ℝ} (ha : 0 ≤ a) (hb : b ≤ 1) :
    P {ω | 0 < U k ω ∧ a < U k ω ∧ U k ω ≤ b} = ENNReal.ofReal (b - a) := by
  have h1 : {ω | 0 < U k ω ∧ a < U k ω ∧ U k ω ≤ b} = U k ⁻¹' Set.Ioc a b := by
    ext ω
    simp only [Set.mem_ofPred_eq, Set.mem_preimage, Set.mem_Ioc]
    exact ⟨fun h => h.2, fun h => ⟨ha.trans_lt h.1, h⟩⟩
  rw [h1, ← Measure.map_apply (D.measU k) measurableSet_Ioc, D.law, unit, Measure.restrict_apply measurableSet_Ioc]
  rw [← Real.volume_Ioc]
  apply le_antisymm (measure_mono Set.inter_subset_left)
  have : volume (Set.Ioc a b) ≤ volume (Set.Ioc a b ∩ Set.Ico 0 1) + volume ({1} : Set ℝ) := by
    refine (measure_mono ?_).trans (measure_union_le _ _)
    intro x hx
    rcases (hx.2.trans hb).eq_or_lt with h | h
    · right; exact h
    · left; exact ⟨hx, ha.trans hx.1.le, h⟩
  simpa using this

theorem _root_.Verif.Spec.Draws.zero (D : Draws P U J size) (k : ℕ) : P {ω | U k ω = 0} = 0 := by
  have h1 : {ω | U k ω = 0} = U k ⁻¹' {0} := rfl
  rw [h1, ← Measure.map_apply (D.measU k) (measurableSet_singleton _), D.law, unit]
  exact le_antisymm ((Measure.restrict_apply_le _ _).trans (by simp)) bot_le

theorem _root_.Verif.Spec.Draws.unif' [IsProbabilityMeasure P] (D : Draws P U J size) (b k i : ℕ) (hi : i < size b) :
    P {ω | J b k ω = i} = 1 / (size b : ENNReal) := by
  have := D.unif b k i hi Set.univ MeasurableSet.univ
  simpa using this

theorem choice_expect [IsProbabilityMeasure P] (D : Draws P U J size) (b : ℕ) (cands : List ℕ)
    (hs : size b = cands.length) (hnd : cands.Nodup) {i : ℕ} (hi : i ∈ cands) (n : ℕ) :
    ∫⁻ ω, ((((choice (fun k => J b k ω) cands n).toOption.getD []).count i : ℕ) : ENNReal) ∂P =
      (n : ENNReal) / (cands.length : ENNReal) := by
  classical
  obtain ⟨j, hj, hji⟩ := List.getElem_of_mem hi
  have hpos : 0 < cands.length := by omega
  have e : ∀ ω, ((choice (fun k => J b k ω) cands n).toOption.getD []).count i =
      ∑ k ∈ Finset.range n, if ω ∈ {ω | J b k ω = j} then 1 else 0 := by
    intro ω
    unfold choice
    rw [if_neg (by omega)]
    change List.count i ((List.range n).map _) = _
    rw [count_map_range]
    apply Finset.sum_congr rfl
    intro k _
    have hb := D.below b k ω (by omega)
    rw [hs] at hb
    rw [Nat.mod_eq_of_lt hb]
    have : cands.getD (J b k ω) 0 = i ↔ J b k ω = j := by
      rw [List.getD_eq_getElem?_getD, List.getElem?_eq_getElem hb, Option.getD_some, ← hji]
      exact hnd.getElem_inj_iff
    simp only [this, Set.mem_ofPred_eq]
  simp_rw [e]
  rw [lintegral_count n (fun k => {ω | J b k ω = j}) (fun k => D.measJ b k (measurableSet_singleton j))]
  have : ∀ k, P {ω | J b k ω = j} = 1 / (cands.length : ENNReal) := by
    intro k; rw [D.unif' b k j (by omega), hs]
  simp_rw [this]
  rw [Finset.sum_const, Finset.card_range, nsmul_eq_mul, mul_one_div]

end expect

/-! ### C227 -/

/-- **C227** the model with the weighted draw of sub-buffers is an instance of the one used elsewhere (there any
sub-buffer with a transition can be drawn): what is proved there (C23, C67, ...) holds for it. -/
theorem C227_refines (m : Mgr O A R) (u : Nat → ℝ)
    (hu : ∀ k, 0 ≤ u k ∧ u k < 1) (draw : Nat → Nat) (rng : Nat → Nat → Nat) (bs : Option Int) :
    ∃ draw', m.sampleWith u draw rng bs = m.sampleIndices draw' rng bs := by
  by_cases h1 : bs.getD 0 < 0
  · exact ⟨draw, by unfold Mgr.sampleWith Mgr.sampleIndices; rw [if_pos h1, if_pos h1]⟩
  by_cases h2 : m.opts.sampleAvail ∧ 1 < m.opts.stackNum
  · exact ⟨draw, by unfold Mgr.sampleWith Mgr.sampleIndices; rw [if_neg h1, if_pos h2, if_neg h1, if_pos h2]; cases m.concatSamples rng (fun _ => 0) <;> rfl⟩
  by_cases h3 : bs.getD 0 = 0
  · exact ⟨draw, by unfold Mgr.sampleWith Mgr.sampleIndices; rw [if_neg h1, if_neg h2, if_pos h3, if_neg h1, if_neg h2, if_pos h3]⟩
  by_cases hsum : (m.subs.map Sub.length).sum = 0
  · refine ⟨draw, ?_⟩
    unfold Mgr.sampleWith Mgr.sampleIndices
    rw [if_neg h1, if_neg h2, if_neg h3, if_neg h1, if_neg h2, if_neg h3]
    simp only
    rw [if_pos hsum]
    have : (List.range m.subs.length).filter (fun b => decide (0 < (m.subs.map Sub.length).getD b 0)) = [] := by
      rw [List.filter_eq_nil_iff]
      intro b hb
      have hb' := List.mem_range.mp hb
      have := sum_zero_mem hsum (x := m.subs[b].length) (List.mem_map.mpr ⟨_, List.getElem_mem hb', rfl⟩)
      simp [List.getD_eq_getElem?_getD, hb', this]
    rw [this]
    unfold choice
    rw [if_pos ⟨rfl, by omega⟩]
  · set cands := (List.range m.subs.length).filter
      (fun b => decide (0 < (m.subs.map Sub.length).getD b 0)) with hcands
    set c : ℕ → ℕ := fun k => choiceP ((m.subs.map Sub.length).map fun (x : Nat) => (x : ℝ) / ((m.subs.map Sub.length).sum : ℝ)) (u k)
      with hc
    have hmem : ∀ k, c k ∈ cands := by
      intro k
      obtain ⟨hb, hw⟩ := choiceP_lt (m.subs.map Sub.length) (by omega) (u k) (hu k).1 (hu k).2
      rw [hcands, List.mem_filter]
      refine ⟨List.mem_range.mpr (by rw [List.length_map] at hb; exact hb), ?_⟩
      rw [List.getD_eq_getElem?_getD, List.getElem?_eq_getElem hb]
      simpa using hw
    refine ⟨fun k => cands.idxOf (c k), ?_⟩
    unfold Mgr.sampleWith Mgr.sampleIndices
    rw [if_neg h1, if_neg h2, if_neg h3, if_neg h1, if_neg h2, if_neg h3]
    simp only
    rw [if_neg hsum, ← hcands]
    have : choice (fun k => cands.idxOf (c k)) cands (bs.getD 0).toNat = .ok ((List.range (bs.getD 0).toNat).map c) := by
      unfold choice
      have := List.length_pos_of_mem (hmem 0)
      rw [if_neg (by omega)]
      congr 1
      apply List.map_congr_left
      intro k _
      have hk := List.idxOf_lt_length_of_mem (hmem k)
      rw [Nat.mod_eq_of_lt hk, List.getD_eq_getElem?_getD, List.getElem?_eq_getElem hk]
      simp
    rw [this]

section expect

variable {Ω : Type} [MeasurableSpace Ω] {P : Measure Ω} [IsProbabilityMeasure P] {U : ℕ → Ω → ℝ} {J : ℕ → ℕ → Ω → ℕ}
  {size : ℕ → ℕ}

/-- **C227** a `ReplayBuffer`: on average a sample of `n` contains each transition that `sample_indices(0)` lists
`n / k` times, where `k` is the number of those transitions (all in the buffer, or with `sample_avail` those with enough
predecessors). -/
theorem C227_single {b : Buf O A R} {g : Ghost O A R} (h : History b g) (rng : ℕ → ℕ) {l0 : List ℕ}
    (h0 : b.sampleIndices rng (some 0) = .ok l0) (D : Draws P U J size) (hs : size 0 = l0.length) {i : ℕ} (hi : i ∈ l0)
    (n : ℕ) (hn : 0 < n) :
    ∫⁻ ω, ((((b.sampleIndices (fun k => J 0 k ω) (some n)).toOption.getD []).count i : ℕ) : ENNReal) ∂P =
      (n : ENNReal) / (l0.length : ENNReal) := by
  by_cases hm : b.opts.stackNum = 1 ∨ b.opts.sampleAvail = false
  · obtain ⟨l, h1, h2, h3, h4, h5⟩ := C06_enumerates h hm rng
    rw [h0] at h1
    cases h1
    have e : ∀ ω, b.sampleIndices (fun k => J 0 k ω) (some n) = choice (fun k => J 0 k ω) (arange 0 b.len) n := by
      intro ω
      unfold Buf.sampleIndices
      rw [if_pos (by simpa using hm), if_pos (by simp; omega)]
      rfl
    have hal : (arange 0 b.len).length = l0.length := by simp [arange, h3]
    simp_rw [e]
    rw [← hal]
    apply choice_expect D 0 _ (by omega)
    · simp only [arange, zero_add, List.map_id', Nat.sub_zero]
      exact List.nodup_range
    · simp only [arange, zero_add, List.map_id', Nat.sub_zero]
      exact List.mem_range.mpr ((h5 i).mp hi)
  · have hnd : l0.Nodup := by
      have hall : b.idx.allIndices.Nodup := by
        rw [allIndices_eq h.holds.ins_le]
        refine List.pairwise_map.mpr ((List.nodup_range).imp_of_mem ?_)
        intro x y hx hy hne hxy
        exact hne (slot_inj h.holds.ins_le (List.mem_range.mp hx) (List.mem_range.mp hy) hxy)
      unfold Buf.sampleIndices at h0
      rw [if_neg (by simpa using hm), if_neg (by simp)] at h0
      simp only [Option.getD_some, lt_self_iff_false, if_false] at h0
      cases h0
      exact hall.filter _
    have e : ∀ ω, b.sampleIndices (fun k => J 0 k ω) (some n) = choice (fun k => J 0 k ω) l0 n := by
      intro ω
      unfold Buf.sampleIndices at h0 ⊢
      rw [if_neg (by simpa using hm), if_neg (by simp)] at h0 ⊢
      simp only [Option.getD_some, lt_self_iff_false, if_false] at h0
      cases h0
      rw [if_pos (by simp; omega)]
      rfl
    simp_rw [e]
    exact choice_expect D 0 _ hs hnd hi n

/-- **C227** a vector buffer (without `sample_avail`): on average a sample of `n` contains each stored transition
`n / len(buffer)` times, whichever sub-buffer it is in and however full the sub-buffers are. -/
theorem C227_vector {m : Mgr O A R} {sep : List (Buf O A R)} (h : Reach m sep)
    (hm : m.opts.stackNum = 1 ∨ m.opts.sampleAvail = false)
    (D : Draws P U J fun b => (sep.map Buf.len).getD b 0) (draw : ℕ → ℕ) (n : ℕ) (hn : 0 < n)
    {i : ℕ} (hi : LiveIn sep i) :
    ∫⁻ ω, ((((m.sampleWith (fun k => U k ω) draw (fun b k => J b k ω) (some n)).toOption.getD []).count i : ℕ) : ENNReal) ∂P =
      (n : ENNReal) / (m.len : ENNReal) := by
  classical
  obtain ⟨b, c, hc, hi1, hi2⟩ := hi
  obtain ⟨i, rfl⟩ : ∃ j, i = j + startOf sep b := ⟨i - startOf sep b, by omega⟩
  have hi : i < c.len := by omega
  have hmax : ∀ (b' : ℕ) (c' : Buf O A R), sep[b']? = some c' → c'.len ≤ c'.idx.maxsize := by
    intro b' c' hc'
    obtain ⟨g, hg⟩ := h.inv.hist c' (List.mem_of_getElem? hc')
    exact hg.holds.size_le
  have hlt : b < (sep.map Buf.len).length := by simpa using (List.getElem?_eq_some_iff.mp hc).1
  have hget : (sep.map Buf.len)[b] = c.len := by
    obtain ⟨_, rfl⟩ := List.getElem?_eq_some_iff.mp hc
    simp
  have hgetD : (sep.map Buf.len).getD b 0 = c.len := by simp [List.getD_eq_getElem?_getD, hc]
  have hsum : (sep.map Buf.len).sum = m.len := by rw [← h.lengths]; rfl
  have hpos : 0 < m.len := by
    rw [← hsum]
    have := List.single_le_sum (by simp) (sep.map Buf.len)[b] (List.getElem_mem hlt)
    omega
  obtain ⟨ws, hws⟩ : ∃ ws, ws = sep.map Buf.len := ⟨_, rfl⟩
  -- the number of draws that fall on sub-buffer `b`
  have hdle : ∀ u : ℕ → ℝ, drawn ws u n b ≤ n := by
    intro u
    unfold drawn
    exact List.count_le_length.trans (by simp)
  have hin : ∀ ω k, choiceP (ws.map fun (x : Nat) => (x : ℝ) / (ws.sum : ℝ)) (U k ω) = b ↔
      part ws b ≤ U k ω ∧ U k ω < part ws (b + 1) := fun ω k =>
    choiceP_iff ws (by rw [hws, hsum]; exact hpos) (U k ω) (D.range k ω).1 (D.range k ω).2 b
  obtain ⟨cnt, hcnt⟩ : ∃ cnt : (ℕ → ℝ) → ℕ, ∀ x, cnt x =
      ∑ k ∈ Finset.range n, if part ws b ≤ x k ∧ x k < part ws (b + 1) then 1 else 0 := ⟨_, fun _ => rfl⟩
  have hd : ∀ ω, drawn ws (fun k => U k ω) n b = cnt fun k => U k ω := by
    intro ω
    unfold drawn
    rw [count_map_range, hcnt]
    apply Finset.sum_congr rfl
    intro k _
    simp only [hin]
  have hcm : Measurable cnt := by
    have : cnt = fun x => ∑ k ∈ Finset.range n, if part ws b ≤ x k ∧ x k < part ws (b + 1) then 1 else 0 := funext hcnt
    rw [this]
    apply Finset.measurable_sum
    intro k _
    apply Measurable.ite _ measurable_const measurable_const
    exact (measurableSet_le measurable_const (measurable_pi_apply k)).inter
      (measurableSet_lt (measurable_pi_apply k) measurable_const)
  -- how often the slot occurs
  have e : ∀ ω, ((m.sampleWith (fun k => U k ω) draw (fun b k => J b k ω) (some n)).toOption.getD []).count (i + startOf sep b) =
      ∑ k ∈ Finset.range n, if ω ∈ {ω | (fun j => U j ω) ∈ {x | k < cnt x} ∧ J b k ω = i} then 1 else 0 := by
    intro ω
    rw [h.sampleWith_eq hm (fun k => U k ω) (fun k => D.range k ω) draw (fun b k => J b k ω) n hn hpos]
    change List.count _ (List.flatten _) = _
    rw [count_flatten_slot (fun b => (List.range (drawn (sep.map Buf.len) (fun k => U k ω) n b)).map
      fun k => J b k ω % (sep.map Buf.len).getD b 0) hc]
    · rw [hgetD, ← hws, count_map_range, hd]
      have hle : cnt (fun k => U k ω) ≤ n := by rw [← hd]; exact hdle _
      rw [← Finset.sum_subset (Finset.range_mono hle)]
      · apply Finset.sum_congr rfl
        intro k hk
        have hk' := Finset.mem_range.mp hk
        have hb := D.below b k ω (by show 0 < (sep.map Buf.len).getD b 0; omega)
        simp only [hgetD] at hb
        rw [Nat.mod_eq_of_lt hb]
        simp [hk']
      · intro k _ hk
        simp only [Finset.mem_range] at hk
        simp [hk]
    · intro b' c' hc' j hj
      obtain ⟨k, hk, rfl⟩ := List.mem_map.mp hj
      have hgetD' : (sep.map Buf.len).getD b' 0 = c'.len := by simp [List.getD_eq_getElem?_getD, hc']
      rw [hgetD']
      have hk' := List.mem_range.mp hk
      have hmem : b' ∈ (List.range n).map fun k => choiceP ((sep.map Buf.len).map fun (x : Nat) => (x : ℝ) / ((sep.map Buf.len).sum : ℝ)) (U k ω) :=
        List.count_pos_iff.mp (show 0 < drawn (sep.map Buf.len) (fun k => U k ω) n b' by omega)
      obtain ⟨k', _, hk''⟩ := List.mem_map.mp hmem
      obtain ⟨hb, hw⟩ := choiceP_lt (sep.map Buf.len) (by rw [hsum]; exact hpos) (U k' ω) (D.range k' ω).1 (D.range k' ω).2
      simp only [hk''] at hb hw
      have h1 : (sep.map Buf.len)[b'] = c'.len := by
        obtain ⟨_, rfl⟩ := List.getElem?_eq_some_iff.mp hc'
        simp
      rw [h1] at hw
      exact (Nat.mod_lt _ hw).trans_le (hmax b' c' hc')
    · exact hi.trans_le (hmax b c hc)
  simp_rw [e]
  have hs : ∀ k, MeasurableSet {x : ℕ → ℝ | k < cnt x} := fun k => measurableSet_lt measurable_const hcm
  have hUm : Measurable fun ω => (fun j => U j ω) := measurable_pi_lambda _ D.measU
  rw [lintegral_count n (fun k => {ω | (fun j => U j ω) ∈ {x | k < cnt x} ∧ J b k ω = i}) (fun k => (hUm (hs k)).inter (D.measJ b k (measurableSet_singleton i)))]
  have hu : ∀ k, P {ω | (fun j => U j ω) ∈ {x | k < cnt x} ∧ J b k ω = i} =
      P {ω | (fun j => U j ω) ∈ {x | k < cnt x}} / (c.len : ENNReal) := by
    intro k
    have := D.unif b k i (by show i < (sep.map Buf.len).getD b 0; omega) _ (hs k)
    simp only [hgetD] at this
    exact this
  simp_rw [hu, div_eq_mul_inv]
  rw [← Finset.sum_mul]
  -- the expected number of draws that fall on `b`
  have hE : ∑ k ∈ Finset.range n, P {ω | (fun j => U j ω) ∈ {x | k < cnt x}} = n * ((c.len : ENNReal) / (m.len : ENNReal)) := by
    rw [← lintegral_count n (fun k => {ω | (fun j => U j ω) ∈ {x | k < cnt x}}) (fun k => hUm (hs k))]
    have e2 : ∀ ω, (∑ k ∈ Finset.range n, if ω ∈ {ω | (fun j => U j ω) ∈ {x | k < cnt x}} then 1 else 0 : ℕ) =
        ∑ k ∈ Finset.range n, if ω ∈ {ω | part ws b ≤ U k ω ∧ U k ω < part ws (b + 1)} then 1 else 0 := by
      intro ω
      have : (∑ k ∈ Finset.range n, if ω ∈ {ω | part ws b ≤ U k ω ∧ U k ω < part ws (b + 1)} then 1 else 0 : ℕ) =
          cnt fun k => U k ω := by
        rw [hcnt]; rfl
      rw [this]
      have hle : cnt (fun k => U k ω) ≤ n := by rw [← hd]; exact hdle _
      simp only [Set.mem_ofPred_eq]
      rw [← Finset.sum_subset (Finset.range_mono hle)]
      · rw [Finset.sum_congr rfl (g := fun _ => 1)]
        · simp
        · intro k hk
          simp [Finset.mem_range.mp hk]
      · intro k _ hk
        simp only [Finset.mem_range] at hk
        simp [hk]
    simp_rw [e2]
    rw [lintegral_count n (fun k => {ω | part ws b ≤ U k ω ∧ U k ω < part ws (b + 1)})
      (fun k => (measurableSet_le measurable_const (D.measU k)).inter (measurableSet_lt (D.measU k) measurable_const))]
    have hp0 : (0 : ℝ) ≤ part ws b := by
      unfold part; positivity
    have hp1 : part (K := ℝ) ws (b + 1) ≤ 1 := by
      have h1 := part_all (K := ℝ) ws (by rw [hws, hsum]; exact hpos) (b := max (b + 1) ws.length) (le_max_right _ _)
      rw [← h1]
      exact part_mono ws (le_max_left _ _)
    have hP : ∀ k, P {ω | part ws b ≤ U k ω ∧ U k ω < part ws (b + 1)} = (c.len : ENNReal) / (m.len : ENNReal) := by
      intro k
      rw [D.interval k hp0 hp1, part_succ ws (by rw [hws]; exact hlt), add_sub_cancel_left]
      subst hws
      rw [hget, hsum, ENNReal.ofReal_div_of_pos (by exact_mod_cast hpos), ENNReal.ofReal_natCast, ENNReal.ofReal_natCast]
    simp_rw [hP]
    rw [Finset.sum_const, Finset.card_range, nsmul_eq_mul]
  rw [hE, div_eq_mul_inv, mul_assoc, mul_assoc, mul_comm (m.len : ENNReal)⁻¹, ← mul_assoc (c.len : ENNReal),
    ENNReal.mul_inv_cancel (by exact_mod_cast (show c.len ≠ 0 by omega)) (ENNReal.natCast_ne_top _), one_mul]

/-- **C227** a vector buffer with `sample_avail` and stacking: the same for the transitions that `sample_indices(0)`
lists. -/
theorem C227_stacked {m : Mgr O A R} {sep : List (Buf O A R)} (h : Reach m sep) (hK : 1 < m.opts.stackNum)
    (ha : m.opts.sampleAvail = true) (u : ℕ → ℝ) (draw : ℕ → ℕ) (rng : ℕ → ℕ → ℕ) {l0 : List ℕ}
    (h0 : m.sampleWith u draw rng (some 0) = .ok l0) (D : Draws P U J size) (hs : size 0 = l0.length) {i : ℕ} (hi : i ∈ l0)
    (n : ℕ) (hn : 0 < n) :
    ∫⁻ ω, ((((m.sampleWith u (fun k => J 0 k ω) rng (some n)).toOption.getD []).count i : ℕ) : ENNReal) ∂P =
      (n : ENNReal) / (l0.length : ENNReal) := by
  have hcs : m.concatSamples rng (fun _ => 0) = .ok l0 := by
    unfold Mgr.sampleWith at h0
    rw [if_neg (by simp), if_pos ⟨ha, hK⟩] at h0
    cases hq : m.concatSamples rng (fun _ => 0) with
    | error e => rw [hq] at h0; cases h0
    | ok l => rw [hq] at h0; simpa using h0
  have hnd : l0.Nodup := by
    have hchild : ∀ b : ℕ, ∃ l, ∀ c : Buf O A R, sep[b]? = some c →
        c.sampleIndices (rng b) (some 0) = .ok l ∧ l.Nodup ∧ ∀ i ∈ l, i < c.len := by
      intro b
      cases hb : sep[b]? with
      | none => exact ⟨[], by simp⟩
      | some c =>
        obtain ⟨g, hg⟩ := h.inv.hist c (List.mem_of_getElem? hb)
        have hopts : c.opts = m.opts := by
          obtain ⟨s, hs, rfl⟩ := h.inv.get' hb
          rfl
        obtain ⟨l, hl, _⟩ := C17_sample_avail hg (by rw [hopts]; exact hK) (by rw [hopts]; exact ha) (rng b)
        refine ⟨l, ?_⟩
        intro c' hc'
        cases hc'
        refine ⟨hl, ?_, C07_sampled_live hg (rng b) _ l hl⟩
        have hall : c.idx.allIndices.Nodup := by
          rw [allIndices_eq hg.holds.ins_le]
          refine List.pairwise_map.mpr ((List.nodup_range).imp_of_mem ?_)
          intro x y hx hy hne hxy
          exact hne (slot_inj hg.holds.ins_le (List.mem_range.mp hx) (List.mem_range.mp hy) hxy)
        unfold Buf.sampleIndices at hl
        rw [hopts, if_neg (by simp [ha]; omega), if_neg (by simp)] at hl
        simp only [Option.getD_some, lt_self_iff_false, if_false] at hl
        cases hl
        exact hall.filter _
    choose f hf using hchild
    rw [h.inv.concatSamples rng _ f (fun b c hc => (hf b c hc).1)] at hcs
    cases hcs
    have hmax : ∀ (b' : ℕ) (c' : Buf O A R), sep[b']? = some c' → ∀ i ∈ f b', i < c'.idx.maxsize := by
      intro b' c' hc' i hi
      obtain ⟨g, hg⟩ := h.inv.hist c' (List.mem_of_getElem? hc')
      exact ((hf b' c' hc').2.2 i hi).trans_le hg.holds.size_le
    rw [List.nodup_iff_count_le_one]
    intro x
    by_cases hx : x ∈ ((List.range sep.length).map fun b => (f b).map (· + startOf sep b)).flatten
    · rw [mem_flatten_range] at hx
      obtain ⟨b, hb, k, hk, rfl⟩ := hx
      have hc := List.getElem?_eq_getElem hb
      rw [count_flatten_slot f hc hmax (hmax b _ hc k hk)]
      exact List.nodup_iff_count_le_one.mp (hf b _ hc).2.1 k
    · rw [List.count_eq_zero.mpr hx]; omega
  have e : ∀ ω, m.sampleWith u (fun k => J 0 k ω) rng (some n) = choice (fun k => J 0 k ω) l0 n := by
    intro ω
    unfold Mgr.sampleWith
    rw [if_neg (by simp), if_pos ⟨ha, hK⟩, hcs]
    simp only [Option.some.injEq, Nat.cast_eq_zero, Option.getD_some, Int.toNat_natCast]
    rw [if_neg (by omega)]
  simp_rw [e]
  exact choice_expect D 0 _ hs hnd hi n

/-! ### C228 -/

theorem prio_expect (D : Draws P U J size) (n : ℕ) (i : ℕ) (f : (ℕ → ℝ) → List ℕ) (a b : ℝ) (ha : 0 ≤ a) (hb : b ≤ 1)
    (hf : ∀ u : ℕ → ℝ, (∀ k, 0 ≤ u k ∧ u k < 1) → (f u).length = n ∧
      ∀ k < n, 0 < u k → ((f u)[k]? = some i ↔ a < u k ∧ u k ≤ b)) :
    ∫⁻ ω, (((f fun k => U k ω).count i : ℕ) : ENNReal) ∂P = n * ENNReal.ofReal (b - a) := by
  classical
  have hae : ∀ᵐ ω ∂P, ∀ k, 0 < U k ω := by
    rw [ae_all_iff]
    intro k
    rw [ae_iff]
    have : {ω | ¬ 0 < U k ω} = {ω | U k ω = 0} := by
      ext ω
      have := (D.range k ω).1
      simp only [Set.mem_ofPred_eq]
      constructor
      · intro h; exact le_antisymm (not_lt.mp h) this
      · intro h; rw [h]; exact lt_irrefl _
    rw [this, D.zero k]
  have e : ∀ᵐ ω ∂P, (((f fun k => U k ω).count i : ℕ) : ENNReal) =
      ((∑ k ∈ Finset.range n, if ω ∈ {ω | 0 < U k ω ∧ a < U k ω ∧ U k ω ≤ b} then 1 else 0 : ℕ) : ENNReal) := by
    filter_upwards [hae] with ω hω
    congr 1
    obtain ⟨hl, hg⟩ := hf (fun k => U k ω) (fun k => D.range k ω)
    have hmap : (f fun k => U k ω) = (List.range n).map fun k => (f fun k => U k ω).getD k 0 := by
      apply List.ext_getElem
      · simp [hl]
      · intro k h1 h2
        simp [List.getD_eq_getElem?_getD, h1]
    rw [hmap, count_map_range]
    apply Finset.sum_congr rfl
    intro k hk
    have hk' := Finset.mem_range.mp hk
    have := hg k hk' (hω k)
    rw [List.getElem?_eq_getElem (by omega), Option.some.injEq] at this
    rw [List.getD_eq_getElem?_getD, List.getElem?_eq_getElem (by omega), Option.getD_some]
    simp only [this, hω k, true_and]
  rw [lintegral_congr_ae e, lintegral_count n (fun k => {ω | 0 < U k ω ∧ a < U k ω ∧ U k ω ≤ b})
    (fun k => (measurableSet_lt measurable_const (D.measU k)).inter
      ((measurableSet_lt measurable_const (D.measU k)).inter (measurableSet_le (D.measU k) measurable_const)))]
  simp_rw [fun k => D.interval' k ha hb]
  rw [Finset.sum_const, Finset.card_range, nsmul_eq_mul]

/-- **C228** a prioritised buffer that was never reset: on average a sample of `n` contains slot `i` `n * w_i / S`
times, where `w` are the stored priorities and `S` is their sum. -/
theorem C228_single {p : PBuf O A R} {ps : List ℝ} (h : PHistory p ps 0) (D : Draws P U J size) (rng : ℕ → ℕ)
    (n : ℕ) (hn : 0 < n) {i : ℕ} (hi : i < p.base.len) :
    ∫⁻ ω, ((((p.sampleIndices (fun k => U k ω) rng (some n)).getD []).count i : ℕ) : ENNReal) ∂P =
      n * ENNReal.ofReal (p.stored i / ∑ j ∈ Finset.range p.base.len, p.stored j) := by
  have hne : 0 < p.base.len := by omega
  have hW := h.inv.w.congr (T' := fun i => i < p.base.len) (by simp)
  have hnn : ∀ j, 0 ≤ p.stored j := by
    intro j
    by_cases hj : j < p.base.len
    · exact (hW.pos j hj).le
    · exact (hW.zero j hj).ge
  have hS : 0 < ∑ j ∈ Finset.range p.base.len, p.stored j :=
    Finset.sum_pos' (fun j _ => hnn j) ⟨0, Finset.mem_range.mpr hne, hW.pos 0 hne⟩
  have key := prio_expect (P := P) D n i (fun u => (p.sampleIndices u rng (some n)).getD [])
    ((∑ j ∈ Finset.range i, p.stored j) / (∑ j ∈ Finset.range p.base.len, p.stored j))
    (((∑ j ∈ Finset.range i, p.stored j) + p.stored i) / (∑ j ∈ Finset.range p.base.len, p.stored j))
    (div_nonneg (Finset.sum_nonneg fun j _ => hnn j) hS.le)
    (by
      rw [div_le_one hS, ← Finset.sum_range_succ]
      exact Finset.sum_le_sum_of_subset_of_nonneg (Finset.range_mono hi) (fun j _ _ => hnn j))
    (by
      intro u hu
      obtain ⟨l, h1, h2, _, h3⟩ := C26_prioritised_sampling h hne u hu rng n hn
      simp only [h1, Option.getD_some]
      exact ⟨h2, fun k hk hk0 => h3 k hk hk0 i⟩)
  rw [key, ← sub_div, add_sub_cancel_left]

/-- **C228** a prioritised vector buffer that was never reset: the same, with the sum over all sub-buffers. -/
theorem C228_vector {p : PMgr O A R} {sep : List (Buf O A R)} {ps : List ℝ} (h : PMHistory p sep ps)
    (D : Draws P U J size) (draw : ℕ → ℕ) (rng : ℕ → ℕ → ℕ) (n : ℕ) (hn : 0 < n) {i : ℕ} (hi : LiveIn sep i) :
    ∫⁻ ω, ((((p.sampleIndices (fun k => U k ω) draw rng (some n)).getD []).count i : ℕ) : ENNReal) ∂P =
      n * ENNReal.ofReal (p.stored i / ∑ j ∈ Finset.range p.base.total, p.stored j) := by
  have hW := h.inv.w
  have hne : 0 < p.base.len := by
    rw [C22_len h.inv.reach]
    obtain ⟨b, c, hc, h1, h2⟩ := hi
    have := List.single_le_sum (by simp) c.len (List.mem_map.mpr ⟨c, List.mem_of_getElem? hc, rfl⟩)
    omega
  have hnn : ∀ j, 0 ≤ p.stored j := by
    intro j
    by_cases hj : LiveIn sep j
    · exact (hW.pos j hj).le
    · exact (hW.zero j hj).ge
  have hil : i < p.base.total := hW.sub i hi
  have hS : 0 < ∑ j ∈ Finset.range p.base.total, p.stored j :=
    Finset.sum_pos' (fun j _ => hnn j) ⟨i, Finset.mem_range.mpr hil, hW.pos i hi⟩
  have key := prio_expect (P := P) D n i (fun u => (p.sampleIndices u draw rng (some n)).getD [])
    ((∑ j ∈ Finset.range i, p.stored j) / (∑ j ∈ Finset.range p.base.total, p.stored j))
    (((∑ j ∈ Finset.range i, p.stored j) + p.stored i) / (∑ j ∈ Finset.range p.base.total, p.stored j))
    (div_nonneg (Finset.sum_nonneg fun j _ => hnn j) hS.le)
    (by
      rw [div_le_one hS, ← Finset.sum_range_succ]
      exact Finset.sum_le_sum_of_subset_of_nonneg (Finset.range_mono hil) (fun j _ _ => hnn j))
    (by
      intro u hu
      obtain ⟨l, h1, h2, h3⟩ := C26_vector_partial h hne u hu draw rng n hn
      simp only [h1, Option.getD_some]
      refine ⟨h2, fun k hk hk0 => ?_⟩
      obtain ⟨i', h4, _, _, h5⟩ := h3 k hk
      rw [h4, Option.some.injEq, eq_comm]
      exact h5 hk0 i)
  rw [key, ← sub_div, add_sub_cancel_left]

end expect

/-! ### Such draws exist -/

/-- For all numbers of transitions there are random numbers as `Draws` describes them, also independent ones: independent
uniform random numbers on `[0, 1)`, scaled and rounded down for the whole numbers. -/
theorem exists_indep_draws (size : ℕ → ℕ) : ∃ (Ω : Type) (_ : MeasurableSpace Ω) (P : Measure Ω) (U : ℕ → Ω → ℝ)
    (J : ℕ → ℕ → Ω → ℕ), IsProbabilityMeasure P ∧ Draws P U J size ∧ ProbabilityTheory.iIndepFun U P ∧
      ∀ b, ProbabilityTheory.iIndepFun (J b) P := by
  classical
  let clip : ℝ → ℝ := fun x => if 0 ≤ x ∧ x < 1 then x else 0
  have hclip : Measurable clip :=
    Measurable.ite ((measurableSet_le measurable_const measurable_id).inter
      (measurableSet_lt measurable_id measurable_const)) measurable_id measurable_const
  have hrange : ∀ x, 0 ≤ clip x ∧ clip x < 1 := by
    intro x
    by_cases h : 0 ≤ x ∧ x < 1
    · simp only [clip, if_pos h]; exact h
    · simp [clip, if_neg h]
  have hlaw : unit.map clip = unit := by
    have : clip =ᵐ[unit] id := by
      unfold unit
      filter_upwards [ae_restrict_mem measurableSet_Ico] with x hx
      exact if_pos hx
    rw [Measure.map_congr this, Measure.map_id]
  let Q₁ : Measure (ℕ → ℝ) := Measure.infinitePi fun _ => unit
  let Q₂ : Measure (ℕ × ℕ → ℝ) := Measure.infinitePi fun _ => unit
  refine ⟨(ℕ → ℝ) × (ℕ × ℕ → ℝ), inferInstance, Q₁.prod Q₂, fun k ω => clip (ω.1 k),
    fun b k ω => ⌊clip (ω.2 (b, k)) * size b⌋₊, inferInstance, ⟨?_, ?_, ?_, ?_, ?_, ?_⟩, ?_, ?_⟩
  · intro k
    exact hclip.comp ((measurable_pi_apply k).comp measurable_fst)
  · intro b k
    exact Nat.measurable_floor.comp ((hclip.comp ((measurable_pi_apply (b, k)).comp measurable_snd)).mul_const _)
  · intro k ω
    exact hrange _
  · intro k
    have h1 : (fun ω : (ℕ → ℝ) × (ℕ × ℕ → ℝ) => clip (ω.1 k)) = clip ∘ (fun x : ℕ → ℝ => x k) ∘ Prod.fst := rfl
    rw [h1, ← Measure.map_map hclip ((measurable_pi_apply k).comp measurable_fst),
      ← Measure.map_map (measurable_pi_apply k) measurable_fst, Measure.map_fst_prod, measure_univ, one_smul,
      Measure.infinitePi_map_eval, hlaw]
  · intro b k ω hs
    have hs' : (0 : ℝ) < size b := by exact_mod_cast hs
    have h0 := hrange (ω.2 (b, k))
    rw [Nat.floor_lt (mul_nonneg h0.1 hs'.le)]
    nlinarith
  · intro b k i hi s hs
    have hs' : (0 : ℝ) < size b := by exact_mod_cast (show 0 < size b by omega)
    have hT : MeasurableSet {y : ℕ × ℕ → ℝ | ⌊clip (y (b, k)) * size b⌋₊ = i} :=
      (Nat.measurable_floor.comp ((hclip.comp (measurable_pi_apply (b, k))).mul_const _)) (measurableSet_singleton i)
    have hc : Measurable fun x : ℕ → ℝ => fun j => clip (x j) :=
      measurable_pi_lambda _ fun j => hclip.comp (measurable_pi_apply j)
    have h1 : {ω : (ℕ → ℝ) × (ℕ × ℕ → ℝ) | (fun j => clip (ω.1 j)) ∈ s ∧ ⌊clip (ω.2 (b, k)) * size b⌋₊ = i} =
        ((fun x : ℕ → ℝ => fun j => clip (x j)) ⁻¹' s) ×ˢ {y : ℕ × ℕ → ℝ | ⌊clip (y (b, k)) * size b⌋₊ = i} := by
      ext ω; simp
    have h2 : {ω : (ℕ → ℝ) × (ℕ × ℕ → ℝ) | (fun j => clip (ω.1 j)) ∈ s} =
        ((fun x : ℕ → ℝ => fun j => clip (x j)) ⁻¹' s) ×ˢ Set.univ := by
      ext ω; simp
    rw [h1, h2, Measure.prod_prod, Measure.prod_prod, measure_univ, mul_one, div_eq_mul_inv]
    congr 1
    have h3 : {y : ℕ × ℕ → ℝ | ⌊clip (y (b, k)) * size b⌋₊ = i} =
        (fun y : ℕ × ℕ → ℝ => y (b, k)) ⁻¹' (clip ⁻¹' {x | ⌊x * size b⌋₊ = i}) := rfl
    have hm : MeasurableSet {x : ℝ | ⌊x * size b⌋₊ = i} :=
      (Nat.measurable_floor.comp (measurable_id.mul_const _)) (measurableSet_singleton i)
    rw [h3, ← Measure.map_apply (measurable_pi_apply (b, k)) (hclip hm), Measure.infinitePi_map_eval,
      ← Measure.map_apply hclip hm, hlaw]
    unfold unit
    rw [Measure.restrict_apply hm]
    have h4 : {x : ℝ | ⌊x * size b⌋₊ = i} ∩ Set.Ico 0 1 = Set.Ico ((i : ℝ) / size b) ((i + 1 : ℝ) / size b) := by
      ext x
      simp only [Set.mem_inter_iff, Set.mem_ofPred_eq, Set.mem_Ico]
      rw [div_le_iff₀ hs', lt_div_iff₀ hs']
      constructor
      · rintro ⟨h, h0, h1⟩
        exact (Nat.floor_eq_iff (mul_nonneg h0 hs'.le)).mp h
      · rintro ⟨h, h'⟩
        have h0 : 0 ≤ x := by
          have : (0 : ℝ) ≤ x * size b := (Nat.cast_nonneg i).trans h
          exact nonneg_of_mul_nonneg_left this hs'
        refine ⟨(Nat.floor_eq_iff (mul_nonneg h0 hs'.le)).mpr ⟨h, h'⟩, h0, ?_⟩
        have : (i : ℝ) + 1 ≤ size b := by exact_mod_cast hi
        by_contra hc
        have : (size b : ℝ) ≤ x * size b := le_mul_of_one_le_left hs'.le (not_lt.mp hc)
        linarith
    rw [h4, Real.volume_Ico, ← sub_div, add_sub_cancel_left, one_div, ENNReal.ofReal_inv_of_pos hs', ENNReal.ofReal_natCast]
  · have h1 : ProbabilityTheory.iIndepFun (fun (k : ℕ) (ω : (ℕ → ℝ) × (ℕ × ℕ → ℝ)) => ω.1 k) (Q₁.prod Q₂) := by
      rw [ProbabilityTheory.iIndepFun_iff_map_fun_eq_infinitePi_map (by fun_prop)]
      have e1 : (Q₁.prod Q₂).map (fun ω i => ω.1 i) = Q₁ := by
        change (Q₁.prod Q₂).map Prod.fst = Q₁
        rw [Measure.map_fst_prod, measure_univ, one_smul]
      rw [e1]
      change Measure.infinitePi (fun _ => unit) = _
      congr 1
      funext k
      have h2 : (fun ω : (ℕ → ℝ) × (ℕ × ℕ → ℝ) => ω.1 k) = (fun x : ℕ → ℝ => x k) ∘ Prod.fst := rfl
      rw [h2, ← Measure.map_map (measurable_pi_apply k) measurable_fst, Measure.map_fst_prod, measure_univ, one_smul,
        Measure.infinitePi_map_eval]
    exact h1.comp (fun _ => clip) (fun _ => hclip)
  · intro b
    have h1 : ProbabilityTheory.iIndepFun (fun (k : ℕ × ℕ) (ω : (ℕ → ℝ) × (ℕ × ℕ → ℝ)) => ω.2 k) (Q₁.prod Q₂) := by
      rw [ProbabilityTheory.iIndepFun_iff_map_fun_eq_infinitePi_map (by fun_prop)]
      have e1 : (Q₁.prod Q₂).map (fun ω i => ω.2 i) = Q₂ := by
        change (Q₁.prod Q₂).map Prod.snd = Q₂
        rw [Measure.map_snd_prod, measure_univ, one_smul]
      rw [e1]
      change Measure.infinitePi (fun _ => unit) = _
      congr 1
      funext k
      have h2 : (fun ω : (ℕ → ℝ) × (ℕ × ℕ → ℝ) => ω.2 k) = (fun x : ℕ × ℕ → ℝ => x k) ∘ Prod.snd := rfl
      rw [h2, ← Measure.map_map (measurable_pi_apply k) measurable_snd, Measure.map_snd_prod, measure_univ, one_smul,
        Measure.infinitePi_map_eval]
    have h2 := h1.precomp (g := fun k : ℕ => (b, k)) (fun x y h => (Prod.mk.inj h).2)
    exact h2.comp (fun _ x => ⌊clip x * size b⌋₊) (fun _ => Nat.measurable_floor.comp (hclip.mul_const _))

/-- For all numbers of transitions there are random numbers as `Draws` describes them. -/
theorem exists_draws (size : ℕ → ℕ) : ∃ (Ω : Type) (_ : MeasurableSpace Ω) (P : Measure Ω) (U : ℕ → Ω → ℝ)
    (J : ℕ → ℕ → Ω → ℕ), IsProbabilityMeasure P ∧ Draws P U J size := by
  obtain ⟨Ω, m, P, U, J, h1, h2, _⟩ := exists_indep_draws size
  exact ⟨Ω, m, P, U, J, h1, h2⟩

/-- Sub-buffers with 2 and 3 transitions: random numbers below 2/5 draw the first, the others the second. -/
example : [0, 1 / 5, 399 / 1000, 2 / 5, 99 / 100].map (choiceP [(2 : ℚ) / 5, 3 / 5]) = [0, 0, 0, 1, 1] ∧
    ((exMgr.sampleWith (fun k => ([(1 : ℚ) / 2, 1 / 4, 3 / 4].getD k 0)) id (fun _ k => k) (some 3)).toOption) =
      some [0, 2, 3] := by decide +kernel

/-- The hypotheses of `C227_vector` can be met: in a sample of 4 from the example each of the 5 transitions occurs 4/5
times on average. -/
example : ∃ (Ω : Type) (_ : MeasurableSpace Ω) (P : Measure Ω) (U : ℕ → Ω → ℝ) (J : ℕ → ℕ → Ω → ℕ)
    (sep : List (Buf Nat Nat Int)), LiveIn sep 0 ∧ ∀ i, LiveIn sep i →
      ∫⁻ ω, ((((exMgr.sampleWith (fun k => U k ω) id (fun b k => J b k ω) (some 4)).toOption.getD []).count i : ℕ) : ENNReal) ∂P =
        4 / 5 := by
  obtain ⟨sep, h, hl⟩ := exMgr_reach
  obtain ⟨Ω, _, P, U, J, _, D⟩ := exists_draws fun b => (sep.map Buf.len).getD b 0
  have hlen : exMgr.len = 5 := by decide +kernel
  refine ⟨Ω, _, P, U, J, sep, ?_, ?_⟩
  · have h0 : (sep.map Buf.len)[0]? = some 2 := by
      rw [← h.lengths]; decide +kernel
    rw [List.getElem?_map, Option.map_eq_some_iff] at h0
    obtain ⟨c, hc, hc2⟩ := h0
    exact ⟨0, c, hc, by simp [startOf], by omega⟩
  · intro i hi
    have := C227_vector h (Or.inl (by decide +kernel)) D id 4 (by omega) hi
    rw [hlen] at this
    exact this

/-- The same for a prioritised buffer with two transitions of equal priority. -/
example : ∃ (Ω : Type) (_ : MeasurableSpace Ω) (P : Measure Ω) (U : ℕ → Ω → ℝ) (J : ℕ → ℕ → Ω → ℕ)
    (p : PBuf Nat Nat Int) (ps : List ℝ), PHistory p ps 0 ∧ 1 < p.base.len ∧ IsProbabilityMeasure P ∧ Draws P U J fun _ => 0 := by
  obtain ⟨Ω, i, P, U, J, hP, D⟩ := exists_draws fun _ => 0
  obtain ⟨p, h, hl, _⟩ := exPrio
  exact ⟨Ω, i, P, U, J, p, [], h, by omega, hP, D⟩

/-- A full `ReplayBuffer` of size 4: a sample of 2 contains each slot half a time on average. -/
example : ∃ (Ω : Type) (_ : MeasurableSpace Ω) (P : Measure Ω) (J : ℕ → ℕ → Ω → ℕ), ∀ i < 4,
    ∫⁻ ω, ((((exBuf.sampleIndices (fun k => J 0 k ω) (some (2 : ℕ))).toOption.getD []).count i : ℕ) : ENNReal) ∂P = 2 / 4 := by
  obtain ⟨g, h, _⟩ := exBuf_history
  obtain ⟨Ω, _, P, U, J, _, D⟩ := exists_draws fun _ => 4
  refine ⟨Ω, _, P, J, fun i hi => ?_⟩
  have h0 : exBuf.sampleIndices id (some 0) = .ok [1, 2, 3, 0] := by rfl
  have := C227_single h id h0 D rfl (i := i) (by interval_cases i <;> decide) 2 (by omega)
  exact_mod_cast this

end Verif.Buffer
