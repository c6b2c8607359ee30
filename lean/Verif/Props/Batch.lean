import Verif.Lemmas.BatchUse

/-! Properties C46-C48: splitting, stacking, concatenating, and assigning to batches. -/

namespace Verif.Batch

/-! ### C46: splitting -/

/-- Splitting succeeds for every size of at least 1. -/
theorem C46_ok (n : Nat) (size : Int) (indices : List Nat) (mergeLast : Bool)
    (hs : 1 ≤ size ∨ (size = -1 ∧ 1 ≤ n)) : ∃ parts, split n size indices mergeLast = .ok parts := by
  unfold split
  simp only
  rw [if_pos (by split_ifs <;> omega)]
  exact ⟨_, rfl⟩

/-- The minibatches, one after the other, are the indices in the given order; so every row occurs exactly once. -/
theorem C46_partition (n : Nat) (size : Int) (indices : List Nat) (mergeLast : Bool) (parts : List (List Nat))
    (hperm : indices.Perm (List.range n)) (h : split n size indices mergeLast = .ok parts) :
    parts.flatten = indices ∧ ∀ p, parts.flatten.count p = if p < n then 1 else 0 := by
  have hlen : indices.length = n := by rw [hperm.length_eq, List.length_range]
  have hflat : parts.flatten = indices := by
    unfold split at h
    simp only at h
    generalize (if size = -1 then (n : Int) else size) = s at h
    split_ifs at h with hs
    · cases h
      rw [splitLoop_flatten _ _ _ (by omega) _ _ (by omega), List.drop_zero]
  refine ⟨hflat, ?_⟩
  intro p
  rw [hflat, hperm.count_eq]
  split_ifs with hp
  · exact List.count_eq_one_of_mem List.nodup_range (List.mem_range.mpr hp)
  · exact List.count_eq_zero.mpr (by simpa using hp)

example : split 5 2 [3, 1, 4, 0, 2] false = .ok [[3, 1], [4, 0], [2]] := by rfl
example : split 5 2 [3, 1, 4, 0, 2] true = .ok [[3, 1], [4, 0, 2]] := by rfl
example : split 4 2 [3, 1, 0, 2] true = .ok [[3, 1], [0, 2]] := by rfl

/-- Without `merge_last`: all minibatches but the last have `size` rows, the last one between 1 and `size`. -/
theorem C46_sizes (n size : Nat) (indices : List Nat) (parts : List (List Nat)) (hn : indices.length = n) (hs : 1 ≤ size)
    (h : split n size indices false = .ok parts) (j : Nat) (part : List Nat) (hj : parts[j]? = some part) :
    1 ≤ part.length ∧ part.length ≤ size ∧ (j + 1 < parts.length → part.length = size) := by
  unfold split at h
  simp only at h
  rw [if_neg (show ¬ (size : Int) = -1 by omega), if_pos (by omega)] at h
  cases h
  simp only [Bool.false_and, Int.toNat_natCast] at hj ⊢
  obtain ⟨g1, g2, g3, _⟩ := splitLoop_sizes indices size hs (n + 1) 0 j part (by omega) hj
  exact ⟨g1, g2, g3⟩

/-- With `merge_last` and at least `size` rows: every minibatch has at least `size` and fewer than twice as many
rows. -/
theorem C46_merge_last (n size : Nat) (indices : List Nat) (parts : List (List Nat)) (hn : indices.length = n)
    (hs : 1 ≤ size) (hle : size ≤ n) (h : split n size indices true = .ok parts) (part : List Nat) (hj : part ∈ parts) :
    size ≤ part.length ∧ part.length < 2 * size := by
  unfold split at h
  simp only at h
  rw [if_neg (show ¬ (size : Int) = -1 by omega), if_pos (by omega)] at h
  cases h
  simp only [Bool.true_and, Int.toNat_natCast] at hj
  by_cases hd : size ∣ n
  · rw [decide_eq_false (by rw [Nat.mod_eq_zero_of_dvd hd]; omega)] at hj
    obtain ⟨j, hj⟩ := List.getElem?_of_mem hj
    obtain ⟨_, _, _, g4⟩ := splitLoop_sizes indices size hs (n + 1) 0 j part (by omega) hj
    have := g4 (by rw [hn]; exact hd) (Nat.dvd_zero _)
    omega
  · rw [decide_eq_true (Nat.pos_of_ne_zero fun h0 => hd (Nat.dvd_of_mod_eq_zero h0))] at hj
    exact splitLoop_merge indices size hs (by rw [hn]; exact hd) (n + 1) 0 (Nat.dvd_zero _) (by omega) part hj

/-- `size = -1` stands for one minibatch with all rows. -/
theorem C46_whole (n : Nat) (indices : List Nat) (mergeLast : Bool) (hn : indices.length = n) (hpos : 1 ≤ n) :
    split n (-1) indices mergeLast = .ok [indices] := by
  unfold split
  simp only [if_true]
  rw [if_pos (by omega)]
  simp only [Int.toNat_natCast, Nat.mod_self, Nat.lt_irrefl, decide_false, Bool.and_false, gt_iff_lt]
  congr 1
  obtain ⟨m, rfl⟩ : ∃ m, n = m + 1 := ⟨n - 1, by omega⟩
  rw [splitLoop, if_pos (by omega), if_neg (by simp), splitLoop, if_neg (by omega), List.drop_zero,
    List.take_of_length_le (by omega)]

/-- An empty batch with `size = -1` is rejected, and so is every size below 1 other than -1. -/
theorem C46_rejected (n : Nat) (size : Int) (indices : List Nat) (mergeLast : Bool)
    (h : (size = -1 ∧ n = 0) ∨ (size < 1 ∧ size ≠ -1)) : split n size indices mergeLast = .error .assertionError := by
  unfold split
  simp only
  rw [if_neg (by split_ifs <;> omega)]

/-- The rows of a minibatch are the rows of the batch with its indices, in order, for every value of the batch. -/
theorem C46_rows (b : B) (n : Nat) (size : Int) (indices : List Nat) (mergeLast : Bool) (parts : List (List Nat))
    (hb : b.Tall n) (hne : b.keys ≠ []) (hperm : indices.Perm (List.range n))
    (h : split n size indices mergeLast = .ok parts) (part : List Nat) (hpart : part ∈ parts) :
    ∃ r, b.getitem (.many (part.map fun p : Nat => (p : Int))) = .ok r ∧
      ∀ path l, b.leafAt path = some l → ∃ rows rows', l.data = .arr rows ∧
        (r.leafAt path).map Leaf.data = some (.arr rows') ∧ rows'.length = part.length ∧
        ∀ (t p : Nat), part[t]? = some p → rows'[t]? = rows[p]? ∧ p < rows.length := by
  have hin : ∀ p ∈ part, p < n := by
    intro p hp
    have := (C46_partition n size indices mergeLast parts hperm h).2 p
    by_contra hlt
    rw [if_neg hlt, List.count_eq_zero] at this
    exact this (List.mem_flatten.mpr ⟨part, hpart, hp⟩)
  have hpos : positions n (part.map fun p : Nat => (p : Int)) = some part := by
    clear hpart
    unfold positions
    induction part with
    | nil => rfl
    | cons p part ih =>
      rw [List.map_cons, List.mapM_cons, pos_natCast (hin p (by simp)), ih fun q hq => hin q (by simp [hq])]
      rfl
  have hread : ∀ rows : List D, rows.length = n → (D.arr rows).getitem (.many (part.map fun p : Nat => (p : Int))) =
      .ok (.arr (part.filterMap fun p => rows[p]?)) := by
    rintro rows rfl
    simp only [D.getitem, hpos]
  obtain ⟨r, hr, _, _, h2, _⟩ := getLoop_spec (.many (part.map fun p : Nat => (p : Int))) b
    (B.All.mono (fun d hd => by obtain ⟨rows, rfl, hrows⟩ := hd; exact ⟨_, hread rows hrows⟩) hb)
  refine ⟨r, by rw [getitem_of_ne hne, hr], ?_⟩
  intro path l hl
  obtain ⟨rows, hrows, hlen⟩ := B.All.leafAt b hb path l hl
  obtain ⟨x, hx1, hx2⟩ := h2 path l hl
  rw [hrows, hread rows hlen] at hx1
  cases hx1
  have hmap : (part.filterMap fun p => rows[p]?).length = part.length ∧
      ∀ (t p : Nat), part[t]? = some p → (part.filterMap fun p => rows[p]?)[t]? = rows[p]? := by
    clear hpart hpos hread hx2 hr h2
    induction part with
    | nil => simp
    | cons q part ih =>
      have hq := List.getElem?_eq_getElem (l := rows) (i := q) (by rw [hlen]; exact hin q (by simp))
      obtain ⟨i1, i2⟩ := ih fun q hq => hin q (by simp [hq])
      rw [List.filterMap_cons_some hq]
      refine ⟨by simp [i1], ?_⟩
      intro t p ht
      cases t with
      | zero =>
        simp only [List.getElem?_cons_zero, Option.some.injEq] at ht ⊢
        subst ht
        exact hq.symm
      | succ t =>
        rw [List.getElem?_cons_succ] at ht ⊢
        exact i2 t p ht
  refine ⟨rows, _, hrows, by rw [hx2]; rfl, hmap.1, ?_⟩
  intro t p ht
  exact ⟨hmap.2 t p ht, by rw [hlen]; exact hin p (List.mem_of_getElem? ht)⟩

/-! ### C47: stacking and concatenating -/

/-- Whenever stacking non-empty batches succeeds, the result has one row per batch, and its row `i` has all the data
of batch `i`; further values, at keys that only other batches have, are zero. -/
theorem C47_stack (bs : List B) (out : B) (hne : bs ≠ []) (hk : ∀ b ∈ bs, b.keys ≠ []) (h : stack bs = .ok out) :
    out.Tall bs.length ∧ ∀ (i : Nat) (b : B), bs[i]? = some b → ∃ r, out.getitem (.one i) = .ok r ∧ Reads b r ∧
      ∀ path, (r.leafAt path).isSome → ∃ c ∈ bs, (c.leafAt path).isSome := by
  obtain ⟨hm, hok⟩ := stackAux_spec _ bs out hne hk (fun b hb => depth_lt_fuel hb) h
  refine ⟨hm.1, ?_⟩
  intro i b hb
  have hi := (List.getElem?_eq_some_iff.mp hb).1
  exact hm.reads (stack_places bs.length) hok (by simp [hi]) hb

/-- Batches of the same structure can be stacked, and row `i` of the result is batch `i`. -/
theorem C47_stack_same (bs : List B) (hne : bs ≠ []) (hk : ∀ b ∈ bs, b.keys ≠ [])
    (hs : ∀ b ∈ bs, ∀ c ∈ bs, SameShape b c) :
    ∃ out, stack bs = .ok out ∧ ∀ (i : Nat) (b : B), bs[i]? = some b →
      ∃ r, out.getitem (.one i) = .ok r ∧ SameData b r := by
  obtain ⟨out, hout⟩ := stackAux_ok ((bs.map B.depth).foldl max 0 + 1) bs hs
  refine ⟨out, hout, ?_⟩
  intro i b hb
  obtain ⟨r, hr1, hr2, hr3⟩ := (C47_stack bs out hne hk hout).2 i b hb
  exact ⟨r, hr1, reads_same hs (List.mem_of_getElem? hb) hr2 hr3⟩

/-- The length of a stack is the number of batches. -/
theorem C47_stack_len (bs : List B) (out : B) (hne : bs ≠ []) (hk : ∀ b ∈ bs, b.keys ≠ []) (h : stack bs = .ok out)
    (hleaf : ∃ b ∈ bs, ∃ path, (b.leafAt path).isSome) : out.len = .ok bs.length := by
  obtain ⟨h1, h2⟩ := C47_stack bs out hne hk h
  obtain ⟨b, hb, path, hp⟩ := hleaf
  obtain ⟨j, hj⟩ := List.getElem?_of_mem hb
  have hm := (stackAux_spec _ bs out hne hk (fun b hb => depth_lt_fuel hb) h).1
  obtain ⟨l, hl⟩ := Option.isSome_iff_exists.mp hp
  have hi := (List.getElem?_eq_some_iff.mp hj).1
  obtain ⟨l', hl', _⟩ := (hm.2.1 j (.one j) b (by simp [hi]) hj path).1 l hl
  exact len_of_lens h1 ⟨path, by
    simp only [Val.leafAt] at hl'
    rw [hl']
    rfl⟩

/-- The entries of a stack are of the kind (objects or numbers) that they have in one of the batches; a `None` makes an array of
objects. -/
theorem C47_stack_kind (bs : List B) (out : B) (hne : bs ≠ []) (hk : ∀ b ∈ bs, b.keys ≠ []) (h : stack bs = .ok out)
    (hnone : ∀ b ∈ bs, ∀ path l, b.leafAt path = some l → l.data = .none → l.object = true) (path : List String) (l' : Leaf)
    (hl' : out.leafAt path = some l') : ∃ b ∈ bs, ∃ l, b.leafAt path = some l ∧ l'.object = l.object := by
  obtain ⟨b, hb, l, hl, hkind⟩ := (stackAux_spec _ bs out hne hk (fun b hb => depth_lt_fuel hb) h).1.2.2 path l' hl'
  refine ⟨b, hb, l, hl, ?_⟩
  rcases hkind with h | ⟨h1, h2⟩
  · exact h
  · rw [h2, hnone b hb path l hl h1]

/-- A `None` that only one batch has: the other row is `None`, not zero. -/
example : (stack [.leaf "a" ⟨false, .num 1⟩ .nil, .leaf "a" ⟨false, .num 2⟩ (.leaf "b" ⟨true, .none⟩ .nil)]).toOption.map
    (fun out => (out.leafAt ["b"]).map fun l => (l.object, l.data.beq (.arr [.none, .none]))) = some (some (true, true)) := by rfl

/-- A nested batch with one row of numbers. -/
def exRow (x y : Int) : B :=
  .leaf "a" ⟨false, .num x⟩ (.sub "n" (.leaf "b" ⟨false, .arr [.num y, .num 7]⟩ .nil) .nil)

example : ∀ b ∈ [exRow 1 2, exRow 3 4], ∀ c ∈ [exRow 1 2, exRow 3 4], SameShape b c := by
  have key : ∀ x y x' y', SameShape (exRow x y) (exRow x' y') := by
    intro x y x' y' path
    rcases path with _ | ⟨k, _ | ⟨k', path⟩⟩ <;> simp only [exRow, B.leafAt, B.subAt] <;> (try split_ifs) <;> simp
  simp [key]

example : (stack [exRow 1 2, exRow 3 4]).toOption.map (fun out => (out.leafAt ["n", "b"]).map fun l =>
    l.data.beq (.arr [.arr [.num 2, .num 7], .arr [.num 4, .num 7]])) = some (some true) := by rfl

/-- A key that only the second batch has is padded with zeros in the row of the first. -/
example : (stack [.leaf "a" ⟨false, .num 1⟩ .nil, exRow 3 4]).toOption.map (fun out => (out.leafAt ["n", "b"]).map fun l =>
    l.data.beq (.arr [.arr [.num 0, .num 0], .arr [.num 4, .num 7]])) = some (some true) := by rfl

/-- Whenever concatenating non-empty batches succeeds, the result has as many rows as the batches together, and the
`i`-th segment has all the data of batch `i`. -/
theorem C47_cat (bs : List B) (lens : List Nat) (out : B) (hne : bs ≠ []) (hk : ∀ b ∈ bs, b.keys ≠ [])
    (hlen : lens.length = bs.length)
    (hb : ∀ (i n : Nat) (b : B), bs[i]? = some b → lens[i]? = some n → b.WF ∧ b.len = .ok n ∧ b.Tall n)
    (h : cat bs = .ok out) :
    out.Tall lens.sum ∧ out.len = .ok lens.sum ∧
    ∀ (i n : Nat) (b : B), bs[i]? = some b → lens[i]? = some n →
      ∃ r, out.getitem (.slice (lens.take i).sum ((lens.take i).sum + n)) = .ok r ∧ Reads b r ∧
        ∀ path, (r.leafAt path).isSome → ∃ c ∈ bs, (c.leafAt path).isSome := by
  have hf : bs.filter (fun b => b.keys ≠ []) = bs := List.filter_eq_self.mpr (by simpa using hk)
  have hmap : ∀ (xs : List B) (ns : List Nat), ns.length = xs.length →
      (∀ (i n : Nat) (b : B), xs[i]? = some b → ns[i]? = some n → b.len = .ok n) → xs.mapM B.len = .ok ns := by
    intro xs
    induction xs with
    | nil => intro ns hns _; rw [List.eq_nil_of_length_eq_zero hns]; rfl
    | cons x xs ih =>
      intro ns hns hx
      cases ns with
      | nil => simp at hns
      | cons n ns =>
        rw [List.mapM_cons, hx 0 n x rfl rfl, ih ns (by simpa using hns) fun i n b hb hn => hx (i + 1) n b (by simpa using hb) (by simpa using hn)]
        rfl
  have hcat : catAux ((bs.map B.depth).foldl max 0 + 1) lens bs = .ok out ∧ out.keys = allKeys bs := by
    have : catAux ((bs.map B.depth).foldl max 0 + 1) lens bs = .ok out := by
      unfold cat at h
      simp only [hf] at h
      cases bs with
      | nil => simp at hne
      | cons b rest =>
        simp only at h
        split_ifs at h with hst
        · rw [hmap (b :: rest) lens hlen fun i n b hbi hn => (hb i n b hbi hn).2.1] at h
          exact h
    refine ⟨this, ?_⟩
    rw [catAux] at this
    exact (build_spec this).1
  have hm := catAux_spec _ lens bs out hne hlen (fun i n b hbi hn => (hb i n b hbi hn).2.2)
    (fun b hb => depth_lt_fuel hb) hcat.1
  have hok : out.keys ≠ [] := by
    rw [hcat.2]
    intro he
    obtain ⟨b, hb⟩ := List.exists_mem_of_ne_nil bs hne
    obtain ⟨k, hk'⟩ := List.exists_mem_of_ne_nil _ (hk b hb)
    have : k ∈ allKeys bs := mem_allKeys.mpr ⟨b, hb, hk'⟩
    rw [he] at this
    simp at this
  have hplace : ∀ i n : Nat, lens[i]? = some n →
      (segments 0 lens)[i]? = some (.slice (lens.take i).sum ((lens.take i).sum + n)) := by
    intro i n hn
    rw [segments_getElem?, hn]
    simp
  refine ⟨hm.1, ?_, ?_⟩
  · by_cases hz : lens.sum = 0
    · obtain ⟨l, h1, h2, _⟩ := lens_tall hm.1
      rw [B.len, h1, hz]
      simp only [Except.map]
      congr 1
      cases l with
      | nil => rfl
      | cons a l =>
        have hmin : (a :: l).min? = some ((a :: l).min?.getD 0) := by simp [List.min?]
        rw [h2 _ (List.min?_mem hmin), hz]
    · obtain ⟨n, hn, hn0⟩ : ∃ n ∈ lens, n ≠ 0 := by
        by_contra hall
        push Not at hall
        have : ∀ l : List Nat, (∀ n ∈ l, n = 0) → l.sum = 0 := by
          intro l
          induction l with
          | nil => simp
          | cons a l ih => intro h; rw [List.sum_cons, h a (by simp), ih fun n hn => h n (by simp [hn])]
        exact hz (this lens hall)
      obtain ⟨i, hi⟩ := List.getElem?_of_mem hn
      have hib : i < bs.length := by rw [← hlen]; exact (List.getElem?_eq_some_iff.mp hi).1
      have hbi := List.getElem?_eq_getElem hib
      obtain ⟨w1, w2, w3⟩ := hb i n bs[i] hbi hi
      obtain ⟨path, hp⟩ := leaf_of_len w3 w1 w2 hn0
      obtain ⟨l, hl⟩ := Option.isSome_iff_exists.mp hp
      obtain ⟨l', hl', _⟩ := (hm.2.1 i _ _ (hplace i n hi) hbi path).1 l hl
      exact len_of_lens hm.1 ⟨path, by
        simp only [Val.leafAt] at hl'
        rw [hl']
        rfl⟩
  · intro i n b hbi hn
    exact hm.reads (segment_places lens) hok (hplace i n hn) hbi

/-- Batches of the same structure can be concatenated, and the `i`-th segment of the result is batch `i`. -/
theorem C47_cat_same (bs : List B) (lens : List Nat) (hne : bs ≠ []) (hk : ∀ b ∈ bs, b.keys ≠ [])
    (hs : ∀ b ∈ bs, ∀ c ∈ bs, SameShape b c) (hlen : lens.length = bs.length)
    (hb : ∀ (i n : Nat) (b : B), bs[i]? = some b → lens[i]? = some n → b.WF ∧ b.len = .ok n ∧ b.Tall n) :
    ∃ out, cat bs = .ok out ∧ out.len = .ok lens.sum ∧
      ∀ (i n : Nat) (b : B), bs[i]? = some b → lens[i]? = some n →
        ∃ r, out.getitem (.slice (lens.take i).sum ((lens.take i).sum + n)) = .ok r ∧ SameData b r := by
  have hf : bs.filter (fun b => b.keys ≠ []) = bs := List.filter_eq_self.mpr (by simpa using hk)
  have hlens : ∃ ns, bs.mapM B.len = .ok ns := by
    have : ∀ b ∈ bs, ∃ n, b.len = .ok n := by
      intro b hbm
      obtain ⟨i, hi⟩ := List.getElem?_of_mem hbm
      have hil : i < lens.length := by rw [hlen]; exact (List.getElem?_eq_some_iff.mp hi).1
      exact ⟨_, (hb i lens[i] b hi (List.getElem?_eq_getElem hil)).2.1⟩
    clear hs hlen hb hne hk hf
    induction bs with
    | nil => exact ⟨[], rfl⟩
    | cons b bs ih =>
      obtain ⟨n, hn⟩ := this b (by simp)
      obtain ⟨ns, hns⟩ := ih fun b hb => this b (by simp [hb])
      exact ⟨n :: ns, by rw [List.mapM_cons, hn, hns]; rfl⟩
  obtain ⟨ns, hns⟩ := hlens
  have hrows : ∀ b ∈ bs, b.All fun d => ∃ rows, d = .arr rows := by
    intro b hbm
    obtain ⟨i, hi⟩ := List.getElem?_of_mem hbm
    have hil : i < lens.length := by rw [hlen]; exact (List.getElem?_eq_some_iff.mp hi).1
    exact B.All.mono (fun d hd => by obtain ⟨rows, h, _⟩ := hd; exact ⟨rows, h⟩)
      (hb i lens[i] b hi (List.getElem?_eq_getElem hil)).2.2
  obtain ⟨out, hout⟩ := catAux_ok ((bs.map B.depth).foldl max 0 + 1) ns bs hne hs hrows
  have hcat : cat bs = .ok out := by
    unfold cat
    simp only [hf]
    cases bs with
    | nil => simp at hne
    | cons b rest =>
      simp only
      rw [if_pos, hns]
      · exact hout
      · rw [List.all_eq_true]
        intro c hc
        exact sameStructure_of (hs b (by simp) c (by simp [hc]))
  obtain ⟨_, h2, h3⟩ := C47_cat bs lens out hne hk hlen hb hcat
  refine ⟨out, hcat, h2, ?_⟩
  intro i n b hbi hn
  obtain ⟨r, hr1, hr2, hr3⟩ := h3 i n b hbi hn
  exact ⟨r, hr1, reads_same hs (List.mem_of_getElem? hbi) hr2 hr3⟩

/-- A nested batch with several rows. -/
def exRows (xs : List Int) : B :=
  .leaf "a" ⟨false, .arr (xs.map .num)⟩ (.sub "n" (.leaf "b" ⟨false, .arr (xs.map fun x => .arr [.num x, .num 7])⟩ .nil) .nil)

example : ∀ (i n : Nat) (b : B), [exRows [1, 2], exRows [3]][i]? = some b → [2, 1][i]? = some n →
    b.WF ∧ b.len = .ok n ∧ b.Tall n := by
  have key : ∀ xs : List Int, (exRows xs).WF ∧ (exRows xs).Tall xs.length := by
    intro xs
    refine ⟨by simp [exRows, B.WF, B.keys], ⟨⟨_, rfl, by simp⟩, ⟨⟨_, rfl, by simp⟩, trivial⟩, trivial⟩⟩
  intro i n b hb hn
  rcases i with _ | _ | i
  · simp at hb hn; subst hb hn; exact ⟨(key _).1, rfl, (key [1, 2]).2⟩
  · simp at hb hn; subst hb hn; exact ⟨(key _).1, rfl, (key [3]).2⟩
  · simp at hb

example : (cat [exRows [1, 2], exRows [3]]).toOption.map (fun out => (out.leafAt ["a"]).map fun l =>
    l.data.beq (.arr [.num 1, .num 2, .num 3])) = some (some true) := by rfl

/-- Empty batches are dropped before stacking, so that the rows of later batches move up. -/
example : (stack [.nil, exRow 3 4]).toOption.map (fun out => (out.leafAt ["a"]).map fun l =>
    l.data.beq (.arr [.num 3])) = some (some true) := by rfl

/-! ### C48: item assignment -/

/-- Assignment to one row: it reads back as the value, with zeros at the keys the value does not have. -/
theorem C48_one (b v b' : B) (n : Nat) (i : Int) (p : Nat) (hb : b.Tall n) (hne : b.keys ≠ []) (hp : p < n)
    (hi : (p : Int) = if i < 0 then i + n else i) (h : b.setitem (.one i) v = (b', none)) :
    b'.Tall n ∧ (∃ r, b'.getitem (.one i) = .ok r ∧ Reads v r) ∧
    ∀ path, (b'.leafAt path).isSome = (b.leafAt path).isSome :=
  setitem_reads (one_places (pos_iff.mpr ⟨hp, hi⟩)) hb (all_true v) hne h

/-- All other rows are unchanged. -/
theorem C48_one_frame (b v b' : B) (n : Nat) (i j : Int) (p q : Nat) (hb : b.Tall n) (hne : b.keys ≠ []) (hp : p < n)
    (hi : (p : Int) = if i < 0 then i + n else i) (hq : q < n) (hj : (q : Int) = if j < 0 then j + n else j) (hpq : q ≠ p)
    (h : b.setitem (.one i) v = (b', none)) :
    ∃ r r', b.getitem (.one j) = .ok r ∧ b'.getitem (.one j) = .ok r' ∧ SameData r r' :=
  untouched_row (pos_iff.mpr ⟨hq, hj⟩) (fun rows hr => one_untouched (pos_iff.mpr ⟨hp, hi⟩) hpq rows hr) hb hne h

/-- Assignment to one row succeeds for every value that has only keys of the batch, at the same places. -/
theorem C48_one_ok (b v : B) (n : Nat) (i : Int) (p : Nat) (hwf : b.WF) (hb : b.Tall n) (hp : p < n)
    (hi : (p : Int) = if i < 0 then i + n else i) (hfits : Fits v b) : ∃ b', b.setitem (.one i) v = (b', none) :=
  setitem_ok (one_places (pos_iff.mpr ⟨hp, hi⟩)) hwf hb (all_true v) hfits

theorem positions_of {n : Nat} {is : List Int} {ps : List Nat} (hlen : ps.length = is.length)
    (h : ∀ (t p : Nat) (i : Int), ps[t]? = some p → is[t]? = some i → p < n ∧ (p : Int) = if i < 0 then i + n else i) :
    positions n is = some ps := by
  unfold positions
  induction is generalizing ps with
  | nil => rw [List.eq_nil_of_length_eq_zero hlen]; rfl
  | cons i is ih =>
    cases ps with
    | nil => simp at hlen
    | cons p ps =>
      rw [List.mapM_cons, pos_iff.mpr (h 0 p i rfl rfl), ih (by simpa using hlen) fun t p i hp hi =>
        h (t + 1) p i (by simpa using hp) (by simpa using hi)]
      rfl

/-- Assignment to several different rows: reading them back gives the value, row by row. -/
theorem C48_many (b v b' : B) (n : Nat) (is : List Int) (ps : List Nat) (hb : b.Tall n) (hne : b.keys ≠ [])
    (hlen : ps.length = is.length)
    (hps : ∀ (t p : Nat) (i : Int), ps[t]? = some p → is[t]? = some i → p < n ∧ (p : Int) = if i < 0 then i + n else i)
    (hnd : ps.Nodup) (hv : v.Tall is.length) (h : b.setitem (.many is) v = (b', none)) :
    b'.Tall n ∧ (∃ r, b'.getitem (.many is) = .ok r ∧ Reads v r) ∧
    (∀ path, (b'.leafAt path).isSome = (b.leafAt path).isSome) ∧
    ∀ (j : Int) (q : Nat), q < n → (q : Int) = (if j < 0 then j + n else j) → q ∉ ps →
      ∃ r r', b.getitem (.one j) = .ok r ∧ b'.getitem (.one j) = .ok r' ∧ SameData r r' := by
  have hpos := positions_of hlen hps
  obtain ⟨h1, h2, h3⟩ := setitem_reads (many_places hpos hnd) hb hv hne h
  exact ⟨h1, h2, h3, fun j q hq hj hqp =>
    untouched_row (pos_iff.mpr ⟨hq, hj⟩) (fun rows hr => many_untouched hpos hqp rows hr) hb hne h⟩

/-- Assignment to several different rows succeeds for fitting values. -/
theorem C48_many_ok (b v : B) (n : Nat) (is : List Int) (ps : List Nat) (hwf : b.WF) (hb : b.Tall n)
    (hlen : ps.length = is.length)
    (hps : ∀ (t p : Nat) (i : Int), ps[t]? = some p → is[t]? = some i → p < n ∧ (p : Int) = if i < 0 then i + n else i)
    (hnd : ps.Nodup) (hv : v.Tall is.length) (hfits : Fits v b) : ∃ b', b.setitem (.many is) v = (b', none) :=
  setitem_ok (many_places (positions_of hlen hps) hnd) hwf hb hv hfits

/-- A value with a key that the batch does not have is rejected, and the batch stays as it is. -/
theorem C48_unknown_key (b v : B) (index : Index) (k : String) (hv : k ∈ v.keys) (hb : k ∉ b.keys) :
    b.setitem index v = (b, some .valueError) := by
  unfold B.setitem
  rw [if_neg]
  intro hsub
  exact hb (hsub hv)

/-- Row -1 of three is assigned a value without the key `a`. -/
example : (((exRows [1, 2, 3]).setitem (.one (-1)) (.sub "n" (.leaf "b" ⟨false, .arr [.num 8, .num 9]⟩ .nil) .nil)).1.leafAt ["a"]).map
    (fun l => l.data.beq (.arr [.num 1, .num 2, .num 0])) = some true := by rfl
example : (((exRows [1, 2, 3]).setitem (.one (-1)) (.sub "n" (.leaf "b" ⟨false, .arr [.num 8, .num 9]⟩ .nil) .nil)).1.leafAt
    ["n", "b"]).map (fun l => l.data.beq (.arr [.arr [.num 1, .num 7], .arr [.num 2, .num 7], .arr [.num 8, .num 9]])) = some true := by
  rfl
example : Fits (.sub "n" (.leaf "b" ⟨false, .arr [.num 8, .num 9]⟩ .nil) .nil) (exRows [1, 2, 3]) := by
  intro path
  rcases path with _ | ⟨k, path⟩
  · simp [exRows, B.leafAt, B.subAt]
  · by_cases hn : "n" = k
    · subst hn
      rcases path with _ | ⟨k', path⟩ <;> simp only [exRows, B.leafAt, B.subAt] <;> (try split_ifs) <;> simp_all
    · simp [B.leafAt, B.subAt, hn]

/-- An unknown key in a nested value is found only after the values before it have been changed. -/
example : ((exRows [1, 2, 3]).setitem (.one 0) (.leaf "a" ⟨false, .num 5⟩ (.sub "n" (.leaf "zz" ⟨false, .num 8⟩ .nil) .nil))).2 =
      some .valueError ∧
    ((((exRows [1, 2, 3]).setitem (.one 0) (.leaf "a" ⟨false, .num 5⟩
      (.sub "n" (.leaf "zz" ⟨false, .num 8⟩ .nil) .nil))).1.leafAt ["a"]).map fun l =>
        l.data.beq (.arr [.num 5, .num 2, .num 3])) = some true := ⟨by rfl, by rfl⟩

end Verif.Batch
