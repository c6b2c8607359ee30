import Verif.Spec.LossStats
import Verif.Props.Stats
import Mathlib.Data.List.Basic

/-! Lemmas on the statistics of updates. -/

namespace Verif.LossStats

open Verif.Stats (Num MovAvg)

variable {F V : Type}

theorem get?_eq_none {k : String} {d : Dict V} : get? k d = none ↔ k ∉ d.map Prod.fst := by
  induction d with
  | nil => simp [get?]
  | cons p t ih =>
    obtain ⟨j, w⟩ := p
    rw [get?]
    split_ifs with h
    · simp [h]
    · rw [ih]; simp [Ne.symm h]

theorem get?_eq_some {k : String} {d : Dict V} (hd : (d.map Prod.fst).Nodup) {v : V} :
    get? k d = some v ↔ (k, v) ∈ d := by
  induction d with
  | nil => simp [get?]
  | cons p t ih =>
    obtain ⟨j, w⟩ := p
    rw [List.map_cons, List.nodup_cons] at hd
    rw [get?]
    split_ifs with h
    · subst h
      rw [List.mem_cons]
      constructor
      · rintro h; left; cases h; rfl
      · rintro (h | h)
        · cases h; rfl
        · exact absurd (List.mem_map_of_mem (f := Prod.fst) h) hd.1
    · rw [ih hd.2, List.mem_cons]
      constructor
      · exact Or.inr
      · rintro (h' | h')
        · cases h'; exact absurd rfl h
        · exact h'

theorem get?_put (k j : String) (v : V) (d : Dict V) :
    get? j (put k v d) = if k = j then some v else get? j d := by
  induction d with
  | nil => simp [put, get?]
  | cons p t ih =>
    obtain ⟨i, w⟩ := p
    rw [put]
    by_cases h : i = k
    · rw [if_pos h, get?, get?]
      subst h
      by_cases hj : i = j <;> simp [hj]
    · rw [if_neg h, get?, get?, ih]
      by_cases hj : i = j
      · rw [if_pos hj, if_pos hj, if_neg (fun e => h (hj.trans e.symm))]
      · rw [if_neg hj, if_neg hj]

theorem mem_put_keys (k j : String) (v : V) (d : Dict V) :
    j ∈ (put k v d).map Prod.fst ↔ j = k ∨ j ∈ d.map Prod.fst := by
  have h := get?_put k j v d
  rw [← not_iff_not, ← get?_eq_none, h, not_or, ← get?_eq_none]
  split_ifs with hk
  · simp [hk]
  · simp [Ne.symm hk]

theorem put_nodup (k : String) (v : V) (d : Dict V) (hd : (d.map Prod.fst).Nodup) :
    ((put k v d).map Prod.fst).Nodup := by
  induction d with
  | nil => simp [put]
  | cons p t ih =>
    obtain ⟨i, w⟩ := p
    rw [List.map_cons, List.nodup_cons] at hd
    rw [put]
    split_ifs with h
    · rw [List.map_cons, List.nodup_cons]; exact hd
    · rw [List.map_cons, List.nodup_cons]
      refine ⟨?_, ih hd.2⟩
      rw [mem_put_keys]
      rintro (h' | h')
      · exact h h'
      · exact hd.1 h'

theorem merge_nodup (a b : Dict V) (ha : (a.map Prod.fst).Nodup) : ((merge a b).map Prod.fst).Nodup := by
  induction b generalizing a with
  | nil => exact ha
  | cons p t ih => obtain ⟨k, v⟩ := p; exact ih _ (put_nodup k v a ha)

theorem get?_merge (a b : Dict V) (hb : (b.map Prod.fst).Nodup) (k : String) :
    get? k (merge a b) = (get? k b).or (get? k a) := by
  induction b generalizing a with
  | nil => simp [merge, get?]
  | cons p t ih =>
    obtain ⟨j, v⟩ := p
    rw [List.map_cons, List.nodup_cons] at hb
    rw [merge, ih _ hb.2, get?_put, get?]
    by_cases h : j = k
    · subst h
      rw [if_pos rfl, if_pos rfl, get?_eq_none.2 hb.1]; rfl
    · rw [if_neg h, if_neg h]

theorem pick_keys (d : Dict (Val F)) : ((pick d).map Prod.fst).Sublist (d.map Prod.fst) := by
  induction d with
  | nil => exact List.Sublist.refl _
  | cons p t ih =>
    obtain ⟨k, v⟩ := p
    rw [pick]
    split_ifs
    · exact ih.cons _
    · cases v.number with
      | none => exact ih.cons _
      | some x => exact ih.cons_cons _

theorem get?_pick (d : Dict (Val F)) (hd : (d.map Prod.fst).Nodup) (k : String) :
    get? k (pick d) = if k ∈ nonLoss then none else (get? k d).bind Val.number := by
  induction d with
  | nil => simp [pick, get?]
  | cons p t ih =>
    obtain ⟨j, v⟩ := p
    rw [List.map_cons, List.nodup_cons] at hd
    have hi := ih hd.2
    have hn : j = k → get? k (pick t) = none := by
      rintro rfl
      exact get?_eq_none.2 fun h => hd.1 ((pick_keys t).subset h)
    rw [pick, get?]
    by_cases hj : j ∈ nonLoss
    · rw [if_pos hj, hi]
      by_cases hk : k ∈ nonLoss
      · rw [if_pos hk, if_pos hk]
      · rw [if_neg hk, if_neg hk, if_neg (fun e : j = k => hk (e ▸ hj))]
    · rw [if_neg hj]
      by_cases hjk : j = k
      · subst hjk
        rw [if_neg hj, if_pos rfl]
        cases hv : v.number with
        | none => simp only [Option.bind_some, hv]; exact hn rfl
        | some x => simp only [Option.bind_some, hv, get?, if_true]
      · rw [if_neg hjk]
        cases hv : v.number with
        | none => exact hi
        | some x => simp only [get?, if_neg hjk]; exact hi

theorem number_eq {v : Val F} {x : Num F} : v.number = some x ↔ v = .loss x ∨ v = .summary x := by
  cases v <;> simp [Val.number]

theorem shows_iff {a : Dict (Val F)} (ha : (a.map Prod.fst).Nodup) {k : String} {x : Num F} :
    Shows a k x ↔ k ∉ nonLoss ∧ (get? k a).bind Val.number = some x := by
  unfold Shows nonLoss
  rw [Option.bind_eq_some_iff]
  constructor
  · rintro ⟨h1, h2, h | h⟩
    · exact ⟨by simp [h1, h2], _, (get?_eq_some ha).2 h, rfl⟩
    · exact ⟨by simp [h1, h2], _, (get?_eq_some ha).2 h, rfl⟩
  · rintro ⟨h, v, hv, hx⟩
    have hv := (get?_eq_some ha).1 hv
    simp only [List.mem_cons, List.not_mem_nil, or_false, not_or] at h
    refine ⟨h.1, h.2, ?_⟩
    rcases number_eq.1 hx with rfl | rfl
    · exact Or.inl hv
    · exact Or.inr hv

theorem selfDict_nodup (s : Stats F) (h : s.Dicts) : (s.selfDict.map Prod.fst).Nodup := by
  match s with
  | .plain a => exact h
  | .agents a p => exact h.1
  | .wrapper a i => exact merge_nodup _ _ (selfDict_nodup i h.2)

theorem get?_selfDict (s : Stats F) (h : s.Dicts) (k : String) : get? k s.selfDict = s.attr? k := by
  match s with
  | .plain a => rfl
  | .agents a p => rfl
  | .wrapper a i => rw [Stats.selfDict, get?_merge _ _ h.1, get?_selfDict i h.2, Stats.attr?]

theorem single_has (s : Stats F) (h : s.Dicts) (hs : s.Single) (ha : s.Apart) (k : String) (x : Num F) :
    s.Has k x ↔ k ∉ nonLoss ∧ (s.attr? k).bind Val.number = some x := by
  match s with
  | .plain a => exact shows_iff h
  | .agents a p => exact hs.elim
  | .wrapper a i =>
    rw [Stats.Has, shows_iff h.1, single_has i h.2 hs ha.1, ← and_or_left, Stats.attr?]
    refine and_congr_right fun hk => ?_
    cases hg : get? k a with
    | none => simp
    | some v =>
      have hm := (get?_eq_some h.1).1 hg
      have hn : i.attr? k = none := by
        refine ha.2 _ hm ?_ ?_ <;> · rintro rfl; exact hk (by simp [nonLoss])
      rw [hn]; simp

theorem slash_inj {a b j k : String} (ha : '/' ∉ a.toList) (hb : '/' ∉ b.toList)
    (h : a ++ "/" ++ j = b ++ "/" ++ k) : a = b ∧ j = k := by
  have h' : a.toList ++ '/' :: j.toList = b.toList ++ '/' :: k.toList := by
    have := congrArg String.toList h
    simpa using this
  have key : ∀ (l m : List Char) (x y : List Char), '/' ∉ l → '/' ∉ m → l ++ '/' :: x = m ++ '/' :: y → l = m ∧ x = y := by
    intro l
    induction l with
    | nil =>
      intro m x y _ hm e
      cases m with
      | nil => simpa using e
      | cons c m => simp at e; exact absurd (List.mem_cons.2 (Or.inl e.1)) hm
    | cons c l ih =>
      intro m x y hl hm e
      cases m with
      | nil => simp at e; exact absurd (by simp [e.1]) hl
      | cons d m =>
        simp only [List.cons_append, List.cons.injEq] at e
        simp only [List.mem_cons, not_or] at hl hm
        obtain ⟨r1, r2⟩ := ih m x y hl.2 hm.2 e.2
        exact ⟨by rw [e.1, r1], r2⟩
  obtain ⟨r1, r2⟩ := key _ _ _ _ ha hb h'
  exact ⟨String.toList_inj.1 r1, String.toList_inj.1 r2⟩

theorem map_keys_nodup (id : String) (d : Dict V) (hd : (d.map Prod.fst).Nodup) :
    ((d.map fun p => (id ++ "/" ++ p.1, p.2)).map Prod.fst).Nodup := by
  rw [List.map_map]
  have : (Prod.fst ∘ fun p : String × V => (id ++ "/" ++ p.1, p.2)) = (fun j => id ++ "/" ++ j) ∘ Prod.fst := rfl
  rw [this, ← List.map_map]
  refine hd.map ?_
  intro a b h
  have := congrArg String.toList h
  simp at this
  exact String.toList_inj.1 this

mutual
theorem lossDict_nodup (s : Stats F) (h : s.Dicts) : (s.lossDict.map Prod.fst).Nodup := by
  match s with
  | .plain a => rw [Stats.lossDict]; exact (pick_keys _).nodup (selfDict_nodup _ h)
  | .wrapper a i => rw [Stats.lossDict]; exact (pick_keys _).nodup (selfDict_nodup _ h)
  | .agents a p => rw [Stats.lossDict]; exact parts_nodup p [] (by simp)
theorem parts_nodup (p : Parts F) (d : Dict (Num F)) (hd : (d.map Prod.fst).Nodup) :
    ((p.lossDict d).map Prod.fst).Nodup := by
  match p with
  | .nil => rw [Parts.lossDict]; exact hd
  | .cons id s r => rw [Parts.lossDict]; exact parts_nodup r _ (merge_nodup _ _ hd)
end

mutual
theorem lossDict_get (s : Stats F) (h : s.Dicts) (hc : s.Clear) (k : String) (x : Num F) :
    get? k s.lossDict = some x ↔ s.Has k x := by
  match s with
  | .plain a =>
    rw [Stats.lossDict, get?_pick _ (selfDict_nodup _ h), get?_selfDict _ h, single_has _ h trivial trivial]
    split_ifs with hk <;> simp [hk]
  | .wrapper a i =>
    rw [Stats.lossDict, get?_pick _ (selfDict_nodup _ h), get?_selfDict _ h, single_has _ h hc.1 hc.2]
    split_ifs with hk <;> simp [hk]
  | .agents a p =>
    rw [Stats.lossDict, Stats.Has, parts_get p [] h.2 hc (by simp) k x]
    simp [get?]
theorem parts_get (p : Parts F) (d : Dict (Num F)) (h : p.Dicts) (hc : p.Clear)
    (hd : ∀ k ∈ d.map Prod.fst, ∀ id ∈ p.ids, ∀ j, k ≠ id ++ "/" ++ j) (k : String) (x : Num F) :
    get? k (p.lossDict d) = some x ↔ p.Has k x ∨ get? k d = some x := by
  match p with
  | .nil => rw [Parts.lossDict, Parts.Has]; simp
  | .cons id s r =>
    have hn := map_keys_nodup id _ (lossDict_nodup s h.1)
    have hg := get?_merge d (s.lossDict.map fun p => (id ++ "/" ++ p.1, p.2)) hn
    have hm : ∀ k x, get? k (s.lossDict.map fun p => (id ++ "/" ++ p.1, p.2)) = some x
        ↔ ∃ j, k = id ++ "/" ++ j ∧ s.Has j x := by
      intro k x
      rw [get?_eq_some hn, List.mem_map]
      constructor
      · rintro ⟨q, hq, e⟩
        cases e
        exact ⟨q.1, rfl, (lossDict_get s h.1 hc.1 _ _).1 ((get?_eq_some (lossDict_nodup s h.1)).2 hq)⟩
      · rintro ⟨j, rfl, hj⟩
        exact ⟨(j, x), (get?_eq_some (lossDict_nodup s h.1)).1 ((lossDict_get s h.1 hc.1 _ _).2 hj), rfl⟩
    have hd' : ∀ k ∈ (merge d (s.lossDict.map fun p => (id ++ "/" ++ p.1, p.2))).map Prod.fst, ∀ i ∈ r.ids, ∀ j,
        k ≠ i ++ "/" ++ j := by
      intro k hk i hi j e
      have hk' : get? k (merge d (s.lossDict.map fun p => (id ++ "/" ++ p.1, p.2))) ≠ none := by
        rw [Ne, get?_eq_none, not_not]; exact hk
      rw [hg] at hk'
      cases h1 : get? k (s.lossDict.map fun p => (id ++ "/" ++ p.1, p.2)) with
      | some y =>
        obtain ⟨j', e', -⟩ := (hm _ _).1 h1
        have hi' : '/' ∉ i.toList := ids_noslash r hc.2.2.2 i hi
        exact hc.2.2.1 ((slash_inj hc.2.1 hi' (e'.symm.trans e)).1 ▸ hi)
      | none =>
        rw [h1, Option.none_or, Ne, get?_eq_none, not_not] at hk'
        exact hd k hk' i (List.mem_cons_of_mem _ hi) j e
    rw [Parts.lossDict, parts_get r _ h.2 hc.2.2.2 hd' k x, hg, Parts.Has]
    cases h1 : get? k (s.lossDict.map fun p => (id ++ "/" ++ p.1, p.2)) with
    | some y =>
      obtain ⟨j, e, hy⟩ := (hm _ _).1 h1
      have h2 : get? k d = none := by
        rw [get?_eq_none]
        exact fun hk => hd k hk id (by simp [Parts.ids]) j e
      have h3 := hm k x
      rw [h1] at h3
      rw [h2]
      simp only [Option.some_or, h3]
      simp only [reduceCtorEq, or_false]
      exact or_comm
    | none =>
      have h3 := hm k x
      rw [h1] at h3
      simp only [reduceCtorEq, false_iff] at h3
      simp only [Option.none_or, h3, false_or]
theorem ids_noslash (p : Parts F) (hc : p.Clear) (i : String) (hi : i ∈ p.ids) : '/' ∉ i.toList := by
  match p with
  | .nil => simp [Parts.ids] at hi
  | .cons id s r =>
    rw [Parts.ids, List.mem_cons] at hi
    rcases hi with rfl | hi
    · exact hc.2.1
    · exact ids_noslash r hc.2.2.2 i hi
end

/-- The average after some numbers. -/
def avg (l : List (Num F)) : MovAvg F := l.foldl (fun m x => m.add [x]) ⟨100, []⟩

/-- The averages are those of the numbers given. -/
def Tracks (m : Averages F) (h : String → List (Num F)) : Prop := ∀ k, (get? k m).getD ⟨100, []⟩ = avg (h k)

theorem avg_snoc (l : List (Num F)) (x : Num F) : (avg l).add [x] = avg (l ++ [x]) := by
  unfold avg; rw [List.foldl_append]; rfl

theorem avg_get [Field F] [LinearOrder F] [IsStrictOrderedRing F] (l : List (Num F)) (hl : ∀ x ∈ l, x ≠ .nan false) :
    (avg l).get = .fin (if Verif.Stats.finite l = [] then 0 else
      Verif.Stats.meanOf (Verif.Stats.lastN 100 (Verif.Stats.finite l))) := by
  have h := Verif.Stats.C57_average_partial 100 (l.map fun x => [x]) (by
    intro a ha x hx
    obtain ⟨y, hy, rfl⟩ := List.mem_map.1 ha
    rw [List.mem_singleton] at hx
    exact hx ▸ hl y hy)
  have hf : (l.map fun x => [x]).flatten = l := by
    clear h hl
    induction l with
    | nil => rfl
    | cons a t ih => rw [List.map_cons, List.flatten_cons, ih]; rfl
  simp only [hf, List.foldl_map] at h
  unfold avg
  rw [h]
  rfl

theorem filter_key (d : Dict V) (hd : (d.map Prod.fst).Nodup) (p : String × V) (hp : p ∈ d) :
    (d.filter fun q => q.1 = p.1).map Prod.snd = [p.2] := by
  induction d with
  | nil => cases hp
  | cons r u ih =>
    rw [List.map_cons, List.nodup_cons] at hd
    rcases List.mem_cons.1 hp with rfl | hp
    · rw [List.filter_cons_of_pos (by simp), List.filter_eq_nil_iff.2]
      · rfl
      · intro x hx e
        simp only [decide_eq_true_eq] at e
        exact hd.1 (e ▸ List.mem_map_of_mem (f := Prod.fst) hx)
    · rw [List.filter_cons_of_neg, ih hd.2 hp]
      simp only [decide_eq_true_eq]
      intro e
      exact hd.1 (e ▸ List.mem_map_of_mem (f := Prod.fst) hp)

theorem smooth_tracks [Field F] (d : Dict (Num F)) (m : Averages F) (h : String → List (Num F)) (hm : Tracks m h) :
    Tracks (smooth m d).1 fun k => h k ++ (d.filter fun p => p.1 = k).map Prod.snd := by
  induction d generalizing m h with
  | nil => simpa [smooth] using hm
  | cons p t ih =>
    obtain ⟨j, x⟩ := p
    rw [smooth]
    have h1 : Tracks (put j (((get? j m).getD ⟨100, []⟩).add [x]) m) fun k => h k ++ if j = k then [x] else [] := by
      intro k
      rw [get?_put, hm j, avg_snoc]
      by_cases hk : j = k
      · subst hk; simp
      · simp only [if_neg hk, List.append_nil]; exact hm k
    have h2 := ih _ _ h1
    intro k
    have h3 := h2 k
    simp only [h3]
    congr 1
    rw [List.append_assoc]
    congr 1
    by_cases hk : j = k <;> simp [hk]

theorem smooth_table [Field F] (d : Dict (Num F)) (hd : (d.map Prod.fst).Nodup) (m : Averages F)
    (h : String → List (Num F)) (hm : Tracks m h) :
    (smooth m d).2 = d.map fun p => (p.1, (avg (h p.1 ++ [p.2])).get) := by
  induction d generalizing m h with
  | nil => rfl
  | cons p t ih =>
    obtain ⟨j, x⟩ := p
    rw [List.map_cons, List.nodup_cons] at hd
    rw [smooth]
    have h1 : Tracks (put j (((get? j m).getD ⟨100, []⟩).add [x]) m) fun k => h k ++ if j = k then [x] else [] := by
      intro k
      rw [get?_put, hm j, avg_snoc]
      by_cases hk : j = k
      · subst hk; simp
      · simp only [if_neg hk, List.append_nil]; exact hm k
    rw [hm j, avg_snoc] at h1 ⊢
    rw [ih hd.2 _ _ h1, List.map_cons]
    show (_ :: _) = (_ :: _)
    congr 1
    refine List.map_congr_left fun q hq => ?_
    have : j ≠ q.1 := by
      intro e; apply hd.1; show j ∈ _; rw [e]; exact List.mem_map_of_mem (f := Prod.fst) hq
    simp [this]

theorem averages_tracks [Field F] (ss : List (Stats F)) (m : Averages F) (h : String → List (Num F)) (hm : Tracks m h) :
    Tracks (averages m (ss.map .update)) fun k => h k ++ history k (ss.map Stats.lossDict) := by
  induction ss generalizing m h with
  | nil => simpa [averages, history] using hm
  | cons s t ih =>
    rw [List.map_cons, averages]
    have := ih _ _ (smooth_tracks s.lossDict m h hm)
    intro k
    rw [this k]
    simp [history]

theorem get?_mem {k : String} {d : Dict V} {v : V} (h : get? k d = some v) : (k, v) ∈ d := by
  induction d with
  | nil => simp [get?] at h
  | cons p t ih =>
    obtain ⟨j, w⟩ := p
    rw [get?] at h
    split_ifs at h with hj
    · cases h; rw [hj]; exact List.mem_cons_self
    · exact List.mem_cons_of_mem _ (ih h)

theorem apart_own {a : Dict (Val F)} {i : Stats F} (h : Stats.Apart (.wrapper a i)) {k : String} (hk : k ∉ nonLoss)
    {v : Val F} (hv : get? k a = some v) : i.attr? k = none := by
  refine h.2 _ (get?_mem hv) ?_ ?_ <;> · rintro rfl; exact hk (by simp [nonLoss])

theorem set_spec (s : Stats F) (ha : s.Apart) (k : String) (hk : k ∈ nonLoss ∨ (s.attr? k).isSome) (v : Val F) :
    ∃ s', s.set k v = some s' ∧ s'.attr? k = some v ∧ ∀ j, j ≠ k → s'.attr? j = s.attr? j := by
  match s with
  | .plain a =>
    refine ⟨.plain (put k v a), rfl, ?_, ?_⟩
    · simp [Stats.attr?, get?_put]
    · intro j hj; simp [Stats.attr?, get?_put, Ne.symm hj]
  | .agents a p =>
    refine ⟨.agents (put k v a) p, rfl, ?_, ?_⟩
    · simp [Stats.attr?, get?_put]
    · intro j hj; simp [Stats.attr?, get?_put, Ne.symm hj]
  | .wrapper a i =>
    by_cases hb : k ∈ nonLoss
    · obtain ⟨i', h1, -, h3⟩ := set_spec i ha.1 k (Or.inl hb) v
      refine ⟨.wrapper (put k v a) i', ?_, ?_, ?_⟩
      · rw [Stats.set, if_pos hb, h1]; rfl
      · simp [Stats.attr?, get?_put]
      · intro j hj; simp [Stats.attr?, get?_put, Ne.symm hj, h3 j hj]
    · have hs : (Stats.attr? k (.wrapper a i)).isSome := hk.resolve_left hb
      have hs' : ¬(Stats.attr? k (.wrapper a i)).isNone = true := by
        rw [← Option.not_isSome, hs]; decide
      by_cases hi : (i.attr? k).isSome
      · obtain ⟨i', h1, h2, h3⟩ := set_spec i ha.1 k (Or.inr hi) v
        have hn : get? k a = none := by
          cases h : get? k a with
          | none => rfl
          | some w => rw [apart_own ha hb h] at hi; cases hi
        refine ⟨.wrapper a i', ?_, ?_, ?_⟩
        · rw [Stats.set, if_neg hb, if_neg hs', if_pos hi, h1]; rfl
        · rw [Stats.attr?, hn, h2]; rfl
        · intro j hj; rw [Stats.attr?, Stats.attr?, h3 j hj]
      · refine ⟨.wrapper (put k v a) i, ?_, ?_, ?_⟩
        · rw [Stats.set, if_neg hb, if_neg hs', if_neg hi]
        · simp [Stats.attr?, get?_put]
        · intro j hj; simp [Stats.attr?, get?_put, Ne.symm hj]

theorem set_base (s : Stats F) (k : String) (hb : k ∈ nonLoss) (v : Val F) :
    ∃ s', s.set k v = some s' ∧ s'.attr? k = some v ∧ (∀ j, j ≠ k → s'.attr? j = s.attr? j) ∧
      (∀ a, s = .plain a → s' = .plain (put k v a)) ∧ ((∀ a, s ≠ .plain a) → s'.fields = nonLoss) := by
  match s with
  | .plain a =>
    refine ⟨.plain (put k v a), rfl, ?_, ?_, ?_, fun h => absurd rfl (h a)⟩
    · simp [Stats.attr?, get?_put]
    · intro j hj; simp [Stats.attr?, get?_put, Ne.symm hj]
    · rintro b ⟨⟩; rfl
  | .agents a p =>
    refine ⟨.agents (put k v a) p, rfl, ?_, ?_, by rintro b ⟨⟩, fun _ => rfl⟩
    · simp [Stats.attr?, get?_put]
    · intro j hj; simp [Stats.attr?, get?_put, Ne.symm hj]
  | .wrapper a i =>
    obtain ⟨i', h1, -, h3, -⟩ := set_base i k hb v
    refine ⟨.wrapper (put k v a) i', ?_, ?_, ?_, by rintro b ⟨⟩, fun _ => rfl⟩
    · rw [Stats.set, if_pos hb, h1]; rfl
    · simp [Stats.attr?, get?_put]
    · intro j hj; simp [Stats.attr?, get?_put, Ne.symm hj, h3 j hj]

end Verif.LossStats
