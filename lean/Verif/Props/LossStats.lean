import Verif.Lemmas.LossStats
import Mathlib.Algebra.Order.Ring.Rat

/-! Properties C211-C214: statistics of updates. -/

namespace Verif.LossStats

open Verif.Stats (Num meanOf finite lastN)

variable {F : Type}

/-- C211. A loss dictionary has no name twice, and if no names clash, it contains exactly the losses: those of a policy under
their names, those of a wrapper next to those of what it wraps, and those of several agents with the agent in front. Missing:
wrappers that use the names of what they wrap, wrappers of the statistics of several agents, and agents that are formatted
alike or contain slashes. -/
theorem C211_losses_partial (s : Stats F) (h : s.Dicts) (hc : s.Clear) :
    (s.lossDict.map Prod.fst).Nodup ∧ ∀ k x, (k, x) ∈ s.lossDict ↔ s.Has k x :=
  ⟨lossDict_nodup s h, fun k x => by rw [← get?_eq_some (lossDict_nodup s h), lossDict_get s h hc]⟩

/-- C211 fails for a policy wrapped with curiosity twice: the losses of the inner curiosity module are not in the
dictionary. -/
theorem C211_wrapper_violated (l f v l' f' v' : Num F) (i : Stats F) (hl : l ≠ l') (hd : i.Dicts) :
    (icmStats l f v (icmStats l' f' v' i)).Has "icm_loss" l' ∧
    ("icm_loss", l') ∉ (icmStats l f v (icmStats l' f' v' i)).lossDict := by
  have hw : ∀ (l f v : Num F) (i : Stats F), i.Dicts → ∃ a, icmStats l f v i = .wrapper a i ∧ (a.map Prod.fst).Nodup ∧
      get? "icm_loss" a = some (.loss l) := by
    intro l f v i _
    refine ⟨_, rfl, ?_, ?_⟩
    · simp only [nonLoss, List.foldl_cons, List.foldl_nil]
      cases i.attr? "train_time" <;> cases i.attr? "smoothed_loss" <;>
        · dsimp only
          repeat' apply put_nodup
          simp
    · simp only [nonLoss, List.foldl_cons, List.foldl_nil]
      cases i.attr? "train_time" <;> cases i.attr? "smoothed_loss" <;>
        · dsimp only
          try simp only [get?_put]
          simp [get?]
  obtain ⟨a', e', n', g'⟩ := hw l' f' v' i hd
  have hd' : (icmStats l' f' v' i).Dicts := by rw [e']; exact ⟨n', hd⟩
  obtain ⟨a, e, n, g⟩ := hw l f v _ hd'
  have hD : (icmStats l f v (icmStats l' f' v' i)).Dicts := by rw [e]; exact ⟨n, hd'⟩
  constructor
  · rw [e, Stats.Has]
    right
    rw [e', Stats.Has]
    left
    exact (shows_iff n').2 ⟨by decide, by rw [g']; rfl⟩
  · rw [← get?_eq_some (lossDict_nodup _ hD), e, Stats.lossDict, get?_pick _ (selfDict_nodup _ (e ▸ hD)),
      get?_selfDict _ (e ▸ hD), if_neg (by decide), Stats.attr?, g]
    simp only [Option.some_or, Option.bind_some, Val.number, Option.some.injEq]
    exact hl

/-- C211 fails for every wrapper of the statistics of several agents: only the losses of the wrapper are in the dictionary. -/
theorem C211_agents_violated [Zero F] [Max F] (p : Parts F) (s : Stats F) (hs : mapStats p = some s) (own : Dict (Val F)) :
    ∀ q ∈ (wrap own s).lossDict, q.1 ∈ own.map Prod.fst := by
  intro q hq
  obtain ⟨t, rfl⟩ : ∃ t, s = .agents [("train_time", .time t), ("smoothed_loss", .table [])] p := by
    unfold mapStats at hs
    split at hs
    · cases hs
    · cases hs; exact ⟨_, rfl⟩
  have hpm : ∀ (d : Dict (Val F)), ∀ q ∈ pick d, q.1 ∉ nonLoss := by
    intro d
    induction d with
    | nil => simp [pick]
    | cons r u ih =>
      obtain ⟨k, v⟩ := r
      rw [pick]
      split_ifs with hk
      · exact ih
      · cases v.number with
        | none => exact ih
        | some x =>
          intro q hq
          rcases List.mem_cons.1 hq with rfl | hq
          · exact hk
          · exact ih q hq
  have hmk : ∀ (b a : Dict (Val F)) (k : String), k ∈ (merge a b).map Prod.fst → k ∈ a.map Prod.fst ∨ k ∈ b.map Prod.fst := by
    intro b
    induction b with
    | nil => intro a k h; exact Or.inl h
    | cons r u ih =>
      obtain ⟨j, v⟩ := r
      intro a k h
      rcases ih _ _ h with h | h
      · rcases (mem_put_keys _ _ _ _).1 h with rfl | h
        · right; simp
        · exact Or.inl h
      · right; rw [List.map_cons]; exact List.mem_cons_of_mem _ h
  rw [wrap, Stats.lossDict] at hq
  have hn := hpm _ q hq
  have hk := (pick_keys _).subset (List.mem_map_of_mem (f := Prod.fst) hq)
  rw [Stats.selfDict] at hk
  rcases hmk _ _ _ hk with h | h
  · exact absurd h hn
  · have h' : ∀ v w : Val F, q.1 ∈ (put "smoothed_loss" v (put "train_time" w own)).map Prod.fst → q.1 ∈ own.map Prod.fst := by
      intro v w h
      rcases (mem_put_keys _ _ _ _).1 h with h | h
      · rw [h] at hn; exact absurd (by decide) hn
      · rcases (mem_put_keys _ _ _ _).1 h with h | h
        · rw [h] at hn; exact absurd (by decide) hn
        · exact h
    exact h' _ _ h

/-- C211 fails for agents that are formatted alike, such as 1 and "1": the losses of the first are lost. -/
theorem C211_names_violated : ∃ (p : Parts ℚ) (s : Stats ℚ), mapStats p = some s ∧ s.Dicts ∧ s.Has "1/loss" (.fin 5) ∧
    s.lossDict = [("1/loss", .fin 7)] :=
  ⟨.cons "1" (.plain [("loss", .loss (.fin 5))]) (.cons "1" (.plain [("loss", .loss (.fin 7))]) .nil), _, rfl,
    ⟨by decide, by simp [Stats.Dicts], by simp [Stats.Dicts], trivial⟩,
    Or.inl ⟨"loss", rfl, by decide, by decide, Or.inl (by simp)⟩, by decide +kernel⟩

/-- Two agents, one with a curiosity module. -/
def team : Stats ℚ :=
  .agents [] (.cons "red" (icmStats (.fin 1) (.fin 2) (.fin 3) (.plain [("loss", .loss (.fin 4)), ("train_time", .time 9),
    ("smoothed_loss", .table [])])) (.cons "blue" (.plain [("loss", .summary (.fin 6)), ("ent_loss", .none)]) .nil))

example : team.Dicts ∧ team.Clear ∧ team.lossDict =
    [("red/loss", .fin 4), ("red/icm_loss", .fin 1), ("red/icm_forward_loss", .fin 2), ("red/icm_inverse_loss", .fin 3),
      ("blue/loss", .fin 6)] := by
  refine ⟨⟨by decide, ⟨by decide, by simp [Stats.Dicts]⟩, by simp [Stats.Dicts], trivial⟩, ⟨⟨trivial, trivial, ?_⟩, by decide, by decide, trivial,
    by decide, by decide, trivial⟩, by decide +kernel⟩
  decide +kernel

/-- C212. After a successful `w.k = v` on the statistics `w` of a wrapper, `w.k` is `v` and all other attributes are as before.
The statistics that are wrapped have it as well if the attribute is theirs or belongs to all statistics, and are unchanged
otherwise. It fails exactly for names that are not attributes. Missing: wrappers that use the names of what they wrap. -/
theorem C212_set_partial (a : Dict (Val F)) (i : Stats F) (ha : Stats.Apart (.wrapper a i)) (k : String) (v : Val F) :
    ((Stats.set k v (.wrapper a i) = none ↔
      k ≠ "train_time" ∧ k ≠ "smoothed_loss" ∧ Stats.attr? k (.wrapper a i) = none)) ∧
    ∀ w', Stats.set k v (.wrapper a i) = some w' → w'.attr? k = some v ∧
      (∀ j, j ≠ k → w'.attr? j = Stats.attr? j (.wrapper a i)) ∧
      ∃ a' i', w' = .wrapper a' i' ∧ (∀ j, j ≠ k → i'.attr? j = i.attr? j) ∧
        (k = "train_time" ∨ k = "smoothed_loss" ∨ i.attr? k ≠ none → i'.attr? k = some v) ∧
        (k ≠ "train_time" → k ≠ "smoothed_loss" → i.attr? k = none → i' = i) := by
  have hb : k ∈ nonLoss ↔ k = "train_time" ∨ k = "smoothed_loss" := by simp [nonLoss]
  by_cases hk : k ∈ nonLoss ∨ (Stats.attr? k (.wrapper a i)).isSome
  · obtain ⟨s', h1, h2, h3⟩ := set_spec (.wrapper a i) ha k hk v
    refine ⟨?_, ?_⟩
    · rw [h1]
      simp only [reduceCtorEq, false_iff, not_and]
      intro n1 n2 h
      rcases hk with hk | hk
      · rcases hb.1 hk with e | e
        · exact n1 e
        · exact n2 e
      · rw [h] at hk; cases hk
    · intro w' hw
      rw [h1] at hw
      cases hw
      refine ⟨h2, h3, ?_⟩
      rw [Stats.set] at h1
      by_cases hn : k ∈ nonLoss
      · obtain ⟨i', e1, e2, e3⟩ := set_spec i ha.1 k (Or.inl hn) v
        rw [if_pos hn, e1] at h1
        cases h1
        refine ⟨_, _, rfl, e3, fun _ => e2, fun n1 n2 => ?_⟩
        rcases hb.1 hn with e | e
        · exact absurd e n1
        · exact absurd e n2
      · have hs := hk.resolve_left hn
        have hs' : ¬(Stats.attr? k (.wrapper a i)).isNone = true := by
          rw [← Option.not_isSome, hs]; decide
        rw [if_neg hn, if_neg hs'] at h1
        by_cases hi : (i.attr? k).isSome
        · obtain ⟨i', e1, e2, e3⟩ := set_spec i ha.1 k (Or.inr hi) v
          rw [if_pos hi, e1] at h1
          cases h1
          refine ⟨_, _, rfl, e3, fun _ => e2, fun _ _ h => ?_⟩
          rw [h] at hi; cases hi
        · rw [if_neg hi] at h1
          cases h1
          refine ⟨_, _, rfl, fun _ _ => rfl, fun h => ?_, fun _ _ _ => rfl⟩
          rcases h with h | h | h
          · exact absurd (hb.2 (Or.inl h)) hn
          · exact absurd (hb.2 (Or.inr h)) hn
          · exact absurd (Option.ne_none_iff_isSome.1 h) hi
  · rw [not_or] at hk
    have hnone : Stats.attr? k (.wrapper a i) = none := by simpa using hk.2
    have h1 : Stats.set k v (.wrapper a i) = none := by
      rw [Stats.set, if_neg hk.1, if_pos (by rw [hnone]; rfl)]
    refine ⟨?_, by intro w' hw; rw [h1] at hw; cases hw⟩
    have := (not_congr hb).1 hk.1
    rw [not_or] at this
    exact iff_of_true h1 ⟨this.1, this.2, hnone⟩

/-- C212. The attributes of all statistics are the same on a wrapper and on what it wraps: when the wrapper is made, and after
every assignment on it. -/
theorem C212_sync (own : Dict (Val F)) (i : Stats F)
    (hi : i.attr? "train_time" ≠ none ∧ i.attr? "smoothed_loss" ≠ none) :
    (∀ k ∈ ["train_time", "smoothed_loss"], (wrap own i).attr? k = i.attr? k) ∧
    ∀ (a : Dict (Val F)) (i : Stats F) (k : String) (v : Val F) (w' : Stats F),
      Stats.Apart (.wrapper a i) → Stats.set k v (.wrapper a i) = some w' →
      (∀ j ∈ ["train_time", "smoothed_loss"], Stats.attr? j (.wrapper a i) = i.attr? j) →
      ∃ a' i', w' = .wrapper a' i' ∧ ∀ j ∈ ["train_time", "smoothed_loss"], w'.attr? j = i'.attr? j := by
  refine ⟨?_, ?_⟩
  · obtain ⟨v, hv⟩ := Option.ne_none_iff_exists'.1 hi.1
    obtain ⟨w, hw⟩ := Option.ne_none_iff_exists'.1 hi.2
    intro k hk
    rw [wrap, Stats.attr?]
    simp only [nonLoss, List.foldl_cons, List.foldl_nil, hv, hw, get?_put]
    simp only [List.mem_cons, List.not_mem_nil, or_false] at hk
    rcases hk with rfl | rfl
    · simp [hv]
    · simp [hw]
  · intro a i k v w' ha hs hsync
    obtain ⟨h1, h2, a', i', rfl, h3, h4, h5⟩ := (C212_set_partial a i ha k v).2 w' hs
    refine ⟨a', i', rfl, fun j hj => ?_⟩
    by_cases hjk : j = k
    · subst hjk
      simp only [List.mem_cons, List.not_mem_nil, or_false] at hj
      rw [h1, h4 (by tauto)]
    · rw [h2 j hjk, h3 j hjk, hsync j hj]

/-- C212 fails for a policy wrapped with curiosity twice: setting the loss of the outer module changes the inner one. -/
theorem C212_violated (l f v l' f' v' x : Num F) (i : Stats F) :
    ∃ w', (icmStats l f v (icmStats l' f' v' i)).set "icm_loss" (.loss x) = some w' ∧
      w'.attr? "icm_loss" = some (.loss l) := by
  have hw : ∀ (l f v : Num F) (i : Stats F), ∃ a, icmStats l f v i = .wrapper a i ∧ get? "icm_loss" a = some (.loss l) := by
    intro l f v i
    refine ⟨_, rfl, ?_⟩
    simp only [nonLoss, List.foldl_cons, List.foldl_nil]
    cases i.attr? "train_time" <;> cases i.attr? "smoothed_loss" <;>
      · dsimp only
        try simp only [get?_put]
        simp [get?]
  obtain ⟨a', e', g'⟩ := hw l' f' v' i
  obtain ⟨a, e, g⟩ := hw l f v (icmStats l' f' v' i)
  have hset : ∃ i', (icmStats l' f' v' i).set "icm_loss" (.loss x) = some i' := by
    have : ∀ (s : Stats F) (k : String) (y : Val F), (s.attr? k).isSome → ∃ s', s.set k y = some s' := by
      intro s k y
      match s with
      | .plain a => exact fun _ => ⟨_, rfl⟩
      | .agents a p => exact fun _ => ⟨_, rfl⟩
      | .wrapper a j =>
        intro h
        have hrec : ∀ (s : Stats F), (k ∈ nonLoss ∨ (s.attr? k).isSome) → ∃ s', s.set k y = some s' := by
          intro s
          induction s using Stats.rec (motive_2 := fun _ => True) with
          | plain a => exact fun _ => ⟨_, rfl⟩
          | agents a p => exact fun _ => ⟨_, rfl⟩
          | wrapper a j ih =>
            intro h
            rw [Stats.set]
            split_ifs with h1 h2 h3
            · obtain ⟨s', hs'⟩ := ih (Or.inl h1); exact ⟨_, by rw [hs']; rfl⟩
            · have := h.resolve_left h1
              rw [Option.isNone_iff_eq_none] at h2
              rw [h2] at this; cases this
            · obtain ⟨s', hs'⟩ := ih (Or.inr h3); exact ⟨_, by rw [hs']; rfl⟩
            · exact ⟨_, rfl⟩
          | nil => trivial
          | cons => trivial
        exact hrec _ (Or.inr h)
    exact this _ _ _ (by rw [e', Stats.attr?, g']; rfl)
  obtain ⟨i', hi'⟩ := hset
  refine ⟨.wrapper a i', ?_, ?_⟩
  · rw [e, Stats.set, if_neg (by decide), if_neg (by rw [Stats.attr?, g]; simp), if_pos (by rw [e', Stats.attr?, g']; rfl), hi']
    rfl
  · rw [Stats.attr?, g]; rfl

/-- A curiosity module around a policy: its own attribute, one of the policy, and one of all statistics are set. -/
example : let w : Stats ℚ := icmStats (.fin 1) (.fin 2) (.fin 3) (.plain [("loss", .loss (.fin 4)), ("train_time", .time 9),
      ("smoothed_loss", .table [])])
    w.Apart ∧
    (w.set "icm_loss" (.loss (.fin 5))).map (fun w => (w.attr? "icm_loss", w.attr? "loss"))
      = some (some (.loss (.fin 5)), some (.loss (.fin 4))) ∧
    (w.set "loss" (.loss (.fin 5))).map (fun w => w.lossDict)
      = some [("loss", .fin 5), ("icm_loss", .fin 1), ("icm_forward_loss", .fin 2), ("icm_inverse_loss", .fin 3)] ∧
    (w.set "other" (.loss (.fin 5))).isNone := by
  refine ⟨⟨trivial, ?_⟩, ?_, ?_, ?_⟩ <;> decide +kernel

/-- C213, for a trainer that is not reset: the smoothed losses that are stored in the statistics of an update have the names of
its losses, and each is the mean of the last 100 finite values of that loss, this one included (and 0 if there are none), in all
updates so far. -/
theorem C213_smoothed_partial [Field F] [LinearOrder F] [IsStrictOrderedRing F] (before : List (Stats F)) (s : Stats F)
    (hs : s.Dicts) (hx : ∀ u ∈ before ++ [s], ∀ q ∈ u.lossDict, q.2 ≠ .nan false) :
    ∃ m s' logged t, report (averages [] (before.map .update)) s = some (m, s', logged) ∧
      s'.attr? "smoothed_loss" = some (.table t) ∧ t.map Prod.fst = s.lossDict.map Prod.fst ∧
      ∀ q ∈ t, let values := finite (history q.1 ((before ++ [s]).map Stats.lossDict))
        q.2 = .fin (if values = [] then 0 else meanOf (lastN 100 values)) := by
  have h0 : Tracks ([] : Averages F) fun _ => [] := fun k => rfl
  have ht := averages_tracks before [] _ h0
  simp only [List.nil_append] at ht
  have htab := smooth_table s.lossDict (lossDict_nodup s hs) _ _ ht
  obtain ⟨s', h1, h2, -⟩ := set_base s "smoothed_loss" (by decide)
    (.table (smooth (averages [] (before.map .update)) s.lossDict).2)
  refine ⟨_, s', _, _, by rw [report, h1]; rfl, h2, ?_, ?_⟩
  · rw [htab, List.map_map]; rfl
  · rw [htab]
    intro q hq
    obtain ⟨p, hp, rfl⟩ := List.mem_map.1 hq
    have hh : history p.1 ((before ++ [s]).map Stats.lossDict) = history p.1 (before.map Stats.lossDict) ++ [p.2] := by
      unfold history
      rw [List.map_append, List.flatMap_append]
      congr 1
      simp only [List.map_cons, List.map_nil, List.flatMap_cons, List.flatMap_nil, List.append_nil]
      exact filter_key _ (lossDict_nodup s hs) p hp
    simp only
    rw [hh, ← avg_get]
    intro x hx'
    rw [← hh] at hx'
    unfold history at hx'
    obtain ⟨d, hd, hxd⟩ := List.mem_flatMap.1 hx'
    obtain ⟨u, hu, rfl⟩ := List.mem_map.1 hd
    obtain ⟨r, hr, rfl⟩ := List.mem_map.1 hxd
    exact hx u hu r (List.mem_filter.1 hr).1

/-- C213 fails after `reset`, which is to start from zero: the averages contain the losses of before. -/
theorem C213_reset_violated : ∃ (before s : Stats ℚ), before.Dicts ∧ s.Dicts ∧ s.lossDict = [("loss", .fin 1)] ∧
    (report (averages [] [.update before, .reset]) s).map (fun r => r.2.1.attr? "smoothed_loss")
      = some (some (.table [("loss", .fin 3)])) :=
  ⟨.plain [("loss", .loss (.fin 5))], .plain [("loss", .loss (.fin 1))], by simp [Stats.Dicts], by simp [Stats.Dicts],
    by decide +kernel, by decide +kernel⟩

/-- Two updates; the second has a loss that the first does not have. -/
example : (report (averages [] [.update (.plain [("loss", .loss (.fin (5 : ℚ)))])])
      (.plain [("loss", .loss (.fin 1)), ("ent", .loss (.fin 2)), ("smoothed_loss", .table [])])).map
      (fun r => r.2.1.attr? "smoothed_loss")
    = some (some (.table [("loss", .fin 3), ("ent", .fin 2)])) := by decide +kernel

/-- C214, for the statistics of a policy that are a dataclass: every loss is handed to the logger under its name, next to
all other fields with their values after the update of the smoothed losses. -/
theorem C214_logged_partial [Field F] (m : Averages F) (a : Dict (Val F)) (ha : (a.map Prod.fst).Nodup) :
    ∃ m' s' logged, report m (.plain a) = some (m', s', logged) ∧
      (∀ k x, (Stats.plain a).Has k x → ∃ v, (k, v) ∈ logged ∧ (v = .loss x ∨ v = .summary x)) ∧
      ∀ k v, (k, v) ∈ logged ↔ s'.attr? k = some v := by
  obtain ⟨s', h1, h2, h3, h4, -⟩ := set_base (.plain a) "smoothed_loss" (by decide)
    (.table (smooth m (Stats.plain a).lossDict).2)
  obtain rfl := h4 a rfl
  have hall : ∀ k v, (k, v) ∈ a → k ≠ "smoothed_loss" → (k, v) ∈ Stats.asdict (.plain (put "smoothed_loss"
      (.table (smooth m (Stats.plain a).lossDict).2) a)) := by
    intro k v hk hne
    rw [Stats.asdict, List.mem_filterMap]
    refine ⟨k, ?_, ?_⟩
    · rw [Stats.fields, mem_put_keys]
      exact Or.inr (List.mem_map_of_mem (f := Prod.fst) hk)
    · rw [h3 k hne, Stats.attr?, (get?_eq_some ha).2 hk]; rfl
  refine ⟨_, _, _, by rw [report, h1]; rfl, ?_, ?_⟩
  rotate_left
  · intro k v
    rw [Stats.asdict, List.mem_filterMap]
    constructor
    · rintro ⟨j, -, e⟩
      obtain ⟨w, hw, e⟩ := Option.map_eq_some_iff.1 e
      cases e
      exact hw
    · intro hv
      refine ⟨k, ?_, by rw [hv]; rfl⟩
      rw [Stats.fields]
      exact List.mem_map_of_mem (f := Prod.fst) (get?_mem hv)
  rintro k x ⟨-, hne, h | h⟩
  · exact ⟨_, hall _ _ h hne, Or.inl rfl⟩
  · exact ⟨_, hall _ _ h hne, Or.inr rfl⟩

/-- C214 fails for all statistics of wrappers and of several agents: only the training time and the smoothed losses are handed
to the logger. -/
theorem C214_violated [Field F] (m : Averages F) (s : Stats F) (hs : ∀ a, s ≠ .plain a) :
    ∃ m' s' logged, report m s = some (m', s', logged) ∧ ∀ q ∈ logged, q.1 = "train_time" ∨ q.1 = "smoothed_loss" := by
  obtain ⟨s', h1, -, -, -, h5⟩ := set_base s "smoothed_loss" (by decide) (.table (smooth m s.lossDict).2)
  refine ⟨_, s', _, by rw [report, h1]; rfl, ?_⟩
  intro q hq
  rw [Stats.asdict, h5 hs, List.mem_filterMap] at hq
  obtain ⟨k, hk, e⟩ := hq
  obtain ⟨v, -, rfl⟩ := Option.map_eq_some_iff.1 e
  simpa [nonLoss] using hk

example : (report [] (.plain [("loss", .loss (.fin (5 : ℚ))), ("train_time", .time 3), ("smoothed_loss", .table [])])).map
    (fun r => r.2.2) = some [("loss", .loss (.fin 5)), ("train_time", .time 3), ("smoothed_loss", .table [("loss", .fin 5)])] := by
  decide +kernel

/-- The losses of a curiosity module and of the policy are not logged. -/
example : (report [] (icmStats (.fin 1) (.fin 2) (.fin 3) (.plain [("loss", .loss (.fin (5 : ℚ))), ("train_time", .time 3),
    ("smoothed_loss", .table [])]))).map (fun r => r.2.2.map Prod.fst) = some ["train_time", "smoothed_loss"] := by
  decide +kernel

end Verif.LossStats
