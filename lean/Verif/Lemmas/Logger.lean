import Mathlib.Data.List.Chain
import Verif.Spec.Logger

/-! Lemmas about the loggers. -/

namespace Verif.Logger

variable {D V : Type}

/-! ### Intervals -/

theorem lastOf_append (s : Scope) (ws : List (Scope × Int × D)) (w : Scope × Int × D) :
    lastOf s (ws ++ [w]) = if w.1 = s then w.2.1 else lastOf s ws := by
  unfold lastOf
  rw [List.filter_append]
  by_cases h : w.1 = s
  · rw [if_pos h]; simp [h]
  · rw [if_neg h]; simp [h]

theorem stepsOf_append (s : Scope) (ws : List (Scope × Int × D)) (w : Scope × Int × D) :
    stepsOf s (ws ++ [w]) = stepsOf s ws ++ if w.1 = s then [w.2.1] else [] := by
  unfold stepsOf
  rw [List.filter_append]
  by_cases h : w.1 = s
  · rw [if_pos h]; simp [h]
  · rw [if_neg h]; simp [h]

/-- The steps of a scope end with its last step. -/
theorem lastOf_eq (s : Scope) (ws : List (Scope × Int × D)) : lastOf s ws = (stepsOf s ws).getLast?.getD (-1) := by
  unfold lastOf stepsOf
  rw [List.getLast?_map]

theorem Spaced.append {k : Int} {l : List Int} (h : Spaced k l) (x : Int) (hx : ∀ y, l.getLast? = some y → x - y ≥ k) :
    Spaced k (l ++ [x]) := by
  unfold Spaced at *
  rw [List.isChain_append]
  refine ⟨h, List.isChain_singleton _, ?_⟩
  intro a ha b hb
  simp only [List.head?_cons, Option.mem_def, Option.some.injEq] at hb
  subst hb
  exact hx a ha

theorem Base.logs_append {D' : Type} (prep : D' → D) (cs cs' : List (Scope × Int × D')) (b : Base D) :
    b.logs prep (cs ++ cs') = (b.logs prep cs).logs prep cs' := by
  induction cs generalizing b with
  | nil => rfl
  | cons c cs ih => exact ih _

theorem Base.log_interval {D' : Type} (prep : D' → D) (b : Base D) (s : Scope) (d : D') (x : Int) :
    (b.log prep s d x).interval = b.interval := by
  unfold Base.log; split <;> rfl

theorem Base.logs_interval {D' : Type} (prep : D' → D) (cs : List (Scope × Int × D')) (b : Base D) :
    (b.logs prep cs).interval = b.interval := by
  induction cs generalizing b with
  | nil => rfl
  | cons c cs ih => exact (ih _).trans (b.log_interval prep _ _ _)

/-- The last steps are those of the entries written. -/
def Base.Tracks (b : Base D) : Prop := ∀ s, b.last s = lastOf s b.written

theorem Base.new_tracks (iv : Scope → Int) : (Base.new iv : Base D).Tracks := fun _ => rfl

theorem Base.log_tracks {D' : Type} (prep : D' → D) (b : Base D) (h : b.Tracks) (s : Scope) (d : D') (x : Int) :
    (b.log prep s d x).Tracks := by
  unfold Base.log
  split
  · intro t
    show (if t = s then x else b.last t) = lastOf t (b.written ++ [(s, x, prep d)])
    rw [lastOf_append, h t]
    by_cases e : t = s
    · rw [if_pos e, if_pos e.symm]
    · rw [if_neg e, if_neg (fun q => e q.symm)]
  · exact h

theorem Base.logs_tracks {D' : Type} (prep : D' → D) (cs : List (Scope × Int × D')) (b : Base D) (h : b.Tracks) :
    (b.logs prep cs).Tracks := by
  induction cs generalizing b with
  | nil => exact h
  | cons c cs ih => exact ih _ (b.log_tracks prep h _ _ _)

/-- Entries stay spaced when the remembered last step is no earlier than the last entry. -/
theorem Base.log_spaced {D' : Type} (prep : D' → D) (b : Base D) (t : Scope) (pre : List Int)
    (h : Spaced (b.interval t) (pre ++ stepsOf t b.written))
    (hl : ∀ y, (pre ++ stepsOf t b.written).getLast? = some y → y ≤ b.last t) (s : Scope) (d : D') (x : Int) :
    Spaced ((b.log prep s d x).interval t) (pre ++ stepsOf t (b.log prep s d x).written) ∧
      ∀ y, (pre ++ stepsOf t (b.log prep s d x).written).getLast? = some y → y ≤ (b.log prep s d x).last t := by
  rw [b.log_interval]
  unfold Base.log
  split
  · rename_i hdue
    show Spaced (b.interval t) (pre ++ stepsOf t (b.written ++ [(s, x, prep d)])) ∧
      ∀ y, (pre ++ stepsOf t (b.written ++ [(s, x, prep d)])).getLast? = some y → y ≤ if t = s then x else b.last t
    rw [stepsOf_append]
    by_cases e : s = t
    · subst e
      rw [if_pos rfl, if_pos rfl, ← List.append_assoc]
      refine ⟨h.append x ?_, ?_⟩
      · intro y hy
        have := hl y hy
        omega
      · intro y hy
        simp only [List.getLast?_concat, Option.some.injEq] at hy
        omega
    · rw [if_neg e, if_neg (fun q => e q.symm), List.append_nil]
      exact ⟨h, hl⟩
  · exact ⟨h, hl⟩

theorem Base.logs_spaced {D' : Type} (prep : D' → D) (cs : List (Scope × Int × D')) (b : Base D) (t : Scope) (pre : List Int)
    (h : Spaced (b.interval t) (pre ++ stepsOf t b.written))
    (hl : ∀ y, (pre ++ stepsOf t b.written).getLast? = some y → y ≤ b.last t) :
    Spaced (b.interval t) (pre ++ stepsOf t (b.logs prep cs).written) := by
  induction cs generalizing b with
  | nil => exact h
  | cons c cs ih =>
    obtain ⟨h', hl'⟩ := b.log_spaced prep t pre h hl c.1 c.2.2 c.2.1
    have := ih _ h' hl'
    rwa [b.log_interval] at this

/-! ### Joined keys -/

/-- Keys joined with slashes. -/
def join : List Str → Str
  | [] => []
  | [k] => k
  | k :: k' :: p => k ++ '/' :: join (k' :: p)

theorem split_word (k : Str) (h : '/' ∉ k) : split k = [k] := by
  induction k with
  | nil => rfl
  | cons c k ih =>
    simp only [List.mem_cons, not_or] at h
    rw [split, if_neg (fun q => h.1 q.symm), ih h.2]

theorem split_append (k : Str) (h : '/' ∉ k) (s : Str) : split (k ++ '/' :: s) = k :: split s := by
  induction k with
  | nil => show split ('/' :: s) = _; rw [split, if_pos rfl]
  | cons c k ih =>
    simp only [List.mem_cons, not_or] at h
    show split (c :: (k ++ '/' :: s)) = _
    rw [split, if_neg (fun q => h.1 q.symm), ih h.2]

theorem split_join (p : List Str) (hp : p ≠ []) (h : ∀ k ∈ p, GoodKey k) : split (join p) = p := by
  induction p with
  | nil => exact absurd rfl hp
  | cons k p ih =>
    cases p with
    | nil => exact split_word k (h k (by simp)).2
    | cons k' p =>
      show split (k ++ '/' :: join (k' :: p)) = _
      rw [split_append k (h k (by simp)).2, ih (by simp) fun x hx => h x (List.mem_cons_of_mem _ hx)]

theorem join_inj {p q : List Str} (hp : p ≠ []) (hq : q ≠ []) (gp : ∀ k ∈ p, GoodKey k) (gq : ∀ k ∈ q, GoodKey k)
    (h : join p = join q) : p = q := by
  rw [← split_join p hp gp, ← split_join q hq gq, h]

theorem join_concat (p : List Str) (hp : p ≠ []) (k : Str) : join (p ++ [k]) = join p ++ '/' :: k := by
  induction p with
  | nil => exact absurd rfl hp
  | cons a p ih =>
    cases p with
    | nil => rfl
    | cons b p =>
      show a ++ '/' :: join ((b :: p) ++ [k]) = (a ++ '/' :: join (b :: p)) ++ '/' :: k
      rw [ih (by simp)]
      simp

theorem lstrip_good {k : Str} (h : GoodKey k) (s : Str) : lstrip (k ++ s) = k ++ s := by
  cases k with
  | nil => exact absurd rfl h.1
  | cons c k =>
    show lstrip (c :: (k ++ s)) = _
    rw [lstrip, if_neg]
    · rfl
    · rintro rfl
      exact h.2 (by simp)

theorem lstrip_join (p : List Str) (hp : ∀ k ∈ p, GoodKey k) (k : Str) (hk : GoodKey k) :
    lstrip (join p ++ '/' :: k) = join (p ++ [k]) := by
  cases p with
  | nil =>
    show lstrip ('/' :: k) = k
    rw [lstrip, if_pos rfl]
    have := lstrip_good hk []
    simpa using this
  | cons a p =>
    rw [join_concat _ (by simp)]
    cases p with
    | nil => exact lstrip_good (hp a (by simp)) _
    | cons b p =>
      show lstrip ((a ++ '/' :: join (b :: p)) ++ '/' :: k) = (a ++ '/' :: join (b :: p)) ++ '/' :: k
      rw [List.append_assoc]
      exact lstrip_good (hp a (by simp)) _

/-! ### Flattening -/

mutual
/-- The numbers in a nested dictionary with their paths, in order. -/
def Val.leaves : Val V → List (List Str × V)
  | .num v => [([], v)]
  | .dict d => d.leaves
  | _ => []
/-- The numbers in a nested dictionary with their paths, in order. -/
def Dict.leaves : Dict V → List (List Str × V)
  | .nil => []
  | .cons k v rest => (v.leaves.map fun pv => (k :: pv.1, pv.2)) ++ rest.leaves
end

/-- The head of a path of a dictionary is one of its keys. -/
theorem Dict.leaves_head (d : Dict V) : ∀ pv ∈ d.leaves, ∃ k p, pv.1 = k :: p ∧ k ∈ d.keys := by
  match d with
  | .nil => intro pv h; simp [Dict.leaves] at h
  | .cons k v rest =>
    intro pv h
    rw [Dict.leaves, List.mem_append] at h
    rcases h with h | h
    · obtain ⟨x, _, rfl⟩ := List.mem_map.1 h
      exact ⟨k, x.1, rfl, by simp [Dict.keys]⟩
    · obtain ⟨k', p, e, hk⟩ := Dict.leaves_head rest pv h
      exact ⟨k', p, e, by simp [Dict.keys, hk]⟩

mutual
theorem Val.leaves_good (v : Val V) (h : v.Good) : ∀ pv ∈ v.leaves, ∀ k ∈ pv.1, GoodKey k := by
  match v with
  | .num x => intro pv hp; simp [Val.leaves] at hp; subst hp; simp
  | .arr => intro pv hp; simp [Val.leaves] at hp
  | .other => intro pv hp; simp [Val.leaves] at hp
  | .dict d => exact Dict.leaves_good d (by simpa [Val.Good] using h)
theorem Dict.leaves_good (d : Dict V) (h : d.Good) : ∀ pv ∈ d.leaves, ∀ k ∈ pv.1, GoodKey k := by
  match d with
  | .nil => intro pv hp; simp [Dict.leaves] at hp
  | .cons k v rest =>
    rw [Dict.Good] at h
    intro pv hp
    rw [Dict.leaves, List.mem_append] at hp
    rcases hp with hp | hp
    · obtain ⟨x, hx, rfl⟩ := List.mem_map.1 hp
      intro a ha
      rcases List.mem_cons.1 ha with rfl | ha
      · exact h.1
      · exact Val.leaves_good v h.2.2.1 x hx a ha
    · exact Dict.leaves_good rest h.2.2.2 pv hp
end

mutual
theorem Val.leaves_nodup (v : Val V) (h : v.Good) : (v.leaves.map (·.1)).Nodup := by
  match v with
  | .num x => simp [Val.leaves]
  | .arr => simp [Val.leaves]
  | .other => simp [Val.leaves]
  | .dict d => exact Dict.leaves_nodup d (by simpa [Val.Good] using h)
theorem Dict.leaves_nodup (d : Dict V) (h : d.Good) : (d.leaves.map (·.1)).Nodup := by
  match d with
  | .nil => simp [Dict.leaves]
  | .cons k v rest =>
    rw [Dict.Good] at h
    rw [Dict.leaves, List.map_append, List.nodup_append]
    refine ⟨?_, Dict.leaves_nodup rest h.2.2.2, ?_⟩
    · rw [List.map_map]
      have : ((fun x : List Str × V => x.1) ∘ fun pv : List Str × V => (k :: pv.1, pv.2)) = (fun p : List Str => k :: p) ∘ (fun x => x.1) := rfl
      rw [this, ← List.map_map]
      exact (Val.leaves_nodup v h.2.2.1).map fun a b e => (List.cons.inj e).2
    · intro a ha b hb e
      subst e
      obtain ⟨x, hx, rfl⟩ := List.mem_map.1 ha
      obtain ⟨y, _, rfl⟩ := List.mem_map.1 hx
      obtain ⟨z, hz, e⟩ := List.mem_map.1 hb
      obtain ⟨k', p, e', hk⟩ := Dict.leaves_head rest z hz
      rw [e] at e'
      exact h.2.1 ((List.cons.inj e').1 ▸ hk)
end

/-- A key that does not occur is not found. -/
theorem Dict.at?_not_mem (d : Dict V) (k : Str) (p : List Str) (h : k ∉ d.keys) : d.at? (k :: p) = none := by
  match d with
  | .nil => simp [Dict.at?]
  | .cons k' v rest =>
    simp only [Dict.keys, List.mem_cons, not_or] at h
    rw [Dict.at?, if_neg (fun q => h.1 q.symm)]
    exact Dict.at?_not_mem rest k p h.2

mutual
theorem Val.at?_iff (v : Val V) (h : v.Good) (p : List Str) (x : V) : v.at? p = some x ↔ (p, x) ∈ v.leaves := by
  match v with
  | .num y =>
    cases p <;> simp [Val.at?, Val.leaves, eq_comm]
  | .arr => simp [Val.at?, Val.leaves]
  | .other => simp [Val.at?, Val.leaves]
  | .dict d =>
    rw [Val.at?, Val.leaves]
    exact Dict.at?_iff d (by simpa [Val.Good] using h) p x
theorem Dict.at?_iff (d : Dict V) (h : d.Good) (p : List Str) (x : V) : d.at? p = some x ↔ (p, x) ∈ d.leaves := by
  match d with
  | .nil => simp [Dict.at?, Dict.leaves]
  | .cons k v rest =>
    rw [Dict.Good] at h
    rw [Dict.leaves, List.mem_append]
    cases p with
    | nil =>
      constructor
      · intro q; simp [Dict.at?] at q
      · rintro (q | q)
        · obtain ⟨y, _, e⟩ := List.mem_map.1 q
          simp at e
        · obtain ⟨k', p, e, _⟩ := Dict.leaves_head rest _ q
          simp at e
    | cons k' p =>
      rw [Dict.at?]
      by_cases e : k = k'
      · subst e
        rw [if_pos rfl, Val.at?_iff v h.2.2.1 p x]
        constructor
        · intro q; exact Or.inl (List.mem_map.2 ⟨_, q, rfl⟩)
        · rintro (q | q)
          · obtain ⟨y, hy, e⟩ := List.mem_map.1 q
            obtain ⟨y1, y2⟩ := y
            simp only [Prod.mk.injEq, List.cons.injEq, true_and] at e
            rw [← e.1, ← e.2]; exact hy
          · obtain ⟨k', p', e, hk⟩ := Dict.leaves_head rest _ q
            exact absurd ((List.cons.inj e).1 ▸ hk) h.2.1
      · rw [if_neg e, Dict.at?_iff rest h.2.2.2 (k' :: p) x]
        constructor
        · exact Or.inr
        · rintro (q | q)
          · obtain ⟨y, _, e'⟩ := List.mem_map.1 q
            simp only [Prod.mk.injEq, List.cons.injEq] at e'
            exact absurd e'.1.1 e
          · exact q
end

theorem assign_new {A B : Type} [DecidableEq A] (k : A) (v : B) (l : List (A × B)) (h : k ∉ l.map (·.1)) :
    assign k v l = l ++ [(k, v)] := by
  induction l with
  | nil => rfl
  | cons a l ih =>
    obtain ⟨a1, a2⟩ := a
    simp only [List.map_cons, List.mem_cons, not_or] at h
    rw [assign, if_neg (fun q => h.1 q.symm), ih h.2]
    rfl

/-- The entries of flattened leaves below a prefix. -/
def flat (pre : List Str) (l : List (List Str × V)) : List (Str × V) := l.map fun pv => (join (pre ++ pv.1), pv.2)

theorem flat_append (pre : List Str) (l l' : List (List Str × V)) : flat pre (l ++ l') = flat pre l ++ flat pre l' := by
  simp [flat]

theorem flat_cons_key (pre : List Str) (k : Str) (l : List (List Str × V)) :
    flat pre (l.map fun pv => (k :: pv.1, pv.2)) = flat (pre ++ [k]) l := by
  simp [flat]

mutual
theorem addValue_eq (k : Str) (hk : GoodKey k) (v : Val V) (h : v.Good) (pre : List Str) (hpre : ∀ k ∈ pre, GoodKey k)
    (res : List (Str × V)) (hd : ∀ pv ∈ v.leaves, join ((pre ++ [k]) ++ pv.1) ∉ res.map (·.1)) :
    addValue k (join pre) v res = res ++ flat (pre ++ [k]) v.leaves := by
  match v with
  | .arr => simp [addValue, Val.leaves, flat]
  | .other => simp [addValue, Val.leaves, flat]
  | .num x =>
    rw [addValue, Val.leaves, lstrip_join pre hpre k hk, assign_new]
    · simp [flat]
    · have := hd ([], x) (by simp [Val.leaves])
      simpa using this
  | .dict d =>
    rw [addValue, Val.leaves, lstrip_join pre hpre k hk]
    refine addDict_eq d (by simpa [Val.Good] using h) (pre ++ [k]) ?_ res ?_
    · intro a ha
      rcases List.mem_append.1 ha with ha | ha
      · exact hpre a ha
      · rw [List.mem_singleton.1 ha]; exact hk
    · intro pv hpv
      exact hd pv (by rw [Val.leaves]; exact hpv)
theorem addDict_eq (d : Dict V) (h : d.Good) (pre : List Str) (hpre : ∀ k ∈ pre, GoodKey k)
    (res : List (Str × V)) (hd : ∀ pv ∈ d.leaves, join (pre ++ pv.1) ∉ res.map (·.1)) :
    addDict d (join pre) res = res ++ flat pre d.leaves := by
  match d with
  | .nil => rw [addDict, Dict.leaves]; simp [flat]
  | .cons k v rest =>
    have hg := h
    rw [Dict.Good] at h
    have hnd := Dict.leaves_nodup _ hg
    have hgood := Dict.leaves_good _ hg
    rw [addDict, addValue_eq k h.1 v h.2.2.1 pre hpre res ?_, addDict_eq rest h.2.2.2 pre hpre, Dict.leaves, flat_append, flat_cons_key,
      List.append_assoc]
    · intro pv hpv
      rw [List.map_append, List.mem_append, not_or]
      refine ⟨hd pv (by rw [Dict.leaves]; exact List.mem_append_right _ hpv), ?_⟩
      intro hm
      obtain ⟨a, ha, e⟩ := List.mem_map.1 hm
      obtain ⟨y, hy, rfl⟩ := List.mem_map.1 ha
      obtain ⟨k', p, e', hk'⟩ := Dict.leaves_head rest pv hpv
      have gp : ∀ x ∈ pv.1, GoodKey x := Dict.leaves_good rest h.2.2.2 pv hpv
      have gy : ∀ x ∈ y.1, GoodKey x := Val.leaves_good v h.2.2.1 y hy
      have : (pre ++ [k]) ++ y.1 = pre ++ pv.1 := by
        refine join_inj (by simp) (by simp [e']) ?_ ?_ e
        · intro x hx
          simp only [List.mem_append, List.mem_singleton] at hx
          rcases hx with (hx | rfl) | hx
          · exact hpre x hx
          · exact h.1
          · exact gy x hx
        · intro x hx
          rcases List.mem_append.1 hx with hx | hx
          · exact hpre x hx
          · exact gp x hx
      rw [List.append_assoc] at this
      have := List.append_cancel_left this
      rw [e'] at this
      exact h.2.1 ((List.cons.inj this).1 ▸ hk')
    · intro pv hpv
      have := hd (k :: pv.1, pv.2) (by
        rw [Dict.leaves]
        exact List.mem_append_left _ (List.mem_map.2 ⟨pv, hpv, rfl⟩))
      simpa using this
end

/-- Flattening a dictionary with good keys keeps every number under its joined path, once. -/
theorem prepare_eq (d : Dict V) (h : d.Good) : prepare d = d.leaves.map fun pv => (join pv.1, pv.2) := by
  have := addDict_eq d h [] (by simp) [] (by simp)
  simpa [prepare, flat, join] using this

/-! ### Restoring -/

theorem find_assign {A B : Type} [DecidableEq A] (k k' : A) (v : B) (l : List (A × B)) :
    find k' (assign k v l) = if k = k' then some v else find k' l := by
  induction l with
  | nil => rfl
  | cons a l ih =>
    obtain ⟨a1, a2⟩ := a
    rw [assign]
    by_cases h : a1 = k
    · rw [if_pos h, find, find, h]
      by_cases e : k = k'
      · rw [if_pos e]
        simp [e]
      · rw [if_neg e, if_neg e, if_neg e]
    · rw [if_neg h, find, find, ih]
      by_cases e : k = k'
      · subst e
        rw [if_neg h, if_pos rfl, if_pos rfl]
      · rw [if_neg e, if_neg e]

/-- Adding a value at a path that neither extends nor is extended by the path of another array. -/
theorem addPath_ok (vs : List V) (p : List Str) (hp : p ≠ []) (d : List (Str × Tree V))
    (h1 : ∀ q, (treeAt d q).isSome → q <+: p → q = p) (h2 : ∀ q, (treeAt d q).isSome → p <+: q → q = p) :
    ∃ d', addPath vs p d = some d' ∧ ∀ q, treeAt d' q = if q = p then some vs else treeAt d q := by
  induction p generalizing d with
  | nil => exact absurd rfl hp
  | cons k p ih =>
    cases p with
    | nil =>
      refine ⟨_, rfl, ?_⟩
      intro q
      match q with
      | [] => simp [treeAt]
      | [a] =>
        rw [treeAt, find_assign]
        by_cases e : k = a
        · subst e; simp
        · rw [if_neg e, if_neg (by simpa using fun q => e q.symm), treeAt]
      | a :: b :: q =>
        rw [treeAt, find_assign, if_neg (show ¬ a :: b :: q = [k] by simp)]
        by_cases e : k = a
        · subst e
          rw [if_pos rfl]
          by_cases hs : (treeAt d (k :: b :: q)).isSome
          · have := h2 _ hs (by simp)
            simp at this
          · exact (Option.not_isSome_iff_eq_none.1 hs).symm
        · rw [if_neg e, treeAt]
    | cons k' p =>
      rw [addPath]
      have key : ∀ sub : List (Str × Tree V), (∀ q, q ≠ [] → treeAt sub q = treeAt d (k :: q)) →
          ∃ d', ((addPath vs (k' :: p) sub).map fun sub' => assign k (.node sub') d) = some d' ∧
            ∀ q, treeAt d' q = if q = k :: k' :: p then some vs else treeAt d q := by
        intro sub hsub
        have hne : ∀ q, (treeAt sub q).isSome → q ≠ [] := by
          rintro q hq rfl
          simp [treeAt] at hq
        obtain ⟨s', hs', hs⟩ := ih (by simp) sub
          (by
            intro q hq hpre
            have := h1 (k :: q) (by rw [← hsub q (hne q hq)]; exact hq) (by simpa using hpre)
            exact (List.cons.inj this).2)
          (by
            intro q hq hpre
            have := h2 (k :: q) (by rw [← hsub q (hne q hq)]; exact hq) (by simpa using hpre)
            exact (List.cons.inj this).2)
        refine ⟨_, by rw [hs']; rfl, ?_⟩
        intro q
        match q with
        | [] => simp [treeAt]
        | [a] =>
          rw [treeAt, find_assign, if_neg (show ¬ [a] = k :: k' :: p by simp)]
          by_cases e : k = a
          · subst e
            rw [if_pos rfl]
            by_cases hq : (treeAt d [k]).isSome
            · have := h1 _ hq (by simp)
              simp at this
            · simpa using (Option.not_isSome_iff_eq_none.1 hq).symm
          · rw [if_neg e, treeAt]
        | a :: b :: q =>
          rw [treeAt, find_assign]
          by_cases e : k = a
          · subst e
            rw [if_pos rfl]
            show treeAt s' (b :: q) = _
            rw [hs, hsub _ (by simp)]
            simp
          · rw [if_neg e, if_neg (by simpa using fun q => absurd q.symm e), treeAt]
      cases hf : find k d with
      | none =>
        refine key [] ?_
        intro q hq
        match q with
        | [] => exact absurd rfl hq
        | [a] => rw [treeAt, treeAt, hf]; rfl
        | a :: b :: q => rw [treeAt, treeAt, hf]; rfl
      | some t =>
        cases t with
        | node sub =>
          refine key sub ?_
          intro q hq
          match q with
          | [] => exact absurd rfl hq
          | a :: q => rw [treeAt.eq_def d]; simp only [hf]
        | leaf ws =>
          exfalso
          have := h1 [k] (by rw [treeAt, hf]; rfl) (by simp)
          simp at this

/-- Adding the values of different tags whose paths are not prefixes of each other. -/
theorem addTags_ok (file : List (Event V)) (ps : List (List Str)) (hn : ps.Nodup) (hne : ∀ p ∈ ps, p ≠ [])
    (hg : ∀ p ∈ ps, ∀ k ∈ p, GoodKey k) (d : List (Str × Tree V))
    (hpp : ∀ p ∈ ps, ∀ q ∈ ps, p <+: q → p = q)
    (h1 : ∀ p ∈ ps, ∀ q, (treeAt d q).isSome → ¬ q <+: p ∧ ¬ p <+: q) :
    ∃ d', addTags file (ps.map join) d = some d' ∧
      ∀ q, treeAt d' q = if q ∈ ps then some (valuesOf file (join q)) else treeAt d q := by
  induction ps generalizing d with
  | nil => exact ⟨d, rfl, fun q => by simp⟩
  | cons p ps ih =>
    obtain ⟨d1, e1, hd1⟩ := addPath_ok (valuesOf file (join p)) p (hne p (by simp)) d
      (fun q hq hpre => absurd hpre (h1 p (by simp) q hq).1) (fun q hq hpre => absurd hpre (h1 p (by simp) q hq).2)
    rw [List.nodup_cons] at hn
    obtain ⟨d', e', hd'⟩ := ih hn.2 (fun q hq => hne q (by simp [hq])) (fun q hq => hg q (by simp [hq])) d1
      (fun a ha b hb => hpp a (by simp [ha]) b (by simp [hb]))
      (by
        intro a ha q hq
        rw [hd1] at hq
        by_cases e : q = p
        · subst e
          refine ⟨fun hpre => ?_, fun hpre => ?_⟩
          · exact hn.1 (hpp q (by simp) a (by simp [ha]) hpre ▸ ha)
          · exact hn.1 (hpp a (by simp [ha]) q (by simp) hpre ▸ ha)
        · rw [if_neg e] at hq
          exact h1 a (by simp [ha]) q hq)
    refine ⟨d', ?_, ?_⟩
    · rw [List.map_cons, addTags, split_join p (hne p (by simp)) (hg p (by simp)), e1]
      exact e'
    · intro q
      rw [hd', hd1]
      by_cases e : q = p
      · subst e
        rw [if_neg hn.1, if_pos rfl, if_pos (by simp)]
      · rw [if_neg e]
        simp [e]

/-- What a call adds to the event files, by path. -/
def Write.entries [IntCast V] (w : Write V) : List (List Str × V) :=
  ([w.scope, w.name], (w.step : V)) :: w.data.leaves.map fun pv => (w.scope :: pv.1, pv.2)

theorem write_eq [IntCast V] (w : Write V) (hs : GoodKey w.scope) (hn : GoodKey w.name) (hd : w.data.Good) (file : List (Event V)) :
    write (w.scope ++ '/' :: w.name) w.step (prepare w.data) file =
      some (file ++ w.entries.map fun pv => ⟨join pv.1, w.step, pv.2⟩) := by
  unfold write
  rw [split_append _ hs.2, split_word _ hn.2]
  simp only [Write.entries, List.map_cons, Option.some.injEq, List.append_cancel_left_eq, List.map_map]
  rw [prepare_eq w.data hd, List.map_map]
  refine congrArg₂ _ rfl (List.map_congr_left ?_)
  intro pv hpv
  obtain ⟨k, p, e, _⟩ := Dict.leaves_head w.data pv hpv
  simp only [Function.comp_apply]
  rw [e]
  rfl

theorem Write.entries_at? [IntCast V] (w : Write V) (h : w.Good) (p : List Str) (x : V) : w.at? p = some x ↔ (p, x) ∈ w.entries := by
  unfold Write.at? Write.entries
  rw [List.mem_cons]
  by_cases e : p = [w.scope, w.name]
  · rw [if_pos e]
    constructor
    · intro q
      left
      rw [e, Option.some.inj q]
    · rintro (q | q)
      · rw [(Prod.mk.inj q).2]
      · obtain ⟨y, hy, e'⟩ := List.mem_map.1 q
        obtain ⟨y1, y2⟩ := y
        rw [e] at e'
        simp only [Prod.mk.injEq, List.cons.injEq, true_and] at e'
        rw [e'.1] at hy
        have := (Dict.at?_iff w.data h.2.2.1 _ _).2 hy
        rw [h.2.2.2] at this
        simp at this
  · rw [if_neg e]
    cases p with
    | nil => simp
    | cons s q =>
      by_cases hs : s = w.scope
      · subst hs
        simp only [if_true]
        rw [Dict.at?_iff w.data h.2.2.1]
        constructor
        · intro hm
          exact Or.inr (List.mem_map.2 ⟨_, hm, rfl⟩)
        · rintro (hm | hm)
          · exact absurd (Prod.mk.inj hm).1 e
          · obtain ⟨y, hy, e'⟩ := List.mem_map.1 hm
            obtain ⟨y1, y2⟩ := y
            simp only [Prod.mk.injEq, List.cons.injEq, true_and] at e'
            rw [← e'.1, ← e'.2]; exact hy
      · simp only [if_neg hs]
        constructor
        · intro q; simp at q
        · rintro (hm | hm)
          · exact absurd (Prod.mk.inj hm).1 e
          · obtain ⟨y, hy, e'⟩ := List.mem_map.1 hm
            simp only [Prod.mk.injEq, List.cons.injEq] at e'
            exact absurd e'.1.1.symm hs

theorem Write.entries_good [IntCast V] (w : Write V) (h : w.Good) : ∀ pv ∈ w.entries, pv.1 ≠ [] ∧ ∀ k ∈ pv.1, GoodKey k := by
  intro pv hpv
  rcases List.mem_cons.1 hpv with rfl | hpv
  · refine ⟨by simp, ?_⟩
    intro k hk
    simp only [List.mem_cons, List.not_mem_nil, or_false] at hk
    rcases hk with rfl | rfl
    · exact h.1
    · exact h.2.1
  · obtain ⟨y, hy, rfl⟩ := List.mem_map.1 hpv
    refine ⟨by simp, ?_⟩
    intro k hk
    rcases List.mem_cons.1 hk with rfl | hk
    · exact h.1
    · exact Dict.leaves_good w.data h.2.2.1 y hy k hk

theorem Write.entries_nodup [IntCast V] (w : Write V) (h : w.Good) : (w.entries.map (·.1)).Nodup := by
  unfold Write.entries
  rw [List.map_cons, List.nodup_cons]
  constructor
  · intro hm
    obtain ⟨y, hy, e⟩ := List.mem_map.1 hm
    obtain ⟨z, hz, rfl⟩ := List.mem_map.1 hy
    simp only [List.cons.injEq, true_and] at e
    obtain ⟨z1, z2⟩ := z
    simp only at e
    rw [e] at hz
    have := (Dict.at?_iff w.data h.2.2.1 _ _).2 hz
    rw [h.2.2.2] at this
    simp at this
  · rw [List.map_map]
    have : ((fun x : List Str × V => x.1) ∘ fun pv : List Str × V => (w.scope :: pv.1, pv.2)) =
        (fun p : List Str => w.scope :: p) ∘ (fun x => x.1) := rfl
    rw [this, ← List.map_map]
    exact (Dict.leaves_nodup w.data h.2.2.1).map fun a b e => (List.cons.inj e).2

theorem fileOf_eq [IntCast V] (ws : List (Write V)) (h : ∀ w ∈ ws, w.Good) :
    fileOf ws = some (ws.flatMap fun w => w.entries.map fun pv => ⟨join pv.1, w.step, pv.2⟩) := by
  have gen : ∀ (ws : List (Write V)) (f : List (Event V)), (∀ w ∈ ws, w.Good) →
      ws.foldlM (fun f w => write (w.scope ++ '/' :: w.name) w.step (prepare w.data) f) f =
        some (f ++ ws.flatMap fun w => w.entries.map fun pv => ⟨join pv.1, w.step, pv.2⟩) := by
    intro ws
    induction ws with
    | nil => intro f _; simp
    | cons w ws ih =>
      intro f h
      have hw := h w (by simp)
      rw [List.foldlM_cons, write_eq w hw.1 hw.2.1 hw.2.2.1]
      simp only [Option.bind_eq_bind, Option.bind_some]
      rw [ih _ fun x hx => h x (by simp [hx])]
      simp
  have := gen ws [] h
  simpa [fileOf] using this

/-- The values of a path in a list with at most one entry per path. -/
theorem filter_entries (l : List (List Str × V)) (hn : (l.map (·.1)).Nodup) (hg : ∀ pv ∈ l, pv.1 ≠ [] ∧ ∀ k ∈ pv.1, GoodKey k)
    (step : Int) (p : List Str) (hp : p ≠ []) (hpg : ∀ k ∈ p, GoodKey k) (o : Option V) (ho : ∀ x, o = some x ↔ (p, x) ∈ l) :
    valuesOf (l.map fun pv => (⟨join pv.1, step, pv.2⟩ : Event V)) (join p) = o.toList := by
  induction l generalizing o with
  | nil =>
    cases o with
    | none => rfl
    | some x => exact absurd ((ho x).1 rfl) (by simp)
  | cons a l ih =>
    obtain ⟨a1, a2⟩ := a
    rw [List.map_cons, List.nodup_cons] at hn
    unfold valuesOf at ih ⊢
    rw [List.map_cons, List.filter_cons]
    by_cases e : a1 = p
    · subst e
      have ho' : o = some a2 := (ho a2).2 (by simp)
      subst ho'
      have := ih hn.2 (fun x hx => hg x (by simp [hx])) none (by
        intro x
        constructor
        · intro q; simp at q
        · intro q; exact absurd (List.mem_map.2 ⟨_, q, rfl⟩) hn.1)
      simpa using this
    · have hj : ¬ join a1 = join p := fun q => e (join_inj (hg (a1, a2) (by simp)).1 hp (hg (a1, a2) (by simp)).2 hpg q)
      rw [if_neg (by simpa using hj)]
      refine ih hn.2 (fun x hx => hg x (by simp [hx])) o ?_
      intro x
      rw [ho x, List.mem_cons]
      constructor
      · rintro (q | q)
        · exact absurd (Prod.mk.inj q).1.symm e
        · exact q
      · exact Or.inr

theorem valuesOf_fileOf [IntCast V] (ws : List (Write V)) (h : ∀ w ∈ ws, w.Good) (p : List Str) (hp : p ≠ []) (hpg : ∀ k ∈ p, GoodKey k) :
    valuesOf (ws.flatMap fun w => w.entries.map fun pv => (⟨join pv.1, w.step, pv.2⟩ : Event V)) (join p) =
      ws.filterMap fun w => w.at? p := by
  induction ws with
  | nil => rfl
  | cons w ws ih =>
    have hw := h w (by simp)
    have := filter_entries w.entries (w.entries_nodup hw) (w.entries_good hw) w.step p hp hpg (w.at? p) (w.entries_at? hw p)
    unfold valuesOf at ih this ⊢
    rw [List.flatMap_cons, List.filter_append, List.map_append, ih fun x hx => h x (by simp [hx]), this, List.filterMap_cons]
    cases w.at? p <;> rfl

/-- Tags are those of the events, each once. -/
theorem mem_tags (file : List (Event V)) (t : Str) : t ∈ tags file ↔ ∃ e ∈ file, e.tag = t := by
  simp [tags]

theorem tags_nodup (file : List (Event V)) : (tags file).Nodup := by
  unfold tags
  rw [List.nodup_reverse]
  exact List.nodup_dedup _

/-! ### Checkpoints -/

section
variable [IntCast V]

/-- The files of a logger extended by events none of which belongs to a checkpoint. -/
def NoSave (es : List (Event V)) : Prop := ∀ e ∈ es, ∀ t, e.tag ≠ wSave ++ '/' :: t

theorem lastStep_append_noSave (f es : List (Event V)) (h : NoSave es) (t : Str) :
    lastStep (f ++ es) (wSave ++ '/' :: t) = lastStep f (wSave ++ '/' :: t) := by
  unfold lastStep
  rw [List.filter_append]
  have : es.filter (fun e => decide (e.tag = wSave ++ '/' :: t)) = [] := by
    rw [List.filter_eq_nil_iff]
    intro e he
    simpa using h e he t
  rw [this, List.append_nil]

theorem Tb.log_eq (l : Tb V) (s : Scope) (d : Dict V) (x : Int) :
    ∃ l' es, l.log s d x = some l' ∧ l'.file = l.file ++ es ∧ NoSave es ∧ l'.saved = l.saved ∧ l'.lastSave = l.lastSave ∧
      l'.saveInterval = l.saveInterval ∧ l'.writeFlush = l.writeFlush ∧ l'.base = l.base.log prepare s d x := by
  unfold Tb.log
  by_cases h : x - l.base.last s ≥ l.base.interval s
  · rw [if_pos h]
    have hw : ∃ (w n : Str), split (stepType s) = [w, n] ∧ (∀ u t, w ++ '/' :: u ≠ wSave ++ '/' :: t) ∧
        (∀ t, stepType s ≠ wSave ++ '/' :: t) := by
      cases s
      · exact ⟨wTrain, wEnvStep, by decide, by simp [wTrain, wSave], by simp [stepType, wTrain, wSave]⟩
      · exact ⟨wTest, wEnvStep, by decide, by simp [wTest, wSave], by simp [stepType, wTest, wSave]⟩
      · exact ⟨wUpdate, wGradientStep, by decide, by simp [wUpdate, wSave], by simp [stepType, wUpdate, wSave]⟩
      · exact ⟨wInfo, wEpoch, by decide, by simp [wInfo, wSave], by simp [stepType, wInfo, wSave]⟩
    obtain ⟨w, n, hsp, h1, h2⟩ := hw
    have hwr : Logger.write (stepType s) x (prepare d) l.file = some (l.file ++
        ⟨stepType s, x, (x : V)⟩ :: (prepare d).map fun kv => ⟨w ++ '/' :: kv.1, x, kv.2⟩) := by
      unfold Logger.write
      rw [hsp]
    unfold Tb.write
    rw [hwr]
    refine ⟨_, _, rfl, rfl, ?_, rfl, rfl, rfl, rfl, rfl⟩
    intro e he t
    rcases List.mem_cons.1 he with rfl | he
    · exact h2 t
    · obtain ⟨kv, _, rfl⟩ := List.mem_map.1 he
      exact h1 _ _
  · rw [if_neg h]
    refine ⟨l, [], rfl, by simp, by intro e he; simp at he, rfl, rfl, rfl, rfl, ?_⟩
    unfold Base.log
    rw [if_neg h]

theorem Tb.save_eq (l : Tb V) (e s g : Int) (fn : Bool) :
    ∃ l', l.save e s g fn = some l' ∧ l'.base = l.base ∧ l'.saveInterval = l.saveInterval ∧ l'.writeFlush = l.writeFlush ∧
      if fn = true ∧ e - l.lastSave ≥ l.saveInterval then
        l'.saved = l.saved ++ [(e, s, g)] ∧ l'.lastSave = e ∧
          lastStep l'.file (wSave ++ '/' :: wEpoch) = some e ∧ lastStep l'.file (wSave ++ '/' :: wEnvStep) = some s ∧
          lastStep l'.file (wSave ++ '/' :: wGradientStep) = some g
      else l' = l := by
  unfold Tb.save
  by_cases h : fn = true ∧ e - l.lastSave ≥ l.saveInterval
  · simp only [if_pos h]
    refine ⟨_, rfl, rfl, rfl, rfl, rfl, rfl, ?_, ?_, ?_⟩ <;> simp [lastStep, List.filter_append, wSave, wEpoch, wEnvStep, wGradientStep]
  · simp only [if_neg h]
    exact ⟨l, rfl, rfl, rfl, rfl, rfl⟩

/-- Restoring depends on three entries only. -/
theorem Tb.restore_eq (l : Tb V) : l.restore.2 =
    (match lastStep l.file (wSave ++ '/' :: wEpoch), lastStep l.file (wSave ++ '/' :: wGradientStep) with
      | some e, some _ => e
      | _, _ => 0,
     (lastStep l.file (wSave ++ '/' :: wEnvStep)).getD 0,
     match lastStep l.file (wSave ++ '/' :: wEpoch), lastStep l.file (wSave ++ '/' :: wGradientStep) with
      | some _, some g => g
      | _, _ => 0) := by
  unfold Tb.restore Tb.restoreEpoch
  cases h1 : lastStep l.file (wSave ++ '/' :: wEpoch) <;> cases h2 : lastStep l.file (wSave ++ '/' :: wEnvStep) <;>
    cases h3 : lastStep l.file (wSave ++ '/' :: wGradientStep) <;> simp [h3]

/-- One call: either nothing is saved and restoring gives what it gave before, or a checkpoint is saved and restored. -/
theorem Tb.call_restore (l : Tb V) (c : Call V) :
    ∃ l' new, l.call c = some l' ∧ l'.saved = l.saved ++ new ∧ l'.restore.2 = new.getLast?.getD l.restore.2 := by
  cases c with
  | log s d x =>
    obtain ⟨l', es, e, hf, hns, hsv, _⟩ := l.log_eq s d x
    refine ⟨l', [], e, by simp [hsv], ?_⟩
    simp only [List.getLast?_nil, Option.getD_none]
    have r1 := lastStep_append_noSave l.file es hns wEpoch
    have r2 := lastStep_append_noSave l.file es hns wEnvStep
    have r3 := lastStep_append_noSave l.file es hns wGradientStep
    rw [← hf] at r1 r2 r3
    rw [Tb.restore_eq, Tb.restore_eq]
    rw [r1, r2, r3]
  | save e s g fn =>
    obtain ⟨l', el, _, _, _, h⟩ := l.save_eq e s g fn
    by_cases hc : fn = true ∧ e - l.lastSave ≥ l.saveInterval
    · rw [if_pos hc] at h
      refine ⟨l', [(e, s, g)], el, h.1, ?_⟩
      rw [Tb.restore_eq, h.2.2.1, h.2.2.2.1, h.2.2.2.2]
      rfl
    · rw [if_neg hc] at h
      exact ⟨l', [], el, by simp [h], by simp [h]⟩

theorem Tb.calls_restore (cs : List (Call V)) (l : Tb V) :
    ∃ l' new, l.calls cs = some l' ∧ l'.saved = l.saved ++ new ∧ l'.restore.2 = new.getLast?.getD l.restore.2 := by
  induction cs generalizing l with
  | nil => exact ⟨l, [], rfl, by simp, by simp⟩
  | cons c cs ih =>
    obtain ⟨l1, n1, e1, s1, r1⟩ := l.call_restore c
    obtain ⟨l2, n2, e2, s2, r2⟩ := ih l1
    refine ⟨l2, n1 ++ n2, by rw [Tb.calls, e1]; exact e2, by rw [s2, s1, List.append_assoc], ?_⟩
    rw [r2, r1, List.getLast?_append]
    cases n2.getLast? <;> simp

/-- The event files hold the last checkpoint. -/
def HasSave (f : List (Event V)) (t : Int × Int × Int) : Prop :=
  lastStep f (wSave ++ '/' :: wEpoch) = some t.1 ∧ lastStep f (wSave ++ '/' :: wEnvStep) = some t.2.1 ∧
    lastStep f (wSave ++ '/' :: wGradientStep) = some t.2.2

theorem Tb.calls_hasSave (cs : List (Call V)) (l l' : Tb V) (h : l.calls cs = some l')
    (hi : ∀ t, l.saved.getLast? = some t → HasSave l.file t) : ∀ t, l'.saved.getLast? = some t → HasSave l'.file t := by
  induction cs generalizing l with
  | nil =>
    rw [Tb.calls] at h
    rw [← Option.some.inj h]; exact hi
  | cons c cs ih =>
    rw [Tb.calls] at h
    cases c with
    | log s d x =>
      obtain ⟨l1, es, e, hf, hns, hsv, _⟩ := l.log_eq s d x
      rw [show l.call (.log s d x) = some l1 from e] at h
      refine ih l1 h ?_
      intro t ht
      rw [hsv] at ht
      unfold HasSave
      rw [hf, lastStep_append_noSave _ _ hns, lastStep_append_noSave _ _ hns, lastStep_append_noSave _ _ hns]
      exact hi t ht
    | save e s g fn =>
      obtain ⟨l1, el, _, _, _, hl⟩ := l.save_eq e s g fn
      rw [show l.call (.save e s g fn) = some l1 from el] at h
      refine ih l1 h ?_
      by_cases hc : fn = true ∧ e - l.lastSave ≥ l.saveInterval
      · rw [if_pos hc] at hl
        intro t ht
        rw [hl.1, List.getLast?_concat] at ht
        rw [← Option.some.inj ht]
        exact hl.2.2
      · rw [if_neg hc] at hl
        rw [hl]; exact hi

/-- The last epoch saved is remembered. -/
theorem Tb.calls_lastSave (cs : List (Call V)) (l l' : Tb V) (h : l.calls cs = some l')
    (hi : l.lastSave = (l.saved.getLast?.map (·.1)).getD (-1)) :
    l'.lastSave = (l'.saved.getLast?.map (·.1)).getD (-1) ∧ l'.saveInterval = l.saveInterval := by
  induction cs generalizing l with
  | nil =>
    rw [Tb.calls] at h
    rw [← Option.some.inj h]; exact ⟨hi, rfl⟩
  | cons c cs ih =>
    rw [Tb.calls] at h
    cases c with
    | log s d x =>
      obtain ⟨l1, es, e, hf, hns, hsv, hls, hsi, _⟩ := l.log_eq s d x
      rw [show l.call (.log s d x) = some l1 from e] at h
      rw [← hsi]
      exact ih l1 h (by rw [hls, hsv]; exact hi)
    | save e s g fn =>
      obtain ⟨l1, el, _, hsi, _, hl⟩ := l.save_eq e s g fn
      rw [show l.call (.save e s g fn) = some l1 from el] at h
      rw [← hsi]
      refine ih l1 h ?_
      by_cases hc : fn = true ∧ e - l.lastSave ≥ l.saveInterval
      · rw [if_pos hc] at hl
        rw [hl.1, hl.2.1, List.getLast?_concat]; rfl
      · rw [if_neg hc] at hl
        rw [hl]; exact hi

theorem Tb.calls_append (cs cs' : List (Call V)) (l : Tb V) : l.calls (cs ++ cs') = (l.calls cs).bind fun l => l.calls cs' := by
  induction cs generalizing l with
  | nil => rfl
  | cons c cs ih =>
    show ((l.call c).bind fun l => l.calls (cs ++ cs')) = ((l.call c).bind fun l => l.calls cs).bind _
    cases l.call c with
    | none => rfl
    | some l1 => exact ih l1

theorem Tb.restore_last (l : Tb V) (t : Int × Int × Int) (h : HasSave l.file t) :
    l.restore.1.base.last .train = t.2.1 ∧ l.restore.1.base.last .update = t.2.2 ∧ l.restore.1.lastSave = t.1 ∧
      l.restore.1.base.interval = l.base.interval ∧ l.restore.1.base.written = l.base.written := by
  unfold Tb.restore Tb.restoreEpoch
  rw [h.1, h.2.1]
  simp [h.2.2]

/-- The logging part of a sequence of calls. -/
def logCalls : List (Call V) → List (Scope × Int × Dict V)
  | [] => []
  | .log s d x :: cs => (s, x, d) :: logCalls cs
  | .save _ _ _ _ :: cs => logCalls cs

/-- The entries written are those of `BaseLogger`. -/
theorem Tb.calls_base (cs : List (Call V)) (l l' : Tb V) (h : l.calls cs = some l') : l'.base = l.base.logs prepare (logCalls cs) := by
  induction cs generalizing l with
  | nil =>
    rw [Tb.calls] at h
    rw [← Option.some.inj h]; rfl
  | cons c cs ih =>
    rw [Tb.calls] at h
    cases c with
    | log s d x =>
      obtain ⟨l1, es, e, _, _, _, _, _, _, hb⟩ := l.log_eq s d x
      rw [show l.call (.log s d x) = some l1 from e] at h
      rw [ih l1 h, hb]
      rfl
    | save e s g fn =>
      obtain ⟨l1, el, hb, _⟩ := l.save_eq e s g fn
      rw [show l.call (.save e s g fn) = some l1 from el] at h
      rw [ih l1 h, hb]
      rfl

end

end Verif.Logger
