import Verif.Spec.Collector
import Mathlib.Data.List.Nodup
import Mathlib.Data.List.Range
import Mathlib.Tactic.SplitIfs
import Mathlib.Tactic.Push

namespace Verif.Collector

set_option linter.unusedSectionVars false

variable {σ A O R I H K : Type}

theorem upd_same {α : Type} (f : Nat → α) (i : Nat) (x : α) : upd f i x i = x := by simp [upd]

theorem upd_other {α : Type} (f : Nat → α) (i j : Nat) (x : α) (h : j ≠ i) : upd f i x j = f j := by simp [upd, h]

/-- Stepping leaves other environments alone. -/
theorem stepEnvs_other (E : Env σ A O R I K) (l : List (Nat × A)) (w : World σ O) (e : Nat) (h : e ∉ l.map Prod.fst) :
    (stepEnvs E l w).1.envs e = w.envs e ∧ (stepEnvs E l w).1.mem e = w.mem e := by
  induction l generalizing w with
  | nil => exact ⟨rfl, rfl⟩
  | cons p t ih =>
    obtain ⟨e', a⟩ := p
    simp only [List.map_cons, List.mem_cons, not_or] at h
    obtain ⟨h1, h2⟩ := ih ⟨upd w.envs e' (E.step (w.envs e') a).1, upd w.mem e' (E.step (w.envs e') a).2.obs⟩ h.2
    simp only [stepEnvs]
    exact ⟨by rw [h1]; exact upd_other _ _ _ _ h.1, by rw [h2]; exact upd_other _ _ _ _ h.1⟩

theorem stepEnvs_length (E : Env σ A O R I K) (l : List (Nat × A)) (w : World σ O) :
    (stepEnvs E l w).2.length = l.length := by
  induction l generalizing w with
  | nil => rfl
  | cons p t ih => simp [stepEnvs, ih]

/-- Stepping: every environment makes its own step. -/
theorem stepEnvs_get (E : Env σ A O R I K) (l : List (Nat × A)) (w : World σ O) (hn : (l.map Prod.fst).Nodup)
    (i e : Nat) (a : A) (h : l[i]? = some (e, a)) :
    (stepEnvs E l w).2[i]? = some (E.step (w.envs e) a).2 ∧ (stepEnvs E l w).1.envs e = (E.step (w.envs e) a).1 := by
  induction l generalizing w i with
  | nil => simp at h
  | cons p t ih =>
    obtain ⟨e', a'⟩ := p
    simp only [List.map_cons, List.nodup_cons] at hn
    cases i with
    | zero =>
      simp only [List.getElem?_cons_zero, Option.some.injEq, Prod.mk.injEq] at h
      obtain ⟨rfl, rfl⟩ := h
      refine ⟨by simp [stepEnvs], ?_⟩
      simp only [stepEnvs]
      rw [(stepEnvs_other E t _ e' hn.1).1]
      exact upd_same _ _ _
    | succ i =>
      have h' : t[i]? = some (e, a) := by simpa using h
      have hne : e ≠ e' := by
        rintro rfl
        exact hn.1 (List.mem_map.2 ⟨(e, a), List.mem_of_getElem? h', rfl⟩)
      obtain ⟨h1, h2⟩ := ih ⟨upd w.envs e' (E.step (w.envs e') a').1, upd w.mem e' (E.step (w.envs e') a').2.obs⟩ hn.2
        i h'
      simp only [upd_other _ _ _ _ hne] at h1 h2
      refine ⟨?_, ?_⟩
      · simpa [stepEnvs] using h1
      · simpa [stepEnvs] using h2

theorem resetEnvs_other (E : Env σ A O R I K) (kw : K) (l : List Nat) (w : World σ O) (e : Nat) (h : e ∉ l) :
    (resetEnvs E kw l w).1.envs e = w.envs e := by
  induction l generalizing w with
  | nil => rfl
  | cons e' t ih =>
    simp only [List.mem_cons, not_or] at h
    simp only [resetEnvs]
    rw [ih _ h.2]
    exact upd_other _ _ _ _ h.1

theorem resetEnvs_length (E : Env σ A O R I K) (kw : K) (l : List Nat) (w : World σ O) :
    (resetEnvs E kw l w).2.length = l.length := by
  induction l generalizing w with
  | nil => rfl
  | cons p t ih => simp [resetEnvs, ih]

theorem resetEnvs_get (E : Env σ A O R I K) (kw : K) (l : List Nat) (w : World σ O) (hn : l.Nodup)
    (i e : Nat) (h : l[i]? = some e) :
    (resetEnvs E kw l w).2[i]? = some (E.reset kw (w.envs e)).2 ∧
    (resetEnvs E kw l w).1.envs e = (E.reset kw (w.envs e)).1 := by
  induction l generalizing w i with
  | nil => simp at h
  | cons e' t ih =>
    simp only [List.nodup_cons] at hn
    cases i with
    | zero =>
      simp only [List.getElem?_cons_zero, Option.some.injEq] at h
      subst h
      refine ⟨by simp [resetEnvs], ?_⟩
      simp only [resetEnvs]
      rw [resetEnvs_other E kw t _ e' hn.1]
      exact upd_same _ _ _
    | succ i =>
      have h' : t[i]? = some e := by simpa using h
      have hne : e ≠ e' := by
        rintro rfl
        exact hn.1 (List.mem_of_getElem? h')
      obtain ⟨h1, h2⟩ := ih ⟨upd w.envs e' (E.reset kw (w.envs e')).1, upd w.mem e' (E.reset kw (w.envs e')).2.1⟩ hn.2
        i h'
      simp only [upd_other _ _ _ _ hne] at h1 h2
      refine ⟨?_, ?_⟩
      · simpa [resetEnvs] using h1
      · simpa [resetEnvs] using h2

theorem writeAt_length {α : Type} (l : List α) (ps : List Nat) (xs : List α) : (writeAt l ps xs).length = l.length := by
  induction ps generalizing l xs with
  | nil => simp [writeAt]
  | cons p ps ih =>
    cases xs with
    | nil => simp [writeAt]
    | cons x xs => simp [writeAt, ih]

theorem writeAt_other {α : Type} (l : List α) (ps : List Nat) (xs : List α) (i : Nat) (h : i ∉ ps) :
    (writeAt l ps xs)[i]? = l[i]? := by
  induction ps generalizing l xs with
  | nil => simp [writeAt]
  | cons p ps ih =>
    simp only [List.mem_cons, not_or] at h
    cases xs with
    | nil => simp [writeAt]
    | cons x xs =>
      rw [writeAt, ih _ _ h.2, List.getElem?_set_ne (by omega)]

theorem writeAt_at {α : Type} (l : List α) (ps : List Nat) (xs : List α) (hn : ps.Nodup) (k p : Nat) (x : α)
    (hp : ps[k]? = some p) (hx : xs[k]? = some x) (hl : p < l.length) : (writeAt l ps xs)[p]? = some x := by
  induction ps generalizing l xs k with
  | nil => simp at hp
  | cons q ps ih =>
    simp only [List.nodup_cons] at hn
    cases xs with
    | nil => simp at hx
    | cons y ys =>
      cases k with
      | zero =>
        simp only [List.getElem?_cons_zero, Option.some.injEq] at hp hx
        subst hp; subst hx
        rw [writeAt, writeAt_other _ _ _ _ hn.1, List.getElem?_set_self hl]
      | succ k =>
        rw [writeAt]
        exact ih _ _ hn.2 k (by simpa using hp) (by simpa using hx) (by simpa using hl)

theorem mem_whereTrue (l : List Bool) (i : Nat) : i ∈ whereTrue l ↔ l[i]? = some true := by
  simp only [whereTrue, List.mem_filter, List.mem_range, List.getD_eq_getElem?_getD]
  constructor
  · rintro ⟨h1, h2⟩
    rw [List.getElem?_eq_getElem h1] at h2 ⊢
    simpa using h2
  · intro h
    have hl : i < l.length := by
      by_contra hc
      rw [List.getElem?_eq_none (by omega)] at h
      exact absurd h (by simp)
    exact ⟨hl, by rw [h]; rfl⟩

theorem whereTrue_nodup (l : List Bool) : (whereTrue l).Nodup := List.nodup_range.filter _

theorem whereTrue_length (l : List Bool) : (whereTrue l).length = (l.filter id).length := by
  have h : ∀ (l : List Bool), (whereTrue l).map (fun i => l.getD i false) = l.filter id := by
    intro l
    have : l = (List.range l.length).map fun i => l.getD i false := by
      apply List.ext_getElem?
      intro i
      by_cases hi : i < l.length
      · rw [List.getElem?_map, List.getElem?_range hi]
        simp [hi]
      · rw [List.getElem?_eq_none (by omega), List.getElem?_eq_none (by simp; omega)]
    conv_rhs => rw [this]
    rw [List.filter_map]
    rfl
  rw [← h l, List.length_map]

/-- The positions that are kept. -/
def keep (n : Nat) (ps : List Nat) : List Nat := (List.range n).filter fun i => !ps.contains i

theorem zipIdx_eq {α : Type} (l : List α) :
    l.zipIdx = (List.range l.length).filterMap fun i => (l[i]?).map fun x => (x, i) := by
  have h : ∀ (l : List α) (k : Nat), l.zipIdx k = (List.range l.length).filterMap fun i => (l[i]?).map fun x => (x, i + k) := by
    intro l
    induction l with
    | nil => intro k; rfl
    | cons a t ih =>
      intro k
      rw [List.zipIdx_cons, ih, List.length_cons, List.range_succ_eq_map, List.filterMap_cons, List.filterMap_map]
      simp only [List.getElem?_cons_zero, Option.map_some, Nat.zero_add, List.cons.injEq, true_and]
      apply List.filterMap_congr
      intro i _
      simp only [Function.comp, List.getElem?_cons_succ, Nat.succ_eq_add_one]
      congr 1
      funext x
      congr 1
      omega
  simpa using h l 0

theorem dropAt_eq {α : Type} (l : List α) (ps : List Nat) : dropAt l ps = (keep l.length ps).filterMap fun i => l[i]? := by
  rw [dropAt, zipIdx_eq, keep, List.filter_filterMap, List.map_filterMap, List.filterMap_filter]
  apply List.filterMap_congr
  intro i _
  cases h : l[i]? with
  | none => simp
  | some x => by_cases hc : i ∈ ps <;> simp [hc]

theorem filterMap_get {α : Type} (l : List α) (ks : List Nat) (h : ∀ k ∈ ks, k < l.length) (i : Nat) :
    (ks.filterMap fun k => l[k]?)[i]? = ks[i]?.bind fun k => l[k]? := by
  have : (ks.filterMap fun k => l[k]?) = ks.attach.map fun k => l[k.1]'(h k.1 k.2) := by
    rw [← List.filterMap_eq_map]
    conv_lhs => rw [← List.attach_map_subtype_val ks, List.filterMap_map]
    apply List.filterMap_congr
    rintro ⟨j, hj⟩ _
    simp [List.getElem?_eq_getElem (h j hj)]
  rw [this]
  by_cases hi : i < ks.length
  · simp [hi, List.getElem?_eq_getElem (h ks[i] (List.getElem_mem _))]
  · rw [List.getElem?_eq_none (by simp; omega), List.getElem?_eq_none (by omega)]
    rfl

theorem filterMap_get_length {α : Type} (l : List α) (ks : List Nat) (h : ∀ k ∈ ks, k < l.length) :
    (ks.filterMap fun k => l[k]?).length = ks.length := by
  induction ks with
  | nil => rfl
  | cons k ks ih =>
    have hk := h k (by simp)
    rw [List.filterMap_cons, List.getElem?_eq_getElem hk]
    simp [ih fun k hk => h k (by simp [hk])]

theorem keep_lt {n : Nat} {ps : List Nat} : ∀ k ∈ keep n ps, k < n := by
  intro k hk
  simp only [keep, List.mem_filter, List.mem_range] at hk
  exact hk.1

theorem dropAt_get {α : Type} (l : List α) (ps : List Nat) (i : Nat) :
    (dropAt l ps)[i]? = (keep l.length ps)[i]?.bind fun k => l[k]? := by
  rw [dropAt_eq, filterMap_get _ _ keep_lt]

theorem dropAt_length {α : Type} (l : List α) (ps : List Nat) : (dropAt l ps).length = (keep l.length ps).length := by
  rw [dropAt_eq, filterMap_get_length _ _ keep_lt]

theorem dropAt_nil {α : Type} (l : List α) : dropAt l [] = l := by
  rw [dropAt]
  have : (l.zipIdx.filter fun q => !([] : List Nat).contains q.2) = l.zipIdx := by
    rw [List.filter_eq_self]; simp
  rw [this]
  apply List.ext_getElem?
  intro i
  simp

theorem dropAt_sublist {α : Type} (l : List α) (ps : List Nat) : (dropAt l ps).Sublist l := by
  have h := (List.filter_sublist (l := l.zipIdx) (p := fun q => !ps.contains q.2)).map Prod.fst
  rw [dropAt]
  have he : l.zipIdx.map Prod.fst = l := by
    apply List.ext_getElem?
    intro i
    simp
  rwa [he] at h

theorem keep_length (n : Nat) (ps : List Nat) (hn : ps.Nodup) (hp : ∀ p ∈ ps, p < n) :
    (keep n ps).length + ps.length = n := by
  have h := List.length_eq_length_filter_add (l := List.range n) (fun i => !ps.contains i)
  simp only [List.length_range, Bool.not_not] at h
  have h2 : ((List.range n).filter fun i => ps.contains i).length = ps.length := by
    apply List.Perm.length_eq
    rw [List.perm_ext_iff_of_nodup (List.nodup_range.filter _) hn]
    intro a
    simp only [List.mem_filter, List.mem_range, List.contains_iff_mem]
    exact ⟨fun h => h.2, fun h => ⟨hp a h, h⟩⟩
  unfold keep
  omega

end Verif.Collector
