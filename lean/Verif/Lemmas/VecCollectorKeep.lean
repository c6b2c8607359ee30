import Verif.Lemmas.VecCollector

/-! Lemmas: a property of the vector environment that steps and resets of some environments keep holds after every use of a collector. -/

namespace Verif.VecCollector

open Verif.Collector (StepOut Env Row World Policy HiddenKind Err Stats whereTrue writeAt dropAt truthy surplus stops validates)

variable {W A O R I H K : Type}

/-- Stepping or resetting at least one environment keeps `P`. -/
structure Keeps (V : VecEnv W A O R I K) (P : W → Prop) : Prop where
  step : ∀ acts w, acts ≠ [] → P w → P (V.step acts w).1
  reset : ∀ kw ids w, ids ≠ [] → P w → P (V.reset kw ids w).1

section
variable {V : VecEnv W A O R I K} {P : W → Prop} (hV : V.Sized) (hP : Keeps V P) {c : Setup A O I H}
include hV hP

theorem keep_iter (nEpisode : Option Int) (random : Bool) (kw : K) (s t : Loop W A O R I H) (h : P s.world)
    (ht : iter c V nEpisode random kw s = .ok t) : P t.world := by
  rw [iter_eq] at ht
  split at ht
  · cases ht
  · rename_i h1
    split at ht
    · cases ht
    · rename_i h2
      cases ht
      generalize decide c random s.calls s.ready s.lastObs s.lastInfo s.lastHidden = d at *
      have hl : (s.ready.zip d.actNormalized).length = s.ready.length := by rw [List.length_zip, not_not.mp h1, Nat.min_self]
      have h3 := hP.step (s.ready.zip d.actNormalized) s.world (fun h => by rw [h] at hl; exact h2 (List.length_eq_zero_iff.mp hl.symm)) h
      have hlen := hV.1 (s.ready.zip d.actNormalized) s.world
      generalize V.step (s.ready.zip d.actNormalized) s.world = q at *
      change P (endings V kw s.ready q).1
      unfold endings
      split
      · exact h3
      · rename_i h4
        refine hP.reset _ _ _ ?_ h3
        obtain ⟨i, l, hi⟩ := List.exists_cons_of_ne_nil h4
        have hlt := whereTrue_lt _ i (by rw [hi]; simp)
        rw [List.length_map, hlen, hl] at hlt
        rw [hi, List.filterMap_cons, List.getElem?_eq_getElem hlt]
        simp

theorem keep_run (nStep nEpisode : Option Int) (random : Bool) (kw : K) (fuel : Nat) : ∀ s t : Loop W A O R I H, P s.world →
    run c V nStep nEpisode random kw fuel s = some (.ok t) → P t.world := by
  induction fuel with
  | zero => intro s t _ ht; cases ht
  | succ fuel ih =>
    intro s t h ht
    unfold run at ht
    cases hi : iter c V nEpisode random kw s with
    | error e => rw [hi] at ht; cases ht
    | ok s1 =>
      rw [hi] at ht
      have h1 := keep_iter hV hP nEpisode random kw s s1 h hi
      simp only at ht
      split at ht
      · cases ht; exact h1
      · exact ih s1 t h1 ht

omit hV in
theorem keep_resetEnv (hc : 0 < c.envNum) (kw : K) (s : Col W A O R I H) (h : P s.world) : P (resetEnv c V kw s).world :=
  hP.reset kw _ _ (fun h => by rw [List.range_eq_nil] at h; omega) h

omit hV in
theorem keep_reset (hc : 0 < c.envNum) (buffer stats : Bool) (kw : K) (s : Col W A O R I H) (h : P s.world) : P (reset c V buffer stats kw s).world := by
  have := keep_resetEnv hP hc kw s h
  unfold reset
  cases buffer <;> cases stats <;> exact this

theorem keep_collect (hc : 0 < c.envNum) (nStep nEpisode : Option Int) (random before : Bool) (kw : K) (fuel : Nat) (s t : Col W A O R I H) (st : Stats) (h : P s.world)
    (ht : collect c V nStep nEpisode random before kw fuel s = some (.ok (t, st))) : P t.world := by
  unfold collect at ht
  split at ht
  · cases ht
  · have h1 : P (if before = true then reset c V false true kw s else s).world := by
      cases before
      · exact h
      · exact keep_reset hP hc false true kw s h
    generalize (if before = true then reset c V false true kw s else s) = s1 at *
    unfold collectAux at ht
    split at ht
    · cases ht
    · split at ht
      · cases ht
      · rename_i ready po pinfo _ _ _
        rcases hrun : run c V nStep nEpisode random kw fuel (start ready po pinfo s1) with _ | (e | l)
        · rw [hrun] at ht; cases ht
        · rw [hrun] at ht; cases ht
        · rw [hrun] at ht
          have h2 : P l.world := keep_run hV hP nStep nEpisode random kw fuel _ l h1 hrun
          simp only [Option.some.injEq, Except.ok.injEq] at ht
          unfold finish at ht
          split at ht
          · cases ht; exact h2
          · split at ht
            · cases ht
              exact keep_resetEnv hP hc kw _ h2
            · cases ht; exact h2
      · cases ht

theorem keep_use (hc : 0 < c.envNum) (ops : List (Op K)) : ∀ s t : Col W A O R I H, P s.world → use c V ops s = some t → P t.world := by
  induction ops with
  | nil => intro s t h ht; cases ht; exact h
  | cons op ops ih =>
    intro s t h ht
    cases op with
    | reset buffer stats kw =>
      simp only [use, applyOp, Option.bind_some] at ht
      exact ih _ t (keep_reset hP hc buffer stats kw s h) ht
    | collect nStep nEpisode random before kw fuel =>
      unfold use applyOp at ht
      simp only at ht
      rcases hcl : collect c V nStep nEpisode random before kw fuel s with _ | (e | ⟨s1, st⟩)
      · rw [hcl] at ht; cases ht
      · rw [hcl] at ht; cases ht
      · rw [hcl] at ht
        exact ih s1 t (keep_collect hV hP hc nStep nEpisode random before kw fuel s s1 st h hcl) ht

end

end Verif.VecCollector
