import Verif.Model.Optim
import Mathlib.Tactic.Linarith
import Mathlib.Tactic.NormNum
import Mathlib.Tactic.FieldSimp
import Mathlib.Tactic.Positivity
import Mathlib.Tactic.Ring

/-! Properties of optimizer steps, schedulers, cloned optimizers and twin critics (C147–C150). -/

set_option linter.unusedSectionVars false

namespace Verif.Optim

/-! ### C147 -/

section Step
variable {S : Type}

/-- The gradients of the parameters `ps` have norm at most `c`. -/
def NormAtMost (ps : List Nat) (g : Nat → Option ℝ) (c : ℝ) : Prop := (ps.map fun i => ((g i).getD 0) ^ 2).sum ≤ c ^ 2

private theorem sum_scale (k : ℝ) : ∀ (l : List ℝ), (l.map fun x => (k * x) ^ 2).sum = k ^ 2 * (l.map fun x => x ^ 2).sum
  | [] => by simp
  | x :: l => by
    simp only [List.map_cons, List.sum_cons, sum_scale k l]; ring

private theorem sum_sq_nonneg : ∀ (l : List ℝ), 0 ≤ (l.map fun x => x ^ 2).sum
  | [] => by simp
  | x :: l => by
    have := sum_sq_nonneg l
    simp only [List.map_cons, List.sum_cons]; positivity

private theorem norm_sq (ps : List Nat) (g : Nat → Option ℝ) :
    gradNorm ps g ^ 2 = (ps.map fun i => ((g i).getD 0) ^ 2).sum := by
  unfold gradNorm
  rw [Real.sq_sqrt]
  have := sum_sq_nonneg (ps.map fun i => (g i).getD 0)
  simpa [List.map_map, Function.comp_def] using this

private theorem clip_grad_eq (ps : List Nat) (c : ℝ) (m : Mem) (i : Nat) (hi : i ∈ ps) :
    (clipGrad ps c m).grad i = (m.grad i).map ((min (c / (gradNorm ps m.grad + 1 / 1000000)) 1) * ·) := by
  simp [clipGrad, hi]

private theorem fresh_grad (d : (Nat → ℝ) → Nat → Option ℝ) (o : Opt S) (m : Mem) (i : Nat) (hi : i ∈ o.params) :
    (backward d (zeroGrad o m)).grad i = d m.value i := by
  simp [backward, zeroGrad, hi, addGrad]

/-- The optimizer has made its step from the values `v` with the gradients `g`: its new state is `s'`, the parameters it holds have the values it
gives, in their order, and no other parameter has changed. -/
def SteppedWith (o : Opt S) (s : S) (v : Nat → ℝ) (g : Nat → Option ℝ) (s' : S) (v' : Nat → ℝ) : Prop :=
  s' = (o.step s (o.params.map fun i => (v i, g i))).1 ∧
  (∀ (n : Nat) i x, o.params[n]? = some i → (o.step s (o.params.map fun i => (v i, g i))).2[n]? = some x → v' i = x) ∧
  ∀ i, i ∉ o.params → v' i = v i

private theorem assignAll_not : ∀ (ps : List Nat) (xs : List ℝ) (v : Nat → ℝ) (i : Nat), i ∉ ps → assignAll ps xs v i = v i
  | [], _, _, _, _ => by simp [assignAll]
  | _ :: _, [], _, _, _ => by simp [assignAll]
  | p :: ps, x :: xs, v, i, h => by
    simp only [List.mem_cons, not_or] at h
    simp only [assignAll]
    rw [assignAll_not ps xs _ i h.2, if_neg h.1]

private theorem assignAll_get : ∀ (ps : List Nat) (xs : List ℝ) (v : Nat → ℝ), ps.Nodup → ∀ (n : Nat) i x, ps[n]? = some i → xs[n]? = some x →
    assignAll ps xs v i = x
  | [], _, _, _, n, i, x, h, _ => by simp at h
  | _ :: _, [], _, _, n, i, x, _, h => by simp at h
  | p :: ps, y :: xs, v, hnd, n, i, x, h, h' => by
    simp only [assignAll]
    rw [List.nodup_cons] at hnd
    cases n with
    | zero =>
      simp only [List.getElem?_cons_zero, Option.some.injEq] at h h'
      rw [← h, assignAll_not _ _ _ _ hnd.1, if_pos rfl, h']
    | succ n =>
      simp only [List.getElem?_cons_succ] at h h'
      exact assignAll_get ps xs _ hnd.2 n i x h h'

private theorem stepped (o : Opt S) (hnd : o.params.Nodup) (s : S) (m : Mem) : SteppedWith o s m.value m.grad (optStep o s m).1 (optStep o s m).2.value :=
  ⟨rfl, fun n i x h h' => assignAll_get _ _ _ hnd n i x h h', fun i h => assignAll_not _ _ _ _ h⟩

/-- C147. A step with `max_grad_norm = c > 0` and a module whose parameters are held by the optimizer succeeds. The gradients with which the
optimizer makes its step are the derivatives of the loss for all its parameters outside the module and `k` times the derivatives for those of
the module, with `0 < k ≤ 1`; their norm over the module is at most `c`, and `k = 1` if the norm of the derivatives is below `c` by a
millionth. -/
theorem C147_clipped (d : (Nat → ℝ) → Nat → Option ℝ) (o : Opt S) (ps : List Nat) (c : ℝ) (hc : 0 < c) (hsub : ∀ i ∈ ps, i ∈ o.params)
    (hnd : o.params.Nodup) (s : S) (m : Mem) :
    ∃ k : ℝ, 0 < k ∧ k ≤ 1 ∧
      (NormAtMost ps (d m.value) (c - 1 / 1000000) → 1 / 1000000 ≤ c → k = 1) ∧
      ∃ g : Nat → Option ℝ, (∀ i ∈ ps, g i = (d m.value i).map (k * ·)) ∧
        (∀ i ∈ o.params, i ∉ ps → g i = d m.value i) ∧ NormAtMost ps g c ∧
        ∃ (s' : S) (m' : Mem), optimStep d o (some ps) (some c) s m = ((s', m'), .ok ()) ∧ SteppedWith o s m.value g s' m'.value := by
  have hn : 0 ≤ gradNorm ps (backward d (zeroGrad o m)).grad := Real.sqrt_nonneg _
  have hgn : gradNorm ps (backward d (zeroGrad o m)).grad = gradNorm ps (d m.value) := by
    unfold gradNorm
    congr 2
    apply List.map_congr_left
    intro i hi
    rw [fresh_grad d o m i (hsub i hi)]
  have hn' : 0 ≤ gradNorm ps (d m.value) := Real.sqrt_nonneg _
  refine ⟨min (c / (gradNorm ps (d m.value) + 1 / 1000000)) 1, ?_, min_le_right _ _, ?_, (clipGrad ps c (backward d (zeroGrad o m))).grad,
    ?_, ?_, ?_, _, _, ?_, stepped o hnd s (clipGrad ps c (backward d (zeroGrad o m)))⟩
  · exact lt_min (by positivity) one_pos
  · intro h hc1
    apply min_eq_right
    rw [le_div_iff₀ (by positivity), one_mul]
    unfold NormAtMost at h
    rw [← norm_sq] at h
    have := abs_le_of_sq_le_sq h (by linarith)
    linarith [le_abs_self (gradNorm ps (d m.value))]
  · intro i hi
    rw [clip_grad_eq _ _ _ _ hi, fresh_grad d o m i (hsub i hi), hgn]
  · intro i hi hip
    simp only [clipGrad, hip, if_false]
    exact fresh_grad d o m i hi
  · unfold NormAtMost
    have e : (ps.map fun i => (((clipGrad ps c (backward d (zeroGrad o m))).grad i).getD 0) ^ 2) =
        (ps.map fun i => (d m.value i).getD 0).map fun x =>
          (min (c / (gradNorm ps (d m.value) + 1 / 1000000)) 1 * x) ^ 2 := by
      rw [List.map_map]
      apply List.map_congr_left
      intro i hi
      rw [clip_grad_eq _ _ _ _ hi, fresh_grad d o m i (hsub i hi), hgn, Function.comp]
      generalize d m.value i = g
      cases g <;> simp
    rw [e, sum_scale]
    have e2 : ((ps.map fun i => (d m.value i).getD 0).map fun x => x ^ 2).sum = gradNorm ps (d m.value) ^ 2 := by
      rw [norm_sq, List.map_map]; rfl
    rw [e2, ← mul_pow]
    apply pow_le_pow_left₀
    · exact mul_nonneg (le_min (by positivity) zero_le_one) hn'
    · calc min (c / (gradNorm ps (d m.value) + 1 / 1000000)) 1 * gradNorm ps (d m.value)
          ≤ c / (gradNorm ps (d m.value) + 1 / 1000000) * gradNorm ps (d m.value) :=
            mul_le_mul_of_nonneg_right (min_le_left _ _) hn'
        _ ≤ c := by
            rw [div_mul_eq_mul_div, div_le_iff₀ (by positivity)]
            have : 0 ≤ c * (1 / 1000000) := by positivity
            nlinarith
  · simp [optimStep, hc.ne']

example : ∀ i ∈ [0, 1], i ∈ ({ params := [0, 1, 2], step := fun _ l => ((), l.map (·.1)) } : Opt Unit).params := by decide

example : ({ params := [0, 1, 2], step := fun _ l => ((), l.map (·.1)) } : Opt Unit).params.Nodup := by decide

/-- C147. Without `max_grad_norm` the optimizer makes its step with the derivatives of the loss. -/
theorem C147_plain (d : (Nat → ℝ) → Nat → Option ℝ) (o : Opt S) (hnd : o.params.Nodup) (module : Option (List Nat)) (s : S) (m : Mem) :
    ∃ (s' : S) (m' : Mem), optimStep d o module none s m = ((s', m'), .ok ()) ∧ SteppedWith o s m.value (d m.value) s' m'.value := by
  refine ⟨_, _, rfl, ?_⟩
  have h := stepped o hnd s (backward d (zeroGrad o m))
  have e : (o.params.map fun i => ((backward d (zeroGrad o m)).value i, (backward d (zeroGrad o m)).grad i)) =
      o.params.map fun i => (m.value i, d m.value i) := List.map_congr_left fun i hi => by rw [fresh_grad d o m i hi]; rfl
  unfold SteppedWith at h ⊢
  rwa [e] at h

private theorem step_congr (o : Opt S) (s : S) (m m' : Mem) (hv : m.value = m'.value) (hg : ∀ i ∈ o.params, m.grad i = m'.grad i) :
    (optStep o s m).1 = (optStep o s m').1 ∧ (optStep o s m).2.value = (optStep o s m').2.value := by
  have e : (o.params.map fun i => (m.value i, m.grad i)) = o.params.map fun i => (m'.value i, m'.grad i) :=
    List.map_congr_left fun i hi => by rw [hv, hg i hi]
  simp only [optStep]
  rw [e, hv]
  exact ⟨rfl, rfl⟩

/-- C147. Gradients left over from earlier backward passes have no influence on a step, if the parameters of the module are held by the
optimizer. -/
theorem C147_fresh_partial (d : (Nat → ℝ) → Nat → Option ℝ) (o : Opt S) (module : Option (List Nat)) (c : Option ℝ)
    (hsub : ∀ ps, module = some ps → ∀ i ∈ ps, i ∈ o.params) (s : S) (m m' : Mem) (hv : m.value = m'.value) :
    (optimStep d o module c s m).1.1 = (optimStep d o module c s m').1.1 ∧
      (optimStep d o module c s m).1.2.value = (optimStep d o module c s m').1.2.value ∧
      (optimStep d o module c s m).2 = (optimStep d o module c s m').2 := by
  have hb : (backward d (zeroGrad o m)).value = (backward d (zeroGrad o m')).value := hv
  have hg : ∀ i ∈ o.params, (backward d (zeroGrad o m)).grad i = (backward d (zeroGrad o m')).grad i := by
    intro i hi; rw [fresh_grad d o m i hi, fresh_grad d o m' i hi, hv]
  have plain := step_congr o s _ _ hb hg
  unfold optimStep
  cases c with
  | none => exact ⟨plain.1, plain.2, rfl⟩
  | some c =>
    by_cases h0 : c = 0
    · simp only [h0, if_true]; exact ⟨plain.1, plain.2, trivial⟩
    · simp only [h0, if_false]
      cases hm : module with
      | none => exact ⟨rfl, hb, rfl⟩
      | some ps =>
        have hn : gradNorm ps (backward d (zeroGrad o m)).grad = gradNorm ps (backward d (zeroGrad o m')).grad := by
          unfold gradNorm
          congr 2
          exact List.map_congr_left fun i hi => by rw [hg i (hsub ps hm i hi)]
        have := step_congr o s (clipGrad ps c (backward d (zeroGrad o m))) (clipGrad ps c (backward d (zeroGrad o m'))) hb
          (fun i hi => by simp only [clipGrad, hn, hg i hi])
        exact ⟨this.1, this.2, rfl⟩

/-- C147. With `max_grad_norm` and no module, a `ValueError` is raised, and no parameter and nothing in the optimizer has changed. -/
theorem C147_no_module (d : (Nat → ℝ) → Nat → Option ℝ) (o : Opt S) (c : ℝ) (hc : c ≠ 0) (s : S) (m : Mem) :
    ∃ m' : Mem, m'.value = m.value ∧ optimStep d o none (some c) s m = ((s, m'), .error .value) :=
  ⟨backward d (zeroGrad o m), rfl, by simp [optimStep, hc]⟩

/-- Plain gradient descent with step 1. -/
def descent (params : List Nat) : Opt Unit := ⟨params, fun _ l => ((), l.map fun x => x.1 - x.2.getD 0)⟩

/-- C147 is violated in two cases. A bound of zero that is passed is not used: the gradients are not clipped. And gradients of parameters of
the module which the optimizer does not hold pile up from one step to the next and count in the norm: with the bound 6 and the derivatives 3
and 4 (norm 5) the step is made with the gradient 3, but when 6 is left over from earlier in the other parameter, the norm is above 10 and the
step is at most 9/5. -/
theorem C147_violated :
    (∃ (d : (Nat → ℝ) → Nat → Option ℝ) (m : Mem),
      ¬ NormAtMost [0] (optimStep d (descent [0]) (some [0]) (some 0) () m).1.2.grad 0) ∧
    ∃ (d : (Nat → ℝ) → Nat → Option ℝ) (m m' : Mem), m.value = m'.value ∧ m.grad 0 = m'.grad 0 ∧
      (optimStep d (descent [0]) (some [0, 1]) (some 6) () m).1.2.value 0 = -3 ∧
      -(9 / 5) ≤ (optimStep d (descent [0]) (some [0, 1]) (some 6) () m').1.2.value 0 := by
  refine ⟨⟨fun _ _ => some 3, ⟨fun _ => 0, fun _ => none⟩, ?_⟩,
    fun _ i => if i = 0 then some 3 else some 4, ⟨fun _ => 0, fun _ => none⟩, ⟨fun _ => 0, fun i => if i = 0 then none else some 6⟩, rfl,
    rfl, ?_, ?_⟩
  · simp [NormAtMost, optimStep, optStep, backward, zeroGrad, descent, addGrad]
  · have hn : gradNorm [0, 1] (backward (fun _ i => if i = 0 then some 3 else some 4)
        (zeroGrad (descent [0]) ⟨fun _ => 0, fun _ => none⟩)).grad = 5 := by
      simp [gradNorm, backward, zeroGrad, descent, addGrad]
      rw [show (3 : ℝ) ^ 2 + 4 ^ 2 = 5 ^ 2 by norm_num, Real.sqrt_sq (by norm_num)]
    simp only [optimStep, optStep, clipGrad, hn]
    norm_num [backward, zeroGrad, descent, addGrad, assignAll]
  · have hn : 10 ≤ gradNorm [0, 1] (backward (fun _ i => if i = 0 then some 3 else some 4)
        (zeroGrad (descent [0]) ⟨fun _ => 0, fun i => if i = 0 then none else some 6⟩)).grad := by
      apply Real.le_sqrt_of_sq_le
      norm_num [backward, zeroGrad, descent, addGrad]
    obtain ⟨n, hdef⟩ : ∃ n, n = gradNorm [0, 1] (backward (fun _ i => if i = 0 then some 3 else some 4)
        (zeroGrad (descent [0]) ⟨fun _ => 0, fun i => if i = 0 then none else some 6⟩)).grad := ⟨_, rfl⟩
    rw [← hdef] at hn
    have hk : min (6 / (n + 1 / 1000000)) 1 ≤ 3 / 5 := by
      refine (min_le_left _ _).trans ?_
      rw [div_le_iff₀ (by linarith)]; linarith
    simp only [optimStep, optStep, clipGrad, ← hdef]
    generalize min (6 / (n + 1 / 1000000)) 1 = k at hk
    simp [backward, zeroGrad, descent, addGrad, assignAll]
    linarith

end Step

/-! ### C148 -/

section Sched
variable {A F : Type}

/-- All functions of the scheduler can be called. -/
def Sound (s : Sched A F) : Prop := ∀ l, s.lambdas = some l → ∀ f ∈ l, f.isSome

private theorem callable_some : ∀ (l : List (Option F)), (∀ f ∈ l, f.isSome) → ∃ fs, callable l = some fs ∧ l = fs.map some
  | [], _ => ⟨[], rfl, rfl⟩
  | none :: _, h => by simp at h
  | some f :: l, h => by
    obtain ⟨fs, e, e'⟩ := callable_some l fun g hg => h g (List.mem_cons_of_mem _ hg)
    exact ⟨f :: fs, by simp [callable, e], by simp [e']⟩

private theorem callable_none : ∀ (l : List (Option F)), none ∈ l → callable l = none
  | none :: _, _ => rfl
  | some f :: l, h => by
    have : none ∈ l := by simpa using h
    simp [callable, callable_none l this]

/-- C148. A step of the wrapper is a step of each of its schedulers. -/
theorem C148_step (adv : A → List F → A) : ∀ (ss : List (Sched A F)), (∀ s ∈ ss, Sound s) →
    ∃ ss', stepAll adv ss = (ss', .ok ()) ∧ List.Forall₂ (fun s s' => s.step adv = .ok s') ss ss'
  | [], _ => ⟨[], rfl, .nil⟩
  | s :: ss, h => by
    obtain ⟨ss', e, hf⟩ := C148_step adv ss fun t ht => h t (List.mem_cons_of_mem _ ht)
    have : ∃ fs, callable (s.lambdas.getD []) = some fs := by
      cases hl : s.lambdas with
      | none => exact ⟨[], rfl⟩
      | some l =>
        obtain ⟨fs, e, _⟩ := callable_some l (h s List.mem_cons_self l hl)
        exact ⟨fs, e⟩
    obtain ⟨fs, hfs⟩ := this
    have hs : s.step adv = .ok { s with attrs := adv s.attrs fs } := by simp [Sched.step, hfs]
    exact ⟨_ :: ss', by simp [stepAll, hs, e], .cons hs hf⟩

/-- Learning rate 1 at first, changed by the functions: an example. -/
example : stepAll (fun (a : Nat × Nat) (fs : List (Nat → Nat)) => (a.1 + 1, match fs with | [] => a.2 * 2 | f :: _ => f (a.1 + 1)))
    [⟨(0, 5), none⟩, ⟨(3, 1), some [some fun n => 10 - n]⟩] |>.1.map (·.attrs) |> (· = [(1, 10), (4, 6)]) := by decide

/-- C148. For schedulers without functions, loading the saved states into another wrapper with as many schedulers of the same kind succeeds,
and from then on both do the same for any number of steps. -/
theorem C148_restore_partial (adv : A → List F → A) (ss tt : List (Sched A F)) (hlen : tt.length = ss.length)
    (hs : ∀ s ∈ ss, s.lambdas = none) (ht : ∀ t ∈ tt, t.lambdas = none) :
    (loadAll tt (stateDicts ss)).2 = .ok () ∧ ∀ n, stepTimes adv n (loadAll tt (stateDicts ss)).1 = stepTimes adv n ss := by
  have key : loadAll tt (stateDicts ss) = (ss, .ok ()) := by
    induction ss generalizing tt with
    | nil =>
      cases tt with
      | nil => rfl
      | cons _ _ => simp at hlen
    | cons s ss ih =>
      cases tt with
      | nil => simp at hlen
      | cons t tt =>
        have h1 := ih tt (by simpa using hlen) (fun x hx => hs x (List.mem_cons_of_mem _ hx)) (fun x hx => ht x (List.mem_cons_of_mem _ hx))
        have hsl := hs s List.mem_cons_self
        have htl := ht t List.mem_cons_self
        unfold stateDicts at h1
        simp only [stateDicts, List.map_cons, loadAll, h1]
        cases s; cases t
        simp only at hsl htl
        subst hsl; subst htl
        rfl
  rw [key]
  exact ⟨rfl, fun _ => rfl⟩

example : (loadAll [⟨0, none⟩, ⟨0, none⟩] (stateDicts [(⟨3, none⟩ : Sched Nat Nat), ⟨5, none⟩])).1.map (·.attrs) = [3, 5] := by decide

/-- C148. A list of states of another length is refused with a `ValueError`. -/
theorem C148_refused : ∀ (tt : List (Sched A F)) (ds : List (SchedState A F)), tt.length ≠ ds.length → (loadAll tt ds).2 = .error .value
  | [], [], h => by simp at h
  | [], _ :: _, _ => rfl
  | _ :: _, [], _ => rfl
  | t :: tt, d :: ds, h => by
    have := C148_refused tt ds (by simpa using h)
    simp [loadAll, this]

/-- C148 is violated for schedulers with functions (`LambdaLR`, which the high-level linear schedule uses): when the states of a wrapper are
loaded into the wrapper itself, whatever its schedulers are, the next step raises a `TypeError` as soon as one of them has a function. (Loading
with the method of the scheduler would restore it.) And a list of states that is refused has already changed the first schedulers. -/
theorem C148_violated :
    (∀ (adv : A → List F → A) (ss : List (Sched A F)), (∃ s ∈ ss, ∃ l, s.lambdas = some l ∧ l ≠ []) →
      (stepAll adv (loadAll ss (stateDicts ss)).1).2 = .error .type ∧ ∀ s ∈ ss, s.loadTorch s.stateDict = s) ∧
    (loadAll [⟨0, none⟩] [(⟨3, none⟩ : SchedState Nat Nat), ⟨5, none⟩]).1.map (·.attrs) = [3] := by
  refine ⟨fun adv ss h => ⟨?_, fun s _ => rfl⟩, by decide⟩
  induction ss with
  | nil => simp at h
  | cons s ss ih =>
    have hload : loadAll (s :: ss) (stateDicts (s :: ss)) =
        (s.update s.stateDict :: (loadAll ss (stateDicts ss)).1, (loadAll ss (stateDicts ss)).2) := rfl
    rw [hload]
    by_cases hc : ∃ l, s.lambdas = some l ∧ l ≠ []
    · obtain ⟨l, hl, hne⟩ := hc
      have : (s.update s.stateDict).step adv = .error .type := by
        have e : (s.update s.stateDict).lambdas = some (l.map fun _ => none) := by simp [Sched.update, Sched.stateDict, hl]
        have : callable ((s.update s.stateDict).lambdas.getD []) = none := by
          rw [e]
          apply callable_none
          cases l with
          | nil => exact absurd rfl hne
          | cons a l => simp
        simp [Sched.step, this]
      simp [stepAll, this]
    · have h' : ∃ s ∈ ss, ∃ l, s.lambdas = some l ∧ l ≠ [] := by
        obtain ⟨t, ht, hl⟩ := h
        rcases List.mem_cons.mp ht with rfl | ht
        · exact absurd hl hc
        · exact ⟨t, ht, hl⟩
      have := ih h'
      simp only [stepAll]
      cases hst : (s.update s.stateDict).step adv with
      | ok s' => simpa using this
      | error e =>
        have : e = .type := by
          simp only [Sched.step] at hst
          split at hst <;> simp_all
        simp [this]

end Sched

/-! ### C149 -/

/-- C149. Cloning an optimizer of a standard class whose parameters have the options with which it was made gives an optimizer of the same class
with the new parameters, the same options and no state. -/
theorem C149_clone_partial {C T : Type} (standard : List Nat) (o : Optimizer C T) (old new : List Nat) (hc : o.cls ∈ standard)
    (hg : o.groups = [(old, o.defaults)]) :
    ∃ o' : Optimizer C T, cloneOptimizer standard o new = .ok o' ∧ o'.cls = o.cls ∧ o'.defaults = o.defaults ∧ o'.state = none ∧
      o'.groups.map (·.2) = o.groups.map (·.2) ∧ o'.groups.flatMap (·.1) = new := by
  refine ⟨construct o.cls new o.defaults, by simp [cloneOptimizer, hc], rfl, rfl, rfl, by simp [construct, hg], by simp [construct]⟩

example : (⟨1, 7, [([0, 1], 7)], some 3⟩ : Optimizer Nat Nat).groups = [([0, 1], 7)] := rfl

/-- C149. Optimizers of other classes are refused. -/
theorem C149_refused {C T : Type} (standard : List Nat) (o : Optimizer C T) (new : List Nat) (hc : o.cls ∉ standard) :
    cloneOptimizer standard o new = .error .value := by simp [cloneOptimizer, hc]

/-- C149 is violated when the options in use are not those of the construction, for instance after a scheduler has changed the learning rate or
with several groups: the clone has none of them. -/
theorem C149_violated {T : Type} : ∃ (o o' : Optimizer Nat T), o.cls = 0 ∧ cloneOptimizer [0] o [5] = .ok o' ∧
    ∀ g ∈ o.groups, ∀ g' ∈ o'.groups, g'.2 ≠ g.2 :=
  ⟨⟨0, 10, [([0], 3), ([1], 4)], none⟩, construct 0 [5] 10, rfl, rfl, by simp [construct]⟩

/-! ### C150 -/

section Twin
variable {W T C X : Type}

/-- The critics change places. -/
def Twin.swap (t : Twin W T C) : Twin W T C := ⟨t.two, t.one⟩

/-- C150. When both critics and optimizers are given they are used as they are, each with a copy as its target network, and the two roles are
the same: exchanging the critics and training gives the same critics, exchanged, for all data and all numbers of steps. -/
theorem C150_roles_partial (fresh : T) (requireOpt : Bool) (first : Given W T C) (net2 : W) (opt2 : T) (cfg2 : C) (q : W → X → ℝ)
    (soft : W → W → W) (calls : List ((C → (X → ℝ) → W → T → W × T) × (X → ℝ → ℝ) × Bool)) :
    ∃ t : Twin W T C, Twin.new fresh requireOpt first (some net2) (some (opt2, cfg2)) = .ok t ∧
      t.one = ⟨first.net, first.net, first.opt, first.cfg⟩ ∧ t.two = ⟨net2, net2, opt2, cfg2⟩ ∧
      Twin.learns q soft calls t.swap = (Twin.learns q soft calls t).swap := by
  refine ⟨⟨⟨first.net, first.net, first.opt, first.cfg⟩, ⟨net2, net2, opt2, cfg2⟩⟩, by simp [Twin.new], rfl, rfl, ?_⟩
  generalize (⟨⟨first.net, first.net, first.opt, first.cfg⟩, ⟨net2, net2, opt2, cfg2⟩⟩ : Twin W T C) = t
  induction calls generalizing t with
  | nil => rfl
  | cons c cs ih =>
    have : t.swap.learn q c.1 soft c.2.1 c.2.2 = (t.learn q c.1 soft c.2.1 c.2.2).swap := by
      simp only [Twin.learn, Twin.swap, min_comm]
    simp only [Twin.learns, this, ih]

/-- C150. TD3 refuses a second critic without an optimizer for it. -/
theorem C150_refused (fresh : T) (first : Given W T C) (net2 : W) : Twin.new fresh true first (some net2) none = .error .value := by
  simp [Twin.new]

/-- C150 is violated when the second critic is left out: whatever the data, however many steps, the second critic is equal to the first, and so is
its target network. The minimum in the target is the value of one critic, and the second has no effect. (The optimizer of the first critic is
new and has the options of its construction.) -/
theorem C150_violated (fresh : T) (requireOpt : Bool) (net : W) (cfg : C) (q : W → X → ℝ) (soft : W → W → W)
    (calls : List ((C → (X → ℝ) → W → T → W × T) × (X → ℝ → ℝ) × Bool)) :
    ∃ t : Twin W T C, Twin.new fresh requireOpt ⟨net, fresh, cfg, cfg⟩ none none = .ok t ∧
      (Twin.learns q soft calls t).two = (Twin.learns q soft calls t).one ∧
      ∀ x, min (q (Twin.learns q soft calls t).one.old x) (q (Twin.learns q soft calls t).two.old x) =
        q (Twin.learns q soft calls t).one.old x := by
  refine ⟨⟨⟨net, net, fresh, cfg⟩, ⟨net, net, fresh, cfg⟩⟩, by simp [Twin.new], ?_⟩
  have key : ∀ (cs : List ((C → (X → ℝ) → W → T → W × T) × (X → ℝ → ℝ) × Bool)) (t : Twin W T C), t.two = t.one →
      (Twin.learns q soft cs t).two = (Twin.learns q soft cs t).one := by
    intro cs
    induction cs with
    | nil => intro t h; exact h
    | cons c cs ih => intro t h; exact ih _ (by simp [Twin.learn, h])
  have h := key calls ⟨⟨net, net, fresh, cfg⟩, ⟨net, net, fresh, cfg⟩⟩ rfl
  exact ⟨h, fun x => by rw [h, min_self]⟩

/-- C150. SAC accepts a second critic without an optimizer for it: it is used, with a copy as its target network, and with a new optimizer that has
the options with which that of the first critic was constructed. -/
theorem C150_cloned (fresh : T) (first : Given W T C) (net2 : W) :
    Twin.new fresh false first (some net2) none =
      .ok ⟨⟨first.net, first.net, first.opt, first.cfg⟩, ⟨net2, net2, fresh, first.defaults⟩⟩ := by
  simp [Twin.new]

end Twin

end Verif.Optim
