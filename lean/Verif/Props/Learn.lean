import Verif.Model.Learn
import Mathlib.Tactic.NormNum
import Mathlib.Tactic.Linarith

/-!
C257: in every `learn`, each optimizer follows its own loss, whatever gradients are around.
-/

namespace Verif.Learn

open Verif.Optim

variable {S : Type}

/-! ### Specification -/

/-- What there is apart from gradients: values of the parameters and states of the optimizers. -/
structure Params (S : Type) where
  value : Nat → ℝ
  opt : Nat → S

/-- Forgetting the gradients. -/
def World.params (w : World S) : Params S := ⟨w.mem.value, w.opt⟩

/-- From `p` to `q` the optimizer `o` has made one step with the gradient `g`, and nothing else has changed. -/
def Took (o : Optimizer S) (g : Nat → Option ℝ) (p q : Params S) : Prop :=
  let r := o.step (p.opt o.id) (o.params.map fun i => (p.value i, g i))
  (∀ (k i : Nat), o.params[k]? = some i → ∃ x : ℝ, r.2[k]? = some x ∧ q.value i = x) ∧ (∀ i, i ∉ o.params → q.value i = p.value i) ∧
    q.opt o.id = r.1 ∧ ∀ k, k ≠ o.id → q.opt k = p.opt k

/-- An optimizer as torch accepts it: no parameter twice, and a new value for each parameter. -/
def Fine (o : Optimizer S) : Prop := o.params.Nodup ∧ ∀ s l, l.length = o.params.length → (o.step s l).2.length = o.params.length

/-- Between `p` and `q` values were assigned. -/
def Assigned (f : (Nat → ℝ) → Nat → ℝ) (p q : Params S) : Prop := q = ⟨f p.value, p.opt⟩

/-- The norm of the gradients of some parameters. -/
noncomputable def norm (ps : List Nat) (g : Nat → Option ℝ) : ℝ := Real.sqrt ((ps.map fun i => ((g i).getD 0) ^ 2).sum)

/-- The gradient `g`, where that of the parameters `ps` is scaled by `min (c / (norm + 10⁻⁶)) 1`. -/
noncomputable def clipped (ps : List Nat) (c : ℝ) (g : Nat → Option ℝ) (i : Nat) : Option ℝ :=
  if i ∈ ps then (g i).map (min (c / (norm ps g + 1 / 1000000)) 1 * ·) else g i

/-- The gradient that is used under `max_grad_norm`. -/
noncomputable def bounded (ps : List Nat) : Option ℝ → (Nat → Option ℝ) → Nat → Option ℝ
  | none, g => g
  | some c, g => if c = 0 then g else clipped ps c g

/-- One after the other: `xs` are what happens, each from one state to the next. -/
def Chain : List (Params S → Params S → Prop) → Params S → Params S → Prop
  | [], p, q => q = p
  | x :: xs, p, q => ∃ m, x p m ∧ Chain xs m q

/-! ### One step -/

theorem assign_not : ∀ (ps : List Nat) (xs : List ℝ) (v : Nat → ℝ) (i : Nat), i ∉ ps → assignAll ps xs v i = v i
  | [], _, _, _, _ => by simp [assignAll]
  | _ :: _, [], _, _, _ => by simp [assignAll]
  | j :: ps, x :: xs, v, i, h => by
    simp only [List.mem_cons, not_or] at h
    simp only [assignAll]
    rw [assign_not ps xs _ i h.2, if_neg h.1]

theorem assign_get : ∀ (ps : List Nat) (xs : List ℝ) (v : Nat → ℝ), ps.Nodup → ∀ (n : Nat) i x, ps[n]? = some i → xs[n]? = some x →
    assignAll ps xs v i = x
  | [], _, _, _, _, _, _, h, _ => by simp at h
  | _ :: _, [], _, _, _, _, _, _, h => by simp at h
  | j :: ps, y :: xs, v, hnd, n, i, x, h, h' => by
    simp only [assignAll]
    rw [List.nodup_cons] at hnd
    cases n with
    | zero =>
      simp only [List.getElem?_cons_zero, Option.some.injEq] at h h'
      rw [← h, assign_not _ _ _ _ hnd.1, if_pos rfl, h']
    | succ n =>
      simp only [List.getElem?_cons_succ] at h h'
      exact assign_get ps xs _ hnd.2 n i x h h'

/-- A step is one with the gradients that are there. -/
theorem took_step {o : Optimizer S} (ho : Fine o) (w : World S) (g : Nat → Option ℝ) (hg : ∀ i ∈ o.params, w.mem.grad i = g i) :
    Took o g w.params (w.step o).params := by
  have e : (o.params.map fun i => (w.mem.value i, w.mem.grad i)) = o.params.map fun i => (w.mem.value i, g i) :=
    List.map_congr_left fun i hi => by rw [hg i hi]
  refine ⟨fun k i h => ?_, fun i h => ?_, ?_, fun k h => ?_⟩
  · have hk : k < o.params.length := (List.getElem?_eq_some_iff.mp h).1
    have hl := ho.2 (w.opt o.id) (o.params.map fun i => (w.mem.value i, g i)) (by simp)
    refine ⟨_, List.getElem?_eq_getElem (lt_of_lt_of_eq hk hl.symm), ?_⟩
    simp only [World.step, World.params, optStep, e]
    exact assign_get _ _ _ ho.1 k i _ h (List.getElem?_eq_getElem _)
  · simp only [World.step, World.params, optStep]
    exact assign_not _ _ _ _ h
  · simp only [World.step, World.params, optStep, e, if_true]
  · simp only [World.step, World.params, if_neg h]

theorem zero_grad (o : Optimizer S) (w : World S) (i : Nat) (h : i ∈ o.params) : (w.zero o).mem.grad i = none := by
  simp [World.zero, zeroGrad, h]

theorem back_grad (g : Nat → Option ℝ) (w : World S) (i : Nat) (h : w.mem.grad i = none) : (w.back g).mem.grad i = g i := by
  simp [World.back, backward, h, addGrad]

/-- Clearing, differentiating, stepping. -/
theorem took_one {o : Optimizer S} (ho : Fine o) (g : Nat → Option ℝ) (w : World S) :
    Took o g w.params (((w.zero o).back g).step o).params :=
  took_step ho ((w.zero o).back g) g fun i hi => back_grad g _ i (zero_grad o w i hi)

theorem clip_grad (ps : List Nat) (c : ℝ) (w : World S) (g : Nat → Option ℝ) (is : List Nat) (hsub : ∀ i ∈ ps, i ∈ is)
    (h : ∀ i ∈ is, w.mem.grad i = g i) : ∀ i ∈ is, (w.clip ps c).mem.grad i = clipped ps c g i := by
  intro i hi
  have hn : gradNorm ps w.mem.grad = norm ps g := by
    unfold gradNorm norm
    congr 2
    exact List.map_congr_left fun j hj => by rw [h j (hsub j hj)]
  simp only [World.clip, clipGrad, clipped, hn, h i hi]

/-- Clearing, differentiating, clipping, stepping. -/
theorem took_clip {o : Optimizer S} (ho : Fine o) (ps : List Nat) (hsub : ∀ i ∈ ps, i ∈ o.params) (c : ℝ) (g : Nat → Option ℝ)
    (w : World S) : Took o (clipped ps c g) w.params ((((w.zero o).back g).clip ps c).step o).params :=
  took_step ho (((w.zero o).back g).clip ps c) _
    (clip_grad ps c _ g _ hsub fun i hi => back_grad g _ i (zero_grad o w i hi))

theorem assigned (f : (Nat → ℝ) → Nat → ℝ) (w : World S) : Assigned f w.params (w.assign f).params := rfl

/-- The result of a step is determined. -/
theorem took_unique {o : Optimizer S} {g : Nat → Option ℝ} {p q q' : Params S} (h : Took o g p q) (h' : Took o g p q') : q = q' := by
  obtain ⟨v, s⟩ := q
  obtain ⟨v', s'⟩ := q'
  obtain ⟨a, b, c, d⟩ := h
  obtain ⟨a', b', c', d'⟩ := h'
  simp only [Params.mk.injEq]
  refine ⟨funext fun i => ?_, funext fun k => ?_⟩
  · by_cases hi : i ∈ o.params
    · obtain ⟨k, hk⟩ := List.mem_iff_getElem?.mp hi
      obtain ⟨x, hx, e⟩ := a k i hk
      obtain ⟨x', hx', e'⟩ := a' k i hk
      rw [hx] at hx'
      simp only at e e'
      rw [e, e', Option.some.inj hx']
    · exact (b i hi).trans (b' i hi).symm
  · by_cases hk : k = o.id
    · subst hk; exact c.trans c'.symm
    · exact (d k hk).trans (d' k hk).symm

/-- Steps, each of which determines the next state, determine the last. -/
theorem chain_unique (xs : List (Params S → Params S → Prop)) (hd : ∀ x ∈ xs, ∀ p q q', x p q → x p q' → q = q') {p q q' : Params S}
    (h : Chain xs p q) (h' : Chain xs p q') : q = q' := by
  induction xs generalizing p with
  | nil => exact h.trans h'.symm
  | cons x xs ih =>
    obtain ⟨m, hx, hm⟩ := h
    obtain ⟨m', hx', hm'⟩ := h'
    have := hd x (by simp) p m m' hx hx'
    subst this
    exact ih (fun y hy => hd y (by simp [hy])) hm hm'

/-- Assigning if it is due. -/
def AssignedIf (due : Bool) (f : (Nat → ℝ) → Nat → ℝ) (p q : Params S) : Prop := if due then Assigned f p q else q = p

/-- Stepping if it is due. -/
def TookIf (due : Bool) (o : Optimizer S) (g : Nat → Option ℝ) (p q : Params S) : Prop := if due then Took o g p q else q = p

theorem assigned_if (due : Bool) (f : (Nat → ℝ) → Nat → ℝ) (w : World S) :
    AssignedIf due f w.params (if due then w.assign f else w).params := by
  cases due <;> rfl

theorem took_if (due : Bool) {o : Optimizer S} (ho : Fine o) (g : Nat → Option ℝ) (w : World S) :
    TookIf due o g w.params (if due then ((w.zero o).back g).step o else w).params := by
  cases due
  · rfl
  · exact took_one ho g w

/-! ### C257 -/

/-- C257 for DQN, C51, QR-DQN, IQN, BDQ, discrete CQL, discrete CRR and imitation: if it is due, the target network is renewed; then the
optimizer makes one step with the derivatives of the loss at the present values, whatever gradients there were. -/
theorem C257_dqn (due : Bool) (sync : (Nat → ℝ) → Nat → ℝ) (loss : Loss) (o : Optimizer S) (ho : Fine o) (w : World S) :
    ∃ p, AssignedIf due sync w.params p ∧ Took o (loss p.value) p (dqnLearn due sync loss o w).params :=
  ⟨_, assigned_if due sync w, took_one ho _ _⟩

/-- C257 for discrete BCQ. -/
theorem C257_discrete_bcq (due : Bool) (sync : (Nat → ℝ) → Nat → ℝ) (loss : Loss) (o : Optimizer S) (ho : Fine o) (w : World S) :
    ∃ p, AssignedIf due sync w.params p ∧ Took o (loss p.value) p (discreteBcqLearn due sync loss o w).params :=
  ⟨_, assigned_if due sync w, took_one ho _ _⟩

theorem chain_fold {A : Type} (f : World S → A → World S) (x : A → Params S → Params S → Prop) (h : ∀ w a, x a w.params (f w a).params) :
    ∀ (l : List A) (w : World S), Chain (l.map x) w.params (l.foldl f w).params
  | [], _ => rfl
  | a :: l, w => ⟨_, h w a, chain_fold f x h l (f w a)⟩

/-- C257 for PG: a step for each minibatch in each repetition, with the derivatives of the loss of that minibatch at the values that the step
before has left. -/
theorem C257_pg (epochs : List (List Loss)) (o : Optimizer S) (ho : Fine o) (w : World S) :
    Chain (epochs.flatten.map fun loss p q => Took o (loss p.value) p q) w.params (pgLearn epochs o w).params := by
  have : pgLearn epochs o w = epochs.flatten.foldl (fun w l => pgMini l o w) w := by
    rw [pgLearn, List.foldl_flatten]
  rw [this]
  exact chain_fold (fun w l => pgMini l o w) _ (fun w l => took_one ho (l w.mem.value) w) _ _

/-- C257 for A2C and PPO: likewise, with the norm bound on the gradients of actor and critic, all of which the optimizer holds; the losses of a
repetition may be computed from the values at its start. -/
theorem C257_a2c (ps : List Nat) (maxNorm : Option ℝ) (epochs : List ((Nat → ℝ) → List Loss)) (o : Optimizer S) (ho : Fine o)
    (hps : maxNorm ≠ none → ∀ i ∈ ps, i ∈ o.params) (w : World S) :
    Chain (epochs.map fun ls p q => Chain ((ls p.value).map fun loss p q => Took o (bounded ps maxNorm (loss p.value)) p q) p q) w.params
      (a2cLearn ps maxNorm epochs o w).params := by
  refine chain_fold (fun w ls => (ls w.mem.value).foldl (fun w l => a2cMini ps maxNorm l o w) w) _ (fun w ls => ?_) epochs w
  refine chain_fold (fun w l => a2cMini ps maxNorm l o w) _ (fun w l => ?_) _ w
  cases maxNorm with
  | none => exact took_one ho _ w
  | some c =>
    by_cases hc : c = 0
    · simp only [a2cMini, bounded, if_pos hc]; exact took_one ho _ w
    · simp only [a2cMini, bounded, if_neg hc]; exact took_clip ho ps (hps (by simp)) c _ w

theorem chain_iters (loss : Loss) (o : Optimizer S) (ho : Fine o) : ∀ (n : Nat) (w : World S),
    Chain (List.replicate n fun p q => Took o (loss p.value) p q) w.params (criticIters loss o n w).params
  | 0, _ => rfl
  | n + 1, w => ⟨_, took_one ho _ w, chain_iters loss o ho n _⟩

/-- C257 for NPG and TRPO: for each minibatch the actor's parameters are assigned, and then the critic's optimizer makes `optim_critic_iters`
steps, each with the derivatives of the critic's loss at the values the step before has left. -/
theorem C257_npg (iters : Nat) (minis : List (((Nat → ℝ) → Nat → ℝ) × Loss)) (o : Optimizer S) (ho : Fine o) (w : World S) :
    Chain (minis.map fun m p q => Chain ((Assigned m.1) :: List.replicate iters fun p q => Took o (m.2 p.value) p q) p q) w.params
      (npgLearn iters minis o w).params := by
  refine chain_fold (fun w m => npgMini iters m.1 m.2 o w) _ (fun w m => ?_) minis w
  exact ⟨_, assigned m.1 w, chain_iters m.2 o ho iters _⟩

/-- C257 for FQF: the optimizer of the fractions makes its step with the derivatives of the loss of the fractions, then that of the quantiles
with those of the quantile loss, both at the values before either step. -/
theorem C257_fqf (due : Bool) (sync : (Nat → ℝ) → Nat → ℝ) (fraction quantile : Loss) (oF o : Optimizer S) (hoF : Fine oF) (ho : Fine o)
    (w : World S) :
    ∃ p q, AssignedIf due sync w.params p ∧ Took oF (fraction p.value) p q ∧
      Took o (quantile p.value) q (fqfLearn due sync fraction quantile oF o w).params :=
  ⟨_, _, assigned_if due sync w, took_one hoF _ _, took_one ho _ _⟩

/-- C257 for DDPG: the critic follows its loss at the values before; then the actor follows its loss, evaluated with the new critic, and the
critic does not move; then the target networks are moved. -/
theorem C257_ddpg (sync : (Nat → ℝ) → Nat → ℝ) (critic actor : Loss) (oC oA : Optimizer S) (hC : Fine oC) (hA : Fine oA) (w : World S) :
    ∃ p q, Took oC (critic w.params.value) w.params p ∧ Took oA (actor p.value) p q ∧
      Assigned sync q (ddpgLearn sync critic actor oC oA w).params :=
  ⟨_, _, took_one hC _ w, took_one hA _ _, assigned sync _⟩

/-- C257 for TD3 and TD3+BC. -/
theorem C257_td3 (due : Bool) (sync : (Nat → ℝ) → Nat → ℝ) (critic critic2 actor : Loss) (oC oC2 oA : Optimizer S) (hC : Fine oC)
    (hC2 : Fine oC2) (hA : Fine oA) (w : World S) :
    ∃ p q r, Took oC (critic w.params.value) w.params p ∧ Took oC2 (critic2 p.value) p q ∧ TookIf due oA (actor q.value) q r ∧
      AssignedIf due sync r (td3Learn due sync critic critic2 actor oC oC2 oA w).params := by
  refine ⟨_, _, _, took_one hC _ w, took_one hC2 _ _, took_if due hA _ _, ?_⟩
  cases due <;> rfl

/-- C257 for REDQ with a fixed coefficient. -/
theorem C257_redq (due : Bool) (sync : (Nat → ℝ) → Nat → ℝ) (critic actor : Loss) (oC oA : Optimizer S) (hC : Fine oC) (hA : Fine oA)
    (w : World S) :
    ∃ p q, Took oC (critic w.params.value) w.params p ∧ TookIf due oA (actor p.value) p q ∧
      Assigned sync q (redqLearn due sync critic actor oC oA w).params :=
  ⟨_, _, took_one hC _ w, took_if due hA _ _, assigned sync _⟩

/-- C257 for SAC and discrete SAC: the two critics, the actor and, if it is tuned, the coefficient each follow their own loss; that of the
coefficient is evaluated with the actor before its step. -/
theorem C257_sac (auto : Bool) (sync : (Nat → ℝ) → Nat → ℝ) (critic critic2 actor alpha : Loss) (oC oC2 oA oAl : Optimizer S)
    (hC : Fine oC) (hC2 : Fine oC2) (hA : Fine oA) (hAl : Fine oAl) (w : World S) :
    ∃ p q r s, Took oC (critic w.params.value) w.params p ∧ Took oC2 (critic2 p.value) p q ∧ Took oA (actor q.value) q r ∧
      TookIf auto oAl (alpha q.value) r s ∧
      Assigned sync s (sacLearn auto sync critic critic2 actor alpha oC oC2 oA oAl w).params :=
  ⟨_, _, _, _, took_one hC _ w, took_one hC2 _ _, took_one hA _ _, took_if auto hAl _ _, assigned sync _⟩

/-- C257 for CQL: first the actor and, if it is tuned, the coefficient follow their losses at the values before; then the multiplier, if it is
tuned, and the critics follow theirs, all at the values after the first two; the gradients of the critics are clipped, where each critic's
optimizer holds all parameters of its critic. -/
theorem C257_cql (auto lagrange : Bool) (psC psC2 : List Nat) (c : ℝ) (sync : (Nat → ℝ) → Nat → ℝ)
    (actor alpha cqlAlpha critic critic2 : Loss) (oA oAl oL oC oC2 : Optimizer S) (hA : Fine oA) (hAl : Fine oAl) (hL : Fine oL)
    (hC : Fine oC) (hC2 : Fine oC2) (hpC : ∀ i ∈ psC, i ∈ oC.params) (hpC2 : ∀ i ∈ psC2, i ∈ oC2.params) (w : World S) :
    ∃ p q r s t, Took oA (actor w.params.value) w.params p ∧ TookIf auto oAl (alpha w.params.value) p q ∧
      TookIf lagrange oL (cqlAlpha q.value) q r ∧ Took oC (clipped psC c (critic q.value)) r s ∧
      Took oC2 (clipped psC2 c (critic2 q.value)) s t ∧
      Assigned sync t
        (cqlLearn auto lagrange psC psC2 c sync actor alpha cqlAlpha critic critic2 oA oAl oL oC oC2 w).params :=
  ⟨_, _, _, _, _, took_one hA _ w, took_if auto hAl _ _, took_if lagrange hL _ _, took_clip hC psC hpC c _ _,
    took_clip hC2 psC2 hpC2 c _ _, assigned sync _⟩

theorem back_none (g : Nat → Option ℝ) (w : World S) (i : Nat) (h : g i = none) : (w.back g).mem.grad i = w.mem.grad i := by
  simp only [World.back, backward, h]
  cases w.mem.grad i <;> rfl

/-- C257 for BCQ, where both critics are differentiated before either makes its step: if the losses of each critic do not reach the parameters
of the other, each network follows its own loss. The actor's loss is evaluated with the new critic and the new autoencoder. -/
theorem C257_bcq (sync : (Nat → ℝ) → Nat → ℝ) (vae critic critic2 actor : Loss) (oV oC oC2 oA : Optimizer S) (hV : Fine oV)
    (hC : Fine oC) (hC2 : Fine oC2) (hA : Fine oA) (h12 : ∀ v, ∀ i ∈ oC2.params, critic v i = none)
    (h21 : ∀ v, ∀ i ∈ oC.params, critic2 v i = none) (w : World S) :
    ∃ p q r s, Took oV (vae w.params.value) w.params p ∧ Took oC (critic p.value) p q ∧ Took oC2 (critic2 p.value) q r ∧
      Took oA (actor r.value) r s ∧ Assigned sync s (bcqLearn sync vae critic critic2 actor oV oC oC2 oA w).params := by
  let w1 := ((w.zero oV).back (vae w.mem.value)).step oV
  let w2 := (((w1.zero oC).zero oC2).back (critic w1.mem.value)).back (critic2 w1.mem.value)
  have z1 : ∀ i ∈ oC.params, ((w1.zero oC).zero oC2).mem.grad i = none := by
    intro i hi
    simp [World.zero, zeroGrad, hi]
  have z2 : ∀ i ∈ oC2.params, ((w1.zero oC).zero oC2).mem.grad i = none := fun i hi => zero_grad oC2 _ i hi
  have g1 : ∀ i ∈ oC.params, w2.mem.grad i = critic w1.mem.value i := by
    intro i hi
    show (World.back _ _).mem.grad i = _
    rw [back_none _ _ i (h21 _ i hi), back_grad _ _ i (z1 i hi)]
  have g2 : ∀ i ∈ oC2.params, w2.mem.grad i = critic2 w1.mem.value i := by
    intro i hi
    show (World.back _ _).mem.grad i = _
    exact back_grad _ _ i (by rw [back_none _ _ i (h12 _ i hi), z2 i hi])
  have t1 : Took oC (critic w1.mem.value) w1.params (w2.step oC).params := took_step hC w2 _ g1
  have t2 : Took oC2 (critic2 w1.mem.value) (w2.step oC).params ((w2.step oC).step oC2).params :=
    took_step hC2 (w2.step oC) _ g2
  exact ⟨w1.params, _, _, _, took_one hV _ w, t1, t2, took_one hA _ _, assigned sync _⟩

/-- C257 for GAIL: one step of the discriminator for each part of the batch, then PPO. -/
theorem C257_gail (discs : List Loss) (oD : Optimizer S) (hD : Fine oD) (ps : List Nat) (maxNorm : Option ℝ)
    (epochs : List ((Nat → ℝ) → List Loss)) (o : Optimizer S) (ho : Fine o) (hps : maxNorm ≠ none → ∀ i ∈ ps, i ∈ o.params)
    (w : World S) :
    ∃ p, Chain (discs.map fun loss p q => Took oD (loss p.value) p q) w.params p ∧
      Chain (epochs.map fun ls p q => Chain ((ls p.value).map fun loss p q => Took o (bounded ps maxNorm (loss p.value)) p q) p q) p
        (gailLearn discs oD ps maxNorm epochs o w).params :=
  ⟨_, chain_fold (fun w l => mseOptimizer l oD w) _ (fun w l => took_one hD (l w.mem.value) w) _ _, C257_a2c ps maxNorm epochs o ho hps _⟩

/-- C257 for ICM: after `learn` of the policy inside, whatever gradients it leaves, the model makes one step with the derivatives of its own
loss at the values with which the curiosity was computed. -/
theorem C257_icm (inner : World S → World S) (model : Loss) (o : Optimizer S) (ho : Fine o) (w : World S) :
    Took o (model w.params.value) (inner w).params (icmLearn inner model o w).params :=
  took_one ho _ _

/-! ### Runs -/

/-- A call of `learn` of some policy. -/
inductive Call (S : Type)
  | dqn (due : Bool) (sync : (Nat → ℝ) → Nat → ℝ) (loss : Loss) (o : Optimizer S)
  | discreteBcq (due : Bool) (sync : (Nat → ℝ) → Nat → ℝ) (loss : Loss) (o : Optimizer S)
  | pg (epochs : List (List Loss)) (o : Optimizer S)
  | a2c (ps : List Nat) (maxNorm : Option ℝ) (epochs : List ((Nat → ℝ) → List Loss)) (o : Optimizer S)
  | npg (iters : Nat) (minis : List (((Nat → ℝ) → Nat → ℝ) × Loss)) (o : Optimizer S)
  | fqf (due : Bool) (sync : (Nat → ℝ) → Nat → ℝ) (fraction quantile : Loss) (oF o : Optimizer S)
  | ddpg (sync : (Nat → ℝ) → Nat → ℝ) (critic actor : Loss) (oC oA : Optimizer S)
  | td3 (due : Bool) (sync : (Nat → ℝ) → Nat → ℝ) (critic critic2 actor : Loss) (oC oC2 oA : Optimizer S)
  | redq (due : Bool) (sync : (Nat → ℝ) → Nat → ℝ) (critic actor : Loss) (oC oA : Optimizer S)
  | sac (auto : Bool) (sync : (Nat → ℝ) → Nat → ℝ) (critic critic2 actor alpha : Loss) (oC oC2 oA oAl : Optimizer S)
  | cql (auto lagrange : Bool) (psC psC2 : List Nat) (c : ℝ) (sync : (Nat → ℝ) → Nat → ℝ)
      (actor alpha cqlAlpha critic critic2 : Loss) (oA oAl oL oC oC2 : Optimizer S)
  | bcq (sync : (Nat → ℝ) → Nat → ℝ) (vae critic critic2 actor : Loss) (oV oC oC2 oA : Optimizer S)
  | gail (discs : List Loss) (oD : Optimizer S) (ps : List Nat) (maxNorm : Option ℝ) (epochs : List ((Nat → ℝ) → List Loss))
      (o : Optimizer S)
  | icm (inner : Call S) (model : Loss) (o : Optimizer S)

/-- What the call does. -/
noncomputable def Call.run : Call S → World S → World S
  | .dqn due sync loss o => dqnLearn due sync loss o
  | .discreteBcq due sync loss o => discreteBcqLearn due sync loss o
  | .pg epochs o => pgLearn epochs o
  | .a2c ps c epochs o => a2cLearn ps c epochs o
  | .npg n ms o => npgLearn n ms o
  | .fqf due sync f q oF o => fqfLearn due sync f q oF o
  | .ddpg sync c a oC oA => ddpgLearn sync c a oC oA
  | .td3 due sync c c2 a oC oC2 oA => td3Learn due sync c c2 a oC oC2 oA
  | .redq due sync c a oC oA => redqLearn due sync c a oC oA
  | .sac auto sync c c2 a al oC oC2 oA oAl => sacLearn auto sync c c2 a al oC oC2 oA oAl
  | .cql auto lag pC pC2 k sync a al l c c2 oA oAl oL oC oC2 => cqlLearn auto lag pC pC2 k sync a al l c c2 oA oAl oL oC oC2
  | .bcq sync v c c2 a oV oC oC2 oA => bcqLearn sync v c c2 a oV oC oC2 oA
  | .gail ds oD ps c epochs o => gailLearn ds oD ps c epochs o
  | .icm inner m o => icmLearn inner.run m o

/-- Where gradients are clipped, the optimizer holds all parameters they belong to. -/
def Call.Holds : Call S → Prop
  | .a2c ps c _ o => c ≠ none → ∀ i ∈ ps, i ∈ o.params
  | .cql _ _ pC pC2 _ _ _ _ _ _ _ _ _ _ oC oC2 => (∀ i ∈ pC, i ∈ oC.params) ∧ ∀ i ∈ pC2, i ∈ oC2.params
  | .gail _ _ ps c _ o => c ≠ none → ∀ i ∈ ps, i ∈ o.params
  | .icm inner _ _ => inner.Holds
  | _ => True

theorem step_same (o : Optimizer S) {w w' : World S} (h : w.params = w'.params) (hg : ∀ i ∈ o.params, w.mem.grad i = w'.mem.grad i) :
    (w.step o).params = (w'.step o).params := by
  have hv : w.mem.value = w'.mem.value := congrArg Params.value h
  have ho : w.opt = w'.opt := congrArg Params.opt h
  have e : (o.params.map fun i => (w'.mem.value i, w.mem.grad i)) = o.params.map fun i => (w'.mem.value i, w'.mem.grad i) :=
    List.map_congr_left fun i hi => by rw [hg i hi]
  simp only [World.step, World.params, optStep, hv, ho, e]

theorem one_same (o : Optimizer S) (g : Nat → Option ℝ) {w w' : World S} (h : w.params = w'.params) :
    (((w.zero o).back g).step o).params = (((w'.zero o).back g).step o).params :=
  step_same o h fun i hi => by rw [back_grad g _ i (zero_grad o w i hi), back_grad g _ i (zero_grad o w' i hi)]

theorem clip_same (o : Optimizer S) (ps : List Nat) (hsub : ∀ i ∈ ps, i ∈ o.params) (c : ℝ) (g : Nat → Option ℝ) {w w' : World S}
    (h : w.params = w'.params) :
    ((((w.zero o).back g).clip ps c).step o).params = ((((w'.zero o).back g).clip ps c).step o).params :=
  step_same o h fun i hi => by
    rw [clip_grad ps c _ g _ hsub (fun i hi => back_grad g _ i (zero_grad o w i hi)) i hi,
      clip_grad ps c _ g _ hsub (fun i hi => back_grad g _ i (zero_grad o w' i hi)) i hi]

theorem assign_same (f : (Nat → ℝ) → Nat → ℝ) {w w' : World S} (h : w.params = w'.params) : (w.assign f).params = (w'.assign f).params := by
  have hv : w.mem.value = w'.mem.value := congrArg Params.value h
  have ho : w.opt = w'.opt := congrArg Params.opt h
  simp only [World.assign, World.params, hv, ho]

theorem value_same {w w' : World S} (h : w.params = w'.params) : w.mem.value = w'.mem.value := congrArg Params.value h

theorem fold_same {A : Type} (f : World S → A → World S) (hf : ∀ a (w w' : World S), w.params = w'.params → (f w a).params = (f w' a).params) :
    ∀ (l : List A) {w w' : World S}, w.params = w'.params → (l.foldl f w).params = (l.foldl f w').params
  | [], _, _, h => h
  | a :: l, _, _, h => fold_same f hf l (hf a _ _ h)

theorem mse_same (l : Loss) (o : Optimizer S) {w w' : World S} (h : w.params = w'.params) :
    (mseOptimizer l o w).params = (mseOptimizer l o w').params := by
  simp only [mseOptimizer, value_same h]
  exact one_same o _ h

theorem iters_same (l : Loss) (o : Optimizer S) : ∀ (n : Nat) {w w' : World S}, w.params = w'.params →
    (criticIters l o n w).params = (criticIters l o n w').params
  | 0, _, _, h => h
  | n + 1, _, _, h => iters_same l o n (mse_same l o h)

theorem a2c_same (ps : List Nat) (c : Option ℝ) (epochs : List ((Nat → ℝ) → List Loss)) (o : Optimizer S)
    (hps : c ≠ none → ∀ i ∈ ps, i ∈ o.params) {w w' : World S} (h : w.params = w'.params) :
    (a2cLearn ps c epochs o w).params = (a2cLearn ps c epochs o w').params := by
  refine fold_same _ (fun ls w w' h => ?_) epochs h
  show (List.foldl _ w (ls w.mem.value)).params = (List.foldl _ w' (ls w'.mem.value)).params
  rw [value_same h]
  refine fold_same _ (fun l w w' h => ?_) _ h
  simp only [a2cMini, value_same h]
  cases c with
  | none => exact one_same o _ h
  | some c =>
    by_cases hc : c = 0
    · simp only [if_pos hc]; exact one_same o _ h
    · simp only [if_neg hc]; exact clip_same o ps (hps (by simp)) c _ h

theorem ite_same (b : Bool) {u u' w w' : World S} (h : u.params = u'.params) (h' : w.params = w'.params) :
    (if b then u else w).params = (if b then u' else w').params := by
  cases b
  · exact h'
  · exact h

theorem call_same : ∀ (c : Call S), c.Holds → ∀ {w w' : World S}, w.params = w'.params → (c.run w).params = (c.run w').params := by
  intro c
  induction c with
  | dqn due sync loss o =>
    intro _ w w' h
    have h1 := ite_same due (assign_same sync h) h
    exact mse_same loss o h1
  | discreteBcq due sync loss o =>
    intro _ w w' h
    exact mse_same loss o (ite_same due (assign_same sync h) h)
  | pg epochs o =>
    intro _ w w' h
    exact fold_same _ (fun ls w w' h => fold_same _ (fun l w w' h => mse_same l o h) ls h) epochs h
  | a2c ps c epochs o => intro hc w w' h; exact a2c_same ps c epochs o hc h
  | npg n ms o =>
    intro _ w w' h
    exact fold_same _ (fun m w w' h => iters_same m.2 o n (assign_same m.1 h)) ms h
  | fqf due sync f q oF o =>
    intro _ w w' h
    have h1 := ite_same due (assign_same sync h) h
    simp only [Call.run, fqfLearn, value_same h1]
    exact one_same o _ (one_same oF _ h1)
  | ddpg sync c a oC oA =>
    intro _ w w' h
    exact assign_same sync (mse_same a oA (mse_same c oC h))
  | td3 due sync c c2 a oC oC2 oA =>
    intro _ w w' h
    have h2 := mse_same c2 oC2 (mse_same c oC h)
    exact ite_same due (assign_same sync (mse_same a oA h2)) h2
  | redq due sync c a oC oA =>
    intro _ w w' h
    have h1 := mse_same c oC h
    exact assign_same sync (ite_same due (mse_same a oA h1) h1)
  | sac auto sync c c2 a al oC oC2 oA oAl =>
    intro _ w w' h
    have h2 := mse_same c2 oC2 (mse_same c oC h)
    simp only [Call.run, sacLearn, value_same h2]
    have h3 := one_same oA (a (mseOptimizer c2 oC2 (mseOptimizer c oC w')).mem.value) h2
    exact assign_same sync (ite_same auto (one_same oAl _ h3) h3)
  | cql auto lag pC pC2 k sync a al l c c2 oA oAl oL oC oC2 =>
    intro hh w w' h
    have h1 := one_same oA (a w'.mem.value) h
    have h2 := ite_same auto (one_same oAl (al w'.mem.value) h1) h1
    simp only [Call.run, cqlLearn, value_same h]
    simp only [value_same h2]
    exact assign_same sync (clip_same oC2 pC2 hh.2 k _ (clip_same oC pC hh.1 k _ (ite_same lag (one_same oL _ h2) h2)))
  | bcq sync v c c2 a oV oC oC2 oA =>
    intro _ w w' h
    have h1 : (((w.zero oV).back (v w'.mem.value)).step oV).params = (((w'.zero oV).back (v w'.mem.value)).step oV).params :=
      one_same oV _ h
    simp only [Call.run, bcqLearn, value_same h]
    simp only [value_same h1]
    generalize ((w.zero oV).back (v w'.mem.value)).step oV = u at h1 ⊢
    generalize ((w'.zero oV).back (v w'.mem.value)).step oV = u' at h1 ⊢
    refine assign_same sync (mse_same a oA ?_)
    have z : ∀ i, i ∈ oC.params ∨ i ∈ oC2.params →
        ((((u.zero oC).zero oC2).back (c u'.mem.value)).back (c2 u'.mem.value)).mem.grad i =
        ((((u'.zero oC).zero oC2).back (c u'.mem.value)).back (c2 u'.mem.value)).mem.grad i := by
      intro i hi
      have e : ((u.zero oC).zero oC2).mem.grad i = ((u'.zero oC).zero oC2).mem.grad i := by
        by_cases h1 : i ∈ oC2.params
        · simp [World.zero, zeroGrad, h1]
        · simp [World.zero, zeroGrad, h1, hi.resolve_right h1]
      simp only [World.back, backward, e]
    exact step_same oC2 (step_same oC h1 fun i hi => z i (Or.inl hi)) fun i hi => z i (Or.inr hi)
  | gail ds oD ps c epochs o =>
    intro hc w w' h
    exact a2c_same ps c epochs o hc (fold_same _ (fun l w w' h => mse_same l oD h) ds h)
  | icm inner m o ih =>
    intro hc w w' h
    simp only [Call.run, icmLearn, value_same h]
    exact one_same o _ (ih hc h)

/-- Calls of `learn`, before each of which any backward passes `gs` are made. -/
noncomputable def runAll : List (List (Nat → Option ℝ) × Call S) → World S → World S
  | [], w => w
  | (gs, c) :: cs, w => runAll cs (c.run (gs.foldl (fun w g => w.back g) w))

/-- C257, runs: any calls of `learn` of any policies, which may share networks and optimizers, leave the same values and the same states of
the optimizers as without the gradients at the start and without any backward passes made in between. -/
theorem C257_run (cs : List (List (Nat → Option ℝ) × Call S)) (hc : ∀ c ∈ cs, c.2.Holds) (w w' : World S)
    (h : w.params = w'.params) :
    (runAll cs w).params = (runAll (cs.map fun c => ([], c.2)) w').params := by
  induction cs generalizing w w' with
  | nil => exact h
  | cons c cs ih =>
    obtain ⟨gs, c⟩ := c
    have e : (gs.foldl (fun w g => w.back g) w).params = w'.params := by
      have : ∀ (gs : List (Nat → Option ℝ)) (w : World S), (gs.foldl (fun w g => w.back g) w).params = w.params := by
        intro gs
        induction gs with
        | nil => intro w; rfl
        | cons g gs ih => intro w; rw [List.foldl_cons, ih]; rfl
      rw [this, h]
    exact ih (fun c' hc' => hc c' (List.mem_cons_of_mem _ hc')) _ _ (call_same c (hc (gs, c) (by simp)) e)

/-! ### Examples -/

/-- Gradient descent with rate one. -/
def plain (params : List Nat) (id : Nat) : Optimizer Unit := ⟨⟨params, fun _ l => ((), l.map fun x => x.1 - x.2.getD 0)⟩, id⟩

theorem plain_fine (params : List Nat) (id : Nat) (h : params.Nodup) : Fine (plain params id) := ⟨h, fun _ l hl => by simp [plain, hl]⟩

/-- DDPG with a critic of one parameter (0) and an actor of one parameter (1): the actor's loss reaches the critic as well, and gradients 5 and
7 are left over. The critic moves by its own gradient 2 and the actor by its own, which is the new value of the critic. -/
example :
    let w : World Unit := ⟨⟨fun _ => 3, fun i => if i = 0 then some 5 else some 7⟩, fun _ => ()⟩
    let u := ddpgLearn id (fun _ i => if i = 0 then some 2 else none) (fun v i => if i = 0 then some (v 1) else some (v 0)) (plain [0] 0)
      (plain [1] 1) w
    u.mem.value 0 = 1 ∧ u.mem.value 1 = 2 ∧ u.mem.grad 0 = some 5 ∧ Fine (plain [0] 0) := by
  refine ⟨?_, ?_, ?_, plain_fine _ _ (by decide)⟩
  all_goals
    norm_num [ddpgLearn, mseOptimizer, World.zero, World.back, World.step, World.assign, zeroGrad, backward, optStep, plain, addGrad, assignAll]

/-- The clipped optimizers of the hypotheses exist: A2C with all parameters in the optimizer. -/
example : (Call.a2c [0, 1] (some 1) [fun _ => [fun v i => some (v i)]] (plain [0, 1] 0)).Holds := by
  intro _ i hi
  exact hi

end Verif.Learn
