import Verif.Model.ActorCritic
import Verif.Props.Ppo
import Verif.Props.QTarget
import Mathlib.Analysis.SpecialFunctions.Exp
import Mathlib.Tactic.Linarith
import Mathlib.Tactic.FieldSimp
import Mathlib.Tactic.Ring

/-! Properties C100-C106: off-policy actor-critic policies and Ornstein-Uhlenbeck noise. -/

set_option linter.unusedSectionVars false

namespace Verif.ActorCritic

open Verif.Policy Verif.Returns Verif.Buffer Verif.Spec

/-! ### C100 -/

section cadence

variable {W : Type}

theorem td3Run_length (soft : W → W → W) (freq : Nat) (os : List (Opt W)) (s : Nets W) :
    (td3Run soft freq s os).length = os.length + 1 := by
  induction os generalizing s with
  | nil => rfl
  | cons o os ih => simp [td3Run, ih]

theorem td3Run_step (soft : W → W → W) (freq : Nat) (os : List (Opt W)) (s : Nets W) (i : Nat) (o : Opt W)
    (ho : os[i]? = some o) : ∃ a, (td3Run soft freq s os)[i]? = some a ∧
      (td3Run soft freq s os)[i + 1]? = some (td3Learn soft freq o a) ∧ a.cnt = s.cnt + i := by
  induction os generalizing s i with
  | nil => simp at ho
  | cons o' os ih =>
    cases i with
    | zero =>
      simp only [List.getElem?_cons_zero, Option.some.injEq] at ho
      subst ho
      refine ⟨s, rfl, ?_, by simp⟩
      cases os <;> simp [td3Run]
    | succ i =>
      obtain ⟨a, h1, h2, h3⟩ := ih (td3Learn soft freq o' s) i (by simpa using ho)
      refine ⟨a, by simpa [td3Run] using h1, by simpa [td3Run] using h2, ?_⟩
      rw [h3]
      have : (td3Learn soft freq o' s).cnt = s.cnt + 1 := by
        unfold td3Learn; simp only; split_ifs <;> rfl
      omega

/-- C100 for TD3, from construction on: both critics take an optimizer step in every call of `learn`; the actor takes
its step, and the three target networks are moved towards the networks, exactly in the calls number 0, `freq`,
`2·freq`, …; the actor's step is taken with the critics already updated, and the target networks follow the networks as
they are after the steps. -/
theorem C100_td3 (soft : W → W → W) (freq : Nat) (_hf : 0 < freq) (os : List (Opt W)) (a0 c0 c20 : W) (i : Nat)
    (o : Opt W) (ho : os[i]? = some o) :
    ∃ s t, (td3Run soft freq (Nets.new a0 c0 c20) os)[i]? = some s ∧
      (td3Run soft freq (Nets.new a0 c0 c20) os)[i + 1]? = some t ∧
      t.critic = o.critic s ∧ t.critic2 = o.critic2 { s with critic := t.critic } ∧
      (i % freq = 0 → t.actor = o.actor { s with critic := t.critic, critic2 := t.critic2 } ∧
        t.actorOld = soft s.actorOld t.actor ∧ t.criticOld = soft s.criticOld t.critic ∧
        t.critic2Old = soft s.critic2Old t.critic2) ∧
      (i % freq ≠ 0 → t.actor = s.actor ∧ t.actorOld = s.actorOld ∧ t.criticOld = s.criticOld ∧
        t.critic2Old = s.critic2Old) := by
  obtain ⟨s, h1, h2, h3⟩ := td3Run_step soft freq os (Nets.new a0 c0 c20) i o ho
  have hc : s.cnt = i := by rw [h3]; simp [Nets.new]
  refine ⟨s, _, h1, h2, ?_, ?_, ?_, ?_⟩
  · unfold td3Learn; simp only; split_ifs <;> rfl
  · unfold td3Learn; simp only; split_ifs <;> rfl
  · intro h
    unfold td3Learn
    simp only [hc, if_pos h]
    exact ⟨rfl, rfl, rfl, rfl⟩
  · intro h
    unfold td3Learn
    simp only [hc, if_neg h]
    exact ⟨trivial, trivial, trivial, trivial⟩

/-- C100 for DDPG: every call updates the critic, then the actor, then both target networks. -/
theorem C100_ddpg (soft : W → W → W) (o : Opt W) (s : Nets W) :
    (ddpgLearn soft o s).critic = o.critic s ∧
    (ddpgLearn soft o s).actor = o.actor { s with critic := (ddpgLearn soft o s).critic } ∧
    (ddpgLearn soft o s).actorOld = soft s.actorOld (ddpgLearn soft o s).actor ∧
    (ddpgLearn soft o s).criticOld = soft s.criticOld (ddpgLearn soft o s).critic := ⟨rfl, rfl, rfl, rfl⟩

/-- C100, start: before the first call of `learn` each target network equals the network it is the target of. -/
theorem C100_start (soft : W → W → W) (freq : Nat) (os : List (Opt W)) (a0 c0 c20 : W) :
    ∃ s, (td3Run soft freq (Nets.new a0 c0 c20) os)[0]? = some s ∧ s.actor = a0 ∧ s.actorOld = a0 ∧ s.critic = c0 ∧ s.criticOld = c0 ∧
      s.critic2 = c20 ∧ s.critic2Old = c20 := by
  refine ⟨Nets.new a0 c0 c20, ?_, rfl, rfl, rfl, rfl, rfl, rfl⟩
  cases os <;> rfl

/-- Optimizers that count their steps. -/
def exOpt : Opt Nat := ⟨fun s => s.critic + 1, fun s => s.critic2 + 1, fun s => s.actor + 1⟩

/-- Five calls with `update_actor_freq=2`: the actor is updated in calls 0, 2 and 4. -/
example : (td3Run (fun _ n => n) 2 (Nets.new 0 0 0) (List.replicate 5 exOpt)).map (fun s => (s.actor, s.critic, s.criticOld)) =
    [(0, 0, 0), (1, 1, 1), (1, 2, 1), (2, 3, 3), (2, 4, 3), (3, 5, 5)] := by decide

variable {K : Type}

/-- C100 for REDQ with a fixed `alpha`: `learn` never fails, the critics and their targets are updated in every call,
the actor exactly if the number of calls including this one is a multiple of `actor_delay`. -/
theorem C100_redq (soft : W → W → W) (delay : Nat) (_hd : 0 < delay) (optC optA : Redq W K → W) (s : Redq W K) (a : K)
    (ha : s.alpha = .fixed a) :
    ∃ t, redqLearn soft delay optC optA s = .ok t ∧ t.step = s.step + 1 ∧ t.alpha = .fixed a ∧ t.critic = optC s ∧
      t.criticOld = soft s.criticOld t.critic ∧
      (t.step % delay = 0 → t.actor = optA { s with critic := t.critic, step := t.step }) ∧
      (t.step % delay ≠ 0 → t.actor = s.actor) := by
  unfold redqLearn
  simp only [ha]
  by_cases h : (s.step + 1) % delay = 0
  · rw [if_pos h]
    exact ⟨_, rfl, rfl, rfl, rfl, rfl, fun _ => by simp [ha], fun h' => absurd h h'⟩
  · rw [if_neg h]
    exact ⟨_, rfl, rfl, by simp [ha], rfl, rfl, fun h' => absurd h' h, fun _ => rfl⟩

example : (match redqRun (fun _ n => n) 3 (⟨0, 0, 0, 0, .fixed 1⟩ : Redq Nat Nat)
    (List.replicate 7 (fun s => s.critic + 1, fun s => s.actor + 1)) with
    | .ok s => [s.actor, s.critic, s.criticOld, s.step]
    | .error _ => []) = [2, 7, 7, 7] := by decide

end cadence

/-! ### C101, C102 -/

section target

variable {O A X K : Type} [Field K] [LinearOrder K] [IsStrictOrderedRing K]

theorem td3Act_get (pn nc : K) (act rand : List K) (i : Nat) (a r : K) (ha : act[i]? = some a)
    (hr : rand[i]? = some r) : (td3Act pn nc act rand)[i]? =
      some (a + if 0 < nc then Ppo.clamp (-nc) nc (r * pn) else r * pn) := by
  unfold td3Act; rw [List.getElem?_zipWith, ha, hr]

/-- C101: every return of TD3 is the n-step return bootstrapped with the smaller of the two target critics' values of
the smoothed action of the target actor in the state after the last step covered. -/
theorem C101_returns {b : Buf O A K} {g : Ghost O A K} (h : History b g) (indices : List Nat)
    (hind : ∀ i ∈ indices, i ∈ b.idx.allIndices) (critic1 critic2 : QTarget.Inp O → List K → K)
    (actorOld : QTarget.Inp O → List K) (pn nc : K) (rand : Nat → List K) (gamma : K) (N : Nat) (hN : 0 < N) :
    ∃ out, computeNstepReturn (ofBuf b) indices.length indices
        (fun l => l.zipIdx.map fun q => [td3Target critic1 critic2 actorOld pn nc (rand q.2) (b.getRow q.1).obsNext])
        gamma N = some out ∧ out.length = indices.length ∧
      ∀ (p i k : Nat), indices[p]? = some i → b.idx.allIndices[k]? = some i →
        ∃ (i' : Nat) (v : K), b.idx.allIndices[k + (nstepLen (stored b) N k - 1)]? = some i' ∧
          (v = critic1 (b.getRow i').obsNext (td3Act pn nc (actorOld (b.getRow i').obsNext) (rand p)) ∨
            v = critic2 (b.getRow i').obsNext (td3Act pn nc (actorOld (b.getRow i').obsNext) (rand p))) ∧
          v ≤ critic1 (b.getRow i').obsNext (td3Act pn nc (actorOld (b.getRow i').obsNext) (rand p)) ∧
          v ≤ critic2 (b.getRow i').obsNext (td3Act pn nc (actorOld (b.getRow i').obsNext) (rand p)) ∧
          out[p]? = some [nstepValue (stored b) gamma N k v] := by
  obtain ⟨after, out, h1, h2, h3, h4⟩ := C36_buffer h indices hind
    (fun l => l.zipIdx.map fun q => [td3Target critic1 critic2 actorOld pn nc (rand q.2) (b.getRow q.1).obsNext])
    (by intro l; simp) gamma N hN
  refine ⟨out, h1, h2, ?_⟩
  intro p i k hp hk
  obtain ⟨h5, q, h6, h7⟩ := h4 p i k hp hk
  have hlt : p < after.length := by
    rw [h3]; exact (List.getElem?_eq_some_iff.mp hp).1
  obtain ⟨i', hi'⟩ : ∃ i', after[p]? = some i' := ⟨_, List.getElem?_eq_getElem hlt⟩
  refine ⟨i', _, by rw [← h5, hi'], min_choice _ _, min_le_left _ _, min_le_right _ _, ?_⟩
  simp only [List.getElem?_map, List.getElem?_zipIdx, hi', Option.map_some, Option.some.injEq, Nat.zero_add] at h6
  rw [h7, ← h6]; rfl

/-- C101: with a positive `noise_clip`, the smoothed action differs from the target actor's action by at most
`noise_clip` in every component. -/
theorem C101_noise_partial (pn nc : K) (hnc : 0 < nc) (act rand : List K) (hlen : rand.length = act.length) :
    (td3Act pn nc act rand).length = act.length ∧
    ∀ (i : Nat) (a a' : K), act[i]? = some a → (td3Act pn nc act rand)[i]? = some a' → |a' - a| ≤ nc := by
  refine ⟨by simp [td3Act, hlen], ?_⟩
  intro i a a' ha ha'
  have hi := (List.getElem?_eq_some_iff.mp ha).1
  obtain ⟨r, hr⟩ : ∃ r, rand[i]? = some r := ⟨_, List.getElem?_eq_getElem (by omega)⟩
  rw [td3Act_get pn nc act rand i a r ha hr, if_pos hnc] at ha'
  cases ha'
  rw [add_sub_cancel_left, abs_le]
  exact Ppo.clamp_mem (by linarith) _

/-- C101 is violated: the smoothed action is not kept inside the action range, here `[-1, 1]`, of which the target
actor's action is the upper end. -/
theorem C101_violated : ∃ (act rand : List ℚ), (∀ a ∈ act, |a| ≤ 1) ∧
    ∃ a ∈ td3Act (1 / 5) (1 / 2) act rand, 1 < |a| :=
  ⟨[1], [2], by decide +kernel, 7 / 5, by decide +kernel, by decide +kernel⟩

example : td3Act (1 / 5 : ℚ) (1 / 2) [0, 0, 0] [2, 3, -7] = [2 / 5, 1 / 2, -1 / 2] ∧
    td3Act (1 / 5 : ℚ) 0 [0, 0, 0] [2, 3, -7] = [2 / 5, 3 / 5, -7 / 5] := by decide +kernel

/-- C102 for SAC: the target is the smaller of the two soft values `Q(s', a') - alpha·log pi(a'|s')`. -/
theorem C102_sac (critic1 critic2 : X → List K → K) (alpha : K) (act : List K) (logProb : K) (x : X) :
    (sacTarget critic1 critic2 alpha act logProb x = critic1 x act - alpha * logProb ∨
      sacTarget critic1 critic2 alpha act logProb x = critic2 x act - alpha * logProb) ∧
    sacTarget critic1 critic2 alpha act logProb x ≤ critic1 x act - alpha * logProb ∧
    sacTarget critic1 critic2 alpha act logProb x ≤ critic2 x act - alpha * logProb := by
  unfold sacTarget
  refine ⟨?_, sub_le_sub_right (min_le_left _ _) _, sub_le_sub_right (min_le_right _ _) _⟩
  rcases min_choice (critic1 x act) (critic2 x act) with h | h <;> rw [h]
  · exact Or.inl rfl
  · exact Or.inr rfl

/-- C102 for discrete SAC: the target does not exceed the soft value of the state according to either critic, and it is
that value if the critics agree. -/
theorem C102_discrete (critic1 critic2 : X → List K) (alpha : K) (probs : List K) (hp : ∀ p ∈ probs, 0 ≤ p)
    (entropy : K) (x : X) (hlen : (critic1 x).length = (critic2 x).length) :
    discreteSacTarget critic1 critic2 alpha probs entropy x ≤
      (List.zipWith (· * ·) probs (critic1 x)).sum + alpha * entropy ∧
    discreteSacTarget critic1 critic2 alpha probs entropy x ≤
      (List.zipWith (· * ·) probs (critic2 x)).sum + alpha * entropy ∧
    (critic1 x = critic2 x → discreteSacTarget critic1 critic2 alpha probs entropy x =
      (List.zipWith (· * ·) probs (critic1 x)).sum + alpha * entropy) := by
  have key : ∀ (q1 q2 probs : List K), q1.length = q2.length → (∀ p ∈ probs, 0 ≤ p) →
      (List.zipWith (· * ·) probs (List.zipWith min q1 q2)).sum ≤ (List.zipWith (· * ·) probs q1).sum ∧
      (List.zipWith (· * ·) probs (List.zipWith min q1 q2)).sum ≤ (List.zipWith (· * ·) probs q2).sum := by
    intro q1
    induction q1 with
    | nil =>
      intro q2 probs h _
      have : q2 = [] := List.length_eq_zero_iff.1 h.symm
      subst this; simp
    | cons x q1 ih =>
      intro q2 probs h hp
      match q2, probs, h with
      | y :: q2, [], _ => simp
      | y :: q2, p :: probs, h =>
        obtain ⟨i1, i2⟩ := ih q2 probs (by simpa using h) fun p h => hp p (List.mem_cons_of_mem _ h)
        have hp0 := hp p List.mem_cons_self
        simp only [List.zipWith_cons_cons, List.sum_cons]
        exact ⟨add_le_add (mul_le_mul_of_nonneg_left (min_le_left _ _) hp0) i1,
          add_le_add (mul_le_mul_of_nonneg_left (min_le_right _ _) hp0) i2⟩
  obtain ⟨h1, h2⟩ := key _ _ probs hlen hp
  unfold discreteSacTarget
  refine ⟨by linarith, by linarith, ?_⟩
  intro he
  rw [← he]
  congr 3
  apply List.ext_getElem?
  intro i
  rw [List.getElem?_zipWith]
  cases (critic1 x)[i]? <;> simp

/-- C102 for REDQ: with `target_mode="min"` the value is that of one of the sampled critics and not above any of them,
with "mean" their average. -/
theorem C102_redq (alpha : K) (qs : List K) (subset : List Nat) (hne : subset ≠ [])
    (hs : ∀ i ∈ subset, i < qs.length) (logProb : K) :
    (∃ i ∈ subset, ∃ v, qs[i]? = some v ∧ redqTarget true alpha qs subset logProb = v - alpha * logProb) ∧
    (∀ i ∈ subset, ∀ v, qs[i]? = some v → redqTarget true alpha qs subset logProb ≤ v - alpha * logProb) ∧
    (redqTarget false alpha qs subset logProb + alpha * logProb) * subset.length =
      (subset.map fun i => qs.getD i 0).sum := by
  have hmem : ∀ l : List K, l ≠ [] → minOf l ∈ l := by
    intro l
    induction l with
    | nil => intro h; exact absurd rfl h
    | cons x l ih =>
      intro _
      cases l with
      | nil => simp [minOf]
      | cons y l =>
        rw [minOf]
        · rcases min_choice x (minOf (y :: l)) with h | h <;> rw [h]
          · exact List.mem_cons_self
          · exact List.mem_cons_of_mem _ (ih (by simp))
        · simp
  refine ⟨?_, ?_, ?_⟩
  · obtain ⟨i, hi, he⟩ := List.mem_map.1 (hmem (subset.map fun i => qs.getD i 0) (by simpa using hne))
    refine ⟨i, hi, qs.getD i 0, ?_, ?_⟩
    · rw [List.getD_eq_getElem?_getD, List.getElem?_eq_getElem (hs i hi)]; rfl
    · unfold redqTarget; simp only [if_true]; rw [he]
  · intro i hi v hv
    unfold redqTarget
    simp only [if_true]
    refine sub_le_sub_right (minOf_le _ _ (List.mem_map.2 ⟨i, hi, ?_⟩)) _
    rw [List.getD_eq_getElem?_getD, hv]; rfl
  · have : (subset.length : K) ≠ 0 := by
      simpa using hne
    unfold redqTarget
    simp only [Bool.false_eq_true, if_false, sub_add_cancel]
    rw [Ppo.mean, List.length_map, div_mul_cancel₀ _ this]

example : redqTarget true (1 / 2 : ℚ) [5, 1, 3] [2, 0] (-4) = 5 ∧ redqTarget false (1 / 2 : ℚ) [5, 1, 3] [2, 0] (-4) = 6 ∧
    discreteSacTarget (fun _ : Unit => [1, 4]) (fun _ => [3, 2]) (1 / 2 : ℚ) [1 / 4, 3 / 4] 2 () = 11 / 4 ∧
    sacTarget (fun (_ : Unit) _ => 1) (fun _ _ => 2) (1 / 2 : ℚ) [0] (-4) () = 3 := by decide +kernel

end target

/-! ### C103 -/

section alpha

variable {K : Type} [Field K] [LinearOrder K] [IsStrictOrderedRing K]

/-- C103 for SAC and discrete SAC: a fixed coefficient never changes. -/
theorem C103_fixed (lr a : K) (logProb : List K) :
    (Alpha.fixed a).sacStep lr logProb = .fixed a ∧ (Alpha.fixed a).discreteStep lr logProb = .fixed a := ⟨rfl, rfl⟩

/-- C103 for SAC: a tuned coefficient is positive, and a step of gradient descent makes it larger exactly if the
entropy estimated from the batch (minus the mean log-probability) is below the target entropy, smaller if it is above;
the target does not change. Likewise for discrete SAC with the mean of the entropies. -/
theorem C103_auto_partial (lr : ℝ) (hlr : 0 < lr) (h l : ℝ) (logProb : List ℝ) (hne : logProb ≠ []) :
    0 < (Alpha.auto h l).value Real.exp ∧
    ∃ l', (Alpha.auto h l).sacStep lr logProb = .auto h l' ∧
      ((Alpha.auto h l).value Real.exp < (Alpha.auto h l').value Real.exp ↔ -Ppo.mean logProb < h) ∧
      ((Alpha.auto h l').value Real.exp < (Alpha.auto h l).value Real.exp ↔ h < -Ppo.mean logProb) := by
  refine ⟨Real.exp_pos l, _, rfl, ?_⟩
  have hm : Ppo.mean (logProb.map (· + h)) = Ppo.mean logProb + h := by
    have hl : (logProb.length : ℝ) ≠ 0 := by simpa using hne
    have : ∀ l : List ℝ, (l.map (· + h)).sum = l.sum + l.length * h := by
      intro l
      induction l with
      | nil => simp
      | cons x l ih => simp [ih]; ring
    rw [Ppo.mean, this, List.length_map, Ppo.mean]
    field_simp
  simp only [Alpha.value, Real.exp_lt_exp, alphaGrad, hm]
  constructor
  · constructor
    · intro h1
      by_contra hc
      push Not at hc
      nlinarith
    · intro h1
      have : 0 < lr * (Ppo.mean logProb + h) := mul_pos hlr (by linarith)
      linarith
  · constructor
    · intro h1
      by_contra hc
      push Not at hc
      nlinarith
    · intro h1
      have : 0 < lr * -(Ppo.mean logProb + h) := mul_pos hlr (by linarith)
      linarith

/-- C103, start: `alpha=(target_entropy, log_alpha, optim)` makes a coefficient that starts at `exp(log_alpha)` and is tuned to the entropy given; a float
is used as it is. -/
theorem C103_start (lr : ℝ) (hlr : 0 < lr) (h l a : ℝ) (logProb : List ℝ) (hne : logProb ≠ []) :
    (∃ c, Alpha.new (.tuple h l) = .ok c ∧ c.value Real.exp = Real.exp l ∧
      (c.value Real.exp < (c.sacStep lr logProb).value Real.exp ↔ -Ppo.mean logProb < h)) ∧
    ∃ c, Alpha.new (.float a) = .ok c ∧ c.value Real.exp = a := by
  refine ⟨⟨_, rfl, rfl, ?_⟩, _, rfl, rfl⟩
  obtain ⟨_, l', h1, h2, _⟩ := C103_auto_partial lr hlr h l logProb hne
  rw [h1]
  exact h2

theorem C103_discrete_partial (lr : ℝ) (hlr : 0 < lr) (h l : ℝ) (entropy : List ℝ) (hne : entropy ≠ []) :
    ∃ l', (Alpha.auto h l).discreteStep lr entropy = .auto h l' ∧
      ((Alpha.auto h l).value Real.exp < (Alpha.auto h l').value Real.exp ↔ Ppo.mean entropy < h) := by
  obtain ⟨_, l', h1, h2, _⟩ := C103_auto_partial lr hlr h l (entropy.map Neg.neg) (by simpa using hne)
  refine ⟨l', h1, ?_⟩
  rw [h2]
  have : -Ppo.mean (entropy.map Neg.neg) = Ppo.mean entropy := by
    have : ∀ l : List ℝ, (l.map Neg.neg).sum = -l.sum := by
      intro l
      induction l with
      | nil => simp
      | cons x l ih => simp [ih]; ring
    rw [Ppo.mean, this, List.length_map, Ppo.mean, neg_div, neg_neg]
  rw [this]

/-- C103 is violated in two ways: an integer coefficient is rejected with a `TypeError`, and REDQ with a tuned
coefficient raises an `AttributeError` as soon as the actor is to be updated, whatever the networks do. -/
theorem C103_violated {W : Type} : (∀ a : K, Alpha.new (.int a) = .error .typeError) ∧
    ∀ (soft : W → W → W) (delay : Nat) (s : Redq W K) (h l : K)
      (opts : List ((Redq W K → W) × (Redq W K → W))), 0 < delay → s.step = 0 → s.alpha = .auto h l →
      delay ≤ opts.length → redqRun soft delay s opts = .error .attributeError := by
  refine ⟨fun _ => rfl, ?_⟩
  have key : ∀ (opts : List ((Redq W K → W) × (Redq W K → W))) (soft : W → W → W) (delay : Nat) (s : Redq W K) (h l : K),
      s.step < delay → s.alpha = .auto h l → delay ≤ s.step + opts.length →
      redqRun soft delay s opts = .error .attributeError := by
    intro opts
    induction opts with
    | nil => intro soft delay s h l h1 _ h3; simp at h3; omega
    | cons o opts ih =>
      intro soft delay s h l h1 h2 h3
      rw [redqRun, redqLearn]
      by_cases hc : s.step + 1 = delay
      · simp only [hc, Nat.mod_self, if_true, h2, Alpha.redqStep]
      · have hm : (s.step + 1) % delay = s.step + 1 := Nat.mod_eq_of_lt (by omega)
        simp only [hm, Nat.add_eq_zero_iff, one_ne_zero, and_false, if_false]
        refine ih soft delay _ h l (by simp only; omega) h2 ?_
        simp only [List.length_cons] at h3 ⊢
        omega
  intro soft delay s h l opts hd h0 ha hl
  exact key opts soft delay s h l (by omega) ha (by omega)

example : Alpha.new (K := ℚ) (.float (1 / 5)) = .ok (.fixed (1 / 5)) ∧
    (Alpha.auto (2 : ℚ) 1).sacStep (1 / 10) [-1, 0] = .auto 2 (23 / 20) := by decide +kernel

end alpha

/-! ### C104 -/

section prio

variable {K : Type} [Field K] [LinearOrder K] [IsStrictOrderedRing K]

/-- C104 for DQN, DDPG, QRDQN, IQN and FQF: the new weight of a transition is zero exactly if the critic agrees with
the target (with all targets). -/
theorem C104_priority_partial : (∀ q ret : K, dqnPrio q ret = 0 ↔ q = ret) ∧
    (∀ cur target : List K, cur ≠ [] → (quantilePrio cur target = 0 ↔ ∀ c ∈ cur, ∀ t ∈ target, t = c)) ∧
    (∀ cur target : List K, 0 ≤ quantilePrio cur target) := by
  have hinner : ∀ (c : K) (target : List K), 0 ≤ (target.map fun t => |QTarget.huber (t - c)|).sum ∧
      ((target.map fun t => |QTarget.huber (t - c)|).sum = 0 ↔ ∀ t ∈ target, t = c) := by
    intro c target
    induction target with
    | nil => simp
    | cons t ts ih =>
      obtain ⟨i1, i2⟩ := ih
      simp only [List.map_cons, List.sum_cons, List.mem_cons, forall_eq_or_imp]
      refine ⟨add_nonneg (abs_nonneg _) i1, ?_⟩
      rw [add_eq_zero_iff_of_nonneg (abs_nonneg _) i1, i2, abs_eq_zero, QTarget.huber_eq_zero, sub_eq_zero]
  have houter : ∀ (cur target : List K),
      0 ≤ (cur.map fun c => (target.map fun t => |QTarget.huber (t - c)|).sum).sum ∧
      ((cur.map fun c => (target.map fun t => |QTarget.huber (t - c)|).sum).sum = 0 ↔
        ∀ c ∈ cur, ∀ t ∈ target, t = c) := by
    intro cur target
    induction cur with
    | nil => simp
    | cons c cs ih =>
      obtain ⟨i1, i2⟩ := ih
      obtain ⟨j1, j2⟩ := hinner c target
      simp only [List.map_cons, List.sum_cons, List.mem_cons, forall_eq_or_imp]
      exact ⟨add_nonneg j1 i1, by rw [add_eq_zero_iff_of_nonneg j1 i1, i2, j2]⟩
  refine ⟨?_, ?_, ?_⟩
  · intro q ret
    unfold dqnPrio
    rw [sub_eq_zero, eq_comm]
  · intro cur target hne
    unfold quantilePrio Ppo.mean
    rw [div_eq_zero_iff, (houter cur target).2, List.length_map]
    simp [hne]
  · intro cur target
    unfold quantilePrio Ppo.mean
    exact div_nonneg (houter cur target).1 (Nat.cast_nonneg _)

/-- C104 is violated by TD3, SAC, discrete SAC, REDQ and BDQ: errors of opposite signs cancel, so a transition on which
all critics are wrong by any amount gets weight zero. -/
theorem C104_violated (e ret : K) : twinPrio (ret + e) (ret - e) ret = 0 ∧ redqPrio [ret + e, ret - e] ret = 0 ∧
    bdqPrio [ret + e, ret - e] ret = 0 := by
  refine ⟨?_, ?_, ?_⟩
  · unfold twinPrio; ring
  · simp [redqPrio, Ppo.mean]
  · simp [bdqPrio]

example : dqnPrio (3 : ℚ) 5 = 2 ∧ quantilePrio [(0 : ℚ), 2] [2] = 3 / 4 ∧ twinPrio (3 : ℚ) 4 5 = -3 / 2 := by
  decide +kernel

end prio

/-! ### C105 -/

section noise

variable {K : Type} [Field K]

/-- The value of the process after the random numbers `rs`, from `x` on. -/
def ouValue (mu alpha beta x : K) (rs : List K) : K :=
  mu + (1 - alpha) ^ rs.length * (x - mu) +
    (rs.zipIdx.map fun p => (1 - alpha) ^ (rs.length - 1 - p.2) * (beta * p.1)).sum

theorem ouValue_cons (mu alpha beta x r : K) (rs : List K) :
    ouValue mu alpha beta x (r :: rs) = ouValue mu alpha beta (x + alpha * (mu - x) + beta * r) rs := by
  have h : ((rs.zipIdx 1).map fun p : K × Nat => (1 - alpha) ^ ((r :: rs).length - 1 - p.2) * (beta * p.1)) =
      (rs.zipIdx.map fun p => (1 - alpha) ^ (rs.length - 1 - p.2) * (beta * p.1)) := by
    apply List.ext_getElem?
    intro i
    simp only [List.getElem?_map, List.getElem?_zipIdx]
    cases rs[i]? with
    | none => rfl
    | some y =>
      simp only [Option.map_some, Option.some.injEq, List.length_cons, Nat.zero_add]
      rw [show rs.length + 1 - 1 - (1 + i) = rs.length - 1 - i by omega]
  unfold ouValue
  rw [List.zipIdx_cons, List.map_cons, List.sum_cons, Nat.zero_add, h]
  simp only [List.length_cons, Nat.add_sub_cancel, Nat.sub_zero, pow_succ]
  ring

theorem OU.call_get (o : OU K) (dims : List Nat) (xs rand : List K) (hx : o.x = .arr dims xs) :
    (o.call (.tuple dims) rand).1 = { o with x := .arr dims (List.zipWith o.next xs rand) } ∧
    (o.call (.tuple dims) rand).2 = List.zipWith o.next xs rand := by
  unfold OU.call OU.start
  rw [hx]
  simp [Size.dims]

theorem OU.run_arr (rs : List (List K)) (o : OU K) (dims : List Nat) (xs : List K) (hx : o.x = .arr dims xs)
    (hlen : ∀ r ∈ rs, r.length = xs.length) (n : Nat) (out : List K)
    (hn : (o.run (.tuple dims) rs).2[n]? = some out) (j : Nat) (x : K) (hj : xs[j]? = some x) :
    out[j]? = some (ouValue o.mu o.alpha o.beta x (((rs.take (n + 1)).map fun r => r.getD j 0))) := by
  induction rs generalizing o xs n x with
  | nil => simp [OU.run] at hn
  | cons r rs ih =>
    have hr : r.length = xs.length := hlen r List.mem_cons_self
    have hjl := (List.getElem?_eq_some_iff.mp hj).1
    obtain ⟨c1, c2⟩ := o.call_get dims xs r hx
    have hrj : r[j]? = some (r.getD j 0) := by
      rw [List.getD_eq_getElem?_getD, List.getElem?_eq_getElem (by omega : j < r.length)]; rfl
    have hnew : (List.zipWith o.next xs r)[j]? = some (o.next x (r.getD j 0)) := by
      rw [List.getElem?_zipWith, hj, hrj]
    cases n with
    | zero =>
      simp only [OU.run, List.getElem?_cons_zero, Option.some.injEq] at hn
      rw [← hn, c2, hnew]
      simp [ouValue_cons, ouValue, OU.next]
      ring
    | succ n =>
      simp only [OU.run, List.getElem?_cons_succ] at hn
      have := ih (o.call (.tuple dims) r).1 (List.zipWith o.next xs r) (by rw [c1])
        (by
          intro r' hr'
          rw [List.length_zipWith, hr, min_self]; exact hlen r' (List.mem_cons_of_mem _ hr')) n
        hn (o.next x (r.getD j 0)) hnew
      rw [this, c1]
      simp only [List.take_succ_cons, List.map_cons, ouValue_cons, OU.next]

/-- C105, for sizes given as tuples (as DDPG does): from construction or `reset` on, the `n`-th noise array is the
discretised Ornstein-Uhlenbeck process started at `x0` (a number; 0 if not given), component by component. -/
theorem C105_process_partial (mu sigma theta dt sqrtDt : K) (x0 : Option K) (dims : List Nat) (sz : Nat)
    (rs : List (List K)) (hlen : ∀ r ∈ rs, r.length = sz) (n : Nat) (out : List K)
    (hn : ((OU.new mu sigma theta dt sqrtDt (match x0 with
      | none => .none
      | some x => .num x)).run (.tuple dims) rs).2[n]? = some out) (j : Nat) (hj : j < sz) :
    out[j]? = some (ouValue mu (theta * dt) (sigma * sqrtDt) (x0.getD 0)
      ((rs.take (n + 1)).map fun r => r.getD j 0)) := by
  cases rs with
  | nil => simp [OU.run] at hn
  | cons r rs =>
    have hr : r.length = sz := hlen r List.mem_cons_self
    obtain ⟨o, ho⟩ : ∃ o, o = OU.new mu sigma theta dt sqrtDt (match x0 with
      | none => OUState.none
      | some x => .num x) := ⟨_, rfl⟩
    rw [← ho] at hn
    have hrj : r[j]? = some (r.getD j 0) := by
      rw [List.getD_eq_getElem?_getD, List.getElem?_eq_getElem (by omega : j < r.length)]; rfl
    have hcall : o.call (.tuple dims) r =
        ({ o with x := .arr dims (r.map (o.next (x0.getD 0))) }, r.map (o.next (x0.getD 0))) := by
      rw [ho]
      cases x0 <;> rfl
    cases n with
    | zero =>
      simp only [OU.run, List.getElem?_cons_zero, Option.some.injEq] at hn
      rw [← hn, hcall]
      simp only [List.getElem?_map, hrj, Option.map_some]
      simp [ouValue_cons, ouValue, OU.next, ho, OU.new]
      ring
    | succ n =>
      simp only [OU.run, List.getElem?_cons_succ, hcall] at hn
      have := OU.run_arr rs { o with x := .arr dims (r.map (o.next (x0.getD 0))) } dims
        (r.map (o.next (x0.getD 0))) rfl
        (by intro r' hr'; rw [List.length_map, hr]; exact hlen r' (List.mem_cons_of_mem _ hr')) n out hn j
        (o.next (x0.getD 0) (r.getD j 0)) (by rw [List.getElem?_map, hrj]; rfl)
      rw [this]
      simp [ouValue_cons, OU.next, ho, OU.new]

/-- C105: `reset` brings back the state after construction. -/
theorem C105_reset (mu sigma theta dt sqrtDt : K) (x0 : OUState K) (calls : List (Size × List K)) :
    (calls.foldl (fun o c => (o.call c.1 c.2).1) (OU.new mu sigma theta dt sqrtDt x0)).reset =
      OU.new mu sigma theta dt sqrtDt x0 := by
  have : ∀ (calls : List (Size × List K)) (o : OU K),
      (calls.foldl (fun o c => (o.call c.1 c.2).1) o).reset = o.reset := by
    intro calls
    induction calls with
    | nil => intro o; rfl
    | cons c cs ih => intro o; rw [List.foldl_cons, ih]; rfl
  rw [this]; rfl

/-- C105 is violated for sizes given as lists (or any other sequence than a tuple): every call but the first starts
again at 0, so the noise has no memory, and `x0` does not influence it. -/
theorem C105_violated (o : OU K) (dims : List Nat) (r r' : List K) :
    ((o.call (.other dims) r).1.call (.other dims) r').2 = r'.map (o.next 0) := by
  unfold OU.call OU.start
  simp [OU.next]

example : ((OU.new (1 : ℚ) 2 (1 / 2) 1 1 (.num 3)).run (.tuple [2]) [[0, 1], [1, 0]]).2 = [[2, 4], [7 / 2, 5 / 2]] ∧
    ((OU.new (1 : ℚ) 2 (1 / 2) 1 1 (.num 3)).run (.other [2]) [[0, 1], [1, 0]]).2 = [[2, 4], [5 / 2, 1 / 2]] := by
  decide +kernel

end noise

/-! ### C106 -/

/-- C106: inside a training step a policy that is trained directly samples its actions, whatever `deterministic_eval`;
outside it uses the mode exactly if `deterministic_eval` is set. -/
theorem C106_direct_partial {V : Type} (det : Bool) (w : Within) (mode sample : V) :
    sacAct det (w.enter.seen none) mode sample = sample ∧
    sacAct true (Within.seen ⟨false, w.wrapped⟩ none) mode sample = mode ∧
    sacAct false (w.seen none) mode sample = sample := by
  refine ⟨?_, ?_, ?_⟩ <;> simp [sacAct, Within.seen, Within.enter]

/-- C106 is violated for policies wrapped in `MultiAgentPolicyManager` or `ICMPolicy`: their own flag stays at its
initial value, so with `deterministic_eval` they use the mode during training as well. -/
theorem C106_violated {V : Type} (j : Nat) (mode sample : V) :
    sacAct true ((Within.enter ⟨false, fun _ => false⟩).seen (some j)) mode sample = mode := rfl

example : sacAct true ((Within.enter ⟨false, fun _ => false⟩).seen none) 0 1 = 1 ∧
    sacAct true ((Within.enter ⟨false, fun _ => false⟩).seen (some 0)) 0 1 = 0 := by decide

end Verif.ActorCritic
