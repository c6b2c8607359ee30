import Verif.Model.PettingZoo
import Mathlib.Data.List.Basic
import Mathlib.Data.List.Nodup
import Mathlib.Data.Int.Basic
import Mathlib.Data.List.Induction

/-! Properties C195-C197: `PettingZooEnv`. -/

namespace Verif.PettingZoo

variable {S G A O R I P : Type} [DecidableEq G] [Zero R] [DecidableEq P]

/-! What is asked for. -/

/-- The reward of every agent in the last step, in the order of the agents; an agent the environment does not report has no reward. -/
def asked (e : Aec S G A O R I P) (s : S) : List R := e.possible.map fun g => ((e.rewards s).lookup g).getD 0

/-- The environment follows the interface of PettingZoo: agents have distinct names, it reports rewards as a dictionary of agents,
and the agent to move is one of them. -/
structure Sound (e : Aec S G A O R I P) : Prop where
  agents : e.possible.Nodup
  dict : ∀ s, ((e.rewards s).map Prod.fst).Nodup
  known : ∀ s, ∀ p ∈ e.rewards s, p.1 ∈ e.possible
  selected : ∀ s, e.selection s ∈ e.possible

/-- The observation given to the user belongs to the agent to move: its own observation, with the actions it may take. -/
def Belongs (e : Aec S G A O R I P) (s : S) (v : View G O) : Prop :=
  v.agentId = e.selection s ∧
  (∀ o m, e.observe s (e.selection s) = .masked o m →
    v.obs = o ∧ ∃ mask, v.mask = some mask ∧ mask.length = m.length ∧ ∀ i : Nat, mask[i]? = some true ↔ m[i]? = some 1) ∧
  (∀ o, e.observe s (e.selection s) = .plain o →
    v.obs = o ∧
    (∀ n, e.actionSpace (e.selection s) = .discrete n →
      ∃ mask, v.mask = some mask ∧ mask.length = n ∧ ∀ i : Nat, i < n → mask[i]? = some true) ∧
    (∀ p, e.actionSpace (e.selection s) = .other p → v.mask = none))

/-! A wrapper in use. -/

/-- A wrapper that was made and then used by any calls. -/
inductive Reached (e : Aec S G A O R I P) : Wrapper S R P → Prop
  | make {s w} : make e s = .ok w → Reached e w
  | reset {w p} : Reached e w → w.reset e = .ok p → Reached e p.1
  | step {w a p} : Reached e w → w.step e a = .ok p → Reached e p.1

omit [Zero R] [DecidableEq P] in
theorem reset_keeps {e : Aec S G A O R I P} {w : Wrapper S R P} {p : Wrapper S R P × View G O × I} (h : w.reset e = .ok p) :
    p.1.inner = e.reset w.inner ∧ p.1.actionSpace = w.actionSpace ∧ p.1.rewards = w.rewards ∧
      view e w.actionSpace (e.reset w.inner) = .ok p.2.1 ∧ p.2.2 = e.info (e.reset w.inner) (e.selection (e.reset w.inner)) := by
  unfold Wrapper.reset at h
  simp only at h
  cases hv : view e w.actionSpace (e.reset w.inner) with
  | error x => rw [hv] at h; cases h
  | ok v => rw [hv] at h; injection h with h; subst h; exact ⟨rfl, rfl, rfl, rfl, rfl⟩

omit [Zero R] [DecidableEq P] in
theorem step_fields {e : Aec S G A O R I P} {w : Wrapper S R P} {a : A} {p : Wrapper S R P × Result G O R I}
    (h : w.step e a = .ok p) :
    p.1.inner = e.step w.inner a ∧ p.1.actionSpace = w.actionSpace ∧ p.2.rewards = p.1.rewards ∧
      view e w.actionSpace (e.step w.inner a) = .ok p.2.view ∧
      writeRewards e.possible (e.rewards (e.step w.inner a)) w.rewards = .ok p.1.rewards ∧
      p.2.terminated = e.terminated (e.step w.inner a) (e.selection (e.step w.inner a)) ∧
      p.2.truncated = e.truncated (e.step w.inner a) (e.selection (e.step w.inner a)) ∧
      p.2.info = e.info (e.step w.inner a) (e.selection (e.step w.inner a)) := by
  unfold Wrapper.step at h
  simp only at h
  cases hv : view e w.actionSpace (e.step w.inner a) with
  | error x => rw [hv] at h; cases h
  | ok v =>
    rw [hv] at h
    cases hr : writeRewards e.possible (e.rewards (e.step w.inner a)) w.rewards with
    | error x => rw [hr] at h; cases h
    | ok rew => rw [hr] at h; injection h with h; subst h; exact ⟨rfl, rfl, rfl, rfl, rfl, rfl, rfl, rfl⟩

theorem agentIdx_snoc (l : List G) (x g : G) : agentIdx (l ++ [x]) g = if g = x then some l.length else agentIdx l g := by
  simp [agentIdx, List.zipIdx_append]

theorem agentIdx_spec {l : List G} (hl : l.Nodup) (g : G) (i : Nat) : agentIdx l g = some i ↔ l[i]? = some g := by
  induction l using List.reverseRecOn with
  | nil => simp [agentIdx]
  | append_singleton l x ih =>
    have hx : x ∉ l := by
      intro h
      have := List.nodup_append.1 hl
      exact this.2.2 x h x (by simp) rfl
    rw [agentIdx_snoc]
    by_cases h : g = x
    · subst h
      simp only [if_pos, Option.some.injEq]
      constructor
      · rintro rfl; simp
      · intro hi
        rcases Nat.lt_trichotomy i l.length with h1 | h1 | h1
        · rw [List.getElem?_append_left h1] at hi
          exact absurd (List.mem_of_getElem? hi) hx
        · exact h1.symm
        · rw [List.getElem?_eq_none (by simp; omega)] at hi; cases hi
    · rw [if_neg h, ih (List.nodup_append.1 hl).1]
      rcases Nat.lt_trichotomy i l.length with h1 | h1 | h1
      · rw [List.getElem?_append_left h1]
      · subst h1
        simp only [List.getElem?_concat_length, Option.some.injEq, List.getElem?_length, reduceCtorEq, false_iff]
        exact fun hh => h hh.symm
      · rw [List.getElem?_eq_none (by omega), List.getElem?_eq_none (by simp; omega)]

omit [Zero R] in
/-- The loop over the reported rewards: an agent's entry is its report if there is one, and what it was otherwise. -/
theorem writeRewards_spec {agents : List G} (hl : agents.Nodup) (reports : List (G × R)) :
    (reports.map Prod.fst).Nodup → (∀ p ∈ reports, p.1 ∈ agents) → ∀ rew : List R, rew.length = agents.length →
    ∃ rew', writeRewards agents reports rew = .ok rew' ∧ rew'.length = agents.length ∧
      ∀ (i : Nat) (g : G), agents[i]? = some g → rew'[i]? = (reports.lookup g).or rew[i]? := by
  induction reports with
  | nil => intro _ _ rew hr; exact ⟨rew, rfl, hr, fun i g _ => by simp⟩
  | cons p reports ih =>
    obtain ⟨g0, r0⟩ := p
    intro hn hk rew hr
    obtain ⟨i0, hi0⟩ := List.mem_iff_getElem?.1 (hk (g0, r0) (by simp))
    have hlt : i0 < agents.length := by
      by_contra hc
      rw [List.getElem?_eq_none (by omega)] at hi0; cases hi0
    rw [List.map_cons, List.nodup_cons] at hn
    obtain ⟨rew', h1, h2, h3⟩ := ih hn.2 (fun p hp => hk p (List.mem_cons_of_mem _ hp)) (rew.set i0 r0) (by simpa using hr)
    refine ⟨rew', ?_, h2, ?_⟩
    · rw [writeRewards, (agentIdx_spec hl g0 i0).2 hi0]
      exact h1
    · intro i g hg
      rw [h3 i g hg]
      by_cases hgg : g = g0
      · subst hgg
        have hii : i = i0 := by
          have a := (agentIdx_spec hl g i).2 hg
          rw [(agentIdx_spec hl g i0).2 hi0] at a
          exact (Option.some.inj a).symm
        subst hii
        have hno : reports.lookup g = none := by
          rw [List.lookup_eq_none_iff]
          intro p hp
          have hne : g ≠ p.1 := by
            rintro rfl
            exact hn.1 (List.mem_map.2 ⟨p, hp, rfl⟩)
          simpa using hne
        rw [hno, Option.none_or, List.lookup_cons_self, Option.some_or, List.getElem?_set_self (by omega)]
      · have hne : i0 ≠ i := by
          rintro rfl
          rw [hi0] at hg
          exact hgg (Option.some.inj hg).symm
        have hb : (g == g0) = false := by simpa using hgg
        rw [List.lookup_cons, hb, List.getElem?_set_ne hne]

theorem reached_inv {e : Aec S G A O R I P} (he : Sound e) {w : Wrapper S R P} (h : Reached e w) :
    w.rewards.length = e.possible.length ∧ ∀ g ∈ e.possible, e.actionSpace g = w.actionSpace := by
  induction h with
  | @make s w h =>
    unfold make at h
    split at h
    · cases h
    · rename_i first rest hp
      split_ifs at h with h1 h2
      simp only at h
      cases hr : Wrapper.reset e (⟨s, e.actionSpace first, List.replicate e.possible.length 0⟩ : Wrapper S R P) with
      | error x => rw [hr] at h; cases h
      | ok p =>
        rw [hr] at h
        obtain ⟨_, a2, a3, _⟩ := reset_keeps hr
        injection h with h
        subst h
        refine ⟨by rw [a3]; simp, ?_⟩
        intro g hg
        rw [a2]
        simp only [List.all_eq_true, decide_eq_true_eq] at h2
        exact h2 g hg
  | reset h1 h2 ih =>
    obtain ⟨_, a2, a3, _⟩ := reset_keeps h2
    rw [a2, a3]; exact ih
  | @step w a p h1 h2 ih =>
    obtain ⟨_, a2, _, _, a5, _⟩ := step_fields h2
    refine ⟨?_, by rw [a2]; exact ih.2⟩
    obtain ⟨rew', b1, b2, _⟩ := writeRewards_spec he.agents _ (he.dict _) (he.known _) w.rewards ih.1
    rw [b1] at a5
    injection a5 with a5
    rw [← a5]; exact b2

omit [Zero R] [DecidableEq P] [DecidableEq G] in
theorem view_belongs {e : Aec S G A O R I P} {sp : Space P} {s : S} (hs : e.actionSpace (e.selection s) = sp) :
    ∃ v, view e sp s = .ok v ∧ Belongs e s v := by
  cases ho : e.observe s (e.selection s) with
  | masked o m =>
    refine ⟨⟨e.selection s, o, some (m.map fun x => decide (x = 1))⟩, by simp [view, ho], rfl, ?_, ?_⟩
    · intro o' m' h
      rw [ho] at h
      obtain ⟨rfl, rfl⟩ := Raw.masked.inj h
      refine ⟨rfl, _, rfl, by simp, ?_⟩
      intro i
      rw [List.getElem?_map]
      cases hm : m[i]? with
      | none => simp
      | some x => simp
    · intro o' h; rw [ho] at h; cases h
  | plain o =>
    cases sp with
    | discrete n =>
      refine ⟨⟨e.selection s, o, some (List.replicate n true)⟩, by simp [view, ho, hs], rfl, ?_, ?_⟩
      · intro o' m' h; rw [ho] at h; cases h
      · intro o' h
        rw [ho] at h
        obtain rfl := Raw.plain.inj h
        refine ⟨rfl, ?_, ?_⟩
        · intro n' hn
          rw [hs] at hn
          obtain rfl := Space.discrete.inj hn
          exact ⟨_, rfl, by simp, fun i hi => by rw [List.getElem?_replicate, if_pos hi]⟩
        · intro p hp; rw [hs] at hp; cases hp
    | other q =>
      refine ⟨⟨e.selection s, o, none⟩, by simp [view, ho], rfl, ?_, ?_⟩
      · intro o' m' h; rw [ho] at h; cases h
      · intro o' h
        rw [ho] at h
        obtain rfl := Raw.plain.inj h
        refine ⟨rfl, ?_, fun _ _ => rfl⟩
        intro n hn; rw [hs] at hn; cases hn

/-! The properties. -/

/-- C195. A step does not fail, and what it returns belongs to the agent to move: its observation with its legal actions, its end
of the game and its info. -/
theorem C195_step {e : Aec S G A O R I P} (he : Sound e) {w : Wrapper S R P} (h : Reached e w) (a : A) :
    ∃ w' r, w.step e a = .ok (w', r) ∧ w'.inner = e.step w.inner a ∧ Belongs e w'.inner r.view ∧
      r.terminated = e.terminated w'.inner (e.selection w'.inner) ∧ r.truncated = e.truncated w'.inner (e.selection w'.inner) ∧
      r.info = e.info w'.inner (e.selection w'.inner) := by
  obtain ⟨i1, i2⟩ := reached_inv he h
  obtain ⟨v, v1, v2⟩ := view_belongs (e := e) (s := e.step w.inner a) (i2 _ (he.selected _))
  obtain ⟨rew', b1, _⟩ := writeRewards_spec he.agents _ (he.dict (e.step w.inner a)) (he.known _) w.rewards i1
  refine ⟨_, _, by unfold Wrapper.step; simp only [v1, b1]; rfl, rfl, v2, rfl, rfl, rfl⟩

/-- C195. Likewise after a reset. -/
theorem C195_reset {e : Aec S G A O R I P} (he : Sound e) {w : Wrapper S R P} (h : Reached e w) :
    ∃ w' v i, w.reset e = .ok (w', v, i) ∧ w'.inner = e.reset w.inner ∧ Belongs e w'.inner v ∧
      i = e.info w'.inner (e.selection w'.inner) := by
  obtain ⟨_, i2⟩ := reached_inv he h
  obtain ⟨v, v1, v2⟩ := view_belongs (e := e) (s := e.reset w.inner) (i2 _ (he.selected _))
  refine ⟨_, _, _, by unfold Wrapper.reset; simp only [v1]; rfl, rfl, v2, rfl⟩

/-- C195. A wrapper is made exactly if there are agents and they all have the same spaces. -/
theorem C195_make {e : Aec S G A O R I P} (he : Sound e) (s : S) :
    (∃ w : Wrapper S R P, make e s = .ok w) ↔
      e.possible ≠ [] ∧ (∀ g ∈ e.possible, ∀ g' ∈ e.possible, e.actionSpace g = e.actionSpace g') ∧
        ∀ g ∈ e.possible, ∀ g' ∈ e.possible, e.observationSpace g = e.observationSpace g' := by
  unfold make
  cases hp : e.possible with
  | nil => simp
  | cons first rest =>
    have hf : first ∈ e.possible := by rw [hp]; simp
    simp only [← hp]
    by_cases h1 : ∀ g ∈ e.possible, e.observationSpace g = e.observationSpace first
    · rw [if_neg (by simpa using h1)]
      by_cases h2 : ∀ g ∈ e.possible, e.actionSpace g = e.actionSpace first
      · rw [if_neg (by simpa using h2)]
        obtain ⟨v, v1, _⟩ := view_belongs (e := e) (s := e.reset s) (h2 _ (he.selected _))
        constructor
        · intro _
          exact ⟨by rw [hp]; simp, fun g hg g' hg' => (h2 g hg).trans (h2 g' hg').symm,
            fun g hg g' hg' => (h1 g hg).trans (h1 g' hg').symm⟩
        · intro _
          exact ⟨_, by simp only [Wrapper.reset, v1]; rfl⟩
      · rw [if_pos (by simpa using h2)]
        constructor
        · rintro ⟨w, hw⟩; cases hw
        · rintro ⟨_, h, _⟩; exact absurd (fun g hg => h g hg first hf) h2
    · rw [if_pos (by simpa using h1)]
      constructor
      · rintro ⟨w, hw⟩; cases hw
      · rintro ⟨_, _, h⟩; exact absurd (fun g hg => h g hg first hf) h1

/-- C196, for steps in which the environment reports a reward for every agent: the rewards are those of this step, in the order of
the agents. Missing: steps in which it does not, see `C196_violated`. -/
theorem C196_rewards_partial {e : Aec S G A O R I P} (he : Sound e) {w w' : Wrapper S R P} (h : Reached e w) {a : A}
    {r : Result G O R I} (hs : w.step e a = .ok (w', r)) (hall : ∀ g ∈ e.possible, g ∈ (e.rewards w'.inner).map Prod.fst) :
    r.rewards = asked e w'.inner := by
  obtain ⟨i1, _⟩ := reached_inv he h
  obtain ⟨f1, _, f3, _, f5, _⟩ := step_fields hs
  simp only at f1 f3 f5
  obtain ⟨rew', b1, b2, b3⟩ := writeRewards_spec he.agents _ (he.dict (e.step w.inner a)) (he.known _) w.rewards i1
  rw [b1] at f5
  injection f5 with f5
  rw [f3, ← f5]
  apply List.ext_getElem?
  intro i
  rw [asked, List.getElem?_map]
  cases hg : e.possible[i]? with
  | none =>
    have : e.possible.length ≤ i := by simpa using hg
    rw [List.getElem?_eq_none (by omega)]; rfl
  | some g =>
    rw [b3 i g hg, ← f1]
    obtain ⟨p, hp1, hp2⟩ := List.mem_map.1 (hall g (List.mem_of_getElem? hg))
    cases hl : (e.rewards w'.inner).lookup g with
    | none =>
      rw [List.lookup_eq_none_iff] at hl
      have := hl p hp1
      simp [hp2] at this
    | some x => rw [Option.map_some, hl]; rfl

/-- C196. In general an agent's reward is the one reported in this step, and otherwise the one returned by the last step. -/
theorem C196_stale {e : Aec S G A O R I P} (he : Sound e) {w w' : Wrapper S R P} (h : Reached e w) {a : A} {r : Result G O R I}
    (hs : w.step e a = .ok (w', r)) (i : Nat) (g : G) (hg : e.possible[i]? = some g) :
    r.rewards[i]? = ((e.rewards w'.inner).lookup g).or w.rewards[i]? ∧ w'.rewards = r.rewards := by
  obtain ⟨i1, _⟩ := reached_inv he h
  obtain ⟨f1, _, f3, _, f5, _⟩ := step_fields hs
  simp only at f1 f3 f5
  obtain ⟨rew', b1, b2, b3⟩ := writeRewards_spec he.agents _ (he.dict (e.step w.inner a)) (he.known _) w.rewards i1
  rw [b1] at f5
  injection f5 with f5
  exact ⟨by rw [f3, ← f5, b3 i g hg, ← f1], f3.symm⟩

theorem writeRewards_known {agents : List G} (hl : agents.Nodup) (reports : List (G × R)) : ∀ {rew rew' : List R},
    writeRewards agents reports rew = .ok rew' → ∀ q ∈ reports, q.1 ∈ agents := by
  induction reports with
  | nil => intro _ _ _ q hq; cases hq
  | cons p rest ih =>
    intro rew rew' h q hq
    rw [writeRewards] at h
    cases hi : agentIdx agents p.1 with
    | none => rw [hi] at h; cases h
    | some i =>
      rw [hi] at h
      rcases List.mem_cons.mp hq with rfl | hq
      · exact List.mem_of_getElem? ((agentIdx_spec hl _ _).mp hi)
      · exact ih h q hq

/-- C196. A reward for an agent that is not among `possible_agents` makes the step raise. -/
theorem C196_unknown {e : Aec S G A O R I P} (hl : e.possible.Nodup) {w : Wrapper S R P} {a : A}
    {p : Wrapper S R P × Result G O R I} (h : w.step e a = .ok p) : ∀ q ∈ e.rewards (e.step w.inner a), q.1 ∈ e.possible :=
  writeRewards_known hl _ (step_fields h).2.2.2.2.1

/-- C197, for the rewards returned last. Missing: those returned before, see `C197_violated`. -/
theorem C197_last_partial {e : Aec S G A O R I P} (calls : List (Call A)) : ∀ {w w' : Wrapper S R P} {returned : List (List R)},
    w.run e calls = .ok (w', returned) →
    (returned = [] → w'.rewards = w.rewards) ∧
    ∀ x, returned.getLast? = some x → (w'.readLater returned).getLast? = some x := by
  have key : ∀ {w w' : Wrapper S R P} {returned : List (List R)}, w.run e calls = .ok (w', returned) →
      (returned = [] → w'.rewards = w.rewards) ∧ ∀ x, returned.getLast? = some x → w'.rewards = x := by
    induction calls with
    | nil =>
      intro w w' returned h
      rw [Wrapper.run] at h
      injection h with h
      injection h with h1 h2
      subst h1; subst h2
      exact ⟨fun _ => rfl, by simp⟩
    | cons c calls ih =>
      intro w w' returned h
      cases c with
      | reset =>
        rw [Wrapper.run] at h
        cases hr : w.reset e with
        | error x => rw [hr] at h; cases h
        | ok p =>
          rw [hr] at h
          obtain ⟨_, _, a3, _⟩ := reset_keeps hr
          obtain ⟨j1, j2⟩ := ih h
          exact ⟨fun hh => by rw [j1 hh, a3], j2⟩
      | step a =>
        rw [Wrapper.run] at h
        cases hr : w.step e a with
        | error x => rw [hr] at h; cases h
        | ok p =>
          rw [hr] at h
          obtain ⟨_, _, a3, _⟩ := step_fields hr
          cases hq : p.1.run e calls with
          | error x => simp only [hq] at h; cases h
          | ok q =>
            simp only [hq] at h
            injection h with h
            injection h with h1 h2
            subst h1
            obtain ⟨j1, j2⟩ := ih hq
            subst h2
            refine ⟨by simp, ?_⟩
            intro x hx
            cases hq2 : q.2 with
            | nil =>
              rw [hq2] at hx
              rw [j1 hq2, ← a3]
              exact Option.some.inj hx
            | cons y ys =>
              rw [hq2] at hx
              apply j2
              rw [hq2, ← hx, List.getLast?_cons_cons]
  intro w w' returned h
  obtain ⟨k1, k2⟩ := key h
  refine ⟨k1, ?_⟩
  intro x hx
  rw [Wrapper.readLater, List.getLast?_map, hx, Option.map_some, k2 x hx]

/-! A game of two players; player 1 drops out after the first step with a reward of 5. -/

/-- The state is the number of steps. -/
def drop : Aec Nat Nat Unit Nat Int Nat Unit where
  possible := [0, 1]
  actionSpace := fun _ => .discrete 3
  observationSpace := fun _ => ()
  reset := fun _ => 0
  step := fun s _ => s + 1
  selection := fun s => if s = 0 then 1 else 0
  observe := fun s g => if g = 0 then .masked (10 * s) [1, 0, 1] else .plain (100 * s)
  terminated := fun s g => decide (g = 1 ∧ 1 ≤ s)
  truncated := fun _ _ => false
  info := fun s _ => s
  rewards := fun s => if s ≤ 1 then [(1, 5), (0, 1)] else [(0, 1)]

theorem drop_sound : Sound drop where
  agents := by decide
  dict := by intro s; simp only [drop]; split_ifs <;> decide
  known := by intro s; simp only [drop]; split_ifs <;> decide
  selected := by intro s; simp only [drop]; split_ifs <;> decide

/-- The wrapper right after it is made. -/
def dropStart : Wrapper Nat Int Unit := ⟨0, .discrete 3, [0, 0]⟩

theorem dropStart_reached : Reached drop dropStart := .make (s := 7) rfl

/-- The game after one step. -/
def dropNext : Wrapper Nat Int Unit := ⟨1, .discrete 3, [1, 5]⟩

theorem dropNext_reached : Reached drop dropNext := .step (a := ()) dropStart_reached rfl

example : (dropStart.step drop ()).toOption.map (fun p => (p.2.view, p.2.rewards)) = some (⟨0, 10, some [true, false, true]⟩, [1, 5]) := by
  decide +kernel

example : (dropStart.reset drop).toOption.map (fun p => p.2.1) = some (⟨1, 0, some [true, true, true]⟩) := by
  decide +kernel

/-- C196 fails: a player who has left the game gets its last reward again in every further step. -/
theorem C196_violated : ∃ w' r, dropNext.step drop () = .ok (w', r) ∧ asked drop w'.inner = [1, 0] ∧ r.rewards = [1, 5] := by
  refine ⟨_, _, rfl, ?_, ?_⟩ <;> decide +kernel

/-- C197 fails: the rewards returned by a step change when the next step is made. -/
theorem C197_violated : ∃ (e : Aec Nat Nat Unit Nat Int Nat Unit) (w w' : Wrapper Nat Int Unit) (returned : List (List Int)),
    Sound e ∧ Reached e w ∧ w.run e [.step (), .step ()] = .ok (w', returned) ∧
    returned = [[1, 0], [2, 0]] ∧ w'.readLater returned = [[2, 0], [2, 0]] := by
  refine ⟨{ drop with rewards := fun s => [(0, (s : Int)), (1, 0)] }, ⟨0, .discrete 3, [0, 0]⟩, _, _, ?_, .make (s := 7) rfl, rfl, ?_, ?_⟩
  · refine ⟨by decide, ?_, ?_, drop_sound.selected⟩
    · intro s; simp
    · intro s; simp [drop]
  · decide +kernel
  · decide +kernel

end Verif.PettingZoo
