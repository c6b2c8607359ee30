import Verif.Model.Collector

/-! Specification vocabulary for collectors. -/

namespace Verif.Collector

variable {σ A O R I H K : Type}

/-- A step ended the episode. -/
def StepOut.ended (x : StepOut O R I) : Bool := x.terminated || x.truncated

/-- The transitions of environment `e` in some calls of `buffer.add`, in order. -/
def rowsOf (e : Nat) (log : List (List (Nat × Row O A R I))) : List (Row O A R I) :=
  (log.flatten.filter fun p => p.1 = e).map Prod.snd

/-- All transitions in some calls of `buffer.add`. -/
def allRows (log : List (List (Nat × Row O A R I))) : List (Row O A R I) := log.flatten.map Prod.snd

/-- Where an environment stands: `fresh` says that it has just been reset; `obs` and `info` are what it last returned. -/
structure Situation (σ O I : Type) where
  fresh : Bool
  state : σ
  obs : O
  info : I

/-- A stream of transitions is a record of what one environment went through, from one situation to another: every transition
starts with the last observation (and the policy saw the last info with it), the action was applied to the environment and its
answer is recorded; the environment is reset after the end of an episode (possibly several times), and only then. -/
inductive Trajectory (E : Env σ A O R I K) (start : Situation σ O I) : List (Row O A R I) → Situation σ O I → Prop
  | nil : Trajectory E start [] start
  | step {rows : List (Row O A R I)} {s : Situation σ O I} (row : Row O A R I) (x : σ) (h : Trajectory E start rows s)
      (hobs : row.obs = s.obs) (hinfo : row.given = s.info) (hstep : E.step s.state row.applied = (x, row.out))
      (hdone : row.out.ended = false) : Trajectory E start (rows ++ [row]) ⟨false, x, row.out.obs, row.out.info⟩
  | done {rows : List (Row O A R I)} {s : Situation σ O I} (row : Row O A R I) (x y : σ) (kw : K) (o : O) (i : I)
      (h : Trajectory E start rows s) (hobs : row.obs = s.obs) (hinfo : row.given = s.info)
      (hstep : E.step s.state row.applied = (x, row.out)) (hdone : row.out.ended = true) (hreset : E.reset kw x = (y, o, i)) :
      Trajectory E start (rows ++ [row]) ⟨true, y, o, i⟩
  | again {rows : List (Row O A R I)} {s : Situation σ O I} (kw : K) (y : σ) (o : O) (i : I)
      (h : Trajectory E start rows s) (hf : s.fresh = true) (hreset : E.reset kw s.state = (y, o, i)) :
      Trajectory E start rows ⟨true, y, o, i⟩

/-- A situation right after a reset. -/
def JustReset (E : Env σ A O R I K) (s : Situation σ O I) : Prop :=
  s.fresh = true ∧ ∃ kw x, E.reset kw x = (s.state, s.obs, s.info)

/-- The states a collector can be in: built, then any calls of `reset` and of `collect` with exactly one of `n_step` and
`n_episode`. -/
inductive Reachable (c : Cfg σ A O R I H K) : Col σ A O R I H → Prop
  | built (w : World σ O) : Reachable c { world := w }
  | reset {s : Col σ A O R I H} (h : Reachable c s) (buffer stats : Bool) (kw : K) : Reachable c (reset c buffer stats kw s)
  | steps {s s' : Col σ A O R I H} (h : Reachable c s) (n : Int) (random before : Bool) (kw : K) (fuel : Nat) (st : Stats)
      (hc : collect c (some n) none random before kw fuel s = some (.ok (s', st))) : Reachable c s'
  | episodes {s s' : Col σ A O R I H} (h : Reachable c s) (n : Int) (random before : Bool) (kw : K) (fuel : Nat) (st : Stats)
      (hc : collect c none (some n) random before kw fuel s = some (.ok (s', st))) : Reachable c s'

/-- States of a collector in ordinary use: a reset together with the buffer, followed by collections and resets that do not
interrupt an episode whose beginning is in the buffer. The flag says that no environment is in the middle of an episode; if some
are, neither the collector is reset (keeping the buffer) nor fewer episodes than environments are asked for, since both
reset all environments. -/
inductive Usage (c : Cfg σ A O R I H K) : Bool → Col σ A O R I H → Prop
  | reset {s : Col σ A O R I H} (h : Reachable c s) (stats : Bool) (kw : K) : Usage c true (reset c true stats kw s)
  | resetKept {s : Col σ A O R I H} (h : Usage c true s) (stats : Bool) (kw : K) : Usage c true (reset c false stats kw s)
  | steps {b : Bool} {s s' : Col σ A O R I H} (h : Usage c b s) (n : Int) (random before : Bool) (hb : before = true → b = true)
      (kw : K) (fuel : Nat) (st : Stats)
      (hc : collect c (some n) none random before kw fuel s = some (.ok (s', st))) : Usage c false s'
  | episodes {b : Bool} {s s' : Col σ A O R I H} (h : Usage c b s) (n : Int) (hn : b = true ∨ (c.envNum : Int) ≤ n)
      (random before : Bool) (hb : before = true → b = true) (kw : K) (fuel : Nat) (st : Stats)
      (hc : collect c none (some n) random before kw fuel s = some (.ok (s', st))) : Usage c true s'

/-- The transitions stored in one round come from one decision: either the policy was asked about exactly the stored
observations (in order), exploration noise was added if enabled, and the environments were given the mapped actions; or the
actions were sampled from the action spaces and the policy's counterparts stored. -/
def Decided (c : Cfg σ A O R I H K) (round : List (Nat × Row O A R I)) : Prop :=
  (∃ k hidden, round.map (fun p => p.2.act) =
      (let obs := round.map fun p => p.2.obs
       let acts := (c.policy.forward k obs (round.map fun p => p.2.given) hidden).1
       if c.noise then c.policy.noise k acts obs else acts) ∧
    ∀ p ∈ round, p.2.applied = c.policy.mapAction p.2.act) ∨
  (∃ k, ∀ p ∈ round, p.2.applied = c.policy.sample k p.1 ∧ p.2.act = c.policy.mapActionInverse p.2.applied)

/-- The environment ends every episode: `left` bounds the number of steps still to come. -/
def TimeLimited (E : Env σ A O R I K) (left : σ → Nat) : Prop :=
  ∀ s a, (E.step s a).2.ended = false → left (E.step s a).1 < left s

/-- The policy returns one action per observation. -/
def Fitting (c : Cfg σ A O R I H K) : Prop :=
  ∀ k obs info hidden, (c.policy.forward k obs info hidden).1.length = obs.length ∧
    ∀ acts, acts.length = obs.length → (c.policy.noise k acts obs).length = obs.length

/-- The recurrent states given to the policy in call `b` continue those returned in the preceding call `a`: for an environment
asked about in both, it is the state returned for it, or zero if its episode has ended in between. -/
def Continues (c : Cfg σ A O R I H K) (a b : Call H) : Prop :=
  ∀ i j e : Nat, a.ids[i]? = some e → b.ids[j]? = some e →
    match a.returned with
    | none => b.given = none
    | some h => ∃ g, b.given = some g ∧ g[j]? = if a.done[i]? = some true then some c.zeroHidden else h[i]?

/-- The policy returns one recurrent state per observation, if any. -/
def FittingHidden (c : Cfg σ A O R I H K) : Prop :=
  ∀ k obs info hidden h, (c.policy.forward k obs info hidden).2 = some h → h.length = obs.length

end Verif.Collector
