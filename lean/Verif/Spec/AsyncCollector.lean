import Verif.Model.AsyncCollector
import Verif.Spec.Collector

/-! Specification vocabulary for the asynchronous collector. -/

namespace Verif.Collector

variable {σ A O R I H K : Type}

/-- What a vector environment may answer: results of at least one pending step, each once. -/
def Schedule (wait : Nat → List Nat → List Nat) : Prop :=
  ∀ (k : Nat) (pending : List Nat), pending ≠ [] → pending.Nodup →
    wait k pending ≠ [] ∧ (wait k pending).Nodup ∧ ∀ e ∈ wait k pending, e ∈ pending

/-- The states an asynchronous collector can be in. -/
inductive AReachable (c : ACfg σ A O R I H K) : ACol σ A O R I H → Prop
  | built (w : World σ O) : AReachable c (abuilt c w)
  | reset {s s' : ACol σ A O R I H} (h : AReachable c s) (buffer stats : Bool) (kw : K)
      (hr : areset c buffer stats kw s = .ok s') : AReachable c s'
  | collect {s s' : ACol σ A O R I H} (h : AReachable c s) (nStep nEpisode : Option Int) (random before : Bool) (kw : K)
      (fuel : Nat) (st : Stats) (hc : acollect c nStep nEpisode random before kw fuel s = some (.ok (s', st))) :
      AReachable c s'

/-- Ordinary use: a reset together with the buffer, followed by collections without further resets. -/
inductive AUsage (c : ACfg σ A O R I H K) : ACol σ A O R I H → Prop
  | reset {s s' : ACol σ A O R I H} (h : AReachable c s) (stats : Bool) (kw : K)
      (hr : areset c true stats kw s = .ok s') : AUsage c s'
  | collect {s s' : ACol σ A O R I H} (h : AUsage c s) (nStep nEpisode : Option Int) (random : Bool) (kw : K)
      (fuel : Nat) (st : Stats) (hc : acollect c nStep nEpisode random false kw fuel s = some (.ok (s', st))) :
      AUsage c s'

/-- A stored transition of environment `e` shows one decision: either the policy was asked about a batch of observations and
infos, at some position of which are the stored observation and the info then current, and the stored action is what the policy
answered at this position (with exploration noise if enabled), as an array of floats holds it, while the environment was
given the mapped action; or the action was sampled from the action space of `e` and the policy's counterpart stored. -/
def Asked (c : ACfg σ A O R I H K) (e : Nat) (obs : O) (info : I) (act applied : A) : Prop :=
  (∃ (k i : Nat) (batch : List O) (infos : List I) (hidden : Option (List H)) (a : A),
    batch[i]? = some obs ∧ infos[i]? = some info ∧
    (let acts := (c.base.policy.forward k batch infos hidden).1
     if c.base.noise then c.base.policy.noise k acts batch else acts)[i]? = some a ∧
    c.store a = some act ∧ applied = c.base.policy.mapAction a) ∨
  (∃ k, applied = c.base.policy.sample k e ∧ c.store (c.base.policy.mapActionInverse applied) = some act)

end Verif.Collector
