import Verif.Spec.Collector

/-! Specification vocabulary: any use of a collector since its buffer was reset, counting the calls that break off episodes. -/

namespace Verif.Collector

variable {σ A O R I H K : Type}

/-- Any sequence of calls after a reset together with the buffer. The flag says that no environment is in the middle of an episode. The
number counts the calls that may have broken off episodes: those that reset the environments (a reset of the collector keeping the
buffer, a collection with `reset_before_collect`) while some environment was in the middle of an episode, and collections of fewer
episodes than environments at such a time, as the environments left out are reset afterwards. -/
inductive Uses (c : Cfg σ A O R I H K) : Bool → Nat → Col σ A O R I H → Prop
  | reset {s : Col σ A O R I H} (h : Reachable c s) (stats : Bool) (kw : K) : Uses c true 0 (reset c true stats kw s)
  | resetKept {b : Bool} {k : Nat} {s : Col σ A O R I H} (h : Uses c b k s) (stats : Bool) (kw : K) :
      Uses c true (if b then k else k + 1) (reset c false stats kw s)
  | steps {b : Bool} {k : Nat} {s s' : Col σ A O R I H} (h : Uses c b k s) (n : Int) (random before : Bool) (kw : K) (fuel : Nat)
      (st : Stats) (hc : collect c (some n) none random before kw fuel s = some (.ok (s', st))) :
      Uses c false (if before && !b then k + 1 else k) s'
  | episodes {b : Bool} {k : Nat} {s s' : Col σ A O R I H} (h : Uses c b k s) (n : Int) (random before : Bool) (kw : K) (fuel : Nat)
      (st : Stats) (hc : collect c none (some n) random before kw fuel s = some (.ok (s', st))) :
      Uses c true (if !b && (before || n < c.envNum) then k + 1 else k) s'

/-- The rows `rows` are a record of what one environment went through from a reset on, up to the situation `now`; at most `k` times
it was reset in the middle of an episode, and the record starts anew. -/
def Segmented (E : Env σ A O R I K) (k : Nat) (rows : List (Row O A R I)) (now : Situation σ O I) : Prop :=
  ∃ (segments : List (List (Row O A R I))) (last : List (Row O A R I)) (start : Situation σ O I),
    rows = segments.flatten ++ last ∧ segments.length ≤ k ∧
    (∀ seg ∈ segments, ∃ start now, JustReset E start ∧ Trajectory E start seg now) ∧
    JustReset E start ∧ Trajectory E start last now

end Verif.Collector
