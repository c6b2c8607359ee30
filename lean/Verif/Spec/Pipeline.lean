import Verif.Model.Pipeline
import Verif.Spec.Collector
import Verif.Spec.Returns

/-! Specification vocabulary: what an environment went through, seen from the stream of its transitions. -/

namespace Verif.Pipeline

open Verif.Buffer

variable {O A R I : Type}

/-- What a user expects to be stored for a step of an environment: the observation the policy saw, the action, and what the environment
answered. -/
def experience (row : Collector.Row O A R I) : Trans O A R :=
  ⟨row.obs, row.act, row.out.rew, row.out.terminated, row.out.truncated, some row.out.obs⟩

/-- The transitions of the episode that is still open at the end of the stream `rows`. -/
def openEpisode (rows : List (Collector.Row O A R I)) : List (Collector.Row O A R I) :=
  (rows.reverse.takeWhile fun r => !r.out.ended).reverse

/-- Reward sum and length of each episode that ends in `new`, in the order in which they end; `past` is what was collected before. -/
def finishedEpisodes [AddCommMonoid R] :
    List (Nat × Collector.Row O A R I) → List (Nat × Collector.Row O A R I) → List (R × Nat)
  | _, [] => []
  | past, (e, row) :: rest =>
    let episode := openEpisode (Collector.rowsOf e [past]) ++ [row]
    (if row.out.ended then [((episode.map fun r => r.out.rew).sum, episode.length)] else []) ++
      finishedEpisodes (past ++ [(e, row)]) rest

/-- Every episode that ends in `new` fits into the sub-buffer of its environment with a slot to spare. -/
def EpisodesFit (size : Nat → Nat) : List (Nat × Collector.Row O A R I) → List (Nat × Collector.Row O A R I) → Prop
  | _, [] => True
  | past, (e, row) :: rest =>
    (row.out.ended = true → (openEpisode (Collector.rowsOf e [past])).length + 1 < size e) ∧ EpisodesFit size (past ++ [(e, row)]) rest

instance decidableFit (size : Nat → Nat) : (past new : List (Nat × Collector.Row O A R I)) → Decidable (EpisodesFit size past new)
  | _, [] => .isTrue trivial
  | past, (e, row) :: rest =>
    have := decidableFit size (past ++ [(e, row)]) rest
    inferInstanceAs (Decidable ((row.out.ended = true → (openEpisode (Collector.rowsOf e [past])).length + 1 < size e) ∧
      EpisodesFit size (past ++ [(e, row)]) rest))

/-- A function of the transitions, at step `j` of a stream. -/
def valueAt [Zero R] (stream : List (Trans O A R)) (val : Trans O A R → R) (j : Nat) : R := ((stream[j]?).map val).getD 0

/-- The generalised advantage estimate of step `k` of a stream of transitions, if the critic gives the value `val t` to the state before the
transition `t` and `val' t` to the state after it. -/
def streamGae [CommRing R] (stream : List (Trans O A R)) (gamma lam : R) (val val' : Trans O A R → R) (k : Nat) : R :=
  Returns.gaeSum stream gamma lam (valueAt stream val) (valueAt stream val') k

end Verif.Pipeline
