import Verif.Model.EpisodeHook
import Verif.Spec.Pipeline

/-! Specification vocabulary: episodes in the stream of an environment, and the values stored with their transitions. -/

namespace Verif.EpisodeHook

open Verif.Buffer Verif.Pipeline

variable {O A R I V : Type}

/-- `ep` is one episode: only its last step ends. -/
def IsEpisode (ep : List (Collector.Row O A R I)) : Prop :=
  ∃ body last, ep = body ++ [last] ∧ (∀ r ∈ body, r.out.ended = false) ∧ last.out.ended = true

/-- The value stored under this name in this slot is the number `v`. -/
def Carries (cols : Cols V) (key : String) (slot : Nat) (v : V) : Prop := ∃ c, lookup cols key = some c ∧ c slot = some v

end Verif.EpisodeHook
