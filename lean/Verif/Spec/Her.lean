import Verif.Model.Her
import Verif.Spec.History

/-! Histories of a hindsight-experience-replay buffer, labelled with what the user passed in. -/

namespace Verif.Buffer

open Verif.Spec

variable {P G A R : Type} [AddCommMonoid R]

/-- `HHistory K h g`: any interleaving of add, update (from a plain buffer), reset and sampling, with any random
outcomes, starting from a buffer constructed with `future_k = K`; `g` records what was passed in, sampling leaves it alone. -/
inductive HHistory (K : ℚ) : HBuf P G A R → Ghost (GObs P G) A R → Prop
  | new (m : Nat) (hm : 0 < m) (computeReward : G → G → R) (horizon : Nat)
      (opts : Opts (GObs P G)) (hs : opts.stackNum = 1) :
      HHistory K (HBuf.new m computeReward horizon K opts) ⟨[], [], 0⟩
  | add {h h' : HBuf P G A R} {g : Ghost (GObs P G) A R} {t : Trans (GObs P G) A R} {r : AddResult R} :
      HHistory K h g → h.add t = .ok (h', r) →
      HHistory K h' ⟨g.received ++ [expectedRow h.base.opts t],
        if t.terminated || t.truncated then [] else g.openEp ++ [t],
        if t.terminated || t.truncated then g.received.length + 1 else g.startPos⟩
  | update {h : HBuf P G A R} {g : Ghost (GObs P G) A R} {src : Buf (GObs P G) A R}
      {gs : Ghost (GObs P G) A R} : HHistory K h g → History src gs →
      HHistory K (h.update src).1 ⟨g.received ++ lastN src.idx.maxsize gs.received, g.openEp, g.startPos⟩
  | reset {h : HBuf P G A R} {g : Ghost (GObs P G) A R} (keepStatistics : Bool) : HHistory K h g →
      HHistory K (h.reset keepStatistics) ⟨[], if keepStatistics then g.openEp else [], 0⟩
  | sample {h h' : HBuf P G A R} {g : Ghost (GObs P G) A R} {rng : Nat → Nat} {u : Nat → ℚ}
      {pick : Nat → Nat → List Nat} {batchSize : Option Int} {l : List Nat} : HHistory K h g →
      h.sampleIndices rng u pick batchSize = .ok (h', l) → HHistory K h' g

/-- The goal achieved by a stored step `j` of the content `c`: that in its `obs_next`; if `obs_next` is not
stored, that in the observation of the following step of the episode (of step `j` itself if it is the last). -/
def achievedBy (ignoreObsNext : Bool) (c : List (Trans (GObs P G) A R)) (j : Nat) : Option G :=
  if ignoreObsNext then (c[min (j + 1) (epLast Trans.done c j)]?).map fun t => t.obs.achieved
  else (c[j]?).bind fun t => t.obsNext.map fun o => o.achieved

/-- `t'` is `t` with the desired goal replaced by `goal`, except for the reward. -/
def Relabelled (goal : G) (t t' : Trans (GObs P G) A R) : Prop :=
  t' = { t with
    obs := ⟨t.obs.observation, t.obs.achieved, goal⟩
    obsNext := t.obsNext.map fun o => ⟨o.observation, o.achieved, goal⟩
    rew := t'.rew }

end Verif.Buffer
