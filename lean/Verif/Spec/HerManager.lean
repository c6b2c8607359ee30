import Verif.Model.HerManager
import Verif.Spec.Her

/-! Histories of a vector buffer with hindsight, labelled with what each sub-buffer was given. -/

namespace Verif.Buffer

open Verif.Spec

variable {P G A R : Type} [AddCommMonoid R]

/-- Sub-buffer `p.1` is given the transition `p.2`. -/
def give (opts : Opts (GObs P G)) (gs : List (Ghost (GObs P G) A R)) (p : Nat × Trans (GObs P G) A R) :
    List (Ghost (GObs P G) A R) :=
  gs.modify p.1 fun g => ⟨g.received ++ [expectedRow opts p.2],
    if p.2.terminated || p.2.truncated then [] else g.openEp ++ [p.2],
    if p.2.terminated || p.2.truncated then g.received.length + 1 else g.startPos⟩

/-- `HMHistory K m gs`: any interleaving of `add`, `reset` and sampling with any random outcomes, starting from a
vector buffer constructed with `future_k = K`; `gs` records what each sub-buffer was given, sampling leaves it alone. -/
inductive HMHistory (K : ℚ) : HMgr P G A R → List (Ghost (GObs P G) A R) → Prop
  | new (sizes : List Nat) (hs : ∀ s ∈ sizes, 0 < s) (computeReward : G → G → R) (horizon : Nat)
      (opts : Opts (GObs P G)) (hstack : opts.stackNum = 1) :
      HMHistory K (HMgr.new sizes computeReward horizon K opts) (sizes.map fun _ => ⟨[], [], 0⟩)
  | add {m m' : HMgr P G A R} {gs : List (Ghost (GObs P G) A R)} {ids : List Nat} {rows : List (Trans (GObs P G) A R)}
      {rs : List (AddResult R)} : HMHistory K m gs → (∀ b ∈ ids, b < gs.length) → m.add ids rows = .ok (m', rs) →
      HMHistory K m' ((ids.zip rows).foldl (give m.mgr.opts) gs)
  | reset {m : HMgr P G A R} {gs : List (Ghost (GObs P G) A R)} (keepStatistics : Bool) : HMHistory K m gs →
      HMHistory K (m.reset keepStatistics)
        (gs.map fun g => ⟨[], if keepStatistics then g.openEp else [], 0⟩)
  | sample {m m' : HMgr P G A R} {gs : List (Ghost (GObs P G) A R)} {draw : Nat → Nat} {rng : Nat → Nat → Nat}
      {u : Nat → Nat → ℚ} {pick : Nat → Nat → Nat → List Nat} {batchSize : Option Int} {l : List Nat} :
      HMHistory K m gs → m.sampleIndices draw rng u pick batchSize = .ok (m', l) → HMHistory K m' gs

end Verif.Buffer
