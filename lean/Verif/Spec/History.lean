import Verif.Model.Buffer
import Verif.Spec.Buffer

/-! Histories of public operations on a `ReplayBuffer`, labelled with what the user passed in. -/

namespace Verif.Buffer

open Verif.Spec

variable {O A R : Type} [AddCommMonoid R]

/-- The row a user expects to be stored for a transition: the transition itself, except that
`save_only_last_obs` keeps only the last frame of observations and `ignore_obs_next` drops `obs_next`. -/
def expectedRow (opts : Opts O) (t : Trans O A R) : Trans O A R where
  obs := (opts.lastFrame.getD id) t.obs
  act := t.act
  rew := t.rew
  terminated := t.terminated
  truncated := t.truncated
  obsNext := if opts.ignoreObsNext then none else t.obsNext.map (opts.lastFrame.getD id)

/-- What the user has done so far. -/
structure Ghost (O A R : Type) where
  /-- everything received since the last reset, oldest first -/
  received : List (Trans O A R)
  /-- transitions added since the last end of an episode or statistics-clearing reset -/
  openEp : List (Trans O A R)
  /-- how many transitions had been received since the last reset when the current episode began -/
  startPos : Nat

/-- `History b g`: the buffer `b` arises from a fresh buffer (of positive size) by public operations, and
`g` records what they were given. -/
inductive History : Buf O A R → Ghost O A R → Prop
  | new (m : Nat) (hm : 0 < m) (opts : Opts O) : History (Buf.new m opts) ⟨[], [], 0⟩
  | add {b b' : Buf O A R} {g : Ghost O A R} {t : Trans O A R} {r : AddResult R} :
      History b g → b.add t = .ok (b', r) →
      History b' ⟨g.received ++ [expectedRow b.opts t],
        if t.terminated || t.truncated then [] else g.openEp ++ [t],
        if t.terminated || t.truncated then g.received.length + 1 else g.startPos⟩
  | update {b src : Buf O A R} {g gs : Ghost O A R} :
      History b g → History src gs →
      History (b.update src).1
        ⟨g.received ++ lastN src.idx.maxsize gs.received, g.openEp, g.startPos⟩
  | reset {b : Buf O A R} {g : Ghost O A R} (keepStatistics : Bool) :
      History b g →
      History (b.reset keepStatistics) ⟨[], if keepStatistics then g.openEp else [], 0⟩

/-- The content of the buffer according to the history: the last `maxsize` transitions received. -/
def content (b : Buf O A R) (g : Ghost O A R) : List (Trans O A R) := lastN b.idx.maxsize g.received

end Verif.Buffer
