import Verif.Model.Collector
import Verif.Model.Wrappers

/-! Model of `TruncatedAsTerminated` in `tianshou/env/gym_wrappers.py` as a wrapper around an environment. -/

namespace Verif.Wrappers

open Verif.Collector

/-- `gym_wrappers.py` lines 77-80: `TruncatedAsTerminated.step`; `reset` is that of the environment (`gym.Wrapper`). -/
def asTerminated {σ A O R I K : Type} (E : Env σ A O R I K) : Env σ A O R I K where
  step := fun s a =>
    let r := E.step s a
    let f := truncatedAsTerminated r.2.terminated r.2.truncated
    (r.1, { r.2 with terminated := f.1, truncated := f.2 })
  reset := E.reset

end Verif.Wrappers
