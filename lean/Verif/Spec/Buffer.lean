import Mathlib.Data.List.Basic
import Mathlib.Algebra.BigOperators.Group.List.Basic

/-! Specification vocabulary for replay buffers: plain lists. -/

namespace Verif.Spec

variable {T : Type}

/-- The last `m` elements. -/
def lastN (m : Nat) (h : List T) : List T := h.drop (h.length - m)

/-- In the chronological content `c` of a buffer, does step `k` belong to the same episode as step `k - 1`?
It does if step `k - 1` is stored and did not end its episode. -/
def continues (done : T → Bool) (c : List T) (k : Nat) : Bool :=
  match k with
  | 0 => false
  | k + 1 => match c[k]? with
    | some t => !done t
    | none => false

/-- First stored step of the episode of step `k`. -/
def epFirst (done : T → Bool) (c : List T) : Nat → Nat
  | 0 => 0
  | k + 1 => if continues done c (k + 1) then epFirst done c k else k + 1

/-- Last stored step of the episode of step `k`: the first step from `k` on that ends an episode, or the
newest step if there is none. -/
def epLast (done : T → Bool) (c : List T) (k : Nat) : Nat :=
  min (k + ((c.drop k).takeWhile fun t => !done t).length) (c.length - 1)

end Verif.Spec
