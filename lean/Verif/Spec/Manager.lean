import Verif.Model.Manager
import Verif.Spec.History

/-! What a vector buffer should be: a list of separate `ReplayBuffer`s, each receiving its own transitions. -/

namespace Verif.Buffer

open Verif.Spec

variable {O A R : Type} [AddCommMonoid R]

/-- Give each transition to the separate buffer with the given number, one after the other. -/
def routeAll : List (Buf O A R) → List (Nat × Trans O A R) → Option (List (Buf O A R) × List (AddResult R))
  | sep, [] => some (sep, [])
  | sep, (b, t) :: rest =>
    match sep[b]? with
    | none => none
    | some buf =>
      match buf.add t with
      | .error _ => none
      | .ok (buf', r) =>
        match routeAll (sep.set b buf') rest with
        | none => none
        | some (sep', rs) => some (sep', r :: rs)

/-- First slot of sub-buffer `b`: the sizes of the sub-buffers before it. -/
def startOf (sep : List (Buf O A R)) (b : Nat) : Nat := ((sep.map fun s => s.idx.maxsize).take b).sum

/-- A slot of the vector buffer that holds a transition. -/
def LiveIn (sep : List (Buf O A R)) (i : Nat) : Prop :=
  ∃ (b : Nat) (c : Buf O A R), sep[b]? = some c ∧ startOf sep b ≤ i ∧ i < startOf sep b + c.len

/-- A result of a separate buffer, in terms of global slots. -/
def AddResult.shift (off : Nat) (r : AddResult R) : AddResult R :=
  { r with slot := r.slot + off, epStart := r.epStart + off }

/-- Move the content of the buffers with the given numbers into buffer 0 and empty them. -/
def moveAll : List (Buf O A R) → List Nat → Option (List (Buf O A R))
  | sep, [] => some sep
  | sep, b :: rest =>
    match sep[0]?, sep[b]? with
    | some main, some c => moveAll ((sep.set 0 (main.update c).1).set b (c.reset false)) rest
    | _, _ => none

/-- The slots of buffer 0 into which each of these moves writes. -/
def moveSlots : List (Buf O A R) → List Nat → List (List Nat)
  | _, [] => []
  | sep, b :: rest =>
    match sep[0]?, sep[b]? with
    | some main, some c => (main.update c).2 :: moveSlots ((sep.set 0 (main.update c).1).set b (c.reset false)) rest
    | _, _ => []

/-- What `CachedReplayBuffer.add` returns for each row, given whether the row ended its episode, the results of
adding the rows to the cached buffers, and for each ended episode the slots it was moved to: for an ended
episode the last and the first of these slots, otherwise the result for the cached buffer; the return and the
length of the episode in both cases. -/
inductive CachedResults : List Bool → List (AddResult R) → List (List Nat) → List (CachedResult R) → Prop
  | nil : CachedResults [] [] [] []
  | opened {ds rs ss out} (r : AddResult R) : CachedResults ds rs ss out →
      CachedResults (false :: ds) (r :: rs) ss (⟨r.slot, r.epRet, r.epLen, r.epStart⟩ :: out)
  | ended {ds rs ss out} (r : AddResult R) (slots : List Nat) (first last : Nat) : slots.head? = some first →
      slots.getLast? = some last → CachedResults ds rs ss out →
      CachedResults (true :: ds) (r :: rs) (slots :: ss) (⟨last, r.epRet, r.epLen, first⟩ :: out)

/-- `Reach m sep`: the vector buffer `m` results from public operations, and `sep` are separate buffers that
received the same transitions. The last constructor is `CachedReplayBuffer.add`. -/
inductive Reach : Mgr O A R → List (Buf O A R) → Prop
  | new (sizes : List Nat) (hs : ∀ s ∈ sizes, 0 < s) (opts : Opts O) :
      Reach (Mgr.new sizes opts) (sizes.map fun s => Buf.new s opts)
  | add {m m' : Mgr O A R} {sep sep' : List (Buf O A R)} {ids : List Nat} {rows : List (Trans O A R)}
      {res res' : List (AddResult R)} :
      Reach m sep → m.add ids rows = .ok (m', res) → routeAll sep (ids.zip rows) = some (sep', res') →
      Reach m' sep'
  | reset {m : Mgr O A R} {sep : List (Buf O A R)} (keepStatistics : Bool) :
      Reach m sep → Reach (m.reset keepStatistics) (sep.map fun b => b.reset keepStatistics)
  | cachedAdd {m m' : Mgr O A R} {sep sep' sep'' : List (Buf O A R)} {ids : List Nat}
      {rows : List (Trans O A R)} {res : List (CachedResult R)} {res' : List (AddResult R)} :
      Reach m sep → ids.Nodup → m.cachedAdd ids rows = .ok (m', res) →
      routeAll sep ((ids.map (· + 1)).zip rows) = some (sep', res') →
      moveAll sep' (((ids.zip rows).filter fun p => p.2.terminated || p.2.truncated).map fun p => p.1 + 1) =
        some sep'' →
      Reach m' sep''

end Verif.Buffer

namespace Verif.Buffer

open Verif.Spec

variable {O A R : Type} [AddCommMonoid R]

/-- What a `CachedReplayBuffer` has received: `main` is the concatenation of the finished episodes (each cut
to its last `L` transitions) in order of completion, `opened b` the unfinished episode of environment `b`. -/
structure Cached (O A R : Type) where
  main : List (Trans O A R)
  opened : Nat → List (Trans O A R)

/-- Environment `p.1` delivers the transition `p.2`. -/
def Cached.receive (L : Nat) (opts : Opts O) (s : Cached O A R) (p : Nat × Trans O A R) : Cached O A R :=
  let ep := s.opened p.1 ++ [expectedRow opts p.2]
  if p.2.terminated || p.2.truncated then
    { main := s.main ++ lastN L ep, opened := Function.update s.opened p.1 [] }
  else { main := s.main, opened := Function.update s.opened p.1 ep }

/-- Histories of a `CachedReplayBuffer` with `n` cached buffers; the ids within one call are distinct. -/
inductive CHistory (n L : Nat) (opts : Opts O) : Mgr O A R → Cached O A R → Prop
  | new (mainSize : Nat) (hm : 0 < mainSize) (hL : 0 < L) :
      CHistory n L opts (Mgr.newCached mainSize n L opts) ⟨[], fun _ => []⟩
  | add {m m' : Mgr O A R} {s : Cached O A R} {ids : List Nat} {rows : List (Trans O A R)}
      {res : List (CachedResult R)} :
      CHistory n L opts m s → ids.Nodup → m.cachedAdd ids rows = .ok (m', res) →
      CHistory n L opts m' ((ids.zip rows).foldl (Cached.receive L opts) s)
  | reset {m : Mgr O A R} {s : Cached O A R} (keepStatistics : Bool) :
      CHistory n L opts m s → CHistory n L opts (m.reset keepStatistics) ⟨[], fun _ => []⟩

end Verif.Buffer
