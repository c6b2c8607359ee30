import Verif.Model.Pipeline
import Verif.Model.Returns

/-!
Hooks that run at the end of an episode and store values with its transitions: `tianshou/data/collector.py`, lines 895-898, 939-975 and
1032-1045, the hook for Monte Carlo returns, lines 1443-1472, with `tianshou/data/batch.py`, lines 777-805 and 1268-1304, and
`tianshou/data/buffer/base.py`, lines 635-648. The rounds are those of the collector of `Collector.lean` with its vector buffer.

Simplifications: a hook is a function of the stored transitions of the episode, without frame stacking and without a reconstructed
`obs_next`; its arrays contain numbers (arrays of integers make the first call raise a `TypeError`); it does not use the names of the
entries a transition has anyway. Entries other than those of the hook are free of NaN.
-/

namespace Verif.EpisodeHook

open Verif.Buffer Verif.Pipeline

variable {O A R I V : Type}

/-- What `collect` raises: an error of the buffer, or `ValueError` (lines 957-962; arrays of the wrong length), or
`MalformedBufferError`. -/
inductive Err where
  | buffer (e : Buffer.Err)
  | valueError
  | malformed
deriving DecidableEq, Repr

/-- The arrays added to the buffer by hooks: name, and the value in each slot; `none` is NaN. -/
abbrev Cols (V : Type) := List (String × (Nat → Option V))

/-- A vector buffer together with the arrays added by hooks. -/
structure HBuf (O A R V : Type) where
  mgr : Mgr O A R
  cols : Cols V

/-- A hook: the transitions of an episode ↦ a dictionary of arrays, or `None`. -/
abbrev Hook (O A R V : Type) := List (Trans O A R) → Option (List (String × List V))

/-- The array with this name. -/
def lookup (cols : Cols V) (key : String) : Option (Nat → Option V) := (cols.find? fun p => p.1 == key).map Prod.snd

/-- batch.py:777-805, reached from `add`: the slots written by a batch that does not have these entries are set to zero. -/
def zeroAt [Zero V] (slots : List Nat) (cols : Cols V) : Cols V :=
  cols.map fun p => (p.1, fun i => if slots.contains i then some 0 else p.2 i)

/-- `self[key][index] = arr`, batch.py:1294, for an array of the right length. -/
def writeCol : (Nat → Option V) → List Nat → List V → Nat → Option V
  | c, i :: is, v :: vs => writeCol (Function.update c i (some v)) is vs
  | c, _, _ => c

/-- `set_array_at_key` with an index, batch.py:1268-1294: a new array is filled with NaN. -/
def setAt (cols : Cols V) (key : String) (idx : List Nat) (vs : List V) : Cols V :=
  if cols.any fun p => p.1 == key then cols.map fun p => (p.1, if p.1 == key then writeCol p.2 idx vs else p.2)
  else cols ++ [(key, writeCol (fun _ => none) idx vs)]

/-- Lines 964-975: the entries of the dictionary are stored, in the buffer and in the batch of the episode; an array that does not have the
length of the episode raises `ValueError` at the latest there (batch.py:1296-1301). -/
def storeAdditions (idx : List Nat) : List (String × List V) → Cols V → Option (Cols V)
  | [], cols => some cols
  | (key, vs) :: rest, cols => if vs.length = idx.length then storeAdditions idx rest (setAt cols key idx vs) else none

/-- Lines 944-975 for one environment that is done; `byEpisode`: the collection was asked for a number of episodes. -/
def onDone (hook : Hook O A R V) (byEpisode : Bool) (x : HBuf O A R V) (r : AddResult R) : Except Err (HBuf O A R V) :=
  match x.mgr.getBufferIndices r.epStart (r.slot + 1) with
  | .error e => .error (.buffer e)
  | .ok idx =>
    match hook (idx.filterMap x.mgr.data) with
    | none => .ok x
    | some adds =>
      if byEpisode then
        match storeAdditions idx adds x.cols with
        | none => .error .valueError
        | some cols => .ok { x with cols := cols }
      else .error .valueError

/-- The loop over the environments that are done, lines 939-975. -/
def onAllDone (hook : Hook O A R V) (byEpisode : Bool) : HBuf O A R V → List (AddResult R) → Except Err (HBuf O A R V)
  | x, [] => .ok x
  | x, r :: rest =>
    match onDone hook byEpisode x r with
    | .error e => .error e
    | .ok x' => onAllDone hook byEpisode x' rest

/-- One round, lines 895-975: the transitions are added, then the hook runs for each environment that is done. -/
def hookRound [Zero R] [Add R] [Zero V] (hook : Hook O A R V) (byEpisode : Bool) (x : HBuf O A R V)
    (round : List (Nat × Collector.Row O A R I)) : Except Err (HBuf O A R V) :=
  match x.mgr.add (round.map Prod.fst) (round.map fun p => toTrans p.2) with
  | .error e => .error (.buffer e)
  | .ok (m', res) =>
    onAllDone hook byEpisode ⟨m', zeroAt (res.map fun r => r.slot) x.cols⟩
      (((round.zip res).filter fun p => p.1.2.out.done).map Prod.snd)

/-- Several rounds, each with the mode of its collection. -/
def hookRounds [Zero R] [Add R] [Zero V] (hook : Hook O A R V) :
    HBuf O A R V → List (Bool × List (Nat × Collector.Row O A R I)) → Except Err (HBuf O A R V)
  | x, [] => .ok x
  | x, (byEpisode, round) :: rest =>
    match hookRound hook byEpisode x round with
    | .error e => .error e
    | .ok x' => hookRounds hook x' rest

/-- Lines 1032-1045 with base.py:640-641 and 595-603: the check at the end of a collection reads `buffer[:]`, that is the transitions listed
by `sample_indices(0)`. -/
def nullCheck (x : HBuf O A R V) : Except Err Unit :=
  match x.mgr.sampleIndices (fun _ => 0) (fun _ _ => 0) (some 0) with
  | .error e => .error (.buffer e)
  | .ok indices => if indices.any fun i => x.cols.any fun p => (p.2 i).isNone then .error .malformed else .ok ()

/-- `EpisodeRolloutHookMCReturn`, lines 1443-1472, for a discount factor accepted by its constructor. -/
def mcEpisodeHook [LE R] [Zero R] [One R] [Mul R] [Add R] [DecidableLE R] (gamma : R) : Hook O A R R := fun episode =>
  (Returns.mcHook gamma (episode.map Trans.rew)).map fun p => [("mc_return_to_go", p.1), ("full_episode_mc_return", p.2)]

end Verif.EpisodeHook
