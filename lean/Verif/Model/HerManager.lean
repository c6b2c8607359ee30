import Verif.Model.Her
import Verif.Model.Manager

/-!
Model of `HERReplayBufferManager` (`tianshou/data/buffer/manager.py` lines 265-303) and `HERVectorReplayBuffer`
(`tianshou/data/buffer/vecbuf.py` lines 69-89).

Simplifications: those of `Model/Her.lean` (in particular `stack_num = 1`, so that lines 200-212 of manager.py are
not reached) and of `Model/Manager.lean`. The sub-buffers are `HERReplayBuffer`s of the same configuration; they
write into the manager's store, of which their `_meta` is a view. `save_hdf5`, `set_batch` and `update` (which
raises) are not modelled.
-/

namespace Verif.Buffer

variable {P G A R : Type}

/-- A `HERReplayBufferManager`; `saved b` are `_altered_indices` and `_original_meta` of `self.buffers[b]`. -/
structure HMgr (P G A R : Type) where
  mgr : Mgr (GObs P G) A R
  computeReward : G → G → R
  horizon : Nat
  futureP : ℚ
  saved : Nat → List (Nat × Option (Trans (GObs P G) A R))

/-- `__init__`, manager.py:278-279, for fresh buffers of the given sizes (her.py:33-46). -/
def HMgr.new [Zero R] (sizes : List Nat) (computeReward : G → G → R) (horizon : Nat) (futureK : ℚ)
    (opts : Opts (GObs P G)) : HMgr P G A R :=
  ⟨Mgr.new sizes opts, computeReward, horizon, 1 - 1 / futureK, fun _ => []⟩

/-- `HERVectorReplayBuffer.__init__`, vecbuf.py:85-89. -/
def HMgr.newVector [Zero R] (totalSize bufferNum : Nat) (computeReward : G → G → R) (horizon : Nat) (futureK : ℚ)
    (opts : Opts (GObs P G)) : HMgr P G A R :=
  HMgr.new (List.replicate bufferNum ((totalSize + bufferNum - 1) / bufferNum)) computeReward horizon futureK opts

/-- `self.buffers[b]`, for the entry `s`. -/
def HMgr.child (m : HMgr P G A R) (b : Nat) (s : Sub R) : HBuf P G A R :=
  ⟨m.mgr.child s, m.computeReward, m.horizon, m.futureP, m.saved b⟩

/-- What `self.buffers[b]` does to its `_meta` and its cache is done to the manager's store. -/
def HMgr.put (m : HMgr P G A R) (b : Nat) (s : Sub R) (c : HBuf P G A R) : HMgr P G A R :=
  { m with mgr := { m.mgr with data := writeBack m.mgr.data s c.base.data }, saved := Function.update m.saved b c.saved }

/-- `_restore_cache`, manager.py:281-283, for the buffers with the given numbers. -/
def HMgr.restoreLoop (m : HMgr P G A R) : List Nat → HMgr P G A R
  | [] => m
  | b :: rest =>
    match m.mgr.subs[b]? with
    | none => m
    | some s => (m.put b s (m.child b s).restore).restoreLoop rest

/-- `_restore_cache`, manager.py:281-283. -/
def HMgr.restore (m : HMgr P G A R) : HMgr P G A R := m.restoreLoop (List.range m.mgr.subs.length)

/-- `add`, manager.py:297-303. -/
def HMgr.add [Zero R] [Add R] (m : HMgr P G A R) (ids : List Nat) (rows : List (Trans (GObs P G) A R)) :
    Except Err (HMgr P G A R × List (AddResult R)) :=
  let m := m.restore
  match m.mgr.add ids rows with
  | .error e => .error e
  | .ok (mgr, rs) => .ok ({ m with mgr := mgr }, rs)

/-- `reset`, inherited, manager.py:70-75; every sub-buffer restores its cache, her.py:63-65. -/
def HMgr.reset [Zero R] (m : HMgr P G A R) (keepStatistics : Bool) : HMgr P G A R :=
  let m := m.restore
  { m with mgr := m.mgr.reset keepStatistics }

/-- manager.py:224-229: the sub-buffers sample (her.py:87-98) one after the other; `rng b`, `u b` and `pick b` are
the random numbers drawn by sub-buffer `b`. -/
def HMgr.sampleLoop (m : HMgr P G A R) (rng : Nat → Nat → Nat) (u : Nat → Nat → ℚ)
    (pick : Nat → Nat → Nat → List Nat) (num : Nat → Int) : List Nat → Except Err (HMgr P G A R × List Nat)
  | [] => .ok (m, [])
  | b :: rest =>
    match m.mgr.subs[b]? with
    | none => .error .indexError
    | some s =>
      match (m.child b s).sampleIndices (rng b) (u b) (pick b) (some (num b)) with
      | .error e => .error e
      | .ok (c, l) =>
        match (m.put b s c).sampleLoop rng u pick num rest with
        | .error e => .error e
        | .ok (m', ls) => .ok (m', l.map (· + s.offset) ++ ls)

/-- `sample_indices`, inherited, manager.py:195-229; `draw` as in `Mgr.sampleIndices`. -/
def HMgr.sampleIndices (m : HMgr P G A R) (draw : Nat → Nat) (rng : Nat → Nat → Nat) (u : Nat → Nat → ℚ)
    (pick : Nat → Nat → Nat → List Nat) (batchSize : Option Int) : Except Err (HMgr P G A R × List Nat) :=
  if batchSize.getD 0 < 0 then .ok (m, [])
  else if batchSize.getD 0 = 0 then m.sampleLoop rng u pick (fun _ => 0) (List.range m.mgr.subs.length)
  else
    let cands := (List.range m.mgr.subs.length).filter fun b =>
      decide (0 < (m.mgr.subs.map Sub.length).getD b 0)
    match choice draw cands (batchSize.getD 0).toNat with
    | .error e => .error e
    | .ok bufferIdx =>
      m.sampleLoop rng u pick (fun b => if bufferIdx.count b = 0 then -1 else (bufferIdx.count b : Int))
        (List.range m.mgr.subs.length)

end Verif.Buffer
