import Verif.Model.Batch

/-!
Model of `_HACKY_create_info_batch`, `tianshou/data/collector.py` lines 267-293: the infos of the environments as a batch for the
policy. An info is a dictionary, given as the batch it is converted to; an empty one is falsy.
-/

namespace Verif.Batch

/-- The positions of the empty infos, lines 277-279. -/
def falsyPositions (infos : List B) : List Nat := (infos.zipIdx.filter fun p => decide (p.1.keys = [])).map Prod.snd

/-- Lines 284-288: the first info that is not empty. -/
def someInfo (infos : List B) : Option B := infos.find? fun b => decide (b.keys ≠ [])

/-- `_HACKY_create_info_batch`, lines 267-293. The array with the empty infos replaced is made a batch by stacking (lines 290-291), and
then the rows of the empty infos are assigned an empty dictionary (line 292). -/
def infoBatch (infos : List B) : Except Err B :=
  match someInfo infos with
  | none => .ok .nil
  | some info =>
    match stack (infos.map fun b => if b.keys = [] then info else b) with
    | .error e => .error e
    | .ok b =>
      match b.setitem (.many ((falsyPositions infos).map fun p : Nat => (p : Int))) .nil with
      | (_, some e) => .error e
      | (b', none) => .ok b'

end Verif.Batch
