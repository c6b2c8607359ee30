import Verif.Model.Stats

/-!
Model of the statistics of policy updates: `TrainingStats` and `TrainingStatsWrapper` (`tianshou/policy/base.py` lines
37-130), `ICMTrainingStats` (`tianshou/policy/modelbased/icm.py` lines 21-33), `MapTrainingStats`
(`tianshou/policy/multiagent/mapolicy.py` lines 18-48), and what the trainer does with them (`tianshou/trainer/base.py` lines
191, 263-312, 578-601).

Simplifications. The attributes of an object are the items of its `__dict__`; methods, properties and attributes with a leading
underscore (which the loss dictionary skips) are left out. Agent ids are given by the text that formatting makes of them.
Statistics of the policies that are neither wrappers nor maps are dataclasses whose attributes are the fields of the class.
Summaries of sequences are given by their mean.
-/

namespace Verif.LossStats

open Verif.Stats (Num MovAvg)

/-- The value of an attribute: a number, `None`, a `SequenceSummaryStats` (by its mean), a duration, or a dictionary. -/
inductive Val (F : Type)
  | loss (x : Num F)
  | none
  | summary (mean : Num F)
  | time (t : F)
  | table (t : List (String × Num F))
deriving DecidableEq

/-- The items of a Python dictionary with texts as keys. -/
abbrev Dict (V : Type) := List (String × V)

mutual
/-- Statistics of an update: of a policy, of a policy wrapper, of several agents. -/
inductive Stats (F : Type)
  | plain (attrs : Dict (Val F))
  | wrapper (attrs : Dict (Val F)) (inner : Stats F)
  | agents (attrs : Dict (Val F)) (parts : Parts F)
/-- The items of a dictionary from agents to their statistics. -/
inductive Parts (F : Type)
  | nil
  | cons (id : String) (s : Stats F) (rest : Parts F)
end

variable {F V : Type}

/-- `d[k] = v`. -/
def put (k : String) (v : V) : Dict V → Dict V
  | [] => [(k, v)]
  | (j, w) :: t => if j = k then (j, v) :: t else (j, w) :: put k v t

/-- `d.get(k)`. -/
def get? (k : String) : Dict V → Option V
  | [] => none
  | (j, w) :: t => if j = k then some w else get? k t

/-- `{**a, **b}`. -/
def merge (a : Dict V) : Dict V → Dict V
  | [] => a
  | (k, v) :: t => merge (put k v a) t

/-- `base.py` lines 48-50 and 90-92: `_get_self_dict`. -/
def Stats.selfDict : Stats F → Dict (Val F)
  | .plain a => a
  | .agents a _ => a
  | .wrapper a i => merge i.selfDict a

/-- `base.py` line 39: `_non_loss_fields`. -/
def nonLoss : List String := ["train_time", "smoothed_loss"]

/-- `base.py` lines 63-68: what a value gives; `None` is left out, of a summary the mean is taken. The last two cases do not
occur, as they are the values of the excluded attributes. -/
def Val.number : Val F → Option (Num F)
  | .loss x => some x
  | .summary m => some m
  | _ => Option.none

/-- `base.py` lines 58-70: the loop over the attributes. -/
def pick : Dict (Val F) → Dict (Num F)
  | [] => []
  | (k, v) :: t =>
    if k ∈ nonLoss then pick t
    else
      match v.number with
      | none => pick t
      | some x => (k, x) :: pick t

mutual
/-- `base.py` lines 52-70 and `mapolicy.py` lines 40-48: `get_loss_stats_dict`. -/
def Stats.lossDict : Stats F → Dict (Num F)
  | .agents _ p => p.lossDict []
  | .plain a => pick (Stats.plain a).selfDict
  | .wrapper a i => pick (Stats.wrapper a i).selfDict
/-- `mapolicy.py` lines 43-47: the loop over the agents. -/
def Parts.lossDict : Parts F → Dict (Num F) → Dict (Num F)
  | .nil, d => d
  | .cons id s r, d => r.lossDict (merge d (s.lossDict.map fun p => (id ++ "/" ++ p.1, p.2)))
end

/-- `getattr(stats, k)` (`base.py` lines 98-99 for wrappers). -/
def Stats.attr? (k : String) : Stats F → Option (Val F)
  | .plain a => get? k a
  | .agents a _ => get? k a
  | .wrapper a i => (get? k a).or (i.attr? k)

/-- `stats.k = v` (`base.py` lines 101-130 for wrappers); `none` is the `AttributeError`. -/
def Stats.set (k : String) (v : Val F) : Stats F → Option (Stats F)
  | .plain a => some (.plain (put k v a))
  | .agents a p => some (.agents (put k v a) p)
  | .wrapper a i =>
    if k ∈ nonLoss then (i.set k v).map fun i' => .wrapper (put k v a) i'
    else if (Stats.attr? k (.wrapper a i)).isNone then none
    else if (i.attr? k).isSome then (i.set k v).map fun i' => .wrapper a i'
    else some (.wrapper (put k v a) i)

/-- `base.py` lines 77-88 (the loop over `_training_stats_public_fields`, that is `train_time` and `smoothed_loss`): a new
wrapper with the attributes set by the subclass. -/
def wrap (own : Dict (Val F)) (i : Stats F) : Stats F :=
  .wrapper (nonLoss.foldl (fun a k => match i.attr? k with | some v => put k v a | none => a) own) i

/-- `icm.py` lines 21-33: `ICMTrainingStats`. -/
def icmStats (loss forward inverse : Num F) (i : Stats F) : Stats F :=
  wrap [("icm_loss", .loss loss), ("icm_forward_loss", .loss forward), ("icm_inverse_loss", .loss inverse)] i

/-- The `train_time` of some statistics. -/
def Stats.time [Zero F] (s : Stats F) : F :=
  match s.attr? "train_time" with
  | some (.time t) => t
  | _ => 0

/-- `mapolicy.py` line 25: the list of times. -/
def Parts.times [Zero F] : Parts F → List F
  | .nil => []
  | .cons _ s r => s.time :: r.times

/-- `mapolicy.py` lines 18-38 with the default aggregator: `MapTrainingStats`. `none`: `max` of an empty list raises. -/
def mapStats [Zero F] [Max F] (p : Parts F) : Option (Stats F) :=
  match p.times with
  | [] => none
  | t :: ts => some (.agents [("train_time", .time (ts.foldl max t)), ("smoothed_loss", .table [])] p)

/-- `trainer/base.py` line 191: one `MovAvg` for each key; a missing one is created with size 100. -/
abbrev Averages (F : Type) := Dict (MovAvg F)

/-- `trainer/base.py` lines 587-601: `_update_moving_avg_stats_and_get_averaged_data`. -/
def smooth [Field F] : Averages F → Dict (Num F) → Averages F × Dict (Num F)
  | m, [] => (m, [])
  | m, (k, x) :: t =>
    ((smooth (put k (((get? k m).getD ⟨100, []⟩).add [x]) m) t).1,
      (k, (((get? k m).getD ⟨100, []⟩).add [x]).get) :: (smooth (put k (((get? k m).getD ⟨100, []⟩).add [x]) m) t).2)

/-- `dataclasses.fields` of the class of the statistics: wrappers and maps are no dataclasses themselves and have the fields of
`TrainingStats` only. -/
def Stats.fields : Stats F → List String
  | .plain a => a.map Prod.fst
  | .agents _ _ => nonLoss
  | .wrapper _ _ => nonLoss

/-- `dataclasses.asdict` of the statistics. -/
def Stats.asdict (s : Stats F) : Dict (Val F) := s.fields.filterMap fun k => (s.attr? k).map fun v => (k, v)

/-- `trainer/base.py` lines 578-584: `_update_moving_avg_stats_and_log_update_data`: the averages of the trainer, the
statistics with the smoothed losses, and what is handed to the logger. -/
def report [Field F] (m : Averages F) (s : Stats F) : Option (Averages F × Stats F × Dict (Val F)) :=
  (s.set "smoothed_loss" (.table (smooth m s.lossDict).2)).map fun s' => ((smooth m s.lossDict).1, s', s'.asdict)

/-- What happens to a trainer, as far as the averages are concerned: an update with its statistics, or `reset`
(`trainer/base.py` lines 263-312), which leaves them alone. -/
inductive Event (F : Type)
  | update (s : Stats F)
  | reset

/-- The averages after some events. -/
def averages [Field F] : Averages F → List (Event F) → Averages F
  | m, [] => m
  | m, .update s :: t => averages (smooth m s.lossDict).1 t
  | m, .reset :: t => averages m t

end Verif.LossStats
