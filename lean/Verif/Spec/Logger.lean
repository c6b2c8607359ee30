import Verif.Model.Logger

/-!
Specifications for the loggers: the last step written in a scope, lookup in nested dictionaries, and which keys can be told apart once
they are joined with slashes.
-/

namespace Verif.Logger

variable {D V : Type}

/-- The step of the last entry of a scope; -1 if there is none. -/
def lastOf (s : Scope) (ws : List (Scope × Int × D)) : Int :=
  ((ws.filter fun w => w.1 = s).getLast?.map fun w => w.2.1).getD (-1)

/-- The steps of the entries of a scope, oldest first. -/
def stepsOf (s : Scope) (ws : List (Scope × Int × D)) : List Int :=
  (ws.filter fun w => w.1 = s).map fun w => w.2.1

/-- Entries that follow each other are at least `k` apart. -/
def Spaced (k : Int) (steps : List Int) : Prop := steps.IsChain fun a b => b - a ≥ k

instance (k : Int) (l : List Int) : Decidable (Spaced k l) := by unfold Spaced; infer_instance

mutual
/-- The number at a path in a nested dictionary. -/
def Val.at? : Val V → List Str → Option V
  | .num v, [] => some v
  | .dict d, p => d.at? p
  | _, _ => none
/-- The number at a path in a nested dictionary. -/
def Dict.at? : Dict V → List Str → Option V
  | .cons k v rest, k' :: p => if k = k' then v.at? p else rest.at? (k' :: p)
  | _, _ => none
end

/-- The keys of a dictionary. -/
def Dict.keys : Dict V → List Str
  | .nil => []
  | .cons k _ rest => k :: rest.keys

/-- A key that is not empty and contains no slash. -/
def GoodKey (k : Str) : Prop := k ≠ [] ∧ '/' ∉ k

mutual
/-- All keys are good and no dictionary has a key twice. -/
def Val.Good : Val V → Prop
  | .dict d => d.Good
  | _ => True
/-- All keys are good and no dictionary has a key twice. -/
def Dict.Good : Dict V → Prop
  | .nil => True
  | .cons k v rest => GoodKey k ∧ k ∉ rest.keys ∧ v.Good ∧ rest.Good
end

/-- The array at a path in what `restore_logged_data` returns. -/
def treeAt : List (Str × Tree V) → List Str → Option (List V)
  | _, [] => none
  | d, [k] => match find k d with
    | some (.leaf vs) => some vs
    | _ => none
  | d, k :: k' :: p => match find k d with
    | some (.node sub) => treeAt sub (k' :: p)
    | _ => none

/-- A call of `write(f"{scope}/{name}", step, prepare_dict_for_logging(data))`. -/
structure Write (V : Type) where
  scope : Str
  name : Str
  step : Int
  data : Dict V

/-- A call whose scope, name and keys are good, and whose data do not hold the name itself. -/
def Write.Good (w : Write V) : Prop := GoodKey w.scope ∧ GoodKey w.name ∧ w.data.Good ∧ w.data.at? [w.name] = none

/-- What a call records at a path: the step at scope/name, the numbers in the data below the scope. -/
def Write.at? [IntCast V] (w : Write V) (p : List Str) : Option V :=
  if p = [w.scope, w.name] then some (w.step : V)
  else match p with
    | s :: q => if s = w.scope then w.data.at? q else none
    | [] => none

/-- The event files after a sequence of calls. -/
def fileOf [IntCast V] (ws : List (Write V)) : Option (List (Event V)) :=
  ws.foldlM (fun f w => write (w.scope ++ '/' :: w.name) w.step (prepare w.data) f) []

end Verif.Logger
