import Mathlib.Algebra.Field.Defs
import Mathlib.Algebra.BigOperators.Group.List.Basic

/-!
Model of the networks in `tianshou/utils/net/common.py` and `continuous.py`: how they are put together, what happens to shapes and
states, and the arithmetic they add to the layers of torch.

Simplifications. Layers of torch are given by their sizes or as functions on one row; the batch dimension is a list or an index, since
the layers in question act on rows. Devices and types of numbers are not modelled, numbers are elements of a field.
-/

namespace Verif.Net

/-! ### MLP -/

/-- A layer of torch: a linear layer with its sizes, a normalisation with its size and further arguments, an activation. `N`, `A`: the
classes given for normalisation and activation, `P`: arguments (tuples or dictionaries). -/
inductive Layer (N A P : Type)
  | linear (i o : Nat)
  | norm (n : N) (size : Nat) (args : Option P)
  | act (a : A) (args : Option P)
deriving DecidableEq, Repr

variable {N A P M : Type}

/-- `norm_layer` and `activation`: nothing, one class for all layers, or a list of classes. -/
inductive Mods (M : Type)
  | absent
  | one (m : M)
  | list (ms : List M)

/-- `norm_args` and `act_args`: nothing, a tuple or dictionary for all layers, or a list of them. -/
inductive Args (P : Type)
  | absent
  | one (p : P)
  | list (ps : List P)

/-- The classes and arguments for the `n` hidden layers, `common.py` lines 89-103 and 104-118 (identical code); `none` is a failed
assertion. One class with a list of arguments hands the list to each layer, where `miniblock` ignores it (lines 33-38, 40-45). An empty
list of classes counts as nothing. -/
def Mods.expand (m : Mods M) (a : Args P) (n : Nat) : Option (List (Option (M × Option P))) :=
  match m with
  | .absent => some (List.replicate n none)
  | .one m =>
    some (List.replicate n (some (m, match a with | .one p => some p | _ => none)))
  | .list [] => some (List.replicate n none)
  | .list (m :: ms) =>
    if (m :: ms).length = n then
      match a with
      | .list ps => if ps.length = n then some (List.zipWith (fun m p => some (m, some p)) (m :: ms) ps) else none
      | .one p => some ((m :: ms).map fun m => some (m, some p))
      | .absent => some ((m :: ms).map fun m => some (m, none))
    else none

/-- `miniblock`, `common.py` lines 21-46. -/
def miniblock (i o : Nat) (norm : Option (N × Option P)) (act : Option (A × Option P)) : List (Layer N A P) :=
  [.linear i o] ++ (match norm with | some (n, p) => [.norm n o p] | none => []) ++
    (match act with | some (a, p) => [.act a p] | none => [])

/-- The loop of `MLP.__init__` over the hidden layers, `common.py` lines 121-130. -/
def hiddenLayers : Nat → List Nat → List (Option (N × Option P)) → List (Option (A × Option P)) → List (Layer N A P)
  | i, h :: hs, n :: ns, a :: as => miniblock i h n a ++ hiddenLayers h hs ns as
  | _, _, _, _ => []

/-- `hidden_sizes[-1]` after line 119, `common.py`. -/
def lastSize (i : Nat) (hs : List Nat) : Nat := hs.getLast?.getD i

/-- `MLP.__init__`, `common.py` lines 74-135: the layers and the attribute `output_dim`. -/
def mlp (input output : Nat) (hidden : List Nat) (norm : Mods N) (normArgs : Args P) (act : Mods A) (actArgs : Args P) :
    Option (List (Layer N A P) × Nat) :=
  (norm.expand normArgs hidden.length).bind fun ns =>
    (act.expand actArgs hidden.length).map fun as =>
      (hiddenLayers input hidden ns as ++ (if output > 0 then [.linear (lastSize input hidden) output] else []),
        if output = 0 then lastSize input hidden else output)

/-- What `nn.Sequential` does to the size of a row; `none` if a layer does not fit (a `RuntimeError` of torch). -/
def through : List (Layer N A P) → Nat → Option Nat
  | [], n => some n
  | .linear i o :: ls, n => if n = i then through ls o else none
  | .norm _ s _ :: ls, n => if n = s then through ls n else none
  | .act _ _ :: ls, n => through ls n

/-! ### Net -/

/-- The sizes in `Net.__init__`, `common.py` lines 229-261: for the input and the output of `model`, and of `Q` and `V`. `state`, `action`:
`np.prod` of the shapes; `qHidden`, `vHidden`: hidden sizes in `dueling_param`. -/
structure NetDims where
  input : Nat
  output : Nat
  q : Nat
  v : Nat
  outputDim : Nat
deriving DecidableEq, Repr

/-- The size of the output of an MLP, `common.py` lines 131-133. -/
def mlpOut (input output : Nat) (hidden : List Nat) : Nat := if output = 0 then lastSize input hidden else output

/-- `Net.__init__`, `common.py` lines 229-261. -/
def netDims (state action : Nat) (hidden : List Nat) (concat : Bool) (atoms : Nat) (dueling : Option (List Nat × List Nat)) : NetDims :=
  let actionDim := action * atoms
  let input := if concat then state + actionDim else state
  let output := mlpOut input (if dueling.isNone ∧ concat = false then actionDim else 0) hidden
  match dueling with
  | none => { input := input, output := output, q := 0, v := 0, outputDim := output }
  | some (qh, vh) =>
    let q := mlpOut output (if concat then 0 else actionDim) qh
    let v := mlpOut output (if concat then 0 else atoms) vh
    { input := input, output := output, q := q, v := v, outputDim := q }

section
variable {K : Type}

/-- `x.view(-1, n)` of one row. -/
def chunk (n : Nat) : Nat → List K → List (List K)
  | 0, _ => []
  | k + 1, l => l.take n :: chunk n k (l.drop n)

/-- `view(-1, n)` for a row of any size; `none` if the size is not divisible. -/
def view (n : Nat) (l : List K) : Option (List (List K)) :=
  if 0 < n ∧ l.length % n = 0 then some (chunk n (l.length / n) l) else none

variable [Field K]

/-- The mean of a list. -/
def mean (l : List K) : K := l.sum / (l.length : K)

/-- Column `k` of rows of equal length. -/
def column (k : Nat) (rows : List (List K)) : List K := rows.map fun r => r.getD k 0

/-- `q - q.mean(dim=1, keepdim=True) + v` for one observation, `common.py` lines 281-284: `q` has a row per action and a column per atom
(one column if there are no atoms), `v` has one row. -/
def dueling (q : List (List K)) (v : List K) : List (List K) :=
  q.map fun r => (r.zipIdx).map fun xk => xk.1 - mean (column xk.2 q) + v.getD xk.2 0

/-- `Net.forward` with `dueling_param` for one observation, `common.py` lines 277-284, from the outputs of `Q` and `V`. -/
def netDueling (atoms : Nat) (q v : List K) : Option (List (List K)) :=
  (view atoms q).map fun q => dueling q v

/-- `BranchingNet.forward` for one observation, `common.py` lines 557-565, from the value and the outputs of the branches. -/
def branching (v : K) (branches : List (List K)) : List (List K) :=
  branches.map fun b => b.map fun x => v + (x - mean b)

end

/-! ### Recurrent networks -/

section
variable {X X' Y Z H : Type}

/-- The states of all layers for one row: hidden and cell. -/
structure RowState (H : Type) where
  hidden : Nat → H
  cell : Nat → H

/-- `nn.LSTM` on one row of a batch: `step` is one time step through all layers. -/
def lstmRow (step : X' → RowState H → Y × RowState H) : List X' → RowState H → List Y × RowState H
  | [], s => ([], s)
  | x :: xs, s =>
    let r := step x s
    let rest := lstmRow step xs r.2
    (r.1 :: rest.1, rest.2)

/-- A tensor of states with two leading dimensions. -/
abbrev Grid (H : Type) := Nat → Nat → H

/-- `transpose(0, 1)`. -/
def transpose (g : Grid H) : Grid H := fun i j => g j i

/-- `nn.LSTM(batch_first=True)`: `hidden` and `cell` have the layer first and the row of the batch second, as torch requires. -/
def lstm (step : X' → RowState H → Y × RowState H) (obs : Nat → List X') (hidden cell : Grid H) : (Nat → List Y) × Grid H × Grid H :=
  let row b := lstmRow step (obs b) ⟨fun l => hidden l b, fun l => cell l b⟩
  (fun b => (row b).1, fun l b => (row b).2.hidden l, fun l b => (row b).2.cell l)

/-- `Recurrent.forward`, `common.py` lines 343-374 (and `RecurrentActorProb.forward`, `continuous.py` lines 312-349, with the identity
for `fc1`). A batch is a function of the row; observations without a time dimension are sequences of length one (lines 347-348). The
state is kept with the row first. The result is `none` for empty sequences (`IndexError`). -/
def recurrent (fc1 : X → X') (step : X' → RowState H → Y × RowState H) (fc2 : Y → Z) (zero : H) (obs : Nat → List X)
    (state : Option (Grid H × Grid H)) : (Nat → Option Z) × (Grid H × Grid H) :=
  let r := match state with
    | none => lstm step (fun b => (obs b).map fc1) (fun _ _ => zero) (fun _ _ => zero)
    | some (h, c) => lstm step (fun b => (obs b).map fc1) (transpose h) (transpose c)
  (fun b => (r.1 b).getLast?.map fc2, (transpose r.2.1, transpose r.2.2))

end

/-! ### Actors and their states -/

section
variable {O L S R : Type}

/-- `Actor.forward`, `continuous.py` lines 84-86, and of the discrete `Actor`, `discrete.py` lines 76-82: `preprocess` and what follows. -/
def actorForward (pre : O → Option S → L × Option S) (last : L → R) (obs : O) (state : Option S) : R × Option S :=
  let r := pre obs state
  (last r.1, r.2)

/-- `ActorProb.forward`, `continuous.py` lines 251-261. -/
def actorProbForward (pre : O → Option S → L × Option S) (last : L → R) (obs : O) (state : Option S) : R × Option S :=
  let r := pre obs state
  (last r.1, state)

/-- Acting on a sequence of observations, each time with the state returned before, as the collector does (`collector.py`, `last_hidden_state_RH`). -/
def actSequence (forward : O → Option S → R × Option S) : List O → Option S → List R
  | [], _ => []
  | o :: os, s => (forward o s).1 :: actSequence forward os (forward o s).2

end

/-! ### Attributes and critics -/

/-- An attribute of a Python object: missing, `None`, or a value. -/
inductive Attr (T : Type)
  | missing
  | none
  | val (v : T)

/-- Errors. -/
inductive Err
  | attribute
  | value
  | shape
deriving DecidableEq, Repr

/-- `getattr_with_matching_alt_value`, `common.py` lines 691-713. -/
def getattrAlt {T : Type} [DecidableEq T] (attr : Attr T) (alt : Option T) : Except Err T :=
  match attr with
  | .missing => .error .attribute
  | .val v =>
    match alt with
    | some a => if v ≠ a then .error .value else .ok v
    | none => .ok v
  | .none =>
    match alt with
    | none => .error .value
    | some a => .ok a

section
variable {K : Type}

/-- A module that takes rows of one size only. -/
structure Module (K : Type) where
  inDim : Nat
  outDim : Nat
  attr : Attr Nat
  fn : List K → List K

/-- Applying it to a row. -/
def Module.run (m : Module K) (x : List K) : Except Err (List K) := if x.length = m.inDim then .ok (m.fn x) else .error .shape

/-- The continuous `Critic` after construction, `continuous.py` lines 132-144; `mkLast` makes the final MLP for a size of input. -/
structure Critic (K : Type) where
  pre : Module K
  lastIn : Nat
  last : List K → K
  obsOnly : Bool

/-- `Critic.__init__`, `continuous.py` lines 121-144. -/
def Critic.new (pre : Module K) (altDim : Option Nat) (mkLast : Nat → List K → K) (obsOnly : Bool) : Except Err (Critic K) :=
  (getattrAlt pre.attr altDim).map fun d => { pre := pre, lastIn := d, last := mkLast d, obsOnly := obsOnly }

/-- `Critic.forward` for one row, `continuous.py` lines 161-178; observation and action are flattened. -/
def Critic.forward (c : Critic K) (obs : List K) (act : Option (List K)) : Except Err K := do
  let x ← if c.obsOnly then c.pre.run obs else pure obs
  let x := match act with
    | some a => x ++ a
    | none => x
  let x ← if c.obsOnly then pure x else c.pre.run x
  if x.length = c.lastIn then pure (c.last x) else throw .shape

end

/-! ### Ensembles -/

section
variable {K : Type} [Semiring K]

/-- A row times a matrix (rows are inputs, columns outputs). -/
def rowMul (x : List K) (w : List (List K)) : List K :=
  (List.range ((w.headD []).length)).map fun j => (List.zipWith (fun a r => a * r.getD j 0) x w).sum

/-- The input of an `EnsembleLinear`: one batch for all members, or a batch for each. -/
inductive EnsIn (K : Type)
  | shared (x : List (List K))
  | each (x : List (List (List K)))

/-- `torch.matmul(x, weight)` with the weights of `E` members, with torch's broadcasting; `none` if the leading sizes do not fit. -/
def ensMatmul (x : EnsIn K) (w : List (List (List K))) : Option (List (List (List K))) :=
  match x with
  | .shared x => some (w.map fun w => x.map fun r => rowMul r w)
  | .each [x] => some (w.map fun w => x.map fun r => rowMul r w)
  | .each xs =>
    if xs.length = w.length then some (List.zipWith (fun x w => x.map fun r => rowMul r w) xs w)
    else match w with
      | [w] => some (xs.map fun x => x.map fun r => rowMul r w)
      | _ => none

/-- Adding the bias, `common.py` line 449: it has a row per member, broadcast over the batch; a single one is broadcast over all. -/
def ensBias (bias : Option (List (List K))) (y : List (List (List K))) : List (List (List K)) :=
  match bias with
  | none => y
  | some [b] => y.map fun yb => yb.map fun r => List.zipWith (· + ·) r b
  | some b => List.zipWith (fun yb b => yb.map fun r => List.zipWith (· + ·) r b) y b

/-- `EnsembleLinear.forward`, `common.py` lines 446-450. -/
def ensLinear (w : List (List (List K))) (bias : Option (List (List K))) (x : EnsIn K) : Option (List (List (List K))) :=
  (ensMatmul x w).map (ensBias bias)

end

/-! ### Dictionaries as observations -/

section
variable {K : Type}

/-- A shape as given by the user: an integer, a tuple or a list. Comparing with the shape of an array, a tuple, only tuples can be
equal. -/
inductive Shape
  | int (n : Nat)
  | tuple (l : List Nat)
  | list (l : List Nat)
deriving DecidableEq, Repr

/-- `np.prod`. -/
def Shape.prod : Shape → Nat
  | .int n => n
  | .tuple l => l.prod
  | .list l => l.prod

/-- An array: its shape and its numbers in row-major order. -/
structure Arr (K : Type) where
  shape : List Nat
  data : List K
deriving DecidableEq, Repr

/-- `arr.reshape(bsz, -1)`; `none` if the size is not divisible, or if `bsz` is 0 (numpy cannot tell the other dimension). -/
def Arr.rows (a : Arr K) (bsz : Nat) : Option (List (List K)) :=
  if bsz = 0 then none
  else if a.data.length % bsz = 0 then some (chunk (a.data.length / bsz) bsz a.data) else none

/-- `torch.cat(rows, dim=1)` for arrays with the same number of rows. -/
def catCols (n : Nat) (parts : List (List (List K))) : List (List K) :=
  (List.range n).map fun b => parts.flatMap fun p => p.getD b []

/-- The result of `preprocess_obs`: a vector or a batch of vectors. -/
inductive Pre (K : Type)
  | vector (x : List K)
  | batch (x : List (List K))
deriving DecidableEq, Repr

/-- `obs[k].reshape(bsz, -1)` for all keys. -/
def allRows (bsz : Nat) : List (Shape × Arr K) → Option (List (List (List K)))
  | [] => some []
  | x :: xs => (x.2.rows bsz).bind fun r => (allRows bsz xs).map fun rs => r :: rs

/-- `preprocess_obs` on a dictionary, `common.py` lines 592-603: `obs` are the arrays in the order of `keys` with the shapes given by the
user. `torch.Tensor([arrays])` needs arrays of the same shape. -/
def preprocessObs (obs : List (Shape × Arr K)) : Option (Pre K) :=
  match obs with
  | [] => none
  | (s, a) :: rest =>
    if s = .tuple a.shape then
      if rest.all fun x => x.2.shape = a.shape then some (.vector (obs.flatMap fun x => x.2.data)) else none
    else
      match a.shape with
      | [] => none
      | bsz :: _ => (allRows bsz obs).map fun parts => .batch (catCols bsz parts)

/-- `new_state_shape`, `common.py` lines 586-590. -/
def newStateShape (shapes : List Shape) : Nat := (shapes.map Shape.prod).sum

end

end Verif.Net
