import Mathlib.Algebra.BigOperators.Group.Finset.Basic
import Mathlib.Algebra.BigOperators.Intervals
import Verif.Model.Net
import Mathlib.Tactic.Ring
import Mathlib.Tactic.FieldSimp
import Mathlib.Tactic.NormNum
import Mathlib.Algebra.CharZero.Defs
import Mathlib.Algebra.Order.Field.Rat
import Mathlib.Algebra.BigOperators.Ring.List

/-!
Properties of the networks, C133-C141.
-/

namespace Verif.Net

/-! ### C133: layers of an MLP -/

section
variable {N A P M : Type}

/-- Specification: class and arguments for hidden layer `k`. Arguments given as a list belong to a list of classes. -/
def Mods.layer (m : Mods M) (a : Args P) (k : Nat) : Option (M × Option P) :=
  match m with
  | .absent => none
  | .one m => some (m, match a with | .one p => some p | _ => none)
  | .list ms => ms[k]?.map fun m => (m, match a with | .one p => some p | .list ps => ps[k]? | .absent => none)

/-- Specification: a list of classes is empty or has one for each of the `n` layers, and arguments given as a list with it have, too. -/
def Mods.Fits (m : Mods M) (a : Args P) (n : Nat) : Prop :=
  ∀ ms, m = .list ms → ms ≠ [] → ms.length = n ∧ ∀ ps, a = .list ps → ps.length = n

theorem Mods.expand_eq (m : Mods M) (a : Args P) (n : Nat) (h : m.Fits a n) :
    ∃ l, m.expand a n = some l ∧ l.length = n ∧ ∀ k, k < n → l[k]? = some (m.layer a k) := by
  cases m with
  | absent => exact ⟨_, rfl, by simp, fun k hk => by simp [Mods.layer, hk]⟩
  | one m => exact ⟨_, rfl, by simp, fun k hk => by simp [Mods.layer, hk]; cases a <;> rfl⟩
  | list ms =>
    cases ms with
    | nil => exact ⟨_, rfl, by simp, fun k hk => by simp [Mods.layer, hk]⟩
    | cons m ms =>
      obtain ⟨h1, h2⟩ := h _ rfl (by simp)
      unfold Mods.expand
      simp only [if_pos h1]
      cases a with
      | absent =>
        refine ⟨_, rfl, by simpa using h1, fun k hk => ?_⟩
        have hk' : k < (m :: ms).length := h1 ▸ hk
        simp only [Mods.layer, List.getElem?_map, List.getElem?_eq_getElem hk', Option.map_some]
      | one p =>
        refine ⟨_, rfl, by simpa using h1, fun k hk => ?_⟩
        have hk' : k < (m :: ms).length := h1 ▸ hk
        simp only [Mods.layer, List.getElem?_map, List.getElem?_eq_getElem hk', Option.map_some]
      | list ps =>
        have h3 := h2 ps rfl
        simp only [if_pos h3]
        refine ⟨_, rfl, by simp only [List.length_zipWith]; omega, fun k hk => ?_⟩
        have hk' : k < (m :: ms).length := h1 ▸ hk
        have hk2 : k < ps.length := h3 ▸ hk
        simp only [Mods.layer, List.getElem?_zipWith, List.getElem?_eq_getElem hk', List.getElem?_eq_getElem hk2, Option.map_some]

theorem Mods.expand_none (m : Mods M) (a : Args P) (n : Nat) (h : ¬ m.Fits a n) : m.expand a n = none := by
  unfold Mods.Fits at h
  push Not at h
  obtain ⟨ms, rfl, hne, h⟩ := h
  cases ms with
  | nil => exact absurd rfl hne
  | cons m ms =>
    unfold Mods.expand
    by_cases h1 : (m :: ms).length = n
    · obtain ⟨ps, rfl, h2⟩ := h h1
      simp only [if_pos h1, if_neg h2]
    · simp only [if_neg h1]

theorem hiddenLayers_eq (i : Nat) (hs : List Nat) (ns : List (Option (N × Option P))) (as : List (Option (A × Option P)))
    (hn : ns.length = hs.length) (ha : as.length = hs.length) :
    (hiddenLayers i hs ns as : List (Layer N A P)) = (List.range hs.length).flatMap fun k =>
      miniblock ((i :: hs).getD k 0) (hs.getD k 0) (ns.getD k none) (as.getD k none) := by
  induction hs generalizing i ns as with
  | nil => cases ns <;> cases as <;> simp_all [hiddenLayers]
  | cons h hs ih =>
    cases ns with
    | nil => simp at hn
    | cons n ns =>
      cases as with
      | nil => simp at ha
      | cons a as =>
        rw [hiddenLayers, ih h ns as (by simpa using hn) (by simpa using ha), List.length_cons, List.range_succ_eq_map, List.flatMap_cons,
          List.flatMap_map]
        rfl

/-- C133: an MLP consists, for each hidden layer, of a linear layer from the previous size, then its normalisation and then its
activation if there are any, each with its own arguments; and at last, if an output size is given, of a linear layer without activation.
-/
theorem C133_layers (i o : Nat) (hs : List Nat) (n : Mods N) (na : Args P) (a : Mods A) (aa : Args P)
    (hn : n.Fits na hs.length) (ha : a.Fits aa hs.length) :
    ∃ d, mlp i o hs n na a aa = some
      (((List.range hs.length).flatMap fun k =>
          Layer.linear ((i :: hs).getD k 0) (hs.getD k 0) ::
            ((n.layer na k).toList.map fun x => Layer.norm x.1 (hs.getD k 0) x.2) ++
            ((a.layer aa k).toList.map fun x => Layer.act x.1 x.2)) ++
        (if o > 0 then [Layer.linear ((i :: hs).getLastD 0) o] else []), d) := by
  obtain ⟨ns, e1, l1, h1⟩ := n.expand_eq na _ hn
  obtain ⟨as, e2, l2, h2⟩ := a.expand_eq aa _ ha
  refine ⟨if o = 0 then lastSize i hs else o, ?_⟩
  unfold mlp
  rw [e1, e2]
  simp only [Option.bind_some, Option.map_some]
  rw [hiddenLayers_eq i hs ns as l1 l2]
  have hl : lastSize i hs = (i :: hs).getLastD 0 := by
    unfold lastSize
    cases hs with
    | nil => rfl
    | cons h hs => simp [List.getLast?_cons, List.getLastD_cons]
  rw [hl]
  congr 3
  refine List.flatMap_congr ?_
  intro k hk
  have hk := List.mem_range.1 hk
  have g1 : ns.getD k none = n.layer na k := by rw [List.getD_eq_getElem?_getD, h1 k hk]; rfl
  have g2 : as.getD k none = a.layer aa k := by rw [List.getD_eq_getElem?_getD, h2 k hk]; rfl
  rw [g1, g2]
  unfold miniblock
  cases n.layer na k <;> cases a.layer aa k <;> rfl

/-- C133: construction fails exactly if a list has the wrong length. -/
theorem C133_fails (i o : Nat) (hs : List Nat) (n : Mods N) (na : Args P) (a : Mods A) (aa : Args P) :
    mlp i o hs n na a aa = none ↔ ¬ (n.Fits na hs.length ∧ a.Fits aa hs.length) := by
  constructor
  · rintro h ⟨hn, ha⟩
    obtain ⟨d, e⟩ := C133_layers i o hs n na a aa hn ha
    rw [e] at h
    simp at h
  · intro h
    unfold mlp
    by_cases hn : n.Fits na hs.length
    · have ha : ¬ a.Fits aa hs.length := fun q => h ⟨hn, q⟩
      rw [a.expand_none aa _ ha]
      cases n.expand na hs.length <;> rfl
    · rw [n.expand_none na _ hn]
      rfl

theorem through_append (l l' : List (Layer N A P)) (n : Nat) : through (l ++ l') n = (through l n).bind (through l') := by
  induction l generalizing n with
  | nil => rfl
  | cons x l ih =>
    cases x with
    | linear i o =>
      show through (.linear i o :: (l ++ l')) n = _
      rw [through, through]
      by_cases h : n = i
      · rw [if_pos h, if_pos h, ih]
      · rw [if_neg h, if_neg h]; rfl
    | norm m s p =>
      show through (.norm m s p :: (l ++ l')) n = _
      rw [through, through]
      by_cases h : n = s
      · rw [if_pos h, if_pos h, ih]
      · rw [if_neg h, if_neg h]; rfl
    | act a p =>
      show through (.act a p :: (l ++ l')) n = _
      rw [through, through, ih]

theorem through_miniblock (i o : Nat) (n : Option (N × Option P)) (a : Option (A × Option P)) :
    through (miniblock i o n a) i = some o := by
  unfold miniblock
  cases n <;> cases a <;> simp [through]

theorem through_hiddenLayers (i : Nat) (hs : List Nat) (ns : List (Option (N × Option P))) (as : List (Option (A × Option P)))
    (hn : ns.length = hs.length) (ha : as.length = hs.length) :
    through (hiddenLayers i hs ns as) i = some (lastSize i hs) := by
  induction hs generalizing i ns as with
  | nil => cases ns <;> cases as <;> simp_all [hiddenLayers, through, lastSize]
  | cons h hs ih =>
    cases ns with
    | nil => simp at hn
    | cons n ns =>
      cases as with
      | nil => simp at ha
      | cons a as =>
        rw [hiddenLayers, through_append, through_miniblock, Option.bind_some, ih h ns as (by simpa using hn) (by simpa using ha)]
        simp [lastSize, List.getLast?_cons]

/-- C133: whatever the arguments, an MLP that can be constructed takes rows of size `input_dim` and returns rows whose size is its
attribute `output_dim`: the output size asked for, or the last hidden size, or the input size. -/
theorem C133_dims (i o : Nat) (hs : List Nat) (n : Mods N) (na : Args P) (a : Mods A) (aa : Args P) (ls : List (Layer N A P)) (d : Nat)
    (h : mlp i o hs n na a aa = some (ls, d)) : through ls i = some d ∧ d = if o > 0 then o else (i :: hs).getLastD 0 := by
  have hf : n.Fits na hs.length ∧ a.Fits aa hs.length := by
    by_contra hc
    rw [(C133_fails i o hs n na a aa).2 hc] at h
    simp at h
  obtain ⟨ns, e1, l1, _⟩ := n.expand_eq na _ hf.1
  obtain ⟨as, e2, l2, _⟩ := a.expand_eq aa _ hf.2
  unfold mlp at h
  rw [e1, e2] at h
  simp only [Option.bind_some, Option.map_some, Option.some.injEq, Prod.mk.injEq] at h
  obtain ⟨h1, h2⟩ := h
  have hl : lastSize i hs = (i :: hs).getLastD 0 := by
    unfold lastSize
    cases hs with
    | nil => rfl
    | cons h hs => simp [List.getLast?_cons, List.getLastD_cons]
  rw [← h1, ← h2, through_append, through_hiddenLayers i hs ns as l1 l2, ← hl]
  by_cases ho : o > 0
  · rw [if_pos ho, if_neg (by omega), if_pos ho]
    simp [through]
  · rw [if_neg ho, if_pos (by omega), if_neg ho]
    simp [through]

/-- Two hidden layers, one normalisation for both, different activations of which the second has arguments of its own. -/
example : mlp (P := Nat) 4 2 [8, 16] (.one "norm") .absent (.list ["relu", "elu"]) (.list [0, 1]) = some
    ([.linear 4 8, .norm "norm" 8 none, .act "relu" (some 0), .linear 8 16, .norm "norm" 16 none, .act "elu" (some 1), .linear 16 2], 2) := by
  decide +kernel

example : (mlp (N := Nat) (P := Nat) 4 2 [8, 16] .absent .absent (.list ["relu"]) .absent).isNone := by decide +kernel

end

/-! ### C134: sizes of a Net -/

/-- C134: without `concat` a Net takes observations and returns, per observation, one number for each action and atom, which can be
viewed as a row of atoms for each action; in a dueling network both streams start from the last hidden layer (from the observation if there is
none), and the value stream has one row of atoms. -/
theorem C134_output (state action : Nat) (hidden : List Nat) (atoms : Nat) (ha : 0 < action) (hk : 0 < atoms) :
    (netDims state action hidden false atoms none).input = state ∧
    (netDims state action hidden false atoms none).output = action * atoms ∧
    (netDims state action hidden false atoms none).outputDim = action * atoms ∧
    ∀ qh vh, (netDims state action hidden false atoms (some (qh, vh))).input = state ∧
      (netDims state action hidden false atoms (some (qh, vh))).output = hidden.getLast?.getD state ∧
      (netDims state action hidden false atoms (some (qh, vh))).q = action * atoms ∧
      (netDims state action hidden false atoms (some (qh, vh))).v = atoms ∧
      (netDims state action hidden false atoms (some (qh, vh))).outputDim = action * atoms := by
  have h0 : action * atoms ≠ 0 := Nat.mul_ne_zero (by omega) (by omega)
  refine ⟨by simp [netDims], by simp [netDims, mlpOut, h0], by simp [netDims, mlpOut, h0], ?_⟩
  intro qh vh
  refine ⟨by simp [netDims], by simp [netDims, mlpOut, lastSize], by simp [netDims, mlpOut, h0], ?_, by simp [netDims, mlpOut, h0]⟩
  simp [netDims, mlpOut, show atoms ≠ 0 by omega]

/-- C134 with `concat`, in full: a Net takes an observation followed by an action. -/
def C134 (state action : Nat) (hidden : List Nat) (atoms : Nat) : Prop :=
  (netDims state action hidden true atoms none).input = state + action

/-- C134 with `concat` holds without atoms. Missing: several atoms, see `C134_violated`. -/
theorem C134_concat_partial (state action : Nat) (hidden : List Nat) : C134 state action hidden 1 := by
  simp [C134, netDims]

/-- C134 with `concat` fails for every network with several atoms: room is made for an action per atom. -/
theorem C134_violated (state action : Nat) (hidden : List Nat) (atoms : Nat) (ha : 0 < action) (hk : 1 < atoms) :
    ¬ C134 state action hidden atoms := by
  unfold C134 netDims
  simp only [if_true]
  intro h
  have h' : state + action * atoms = state + action := h
  have : action * atoms = action * 1 := by omega
  have := Nat.eq_of_mul_eq_mul_left ha this
  omega

example : (netDims 3 2 [64] true 51 none).input = 105 ∧ (netDims 3 2 [64] false 51 (some ([], []))).v = 51 := by decide +kernel

/-! ### C135: dueling -/

section
variable {K : Type} [Field K] [CharZero K]

theorem sum_map_sub_add (l : List K) (m c : K) : (l.map fun x => x - m + c).sum = l.sum - (l.length : K) * m + (l.length : K) * c := by
  induction l with
  | nil => simp
  | cons a l ih =>
    rw [List.map_cons, List.sum_cons, ih, List.sum_cons, List.length_cons]
    push_cast
    ring

theorem column_dueling (q : List (List K)) (v : List K) (n : Nat) (hq : ∀ r ∈ q, r.length = n) (k : Nat) (hk : k < n) :
    column k (dueling q v) = (column k q).map fun x => x - mean (column k q) + v.getD k 0 := by
  unfold dueling
  conv_lhs => unfold column
  conv_rhs => rw [show column k q = q.map (fun r => r.getD k 0) from rfl]
  rw [List.map_map, List.map_map]
  refine List.map_congr_left ?_
  intro r hr
  have hkr : k < r.length := by rw [hq r hr]; exact hk
  simp only [Function.comp_apply, List.getD_eq_getElem?_getD, List.getElem?_map, List.getElem?_zipIdx, List.getElem?_eq_getElem hkr,
    Option.map_some, Option.getD_some]
  simp [column]

/-- C135: in a dueling network, for each observation and atom, the outputs average over the actions to the value, and differ between any
two actions by what the advantage stream says: the ranking of the actions is that of the advantages. -/
theorem C135_dueling (q : List (List K)) (v : List K) (n : Nat) (hq : ∀ r ∈ q, r.length = n) (hne : q ≠ []) (k : Nat) (hk : k < n) :
    mean (column k (dueling q v)) = v.getD k 0 ∧
    ∀ a b, a < q.length → b < q.length →
      ((dueling q v).getD a []).getD k 0 - ((dueling q v).getD b []).getD k 0 = (q.getD a []).getD k 0 - (q.getD b []).getD k 0 := by
  have hc := column_dueling q v n hq k hk
  have hl : ((column k q).length : K) ≠ 0 := by
    rw [Nat.cast_ne_zero]
    simpa [column] using hne
  constructor
  · rw [hc]
    unfold mean
    rw [sum_map_sub_add, List.length_map]
    field_simp
    ring
  · have key : ∀ a, a < q.length → ((dueling q v).getD a []).getD k 0 = (q.getD a []).getD k 0 - mean (column k q) + v.getD k 0 := by
      intro a ha
      have h1 : (column k (dueling q v))[a]? = some (((dueling q v).getD a []).getD k 0) := by
        have : a < (dueling q v).length := by simpa [dueling] using ha
        simp [column, List.getElem?_eq_getElem this]
      rw [hc, List.getElem?_map] at h1
      have h2 : (column k q)[a]? = some ((q.getD a []).getD k 0) := by
        simp [column, List.getElem?_eq_getElem ha]
      rw [h2] at h1
      exact (Option.some.inj h1).symm
    intro a b ha hb
    rw [key a ha, key b hb]
    ring

/-- The rows of a view. -/
theorem chunk_spec (n k : Nat) (l : List K) (hl : l.length = n * k) :
    (chunk n k l).length = k ∧ (∀ r ∈ chunk n k l, r.length = n) ∧
      ∀ a j, a < k → j < n → ((chunk n k l).getD a []).getD j 0 = l.getD (a * n + j) 0 := by
  induction k generalizing l with
  | zero => exact ⟨rfl, by simp [chunk], fun a j ha => by omega⟩
  | succ k ih =>
    rw [Nat.mul_succ] at hl
    obtain ⟨h1, h2, h3⟩ := ih (l.drop n) (by rw [List.length_drop]; omega)
    refine ⟨by rw [chunk, List.length_cons, h1], ?_, ?_⟩
    · intro r hr
      rw [chunk] at hr
      rcases List.mem_cons.1 hr with rfl | hr
      · rw [List.length_take]; omega
      · exact h2 r hr
    · intro a j ha hj
      rw [chunk]
      cases a with
      | zero =>
        rw [List.getD_cons_zero, Nat.zero_mul, Nat.zero_add]
        simp only [List.getD_eq_getElem?_getD]
        rw [List.getElem?_take_of_lt hj]
      | succ a =>
        rw [List.getD_cons_succ, h3 a j (by omega) hj]
        simp only [List.getD_eq_getElem?_getD, List.getElem?_drop]
        congr 2
        rw [Nat.succ_mul]; omega

/-- C135 for the flat outputs of the two streams: the number for action `a` and atom `k` comes from position `a * atoms + k`. -/
theorem C135_net (atoms action : Nat) (hk : 0 < atoms) (ha : 0 < action) (q v : List K) (hq : q.length = atoms * action) :
    ∃ out, netDueling atoms q v = some out ∧ out.length = action ∧
      (∀ k, k < atoms → mean (column k out) = v.getD k 0) ∧
      ∀ a b k, a < action → b < action → k < atoms →
        (out.getD a []).getD k 0 - (out.getD b []).getD k 0 = q.getD (a * atoms + k) 0 - q.getD (b * atoms + k) 0 := by
  have hv : view atoms q = some (chunk atoms action q) := by
    unfold view
    rw [if_pos ⟨hk, by rw [hq]; exact Nat.mul_mod_right _ _⟩, hq, Nat.mul_div_cancel_left _ hk]
  obtain ⟨h1, h2, h3⟩ := chunk_spec atoms action q hq
  have hne : chunk atoms action q ≠ [] := by
    intro h
    rw [h] at h1
    simp at h1
    omega
  refine ⟨dueling (chunk atoms action q) v, by rw [netDueling, hv]; rfl, by simp [dueling, h1], ?_, ?_⟩
  · intro k hk'
    exact (C135_dueling _ v atoms h2 hne k hk').1
  · intro a b k ha' hb' hk'
    rw [(C135_dueling _ v atoms h2 hne k hk').2 a b (by omega) (by omega), h3 a k ha' hk', h3 b k hb' hk']

/-- C135 for `BranchingNet`: in each branch the outputs average to the value and are ranked as the branch ranks them. -/
theorem C135_branching (v : K) (branches : List (List K)) (i : Nat) (hi : i < branches.length) (hne : branches.getD i [] ≠ []) :
    mean ((branching v branches).getD i []) = v ∧
    ∀ a b, a < (branches.getD i []).length → b < (branches.getD i []).length →
      ((branching v branches).getD i []).getD a 0 - ((branching v branches).getD i []).getD b 0 =
        (branches.getD i []).getD a 0 - (branches.getD i []).getD b 0 := by
  have hb : (branching v branches).getD i [] = (branches.getD i []).map fun x => v + (x - mean (branches.getD i [])) := by
    simp [branching, List.getD_eq_getElem?_getD, List.getElem?_eq_getElem hi]
  rw [hb]
  obtain ⟨b, hbe⟩ : ∃ b, b = branches.getD i [] := ⟨_, rfl⟩
  rw [← hbe] at hne ⊢
  constructor
  · have hl : (b.length : K) ≠ 0 := by
      rw [Nat.cast_ne_zero]
      simpa using hne
    have : (b.map fun x => v + (x - mean b)) = b.map fun x => x - mean b + v := List.map_congr_left fun x _ => by ring
    rw [this]
    conv_lhs => unfold mean
    rw [sum_map_sub_add, List.length_map]
    field_simp
    ring
  · intro a c ha hc
    simp only [List.getD_eq_getElem?_getD, List.getElem?_map, List.getElem?_eq_getElem ha, List.getElem?_eq_getElem hc, Option.map_some,
      Option.getD_some]
    ring

/-- Three actions with two atoms each. -/
example : netDueling 2 [1, 10, 2, 20, 6, 60] [(100 : ℚ), 1000] = some [[98, 980], [99, 990], [103, 1030]] ∧
    branching (5 : ℚ) [[1, 3], [0, 4]] = [[4, 6], [3, 7]] := by decide +kernel

end

/-! ### C136: sequences and steps -/

section
variable {X X' Y Z H : Type}

theorem lstmRow_append (step : X' → RowState H → Y × RowState H) (xs ys : List X') (s : RowState H) :
    lstmRow step (xs ++ ys) s =
      ((lstmRow step xs s).1 ++ (lstmRow step ys (lstmRow step xs s).2).1, (lstmRow step ys (lstmRow step xs s).2).2) := by
  induction xs generalizing s with
  | nil => rfl
  | cons x xs ih =>
    show (let r := step x s; let rest := lstmRow step (xs ++ ys) r.2; (r.1 :: rest.1, rest.2)) = _
    simp only [ih]
    rfl

/-- C136: feeding a sequence in two parts, the second with the state returned for the first, gives the output and the state of the whole
sequence, for every row of the batch; by repetition, steps give what the sequence gives. -/
theorem C136_split (fc1 : X → X') (step : X' → RowState H → Y × RowState H) (fc2 : Y → Z) (zero : H) (xs ys : Nat → List X)
    (state : Option (Grid H × Grid H)) :
    (recurrent fc1 step fc2 zero (fun b => xs b ++ ys b) state).2 =
      (recurrent fc1 step fc2 zero ys (some (recurrent fc1 step fc2 zero xs state).2)).2 ∧
    ∀ b, ys b ≠ [] → (recurrent fc1 step fc2 zero (fun b => xs b ++ ys b) state).1 b =
      (recurrent fc1 step fc2 zero ys (some (recurrent fc1 step fc2 zero xs state).2)).1 b := by
  obtain ⟨h, c, hs⟩ : ∃ h c : Grid H, ∀ obs : Nat → List X, recurrent fc1 step fc2 zero obs state =
      recurrent fc1 step fc2 zero obs (some (h, c)) := by
    cases state with
    | none => exact ⟨fun _ _ => zero, fun _ _ => zero, fun _ => rfl⟩
    | some hc => exact ⟨hc.1, hc.2, fun _ => rfl⟩
  rw [hs, hs]
  constructor
  · refine Prod.ext ?_ ?_
    · funext b l
      simp only [recurrent, lstm, transpose, List.map_append, lstmRow_append]
    · funext b l
      simp only [recurrent, lstm, transpose, List.map_append, lstmRow_append]
  · intro b hb
    simp only [recurrent, lstm, transpose, List.map_append, lstmRow_append]
    rw [List.getLast?_append]
    have : (lstmRow step ((ys b).map fc1) (lstmRow step ((xs b).map fc1) ⟨h b, c b⟩).2).1 ≠ [] := by
      cases hy : ys b with
      | nil => exact absurd hy hb
      | cons y ys => simp [lstmRow]
    obtain ⟨z, hz⟩ := Option.ne_none_iff_exists'.1 (fun q => this (List.getLast?_eq_none_iff.1 q))
    simp only [show (fun l => h b l) = h b from rfl, show (fun l => c b l) = c b from rfl]
    rw [hz]
    rfl

/-- Stepping through a sequence of batches, one observation per row and step, from the state returned before: the last output. -/
def stepThrough (fc1 : X → X') (step : X' → RowState H → Y × RowState H) (fc2 : Y → Z) (zero : H) :
    List (Nat → X) → Option (Grid H × Grid H) → Option (Grid H × Grid H) × (Nat → Option Z)
  | [], s => (s, fun _ => none)
  | [o], s => (some (recurrent fc1 step fc2 zero (fun b => [o b]) s).2, (recurrent fc1 step fc2 zero (fun b => [o b]) s).1)
  | o :: o' :: os, s => stepThrough fc1 step fc2 zero (o' :: os) (some (recurrent fc1 step fc2 zero (fun b => [o b]) s).2)

/-- C136: stepping gives the output and the state of the sequence at once. -/
theorem C136_steps (fc1 : X → X') (step : X' → RowState H → Y × RowState H) (fc2 : Y → Z) (zero : H) (os : List (Nat → X)) (hne : os ≠ [])
    (state : Option (Grid H × Grid H)) :
    stepThrough fc1 step fc2 zero os state =
      (some (recurrent fc1 step fc2 zero (fun b => os.map (· b)) state).2, (recurrent fc1 step fc2 zero (fun b => os.map (· b)) state).1) := by
  induction os generalizing state with
  | nil => exact absurd rfl hne
  | cons o os ih =>
    cases os with
    | nil => rfl
    | cons o' os =>
      rw [stepThrough, ih (by simp)]
      have := C136_split fc1 step fc2 zero (fun b => [o b]) (fun b => (o' :: os).map (· b)) state
      refine Prod.ext (congrArg some this.1.symm) ?_
      funext b
      exact (this.2 b (by simp)).symm

/-- C136: the rows of a batch do not influence each other. -/
theorem C136_rows (fc1 : X → X') (step : X' → RowState H → Y × RowState H) (fc2 : Y → Z) (zero : H) (obs obs' : Nat → List X)
    (s s' : Grid H × Grid H) (b b' : Nat) (ho : obs b = obs' b') (hh : s.1 b = s'.1 b') (hc : s.2 b = s'.2 b') :
    (recurrent fc1 step fc2 zero obs (some s)).1 b = (recurrent fc1 step fc2 zero obs' (some s')).1 b' ∧
    (recurrent fc1 step fc2 zero obs (some s)).2.1 b = (recurrent fc1 step fc2 zero obs' (some s')).2.1 b' ∧
    (recurrent fc1 step fc2 zero obs (some s)).2.2 b = (recurrent fc1 step fc2 zero obs' (some s')).2.2 b' := by
  have e : (⟨fun l => transpose s.1 l b, fun l => transpose s.2 l b⟩ : RowState H) = ⟨fun l => transpose s'.1 l b', fun l => transpose s'.2 l b'⟩ := by
    show (⟨s.1 b, s.2 b⟩ : RowState H) = ⟨s'.1 b', s'.2 b'⟩
    rw [hh, hc]
  refine ⟨?_, ?_, ?_⟩
  · simp only [recurrent, lstm]
    rw [e, ho]
  · funext l
    simp only [recurrent, lstm]
    show (lstmRow step ((obs b).map fc1) ⟨fun l => transpose s.1 l b, fun l => transpose s.2 l b⟩).2.hidden l = _
    rw [e, ho]
    rfl
  · funext l
    simp only [recurrent, lstm]
    show (lstmRow step ((obs b).map fc1) ⟨fun l => transpose s.1 l b, fun l => transpose s.2 l b⟩).2.cell l = _
    rw [e, ho]
    rfl

end

/-- A network that adds up its inputs: row 1 sees 1, 2 and then 3 and returns 6, from the state 3 of row 1. -/
example : (recurrent (fun x : Nat => x) (fun x s => (s.hidden 0 + x, ⟨fun _ => s.hidden 0 + x, s.cell⟩)) (fun y => y) 0
    (fun b => [10 * b + 3]) (some (recurrent (fun x : Nat => x) (fun x s => (s.hidden 0 + x, ⟨fun _ => s.hidden 0 + x, s.cell⟩))
      (fun y => y) 0 (fun b => [10 * b + 1, 2]) none).2)).1 1 = some 26 := by decide +kernel

/-! ### C137: actors keep the state of their network -/

section
variable {O L S R : Type}

/-- Specification: the outputs for a sequence when the network itself is given the state it returned before. -/
def netSequence (pre : O → Option S → L × Option S) (last : L → R) : List O → Option S → List R
  | [], _ => []
  | o :: os, s => last (pre o s).1 :: netSequence pre last os (pre o s).2

/-- C137: acting with an `Actor`, continuous or discrete, the network is given the state it returned before. -/
theorem C137_actor (pre : O → Option S → L × Option S) (last : L → R) (os : List O) (s : Option S) :
    actSequence (actorForward pre last) os s = netSequence pre last os s := by
  induction os generalizing s with
  | nil => rfl
  | cons o os ih =>
    rw [actSequence, ih]
    rfl

/-- C137 for `ActorProb` with networks that return the state they are given, as `Net` does. Missing: recurrent networks, see
`C137_violated`. -/
theorem C137_prob_partial (pre : O → Option S → L × Option S) (last : L → R) (h : ∀ o s, (pre o s).2 = s) (os : List O) (s : Option S) :
    actSequence (actorProbForward pre last) os s = netSequence pre last os s := by
  induction os generalizing s with
  | nil => rfl
  | cons o os ih =>
    rw [actSequence, ih, netSequence, h]
    rfl

/-- C137 fails for `ActorProb`: whatever the network, each action depends on its own observation and the initial state only, so nothing
is ever remembered; and there are networks for which this is not what the network computes. -/
theorem C137_violated :
    (∀ (O L S R : Type) (pre : O → Option S → L × Option S) (last : L → R) (os : List O) (s : Option S),
      actSequence (actorProbForward pre last) os s = os.map fun o => last (pre o s).1) ∧
    ∃ (pre : Nat → Option Nat → Nat × Option Nat) (os : List Nat),
      actSequence (actorProbForward pre id) os none ≠ netSequence pre id os none := by
  constructor
  · intro O L S R pre last os s
    induction os generalizing s with
    | nil => rfl
    | cons o os ih =>
      rw [actSequence, List.map_cons]
      exact congrArg _ (ih s)
  · exact ⟨fun o s => (o + s.getD 0, some (o + s.getD 0)), [1, 2], by decide +kernel⟩

example : actSequence (actorForward (fun (o : Nat) (s : Option Nat) => (o + s.getD 0, some (o + s.getD 0))) id) [1, 2, 3] none = [1, 3, 6] ∧
    actSequence (actorProbForward (fun (o : Nat) (s : Option Nat) => (o + s.getD 0, some (o + s.getD 0))) id) [1, 2, 3] none = [1, 2, 3] := by
  decide +kernel

end

/-! ### C138: output dimensions of modules -/

section
variable {T : Type} [DecidableEq T]

/-- C138 in full: the attribute if it is there, else the alternative; an error if they differ or neither is there. -/
def C138 (attr : Attr T) (alt : Option T) : Prop :=
  getattrAlt attr alt =
    match attr, alt with
    | .val v, none => .ok v
    | .val v, some a => if v = a then .ok v else .error .value
    | _, some a => .ok a
    | _, none => .error .value

/-- C138 for modules that have the attribute, be it `None`. Missing: modules without it, see `C138_violated`. -/
theorem C138_partial (attr : Attr T) (alt : Option T) (h : attr ≠ .missing) : C138 attr alt := by
  unfold C138 getattrAlt
  cases attr with
  | missing => exact absurd rfl h
  | none => cases alt <;> rfl
  | val v =>
    cases alt with
    | none => rfl
    | some a =>
      by_cases e : v = a
      · simp [e]
      · simp [e]

/-- C138 fails for all modules without the attribute: there is no use of the alternative that is meant for them. -/
theorem C138_violated (a : T) : ¬ C138 Attr.missing (some a) := by
  unfold C138 getattrAlt
  simp

example : getattrAlt (Attr.val 3) (some 3) = .ok 3 ∧ getattrAlt (Attr.val 3) (some 4) = .error .value ∧
    getattrAlt Attr.missing (some 4) = .error .attribute := ⟨rfl, rfl, rfl⟩

end

/-! ### C139: critics of observation and action -/

section
variable {K : Type}

/-- C139 for critics whose network takes observation and action: the value is computed from the two, in this order. -/
theorem C139_joint (pre : Module K) (alt : Option Nat) (mkLast : Nat → List K → K) (c : Critic K)
    (hc : Critic.new pre alt mkLast false = .ok c) (hattr : pre.attr = .val pre.outDim) (hout : ∀ x, (pre.fn x).length = pre.outDim)
    (obs act : List K) (hin : pre.inDim = obs.length + act.length) :
    c.forward obs (some act) = .ok (mkLast pre.outDim (pre.fn (obs ++ act))) := by
  unfold Critic.new at hc
  rw [hattr] at hc
  have hd : getattrAlt (Attr.val pre.outDim) alt = .ok pre.outDim := by
    unfold getattrAlt at hc ⊢
    cases alt with
    | none => rfl
    | some a =>
      by_cases e : pre.outDim = a
      · simp [e]
      · simp only [ne_eq, e, not_false_eq_true, if_true] at hc
        simp [Except.map] at hc
  rw [hd] at hc
  have hc' : c = { pre := pre, lastIn := pre.outDim, last := mkLast pre.outDim, obsOnly := false } := by
    simpa [Except.map] using hc.symm
  rw [hc']
  simp [Critic.forward, Module.run, hin, hout, bind, Except.bind, pure, Except.pure]

/-- C139 in full for critics that share the network of the actor: the network is applied to the observation, the rest to its output and
the action. -/
def C139 (pre : Module K) (mkLast : Nat → List K → K) (c : Critic K) (obs act : List K) : Prop :=
  ∃ d, c.forward obs (some act) = .ok (mkLast d (pre.fn obs ++ act))

/-- C139 for such critics without action, as critics of states. Missing: actions, see `C139_violated`. -/
theorem C139_obs_partial (pre : Module K) (mkLast : Nat → List K → K) (c : Critic K)
    (hc : Critic.new pre none mkLast true = .ok c) (hattr : pre.attr = .val pre.outDim) (hout : ∀ x, (pre.fn x).length = pre.outDim)
    (obs : List K) (hin : pre.inDim = obs.length) :
    c.forward obs none = .ok (mkLast pre.outDim (pre.fn obs)) := by
  unfold Critic.new at hc
  rw [hattr] at hc
  have hc' : c = { pre := pre, lastIn := pre.outDim, last := mkLast pre.outDim, obsOnly := true } := by
    simpa [Except.map, getattrAlt] using hc.symm
  rw [hc']
  simp [Critic.forward, Module.run, hin, hout, bind, Except.bind, pure, Except.pure]

/-- C139 fails for every such critic and every action that is not empty, whatever the arguments of the constructor: the last layers are
made for the output of the network alone. -/
theorem C139_violated (pre : Module K) (alt : Option Nat) (mkLast : Nat → List K → K) (c : Critic K)
    (hc : Critic.new pre alt mkLast true = .ok c) (hattr : pre.attr = .val pre.outDim) (hout : ∀ x, (pre.fn x).length = pre.outDim)
    (obs act : List K) (hact : act ≠ []) : ¬ C139 pre mkLast c obs act := by
  unfold Critic.new at hc
  rw [hattr] at hc
  have hd : getattrAlt (Attr.val pre.outDim) alt = .ok pre.outDim := by
    unfold getattrAlt at hc ⊢
    cases alt with
    | none => rfl
    | some a =>
      by_cases e : pre.outDim = a
      · simp [e]
      · simp only [ne_eq, e, not_false_eq_true, if_true] at hc
        simp [Except.map] at hc
  rw [hd] at hc
  have hc' : c = { pre := pre, lastIn := pre.outDim, last := mkLast pre.outDim, obsOnly := true } := by
    simpa [Except.map] using hc.symm
  rintro ⟨d, hf⟩
  rw [hc'] at hf
  have hpos := List.length_pos_of_ne_nil hact
  by_cases hin : obs.length = pre.inDim
  · simp [Critic.forward, Module.run, hin, hout, hact, bind, Except.bind, pure, Except.pure, throw, throwThe, MonadExceptOf.throw] at hf
  · simp [Critic.forward, Module.run, hin, bind, Except.bind] at hf

/-- A network from 2 to 3 numbers, an action with one number. -/
example : ∃ c, Critic.new (⟨2, 3, .val 3, fun x => [x.sum, 1, 2]⟩ : Module Int) none (fun _ x => x.sum) true = .ok c ∧
    c.forward [5, 6] none = .ok 14 ∧ c.forward [5, 6] (some [7]) = .error .shape := ⟨_, rfl, rfl, rfl⟩

end

/-! ### C140: ensembles -/

section
variable {K : Type} [Semiring K]

/-- Specification: a linear layer with weights `w` and bias `b` on a batch. -/
def linearBatch (w : List (List K)) (b : Option (List K)) (x : List (List K)) : List (List K) :=
  match b with
  | none => x.map fun r => rowMul r w
  | some b => x.map fun r => List.zipWith (· + ·) (rowMul r w) b

theorem getElem?_ens (w : List (List (List K))) (bias : Option (List (List K))) (hb : ∀ b, bias = some b → b.length = w.length)
    (ys : List (List (List K))) (hy : ys.length = w.length) (e : Nat) :
    (ensBias bias ys)[e]? =
      ys[e]?.map fun y => y.map fun r => match bias.map (·.getD e []) with
        | none => r
        | some b => List.zipWith (· + ·) r b := by
  cases bias with
  | none => simp [ensBias]
  | some b =>
    have hb := hb b rfl
    have key : (List.zipWith (fun yb b => yb.map fun r => List.zipWith (· + ·) r b) ys b)[e]? =
        ys[e]?.map fun y => y.map fun r => List.zipWith (· + ·) r (b.getD e []) := by
      rw [List.getElem?_zipWith]
      by_cases he : e < ys.length
      · have he' : e < b.length := by omega
        simp [List.getElem?_eq_getElem he, List.getElem?_eq_getElem he', List.getD_eq_getElem?_getD]
      · simp [List.getElem?_eq_none (Nat.not_lt.1 he)]
    match b, hb, key with
    | [], hb, key => exact key
    | [b], hb, key =>
      show (ys.map fun yb => yb.map fun r => List.zipWith (· + ·) r b)[e]? = _
      rw [List.getElem?_map]
      by_cases he : e < ys.length
      · have : e = 0 := by
          have hb' : 1 = w.length := hb
          omega
        subst this
        simp
      · simp [List.getElem?_eq_none (Nat.not_lt.1 he)]
    | b :: b' :: bs, hb, key => exact key

/-- C140: member `e` of an ensemble is the linear layer with its own weights and bias, applied to the common input, or to its own input if
there is one for each member. -/
theorem C140_members (w : List (List (List K))) (bias : Option (List (List K))) (hb : ∀ b, bias = some b → b.length = w.length) :
    (∀ x, ∃ out, ensLinear w bias (.shared x) = some out ∧ out.length = w.length ∧
      ∀ e, e < w.length → out[e]? = some (linearBatch (w.getD e []) (bias.map (·.getD e [])) x)) ∧
    (∀ xs, xs.length = w.length → ∃ out, ensLinear w bias (.each xs) = some out ∧ out.length = w.length ∧
      ∀ e, e < w.length → out[e]? = some (linearBatch (w.getD e []) (bias.map (·.getD e [])) (xs.getD e []))) := by
  have hlen : ∀ ys : List (List (List K)), ys.length = w.length →
      (ensBias bias ys).length = w.length := by
    intro ys hy
    cases bias with
    | none => exact hy
    | some b =>
      have hb := hb b rfl
      match b with
      | [] => simp [ensBias] at hb ⊢; omega
      | [b] => simpa [ensBias] using hy
      | b :: b' :: bs => simp only [ensBias, List.length_zipWith]; omega
  constructor
  · intro x
    have hy : (w.map fun w => x.map fun r => rowMul r w).length = w.length := by simp
    refine ⟨_, rfl, hlen _ hy, ?_⟩
    intro e he
    rw [getElem?_ens w bias hb _ hy e]
    simp only [List.getElem?_map, List.getElem?_eq_getElem he, Option.map_some, linearBatch, List.map_map, List.getD_eq_getElem?_getD,
      Option.getD_some]
    cases bias <;> simp [Function.comp_def]
  · intro xs hxs
    have hy : (List.zipWith (fun x w => x.map fun r => rowMul r w) xs w).length = w.length := by
      simp only [List.length_zipWith]; omega
    have hm : ensMatmul (.each xs) w = some (List.zipWith (fun x w => x.map fun r => rowMul r w) xs w) := by
      match xs, hxs with
      | [], hxs => simp only [ensMatmul, if_pos hxs]
      | [x], hxs =>
        match w, hxs with
        | [w], _ => rfl
      | x :: x' :: xs, hxs => simp only [ensMatmul, if_pos hxs]
    refine ⟨_, by rw [ensLinear, hm]; rfl, hlen _ hy, ?_⟩
    intro e he
    have he' : e < xs.length := by omega
    rw [getElem?_ens w bias hb _ hy e]
    simp only [List.getElem?_zipWith, List.getElem?_eq_getElem he, List.getElem?_eq_getElem he', Option.map_some, linearBatch, List.map_map,
      List.getD_eq_getElem?_getD, Option.getD_some]
    cases bias <;> simp [Function.comp_def]

/-- C140: a linear layer with `m ≥ 1` inputs and `k` outputs turns every row of the batch into `k` numbers, each the sum of the products of
inputs and weights, plus the bias. -/
theorem C140_linear (m k : Nat) (hm : 0 < m) (w : List (List K)) (hw : w.length = m) (hk : ∀ r ∈ w, r.length = k) (b : Option (List K))
    (hb : ∀ v, b = some v → v.length = k) (x : List (List K)) (hx : ∀ r ∈ x, r.length = m) (i : Nat) (r : List K) (hr : x[i]? = some r) :
    ∃ out, (linearBatch w b x)[i]? = some out ∧ out.length = k ∧
      ∀ j, j < k → out[j]? = some ((∑ l ∈ Finset.range m, r.getD l 0 * (w.getD l []).getD j 0) + (b.map (·.getD j 0)).getD 0) := by
  have hrow : (rowMul r w).length = k ∧ ∀ j, j < k → (rowMul r w)[j]? = some (∑ l ∈ Finset.range m, r.getD l 0 * (w.getD l []).getD j 0) := by
    have hhead : (w.headD []).length = k := by
      match w, hw with
      | [], hw => simp at hw; omega
      | v :: w, _ => exact hk v List.mem_cons_self
    have hrl : r.length = m := hx r (List.mem_of_getElem? hr)
    refine ⟨by simp [rowMul, -List.headD_eq_head?_getD, hhead], ?_⟩
    intro j hj
    unfold rowMul
    rw [List.getElem?_map, hhead, List.getElem?_range hj, Option.map_some]
    congr 1
    have hs : ∀ (n : Nat) (r : List K) (w : List (List K)), r.length = n → w.length = n →
        (List.zipWith (fun a (r : List K) => a * r.getD j 0) r w).sum = ∑ l ∈ Finset.range n, r.getD l 0 * (w.getD l []).getD j 0 := by
      intro n
      induction n with
      | zero =>
        intro r w h1 h2
        rw [List.length_eq_zero_iff] at h1 h2
        subst h1 h2
        simp
      | succ n ih =>
        intro r w h1 h2
        match r, w, h1, h2 with
        | a :: r, v :: w, h1, h2 =>
          rw [List.zipWith_cons_cons, List.sum_cons, ih r w (by simpa using h1) (by simpa using h2), Finset.sum_range_succ']
          simp [add_comm]
    exact hs m r w hrl hw
  cases b with
  | none =>
    refine ⟨rowMul r w, by simp [linearBatch, hr], hrow.1, ?_⟩
    intro j hj
    rw [hrow.2 j hj]
    simp
  | some v =>
    have hv := hb v rfl
    refine ⟨List.zipWith (· + ·) (rowMul r w) v, by simp [linearBatch, hr], by simp [hrow.1, hv], ?_⟩
    intro j hj
    have hj' : j < v.length := by omega
    rw [List.getElem?_zipWith, hrow.2 j hj]
    simp [List.getElem?_eq_getElem hj']

/-- Two members on a common input, and then on their own. -/
example : ensLinear [[[1, 0], [0, 1]], [[2, 0], [0, 3]]] (some [[10, 10], [20, 20]]) (.shared [[1, 2]]) =
      some [[[(11 : Int), 12]], [[22, 26]]] ∧
    ensLinear [[[1], [1]], [[2], [3]]] none (.each [[[11, 12]], [[(22 : Int), 26]]]) = some [[[23]], [[122]]] := by decide +kernel

end

/-! ### C141: dictionaries as observations -/

section
variable {K : Type}

theorem chunk_getElem? (n k : Nat) (l : List K) (a : Nat) (ha : a < k) : (chunk n k l)[a]? = some ((l.drop (a * n)).take n) := by
  induction k generalizing l a with
  | zero => omega
  | succ k ih =>
    rw [chunk]
    cases a with
    | zero => simp
    | succ a =>
      rw [List.getElem?_cons_succ, ih _ a (by omega), List.drop_drop]
      congr 3
      rw [Nat.succ_mul]; omega

/-- A batch of `bsz` observations of a shape given as a tuple, a list or an integer. -/
def Batched (bsz : Nat) (x : Shape × Arr K) : Prop :=
  ∃ dims : List Nat, (x.1 = .tuple dims ∨ x.1 = .list dims ∨ ∃ n, x.1 = .int n ∧ dims = [n]) ∧
    x.2.shape = bsz :: dims ∧ x.2.data.length = bsz * dims.prod

theorem Batched.out {bsz : Nat} {x : Shape × Arr K} (h : Batched bsz x) :
    ∃ dims, x.1.prod = dims.prod ∧ x.2.shape = bsz :: dims ∧ x.2.data.length = bsz * dims.prod ∧ x.1 ≠ .tuple x.2.shape := by
  obtain ⟨dims, h1, h2, h3⟩ := h
  refine ⟨dims, ?_, h2, h3, ?_⟩
  · rcases h1 with h | h | ⟨n, h, rfl⟩ <;> simp [h, Shape.prod]
  · rw [h2]
    rcases h1 with h | h | ⟨n, h, rfl⟩ <;> rw [h]
    · intro hc
      have := congrArg List.length (Shape.tuple.inj hc)
      simp at this
    · exact Shape.noConfusion
    · exact Shape.noConfusion

theorem allRows_eq (bsz : Nat) (hb : 0 < bsz) (obs : List (Shape × Arr K)) (h : ∀ x ∈ obs, Batched bsz x) :
    ∃ parts, allRows bsz obs = some parts ∧ parts = obs.map fun x => chunk x.1.prod bsz x.2.data := by
  induction obs with
  | nil => exact ⟨[], rfl, rfl⟩
  | cons x obs ih =>
    obtain ⟨parts, e, hp⟩ := ih fun y hy => h y (by simp [hy])
    obtain ⟨dims, h1, h2, h3, _⟩ := (h x (by simp)).out
    have hr : x.2.rows bsz = some (chunk x.1.prod bsz x.2.data) := by
      unfold Arr.rows
      rw [if_neg (by omega), if_pos (by rw [h3]; exact Nat.mul_mod_right _ _), h3, Nat.mul_div_cancel_left _ hb, h1]
    exact ⟨_, by rw [allRows, hr, e]; rfl, by rw [hp]; rfl⟩

/-- C141 for batches: row `b` of the result consists of the flattened observations `b` of all keys, in their order, and has the size
announced. Missing: single observations, see `C141_single_partial` and `C141_violated`. -/
theorem C141_batch_partial (bsz : Nat) (hb : 0 < bsz) (obs : List (Shape × Arr K)) (hne : obs ≠ []) (h : ∀ x ∈ obs, Batched bsz x) :
    ∃ rows, preprocessObs obs = some (.batch rows) ∧ rows.length = bsz ∧
      ∀ b, b < bsz → ∃ r, rows[b]? = some r ∧
        r = (obs.flatMap fun x => (x.2.data.drop (b * x.1.prod)).take x.1.prod) ∧ r.length = newStateShape (obs.map (·.1)) := by
  obtain ⟨parts, e, hp⟩ := allRows_eq bsz hb obs h
  refine ⟨catCols bsz parts, ?_, by simp [catCols], ?_⟩
  · cases obs with
    | nil => exact absurd rfl hne
    | cons x obs =>
      obtain ⟨dims, h1, h2, h3, h4⟩ := (h x (by simp)).out
      obtain ⟨s, a⟩ := x
      unfold preprocessObs
      simp only at h2 h4
      simp only [if_neg h4]
      rw [h2]
      show Option.map _ (allRows bsz ((s, a) :: obs)) = _
      rw [e]
      rfl
  · intro b hbb
    refine ⟨parts.flatMap fun p => p.getD b [], by simp only [catCols, List.getElem?_map, List.getElem?_range hbb, Option.map_some], ?_, ?_⟩
    · rw [hp, List.flatMap_map]
      refine List.flatMap_congr ?_
      intro x _
      rw [List.getD_eq_getElem?_getD, chunk_getElem? _ _ _ _ hbb]
      rfl
    · rw [hp, List.flatMap_map, List.length_flatMap, newStateShape, List.map_map]
      congr 1
      refine List.map_congr_left ?_
      intro x hx
      obtain ⟨dims, h1, h2, h3, _⟩ := (h x hx).out
      rw [List.getD_eq_getElem?_getD, chunk_getElem? _ _ _ _ hbb]
      simp only [Option.getD_some, Function.comp_apply, List.length_take, List.length_drop, h3]
      rw [h1]
      have : (b + 1) * dims.prod ≤ bsz * dims.prod := Nat.mul_le_mul_right _ hbb
      rw [Nat.succ_mul] at this
      omega

/-- C141 fails for every empty batch: the call raises an error (numpy cannot reshape an empty array to `(0, -1)`). -/
theorem C141_empty_violated (obs : List (Shape × Arr K)) (h : ∀ x ∈ obs, Batched 0 x) : preprocessObs obs = none := by
  cases obs with
  | nil => rfl
  | cons x obs =>
    obtain ⟨dims, h1, h2, h3, h4⟩ := (h x (by simp)).out
    obtain ⟨s, a⟩ := x
    unfold preprocessObs
    simp only at h2 h4
    simp only [if_neg h4]
    rw [h2]
    simp [allRows, Arr.rows]

example : preprocessObs [(.int 2, ⟨[0, 2], ([] : List Int)⟩), (.int 1, ⟨[0, 1], []⟩)] = none :=
  C141_empty_violated _ (by
    intro x hx
    simp only [List.mem_cons, List.not_mem_nil, or_false] at hx
    rcases hx with rfl | rfl
    · exact ⟨[2], .inr (.inr ⟨2, rfl, rfl⟩), rfl, rfl⟩
    · exact ⟨[1], .inr (.inr ⟨1, rfl, rfl⟩), rfl, rfl⟩)

/-- C141 in full for one observation: the flattened observations of all keys in order. -/
def C141 (obs : List (Shape × Arr K)) : Prop := preprocessObs obs = some (.vector (obs.flatMap fun x => x.2.data))

/-- C141 for one observation whose shapes are given as tuples and are all the same. -/
theorem C141_single_partial (obs : List (Shape × Arr K)) (hne : obs ≠ []) (sh : List Nat) (h : ∀ x ∈ obs, x.1 = .tuple sh ∧ x.2.shape = sh) :
    C141 obs := by
  cases obs with
  | nil => exact absurd rfl hne
  | cons x obs =>
    obtain ⟨s, a⟩ := x
    obtain ⟨h1, h2⟩ := h (s, a) (by simp)
    simp only at h1 h2
    unfold C141 preprocessObs
    simp only
    rw [if_pos (by rw [h1, h2]), if_pos]
    rw [List.all_eq_true]
    intro x hx
    simp only [decide_eq_true_eq]
    rw [(h x (by simp [hx])).2, h2]

/-- C141 fails for single observations: with tuples of different shapes the call raises an error; with shapes given as integers a single
observation is taken for a batch, whose rows mix the entries. -/
theorem C141_violated :
    preprocessObs [(.tuple [2], ⟨[2], [(1 : Int), 2]⟩), (.tuple [3], ⟨[3], [3, 4, 5]⟩)] = none ∧
    preprocessObs [(.int 2, ⟨[2], [(1 : Int), 2]⟩), (.int 2, ⟨[2], [3, 4]⟩)] = some (.batch [[1, 3], [2, 4]]) := by
  decide +kernel

example : preprocessObs [(.int 2, ⟨[2, 2], [(1 : Int), 2, 3, 4]⟩), (.tuple [1, 3], ⟨[2, 1, 3], [5, 6, 7, 8, 9, 10]⟩)] =
    some (.batch [[1, 2, 5, 6, 7], [3, 4, 8, 9, 10]]) := by decide +kernel

end

end Verif.Net
