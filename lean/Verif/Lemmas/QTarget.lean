import Verif.Model.QTarget
import Verif.Spec.QTarget
import Verif.Props.Policy
import Verif.Props.Returns

/-! Lemmas for C92-C98. -/

set_option linter.unusedSectionVars false

namespace Verif.QTarget

open Verif.Policy Verif.Returns

variable {X K : Type} [Field K] [LinearOrder K] [IsStrictOrderedRing K]

/-- The masks of a batch. -/
def rowMask (mask : Option (List (List Bool))) (r : Nat) : Option (List Bool) := mask.map fun m => m.getD r []

theorem rowMask_map {Y : Type} (mask : Option (Y → List Bool)) (f : Nat → Y) (l : List Nat) (p i : Nat)
    (hi : l[p]? = some i) :
    rowMask ((mask.map fun m i => m (f i)).map fun m => l.map m) p = mask.map fun m => m (f i) := by
  cases mask with
  | none => rfl
  | some mk => simp [rowMask, List.getD_eq_getElem?_getD, hi]

/-- The action of a row is a greedy one. -/
theorem dqnAct_greedy (logits : List (List K)) (mask : Option (List (List Bool))) (r : Nat) (row : List K)
    (hr : logits[r]? = some row) (hne : row ≠ [])
    (hm : ∀ m, mask = some m → ∃ mr, m[r]? = some mr ∧ mr.length = row.length ∧ true ∈ mr) :
    ∃ a, (dqnAct logits mask)[r]? = some a ∧ Greedy row (rowMask mask r) a := by
  cases mask with
  | none =>
    obtain ⟨a, v, h1, h2, h3⟩ := C40_unmasked logits r row hr hne
    refine ⟨a, h1, ?_, v, h2, fun b x _ hx => h3 b x hx⟩
    intro m hm; simp [rowMask] at hm
  | some m =>
    obtain ⟨mr, hmr, hlen, hex⟩ := hm m rfl
    obtain ⟨a, v, h1, h2, h3, h4, _⟩ := C40_greedy logits m r row mr hr hmr hlen.symm hex
    have hrow : rowMask (some m) r = some mr := by simp [rowMask, List.getD_eq_getElem?_getD, hmr]
    refine ⟨a, h1, ?_, v, h3, ?_⟩
    · intro m' hm'; rw [hrow] at hm'; cases hm'; exact h2
    · intro b x hb hx; exact h4 b x (hb mr hrow) hx

theorem pick_get {V : Type} (d : V) (rows : List (List V)) (act : List Nat) (r a : Nat) (row : List V)
    (hr : rows[r]? = some row) (ha : act[r]? = some a) : (pick d rows act)[r]? = some (row.getD a d) := by
  unfold pick; rw [List.getElem?_zipWith, hr, ha]

theorem maxOf_mem (l : List K) (hne : l ≠ []) : maxOf l ∈ l := by
  induction l with
  | nil => exact absurd rfl hne
  | cons x l ih =>
    cases l with
    | nil => simp [maxOf]
    | cons y l =>
      have := ih (by simp)
      rw [maxOf]
      · rcases max_choice x (maxOf (y :: l)) with h | h <;> rw [h]
        · exact List.mem_cons_self
        · exact List.mem_cons_of_mem _ this
      · simp

/-- What `DQNPolicy._target_q` returns for a row. -/
theorem dqnTarget_double (n : Nets X K) (xs : List X) (mask : Option (List (List Bool))) (r : Nat) (x : X)
    (hx : xs[r]? = some x) (hne : n.online x ≠ []) (hlen : (n.old x).length = (n.online x).length)
    (hm : ∀ m, mask = some m → ∃ mr, m[r]? = some mr ∧ mr.length = (n.online x).length ∧ true ∈ mr) :
    ∃ v, (dqnTarget true n xs mask)[r]? = some v ∧
      DoubleTarget (n.online x) (if n.hasTarget then n.old x else n.online x) (rowMask mask r) v := by
  have hr : (xs.map n.online)[r]? = some (n.online x) := by simp [hx]
  obtain ⟨a, ha, hg⟩ := dqnAct_greedy _ mask r _ hr hne hm
  obtain ⟨v, hv, _⟩ := hg.2
  have hlt := (List.getElem?_eq_some_iff.mp hv).1
  unfold dqnTarget
  simp only
  cases ht : n.hasTarget with
  | true =>
    simp only [if_true]
    have := pick_get 0 (xs.map n.old) _ r a (n.old x) (by simp [hx]) ha
    refine ⟨_, this, a, hg, ?_⟩
    rw [List.getD_eq_getElem?_getD, List.getElem?_eq_getElem (by omega : a < (n.old x).length)]; rfl
  | false =>
    simp only [if_true, Bool.false_eq_true, if_false]
    have := pick_get 0 (xs.map n.online) _ r a (n.online x) hr ha
    refine ⟨_, this, a, hg, ?_⟩
    rw [List.getD_eq_getElem?_getD, List.getElem?_eq_getElem hlt]; rfl

theorem dqnTarget_plain (n : Nets X K) (xs : List X) (mask : Option (List (List Bool))) (r : Nat) (x : X)
    (hx : xs[r]? = some x) (hne : (if n.hasTarget then n.old x else n.online x) ≠ []) :
    ∃ v, (dqnTarget false n xs mask)[r]? = some v ∧
      PlainTarget (if n.hasTarget then n.old x else n.online x) Option.none v := by
  have key : ∀ (q : List K), q ≠ [] → PlainTarget q Option.none (maxOf q) := by
    intro q hq
    obtain ⟨a, ha, hav⟩ := List.getElem_of_mem (maxOf_mem q hq)
    have hget : q[a]? = some (maxOf q) := by rw [List.getElem?_eq_getElem ha, hav]
    refine ⟨a, ⟨fun m hm => by simp at hm, _, hget, ?_⟩, hget⟩
    intro b y _ hy
    exact le_maxOf _ _ (List.mem_of_getElem? hy)
  unfold dqnTarget
  cases ht : n.hasTarget with
  | true =>
    simp only [ht, if_true] at hne
    refine ⟨maxOf (n.old x), by simp [hx], ?_⟩
    simpa using key _ hne
  | false =>
    simp only [ht, Bool.false_eq_true, if_false] at hne
    refine ⟨maxOf (n.online x), by simp [hx], ?_⟩
    simpa using key _ hne

theorem distTarget_get (isDouble : Bool) (value : X → List K → K) (n : Nets X (List K)) (xs : List X)
    (mask : Option (List (List Bool))) (r : Nat) (x : X)
    (hx : xs[r]? = some x) (hne : n.online x ≠ []) (hlen : (n.old x).length = (n.online x).length)
    (hm : ∀ m, mask = some m → ∃ mr, m[r]? = some mr ∧ mr.length = (n.online x).length ∧ true ∈ mr) :
    ∃ v, (distTarget isDouble value n xs mask)[r]? = some v ∧
      DoubleTarget ((n.online x).map (value x)) (if n.hasTarget then n.old x else n.online x) (rowMask mask r) v := by
  have hr : (xs.map fun x => (n.online x).map (value x))[r]? = some ((n.online x).map (value x)) := by simp [hx]
  obtain ⟨a, ha, hg⟩ := dqnAct_greedy _ mask r _ hr (by simpa using hne) (by simpa using hm)
  obtain ⟨v, hv, _⟩ := hg.2
  have hlt := (List.getElem?_eq_some_iff.mp hv).1
  rw [List.length_map] at hlt
  unfold distTarget
  simp only
  cases ht : n.hasTarget with
  | true =>
    simp only [if_true]
    have := pick_get [] (xs.map n.old) _ r a (n.old x) (by simp [hx]) ha
    refine ⟨_, this, a, hg, ?_⟩
    rw [List.getD_eq_getElem?_getD, List.getElem?_eq_getElem (by omega : a < (n.old x).length)]; rfl
  | false =>
    simp only [Bool.false_eq_true, if_false]
    have := pick_get [] (xs.map n.online) _ r a (n.online x) (by simp [hx]) ha
    refine ⟨_, this, a, hg, ?_⟩
    rw [List.getD_eq_getElem?_getD, List.getElem?_eq_getElem hlt]; rfl

theorem pick_length {V : Type} (d : V) (rows : List (List V)) (act : List Nat) :
    (pick d rows act).length = min rows.length act.length := by unfold pick; simp

theorem dqnAct_length (logits : List (List K)) (mask : Option (List (List Bool)))
    (hm : ∀ m, mask = some m → m.length = logits.length) : (dqnAct logits mask).length = logits.length := by
  unfold dqnAct computeQ
  cases mask with
  | none => simp
  | some m => simp [hm m rfl]

theorem dqnTarget_length (isDouble : Bool) (n : Nets X K) (xs : List X) (mask : Option (List (List Bool)))
    (hm : ∀ m, mask = some m → m.length = xs.length) : (dqnTarget isDouble n xs mask).length = xs.length := by
  unfold dqnTarget
  simp only
  have h := dqnAct_length (xs.map n.online) mask (by simpa using hm)
  split_ifs <;> simp [pick_length, h]

theorem distTarget_length (isDouble : Bool) (value : X → List K → K) (n : Nets X (List K)) (xs : List X)
    (mask : Option (List (List Bool))) (hm : ∀ m, mask = some m → m.length = xs.length) :
    (distTarget isDouble value n xs mask).length = xs.length := by
  unfold distTarget
  simp only
  have h := dqnAct_length (xs.map fun x => (n.online x).map (value x)) mask (by simpa using hm)
  split_ifs <;> simp [pick_length, h]

/-- A mean of weighted row losses is importance weighted. -/
theorem weighted_mean {ρ : Type} (l : ρ → K) (loss : List ρ → List K → K)
    (h : ∀ rows ws, loss rows ws = Ppo.mean (List.zipWith (fun r w => l r * w) rows ws)) : ImportanceWeighted loss := by
  intro rows ws hlen hne
  have h1 : ∀ r, loss [r] [1] = l r := by intro r; rw [h]; simp [Ppo.mean]
  rw [h, Ppo.mean]
  congr 1
  · congr 2
    funext r w
    rw [h1, mul_comm]
  · simp [hlen]

end Verif.QTarget
