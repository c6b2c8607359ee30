import Verif.Model.EnvAttr
import Mathlib.Logic.Function.Iterate

/-! C215-C217: attributes and action spaces of the environments in a vector environment. -/

namespace Verif.EnvAttr

variable {V A : Type}

/-! ### Lemmas -/

theorem get_put (d : Attrs V) (key key' : String) (v : V) :
    (d.put key v).get? key' = if key' = key then some v else d.get? key' := by
  unfold Attrs.put Attrs.get?
  by_cases h : key' = key
  · subst h; simp
  · rw [if_neg h, List.find?_cons_of_neg (by simpa using fun h' => h h'.symm), List.find?_filter]
    congr 2
    funext p
    by_cases hp : p.1 = key'
    · simp [hp, h]
    · simp [hp]

theorem setEnvAttr_get (key : String) (v : V) (ids : List Nat) (ws : List (Worker V)) (j : Nat) :
    (setEnvAttr ws key v ids)[j]? = (ws[j]?).map fun w => if j ∈ ids then { w with env := { w.env with
      base := if j ∈ ids then (Nat.iterate (fun d => Attrs.put d key v) (ids.count j) w.env.base) else w.env.base } } else w := by
  induction ids generalizing ws with
  | nil => simp [setEnvAttr]
  | cons i ids ih =>
    rw [setEnvAttr, ih, List.getElem?_modify]
    cases hw : ws[j]? with
    | none => simp
    | some w =>
      by_cases hij : i = j
      · subst hij
        by_cases hm : i ∈ ids
        · simp [hm, Worker.setEnvAttr, Env.setattr, Function.iterate_succ_apply]
        · simp [hm, Worker.setEnvAttr, Env.setattr, List.count_eq_zero_of_not_mem hm]
      · by_cases hm : j ∈ ids
        · have hji : j ≠ i := fun h => hij h.symm
          simp [hm, hij]
        · have hji : j ≠ i := fun h => hij h.symm
          simp [hm, hij, hji]

theorem iterate_get (key key' : String) (v : V) (n : Nat) (hn : 0 < n) (d : Attrs V) :
    (Nat.iterate (fun d => Attrs.put d key v) n d).get? key' = if key' = key then some v else d.get? key' := by
  induction n generalizing d with
  | zero => omega
  | succ n ih =>
    rw [Function.iterate_succ_apply]
    by_cases h0 : n = 0
    · subst h0; simpa using get_put d key key' v
    · rw [ih (by omega), get_put]
      split <;> rfl

/-- What reading gives in a stack of wrappers depends on the innermost environment only through this name. -/
theorem lookup_congr (key : String) (ws : List (Attrs V)) (b b' : Attrs V) (h : b.get? key = b'.get? key) :
    lookup key ws b = lookup key ws b' := by
  induction ws with
  | nil => exact h
  | cons w ws ih =>
    unfold lookup
    rw [ih]

/-! ### C215 -/

/-- No wrapper stands between the name and the innermost environment: none has such an attribute itself, and either there is no
wrapper or the name is public. -/
def Reaches (key : String) (ws : List (Attrs V)) : Prop :=
  (∀ w ∈ ws, ∀ v, (key, v) ∉ w) ∧ (ws = [] ∨ key.toList.head? ≠ some '_')

theorem get?_none {d : Attrs V} {key : String} : d.get? key = none ↔ ∀ v, (key, v) ∉ d := by
  unfold Attrs.get?
  simp only [Option.map_eq_none_iff, List.find?_eq_none, beq_iff_eq, Prod.forall]
  constructor
  · intro h v hv; exact h key v hv rfl
  · rintro h a v hv rfl; exact h v hv

theorem lookup_reaches {key : String} {ws : List (Attrs V)} (h : Reaches key ws) (b : Attrs V) :
    lookup key ws b = b.get? key := by
  induction ws with
  | nil => rfl
  | cons w ws ih =>
    have hp : isPrivate key = false := by
      rcases h.2 with h | h
      · cases h
      · simpa [isPrivate] using h
    have hw : w.get? key = none := get?_none.2 (h.1 w (by simp))
    unfold lookup
    rw [hw]
    simp only [hp]
    exact ih ⟨fun w' hw' => h.1 w' (by simp [hw']), Or.inr (h.2.resolve_left (by simp))⟩

theorem lookup_blocked {key : String} {ws : List (Attrs V)} (h : ¬ Reaches key ws) (b b' : Attrs V) :
    lookup key ws b = lookup key ws b' := by
  induction ws with
  | nil => exact absurd ⟨by simp, Or.inl rfl⟩ h
  | cons w ws ih =>
    unfold lookup
    cases hw : w.get? key with
    | some v => rfl
    | none =>
      cases hp : isPrivate key with
      | true => rfl
      | false =>
        simp only [Bool.false_eq_true, if_false]
        refine ih fun hr => h ⟨?_, Or.inr (by simpa [isPrivate] using hp)⟩
        intro w' hw'
        rcases List.mem_cons.mp hw' with rfl | hw'
        · exact get?_none.1 hw
        · exact hr.1 w' hw'

theorem setEnvAttr_length (key : String) (v : V) (ids : List Nat) (ws : List (Worker V)) :
    (setEnvAttr ws key v ids).length = ws.length := by
  induction ids generalizing ws with
  | nil => rfl
  | cons i ids ih => rw [setEnvAttr, ih, List.length_modify]

/-- What one environment answers after `set_env_attr`. -/
theorem setEnvAttr_getattr (key key' : String) (v : V) (ids : List Nat) (ws : List (Worker V)) (j : Nat) (w : Worker V)
    (hw : ws[j]? = some w) :
    ∃ w', (setEnvAttr ws key v ids)[j]? = some w' ∧
      w'.env.getattr key' =
        if j ∈ ids then lookup key' w.env.wrappers (w.env.base.put key v) else w.env.getattr key' := by
  refine ⟨_, by rw [setEnvAttr_get, hw]; rfl, ?_⟩
  by_cases hm : j ∈ ids
  · simp only [hm, if_true]
    unfold Env.getattr
    apply lookup_congr
    rw [iterate_get _ _ _ _ (List.count_pos_iff.2 hm), get_put]
  · simp [hm]

theorem getEnvAttr_ok {kind : Kind} {ws : List (Worker V)} {key : String} {ids : List Nat} {f : Nat → V}
    (h : ∀ j ∈ ids, ∃ w, ws[j]? = some w ∧ w.env.getattr key = some (f j)) :
    getEnvAttr kind ws key ids = .ok (ids.map fun j => .value (f j)) := by
  induction ids with
  | nil => rfl
  | cons j ids ih =>
    obtain ⟨w, hw, hv⟩ := h j (by simp)
    have hr : w.getEnvAttr kind key = .value (f j) := by unfold Worker.getEnvAttr; rw [hv]
    unfold getEnvAttr
    rw [hw]
    simp only [hr]
    rw [ih fun j' hj' => h j' (by simp [hj'])]
    rfl

/-- C215, what holds: a value set with `set_env_attr` is the one `get_env_attr` returns, for each kind of vector environment, if
no wrapper around the environments has an attribute of the same name and the name does not begin with an underscore (or there is
no wrapper). Missing: other names (`C215_violated`). -/
theorem C215_partial (kind : Kind) (ws : List (Worker V)) (key : String) (v : V) (ids : List Nat)
    (hids : ∀ j ∈ ids, j < ws.length) (hr : ∀ w ∈ ws, Reaches key w.env.wrappers) :
    getEnvAttr kind (setEnvAttr ws key v ids) key ids = .ok (ids.map fun _ => .value v) := by
  apply getEnvAttr_ok (f := fun _ => v)
  intro j hj
  obtain ⟨w', h1, h2⟩ := setEnvAttr_getattr key key v ids ws j (ws[j]'(hids j hj)) (List.getElem?_eq_getElem (hids j hj))
  refine ⟨w', h1, ?_⟩
  rw [h2, if_pos hj, lookup_reaches (hr _ (List.getElem_mem _)), get_put, if_pos rfl]

/-- An environment inside two wrappers of which the outer one has an attribute of its own. -/
def exEnv : Env Nat := ⟨[[("limit", 200)], []], [("gravity", 10), ("limit", 5), ("_mass", 3)], ⟨none, 0⟩, []⟩

/-- Two such workers. -/
def exWs : List (Worker Nat) := [⟨exEnv, ⟨none, 0⟩⟩, ⟨exEnv, ⟨none, 0⟩⟩]

example : (∀ j ∈ [1, 0], j < exWs.length) ∧ (∀ w ∈ exWs, Reaches "gravity" w.env.wrappers) ∧
    getEnvAttr .subproc (setEnvAttr exWs "gravity" 7 [1, 0]) "gravity" [1, 0] = .ok [.value 7, .value 7] :=
  ⟨by decide, by simp [exWs, exEnv, Reaches], by decide +kernel⟩

/-- C215: other attributes, and all attributes of other environments, read as before. -/
theorem C215_others (kind : Kind) (ws : List (Worker V)) (key key' : String) (v : V) (ids : List Nat) (j : Nat)
    (h : key' ≠ key ∨ j ∉ ids) :
    getEnvAttr kind (setEnvAttr ws key v ids) key' [j] = getEnvAttr kind ws key' [j] := by
  cases hw : ws[j]? with
  | none =>
    have : (setEnvAttr ws key v ids)[j]? = none := by
      rw [List.getElem?_eq_none_iff] at hw ⊢
      rwa [setEnvAttr_length]
    simp only [getEnvAttr, hw, this]
  | some w =>
    obtain ⟨w', h1, h2⟩ := setEnvAttr_getattr key key' v ids ws j w hw
    have h3 : w'.env.getattr key' = w.env.getattr key' := by
      rw [h2]
      split_ifs with hm
      · refine lookup_congr _ _ _ _ ?_
        rw [get_put, if_neg (h.resolve_right (not_not.2 hm))]
      · rfl
    simp only [getEnvAttr, hw, h1, Worker.getEnvAttr, h3]

example : getEnvAttr .dummy (setEnvAttr exWs "gravity" 7 [1]) "gravity" [0] = .ok [.value 10] ∧
    getEnvAttr .dummy (setEnvAttr exWs "gravity" 7 [1]) "limit" [1] = .ok [.value 200] := by decide +kernel

/-- C215 violated: with every name that a wrapper has itself, and with every name that begins with an underscore if there is a
wrapper, `get_env_attr` returns after `set_env_attr` what it returned before. -/
theorem C215_violated (kind : Kind) (ws : List (Worker V)) (key : String) (v : V) (ids : List Nat) (j : Nat) (w : Worker V)
    (hw : ws[j]? = some w) (h : ¬ Reaches key w.env.wrappers) :
    getEnvAttr kind (setEnvAttr ws key v ids) key [j] = getEnvAttr kind ws key [j] := by
  obtain ⟨w', h1, h2⟩ := setEnvAttr_getattr key key v ids ws j w hw
  have h3 : w'.env.getattr key = w.env.getattr key := by
    rw [h2]
    split_ifs with hm
    · exact lookup_blocked h _ _
    · rfl
  simp only [getEnvAttr, hw, h1, Worker.getEnvAttr, h3]

/-- The limit of the wrapper is returned, not the one that was set; a private name cannot be read at all. -/
example : ¬ Reaches "limit" exEnv.wrappers ∧ ¬ Reaches "_mass" exEnv.wrappers ∧
    getEnvAttr .dummy (setEnvAttr exWs "limit" 7 [0]) "limit" [0] = .ok [.value 200] ∧
    getEnvAttr .dummy (setEnvAttr exWs "_mass" 7 [0]) "_mass" [0] = .error .attribute ∧
    getEnvAttr .subproc (setEnvAttr exWs "_mass" 7 [0]) "_mass" [0] = .ok [.pyNone] :=
  ⟨fun h => h.1 [("limit", 200)] (by simp [exEnv]) 200 (by simp), fun h => by simpa [exEnv] using h.2,
    by decide +kernel, by decide +kernel, by decide +kernel⟩

/-! ### C216 -/

/-- C216, what holds: attributes that exist read the same for every kind of vector environment. Missing: attributes that do not
exist (`C216_violated`). -/
theorem C216_partial (kind kind' : Kind) (ws : List (Worker V)) (key : String) (ids : List Nat)
    (h : ∀ j w, j ∈ ids → ws[j]? = some w → w.env.getattr key ≠ none) :
    getEnvAttr kind ws key ids = getEnvAttr kind' ws key ids := by
  induction ids with
  | nil => rfl
  | cons j ids ih =>
    unfold getEnvAttr
    cases hw : ws[j]? with
    | none => rfl
    | some w =>
      have := h j w (by simp) hw
      cases hv : w.env.getattr key with
      | none => exact absurd hv this
      | some v =>
        simp only [Worker.getEnvAttr, hv]
        rw [ih fun j w hj => h j w (by simp [hj])]

example : getEnvAttr .ray exWs "gravity" [1, 0] = getEnvAttr .subproc exWs "gravity" [1, 0] ∧
    getEnvAttr .subproc exWs "gravity" [1, 0] = .ok [.value 10, .value 10] := by decide +kernel

/-- C216 violated: for an attribute that does not exist, workers in the same process and ray workers raise `AttributeError` and
subprocess workers return `None`. -/
theorem C216_violated (ws : List (Worker V)) (key : String) (j : Nat) (w : Worker V) (hw : ws[j]? = some w)
    (h : w.env.getattr key = none) :
    getEnvAttr .dummy ws key [j] = .error .attribute ∧ getEnvAttr .ray ws key [j] = .error .attribute ∧
      getEnvAttr .subproc ws key [j] = .ok [.pyNone] := by
  simp [getEnvAttr, hw, Worker.getEnvAttr, h]

example : exWs[1]? = some ⟨exEnv, ⟨none, 0⟩⟩ ∧ exEnv.getattr "colour" = none := by decide +kernel

/-! ### C217 -/

/-- The actions of environments whose generators have been seeded with `s + i`: the `k`-th action of environment `i` is the `k`-th
sample with this seed. `pre` are the environments that have acted already. -/
def seededActions (rand : Option Int → Nat → A) (s : Int) (pre : List Nat) : List Nat → List A
  | [] => []
  | i :: ids => rand (some (s + i)) (pre.count i) :: seededActions rand s (pre ++ [i]) ids

theorem samples_copies (rand : Option Int → Nat → A) {kind : Kind} (hk : kind ≠ .dummy) (s : Int) (ws : List (Worker V)) :
    ∀ (ids pre : List Nat) (taken : List Gen), (∀ i ∈ ids, i < taken.length) →
      (∀ i (hi : i < taken.length), taken[i] = ⟨some (s + i), pre.count i⟩) →
      samples rand kind ws taken ids = some (seededActions rand s pre ids) := by
  intro ids
  induction ids with
  | nil => intros; rfl
  | cons i ids ih =>
    intro pre taken hids ht
    have hi : i < taken.length := hids i (by simp)
    have hg : taken[i]? = some ⟨some (s + i), pre.count i⟩ := by rw [List.getElem?_eq_getElem hi, ht i hi]
    have hs : sample rand kind ws taken i = some (ws, taken.set i ⟨some (s + i), pre.count i + 1⟩,
        rand (some (s + i)) (pre.count i)) := by
      cases kind with
      | dummy => exact absurd rfl hk
      | subproc => simp [sample, hg]
      | ray => simp [sample, hg]
    unfold samples
    rw [hs]
    simp only
    rw [ih (pre ++ [i]) _ (by simpa using fun j hj => hids j (by simp [hj])) ?_]
    · rfl
    · intro j hj
      rw [List.length_set] at hj
      rw [List.getElem_set, List.count_append]
      by_cases hij : i = j
      · subst hij; simp
      · rw [if_neg hij, ht j hj, List.count_singleton]
        simp [hij]

theorem samples_live (rand : Option Int → Nat → A) (s : Int) (taken : List Gen) :
    ∀ (ids pre : List Nat) (ws : List (Worker V)), (∀ i ∈ ids, i < ws.length) →
      (∀ i (hi : i < ws.length), ws[i].env.space = ⟨some (s + i), pre.count i⟩) →
      samples rand .dummy ws taken ids = some (seededActions rand s pre ids) := by
  intro ids
  induction ids with
  | nil => intros; rfl
  | cons i ids ih =>
    intro pre ws hids ht
    have hi : i < ws.length := hids i (by simp)
    have hg : ws[i]? = some ws[i] := List.getElem?_eq_getElem hi
    unfold samples
    simp only [sample, hg, ht i hi]
    rw [ih (pre ++ [i]) _ (by simpa using fun j hj => hids j (by simp [hj])) ?_]
    · rfl
    · intro j hj
      rw [List.length_set] at hj
      rw [List.getElem_set, List.count_append]
      by_cases hij : i = j
      · subst hij; simp
      · rw [if_neg hij, ht j hj, List.count_singleton]
        simp [hij]

/-- C217, what holds: for environments without a method `seed` of their own, in the same process or in subprocesses, the random
actions of a collector that was made after `seed(s)` are determined by `s`: those of environment `i` are the samples of an action
space seeded with `s + i`, in the order of its steps. Missing: collectors made before (`C217_before`, `C217_violated`), ray
workers (`C217_ray`), environments with a method `seed` (`C217_method`), seeds given to `reset` (`C217_reset`). -/
theorem C217_partial (rand : Option Int → Nat → A) (kind : Kind) (hk : kind ≠ .ray) (s : Int) (ws : List (Worker V))
    (ids : List Nat) (hids : ∀ i ∈ ids, i < ws.length) :
    samples rand kind (seedInt kind none s ws) (takeSpaces (seedInt kind none s ws)) ids =
      some (seededActions rand s [] ids) := by
  have hlen : (seedInt kind none s ws).length = ws.length := by simp [seedInt]
  have hsp : ∀ i (hi : i < (seedInt kind none s ws).length), (seedInt kind none s ws)[i].env.space = ⟨some (s + i), 0⟩ := by
    intro i hi
    cases kind with
    | ray => exact absurd rfl hk
    | dummy => simp [seedInt, Worker.seed]
    | subproc => simp [seedInt, Worker.seed]
  by_cases hd : kind = .dummy
  · subst hd
    exact samples_live rand s _ ids [] _ (by rw [hlen]; exact hids) (by simpa using hsp)
  · refine samples_copies rand hd s _ ids [] _ (by simpa [takeSpaces, hlen] using hids) ?_
    intro i hi
    simp only [takeSpaces, List.getElem_map]
    simpa using hsp i (by simpa [takeSpaces] using hi)

/-- Two environments in subprocesses, three actions. -/
example : samples (fun s k => (s, k)) .subproc (seedInt .subproc none 7 exWs) (takeSpaces (seedInt .subproc none 7 exWs)) [0, 1, 0] =
    some [(some 7, 0), (some 8, 0), (some 7, 1)] := by decide +kernel

/-- C217: for environments in the same process it does not matter when the collector was made. -/
theorem C217_before (rand : Option Int → Nat → A) (s : Int) (ws : List (Worker V)) (taken : List Gen) (ids : List Nat)
    (hids : ∀ i ∈ ids, i < ws.length) :
    samples rand .dummy (seedInt .dummy none s ws) taken ids = some (seededActions rand s [] ids) := by
  refine samples_live rand s _ ids [] _ (by simpa [seedInt] using hids) ?_
  intro i hi
  simp [seedInt, Worker.seed]

example : samples (fun s k => (s, k)) .dummy (seedInt .dummy none 7 exWs) (takeSpaces exWs) [1, 1] =
    some [(some 8, 0), (some 8, 1)] := by decide +kernel

theorem samples_ws (rand : Option Int → Nat → A) {kind : Kind} (hk : kind ≠ .dummy) (ws ws' : List (Worker V)) (ids : List Nat) :
    ∀ taken : List Gen, samples rand kind ws taken ids = samples rand kind ws' taken ids := by
  induction ids with
  | nil => intro; rfl
  | cons i ids ih =>
    intro taken
    unfold samples
    cases kind with
    | dummy => exact absurd rfl hk
    | subproc =>
      unfold sample
      cases taken[i]? with
      | none => rfl
      | some g => simp only [ih]
    | ray =>
      unfold sample
      cases taken[i]? with
      | none => rfl
      | some g => simp only [ih]

/-- C217 violated: `seed` has no effect at all on the random actions of a collector that was made before, if the environments are
not in the same process. -/
theorem C217_violated (rand : Option Int → Nat → A) (kind : Kind) (hk : kind ≠ .dummy)
    (legacy : Option (Option Int → Gen → Gen)) (s : Int) (ws : List (Worker V)) (ids : List Nat) :
    samples rand kind (seedInt kind legacy s ws) (takeSpaces ws) ids = samples rand kind ws (takeSpaces ws) ids :=
  samples_ws rand hk _ _ ids _

/-- After `seed(7)` the collector made before still plays the actions of the unseeded spaces. -/
example : samples (fun s k => (s, k)) .subproc (seedInt .subproc none 7 exWs) (takeSpaces exWs) [0, 1] =
    some [(none, 0), (none, 0)] := by decide +kernel

/-- C217 for ray workers: `seed` has no effect on random actions, whenever the collector is made. -/
theorem C217_ray (rand : Option Int → Nat → A) (legacy : Option (Option Int → Gen → Gen)) (s : Int) (ws : List (Worker V))
    (ids : List Nat) :
    samples rand .ray (seedInt .ray legacy s ws) (takeSpaces (seedInt .ray legacy s ws)) ids =
      samples rand .ray ws (takeSpaces ws) ids := by
  have : takeSpaces (seedInt .ray legacy s ws) = takeSpaces ws := by
    apply List.ext_getElem
    · simp [takeSpaces, seedInt]
    · intro i h1 h2
      cases legacy <;> simp [takeSpaces, seedInt, Worker.seed]
  rw [this]
  exact samples_ws rand (by decide) _ _ ids _

/-- C217 for environments with a method `seed` of their own that does not touch the action space: in the same process random actions are as
without that method; in subprocesses `seed` has no effect on them, whenever the collector is made. -/
theorem C217_method (rand : Option Int → Nat → A) (s : Int) (ws : List (Worker V)) (ids : List Nat) :
    ((∀ i ∈ ids, i < ws.length) → samples rand .dummy (seedInt .dummy (some fun _ g => g) s ws)
        (takeSpaces (seedInt .dummy (some fun _ g => g) s ws)) ids = some (seededActions rand s [] ids)) ∧
      samples rand .subproc (seedInt .subproc (some fun _ g => g) s ws) (takeSpaces (seedInt .subproc (some fun _ g => g) s ws)) ids =
        samples rand .subproc ws (takeSpaces ws) ids := by
  constructor
  · intro hids
    refine samples_live rand s _ ids [] _ (by simpa [seedInt] using hids) ?_
    intro i hi
    simp [seedInt, Worker.seed]
  · have : takeSpaces (seedInt .subproc (some fun _ g => g) s ws) = takeSpaces ws := by
      apply List.ext_getElem
      · simp [takeSpaces, seedInt]
      · intro i h1 h2
        simp [takeSpaces, seedInt, Worker.seed]
    rw [this]
    exact samples_ws rand (by decide) _ _ ids _

/-- With such a method the spaces in subprocesses stay unseeded. -/
example : samples (fun s k => (s, k)) .subproc (seedInt .subproc (some fun _ g => g) 7 exWs)
      (takeSpaces (seedInt .subproc (some fun _ g => g) 7 exWs)) [0, 1] = some [(none, 0), (none, 0)] ∧
    samples (fun s k => (s, k)) .dummy (seedInt .dummy (some fun _ g => g) 7 exWs) [] [0, 1, 1] =
      some [(some 7, 0), (some 8, 0), (some 8, 1)] := by decide +kernel

/-- C217: what `seed` does seed outside the same process are the workers' own copies of the action spaces, `worker.action_space`, each from the start with `s + i`
(also for ray workers and for environments with a method `seed`). -/
theorem C217_copies (kind : Kind) (hk : kind ≠ .dummy) (legacy : Option (Option Int → Gen → Gen)) (s : Int) (ws : List (Worker V)) (i : Nat)
    (hi : i < ws.length) : ((seedInt kind legacy s ws)[i]?).map (fun w => w.own) = some ⟨some (s + i), 0⟩ := by
  have h : ws[i]? = some ws[i] := List.getElem?_eq_getElem hi
  cases kind with
  | dummy => exact absurd rfl hk
  | subproc => cases legacy <;> simp [seedInt, Worker.seed, h]
  | ray => cases legacy <;> simp [seedInt, Worker.seed, h]

example : (seedInt .ray none 7 exWs).map (fun w => (w.own, w.env.space)) = [(⟨some 7, 0⟩, ⟨none, 0⟩), (⟨some 8, 0⟩, ⟨none, 0⟩)] := by
  decide +kernel

theorem samples_congr (rand : Option Int → Nat → A) (ids : List Nat) :
    ∀ (ws ws' : List (Worker V)) (taken taken' : List Gen), ws.map (fun w => w.env.space) = ws'.map (fun w => w.env.space) →
      samples rand .dummy ws taken ids = samples rand .dummy ws' taken' ids := by
  induction ids with
  | nil => intros; rfl
  | cons i ids ih =>
    intro ws ws' taken taken' h
    have hi := congrArg (fun l : List Gen => l[i]?) h
    simp only [List.getElem?_map] at hi
    unfold samples sample
    cases h1 : ws[i]? with
    | none =>
      cases h2 : ws'[i]? with
      | none => rfl
      | some w' => rw [h1, h2] at hi; cases hi
    | some w =>
      cases h2 : ws'[i]? with
      | none => rw [h1, h2] at hi; cases hi
      | some w' =>
        rw [h1, h2] at hi
        simp only [Option.map_some, Option.some.injEq] at hi
        simp only [hi]
        rw [ih]
        rw [List.map_set, List.map_set, h]

/-- C217 for `reset(seed=s)`: whichever the kind of the vector environment, all environments are reset with the seed `s`, and
random actions do not depend on it. -/
theorem C217_reset (rand : Option Int → Nat → A) (kind : Kind) (s : Int) (ws : List (Worker V)) (ids : List Nat) :
    (resetInt kind s ws).map (fun w => w.env.resets) = ws.map (fun w => w.env.resets ++ [some s]) ∧
    samples rand kind (resetInt kind s ws) (takeSpaces (resetInt kind s ws)) ids =
      samples rand kind ws (takeSpaces ws) ids := by
  have ht : takeSpaces (resetInt kind s ws) = takeSpaces ws := by
    unfold takeSpaces resetInt
    rw [List.map_map]
    apply List.map_congr_left
    intro w _
    cases kind <;> rfl
  constructor
  · unfold resetInt
    rw [List.map_map]
    apply List.map_congr_left
    intro w _
    cases kind <;> rfl
  · by_cases hd : kind = .dummy
    · subst hd
      exact samples_congr rand ids _ _ _ _ ht
    · rw [ht]
      exact samples_ws rand hd _ _ ids _

/-- After `reset(seed=3)` the action spaces are still unseeded. -/
example : samples (fun s k => (s, k)) .dummy (resetInt .dummy 3 exWs) (takeSpaces (resetInt .dummy 3 exWs)) [0] =
    some [(none, 0)] := by decide +kernel

end Verif.EnvAttr
