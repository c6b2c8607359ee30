import Verif.Lemmas.ShMem

/-!
C209: sharing memory with the processes of the environments does not change the results of a vector environment.
C210: observations returned by a vector environment keep their values.
-/

namespace Verif.ShMem

variable {V σ A R : Type}

/-- An environment that counts: a command adds to its counter; the observation is a dictionary with an array and a nested
dictionary, in another order than in the space. -/
def exRun (c x : Nat) : Nat × Tree (Value Nat) × Nat :=
  (x + c, .dict (.cons "pos" (.dict (.cons "x" (.leaf (.array [1] [x + c])) .nil))
    (.cons "map" (.leaf (.array [1, 2] [x, c])) .nil)), 10 * x)

/-- The space of its observations. -/
def exSpace : Tree Space :=
  .dict (.cons "map" (.leaf (.box [1, 2])) (.cons "pos" (.dict (.cons "x" (.leaf (.box [1])) .nil)) .nil))

/-! ### C209 -/

/-- **C209 (partial).** If all observations are arrays or nested dictionaries of arrays, as the space announces, then any
sequence of calls returns the same with and without shared memory. Missing: spaces with `Discrete` parts (`C209_violated`)
and calls that name an environment twice (`C209_duplicate_violated`). -/
theorem C209_transparent_partial (run : A → σ → σ × Tree (Value V) × R) (zero : V) (space : Tree Space) (hb : Boxes space)
    (hin : ∀ c x, InSpace space (run c x).2.1) (envs : List σ) (h : List (List (Nat × A))) (hc : Calls envs.length h) :
    ∃ a b, results run h (envs.map (Worker.new true zero space)) = some a ∧
      results run h (envs.map (Worker.new false zero space)) = some b ∧
      List.Forall₂ (List.Forall₂ fun p q => p.2 = q.2 ∧ ∃ o o', p.1 = some o ∧ q.1 = some o' ∧ Same o o') a b := by
  have main : ∀ (h : List (List (Nat × A))) (ws vs : List (Worker σ V)), List.Forall₂ (Rel space) ws vs →
      Calls ws.length h → ∃ a b, results run h ws = some a ∧ results run h vs = some b ∧
      List.Forall₂ (List.Forall₂ fun p q => p.2 = q.2 ∧ ∃ o o', p.1 = some o ∧ q.1 = some o' ∧ Same o o') a b := by
    intro h
    induction h with
    | nil => intro ws vs _ _; exact ⟨[], [], rfl, rfl, .nil⟩
    | cons c t ih =>
      intro ws vs hr hc
      obtain ⟨hn, hi⟩ := hc c (by simp)
      obtain ⟨ws', vs', p, q, h1, h2, h3, _, h5⟩ := handleAll_both run hb hin c ws vs hr hn hi
      have hlen : ws'.length = ws.length :=
        (handleAll_inv run (fun _ => True) (fun _ => True) (fun _ _ _ _ _ _ _ => ⟨trivial, trivial⟩) c ws ws' p
          (fun _ _ => trivial) h1).1
      obtain ⟨a, b, ha, hb', hab⟩ := ih ws' vs' h3 (fun c hcm => by rw [hlen]; exact hc c (by simp [hcm]))
      refine ⟨(p.map fun q => ((recvObs q.1 q.2.1).look ws', q.2.2)) :: a,
        (q.map fun q => ((recvObs q.1 q.2.1).look vs', q.2.2)) :: b, ?_, ?_, .cons ?_ hab⟩
      · simp only [results, call, h1, Option.map_some, ha, call_look]
      · simp only [results, call, h2, Option.map_some, hb', call_look]
      · rw [List.forall₂_map_left_iff, List.forall₂_map_right_iff]
        refine h5.imp fun x y hxy => ?_
        obtain ⟨_, e2, e3, o, w, m, e4, e5, e6, e7⟩ := hxy
        refine ⟨e3, decode m, o, ?_, ?_, e7⟩
        · simp [e2, recvObs, Ret.look, e5, e6]
        · simp [e4, recvObs, Ret.look]
  refine main h _ _ ?_ (by rw [List.length_map]; exact hc)
  rw [List.forall₂_map_left_iff, List.forall₂_map_right_iff]
  exact List.forall₂_same.mpr fun x _ => ⟨rfl, rfl, _, rfl, setup_fits zero hb⟩

/-- The space of the example has no `Discrete` parts. -/
theorem exSpace_boxes : Boxes exSpace := by
  refine .dict (by decide) fun k s h => ?_
  simp only [Forest.items, List.mem_cons, Prod.mk.injEq, List.not_mem_nil, or_false] at h
  rcases h with ⟨rfl, rfl⟩ | ⟨rfl, rfl⟩
  · exact .box _
  · refine .dict (by decide) fun k s h => ?_
    simp only [Forest.items, List.mem_cons, Prod.mk.injEq, List.not_mem_nil, or_false] at h
    obtain ⟨rfl, rfl⟩ := h
    exact .box _

/-- The observations of the example belong to its space. -/
theorem exRun_space (c x : Nat) : InSpace exSpace (exRun c x).2.1 := by
  refine .dict (by simp [Forest.keys, Forest.items]) (fun k => ?_) fun k s o h h' => ?_
  · simp [Forest.keys, Forest.items, or_comm]
  · simp only [Forest.items, List.mem_cons, Prod.mk.injEq, List.not_mem_nil, or_false] at h h'
    rcases h with ⟨rfl, rfl⟩ | ⟨rfl, rfl⟩ <;> rcases h' with ⟨h1, rfl⟩ | ⟨h1, rfl⟩
    · simp at h1
    · exact .box _ _ rfl
    · refine .dict (by simp [Forest.keys, Forest.items]) (fun k => ?_) fun k s o h h' => ?_
      · simp [Forest.keys, Forest.items]
      · simp only [Forest.items, List.mem_cons, Prod.mk.injEq, List.not_mem_nil, or_false] at h h'
        obtain ⟨rfl, rfl⟩ := h
        obtain ⟨_, rfl⟩ := h'
        exact .box _ _ rfl
    · simp at h1

/-- Three environments, a call to two of them and one to all. -/
example : Calls [5, 6, 7].length [[(2, 1), (0, 2)], [(0, 1), (1, 1), (2, 1)]] := by
  unfold Calls; decide

example : (results exRun [[(2, 1), (0, 2)], [(0, 1), (1, 1), (2, 1)]] ([5, 6, 7].map (Worker.new true 0 exSpace))).map
    (fun l => l.map fun r => r.map Prod.snd) = some [[70, 50], [70, 60, 80]] := by decide +kernel

/-- **C209 is violated** by every environment with a `Discrete` observation space (whose observations are numbers): with shared
memory all calls return the observation 0, whatever the environment says. -/
theorem C209_violated (run : A → σ → σ × Tree (Value V) × R) (zero : V) (hin : ∀ c x, InSpace (.leaf .discrete) (run c x).2.1)
    (envs : List σ) (h : List (List (Nat × A))) (hc : Calls envs.length h) :
    ∃ a, results run h (envs.map (Worker.new true zero (.leaf .discrete))) = some a ∧ a.length = h.length ∧
      ∀ l ∈ a, ∀ p ∈ l, p.1 = some (.leaf (.array [] [zero])) := by
  have one : ∀ (c : List (Nat × A)) (ws : List (Worker σ V)),
      (∀ w ∈ ws, w.memory = some (.leaf ⟨[], [zero]⟩)) → (∀ p ∈ c, p.1 < ws.length) →
      ∃ ws' r, handleAll run c ws = some (ws', r) ∧ ws'.length = ws.length ∧
        (∀ w ∈ ws', w.memory = some (.leaf ⟨[], [zero]⟩)) ∧ ∀ q ∈ r, q.1 < ws.length ∧ q.2.1 = none := by
    intro c
    induction c with
    | nil => intro ws hw _; exact ⟨ws, [], rfl, rfl, hw, by simp⟩
    | cons x t ih =>
      intro ws hw hi
      obtain ⟨i, x⟩ := x
      have hi0 : i < ws.length := hi (i, x) (by simp)
      have hm := hw ws[i] (List.getElem_mem hi0)
      have he : encode (run x ws[i].env).2.1 (.leaf ⟨[], [zero]⟩) = some (.leaf ⟨[], [zero]⟩) := by
        have := hin x ws[i].env
        generalize (run x ws[i].env).2.1 = o at this
        cases this
        rfl
      obtain ⟨ws', r, h1, h2, h3, h4⟩ := ih (ws.set i ⟨(run x ws[i].env).1, some (.leaf ⟨[], [zero]⟩)⟩)
        (fun w hwm => by
          rcases List.mem_or_eq_of_mem_set hwm with h | h
          · exact hw w h
          · rw [h])
        (fun p hp => by rw [List.length_set]; exact hi p (by simp [hp]))
      refine ⟨ws', (i, none, (run x ws[i].env).2.2) :: r, ?_, by rw [h2, List.length_set], h3, ?_⟩
      · simp only [handleAll, List.getElem?_eq_getElem hi0, Worker.handle, hm, he, Option.map_some, h1]
      · intro q hq
        rcases List.mem_cons.mp hq with rfl | hq
        · exact ⟨hi0, rfl⟩
        · have := h4 q hq
          rw [List.length_set] at this
          exact this
  have main : ∀ (h : List (List (Nat × A))) (ws : List (Worker σ V)), (∀ w ∈ ws, w.memory = some (.leaf ⟨[], [zero]⟩)) →
      Calls ws.length h → ∃ a, results run h ws = some a ∧ a.length = h.length ∧
      ∀ l ∈ a, ∀ p ∈ l, p.1 = some (.leaf (.array [] [zero])) := by
    intro h
    induction h with
    | nil => intro ws _ _; exact ⟨[], rfl, rfl, by simp⟩
    | cons c t ih =>
      intro ws hw hc
      obtain ⟨ws', r, h1, h2, h3, h4⟩ := one c ws hw (hc c (by simp)).2
      obtain ⟨a, ha, hl, hp⟩ := ih ws' h3 (fun c hcm => by rw [h2]; exact hc c (by simp [hcm]))
      refine ⟨(r.map fun q => ((recvObs q.1 q.2.1).look ws', q.2.2)) :: a, ?_, by simp [hl], ?_⟩
      · simp only [results, call, h1, Option.map_some, ha, call_look]
      · intro l hlm p hpm
        rcases List.mem_cons.mp hlm with rfl | hlm
        · obtain ⟨q, hq, rfl⟩ := List.mem_map.mp hpm
          obtain ⟨hq1, hq2⟩ := h4 q hq
          have hq3 : q.1 < ws'.length := h2 ▸ hq1
          have := h3 ws'[q.1] (List.getElem_mem hq3)
          simp [hq2, recvObs, Ret.look, List.getElem?_eq_getElem hq3, this, decode]
        · exact hp l hlm p hpm
  refine main h _ (fun w hw => ?_) (by rw [List.length_map]; exact hc)
  obtain ⟨x, _, rfl⟩ := List.mem_map.mp hw
  rfl

/-- An environment with numbers as observations: without shared memory one gets them, with it only zeros. -/
example : results (fun c x : Nat => (x + c, Tree.leaf (Value.number (x + c)), ())) [[(0, 1), (1, 1)], [(1, 2)]]
      ([3, 8].map (Worker.new false 0 (.leaf .discrete))) =
        some [[(some (.leaf (.number 4)), ()), (some (.leaf (.number 9)), ())], [(some (.leaf (.number 11)), ())]] ∧
    results (fun c x : Nat => (x + c, Tree.leaf (Value.number (x + c)), ())) [[(0, 1), (1, 1)], [(1, 2)]]
      ([3, 8].map (Worker.new true 0 (.leaf .discrete))) =
        some [[(some (.leaf (.array [] [0])), ()), (some (.leaf (.array [] [0])), ())], [(some (.leaf (.array [] [0])), ())]] :=
  ⟨rfl, rfl⟩

/-- **C209 is violated** by calls that name an environment twice: the first result has the observation of the second. -/
theorem C209_duplicate_violated : ∃ (run : Nat → Nat → Nat × Tree (Value Nat) × Unit),
    (∀ c x, InSpace (.leaf (.box [1])) (run c x).2.1) ∧
    results run [[(0, 1), (0, 2)]] ([3].map (Worker.new false 0 (.leaf (.box [1])))) =
      some [[(some (.leaf (.array [1] [4])), ()), (some (.leaf (.array [1] [6])), ())]] ∧
    results run [[(0, 1), (0, 2)]] ([3].map (Worker.new true 0 (.leaf (.box [1])))) =
      some [[(some (.leaf (.array [1] [6])), ()), (some (.leaf (.array [1] [6])), ())]] :=
  ⟨fun c x => (x + c, .leaf (.array [1] [x + c]), ()), fun c x => .box _ _ rfl, rfl, rfl⟩

/-! ### C210 -/

/-- **C210 (partial).** Without shared memory the observations returned by a call, whenever it is made, look the same after
any further calls. -/
theorem C210_plain (run : A → σ → σ × Tree (Value V) × R) (zero : V) (space : Tree Space) (envs : List σ)
    (before later : List (List (Nat × A))) (c : List (Nat × A)) (ws ws' ws'' : List (Worker σ V)) (rows : List (Ret V × R))
    (h1 : after run before (envs.map (Worker.new false zero space)) = some ws) (h2 : call run c ws = some (ws', rows))
    (_h3 : after run later ws' = some ws'') (row : Ret V × R) (hr : row ∈ rows) :
    ∃ o, row.1.look ws' = some o ∧ row.1.look ws'' = some o := by
  have hstep : ∀ (w : Worker σ V) c w' o r, w.memory = none → w.handle run c = some (w', o, r) →
      w'.memory = none ∧ ∃ x, o = some x := by
    intro w c w' o r hm h
    unfold Worker.handle at h
    rw [hm] at h
    simp only [Option.some.injEq, Prod.mk.injEq] at h
    obtain ⟨a, b, _⟩ := h
    exact ⟨by rw [← a], _, b.symm⟩
  have hw := after_inv run _ _ hstep before _ _ (fun w hw => by
    obtain ⟨x, _, rfl⟩ := List.mem_map.mp hw
    rfl) h1
  obtain ⟨_, rep, _, hrows, hq, _⟩ := call_inv run _ _ hstep c ws ws' rows hw h2
  rw [hrows] at hr
  obtain ⟨o, ho⟩ := stack_own ws' _ (fun r hr => by
    obtain ⟨q, hqm, rfl⟩ := List.mem_map.mp hr
    obtain ⟨x, hx⟩ := (hq q hqm).2
    exact ⟨x, by rw [hx]; rfl⟩) row.1 (List.of_mem_zip hr).1
  rw [ho]
  exact ⟨o, rfl, rfl⟩

/-- **C210 (partial).** With shared memory and arrays as observations, likewise. Missing: dictionaries with shared memory
(`C210_latest`, `C210_violated`). -/
theorem C210_box_partial (run : A → σ → σ × Tree (Value V) × R) (zero : V) (shape : List Nat)
    (hin : ∀ c x, InSpace (.leaf (.box shape)) (run c x).2.1) (envs : List σ)
    (before later : List (List (Nat × A))) (c : List (Nat × A)) (ws ws' ws'' : List (Worker σ V)) (rows : List (Ret V × R))
    (h1 : after run before (envs.map (Worker.new true zero (.leaf (.box shape)))) = some ws)
    (h2 : call run c ws = some (ws', rows)) (_h3 : after run later ws' = some ws'') (row : Ret V × R) (hr : row ∈ rows) :
    ∃ o, row.1.look ws' = some o ∧ row.1.look ws'' = some o := by
  have hstep : ∀ (w : Worker σ V) c w' o r, (∃ e, w.memory = some (.leaf ⟨shape, e⟩)) → w.handle run c = some (w', o, r) →
      (∃ e, w'.memory = some (.leaf ⟨shape, e⟩)) ∧ o = none := by
    intro w c w' o r ⟨e, hm⟩ h
    unfold Worker.handle at h
    rw [hm] at h
    simp only [Option.map_eq_some_iff, Prod.mk.injEq] at h
    obtain ⟨m', he, a, b, _⟩ := h
    have := hin c w.env
    generalize (run c w.env).2.1 = ob at this he
    cases this with
    | box _ en size =>
      simp only [encode, ShArray.save, if_true, Option.map_some, Option.some.injEq] at he
      exact ⟨⟨en, by rw [← a, ← he]⟩, b.symm⟩
  have hw := after_inv run _ _ hstep before _ _ (fun w hw => by
    obtain ⟨x, _, rfl⟩ := List.mem_map.mp hw
    exact ⟨_, rfl⟩) h1
  obtain ⟨hw', rep, _, hrows, hq, _⟩ := call_inv run _ _ hstep c ws ws' rows hw h2
  rw [hrows] at hr
  obtain ⟨o, ho⟩ := stack_arrays ws' shape _ (fun r hr => by
    obtain ⟨q, hqm, rfl⟩ := List.mem_map.mp hr
    obtain ⟨hlt, hnone⟩ := hq q hqm
    obtain ⟨e, he⟩ := hw' ws'[q.1] (List.getElem_mem hlt)
    exact ⟨e, by simp [hnone, recvObs, Ret.look, List.getElem?_eq_getElem hlt, he, decode]⟩) row.1 (List.of_mem_zip hr).1
  rw [ho]
  exact ⟨o, rfl, rfl⟩

/-- Arrays, shared memory, and calls before and after. -/
example : ((after (fun c x : Nat => (x + c, Tree.leaf (Value.array [1] [x + c]), ())) [[(0, 1), (1, 1)]]
      ([3, 8].map (Worker.new true 0 (.leaf (.box [1]))))).bind fun ws =>
    (call (fun c x : Nat => (x + c, Tree.leaf (Value.array [1] [x + c]), ())) [(1, 5)] ws).bind fun p =>
    (after (fun c x : Nat => (x + c, Tree.leaf (Value.array [1] [x + c]), ())) [[(0, 1), (1, 1)]] p.1).map fun ws'' =>
      (p.2.map fun r => (r.1.look p.1, r.1.look ws''))) =
    some [(some (.leaf (.array [1] [14])), some (.leaf (.array [1] [14])))] := by decide +kernel

/-- With dictionaries and shared memory the workers keep a dictionary. -/
theorem dict_step (run : A → σ → σ × Tree (Value V) × R) (w : Worker σ V) (c : A) (w' : Worker σ V)
    (o : Option (Tree (Value V))) (r : R) (hm : ∃ g, w.memory = some (.dict g)) (h : w.handle run c = some (w', o, r)) :
    (∃ g, w'.memory = some (.dict g)) ∧ o = none := by
  obtain ⟨g, hm⟩ := hm
  unfold Worker.handle at h
  rw [hm] at h
  simp only [Option.map_eq_some_iff, Prod.mk.injEq] at h
  obtain ⟨m', he, a, b, _⟩ := h
  refine ⟨?_, b.symm⟩
  generalize (run c w.env).2.1 = ob at he
  rw [← a]
  cases ob with
  | leaf v =>
    have hu : encode (.leaf v) (.dict g) = some (.dict g) := by cases v <;> rfl
    rw [hu] at he
    exact ⟨g, he.symm⟩
  | dict f =>
    simp only [encode, Option.map_eq_some_iff] at he
    obtain ⟨g', _, he⟩ := he
    exact ⟨g', by rw [← he]⟩

/-- With dictionaries and shared memory every result consists of views. -/
theorem dict_rows (run : A → σ → σ × Tree (Value V) × R) (c : List (Nat × A)) (ws ws' : List (Worker σ V))
    (rows : List (Ret V × R)) (hw : ∀ w ∈ ws, ∃ g, w.memory = some (.dict g)) (h : call run c ws = some (ws', rows)) :
    (∀ w ∈ ws', ∃ g, w.memory = some (.dict g)) ∧ ∀ i ∈ c.map Prod.fst, i < ws'.length ∧
      ∀ (p : Nat) (x : A), c[p]? = some (i, x) → ∃ r, rows[p]? = some (.views i, r) := by
  obtain ⟨hw', rep, _, hrows, hq, hids⟩ := call_inv run _ _ (dict_step run) c ws ws' rows hw h
  refine ⟨hw', fun i hi => ?_⟩
  have hlt : i < ws'.length := by
    rw [← hids] at hi
    obtain ⟨q, hqm, rfl⟩ := List.mem_map.mp hi
    exact (hq q hqm).1
  refine ⟨hlt, fun p x hp => ?_⟩
  have hs : stack ws' (rep.map fun q => recvObs q.1 q.2.1) = rep.map fun q => recvObs q.1 q.2.1 := by
    refine stack_dict ws' _ fun r hr => ?_
    obtain ⟨q, hqm, rfl⟩ := List.mem_map.mp hr
    obtain ⟨hl, hn⟩ := hq q hqm
    obtain ⟨g, hg⟩ := hw' ws'[q.1] (List.getElem_mem hl)
    exact ⟨decodeItems g, by simp [hn, recvObs, Ret.look, List.getElem?_eq_getElem hl, hg, decode]⟩
  have hrp : (rep.map Prod.fst)[p]? = some i := by rw [hids, List.getElem?_map, hp]; rfl
  rw [List.getElem?_map, Option.map_eq_some_iff] at hrp
  obtain ⟨q, hqp, rfl⟩ := hrp
  refine ⟨q.2.2, ?_⟩
  rw [hrows, hs, List.getElem?_zip_eq_some]
  refine ⟨?_, ?_⟩
  · rw [List.getElem?_map, hqp, Option.map_some, (hq q (List.mem_of_getElem? hqp)).2]; rfl
  · rw [List.getElem?_map, hqp]; rfl

/-- **C210 does not hold** with dictionaries and shared memory: once an environment is called again, an observation it
returned earlier shows what the later one shows. -/
theorem C210_latest (run : A → σ → σ × Tree (Value V) × R) (zero : V) (f : Forest Space) (envs : List σ)
    (before between : List (List (Nat × A))) (c d : List (Nat × A)) (ws ws' vs vs' : List (Worker σ V))
    (rows rows' : List (Ret V × R))
    (h1 : after run before (envs.map (Worker.new true zero (.dict f))) = some ws) (h2 : call run c ws = some (ws', rows))
    (h3 : after run between ws' = some vs) (h4 : call run d vs = some (vs', rows'))
    (p q i : Nat) (x y : A) (hp : c[p]? = some (i, x)) (hq : d[q]? = some (i, y)) :
    ∃ r r' o, rows[p]? = some r ∧ rows'[q]? = some r' ∧ r.1.look vs' = some o ∧ r'.1.look vs' = some o := by
  have hw := after_inv run _ _ (dict_step run) before _ _ (fun w hw => by
    obtain ⟨x, _, rfl⟩ := List.mem_map.mp hw
    exact ⟨_, rfl⟩) h1
  obtain ⟨hw', hr⟩ := dict_rows run c ws ws' rows hw h2
  have hv := after_inv run _ _ (dict_step run) between _ _ hw' h3
  obtain ⟨hv', hr'⟩ := dict_rows run d vs vs' rows' hv h4
  obtain ⟨r, hr⟩ := (hr i (List.mem_map.mpr ⟨_, List.mem_of_getElem? hp, rfl⟩)).2 p x hp
  obtain ⟨hl, hr'⟩ := hr' i (List.mem_map.mpr ⟨_, List.mem_of_getElem? hq, rfl⟩)
  obtain ⟨r', hr'⟩ := hr' q y hq
  obtain ⟨g, hg⟩ := hv' vs'[i] (List.getElem_mem hl)
  have hlook : (Ret.views i : Ret V).look vs' = some (decode (.dict g)) := by
    simp only [Ret.look, List.getElem?_eq_getElem hl, Option.bind_some, hg, Option.map_some]
  exact ⟨_, _, _, hr, hr', hlook, hlook⟩

/-- **C210 is violated** with dictionaries and shared memory: the observation of the environment with counter 5 after adding 2
changes when it is called again. -/
theorem C210_violated : ∃ ws ws' rows rows' r, call exRun [(0, 2)] ([5, 6].map (Worker.new true 0 exSpace)) = some (ws, rows) ∧
    call exRun [(1, 1), (0, 3)] ws = some (ws', rows') ∧ rows[0]? = some r ∧
    r.1.look ws = some (.dict (.cons "map" (.leaf (.array [1, 2] [5, 2]))
      (.cons "pos" (.dict (.cons "x" (.leaf (.array [1] [7])) .nil)) .nil))) ∧
    r.1.look ws' = some (.dict (.cons "map" (.leaf (.array [1, 2] [7, 3]))
      (.cons "pos" (.dict (.cons "x" (.leaf (.array [1] [10])) .nil)) .nil))) := by
  refine ⟨_, _, _, _, _, rfl, rfl, rfl, ?_, ?_⟩ <;> decide +kernel

end Verif.ShMem
