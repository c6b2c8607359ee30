import Verif.Props.CollectorUnseen
import Mathlib.Algebra.BigOperators.Fin
import Mathlib.Algebra.BigOperators.Ring.Finset
import Mathlib.Algebra.BigOperators.Group.Finset.Sigma
import Mathlib.Logic.Equiv.Prod
import Mathlib.Logic.Equiv.Basic
import Mathlib.Data.Fintype.Pi
import Mathlib.Data.Fintype.BigOperators
import Mathlib.Data.Rat.Defs
import Mathlib.Algebra.Order.Field.Rat
import Mathlib.Algebra.Order.BigOperators.Group.Finset
import Mathlib.Algebra.BigOperators.Field
import Mathlib.Tactic.FieldSimp
import Mathlib.Tactic.Ring
import Mathlib.Tactic.Linarith

/-!
# The mean return of a collection is unbiased (property C294)

`collect(n_episode=n)` reports the mean return of the episodes it takes (tianshou/data/collector.py:1040-1061); tests rely on it. With random environments, this is a mean of a
random selection of episodes, since the environments with short episodes contribute more of them. On average over everything random in the environments it is nevertheless the mean
return of an episode.
-/

namespace Verif.Collector

set_option linter.unusedSectionVars false

variable {σ A O I H Ω : Type}

/-! ### Specification -/

/-- An environment that takes from a list, at each reset, what is random in the next episode (the seed of it). `init` and `step` are the episode for a given seed. -/
def taped (init : Ω → σ × O × I) (step : σ → A → σ × StepOut O Rat I) (d : Ω) : Env (σ × List Ω) A O Rat I Unit where
  step := fun s a => (((step s.1 a).1, s.2), (step s.1 a).2)
  reset := fun _ s => (((init (s.2.headD d)).1, s.2.tail), (init (s.2.headD d)).2)

/-- The sum of a quantity `q` (the reward; or 1, for the length) over the rest of an episode in the state `x` with the observation `o`, if the action for an observation is given by
`act`. -/
inductive Rolls (step : σ → A → σ × StepOut O Rat I) (q : StepOut O Rat I → Rat) (act : O → A) : σ → O → Rat → Prop
  | last (x : σ) (o : O) (h : (step x (act o)).2.ended = true) : Rolls step q act x o (q (step x (act o)).2)
  | more (x : σ) (o : O) (g : Rat) (h : (step x (act o)).2.ended = false) (hr : Rolls step q act (step x (act o)).1 (step x (act o)).2.obs g) :
      Rolls step q act x o (q (step x (act o)).2 + g)

/-- The sum over stored transitions. -/
def total (q : StepOut O Rat I → Rat) (rows : List (Row O A Rat I)) : Rat := (rows.map fun r => q r.out).sum

/-- The seeds `w (e, 0)`, `w (e, 1)`, ... of the environment `e`. -/
def tape {E N : Nat} (w : Fin E × Fin N → Ω) (e : Nat) : List Ω := if h : e < E then List.ofFn fun k => w (⟨e, h⟩, k) else []

/-- A new collector after `reset`, if the environments have these seeds. -/
def seeded {E N : Nat} (c : Cfg (σ × List Ω) A O Rat I H Unit) (x0 : σ) (mem : Nat → O) (w : Fin E × Fin N → Ω) : Col (σ × List Ω) A O Rat I H :=
  reset c false false () { world := ⟨fun e => (x0, tape w e), mem⟩ }

/-! ### Lemmas: averages -/

/-- The chance of all seeds together, if they are independent and each has the chances `ρ`. -/
theorem sum_chances {ι : Type} [Fintype ι] [DecidableEq ι] [Fintype Ω] (ρ : Ω → Rat) (hρ : ∑ v, ρ v = 1) : ∑ w : ι → Ω, ∏ i, ρ (w i) = 1 := by
  classical
  have h := Finset.sum_prod_piFinset (ι := ι) (Finset.univ : Finset Ω) fun _ v => ρ v
  rw [Fintype.piFinset_univ] at h
  rw [h, Finset.prod_congr rfl fun _ _ => hρ, Finset.prod_const_one]

/-- A choice that does not look at the coordinate `i` does not change its mean. -/
theorem sum_unseen {ι : Type} [Fintype ι] [DecidableEq ι] [Fintype Ω] (i : ι) (p : (ι → Ω) → Prop) [DecidablePred p] (ρ f : Ω → Rat)
    (hf : ∑ v, ρ v * f v = 0) (hp : ∀ w w', (∀ j, j ≠ i → w j = w' j) → (p w ↔ p w')) :
    ∑ w : ι → Ω, (∏ j, ρ (w j)) * (if p w then f (w i) else 0) = 0 := by
  rw [← (Equiv.funSplitAt i Ω).symm.sum_comp, Fintype.sum_prod_type_right]
  refine Finset.sum_eq_zero fun r _ => ?_
  have hsplit : ∀ v, ∏ j, ρ ((Equiv.funSplitAt i Ω).symm (v, r) j) = ρ v * ∏ j : { j // j ≠ i }, ρ (r j) := by
    intro v
    rw [Fintype.prod_eq_mul_prod_subtype_ne _ i]
    congr 1
    · simp [Equiv.funSplitAt, Equiv.piSplitAt]
    · refine Finset.prod_congr rfl fun j _ => ?_
      simp [Equiv.funSplitAt, Equiv.piSplitAt, j.2]
  by_cases h : ∃ v, p ((Equiv.funSplitAt i Ω).symm (v, r))
  · obtain ⟨v, hv⟩ := h
    have hterm : ∀ u, (∏ j, ρ ((Equiv.funSplitAt i Ω).symm (u, r) j)) *
        (if p ((Equiv.funSplitAt i Ω).symm (u, r)) then f ((Equiv.funSplitAt i Ω).symm (u, r) i) else 0) =
        (∏ j : { j // j ≠ i }, ρ (r j)) * (ρ u * f u) := by
      intro u
      rw [if_pos, hsplit]
      · have : (Equiv.funSplitAt i Ω).symm (u, r) i = u := by simp [Equiv.funSplitAt, Equiv.piSplitAt]
        rw [this]
        ring
      · refine (hp _ _ fun j hj => ?_).1 hv
        simp [Equiv.funSplitAt, Equiv.piSplitAt, hj]
    rw [Finset.sum_congr rfl fun u _ => hterm u, ← Finset.mul_sum, hf, mul_zero]
  · refine Finset.sum_eq_zero fun u _ => ?_
    rw [if_neg fun hu => h ⟨u, hu⟩, mul_zero]

/-! ### Lemmas: returns -/

variable (init : Ω → σ × O × I) (step : σ → A → σ × StepOut O Rat I) (q : StepOut O Rat I → Rat) (d : Ω) (act : O → A) (G : Ω → Rat)

/-- What is known about the environment `e` with the seeds `t` during a collection. -/
structure Paid (t : List Ω) (e : Nat) (new : List (List (Nat × Row O A Rat I))) (x : Loop (σ × List Ω) A O Rat I H) : Prop where
  on : e ∈ x.ready → ∃ y o g, x.world.envs e = (y, t.drop (episodesOf e new + 1)) ∧ (∀ j : Nat, x.ready[j]? = some e → x.lastObs[j]? = some (.val o)) ∧
    Rolls step q act y o g ∧ total q (rowsOf e new) + g = ((List.range (episodesOf e new + 1)).map fun j => G (t.getD j d)).sum
  off : e ∉ x.ready → total q (rowsOf e new) = ((List.range (episodesOf e new)).map fun j => G (t.getD j d)).sum

theorem headD_drop (t : List Ω) (k : Nat) : (t.drop k).headD d = t.getD k d := by
  rw [List.headD_eq_head?_getD, List.head?_drop, List.getD_eq_getElem?_getD]

theorem Paid.next {c : Cfg (σ × List Ω) A O Rat I H Unit} (henv : c.env = taped init step d) (hshare : c.share = false) (hnoise : c.noise = false)
    (hact : ∀ k obs info h, (c.policy.forward k obs info h).1.map c.policy.mapAction = obs.map act)
    (hG : ∀ v, Rolls step q act (init v).1 (init v).2.1 (G v)) {n : Option Int} {t : List Ω} {e : Nat}
    {new : List (List (Nat × Row O A Rat I))} {x x' : Loop (σ × List Ω) A O Rat I H} (hx : Paid step q d act G t e new x)
    (hn : x.ready.Nodup) {ent : List (Row O A Rat I)} (hr : Round c n false () x x' ent) :
    Paid step q d act G t e (new ++ [x.ready.zip ent]) x' := by
  by_cases he : e ∈ x.ready
  swap
  · have h0 : rowsOf e [x.ready.zip ent] = [] := rowsOf_zip_none e _ _ he
    have h1 : episodesOf e [x.ready.zip ent] = 0 := by unfold episodesOf; rw [h0]; rfl
    refine ⟨fun h => absurd (hr.sub.subset h) he, fun _ => ?_⟩
    rw [episodesOf_append, rowsOf_append, h0, h1, List.append_nil, Nat.add_zero]
    exact hx.off he
  obtain ⟨y, o, g, h1, h2, h3, h4⟩ := hx.on he
  obtain ⟨i, hi⟩ := getElem?_mem_idx he
  have hl : i < ent.length := by rw [hr.len]; exact getElem?_some_lt hi
  have hrow : ent[i]? = some ent[i] := List.getElem?_eq_getElem hl
  generalize ent[i] = row at hrow
  have happ : row.applied = act o := by
    have ha := congrArg (fun l => l[i]?) hr.applied
    simp only [List.getElem?_map, hrow, Option.map_some] at ha
    simp only [decide, Bool.false_eq_true, if_false, hnoise, hact] at ha
    rw [List.getElem?_map, List.getElem?_map, h2 i hi] at ha
    simpa [Cell.read] using ha
  obtain ⟨z, hstep, hgo, hend⟩ := hr.moved i e row hi hrow
  have hz : rowsOf e [x.ready.zip ent] = [row] := rowsOf_zip e _ _ hn i _ hi hrow
  rw [h1, happ, henv] at hstep
  simp only [taped, Prod.mk.injEq] at hstep
  obtain ⟨hz1, hz2⟩ := hstep
  have hrew : total q (rowsOf e (new ++ [x.ready.zip ent])) = total q (rowsOf e new) + q row.out := by
    rw [rowsOf_append, hz]
    simp [total]
  cases h3 with
  | last _ _ hended =>
    rw [hz2] at hended h4
    have hcount : episodesOf e (new ++ [x.ready.zip ent]) = episodesOf e new + 1 := by
      rw [episodesOf_append]
      congr 1
      unfold episodesOf
      rw [hz, List.filter_cons_of_pos (by exact hended)]
      rfl
    obtain ⟨z', o', inf, q1, q2, q3⟩ := hend hended
    rw [henv, ← hz1] at q1
    simp only [taped, headD_drop, List.tail_drop, Prod.mk.injEq] at q1
    obtain ⟨q11, q12⟩ := q1
    refine ⟨fun he' => ⟨(init (t.getD (episodesOf e new + 1) d)).1, o', G (t.getD (episodesOf e new + 1) d), ?_, ?_, ?_, ?_⟩, fun _ => ?_⟩
    · rw [q2, hcount, ← q11]
    · intro j hj
      have := (q3 j hj).1
      rwa [Cfg.cell, hshare] at this
    · have := hG (t.getD (episodesOf e new + 1) d)
      rw [q12] at this
      exact this
    · rw [hrew, hcount, h4, List.range_succ (n := episodesOf e new + 1), List.map_append, List.sum_append]
      simp
    · rw [hrew, hcount, h4]
  | more _ _ g hended hroll =>
    rw [hz2] at hended hroll h4
    have hcount : episodesOf e (new ++ [x.ready.zip ent]) = episodesOf e new := by
      rw [episodesOf_append]
      unfold episodesOf
      rw [hz, List.filter_cons_of_neg (by rw [show row.out.ended = false from hended]; simp)]
      rfl
    obtain ⟨q1, q2, q3⟩ := hgo hended
    refine ⟨fun he' => ⟨(step y (act o)).1, row.out.obs, g, ?_, ?_, hroll, ?_⟩, fun h => absurd q2 h⟩
    · rw [q1, hcount, ← hz1]
    · intro j hj
      have := (q3 j hj).1
      rwa [Cfg.cell, hshare] at this
    · rw [hrew, hcount, ← h4]
      ring

theorem seeded_reachable {E N : Nat} (c : Cfg (σ × List Ω) A O Rat I H Unit) (x0 : σ) (mem : Nat → O) (w : Fin E × Fin N → Ω) :
    Reachable c (seeded c x0 mem w) := .reset (.built _) false false ()

theorem seeded_log {E N : Nat} (c : Cfg (σ × List Ω) A O Rat I H Unit) (x0 : σ) (mem : Nat → O) (w : Fin E × Fin N → Ω) :
    (seeded c x0 mem w).log = [] := rfl

theorem seeded_env {E N : Nat} {c : Cfg (σ × List Ω) A O Rat I H Unit} (henv : c.env = taped init step d) (x0 : σ) (mem : Nat → O)
    (w : Fin E × Fin N → Ω) (e : Nat) (he : e < c.envNum) :
    (seeded c x0 mem w).world.envs e = ((init ((tape w e).headD d)).1, (tape w e).tail) := by
  have hi : (List.range c.envNum)[e]? = some e := by rw [List.getElem?_range he]
  have := (resetEnvs_get c.env () (List.range c.envNum) ⟨fun e => (x0, tape w e), mem⟩ List.nodup_range e e hi).2
  rw [henv] at this
  simp only [seeded, reset, resetEnv, Bool.false_eq_true, if_false, henv]
  exact this

theorem seeded_obs {E N : Nat} {c : Cfg (σ × List Ω) A O Rat I H Unit} (henv : c.env = taped init step d) (hshare : c.share = false) (x0 : σ) (mem : Nat → O)
    (w : Fin E × Fin N → Ω) (po : List (Cell O)) (hpo : (seeded c x0 mem w).preObs = some po) (e : Nat) (he : e < c.envNum) :
    po[e]? = some (.val (init ((tape w e).headD d)).2.1) := by
  have hi : (List.range c.envNum)[e]? = some e := by rw [List.getElem?_range he]
  have := (resetEnvs_get c.env () (List.range c.envNum) ⟨fun e => (x0, tape w e), mem⟩ List.nodup_range e e hi).1
  simp only [seeded, reset, resetEnv, Bool.false_eq_true, if_false, Option.some.injEq] at hpo
  rw [← hpo, List.getElem?_map]
  have hz : ((List.range c.envNum).zip (resetEnvs c.env () (List.range c.envNum) ⟨fun e => (x0, tape w e), mem⟩).2)[e]? =
      some (e, (c.env.reset () (x0, tape w e)).2) := by
    rw [List.getElem?_zip_eq_some]
    exact ⟨hi, this⟩
  rw [hz, henv]
  simp [Cfg.cell, hshare, taped]

/-- The rewards of an environment are the returns of its first episodes. -/
theorem seeded_rewards {E N : Nat} {c : Cfg (σ × List Ω) A O Rat I H Unit} (henv : c.env = taped init step d) (hshare : c.share = false)
    (hnoise : c.noise = false) (hact : ∀ k obs info h, (c.policy.forward k obs info h).1.map c.policy.mapAction = obs.map act)
    (hG : ∀ v, Rolls step q act (init v).1 (init v).2.1 (G v)) (x0 : σ) (mem : Nat → O) (w : Fin E × Fin N → Ω) (n : Int) (hn : 0 < n) (fuel : Nat)
    (s' : Col (σ × List Ω) A O Rat I H) (st : Stats) (hc : collect c none (some n) false false () fuel (seeded c x0 mem w) = some (.ok (s', st)))
    (e : Nat) (he : e < c.envNum) :
    total q (rowsOf e s'.log) = ((List.range (episodesOf e s'.log)).map fun j => G ((tape w e).getD j d)).sum := by
  obtain ⟨hn0, po, pi, l, hpo, hpi, hr, rfl, rfl⟩ := collect_episodes c n false false () fuel _ s' st hc
  obtain ⟨w1, w2⟩ := prepared_wf c false () _ (reachable_wf c _ (seeded_reachable c x0 mem w))
  have hm : (min (c.envNum : Int) n).toNat ≤ c.envNum := by omega
  have hstart := start_inv (some n) (prepared c false () (seeded c x0 mem w)) (min (c.envNum : Int) n).toNat po pi (by rw [w1 _ hpo]; exact hm) (by rw [w2 _ hpi]; exact hm)
  have hP := run_induct c none (some n) false ()
    (fun x => ∃ new, Inv (some n) (List.range (min (c.envNum : Int) n).toNat) (seeded c x0 mem w).log new x ∧ Paid step q d act G (tape w e) e new x) ?_ fuel _ l hr
    ⟨[], hstart, ?_, ?_⟩
  · obtain ⟨⟨new, hinv, hpaid⟩, hst⟩ := hP
    simp only [stops, Bool.false_or, Bool.and_eq_true, decide_eq_true_eq, ne_eq, ge_iff_le] at hst
    have hcount := hinv.count n rfl hn0 (by rw [List.length_range]; omega)
    have hempty : l.ready = [] := List.length_eq_zero_iff.1 (by omega)
    have hlog : l.log = new := by rw [hinv.log, seeded_log]; rfl
    show total q (rowsOf e l.log) = ((List.range (episodesOf e l.log)).map _).sum
    rw [hlog]
    exact hpaid.off (by rw [hempty]; simp)
  · rintro x y ⟨new, hx, hp⟩ hit
    obtain ⟨ent, hrd, hinv⟩ := hx.iter hit
    exact ⟨_, hinv, hp.next init step q d act G henv hshare hnoise hact hG hx.nodup hrd⟩
  · intro hin
    refine ⟨(init ((tape w e).headD d)).1, (init ((tape w e).headD d)).2.1, G ((tape w e).headD d), (seeded_env init step d henv x0 mem w e he).trans ?_, fun j hj => ?_, hG _, ?_⟩
    · rw [← List.drop_one]
      rfl
    · have hje : j < (min (c.envNum : Int) n).toNat := by simpa [start] using getElem?_some_lt hj
      have hj' : (List.range (min (c.envNum : Int) n).toNat)[j]? = some e := hj
      rw [List.getElem?_range hje, Option.some.injEq] at hj'
      subst hj'
      simp only [start]
      rw [filterMap_range _ _ (by rw [w1 _ hpo]; exact hm), List.getElem?_take_of_lt hje]
      exact seeded_obs init step d henv hshare x0 mem w po hpo j he
    · have := headD_drop d (tape w e) 0
      rw [List.drop_zero] at this
      rw [this]
      simp [episodesOf, rowsOf, total]
  · intro _
    simp [episodesOf, rowsOf, total]

/-- Environments with the same seeds for `k` episodes behave in the same way until these have ended. -/
theorem taped_same (k : Nat) (x : σ) (t t' : List Ω) (h : t.take (k - 1) = t'.take (k - 1)) : SameFor (taped init step d) () k (x, t) (x, t') := by
  refine ⟨fun k x y => x.1 = y.1 ∧ x.2.take (k - 1) = y.2.take (k - 1), ?_, rfl, h⟩
  rintro k ⟨x, u⟩ ⟨y, v⟩ ⟨h1, h2⟩ a
  simp only at h1 h2
  subst h1
  refine ⟨rfl, fun _ => ⟨rfl, h2⟩, fun _ hk => ?_⟩
  obtain ⟨k, rfl⟩ := Nat.exists_eq_succ_of_ne_zero hk
  simp only [Nat.succ_eq_add_one, Nat.add_sub_cancel] at h2
  simp only [taped, Nat.succ_eq_add_one, Nat.add_sub_cancel]
  cases u with
  | nil =>
    cases v with
    | nil => simp
    | cons b v => simp at h2
  | cons b u =>
    cases v with
    | nil => simp at h2
    | cons b' v =>
      simp only [List.take_succ_cons, List.cons.injEq] at h2
      obtain ⟨rfl, h2⟩ := h2
      exact ⟨rfl, rfl, h2⟩

theorem tape_get {E N : Nat} (w : Fin E × Fin N → Ω) (e : Fin E) (k : Fin N) : (tape w e).getD k d = w (e, k) := by
  simp [tape]

theorem tape_other {E N : Nat} (w w' : Fin E × Fin N → Ω) (i : Fin E × Fin N) (h : ∀ j, j ≠ i → w j = w' j) (e : Nat) (he : e ≠ i.1) : tape w e = tape w' e := by
  unfold tape
  split_ifs with hlt
  · congr 1
    funext k
    exact h _ fun hc => he (by rw [← hc])
  · rfl

theorem tape_take {E N : Nat} (w w' : Fin E × Fin N → Ω) (i : Fin E × Fin N) (h : ∀ j, j ≠ i → w j = w' j) : (tape w i.1).take i.2 = (tape w' i.1).take i.2 := by
  apply List.ext_getElem?
  intro j
  by_cases hj : j < (i.2 : Nat)
  · rw [List.getElem?_take_of_lt hj, List.getElem?_take_of_lt hj]
    have hjN : j < N := by omega
    simp only [tape, i.1.isLt, dif_pos, List.getElem?_ofFn, hjN]
    congr 1
    exact h _ fun hc => by
      have := congrArg (fun q : Fin E × Fin N => (q.2 : Nat)) hc
      simp only at this
      omega
  · rw [List.getElem?_eq_none (by simp; omega), List.getElem?_eq_none (by simp; omega)]

/-- Whether an episode is taken does not depend on its seed. -/
theorem seeded_unseen {E N : Nat} {c : Cfg (σ × List Ω) A O Rat I H Unit} (henv : c.env = taped init step d) (hE : c.envNum = E)
    (x0 : σ) (mem : Nat → O) (w w' : Fin E × Fin N → Ω) (i : Fin E × Fin N) (hw : ∀ j, j ≠ i → w j = w' j) (n : Int) (hn : 0 < n) (fuel fuel' : Nat)
    (s1 s2 : Col (σ × List Ω) A O Rat I H) (st1 st2 : Stats) (h1 : collect c none (some n) false false () fuel (seeded c x0 mem w) = some (.ok (s1, st1)))
    (h2 : collect c none (some n) false false () fuel' (seeded c x0 mem w') = some (.ok (s2, st2))) :
    (i.2 : Nat) < episodesOf i.1 s1.log ↔ (i.2 : Nat) < episodesOf i.1 s2.log := by
  have he : (i.1 : Nat) < c.envNum := by rw [hE]; exact i.1.isLt
  by_cases hk : (i.2 : Nat) = 0
  · have key : ∀ (u : Fin E × Fin N → Ω) (f : Nat) (s : Col (σ × List Ω) A O Rat I H) (st : Stats),
        collect c none (some n) false false () f (seeded c x0 mem u) = some (.ok (s, st)) → (0 < episodesOf i.1 s.log ↔ ((i.1 : Nat) : Int) < n) := by
      intro u f s st h
      by_cases hen : ((i.1 : Nat) : Int) < n
      · obtain ⟨new, hlog, hshare⟩ := C291_shares_partial c _ s (seeded_reachable c x0 mem u) n hn false false () f st h
        have : s.log = new := by rw [hlog, seeded_log]; rfl
        rw [this]
        exact ⟨fun _ => hen, fun _ => (hshare i.1 he hen).1⟩
      · obtain ⟨new, hlog, -, hothers⟩ := C60_whole_episodes c _ s (seeded_reachable c x0 mem u) n hn false false () f st h
        have : s.log = new := by rw [hlog, seeded_log]; rfl
        rw [this]
        have := hothers i.1 (by omega)
        unfold episodesOf
        rw [this]
        simp [hen]
    rw [hk, key w fuel s1 st1 h1, key w' fuel' s2 st2 h2]
  · have htake := tape_take w w' i hw
    have hhead : (tape w i.1).headD d = (tape w' i.1).headD d := by
      have := congrArg (fun l => l.head?) htake
      simp only [List.head?_take, hk, if_false] at this
      rw [List.headD_eq_head?_getD, List.headD_eq_head?_getD, this]
    have hworld : (⟨fun e => (x0, tape w' e), mem⟩ : World (σ × List Ω) O) = World.put ⟨fun e => (x0, tape w e), mem⟩ i.1 (x0, tape w' i.1) := by
      unfold World.put
      congr 1
      funext e
      unfold upd
      split_ifs with h
      · rw [h]
      · show (x0, tape w' e) = (x0, tape w e)
        rw [tape_other w w' i hw e h]
    have hsecond : seeded c x0 mem w' = (seeded c x0 mem w).withEnv i.1 ((init ((tape w i.1).headD d)).1, (tape w' i.1).tail) := by
      have hput := resetEnvs_put c.env () (List.range c.envNum) ⟨fun e => (x0, tape w e), mem⟩ i.1 (x0, tape w' i.1) List.nodup_range (List.mem_range.2 he)
        (by rw [henv]; simp only [taped]; rw [hhead])
      unfold seeded
      rw [hworld]
      simp only [reset, resetEnv, Bool.false_eq_true, if_false, hput]
      rw [henv]
      simp only [taped, ← hhead]
      rfl
    rw [hsecond] at h2
    obtain ⟨new1, new2, hl1, hl2, hiff⟩ := C292_unseen c _ s1 s2 (seeded_reachable c x0 mem w) n hn false () fuel fuel' st1 st2 i.1 i.2 _
      (by
        rw [seeded_env init step d henv x0 mem w i.1 he, henv]
        apply taped_same
        rw [← List.drop_one, ← List.drop_one, List.take_drop, List.take_drop, show 1 + ((i.2 : Nat) - 1) = i.2 by omega, htake]) h1 h2
    have q1 : s1.log = new1 := by rw [hl1, seeded_log]; rfl
    have q2 : s2.log = new2 := by rw [hl2]; rfl
    rw [q1, q2]
    exact hiff

/-- A sum over all rows, by environments. -/
theorem sum_by_env {E : Nat} (log : List (List (Nat × Row O A Rat I))) (hall : ∀ p ∈ log.flatten, p.1 < E) (f : Row O A Rat I → Rat) :
    ((allRows log).map f).sum = ∑ e : Fin E, ((rowsOf e log).map f).sum := by
  unfold rowsOf allRows
  generalize log.flatten = L at hall
  induction L with
  | nil => simp
  | cons p L ih =>
    have ih := ih fun r hr => hall r (List.mem_cons_of_mem _ hr)
    have hp := hall p List.mem_cons_self
    have hstep : ∀ e : Fin E, ((((p :: L).filter fun r => r.1 = (e : Nat)).map Prod.snd).map f).sum =
        (if (⟨p.1, hp⟩ : Fin E) = e then f p.2 else 0) + (((L.filter fun r => r.1 = (e : Nat)).map Prod.snd).map f).sum := by
      intro e
      by_cases h : p.1 = (e : Nat)
      · rw [List.filter_cons_of_pos (by simpa using h), if_pos (Fin.ext h)]
        simp
      · rw [List.filter_cons_of_neg (by simpa using h), if_neg (fun hc => h (by rw [← hc]))]
        simp
    rw [Finset.sum_congr rfl fun e _ => hstep e, Finset.sum_add_distrib, ← ih]
    simp

theorem length_filter_sum {α : Type} (l : List α) (p : α → Bool) : ((l.filter p).length : Rat) = (l.map fun r => if p r = true then (1 : Rat) else 0).sum := by
  induction l with
  | nil => simp
  | cons a t ih =>
    rw [List.map_cons, List.sum_cons, ← ih]
    by_cases h : p a = true
    · rw [List.filter_cons_of_pos h, if_pos h, List.length_cons]
      push_cast
      ring
    · rw [List.filter_cons_of_neg h, if_neg h, zero_add]

theorem sum_range_fin {N m : Nat} (hm : m ≤ N) (h : Nat → Rat) : ((List.range m).map h).sum = ∑ k : Fin N, if (k : Nat) < m then h k else 0 := by
  have h1 : ((List.range m).map h).sum = ∑ k ∈ Finset.range m, h k := rfl
  rw [h1, ← Finset.sum_range fun k => if k < m then h k else 0, ← Finset.sum_filter]
  congr 1
  ext k
  simp only [Finset.mem_filter, Finset.mem_range]
  omega

/-! ### C294 -/

/-- **C294.** Let the environments be random: each episode has a seed, and the seeds are independent and `v` has the chance `ρ v` (the sum over `w` is over all ways to give seeds to
the `E` environments; `N` seeds for each are enough for `N` episodes). Let the policy choose its action from the observation, without noise. Let `G v` be the return of the
episode with the seed `v` (`q` the reward; or its length, if `q` is 1). Then the expectation of the mean return (or length) of the `N` collected episodes is the expectation of
`G`: environments with short episodes contribute more episodes, but without bias. -/
theorem C294_unbiased [Fintype Ω] (ρ : Ω → Rat) (hρ : ∑ v, ρ v = 1) {E N : Nat} (hN : 0 < N) (c : Cfg (σ × List Ω) A O Rat I H Unit)
    (henv : c.env = taped init step d) (hE : c.envNum = E) (hshare : c.share = false) (hnoise : c.noise = false)
    (hact : ∀ k obs info h, (c.policy.forward k obs info h).1.map c.policy.mapAction = obs.map act)
    (hG : ∀ v, Rolls step q act (init v).1 (init v).2.1 (G v)) (x0 : σ) (mem : Nat → O) (fuel : (Fin E × Fin N → Ω) → Nat)
    (s' : (Fin E × Fin N → Ω) → Col (σ × List Ω) A O Rat I H) (st : (Fin E × Fin N → Ω) → Stats)
    (hc : ∀ w, collect c none (some (N : Int)) false false () (fuel w) (seeded c x0 mem w) = some (.ok (s' w, st w))) :
    ∑ w : Fin E × Fin N → Ω, (∏ i, ρ (w i)) * (total q (allRows (s' w).log) / N) = ∑ v, ρ v * G v := by
  classical
  set μ : Rat := ∑ v, ρ v * G v with hμ
  have hf : ∑ v, ρ v * (G v - μ) = 0 := by
    simp only [mul_sub]
    rw [Finset.sum_sub_distrib, ← Finset.sum_mul, hρ, one_mul, ← hμ, sub_self]
  have hn : (0 : Int) < (N : Int) := by omega
  have hone : ∀ w, total q (allRows (s' w).log) - N * μ = ∑ i : Fin E × Fin N, if (i.2 : Nat) < episodesOf i.1 (s' w).log then G (w i) - μ else 0 := by
    intro w
    obtain ⟨new, hlog, htotal, -⟩ := C58_exact c _ (s' w) (seeded_reachable c x0 mem w) N hn false false () (fuel w) (st w) (hc w)
    obtain ⟨new2, hlog2, -, hothers⟩ := C60_whole_episodes c _ (s' w) (seeded_reachable c x0 mem w) N hn false false () (fuel w) (st w) (hc w)
    have q1 : (s' w).log = new := by rw [hlog, seeded_log]; rfl
    have q2 : (s' w).log = new2 := by rw [hlog2, seeded_log]; rfl
    rw [← q1] at htotal
    rw [← q2] at hothers
    have hall : ∀ p ∈ (s' w).log.flatten, p.1 < E := by
      intro p hp
      by_contra hnot
      have h3 := hothers p.1 (by omega)
      unfold rowsOf at h3
      rw [List.map_eq_nil_iff, List.filter_eq_nil_iff] at h3
      exact h3 p hp (by simp)
    have heps : (N : Rat) = ∑ e : Fin E, (episodesOf e (s' w).log : Rat) := by
      have h4 : ((allRows (s' w).log).filter fun r => r.out.ended).length = N := by exact_mod_cast htotal
      rw [← h4, length_filter_sum, sum_by_env _ hall]
      refine Finset.sum_congr rfl fun e _ => ?_
      unfold episodesOf
      rw [length_filter_sum]
    have hle : ∀ e : Fin E, episodesOf e (s' w).log ≤ N := by
      intro e
      have h5 := Finset.single_le_sum (f := fun e : Fin E => (episodesOf e (s' w).log : Rat)) (fun _ _ => Nat.cast_nonneg _) (Finset.mem_univ e)
      rw [← heps] at h5
      exact_mod_cast h5
    have hrew : total q (allRows (s' w).log) = ∑ e : Fin E, total q (rowsOf e (s' w).log) := sum_by_env _ hall _
    rw [hrew, heps, Finset.sum_mul, ← Finset.sum_sub_distrib, Fintype.sum_prod_type]
    refine Finset.sum_congr rfl fun e _ => ?_
    rw [seeded_rewards init step q d act G henv hshare hnoise hact hG x0 mem w N hn (fuel w) (s' w) (st w) (hc w) e (by rw [hE]; exact e.isLt),
      sum_range_fin (hle e)]
    have hcnt : (episodesOf e (s' w).log : Rat) * μ = ∑ k : Fin N, if (k : Nat) < episodesOf e (s' w).log then μ else 0 := by
      rw [← sum_range_fin (hle e) fun _ => μ]
      simp
    rw [hcnt, ← Finset.sum_sub_distrib]
    refine Finset.sum_congr rfl fun k _ => ?_
    rw [tape_get]
    split_ifs <;> simp
  have hzero : ∑ w : Fin E × Fin N → Ω, (∏ i, ρ (w i)) * (total q (allRows (s' w).log) - N * μ) = 0 := by
    have hin : ∀ w : Fin E × Fin N → Ω, (∏ i, ρ (w i)) * (total q (allRows (s' w).log) - N * μ) =
        ∑ i : Fin E × Fin N, (∏ i, ρ (w i)) * (if (i.2 : Nat) < episodesOf i.1 (s' w).log then G (w i) - μ else 0) := by
      intro w
      rw [hone w, Finset.mul_sum]
    rw [Finset.sum_congr rfl fun w _ => hin w, Finset.sum_comm]
    refine Finset.sum_eq_zero fun i _ => ?_
    exact sum_unseen i (fun w => (i.2 : Nat) < episodesOf i.1 (s' w).log) ρ (fun v => G v - μ) hf fun w w' hw =>
      seeded_unseen init step d henv hE x0 mem w w' i hw N hn (fuel w) (fuel w') _ _ _ _ (hc w) (hc w')
  have hNq : (N : Rat) ≠ 0 := Nat.cast_ne_zero.2 (by omega)
  have hterm : ∀ w : Fin E × Fin N → Ω, (∏ i, ρ (w i)) * (total q (allRows (s' w).log) / N) =
      (∏ i, ρ (w i)) * (total q (allRows (s' w).log) - N * μ) / N + (∏ i, ρ (w i)) * μ := by
    intro w
    field_simp
    ring
  rw [Finset.sum_congr rfl fun w _ => hterm w, Finset.sum_add_distrib, ← Finset.sum_div, hzero, zero_div, zero_add, ← Finset.sum_mul, sum_chances ρ hρ, one_mul]

/-- Episodes with one step and the return 5, or two steps and the return 2 (`true`). The state is the number of steps left. -/
def coinInit (v : Bool) : Nat × Nat × Unit := if v then (2, 2, ()) else (1, 1, ())

def coinStep (x : Nat) (_ : Nat) : Nat × StepOut Nat Rat Unit :=
  (x - 1, ⟨x - 1 + 5, if x = 2 then -3 else 5, Nat.ble x 1, false, ()⟩)

/-- Two environments. -/
def coinCfg : Cfg (Nat × List Bool) Nat Nat Rat Unit Unit Unit where
  env := taped coinInit coinStep false
  policy := ⟨fun _ obs _ _ => (obs, none), fun _ acts _ => acts, id, id, fun _ _ => 0⟩
  envNum := 2
  noise := false
  share := false
  hiddenKind := .arrayOrBatch
  zeroHidden := ()
  isAsync := false

def coinReturn (v : Bool) : Rat := if v then 2 else 5

theorem coin_rolls (v : Bool) : Rolls coinStep StepOut.rew id (coinInit v).1 (coinInit v).2.1 (coinReturn v) := by
  cases v with
  | false => exact .last (act := id) 1 1 rfl
  | true =>
    have h1 : Rolls coinStep StepOut.rew id 1 6 5 := .last (act := id) 1 6 rfl
    have h2 := Rolls.more (act := id) 2 2 5 rfl h1
    have h3 : (coinStep 2 (id 2)).2.rew + 5 = coinReturn true := by decide +kernel
    rw [h3] at h2
    exact h2

/-- Non-vacuity: three episodes of two environments, for all 64 ways to give seeds. With the chance 1/3 of an episode with two steps, the mean of the means is 4, although the first
environment may have one or two of the three episodes. -/
example : ∃ (s' : (Fin 2 × Fin 3 → Bool) → Col (Nat × List Bool) Nat Nat Rat Unit Unit),
    ∑ w, (∏ i, if w i then 1 / 3 else 2 / 3) * (total StepOut.rew (allRows (s' w).log) / (3 : Nat)) = (4 : Rat) ∧
    episodesOf 0 (s' fun _ => false).log = 1 ∧ episodesOf 0 (s' fun i => i.1 = 1).log = 2 := by
  have hall : ∀ w : Fin 2 × Fin 3 → Bool, (after (collect coinCfg none (some ((3 : Nat) : Int)) false false () 10 (seeded coinCfg 0 (fun _ => 0) w))).isSome = true := by
    decide +kernel
  have hex : ∀ w : Fin 2 × Fin 3 → Bool, ∃ s st, collect coinCfg none (some ((3 : Nat) : Int)) false false () 10 (seeded coinCfg 0 (fun _ => 0) w) = some (.ok (s, st)) := by
    intro w
    obtain ⟨s, hs⟩ := Option.isSome_iff_exists.1 (hall w)
    exact ⟨s, after_some hs⟩
  choose s' st hc using hex
  have hafter : ∀ w : Fin 2 × Fin 3 → Bool, after (collect coinCfg none (some ((3 : Nat) : Int)) false false () 10 (seeded coinCfg 0 (fun _ => 0) w)) = some (s' w) := fun w => by
    rw [hc w]; rfl
  refine ⟨s', ?_, ?_, ?_⟩
  · rw [C294_unbiased (E := 2) (N := 3) coinInit coinStep StepOut.rew false id coinReturn (fun v => if v then 1 / 3 else 2 / 3) (by simp; norm_num) (by decide) coinCfg rfl rfl rfl rfl (fun _ _ _ _ => by simp [coinCfg]) coin_rolls 0 (fun _ => 0) (fun _ => 10) s' st hc]
    simp [coinReturn]
    norm_num
  · have h : (after (collect coinCfg none (some ((3 : Nat) : Int)) false false () 10 (seeded coinCfg 0 (fun _ => 0) fun _ : Fin 2 × Fin 3 => false))).map
        (fun s => episodesOf 0 s.log) = some 1 := by decide +kernel
    rw [hafter, Option.map_some, Option.some.injEq] at h
    exact h
  · have h : (after (collect coinCfg none (some ((3 : Nat) : Int)) false false () 10 (seeded coinCfg 0 (fun _ => 0) fun i : Fin 2 × Fin 3 => i.1 = 1))).map
        (fun s => episodesOf 0 s.log) = some 2 := by decide +kernel
    rw [hafter, Option.map_some, Option.some.injEq] at h
    exact h

theorem coin_lengths (v : Bool) : Rolls coinStep (fun _ => 1) id (coinInit v).1 (coinInit v).2.1 (if v then 2 else 1) := by
  cases v with
  | false => exact .last (q := fun _ => 1) (act := id) 1 1 rfl
  | true =>
    have h1 : Rolls coinStep (fun _ => 1) id 1 6 1 := .last (q := fun _ => 1) (act := id) 1 6 rfl
    have h2 := Rolls.more (q := fun _ => 1) (act := id) 2 2 1 rfl h1
    have h3 : (1 : Rat) + 1 = if true = true then 2 else 1 := by decide +kernel
    rw [h3] at h2
    exact h2

/-- The lengths in the same collections: 4/3 steps on average. -/
example (s' : (Fin 2 × Fin 3 → Bool) → Col (Nat × List Bool) Nat Nat Rat Unit Unit) (st : (Fin 2 × Fin 3 → Bool) → Stats)
    (hc : ∀ w : Fin 2 × Fin 3 → Bool, collect coinCfg none (some ((3 : Nat) : Int)) false false () 10 (seeded coinCfg 0 (fun _ => 0) w) = some (.ok (s' w, st w))) :
    ∑ w : Fin 2 × Fin 3 → Bool, (∏ i, if w i then 1 / 3 else 2 / 3) * (((allRows (s' w).log).length : Rat) / (3 : Nat)) = (4 / 3 : Rat) := by
  have h := C294_unbiased (E := 2) (N := 3) coinInit coinStep (fun _ => 1) false id (fun v => if v then 2 else 1) (fun v => if v then 1 / 3 else 2 / 3) (by simp; norm_num)
    (by decide) coinCfg rfl rfl rfl rfl (fun _ _ _ _ => by simp [coinCfg]) coin_lengths 0 (fun _ => 0) (fun _ => 10) s' st hc
  have hl : ∀ rows : List (Row Nat Nat Rat Unit), total (fun _ => 1) rows = (rows.length : Rat) := fun rows => by simp [total]
  simp only [hl] at h
  rw [h]
  simp
  norm_num

end Verif.Collector
