import Verif.Props.Collector

/-!
# The last episodes of a collection (property C291)

"this function will first collect `n_episode - env_num` episodes, then for the last `env_num` episodes, they will be collected evenly from each env"
(tianshou/data/collector.py:449-451).
-/

namespace Verif.Collector

set_option linter.unusedSectionVars false

variable {σ A O R I H K : Type}

/-! ### Specification -/

/-- The number of episodes that end in some calls of `buffer.add`, for the environment `e`. -/
def episodesOf (e : Nat) (log : List (List (Nat × Row O A R I))) : Nat := ((rowsOf e log).filter fun r => r.out.ended).length

/-- The environments whose episodes end, in the order in which they end (within one step, the order of `buffer.add` and of the statistics). -/
def finishers (log : List (List (Nat × Row O A R I))) : List Nat := (log.flatten.filter fun p => p.2.out.ended).map Prod.fst

/-! ### Lemmas -/

/-- After a round, the environments that go on and the collected episodes are as many as they can be. -/
theorem iter_min (c : Cfg σ A O R I H K) (n : Int) (hn0 : n ≠ 0) (random : Bool) (kw : K) (s s' : Loop σ A O R I H)
    (hle : ((s.ready.length + s.numEpisodes : Nat) : Int) ≤ n) (h : iter c (some n) random kw s = .ok s') :
    ((s.ready.length + s.numEpisodes : Nat) : Int) = n ∨ s'.ready ≠ s.ready → ((s'.ready.length + s'.numEpisodes : Nat) : Int) = n := by
  unfold iter at h
  simp only at h
  set d := decide c random s.calls s.ready (s.lastObs.map (Cell.read s.world.mem)) s.lastInfo s.lastHidden with hd
  by_cases h1 : d.actNormalized.length = s.ready.length
  swap
  · rw [if_pos h1] at h; exact absurd h (by simp)
  rw [if_neg (by simpa using h1)] at h
  by_cases h2 : s.ready = []
  · rw [if_pos h2] at h; exact absurd h (by simp)
  rw [if_neg h2] at h
  set p := stepEnvs c.env (s.ready.zip d.actNormalized) s.world with hp
  have hzl : (s.ready.zip d.actNormalized).length = s.ready.length := by simp [h1]
  have hol : p.2.length = s.ready.length := by rw [hp, stepEnvs_length, hzl]
  set doneIdx := whereTrue (p.2.map StepOut.done) with hdi
  have hdn : doneIdx.Nodup := whereTrue_nodup _
  have hdlt : ∀ k ∈ doneIdx, k < s.ready.length := by
    intro k hk
    have := getElem?_some_lt ((mem_whereTrue _ _).1 hk)
    simpa [hol] using this
  set ig := (if doneIdx = [] then ([] : List Nat) else surplus (some n) s.ready.length (s.numEpisodes + doneIdx.length) doneIdx) with hig
  have higs : ig.Sublist doneIdx := by
    rw [hig]
    split_ifs with hx
    · exact List.nil_sublist _
    · simp only [surplus, if_neg hn0]
      exact List.take_sublist _ _
  have hkl := keep_length s.ready.length ig (higs.nodup hdn) fun q hq => hdlt q (higs.subset hq)
  injection h with h
  subst h
  show _ ∨ dropAt s.ready ig ≠ s.ready → (((dropAt s.ready ig).length + (s.numEpisodes + doneIdx.length) : Nat) : Int) = n
  intro hor
  rw [dropAt_length]
  by_cases hx : doneIdx = []
  · have hig0 : ig = [] := by rw [hig, if_pos hx]
    have hl0 : doneIdx.length = 0 := by rw [hx]; rfl
    have hi0 : ig.length = 0 := by rw [hig0]; rfl
    rcases hor with hor | hor
    · omega
    · exact absurd (by rw [hig0, dropAt_nil]) hor
  · have hil : ig.length = min ((s.ready.length : Int) - (n - ((s.numEpisodes + doneIdx.length : Nat) : Int))).toNat doneIdx.length := by
      rw [hig, if_neg hx]
      simp only [surplus, if_neg hn0, List.length_take]
    rcases hor with hor | hor
    · omega
    · have : 0 < ig.length := by
        by_contra hc
        have : ig = [] := List.length_eq_zero_iff.1 (by omega)
        exact hor (by rw [this, dropAt_nil])
      omega

/-- What is known about each moment of a collection: `r` are the environments that go on from there. -/
structure Moment (n : Int) (ready0 : List Nat) (pre post : List (List (Nat × Row O A R I))) (ready : List Nat) (r : List Nat) : Prop where
  nodup : r.Nodup
  exact : r = ready0 ∨ ((r.length + ((allRows pre).filter fun x => x.out.ended).length : Nat) : Int) = n
  sub : ∀ e ∈ ready, e ∈ r
  only : ∀ p ∈ post.flatten, p.1 ∈ r
  some : post ≠ [] → ∀ e ∈ r, rowsOf e post ≠ []
  idle : ∀ e ∈ r, e ∉ ready → 0 < episodesOf e post

theorem episodesOf_append (e : Nat) (l l' : List (List (Nat × Row O A R I))) : episodesOf e (l ++ l') = episodesOf e l + episodesOf e l' := by
  unfold episodesOf
  rw [rowsOf_append, List.filter_append, List.length_append]

/-- All moments of a run. -/
theorem run_moments (c : Cfg σ A O R I H K) (n : Int) (hn0 : n ≠ 0) (random : Bool) (kw : K) (fuel : Nat) (ready0 : List Nat)
    (base : List (List (Nat × Row O A R I))) (s s' : Loop σ A O R I H) (hle : (ready0.length : Int) ≤ n) (hready : s.ready = ready0)
    (hi : Inv (some n) ready0 base [] s) (h : run c none (some n) random kw fuel s = some (.ok s')) :
    ∃ new, Inv (some n) ready0 base new s' ∧ ∀ pre post, new = pre ++ post → ∃ r, Moment n ready0 pre post s'.ready r := by
  have hP := run_induct c none (some n) random kw
    (fun x => ∃ new, Inv (some n) ready0 base new x ∧ (x.ready = ready0 ∨ ((x.ready.length + x.numEpisodes : Nat) : Int) = n) ∧
      ∀ pre post, new = pre ++ post → ∃ r, Moment n ready0 pre post x.ready r) ?_ fuel s s' h ⟨[], hi, Or.inl hready, ?_⟩
  · obtain ⟨⟨new, h1, -, h2⟩, -⟩ := hP
    exact ⟨new, h1, h2⟩
  · rintro x y ⟨new, hx, hex, hmom⟩ hit
    have hcount := hx.count n rfl hn0 hle
    obtain ⟨ent, hrd, hinv⟩ := hx.iter hit
    have hmin := iter_min c n hn0 random kw x y hcount hit
    have hey : y.ready = ready0 ∨ ((y.ready.length + y.numEpisodes : Nat) : Int) = n := by
      by_cases hsame : y.ready = x.ready
      · rcases hex with hex | hex
        · exact Or.inl (hsame.trans hex)
        · exact Or.inr (hmin (Or.inl hex))
      · exact Or.inr (hmin (Or.inr hsame))
    refine ⟨_, hinv, hey, fun pre post hsplit => ?_⟩
    rcases List.eq_nil_or_concat post with rfl | ⟨post', round, rfl⟩
    · rw [List.append_nil] at hsplit
      subst hsplit
      refine ⟨y.ready, hinv.nodup, ?_, fun e he => he, by simp, fun h => absurd rfl h, fun e he hne => absurd he hne⟩
      rcases hey with hey | hey
      · exact Or.inl hey
      · right
        rw [hinv.eps] at hey
        exact hey
    · rw [List.concat_eq_append, ← List.append_assoc] at hsplit
      obtain ⟨h1, h2⟩ := List.append_inj' hsplit rfl
      simp only [List.cons.injEq, and_true] at h2
      subst h2
      obtain ⟨r, hr⟩ := hmom pre post' h1
      rw [List.concat_eq_append]
      have hrows : ∀ e ∈ x.ready, ∃ (i : Nat) (row : Row O A R I), x.ready[i]? = some e ∧ ent[i]? = some row ∧ rowsOf e [x.ready.zip ent] = [row] := by
        intro e he
        obtain ⟨i, hi⟩ := getElem?_mem_idx he
        have hl : i < ent.length := by rw [hrd.len]; exact getElem?_some_lt hi
        exact ⟨i, ent[i], hi, List.getElem?_eq_getElem hl, rowsOf_zip e _ _ hx.nodup i _ hi (List.getElem?_eq_getElem hl)⟩
      refine ⟨r, hr.nodup, hr.exact, fun e he => hr.sub e (hrd.sub.subset he), ?_, fun _ e he => ?_, fun e he hne => ?_⟩
      · intro p hp
        rw [List.flatten_append, List.mem_append] at hp
        rcases hp with hp | hp
        · exact hr.only p hp
        · simp only [List.flatten_cons, List.flatten_nil, List.append_nil] at hp
          exact hr.sub _ (List.of_mem_zip (a := p.1) (b := p.2) hp).1
      · rw [rowsOf_append]
        by_cases hin : e ∈ x.ready
        · obtain ⟨i, row, -, -, hz⟩ := hrows e hin
          rw [hz]
          simp
        · have h3 := hr.idle e he hin
          intro hnil
          rw [List.append_eq_nil_iff] at hnil
          unfold episodesOf at h3
          rw [hnil.1] at h3
          simp at h3
      · rw [episodesOf_append]
        by_cases hin : e ∈ x.ready
        · obtain ⟨i, row, hi, hrow, hz⟩ := hrows e hin
          obtain ⟨_, _, h3, _⟩ := hrd.moved i e row hi hrow
          have hdone : row.out.done = true := by
            by_contra hc
            exact hne (h3 (by simpa using hc)).2.1
          have : 0 < episodesOf e [x.ready.zip ent] := by
            unfold episodesOf
            rw [hz, List.filter_cons_of_pos (by exact hdone)]
            simp
          omega
        · have := hr.idle e he hin
          omega
  · intro pre post hsplit
    obtain ⟨rfl, rfl⟩ := List.append_eq_nil_iff.1 hsplit.symm
    exact ⟨ready0, hready ▸ hi.nodup, Or.inl rfl, fun e he => hi.sub e he, by simp, fun h => absurd rfl h, fun e he hne => absurd (hready ▸ he) hne⟩

theorem sum_single (r : List Nat) (hr : r.Nodup) (a : Nat) (ha : a ∈ r) : (r.map fun e => if e = a then 1 else 0).sum = 1 := by
  induction r with
  | nil => simp at ha
  | cons b t ih =>
    rw [List.map_cons, List.sum_cons]
    rw [List.nodup_cons] at hr
    by_cases h : b = a
    · have : (t.map fun e => if e = a then 1 else 0).sum = 0 := by
        rw [List.sum_eq_zero_iff]
        intro x hx
        obtain ⟨e, he, rfl⟩ := List.mem_map.1 hx
        rw [if_neg]
        rintro rfl
        exact hr.1 (h ▸ he)
      rw [this, if_pos h]
    · rw [if_neg h, ih hr.2 ((List.mem_cons.1 ha).resolve_left fun hc => h hc.symm)]

/-- The episodes of all environments together. -/
theorem sum_episodes (log : List (List (Nat × Row O A R I))) (r : List Nat) (hr : r.Nodup) (hall : ∀ p ∈ log.flatten, p.1 ∈ r) :
    (r.map fun e => episodesOf e log).sum = ((allRows log).filter fun x => x.out.ended).length := by
  unfold episodesOf rowsOf allRows
  generalize log.flatten = L at hall
  induction L with
  | nil => simp
  | cons p L ih =>
    have ih := ih fun q hq => hall q (List.mem_cons_of_mem _ hq)
    have hp := hall p List.mem_cons_self
    have hstep : ∀ e, ((((p :: L).filter fun q => q.1 = e).map Prod.snd).filter fun x => x.out.ended).length =
        (((L.filter fun q => q.1 = e).map Prod.snd).filter fun x => x.out.ended).length + if e = p.1 ∧ p.2.out.ended = true then 1 else 0 := by
      intro e
      by_cases h1 : p.1 = e
      · rw [List.filter_cons_of_pos (by simpa using h1), List.map_cons]
        by_cases h2 : p.2.out.ended = true
        · rw [List.filter_cons_of_pos (by exact h2), if_pos ⟨h1.symm, h2⟩]
          rfl
        · rw [List.filter_cons_of_neg (by exact h2), if_neg (fun h => h2 h.2)]
          rfl
      · rw [List.filter_cons_of_neg (by simpa using h1), if_neg (fun h => h1 h.1.symm)]
        rfl
    simp only [hstep]
    rw [List.sum_map_add, ih, List.map_cons]
    by_cases h2 : p.2.out.ended = true
    · rw [List.filter_cons_of_pos (by exact h2), List.length_cons]
      congr 1
      simp only [h2, and_true]
      exact sum_single r hr p.1 hp
    · rw [List.filter_cons_of_neg (by exact h2)]
      simp [h2]

theorem sum_ones {l : List Nat} (h1 : ∀ x ∈ l, 0 < x) (h2 : l.sum ≤ l.length) : ∀ x ∈ l, x = 1 := by
  induction l with
  | nil => simp
  | cons a t ih =>
    have ht : t.length ≤ t.sum := by
      clear ih h2
      induction t with
      | nil => simp
      | cons b t ih =>
        have := ih fun x hx => h1 x (by simp only [List.mem_cons] at hx ⊢; tauto)
        have := h1 b (by simp)
        simp only [List.length_cons, List.sum_cons]
        omega
    have ha := h1 a List.mem_cons_self
    simp only [List.sum_cons, List.length_cons] at h2
    intro x hx
    rcases List.mem_cons.1 hx with rfl | hx
    · omega
    · exact ih (fun y hy => h1 y (List.mem_cons_of_mem _ hy)) (by omega) x hx

/-! ### C291 -/

/-- **C291 (partial): the last episodes.** At any moment of a collection of `n` episodes (`pre` is stored before it, `post` after it) from which on one of the environments taking part
contributes nothing more, each environment ends at most one more episode, the one it is in. So an environment that is done with does not have another one collect two episodes
more. (Missing: the last `env_num` episodes in the order in which they are stored, see `C291_violated`.) -/
theorem C291_last_partial (c : Cfg σ A O R I H K) (s s' : Col σ A O R I H) (hs : Reachable c s) (n : Int) (hn : 0 < n)
    (random before : Bool) (kw : K) (fuel : Nat) (st : Stats) (hc : collect c none (some n) random before kw fuel s = some (.ok (s', st))) :
    ∃ new, s'.log = s.log ++ new ∧ ∀ pre post, new = pre ++ post → (∃ e : Nat, e < c.envNum ∧ (e : Int) < n ∧ rowsOf e post = []) →
      ∀ e, episodesOf e post ≤ 1 := by
  obtain ⟨hn0, po, pi, l, hpo, hpi, hr, rfl, rfl⟩ := collect_episodes c n random before kw fuel s s' st hc
  obtain ⟨w1, w2⟩ := prepared_wf c before kw s (reachable_wf c s hs)
  have hm : (min (c.envNum : Int) n).toNat ≤ c.envNum := by omega
  have hstart := start_inv (some n) (prepared c before kw s) (min (c.envNum : Int) n).toNat po pi (by rw [w1 _ hpo]; exact hm) (by rw [w2 _ hpi]; exact hm)
  obtain ⟨_, hst⟩ := run_inv c _ _ random kw fuel _ _ _ _ hr hstart
  obtain ⟨new, hinv, hmom⟩ := run_moments c n hn0 random kw fuel (List.range (min (c.envNum : Int) n).toNat) _ _ _ (by rw [List.length_range]; omega) rfl hstart hr
  simp only [stops, Bool.false_or, Bool.and_eq_true, decide_eq_true_eq, ne_eq, ge_iff_le] at hst
  have hcount := hinv.count n rfl hn0 (by rw [List.length_range]; omega)
  have hempty : l.ready = [] := List.length_eq_zero_iff.1 (by omega)
  refine ⟨new, ?_, fun pre post hsplit ⟨e0, he0, hen0, hgone⟩ e => ?_⟩
  · show l.log = _
    rw [hinv.log, prepared_log]
  · by_cases hpost : post = []
    · subst hpost
      simp [episodesOf, rowsOf]
    obtain ⟨r, hr⟩ := hmom pre post hsplit
    have hnot : e0 ∉ r := fun h => hr.some hpost e0 h hgone
    have hex := hr.exact.resolve_left fun h => hnot (by rw [h, List.mem_range]; omega)
    have htotal : (l.numEpisodes : Int) = n := by omega
    rw [hinv.eps, hsplit, allRows_append, List.filter_append, List.length_append] at htotal
    have hsum := sum_episodes post r hr.nodup hr.only
    by_cases he : e ∈ r
    · refine (sum_ones (l := r.map fun e => episodesOf e post) ?_ ?_ _ (List.mem_map.2 ⟨e, he, rfl⟩)).le
      · intro x hx
        obtain ⟨e', he', rfl⟩ := List.mem_map.1 hx
        exact hr.idle e' he' (by rw [hempty]; simp)
      · rw [hsum, List.length_map]
        have : ((allRows post).filter fun x => x.out.ended).length = ((allRows post).filter fun x => x.out.done).length := rfl
        have : ((allRows pre).filter fun x => x.out.ended).length = ((allRows pre).filter fun x => x.out.done).length := rfl
        omega
    · have : rowsOf e post = [] := by
        unfold rowsOf
        rw [List.map_eq_nil_iff, List.filter_eq_nil_iff]
        intro p hp hpe
        have := hr.only p hp
        rw [of_decide_eq_true hpe] at this
        exact he this
      unfold episodesOf
      rw [this]
      simp

/-- **C291 (partial): shares.** Each environment that takes part has at least one of the `n` episodes and at most all that remain when each of the others has one; in particular, with
at most as many episodes as environments, exactly one. -/
theorem C291_shares_partial (c : Cfg σ A O R I H K) (s s' : Col σ A O R I H) (hs : Reachable c s) (n : Int) (hn : 0 < n)
    (random before : Bool) (kw : K) (fuel : Nat) (st : Stats) (hc : collect c none (some n) random before kw fuel s = some (.ok (s', st))) :
    ∃ new, s'.log = s.log ++ new ∧ ∀ e : Nat, e < c.envNum → (e : Int) < n →
      1 ≤ episodesOf e new ∧ (episodesOf e new : Int) ≤ n - min (c.envNum : Int) n + 1 := by
  obtain ⟨new, hlog, hwhole, hothers⟩ := C60_whole_episodes c s s' hs n hn random before kw fuel st hc
  obtain ⟨new', hlog', hcount, -⟩ := C58_exact c s s' hs n hn random before kw fuel st hc
  obtain rfl : new = new' := List.append_cancel_left (hlog.symm.trans hlog')
  set m := (min (c.envNum : Int) n).toNat with hm
  have hpos : ∀ e ∈ List.range m, 1 ≤ episodesOf e new := by
    intro e he
    rw [List.mem_range] at he
    obtain ⟨rows, row, h1, h2⟩ := hwhole e (by omega) (by omega)
    unfold episodesOf
    rw [h1, List.filter_append, List.filter_cons_of_pos (by exact h2)]
    simp
  have hall : ∀ p ∈ new.flatten, p.1 ∈ List.range m := by
    intro p hp
    by_contra hnot
    rw [List.mem_range] at hnot
    have h3 := hothers p.1 (by omega)
    unfold rowsOf at h3
    rw [List.map_eq_nil_iff, List.filter_eq_nil_iff] at h3
    exact h3 p hp (by simp)
  have hsum := sum_episodes new (List.range m) List.nodup_range hall
  refine ⟨new, hlog, fun e he hen => ⟨hpos e (List.mem_range.2 (by omega)), ?_⟩⟩
  have hmem : e ∈ List.range m := List.mem_range.2 (by omega)
  have hbound : episodesOf e new + (m - 1) ≤ ((List.range m).map fun e => episodesOf e new).sum := by
    have hperm := List.perm_cons_erase hmem
    rw [(hperm.map fun e => episodesOf e new).sum_eq, List.map_cons, List.sum_cons]
    have hl : ((List.range m).erase e).length = m - 1 := by rw [List.length_erase_of_mem hmem, List.length_range]
    have : ((List.range m).erase e).length ≤ (((List.range m).erase e).map fun e => episodesOf e new).sum := by
      have hsub : ∀ x ∈ (List.range m).erase e, 1 ≤ episodesOf x new := fun x hx => hpos x (List.mem_of_mem_erase hx)
      generalize (List.range m).erase e = t at hsub
      clear hl hperm
      induction t with
      | nil => simp
      | cons a t ih =>
        have := ih fun x hx => hsub x (List.mem_cons_of_mem _ hx)
        have := hsub a List.mem_cons_self
        simp only [List.length_cons, List.map_cons, List.sum_cons]
        omega
    omega
  omega

/-- Four episodes in three environments whose episodes have one, two and three steps: the first environment has two of them. After its second episode it contributes nothing
more, and the third one ends its only episode. -/
example : ∃ s' st, collect (exCfg false) none (some 4) false true () 100 exCol = some (.ok (s', st)) ∧ s'.log.length = 3 ∧ finishers s'.log = [0, 0, 1, 2] ∧
    (∀ e, episodesOf e (s'.log.drop 2) ≤ 1) ∧ 1 ≤ episodesOf 0 s'.log ∧ (episodesOf 0 s'.log : Int) ≤ 4 - min 3 4 + 1 := by
  have h : (after (collect (exCfg false) none (some 4) false true () 100 exCol)).map (fun s' => (s'.log.length, finishers s'.log, (rowsOf 0 (s'.log.drop 2)).length))
      = some (3, [0, 0, 1, 2], 0) := by decide +kernel
  rw [Option.map_eq_some_iff] at h
  obtain ⟨s', h1, h2⟩ := h
  obtain ⟨st, hst⟩ := after_some h1
  simp only [Prod.mk.injEq] at h2
  refine ⟨s', st, hst, h2.1, h2.2.1, ?_, ?_⟩
  · obtain ⟨new, hlog, hlast⟩ := C291_last_partial (exCfg false) exCol s' (.built _) 4 (by decide) false true () 100 st hst
    have hnew : s'.log = new := by rw [hlog]; rfl
    rw [hnew] at h2 ⊢
    exact hlast _ _ (List.take_append_drop 2 new).symm ⟨0, by simp [exCfg], by decide, List.length_eq_zero_iff.1 h2.2.2⟩
  · obtain ⟨new, hlog, hshare⟩ := C291_shares_partial (exCfg false) exCol s' (.built _) 4 (by decide) false true () 100 st hst
    have hnew : s'.log = new := by rw [hlog]; rfl
    rw [hnew]
    exact hshare 0 (by simp [exCfg]) (by decide)

/-- Two environments whose episodes have one step. -/
def shortCfg : Cfg Unit Unit Unit Unit Unit Unit Unit where
  env := ⟨fun _ _ => ((), ⟨(), (), true, false, ()⟩), fun _ _ => ((), (), ())⟩
  policy := ⟨fun _ obs _ _ => (obs.map fun _ => (), none), fun _ acts _ => acts, id, id, fun _ _ => ()⟩
  envNum := 2
  noise := false
  share := false
  hiddenKind := .arrayOrBatch
  zeroHidden := ()
  isAsync := false

/-- **C291 is violated** for the order in which the episodes are stored: with two environments and three episodes the last two are both from the second environment. (Both
environments end their first episodes in the same step, then the first one is dropped.) -/
theorem C291_violated : ∃ s' st, collect shortCfg none (some 3) false true () 10 { world := ⟨fun _ => (), fun _ => ()⟩ } = some (.ok (s', st)) ∧
    finishers s'.log = [0, 1, 1] := ⟨_, _, rfl, rfl⟩

/-- Equal shares are not reached either: with six episodes and three environments whose episodes have one, two and three steps, the numbers are 3, 2 and 1. -/
theorem C291_shares_violated : ∃ s', after (collect (exCfg false) none (some 6) false true () 100 exCol) = some s' ∧
    [episodesOf 0 s'.log, episodesOf 1 s'.log, episodesOf 2 s'.log] = [3, 2, 1] := by
  have h : (after (collect (exCfg false) none (some 6) false true () 100 exCol)).map (fun s' => [episodesOf 0 s'.log, episodesOf 1 s'.log, episodesOf 2 s'.log])
      = some [3, 2, 1] := by decide +kernel
  rw [Option.map_eq_some_iff] at h
  exact h

end Verif.Collector
