import Verif.Spec.Pipeline
import Verif.Props.Manager
import Verif.Props.Returns

/-! Lemmas for `Verif/Props/Pipeline.lean`. -/

namespace Verif.Pipeline

open Verif.Buffer Verif.Spec Verif.Returns

set_option linter.unusedSectionVars false

variable {O A R I : Type}

/-! ### The ghost of a stream of transitions -/

section
variable [AddCommMonoid R]

/-- The transitions since the last end of an episode. -/
def openT (ts : List (Trans O A R)) : List (Trans O A R) :=
  (ts.reverse.takeWhile fun t => !(t.terminated || t.truncated)).reverse

theorem openT_snoc (ts : List (Trans O A R)) (t : Trans O A R) :
    openT (ts ++ [t]) = if t.terminated || t.truncated then [] else openT ts ++ [t] := by
  unfold openT
  rw [List.reverse_append, List.reverse_singleton, List.singleton_append, List.takeWhile_cons]
  cases h : t.terminated || t.truncated <;> simp

theorem openT_length_le (ts : List (Trans O A R)) : (openT ts).length ≤ ts.length := by
  unfold openT
  rw [List.length_reverse]
  exact (List.takeWhile_prefix _).length_le.trans (by simp)

/-- What a buffer has been given that received the transitions `ts` since a reset. -/
def ghostOf (opts : Opts O) (ts : List (Trans O A R)) : Ghost O A R :=
  ⟨ts.map (expectedRow opts), openT ts, ts.length - (openT ts).length⟩

theorem ghostOf_snoc (opts : Opts O) (ts : List (Trans O A R)) (t : Trans O A R) :
    ghostOf opts (ts ++ [t]) = ⟨(ghostOf opts ts).received ++ [expectedRow opts t],
      if t.terminated || t.truncated then [] else (ghostOf opts ts).openEp ++ [t],
      if t.terminated || t.truncated then (ghostOf opts ts).received.length + 1 else (ghostOf opts ts).startPos⟩ := by
  have hl := openT_length_le ts
  simp only [ghostOf, openT_snoc, List.map_append, List.map_cons, List.map_nil, List.length_append, List.length_cons, List.length_nil,
    List.length_map, Ghost.mk.injEq, true_and]
  cases h : t.terminated || t.truncated
  · simp
  · simp

/-- Every separate buffer has received the given transitions since it was reset. -/
def Follows (opts : Opts O) (size : Nat → Nat) (sep : List (Buf O A R)) (G : Nat → List (Trans O A R)) : Prop :=
  ∀ (b : Nat) (c : Buf O A R), sep[b]? = some c →
    c.opts = opts ∧ c.idx.maxsize = size b ∧ History c (ghostOf opts (G b))

/-- The results of adding: each is what a buffer returns that has received the earlier transitions of its environment. -/
def Answers (opts : Opts O) (size : Nat → Nat) : (Nat → List (Trans O A R)) → List (Nat × Trans O A R) → List (AddResult R) → Prop
  | _, [], rs => rs = []
  | G, (b, t) :: items, rs => ∃ r rest, rs = r :: rest ∧
      (∃ c c' : Buf O A R, c.opts = opts ∧ c.idx.maxsize = size b ∧ History c (ghostOf opts (G b)) ∧ c.add t = .ok (c', r)) ∧
      Answers opts size (Function.update G b (G b ++ [t])) items rest

/-- What the streams are after some more transitions. -/
def extend (G : Nat → List (Trans O A R)) (items : List (Nat × Trans O A R)) : Nat → List (Trans O A R) :=
  items.foldl (fun G p => Function.update G p.1 (G p.1 ++ [p.2])) G

theorem extend_apply (items : List (Nat × Trans O A R)) (G : Nat → List (Trans O A R)) (e : Nat) :
    extend G items e = G e ++ (items.filter fun p => p.1 = e).map Prod.snd := by
  unfold extend
  induction items generalizing G with
  | nil => simp
  | cons p items ih =>
    rw [List.foldl_cons, ih, List.filter_cons]
    by_cases h : p.1 = e
    · subst h
      simp
    · rw [Function.update_of_ne (Ne.symm h), if_neg (by simpa using h)]

theorem Follows.route {opts : Opts O} {size : Nat → Nat} (items : List (Nat × Trans O A R)) {sep sep' : List (Buf O A R)}
    {G : Nat → List (Trans O A R)} (T : Follows opts size sep G) {rs : List (AddResult R)}
    (h : routeAll sep items = some (sep', rs)) : Follows opts size sep' (extend G items) ∧ Answers opts size G items rs := by
  induction items generalizing sep rs G with
  | nil => cases h; exact ⟨T, rfl⟩
  | cons p items ih =>
    obtain ⟨b0, t⟩ := p
    simp only [routeAll] at h
    cases hb0 : sep[b0]? with
    | none => rw [hb0] at h; cases h
    | some buf =>
      simp only [hb0] at h
      cases ha : buf.add t with
      | error e => rw [ha] at h; cases h
      | ok q =>
        obtain ⟨buf', r⟩ := q
        simp only [ha] at h
        cases hr : routeAll (sep.set b0 buf') items with
        | none => rw [hr] at h; cases h
        | some q =>
          obtain ⟨sep1, rs1⟩ := q
          simp only [hr, Option.some.injEq, Prod.mk.injEq] at h
          obtain ⟨rfl, rfl⟩ := h
          obtain ⟨h1, h2, hg⟩ := T b0 buf hb0
          have T' : Follows opts size (sep.set b0 buf') (Function.update G b0 (G b0 ++ [t])) := by
            intro b c hc
            rw [List.getElem?_set] at hc
            split at hc
            · rename_i hbb
              subst hbb
              split at hc
              · cases hc
                obtain ⟨_, h4, h5, _⟩ := hg.inv.add ha
                refine ⟨h4.trans h1, h5.trans h2, ?_⟩
                rw [Function.update_self, ghostOf_snoc]
                have := hg.add ha
                rw [h1] at this
                exact this
              · cases hc
            · rename_i hbb
              rw [Function.update_of_ne (Ne.symm hbb)]
              exact T b c hc
          obtain ⟨f1, f2⟩ := ih T' hr
          exact ⟨f1, r, rs1, rfl, ⟨buf, buf', h1, h2, hg, ha⟩, f2⟩

/-- A reset vector buffer has received nothing. -/
theorem follows_reset {m : Mgr O A R} {sep : List (Buf O A R)} (h : Reach m sep) :
    Follows m.opts (fun b => ((sep[b]?).map fun c => c.idx.maxsize).getD 0) (sep.map fun b => b.reset false) (fun _ => []) := by
  intro b c hc
  rw [List.getElem?_map, Option.map_eq_some_iff] at hc
  obtain ⟨c0, h0, rfl⟩ := hc
  obtain ⟨s, hs, rfl⟩ := h.inv.get' h0
  obtain ⟨g, hg⟩ := h.inv.child_hist hs
  refine ⟨rfl, by simp [h0]; rfl, ?_⟩
  have := hg.reset false
  simpa [ghostOf, openT] using this

theorem stored_content {b : Buf O A R} {g : Ghost O A R} (h : History b g) : stored b = content b g := by
  unfold stored
  have := congrArg (List.filterMap id) (C05_fifo h)
  rw [List.filterMap_map, List.filterMap_map] at this
  simpa [Function.comp_def, content] using this

/-! ### Recording -/

/-- The transitions of a round. -/
def items (round : List (Nat × Collector.Row O A R I)) : List (Nat × Trans O A R) := round.map fun p => (p.1, experience p.2)

theorem items_zip (round : List (Nat × Collector.Row O A R I)) :
    (round.map Prod.fst).zip (round.map fun p => experience p.2) = items round := by
  induction round with
  | nil => rfl
  | cons p t ih => rw [List.map_cons, List.map_cons, List.zip_cons_cons, ih]; rfl

/-- One call of `add`, with everything that is needed about it. -/
theorem add_round {m : Mgr O A R} {sep : List (Buf O A R)} (h : Reach m sep) {opts : Opts O} {size : Nat → Nat}
    {G : Nat → List (Trans O A R)} (T : Follows opts size sep G) (round : List (Nat × Collector.Row O A R I))
    (hid : ∀ p ∈ round, p.1 < sep.length) :
    ∃ m' sep' rs, m.add (round.map Prod.fst) (round.map fun p => toTrans p.2) =
        .ok (m', List.zipWith (fun b r => AddResult.shift (startOf sep b) r) (round.map Prod.fst) rs) ∧
      Reach m' sep' ∧ m'.opts = m.opts ∧ sep'.length = sep.length ∧ (∀ b, startOf sep' b = startOf sep b) ∧
      Follows opts size sep' (extend G (items round)) ∧ Answers opts size G (items round) rs ∧ rs.length = round.length := by
  have hl : (round.map Prod.fst).length = (round.map fun p => experience p.2).length := by simp
  have hid' : ∀ b ∈ round.map Prod.fst, b < sep.length := by
    intro b hb
    rw [List.mem_map] at hb
    obtain ⟨p, hp, rfl⟩ := hb
    exact hid p hp
  obtain ⟨m', sep', rs, h1, h2, h3, h4, _, h6⟩ := C20_add h _ _ hl hid'
  have hlen : sep'.length = sep.length := by
    obtain ⟨_, _, sep2, _, _, h8, _, _, _, _, _, h9⟩ := h.inv.add _ _ hl hid'
    rw [h1] at h8
    cases h8
    exact h9
  have hopts : m'.opts = m.opts := by
    unfold Mgr.add at h2
    rw [if_neg (by simp)] at h2
    simp only at h2
    split at h2
    · cases h2
    · cases h2; rfl
  rw [items_zip] at h1
  obtain ⟨f1, f2⟩ := T.route _ h1
  exact ⟨m', sep', rs, h2, h4, hopts, hlen, h6, f1, f2, by simpa using h3⟩

/-! ### The content -/

theorem rowsOf_cons (e : Nat) (round : List (Nat × Collector.Row O A R I)) (log : List (List (Nat × Collector.Row O A R I))) :
    Collector.rowsOf e (round :: log) = Collector.rowsOf e [round] ++ Collector.rowsOf e log := by
  simp [Collector.rowsOf]

theorem extend_items (G : Nat → List (Trans O A R)) (round : List (Nat × Collector.Row O A R I)) (e : Nat) :
    extend G (items round) e = G e ++ (Collector.rowsOf e [round]).map experience := by
  rw [extend_apply]
  congr 1
  unfold items Collector.rowsOf
  induction round with
  | nil => rfl
  | cons p t ih =>
    simp only [List.flatten_cons, List.flatten_nil, List.append_nil] at ih ⊢
    rw [List.map_cons, List.filter_cons, List.filter_cons]
    by_cases hp : p.1 = e
    · rw [if_pos (by simpa using hp), if_pos (by simpa using hp), List.map_cons, ih]; rfl
    · rw [if_neg (by simpa using hp), if_neg (by simpa using hp), ih]

/-! ### Statistics -/

theorem experience_done (row : Collector.Row O A R I) : ((experience row).terminated || (experience row).truncated) = row.out.ended := rfl

theorem openT_map (rows : List (Collector.Row O A R I)) : openT (rows.map experience) = (openEpisode rows).map experience := by
  unfold openT openEpisode
  rw [← List.map_reverse, List.takeWhile_map, List.map_reverse]
  rfl

theorem rowsOf_past (e e' : Nat) (past : List (Nat × Collector.Row O A R I)) (row : Collector.Row O A R I) :
    Collector.rowsOf e' [past ++ [(e, row)]] = if e = e' then Collector.rowsOf e' [past] ++ [row] else Collector.rowsOf e' [past] := by
  unfold Collector.rowsOf
  by_cases h : e = e' <;> simp [h]

theorem finished_append (past a b : List (Nat × Collector.Row O A R I)) :
    finishedEpisodes past (a ++ b) = finishedEpisodes past a ++ finishedEpisodes (past ++ a) b := by
  induction a generalizing past with
  | nil => simp [finishedEpisodes]
  | cons p t ih =>
    obtain ⟨e, row⟩ := p
    rw [List.cons_append, finishedEpisodes, finishedEpisodes, ih]
    simp

theorem fit_append (size : Nat → Nat) (past a b : List (Nat × Collector.Row O A R I)) :
    EpisodesFit size past (a ++ b) ↔ EpisodesFit size past a ∧ EpisodesFit size (past ++ a) b := by
  induction a generalizing past with
  | nil => simp [EpisodesFit]
  | cons p t ih =>
    obtain ⟨e, row⟩ := p
    rw [List.cons_append, EpisodesFit, EpisodesFit, ih, and_assoc]
    simp

/-- The streams after one more transition. -/
theorem streams_snoc {G : Nat → List (Trans O A R)} {past : List (Nat × Collector.Row O A R I)}
    (hG : ∀ e, G e = (Collector.rowsOf e [past]).map experience) (e : Nat) (row : Collector.Row O A R I) :
    ∀ e', Function.update G e (G e ++ [experience row]) e' = (Collector.rowsOf e' [past ++ [(e, row)]]).map experience := by
  intro e'
  rw [rowsOf_past]
  by_cases h : e = e'
  · subst h
    simp [hG]
  · rw [Function.update_of_ne (Ne.symm h), if_neg h, hG]

/-- What `add` returns at the end of an episode. -/
theorem answer_end {opts : Opts O} {rows : List (Collector.Row O A R I)} {c c' : Buf O A R} {row : Collector.Row O A R I}
    {r : AddResult R} (hc : History c (ghostOf opts (rows.map experience))) (ha : c.add (experience row) = .ok (c', r))
    (hd : row.out.ended = true) :
    r.epRet = ((openEpisode rows ++ [row]).map fun r => r.out.rew).sum ∧
    ((openEpisode rows).length + 1 < c.idx.maxsize →
      (c.getBufferIndices r.epStart (r.slot + 1)).map List.length = .ok ((openEpisode rows).length + 1)) ∧
    r.epStart < c.idx.maxsize ∧ r.slot < c.idx.maxsize := by
  have h1 := ((C12_add_result hc ha).2.2.1 (by rw [experience_done, hd])).2
  have hl := openT_length_le (rows.map experience)
  have hpos := hc.inv.holds.pos
  obtain ⟨I', _, hm, hr, hlast, hdata⟩ := hc.inv.add ha
  have hslots : r.epStart < c.idx.maxsize ∧ r.slot < c.idx.maxsize := by
    subst hr
    refine ⟨Nat.mod_lt _ hpos, ?_⟩
    simp only
    rw [hc.inv.ins]
    exact Nat.mod_lt _ hpos
  refine ⟨?_, ?_, hslots.1, hslots.2⟩
  · rw [h1]
    simp only [ghostOf, openT_map, List.map_map, List.map_append, List.sum_append, List.map_cons, List.map_nil, List.sum_cons,
      List.sum_nil, add_zero]
    rfl
  · intro hfit
    have hn : (ghostOf opts (rows.map (experience (O := O) (A := A) (R := R)))).received.length + 1 -
        (ghostOf opts (rows.map experience)).startPos = (openEpisode rows).length + 1 := by
      simp only [ghostOf, List.length_map]
      rw [openT_map, List.length_map] at *
      simp only [List.length_map] at hl
      omega
    have := C13_episode_indices_partial hc ha (by rw [experience_done, hd]) (by rw [hn]; omega) (by rw [hn]; omega)
    unfold Buf.getBufferIndices at this ⊢
    rw [hm] at this
    rw [this, hn]
    simp only [Except.map, lastN, List.length_drop]
    have hs := I'.size
    have hal := I'.holds.allIndices_length
    rw [hal, hs, hm]
    simp only [List.length_append, List.length_cons, List.length_nil, ghostOf, List.length_map]
    rw [openT_map, List.length_map] at hl
    simp only [List.length_map] at hl
    congr 1
    omega

/-- The results of the environments that are done. -/
def doneResults (round : List (Nat × Collector.Row O A R I)) (res : List (AddResult R)) : List (AddResult R) :=
  ((round.zip res).filter fun p => p.1.2.out.done).map Prod.snd

theorem stats_returns {opts : Opts O} {size start : Nat → Nat} {m : Mgr O A R} (round past : List (Nat × Collector.Row O A R I))
    (G : Nat → List (Trans O A R)) (rs : List (AddResult R)) (stats : List (R × Nat))
    (hG : ∀ e, G e = (Collector.rowsOf e [past]).map experience) (ha : Answers opts size G (items round) rs)
    (hs : episodeStats m (doneResults round (List.zipWith (fun b r => AddResult.shift (start b) r) (round.map Prod.fst) rs)) = .ok stats) :
    stats.map Prod.fst = (finishedEpisodes past round).map Prod.fst := by
  induction round generalizing past G rs stats with
  | nil =>
    simp only [doneResults, List.zip_nil_left, List.filter_nil, List.map_nil, episodeStats] at hs
    cases hs
    rfl
  | cons p rest ih =>
    obtain ⟨e, row⟩ := p
    obtain ⟨r, rs', rfl, ⟨c, c', h1, h2, h3, h4⟩, hrest⟩ := ha
    have hG' := streams_snoc hG e row
    rw [finishedEpisodes, List.map_append]
    simp only [doneResults, List.map_cons, List.zipWith_cons_cons, List.zip_cons_cons, List.filter_cons] at hs
    by_cases hd : row.out.ended = true
    · rw [if_pos hd]
      rw [if_pos (show row.out.done = true from hd), List.map_cons, episodeStats] at hs
      cases hx : episodeStat m (AddResult.shift (start e) r) with
      | error er => rw [hx] at hs; cases hs
      | ok x =>
        rw [hx] at hs
        simp only at hs
        cases hy : episodeStats m (doneResults rest (List.zipWith (fun b r => AddResult.shift (start b) r) (rest.map Prod.fst) rs')) with
        | error er =>
          unfold doneResults at hy
          rw [hy] at hs; cases hs
        | ok xs =>
          have := ih _ _ _ _ hG' hrest hy
          unfold doneResults at hy
          rw [hy] at hs
          cases hs
          rw [List.map_cons, this]
          rw [hG e] at h3
          obtain ⟨f1, _⟩ := answer_end h3 h4 hd
          unfold episodeStat at hx
          split at hx
          · cases hx
          · cases hx
            simp only [AddResult.shift, List.map_cons, List.map_nil, List.singleton_append, f1]
    · rw [if_neg hd]
      rw [if_neg (show ¬ row.out.done = true from hd)] at hs
      rw [List.map_nil, List.nil_append]
      exact ih _ _ _ _ hG' hrest hs

theorem stats_ok {opts : Opts O} {size : Nat → Nat} {m : Mgr O A R} {sep : List (Buf O A R)} (hm : Reach m sep)
    (hsize : ∀ (b : Nat) (c : Buf O A R), sep[b]? = some c → c.idx.maxsize = size b) (round past : List (Nat × Collector.Row O A R I))
    (hid : ∀ p ∈ round, p.1 < sep.length)
    (G : Nat → List (Trans O A R)) (rs : List (AddResult R))
    (hG : ∀ e, G e = (Collector.rowsOf e [past]).map experience) (ha : Answers opts size G (items round) rs)
    (hfit : EpisodesFit size past round) :
    episodeStats m (doneResults round (List.zipWith (fun b r => AddResult.shift (startOf sep b) r) (round.map Prod.fst) rs)) =
      .ok (finishedEpisodes past round) := by
  induction round generalizing past G rs with
  | nil => rfl
  | cons p rest ih =>
    obtain ⟨e, row⟩ := p
    obtain ⟨r, rs', rfl, ⟨c, c', h1, h2, h3, h4⟩, hrest⟩ := ha
    have hG' := streams_snoc hG e row
    have hrec := ih _ (fun p hp => hid p (List.mem_cons_of_mem _ hp)) _ _ hG' hrest hfit.2
    rw [finishedEpisodes]
    simp only [doneResults, List.map_cons, List.zipWith_cons_cons, List.zip_cons_cons, List.filter_cons] at hrec ⊢
    by_cases hd : row.out.ended = true
    · rw [if_pos (show row.out.done = true from hd), List.map_cons, episodeStats, if_pos hd]
      have he : e < sep.length := hid (e, row) List.mem_cons_self
      have hse := List.getElem?_eq_getElem he
      have hsz := hsize e _ hse
      have h2 : c.idx.maxsize = size e := h2
      rw [hG e] at h3
      obtain ⟨f1, f2, f3, f4⟩ := answer_end h3 h4 hd
      have hx : episodeStat m (AddResult.shift (startOf sep e) r) = .ok (r.epRet, (openEpisode (Collector.rowsOf e [past])).length + 1) := by
        unfold episodeStat
        have h5 := C13_vector hm e _ hse r.epStart (r.slot + 1) (by omega) (by omega) (by omega)
        have h6 := f2 (by rw [h2]; exact hfit.1 hd)
        unfold Buf.getBufferIndices at h5 h6
        rw [hsz, ← h2] at h5
        simp only [AddResult.shift]
        rw [show r.slot + startOf sep e + 1 = r.slot + 1 + startOf sep e by omega, h5]
        cases hi : Buffer.getBufferIndices [0, c.idx.maxsize] r.epStart (r.slot + 1) with
        | error er => rw [hi] at h6; simp [Except.map] at h6
        | ok l =>
          rw [hi] at h6
          simp only [Except.map, Except.ok.injEq] at h6
          simp only [Except.map, List.length_map, h6]
      rw [hx]
      simp only
      rw [hrec]
      simp only [List.singleton_append, f1, List.length_append, List.length_cons, List.length_nil, Nat.zero_add]
    · rw [if_neg (show ¬ row.out.done = true from hd), if_neg hd, List.nil_append]
      exact hrec

/-! ### Several rounds -/

theorem record_spec {opts : Opts O} {size : Nat → Nat} (log : List (List (Nat × Collector.Row O A R I)))
    (past : List (Nat × Collector.Row O A R I)) {m : Mgr O A R} {sep : List (Buf O A R)} (hm : Reach m sep)
    {G : Nat → List (Trans O A R)} (T : Follows opts size sep G) (hG : ∀ e, G e = (Collector.rowsOf e [past]).map experience)
    (hid : ∀ p ∈ log.flatten, p.1 < sep.length) :
    (∀ m' stats, record m log = .ok (m', stats) → ∃ sep', Reach m' sep' ∧ m'.opts = m.opts ∧ sep'.length = sep.length ∧
      Follows opts size sep' (fun e => (Collector.rowsOf e [past ++ log.flatten]).map experience) ∧
      stats.map Prod.fst = (finishedEpisodes past log.flatten).map Prod.fst) ∧
    (EpisodesFit size past log.flatten → ∃ m', record m log = .ok (m', finishedEpisodes past log.flatten)) := by
  induction log generalizing past m sep G with
  | nil =>
    refine ⟨?_, fun _ => ⟨m, rfl⟩⟩
    intro m' stats h
    cases h
    refine ⟨sep, hm, rfl, rfl, ?_, rfl⟩
    simp only [List.flatten_nil, List.append_nil]
    rw [← funext hG]
    exact T
  | cons round rest ih =>
    obtain ⟨m1, sep1, rs, h1, h2, ho, h3, h4, h5, h6, h7⟩ := add_round hm T round (fun p hp => hid p (by
      rw [List.flatten_cons]; exact List.mem_append_left _ hp))
    have hG1 : ∀ e, extend G (items round) e = (Collector.rowsOf e [past ++ round]).map experience := by
      intro e
      rw [extend_items, hG e, ← List.map_append]
      simp [Collector.rowsOf]
    obtain ⟨i1, i2⟩ := ih (past ++ round) h2 h5 hG1 (fun p hp => by
      rw [h3]; exact hid p (by rw [List.flatten_cons]; exact List.mem_append_right _ hp))
    have hst : (fun b r => AddResult.shift (R := R) (startOf sep b) r) = fun b r => AddResult.shift (startOf sep1 b) r := by
      funext b r; rw [h4]
    constructor
    · intro m' stats h
      rw [record, recordRound, h1] at h
      simp only at h
      cases hs : episodeStats m1 (doneResults round (List.zipWith (fun b r => AddResult.shift (startOf sep b) r) (round.map Prod.fst) rs)) with
      | error er =>
        unfold doneResults at hs
        rw [hs] at h; cases h
      | ok xs =>
        have hx := stats_returns round past G rs xs hG h6 hs
        unfold doneResults at hs
        rw [hs] at h
        simp only at h
        cases hr : record m1 rest with
        | error er => rw [hr] at h; cases h
        | ok q =>
          obtain ⟨m2, ys⟩ := q
          rw [hr] at h
          cases h
          obtain ⟨sep', j1, jo, j2, j3, j4⟩ := i1 _ _ hr
          refine ⟨sep', j1, by rw [jo, ho], by rw [j2, h3], ?_, ?_⟩
          · rw [List.flatten_cons, ← List.append_assoc]; exact j3
          · rw [List.map_append, hx, j4, List.flatten_cons, finished_append, List.map_append]
    · intro hfit
      rw [List.flatten_cons, fit_append] at hfit
      obtain ⟨m2, hr⟩ := i2 hfit.2
      refine ⟨m2, ?_⟩
      have hs := stats_ok h2 (fun b c hc => (h5 b c hc).2.1) round past (fun p hp => by
        rw [h3]; exact hid p (by rw [List.flatten_cons]; exact List.mem_append_left _ hp)) G rs hG h6 hfit.1
      rw [← hst] at hs
      unfold doneResults at hs
      rw [record, recordRound, h1]
      simp only
      rw [hs]
      simp only
      rw [hr, List.flatten_cons, finished_append]

/-! ### Suffixes of a stream -/

theorem epLast_drop {T : Type} (done : T → Bool) (l : List T) (a k : Nat) (h : a + k < l.length) :
    epLast done (l.drop a) k + a = epLast done l (a + k) := by
  unfold epLast
  rw [List.drop_drop, List.length_drop]
  omega

end

theorem rewOf_drop [Zero R] (l : List (Trans O A R)) (a j : Nat) : rewOf (l.drop a) j = rewOf l (a + j) := by
  unfold rewOf; rw [List.getElem?_drop]

theorem termOf_drop (l : List (Trans O A R)) (a j : Nat) : termOf (l.drop a) j = termOf l (a + j) := by
  unfold termOf; rw [List.getElem?_drop]

theorem nstepLen_drop (l : List (Trans O A R)) (N a k : Nat) (h : a + k < l.length) :
    nstepLen (l.drop a) N k = nstepLen l N (a + k) := by
  have := epLast_drop Trans.done l a k h
  unfold nstepLen
  omega

theorem nstepValue_drop [CommRing R] (l : List (Trans O A R)) (gamma : R) (N a k : Nat) (h : a + k < l.length) (x : R) :
    nstepValue (l.drop a) gamma N k x = nstepValue l gamma N (a + k) x := by
  unfold nstepValue bootstrap
  rw [nstepLen_drop l N a k h, termOf_drop]
  simp only [rewOf_drop, Nat.add_assoc]

/-- The returns look only at rewards and flags. -/
theorem nstep_congr [CommRing R] (l : List (Trans O A R)) (f : Trans O A R → Trans O A R) (h1 : ∀ t, (f t).rew = t.rew)
    (h2 : ∀ t, (f t).terminated = t.terminated) (h3 : ∀ t, (f t).truncated = t.truncated) (gamma : R) (N k : Nat) (x : R) :
    nstepLen (l.map f) N k = nstepLen l N k ∧ nstepValue (l.map f) gamma N k x = nstepValue l gamma N k x := by
  have hd : ∀ t, Trans.done (f t) = Trans.done t := by intro t; simp [Trans.done, h2, h3]
  have he : epLast Trans.done (l.map f) k = epLast Trans.done l k := by
    unfold epLast
    rw [← List.map_drop, List.takeWhile_map, List.length_map, List.length_map]
    simp only [Function.comp_def, hd]
  have hr : ∀ j, rewOf (l.map f) j = rewOf l j := by
    intro j
    unfold rewOf
    rw [List.getElem?_map, Option.map_map]
    simp only [Function.comp_def, h1]
  have ht : ∀ j, termOf (l.map f) j = termOf l j := by
    intro j
    unfold termOf
    rw [List.getElem?_map, Option.map_map]
    simp only [Function.comp_def, h2]
  have hn : nstepLen (l.map f) N k = nstepLen l N k := by unfold nstepLen; rw [he]
  refine ⟨hn, ?_⟩
  unfold nstepValue bootstrap
  simp only [hn, hr, ht]

theorem flatten_get {α : Type} (L : List (List α)) (p : Nat) (x : α) (h : L.flatten[p]? = some x) :
    ∃ (b : Nat) (l : List α) (k : Nat), L[b]? = some l ∧ l[k]? = some x ∧ p = ((L.map List.length).take b).sum + k := by
  induction L generalizing p with
  | nil => simp at h
  | cons l L ih =>
    rw [List.flatten_cons] at h
    by_cases hp : p < l.length
    · rw [List.getElem?_append_left hp] at h
      exact ⟨0, l, p, rfl, h, by simp⟩
    · rw [List.getElem?_append_right (by omega)] at h
      obtain ⟨b, l', k, h1, h2, h3⟩ := ih _ h
      exact ⟨b + 1, l', k, by simpa using h1, h2, by simp only [List.map_cons, List.take_succ_cons, List.sum_cons]; omega⟩

theorem gaeSum_drop [CommRing R] (l : List (Trans O A R)) (gamma lam : R) (a k : Nat) (h : a + k < l.length) (v v' w w' : Nat → R)
    (hv : ∀ j, a + j < l.length → v j = w (a + j)) (hv' : ∀ j, a + j < l.length → v' j = w' (a + j)) :
    gaeSum (l.drop a) gamma lam v v' k = gaeSum l gamma lam w w' (a + k) := by
  have he := epLast_drop Trans.done l a k h
  have hlt : epLast Trans.done l (a + k) < l.length := by unfold epLast; omega
  unfold gaeSum
  rw [show epLast Trans.done l (a + k) - (a + k) = epLast Trans.done (l.drop a) k - k by omega]
  apply Finset.sum_congr rfl
  intro j hj
  rw [Finset.mem_range] at hj
  have hle : k ≤ epLast Trans.done (l.drop a) k := by
    unfold epLast
    rw [List.length_drop]
    omega
  have hjl : a + (k + j) < l.length := by omega
  unfold bootstrap
  rw [rewOf_drop, termOf_drop, hv _ hjl, hv' _ hjl, Nat.add_assoc]

end Verif.Pipeline
