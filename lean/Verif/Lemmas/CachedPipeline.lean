import Verif.Spec.CachedPipeline
import Verif.Model.CachedPipeline
import Verif.Lemmas.Embeds
import Verif.Lemmas.Cached
import Verif.Lemmas.BufferReads

/-! Lemmas for `Verif/Props/CachedPipeline.lean`. -/

namespace Verif.Pipeline

open Verif.Buffer Verif.Spec Verif.Returns

set_option linter.unusedSectionVars false

variable {O A R I : Type}

theorem takeWhile_all {α : Type} (p : α → Bool) (l : List α) (h : ∀ x ∈ l, p x = true) : l.takeWhile p = l := by
  induction l with
  | nil => rfl
  | cons a l ih => rw [List.takeWhile_cons, if_pos (h a (by simp)), ih (fun x hx => h x (by simp [hx]))]

theorem mem_takeWhile {α : Type} (p : α → Bool) (l : List α) : ∀ x ∈ l.takeWhile p, p x = true := by
  induction l with
  | nil => simp
  | cons a l ih =>
    intro x hx
    rw [List.takeWhile_cons] at hx
    split at hx
    · rcases List.mem_cons.mp hx with rfl | hx
      · assumption
      · exact ih x hx
    · simp at hx

/-! ### Episodes inside a list of transitions -/

/-- A run of transitions that ends with the first of them that ends an episode. -/
def IsEp (w : List (Trans O A R)) : Prop := ∃ u t, w = u ++ [t] ∧ t.done = true ∧ ∀ x ∈ u, x.done = false

theorem IsEp.drop {w : List (Trans O A R)} (h : IsEp w) (j : Nat) (hj : j < w.length) : IsEp (w.drop j) := by
  obtain ⟨u, t, rfl, h1, h2⟩ := h
  rw [List.length_append, List.length_singleton] at hj
  refine ⟨u.drop j, t, ?_, h1, fun x hx => h2 x (List.mem_of_mem_drop hx)⟩
  rw [List.drop_append, show j - u.length = 0 by omega, List.drop_zero]

theorem takeWhile_ep (u : List (Trans O A R)) (t : Trans O A R) (r : List (Trans O A R)) (h1 : t.done = true)
    (h2 : ∀ x ∈ u, x.done = false) : ((u ++ [t] ++ r).takeWhile fun t => !t.done) = u := by
  induction u with
  | nil => simp [h1]
  | cons a u ih =>
    have ha := h2 a (by simp)
    have := ih (fun x hx => h2 x (by simp [hx]))
    simp only [List.cons_append, List.takeWhile_cons, ha, Bool.not_false, if_true, List.cons.injEq, true_and]
    exact this

theorem rest_of_ep {c w r : List (Trans O A R)} {k : Nat} (h : c.drop k = w ++ r) (hw : IsEp w) : rest c k = w := by
  obtain ⟨u, t, rfl, h1, h2⟩ := hw
  have hl := congrArg List.length h
  simp only [List.length_drop, List.length_append, List.length_singleton] at hl
  unfold rest epLast
  rw [h, takeWhile_ep u t r h1 h2, show min (k + u.length) (c.length - 1) - k + 1 = (u ++ [t]).length by
    simp only [List.length_append, List.length_singleton]; omega, List.take_left]

/-- The stored rest of an episode that does not end: everything that follows. -/
theorem rest_of_open {c : List (Trans O A R)} {k : Nat} (hk : k < c.length) (h : ∀ x ∈ c.drop k, x.done = false) : rest c k = c.drop k := by
  unfold rest epLast
  have : ((c.drop k).takeWhile fun t => !t.done) = c.drop k := by
    apply takeWhile_all
    intro x hx
    simp [h x hx]
  rw [this, List.length_drop, List.take_of_length_le]
  rw [List.length_drop]
  omega

/-- Each transition of `main` is a step of one of `n` streams, and the rest of its episode in `main` is the rest of its episode there, up to
the end of the episode. -/
def Whole (n : Nat) (stream : Nat → List (Trans O A R)) (main : List (Trans O A R)) : Prop :=
  ∀ k < main.length, ∃ e k' w r r', e < n ∧ main.drop k = w ++ r ∧ (stream e).drop k' = w ++ r' ∧ IsEp w

theorem Whole.append {n : Nat} {stream stream' : Nat → List (Trans O A R)} {main more : List (Trans O A R)}
    (h : Whole n stream main) (h' : Whole n stream' more) (hs : ∀ e, ∃ x, stream' e = stream e ++ x) : Whole n stream' (main ++ more) := by
  intro k hk
  by_cases hlt : k < main.length
  · obtain ⟨e, k', w, r, r', h1, h2, h3, h4⟩ := h k hlt
    obtain ⟨x, hx⟩ := hs e
    refine ⟨e, k', w, r ++ more, r' ++ x, h1, ?_, ?_, h4⟩
    · rw [List.drop_append, h2, show k - main.length = 0 by omega, List.drop_zero, List.append_assoc]
    · have hl := congrArg List.length h3
      obtain ⟨u, t, rfl, _⟩ := h4
      simp only [List.length_drop, List.length_append, List.length_singleton] at hl
      rw [hx, List.drop_append, h3, show k' - (stream e).length = 0 by omega, List.drop_zero, List.append_assoc]
  · rw [List.length_append] at hk
    obtain ⟨e, k', w, r, r', h1, h2, h3, h4⟩ := h' (k - main.length) (by omega)
    refine ⟨e, k', w, r, r', h1, ?_, h3, h4⟩
    rw [List.drop_append, List.drop_eq_nil_of_le (by omega), List.nil_append, h2]

theorem whole_ep {n : Nat} {stream : Nat → List (Trans O A R)} (e : Nat) (he : e < n) (pre ep : List (Trans O A R))
    (h : stream e = pre ++ ep) (hep : IsEp ep) (L : Nat) : Whole n stream (lastN L ep) := by
  intro k hk
  unfold lastN at hk ⊢
  rw [List.length_drop] at hk
  refine ⟨e, pre.length + (ep.length - L + k), ep.drop (ep.length - L + k), [], [], he, ?_, ?_, hep.drop _ (by omega)⟩
  · rw [List.drop_drop, List.append_nil]
  · rw [h, List.drop_append, List.drop_eq_nil_of_le (by omega), List.nil_append, List.append_nil]
    congr 1
    omega

/-! ### The finished episodes -/

theorem openEpisode_snoc (rows : List (Collector.Row O A R I)) (row : Collector.Row O A R I) :
    openEpisode (rows ++ [row]) = if row.out.ended then [] else openEpisode rows ++ [row] := by
  unfold openEpisode
  rw [List.reverse_append, List.reverse_singleton, List.singleton_append, List.takeWhile_cons]
  cases h : row.out.ended <;> simp

theorem openEpisode_suffix (rows : List (Collector.Row O A R I)) : ∃ pre, rows = pre ++ openEpisode rows := by
  obtain ⟨x, hx⟩ := List.takeWhile_prefix (l := rows.reverse) (fun r => !r.out.ended)
  refine ⟨x.reverse, ?_⟩
  have := congrArg List.reverse hx
  rw [List.reverse_append, List.reverse_reverse] at this
  exact this.symm

theorem openEpisode_open (rows : List (Collector.Row O A R I)) : ∀ r ∈ openEpisode rows, r.out.ended = false := by
  intro r hr
  unfold openEpisode at hr
  rw [List.mem_reverse] at hr
  have := mem_takeWhile _ _ r hr
  simpa using this

theorem openEpisode_idem (rows : List (Collector.Row O A R I)) : openEpisode (openEpisode rows) = openEpisode rows := by
  unfold openEpisode
  rw [List.reverse_reverse, takeWhile_all]
  exact mem_takeWhile _ _

theorem completed_append (L : Nat) (f : Collector.Row O A R I → Trans O A R) (past a b : List (Nat × Collector.Row O A R I)) :
    completed L f past (a ++ b) = completed L f past a ++ completed L f (past ++ a) b := by
  induction a generalizing past with
  | nil => simp [completed]
  | cons p t ih =>
    obtain ⟨e, row⟩ := p
    rw [List.cons_append, completed, completed, ih]
    simp

theorem rowsOf_append (e : Nat) (a b : List (Nat × Collector.Row O A R I)) :
    Collector.rowsOf e [a ++ b] = Collector.rowsOf e [a] ++ Collector.rowsOf e [b] := by
  simp [Collector.rowsOf]

/-- Every transition among the finished episodes is a step of its stream. -/
theorem whole_completed [AddCommMonoid R] (L n : Nat) (f : Collector.Row O A R I → Trans O A R) (hf : ∀ r, (f r).done = r.out.ended)
    (new past : List (Nat × Collector.Row O A R I)) (hid : ∀ p ∈ new, p.1 < n) :
    Whole n (fun e => (Collector.rowsOf e [past ++ new]).map f) (completed L f past new) := by
  induction new generalizing past with
  | nil => intro k hk; simp [completed] at hk
  | cons p t ih =>
    obtain ⟨e, row⟩ := p
    have hrec := ih (past ++ [(e, row)]) (fun p hp => hid p (by simp [hp]))
    rw [List.append_assoc, List.singleton_append] at hrec
    rw [completed]
    apply Whole.append (stream := fun e' => (Collector.rowsOf e' [past ++ [(e, row)]]).map f) ?_ hrec
    · intro e'
      refine ⟨(Collector.rowsOf e' [t]).map f, ?_⟩
      rw [← List.map_append, ← rowsOf_append, List.append_assoc, List.singleton_append]
    · split_ifs with hd
      · obtain ⟨pre, hpre⟩ := openEpisode_suffix (Collector.rowsOf e [past])
        apply whole_ep e (hid (e, row) (by simp)) (pre.map f)
        · rw [rowsOf_past, if_pos rfl]
          conv_lhs => rw [hpre]
          rw [List.append_assoc, List.map_append]
        · refine ⟨(openEpisode (Collector.rowsOf e [past])).map f, f row, by simp, by rw [hf, hd], ?_⟩
          intro x hx
          rw [List.mem_map] at hx
          obtain ⟨r, hr, rfl⟩ := hx
          rw [hf]
          exact openEpisode_open _ r hr
      · intro k hk; simp at hk

/-! ### The separate buffers -/

section
variable [AddCommMonoid R]

/-- The main buffer has received the transitions `main`, the cached buffer of environment `b` the transitions `G b` since it was emptied. -/
def CFollows (o : Opts O) (M L : Nat) (sep : List (Buf O A R)) (main : List (Trans O A R)) (G : Nat → List (Trans O A R)) : Prop :=
  (∀ c, sep[0]? = some c → c.opts = o ∧ c.idx.maxsize = M ∧ ∃ g, History c g ∧ g.received = main) ∧
  Follows o (fun _ => L) sep.tail G

theorem tail_set_succ {α : Type} (l : List α) (b : Nat) (x : α) : (l.set (b + 1) x).tail = l.tail.set b x := by
  cases l <;> simp

theorem routeAll_shift (items : List (Nat × Trans O A R)) {sep sep' : List (Buf O A R)} {rs : List (AddResult R)}
    (h : routeAll sep (items.map fun p => (p.1 + 1, p.2)) = some (sep', rs)) :
    sep'[0]? = sep[0]? ∧ routeAll sep.tail items = some (sep'.tail, rs) := by
  induction items generalizing sep rs with
  | nil => cases h; exact ⟨rfl, rfl⟩
  | cons p items ih =>
    obtain ⟨b, t⟩ := p
    simp only [List.map_cons, routeAll] at h ⊢
    rw [List.getElem?_tail]
    cases hb : sep[b + 1]? with
    | none => rw [hb] at h; cases h
    | some buf =>
      simp only [hb] at h ⊢
      cases ha : buf.add t with
      | error e => rw [ha] at h; cases h
      | ok q =>
        obtain ⟨buf', r⟩ := q
        simp only [ha] at h ⊢
        cases hr : routeAll (sep.set (b + 1) buf') (items.map fun p => (p.1 + 1, p.2)) with
        | none => rw [hr] at h; cases h
        | some q =>
          obtain ⟨sep1, rs1⟩ := q
          simp only [hr, Option.some.injEq, Prod.mk.injEq] at h
          obtain ⟨rfl, rfl⟩ := h
          obtain ⟨i1, i2⟩ := ih hr
          rw [tail_set_succ] at i2
          rw [i2]
          refine ⟨?_, rfl⟩
          rw [i1, List.getElem?_set_ne (by omega)]

theorem openT_nil : openT ([] : List (Trans O A R)) = [] := rfl

/-- The slots of one move. -/
def Run (M k : Nat) (slots : List Nat) : Prop := ∃ s, slots = (List.range k).map fun j => (s + j) % M

theorem CFollows.moves {o : Opts O} {M L : Nat} (l : List Nat) (hnd : l.Nodup) {sep sep' : List (Buf O A R)}
    {main : List (Trans O A R)} {G : Nat → List (Trans O A R)} (T : CFollows o M L sep main G)
    (h : moveAll sep (l.map (· + 1)) = some sep') :
    CFollows o M L sep' (main ++ (l.map fun b => lastN L ((G b).map (expectedRow o))).flatten) (fun b => if b ∈ l then [] else G b) ∧
      List.Forall₂ (fun b slots => Run M (min L (G b).length) slots) l (moveSlots sep (l.map (· + 1))) ∧ sep'.length = sep.length := by
  induction l generalizing sep main G with
  | nil =>
    cases h
    refine ⟨by simpa using T, .nil, rfl⟩
  | cons b l ih =>
    simp only [List.map_cons, moveAll, moveSlots] at h ⊢
    cases hm : sep[0]? with
    | none => rw [hm] at h; cases h
    | some cm =>
      cases hc : sep[b + 1]? with
      | none => rw [hm, hc] at h; cases h
      | some c =>
        rw [hm, hc] at h
        simp only at h ⊢
        obtain ⟨m1, m2, gm, hgm, hgmr⟩ := T.1 cm hm
        obtain ⟨c1, c2, hgc⟩ := T.2 b c (by rw [List.getElem?_tail]; exact hc)
        obtain ⟨_, hslots, u1, u2⟩ := hgm.inv.update hgc.inv
        have T' : CFollows o M L ((sep.set 0 (cm.update c).1).set (b + 1) (c.reset false))
            (main ++ lastN L ((G b).map (expectedRow o))) (Function.update G b []) := by
          constructor
          · intro d hd
            rw [List.getElem?_set_ne (by omega), List.getElem?_set_self (List.getElem?_eq_some_iff.mp hm).1] at hd
            cases hd
            refine ⟨u1.trans m1, u2.trans m2, _, hgm.update hgc, ?_⟩
            simp only [hgmr, c2]
            rfl
          · intro j d hd
            rw [tail_set_succ, List.getElem?_set] at hd
            split at hd
            · rename_i hbj
              subst hbj
              split at hd
              · cases hd
                refine ⟨c1, c2, ?_⟩
                rw [Function.update_self]
                simpa [ghostOf, openT] using hgc.reset false
              · cases hd
            · rename_i hbj
              rw [Function.update_of_ne (Ne.symm hbj)]
              apply T.2 j d
              rw [List.getElem?_tail] at hd ⊢
              rwa [List.getElem?_set_ne (by omega)] at hd
        obtain ⟨hb, hnd'⟩ := List.nodup_cons.mp hnd
        obtain ⟨i1, i2, i3⟩ := ih hnd' T' h
        have hGl : ∀ b' ∈ l, Function.update G b [] b' = G b' := by
          intro b' hb'
          apply Function.update_of_ne
          intro he
          subst he
          exact hb hb'
        refine ⟨?_, .cons ?_ ?_, by rw [i3]; simp⟩
        · rw [List.map_congr_left (g := fun b => lastN L ((G b).map (expectedRow o))) (fun b' hb' => by simp only [hGl b' hb'])] at i1
          rw [List.flatten_cons, ← List.append_assoc]
          convert i1 using 1
          funext b'
          by_cases hbb : b' = b
          · subst hbb; simp [hb]
          · simp [hbb]
        · refine ⟨gm.received.length, ?_⟩
          have hs := hgc.inv.size
          have : c.len = min L (G b).length := by
            unfold Buf.len
            rw [hs, c2]
            simp [ghostOf, min_comm]
          rw [hslots, m2, this]
        · clear i1 h
          revert i2
          generalize moveSlots ((sep.set 0 (cm.update c).1).set (b + 1) (c.reset false)) (l.map (· + 1)) = ss
          intro i2
          have : ∀ (l' : List Nat) (ss : List (List Nat)), (∀ b' ∈ l', Function.update G b [] b' = G b') →
              List.Forall₂ (fun b' slots => Run M (min L (Function.update G b [] b').length) slots) l' ss →
              List.Forall₂ (fun b' slots => Run M (min L (G b').length) slots) l' ss := by
            intro l' ss hl' hf
            induction hf with
            | nil => exact .nil
            | cons h1 _ ih' =>
              refine .cons ?_ (ih' (fun b' hb' => hl' b' (by simp [hb'])))
              rw [hl' _ (by simp)] at h1
              exact h1
          exact this l ss hGl i2

/-! ### One round -/

theorem rowsOf_none (e : Nat) (round : List (Nat × Collector.Row O A R I)) (h : e ∉ round.map Prod.fst) :
    Collector.rowsOf e [round] = [] := by
  unfold Collector.rowsOf
  rw [List.map_eq_nil_iff, List.filter_eq_nil_iff]
  intro p hp
  simp only [List.flatten_cons, List.flatten_nil, List.append_nil] at hp
  simp only [decide_eq_true_eq]
  intro he
  exact h (he ▸ List.mem_map_of_mem hp)

theorem rowsOf_one (round : List (Nat × Collector.Row O A R I)) (hnd : (round.map Prod.fst).Nodup) (p : Nat × Collector.Row O A R I)
    (hp : p ∈ round) : Collector.rowsOf p.1 [round] = [p.2] := by
  induction round with
  | nil => simp at hp
  | cons q t ih =>
    rw [List.map_cons, List.nodup_cons] at hnd
    rw [show q :: t = [q] ++ t from rfl, rowsOf_append]
    rcases List.mem_cons.mp hp with rfl | hp
    · rw [rowsOf_none _ t hnd.1]
      simp [Collector.rowsOf]
    · rw [ih hnd.2 hp]
      have : q.1 ≠ p.1 := fun h => hnd.1 (h ▸ List.mem_map_of_mem hp)
      simp [Collector.rowsOf, this]

/-- The environments whose episodes end in a round. -/
def doneIds (round : List (Nat × Collector.Row O A R I)) : List Nat := (round.filter fun p => p.2.out.ended).map Prod.fst

theorem doneIds_cons (p : Nat × Collector.Row O A R I) (t : List (Nat × Collector.Row O A R I)) :
    doneIds (p :: t) = if p.2.out.ended then p.1 :: doneIds t else doneIds t := by
  unfold doneIds
  rw [List.filter_cons]
  split_ifs <;> rfl

theorem doneIds_nodup (round : List (Nat × Collector.Row O A R I)) (hnd : (round.map Prod.fst).Nodup) : (doneIds round).Nodup :=
  List.Nodup.sublist (List.filter_sublist.map Prod.fst) hnd

theorem doneIds_shift (round : List (Nat × Collector.Row O A R I)) :
    ((((round.map Prod.fst).zip (round.map fun p => experience p.2)).filter fun p => p.2.terminated || p.2.truncated).map fun p => p.1 + 1) =
      (doneIds round).map (· + 1) := by
  induction round with
  | nil => rfl
  | cons p t ih =>
    rw [doneIds_cons, List.map_cons, List.map_cons, List.zip_cons_cons, List.filter_cons]
    by_cases hd : p.2.out.ended = true
    · rw [if_pos (show ((experience (O := O) (A := A) (R := R) p.2).terminated || (experience p.2).truncated) = true from hd), if_pos hd,
        List.map_cons, List.map_cons, ih]
    · rw [if_neg (show ¬ ((experience (O := O) (A := A) (R := R) p.2).terminated || (experience p.2).truncated) = true from hd), if_neg hd, ih]

/-- `H` gives for each environment of the round its episode with the step of this round. -/
def Ends (past round : List (Nat × Collector.Row O A R I)) (H : Nat → List (Trans O A R)) : Prop :=
  ∀ p ∈ round, H p.1 = (openEpisode (Collector.rowsOf p.1 [past]) ++ [p.2]).map experience

theorem Ends.tail {past t : List (Nat × Collector.Row O A R I)} {e : Nat} {row : Collector.Row O A R I} {H : Nat → List (Trans O A R)}
    (h : Ends past ((e, row) :: t) H) (hnd : (((e, row) :: t).map Prod.fst).Nodup) : Ends (past ++ [(e, row)]) t H := by
  intro p hp
  rw [List.map_cons, List.nodup_cons] at hnd
  have hne : e ≠ p.1 := fun he => hnd.1 (List.mem_map.mpr ⟨p, hp, he.symm⟩)
  rw [h p (by simp [hp]), rowsOf_past, if_neg hne]

theorem completed_round (L : Nat) (o : Opts O) (round past : List (Nat × Collector.Row O A R I)) (H : Nat → List (Trans O A R))
    (hnd : (round.map Prod.fst).Nodup) (hH : Ends past round H) :
    ((doneIds round).map fun b => lastN L ((H b).map (expectedRow o))).flatten =
      completed L (fun r => expectedRow o (experience r)) past round := by
  induction round generalizing past with
  | nil => rfl
  | cons p t ih =>
    obtain ⟨e, row⟩ := p
    have hrec := ih (past ++ [(e, row)]) (List.nodup_cons.mp hnd).2 (hH.tail hnd)
    rw [completed, doneIds_cons]
    split_ifs with hd
    · rw [List.map_cons, List.flatten_cons, hrec, hH (e, row) (by simp), List.map_map]
      rfl
    · rw [hrec]; rfl

theorem opened_round (round past : List (Nat × Collector.Row O A R I)) (G : Nat → List (Trans O A R)) (hnd : (round.map Prod.fst).Nodup)
    (hG : ∀ e, G e = (openEpisode (Collector.rowsOf e [past])).map experience) (b : Nat) :
    (if b ∈ doneIds round then [] else extend G (items round) b) = (openEpisode (Collector.rowsOf b [past ++ round])).map experience := by
  rw [extend_items, rowsOf_append, hG]
  by_cases hb : b ∈ round.map Prod.fst
  · rw [List.mem_map] at hb
    obtain ⟨p, hp, rfl⟩ := hb
    rw [rowsOf_one round hnd p hp, openEpisode_snoc]
    have hiff : p.1 ∈ doneIds round ↔ p.2.out.ended = true := by
      unfold doneIds
      rw [List.mem_map]
      constructor
      · rintro ⟨q, hq, he⟩
        rw [List.mem_filter] at hq
        have h1 := rowsOf_one round hnd q hq.1
        rw [he, rowsOf_one round hnd p hp] at h1
        simp only [List.cons.injEq, and_true] at h1
        rw [h1]; exact hq.2
      · intro he
        exact ⟨p, List.mem_filter.mpr ⟨hp, he⟩, rfl⟩
    by_cases hd : p.2.out.ended = true
    · rw [if_pos (hiff.mpr hd), if_pos hd]; rfl
    · rw [if_neg (fun h => hd (hiff.mp h)), if_neg hd, List.map_append]
  · have hb' : b ∉ doneIds round := by
      intro h
      unfold doneIds at h
      rw [List.mem_map] at h
      obtain ⟨q, hq, rfl⟩ := h
      exact hb (List.mem_map_of_mem (List.mem_filter.mp hq).1)
    rw [if_neg hb', rowsOf_none b round hb, List.map_nil, List.append_nil, List.append_nil]

theorem ends_round (round past : List (Nat × Collector.Row O A R I)) (G : Nat → List (Trans O A R)) (hnd : (round.map Prod.fst).Nodup)
    (hG : ∀ e, G e = (openEpisode (Collector.rowsOf e [past])).map experience) : Ends past round (extend G (items round)) := by
  intro p hp
  rw [extend_items, hG, rowsOf_one round hnd p hp, List.map_append]

/-- What `add` returns for an environment that is done, compared with the episode: return and length, and a run of slots of the
main buffer. -/
def Ended (M L : Nat) (r : CachedResult R) (x : R × Nat) : Prop :=
  r.epRet = x.1 ∧ r.epLen = x.2 ∧ 0 < x.2 ∧ ∃ s, r.epStart = ((s % M : Nat) : Int) ∧ r.slot = (((s + (min L x.2 - 1)) % M : Nat) : Int)

theorem cached_results {o : Opts O} {M L : Nat} (hL : 0 < L) {start : Nat → Nat} (round past : List (Nat × Collector.Row O A R I))
    (G H : Nat → List (Trans O A R)) (rs : List (AddResult R)) (ss : List (List Nat)) (res : List (CachedResult R))
    (hnd : (round.map Prod.fst).Nodup)
    (hG : ∀ p ∈ round, G p.1 = (openEpisode (Collector.rowsOf p.1 [past])).map experience) (hH : Ends past round H)
    (ha : Answers o (fun _ => L) G (items round) rs)
    (hs : List.Forall₂ (fun b slots => Run M (min L (H b).length) slots) (doneIds round) ss)
    (hr : CachedResults (round.map fun p => p.2.out.ended)
      (List.zipWith (fun b r => AddResult.shift (start b) r) (round.map Prod.fst) rs) ss res) :
    List.Forall₂ (Ended M L) (((round.zip res).filter fun p => p.1.2.out.done).map Prod.snd) (finishedEpisodes past round) := by
  induction round generalizing past G rs ss res with
  | nil => exact .nil
  | cons p t ih =>
    obtain ⟨e, row⟩ := p
    obtain ⟨r, rs', rfl, ⟨c, c', h1, h2, h3, h4⟩, hrest⟩ := ha
    have hnd' := List.nodup_cons.mp hnd
    have hne : ∀ p ∈ t, e ≠ p.1 := fun p hp he => hnd'.1 (List.mem_map.mpr ⟨p, hp, he.symm⟩)
    have hG' : ∀ p ∈ t, Function.update G e (G e ++ [experience row]) p.1 =
        (openEpisode (Collector.rowsOf p.1 [past ++ [(e, row)]])).map experience := by
      intro p hp
      rw [Function.update_of_ne (hne p hp).symm, hG p (by simp [hp]), rowsOf_past, if_neg (hne p hp)]
    rw [doneIds_cons] at hs
    simp only [List.map_cons, List.zipWith_cons_cons] at hr
    rw [finishedEpisodes]
    by_cases hd : row.out.ended = true
    · simp only [hd, if_true] at hs
      rw [hd] at hr
      cases hs with
      | @cons _ slots _ ss' hrun hs' =>
      cases hr with
      | @ended _ _ _ out _ _ first last hfi hla hr' =>
      have hrec := ih _ _ _ _ _ hnd'.2 hG' (hH.tail hnd) hrest hs' hr'
      rw [List.zip_cons_cons, List.filter_cons, if_pos (show row.out.done = true from hd), List.map_cons, if_pos hd, List.singleton_append]
      refine .cons ?_ hrec
      have hGe := hG (e, row) (by simp)
      simp only at hGe
      rw [hGe] at h3
      obtain ⟨f1, _⟩ := answer_end h3 h4 hd
      have f2 := ((C12_add_result h3 h4).2.2.1 (by rw [experience_done, hd])).1
      simp only [ghostOf, openT_map, List.length_map, openEpisode_idem] at f2
      rw [openEpisode_idem] at f1
      refine ⟨f1, ?_, by simp, ?_⟩
      · simp only [AddResult.shift, f2, List.length_append, List.length_cons, List.length_nil]
      · obtain ⟨s, hs⟩ := hrun
        have hHe := hH (e, row) (by simp)
        simp only at hHe
        rw [hHe] at hs
        simp only [List.length_map] at hs
        refine ⟨s, ?_, ?_⟩
        · have hk : 0 < min L (openEpisode (Collector.rowsOf e [past]) ++ [row]).length := by
            rw [List.length_append, List.length_singleton]; omega
          rw [hs, List.head?_map, List.head?_range] at hfi
          rw [if_neg (by omega)] at hfi
          simp only [Option.map_some, Option.some.injEq, Nat.add_zero] at hfi
          simp only [← hfi]
        · have hk : 0 < min L (openEpisode (Collector.rowsOf e [past]) ++ [row]).length := by
            rw [List.length_append, List.length_singleton]; omega
          rw [hs, List.getLast?_map, List.getLast?_range, if_neg (by omega)] at hla
          simp only [Option.map_some, Option.some.injEq] at hla
          simp only [← hla]
    · simp only [hd] at hs
      have hd' : row.out.ended = false := by simpa using hd
      rw [hd'] at hr
      cases hr with
      | opened _ hr' =>
      have hrec := ih _ _ _ _ _ hnd'.2 hG' (hH.tail hnd) hrest (by simpa using hs) hr'
      rw [List.zip_cons_cons, List.filter_cons, if_neg (show ¬ row.out.done = true from hd), if_neg hd, List.nil_append]
      exact hrec

/-- The `CachedReplayBuffer` `m` after the transitions `past`. -/
structure CState (o : Opts O) (M L n : Nat) (m : Mgr O A R) (sep : List (Buf O A R)) (past : List (Nat × Collector.Row O A R I)) : Prop where
  reach : Reach m sep
  opts : m.opts = o
  len : sep.length = n + 1
  follows : CFollows o M L sep (completed L (fun r => expectedRow o (experience r)) [] past)
    (fun e => (openEpisode (Collector.rowsOf e [past])).map experience)

theorem cached_round {o : Opts O} {M L n : Nat} (hL : 0 < L) {m : Mgr O A R} {sep : List (Buf O A R)}
    {past : List (Nat × Collector.Row O A R I)} (S : CState o M L n m sep past) (round : List (Nat × Collector.Row O A R I))
    (hid : ∀ p ∈ round, p.1 < n) (hnd : (round.map Prod.fst).Nodup) :
    ∃ m' sep' res, m.cachedAdd (round.map Prod.fst) (round.map fun p => toTrans p.2) = .ok (m', res) ∧ CState o M L n m' sep' (past ++ round) ∧
      List.Forall₂ (Ended M L) (((round.zip res).filter fun p => p.1.2.out.done).map Prod.snd) (finishedEpisodes past round) := by
  obtain ⟨m', res, sep1, rs, sep2, h1, h2, h3, h4, h5⟩ := S.reach.inv.cachedAdd (ids := round.map Prod.fst)
    (rows := round.map fun p => experience p.2) (by simp) (by
      intro b hb
      rw [List.mem_map] at hb
      obtain ⟨p, hp, rfl⟩ := hb
      have := hid p hp
      rw [S.len]
      omega) hnd
  have hreach := S.reach.cachedAdd hnd h1 h2 h3
  rw [doneIds_shift] at h3 h5
  have hz : ((round.map Prod.fst).map (· + 1)).zip (round.map fun p => experience (O := O) (A := A) (R := R) p.2) =
      (items round).map fun p => (p.1 + 1, p.2) := by
    rw [List.zip_map_left, items_zip]; rfl
  rw [hz] at h2
  have hlen1 := (routeAll_bound _ h2).2
  obtain ⟨r1, r2⟩ := routeAll_shift _ h2
  obtain ⟨f1, f2⟩ := S.follows.2.route _ r2
  have T1 : CFollows o M L sep1 (completed L (fun r => expectedRow o (experience r)) [] past)
      (extend (fun e => (openEpisode (Collector.rowsOf e [past])).map experience) (items round)) := by
    refine ⟨?_, f1⟩
    rw [r1]
    exact S.follows.1
  obtain ⟨g1, g2, g3⟩ := T1.moves _ (doneIds_nodup round hnd) h3
  have hends := ends_round round past (fun e => (openEpisode (Collector.rowsOf e [past])).map (experience (O := O) (A := A) (R := R))) hnd
    (fun _ => rfl)
  have happ := completed_append L (fun r => expectedRow o (experience (O := O) (A := A) (R := R) (I := I) r)) [] past round
  rw [List.nil_append] at happ
  rw [completed_round L o round past _ hnd hends, ← happ] at g1
  rw [funext (opened_round round past _ hnd (fun _ => rfl))] at g1
  have hlen2 : sep2.length = n + 1 := by rw [g3, hlen1, S.len]
  refine ⟨m', sep2, res, h1, ⟨hreach, ?_, hlen2, g1⟩, ?_⟩
  · have h0 : sep2[0]? = some sep2[0] := List.getElem?_eq_getElem (by omega)
    obtain ⟨s, _, hs⟩ := h4.get' h0
    have := (g1.1 _ h0).1
    rw [← this, hs]
    rfl
  · rw [List.map_map] at h5
    exact cached_results hL round past _ _ rs _ res hnd (fun _ _ => rfl) hends f2 g2 h5

/-- A reset `CachedReplayBuffer`. -/
theorem cstate_reset {n L : Nat} {o : Opts O} {m : Mgr O A R} {s : Cached O A R} (h : CHistory n L o m s) :
    ∃ sep, CState o (mainSize m) L n (m.reset false) sep ([] : List (Nat × Collector.Row O A R I)) ∧ 0 < L := by
  obtain ⟨sep, M, hM, hL, hR, hlen, hT⟩ := h.tracks
  refine ⟨_, ⟨hR.reset false, ?_, ?_, ?_, ?_⟩, hL⟩
  · have h0 : sep[0]? = some sep[0] := List.getElem?_eq_getElem (by omega)
    obtain ⟨s, _, hs⟩ := hR.inv.get' h0
    rw [← (hT 0 _ h0).1, hs]
    rfl
  · rw [List.length_map, hlen]
  · intro c hc
    rw [List.getElem?_map, Option.map_eq_some_iff] at hc
    obtain ⟨c0, h0, rfl⟩ := hc
    obtain ⟨a1, a2, g, hg, _⟩ := hT 0 c0 h0
    refine ⟨a1, ?_, _, hg.reset false, rfl⟩
    obtain ⟨s, hs, hcs⟩ := hR.inv.get' h0
    rw [mainSize, hs, hcs]
    rfl
  · intro b c hc
    rw [List.getElem?_tail, List.getElem?_map, Option.map_eq_some_iff] at hc
    obtain ⟨c0, h0, rfl⟩ := hc
    obtain ⟨a1, a2, g, hg, _⟩ := hT (b + 1) c0 h0
    refine ⟨a1, a2, ?_⟩
    have := hg.reset false
    simpa [ghostOf, openT, openEpisode, Collector.rowsOf] using this

/-! ### Statistics -/

theorem cached_stat {o : Opts O} {M L n : Nat} (hL : 0 < L) (hLM : L < M) {m : Mgr O A R} {sep : List (Buf O A R)}
    {past : List (Nat × Collector.Row O A R I)} (S : CState o M L n m sep past) {r : CachedResult R} {x : R × Nat} (h : Ended M L r x) :
    cachedStat m r = .ok (x.1, min L x.2) := by
  obtain ⟨h1, _, h2, s, h3, h4⟩ := h
  have hpos : 0 < sep.length := by have := S.len; omega
  have h0 : sep[0]? = some sep[0] := List.getElem?_eq_getElem hpos
  have hM := (S.follows.1 _ h0).2.1
  have hlt : s % M < M := Nat.mod_lt _ (by omega)
  have hlt' : (s + (min L x.2 - 1)) % M < M := Nat.mod_lt _ (by omega)
  have hv := C13_vector S.reach 0 _ h0 (s % M) ((s + (min L x.2 - 1)) % M + 1) (by omega) (by omega) (by omega)
  simp only [startOf, List.take_zero, List.map_nil, List.sum_nil, Nat.add_zero] at hv
  have hring := getBufferIndices_ring M (s % M) (min L x.2) hlt (by omega) (by omega)
  rw [if_neg (by omega), Nat.mod_add_mod] at hring
  unfold cachedStat
  rw [h3, h4, if_neg (by omega)]
  simp only [Int.toNat_natCast]
  rw [hv]
  unfold Buf.getBufferIndices
  rw [hM, hring]
  simp [Except.map, h1]

theorem cached_stats {o : Opts O} {M L n : Nat} (hL : 0 < L) (hLM : L < M) {m : Mgr O A R} {sep : List (Buf O A R)}
    {past : List (Nat × Collector.Row O A R I)} (S : CState o M L n m sep past) {rs : List (CachedResult R)} {xs : List (R × Nat)}
    (h : List.Forall₂ (Ended M L) rs xs) : cachedStats m rs = .ok (xs.map fun x => (x.1, min L x.2)) := by
  induction h with
  | nil => rfl
  | cons h1 _ ih => rw [cachedStats, cached_stat hL hLM S h1, ih]; rfl

theorem cached_lens {M L : Nat} {rs : List (CachedResult R)} {xs : List (R × Nat)}
    (h : List.Forall₂ (Ended M L) rs xs) : rs.map (fun r => (r.epRet, r.epLen)) = xs := by
  induction h with
  | nil => rfl
  | cons h1 _ ih => rw [List.map_cons, ih, h1.1, h1.2.1]

theorem cached_record {o : Opts O} {M L n : Nat} (hL : 0 < L) (hLM : L < M) (log : List (List (Nat × Collector.Row O A R I)))
    {m : Mgr O A R} {sep : List (Buf O A R)}
    {past : List (Nat × Collector.Row O A R I)} (S : CState o M L n m sep past)
    (hid : ∀ p ∈ log.flatten, p.1 < n) (hnd : ∀ round ∈ log, (round.map Prod.fst).Nodup) :
    ∃ m' sep', cachedRecord m log = .ok (m', (finishedEpisodes past log.flatten).map fun x => (x.1, min L x.2)) ∧
      CState o M L n m' sep' (past ++ log.flatten) := by
  induction log generalizing past m sep with
  | nil => exact ⟨m, sep, rfl, by simpa using S⟩
  | cons round rest ih =>
    obtain ⟨m1, sep1, res, h1, h2, h3⟩ := cached_round hL S round (fun p hp => hid p (by
      rw [List.flatten_cons]; exact List.mem_append_left _ hp)) (hnd round (by simp))
    obtain ⟨m2, sep2, i1, i2⟩ := ih h2 (fun p hp => hid p (by rw [List.flatten_cons]; exact List.mem_append_right _ hp))
      (fun r hr => hnd r (by simp [hr]))
    refine ⟨m2, sep2, ?_, ?_⟩
    · rw [cachedRecord, cachedRound, h1]
      simp only
      rw [cached_stats hL hLM h2 h3]
      simp only
      rw [i1, List.flatten_cons, finished_append, List.map_append]
    · rw [List.flatten_cons, ← List.append_assoc]; exact i2

/-- The buffer, however the statistics come out. -/
theorem cached_record_state {o : Opts O} {M L n : Nat} (hL : 0 < L) (log : List (List (Nat × Collector.Row O A R I)))
    {m m' : Mgr O A R} {sep : List (Buf O A R)} {stats : List (R × Nat)}
    {past : List (Nat × Collector.Row O A R I)} (S : CState o M L n m sep past)
    (hid : ∀ p ∈ log.flatten, p.1 < n) (hnd : ∀ round ∈ log, (round.map Prod.fst).Nodup) (h : cachedRecord m log = .ok (m', stats)) :
    ∃ sep', CState o M L n m' sep' (past ++ log.flatten) := by
  induction log generalizing past m sep stats with
  | nil => cases h; exact ⟨sep, by simpa using S⟩
  | cons round rest ih =>
    obtain ⟨m1, sep1, res, h1, h2, h3⟩ := cached_round hL S round (fun p hp => hid p (by
      rw [List.flatten_cons]; exact List.mem_append_left _ hp)) (hnd round (by simp))
    rw [cachedRecord, cachedRound, h1] at h
    simp only at h
    cases hs : cachedStats m1 (((round.zip res).filter fun p => p.1.2.out.done).map Prod.snd) with
    | error e => rw [hs] at h; cases h
    | ok stats1 =>
      rw [hs] at h
      simp only at h
      cases hr : cachedRecord m1 rest with
      | error e => rw [hr] at h; cases h
      | ok q =>
        rw [hr] at h
        cases h
        obtain ⟨sep2, i2⟩ := ih h2 (fun p hp => hid p (by rw [List.flatten_cons]; exact List.mem_append_right _ hp))
          (fun r hr => hnd r (by simp [hr])) hr
        exact ⟨sep2, by rw [List.flatten_cons, ← List.append_assoc]; exact i2⟩

theorem async_cached_record {o : Opts O} {M L n : Nat} (hL : 0 < L) (log : List (List (Nat × Collector.Row O A R I)))
    {m : Mgr O A R} {sep : List (Buf O A R)}
    {past : List (Nat × Collector.Row O A R I)} (S : CState o M L n m sep past)
    (hid : ∀ p ∈ log.flatten, p.1 < n) (hnd : ∀ round ∈ log, (round.map Prod.fst).Nodup) :
    ∃ m' sep', asyncCachedRecord m log = .ok (m', finishedEpisodes past log.flatten) ∧ CState o M L n m' sep' (past ++ log.flatten) := by
  induction log generalizing past m sep with
  | nil => exact ⟨m, sep, rfl, by simpa using S⟩
  | cons round rest ih =>
    obtain ⟨m1, sep1, res, h1, h2, h3⟩ := cached_round hL S round (fun p hp => hid p (by
      rw [List.flatten_cons]; exact List.mem_append_left _ hp)) (hnd round (by simp))
    obtain ⟨m2, sep2, i1, i2⟩ := ih h2 (fun p hp => hid p (by rw [List.flatten_cons]; exact List.mem_append_right _ hp))
      (fun r hr => hnd r (by simp [hr]))
    refine ⟨m2, sep2, ?_, ?_⟩
    · rw [asyncCachedRecord, asyncCachedRound, h1]
      simp only
      rw [cached_lens h3, i1, List.flatten_cons, finished_append]
    · rw [List.flatten_cons, ← List.append_assoc]; exact i2

/-! ### Content and targets -/

theorem CState.stored {o : Opts O} {M L n : Nat} {m : Mgr O A R} {sep : List (Buf O A R)} {past : List (Nat × Collector.Row O A R I)}
    (S : CState o M L n m sep past) :
    (∀ c, sep[0]? = some c → c.opts = o ∧ c.idx.maxsize = M ∧
      Returns.stored c = lastN M (completed L (fun r => expectedRow o (experience r)) [] past)) ∧
    ∀ e c, sep[e + 1]? = some c → c.opts = o ∧ c.idx.maxsize = L ∧
      Returns.stored c = lastN L ((openEpisode (Collector.rowsOf e [past])).map fun r => expectedRow o (experience r)) := by
  constructor
  · intro c hc
    obtain ⟨h1, h2, g, hg, hr⟩ := S.follows.1 c hc
    refine ⟨h1, h2, ?_⟩
    rw [stored_content hg, content, h2, hr]
  · intro e c hc
    obtain ⟨h1, h2, hg⟩ := S.follows.2 e c (by rw [List.getElem?_tail]; exact hc)
    refine ⟨h1, h2, ?_⟩
    rw [stored_content hg, content, h2]
    simp only [ghostOf, List.map_map]
    rfl

theorem CState.embeds {o : Opts O} {M L n N : Nat} {m : Mgr O A R} {sep : List (Buf O A R)}
    {log : List (List (Nat × Collector.Row O A R I))} (S : CState o M L n m sep log.flatten) (hid : ∀ p ∈ log.flatten, p.1 < N) :
    Embeds o N log sep := by
  have hlog : ∀ e, Collector.rowsOf e [log.flatten] = Collector.rowsOf e log := by
    intro e; simp [Collector.rowsOf]
  obtain ⟨s1, s2⟩ := S.stored
  intro b cb hcb
  cases b with
  | zero =>
    obtain ⟨h1, h2, h3⟩ := s1 cb hcb
    refine ⟨h1, ?_⟩
    intro k hk
    rw [h3] at hk ⊢
    unfold lastN at hk ⊢
    rw [List.length_drop] at hk
    obtain ⟨e, k', w, r, r', w1, w2, w3, w4⟩ := whole_completed L N (fun r => expectedRow o (experience r)) (fun _ => rfl) log.flatten [] hid
      ((completed L (fun r => expectedRow o (experience r)) [] log.flatten).length - M + k) (by omega)
    simp only [List.nil_append, hlog] at w3
    refine ⟨e, k', w1, ?_, ?_⟩
    · have := congrArg List.length w3
      obtain ⟨u, t, rfl, _⟩ := w4
      simp only [List.length_drop, List.length_append, List.length_map, List.length_singleton] at this
      omega
    · rw [rest_drop _ _ _ (by omega), rest_of_ep w2 w4, rest_of_ep w3 w4]
  | succ e =>
    obtain ⟨h1, h2, h3⟩ := s2 e cb hcb
    refine ⟨h1, ?_⟩
    intro k hk
    rw [hlog] at h3
    obtain ⟨pre, hpre⟩ := openEpisode_suffix (Collector.rowsOf e log)
    have he : e < N := by
      by_contra hc
      have : Collector.rowsOf e log = [] := by
        unfold Collector.rowsOf
        rw [List.map_eq_nil_iff, List.filter_eq_nil_iff]
        intro p hp
        have := hid p hp
        simp only [decide_eq_true_eq]
        omega
      rw [h3, this] at hk
      simp [openEpisode, lastN] at hk
    have hopen : ∀ x ∈ (openEpisode (Collector.rowsOf e log)).map fun r => expectedRow o (experience r), x.done = false := by
      intro x hx
      rw [List.mem_map] at hx
      obtain ⟨r, hr, rfl⟩ := hx
      exact openEpisode_open _ r hr
    have hlenp := congrArg List.length hpre
    rw [List.length_append] at hlenp
    have hstream : (Collector.rowsOf e log).map (fun r => expectedRow o (experience r)) =
        pre.map (fun r => expectedRow o (experience r)) ++ (openEpisode (Collector.rowsOf e log)).map fun r => expectedRow o (experience r) := by
      conv_lhs => rw [hpre]
      rw [List.map_append]
    have hepl : ((openEpisode (Collector.rowsOf e log)).map fun r => expectedRow o (experience r)).length = (openEpisode (Collector.rowsOf e log)).length := by
      simp
    rw [h3] at hk ⊢
    refine ⟨e, pre.length + ((openEpisode (Collector.rowsOf e log)).length - L + k), he, ?_⟩
    rw [hstream]
    generalize ((openEpisode (Collector.rowsOf e log)).map fun r => expectedRow o (experience r)) = ep at *
    have hprel : (pre.map (fun r => expectedRow o (experience r))).length = pre.length := by simp
    generalize pre.map (fun r => expectedRow o (experience r)) = pre' at *
    unfold lastN at hk ⊢
    rw [List.length_drop] at hk
    rw [← hepl, ← hprel]
    refine ⟨by omega, ?_⟩
    have hdrop : (pre' ++ ep).drop (pre'.length + (ep.length - L + k)) = ep.drop (ep.length - L + k) := by
      rw [List.drop_append, List.drop_eq_nil_of_le (by omega), List.nil_append]
      congr 1
      omega
    rw [rest_drop _ _ _ (by omega), rest_of_open (by omega) (fun x hx => hopen x (List.mem_of_mem_drop hx)),
      rest_of_open (by rw [List.length_append]; omega) (by rw [hdrop]; exact fun x hx => hopen x (List.mem_of_mem_drop hx)), hdrop]

end

end Verif.Pipeline
