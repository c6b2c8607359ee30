import Verif.Lemmas.Episode
import Verif.Spec.History

set_option linter.unusedSectionVars false

namespace Verif.Buffer

open Verif.Spec

variable {O A R : Type} [AddCommMonoid R]

theorem lastN_nil {T : Type} (m : Nat) : lastN m ([] : List T) = [] := by simp [lastN]

structure Inv (b : Buf O A R) (g : Ghost O A R) : Prop where
  holds : Holds b.idx b.data (content b g)
  ins : b.idx.ins = g.received.length % b.idx.maxsize
  epLen : b.idx.epLen = g.openEp.length
  epRet : b.idx.epRet = (g.openEp.map Trans.rew).sum
  epStart : b.idx.epStart = g.startPos % b.idx.maxsize
  startPos : g.startPos ≤ g.received.length

theorem Inv.size {b : Buf O A R} {g : Ghost O A R} (I : Inv b g) :
    b.idx.size = min g.received.length b.idx.maxsize := by
  rw [← I.holds.len, content, lastN_length]

theorem prep_eq (opts : Opts O) (t : Trans O A R) : prep opts t = expectedRow opts t := by
  unfold prep expectedRow
  cases opts.lastFrame <;> simp

theorem expectedRow_done (opts : Opts O) (t : Trans O A R) :
    (expectedRow opts t).done = (t.terminated || t.truncated) := rfl

/-- `_update_state_pre_add` on a buffer in good standing: succeeds, with the expected results. -/
theorem Inv.preAdd {b : Buf O A R} {g : Ghost O A R} (I : Inv b g) (rew : R) (done : Bool) :
    b.idx.preAdd rew done = .ok
      ({ b.idx.push with
          epRet := if done then 0 else b.idx.epRet + rew
          epLen := if done then 0 else b.idx.epLen + 1
          epStart := if done then (b.idx.ins + 1) % b.idx.maxsize else b.idx.epStart },
       { slot := b.idx.ins
         epRet := if done then b.idx.epRet + rew else 0
         epLen := if done then b.idx.epLen + 1 else 0
         epStart := b.idx.epStart }) := by
  have hpos := I.holds.pos
  have hs := I.size
  have hst := I.epStart
  have h1 : g.startPos % b.idx.maxsize ≤ g.startPos := Nat.mod_le _ _
  have h2 : g.startPos % b.idx.maxsize < b.idx.maxsize := Nat.mod_lt _ hpos
  have h3 := I.startPos
  unfold Idx.preAdd
  rw [if_neg (by omega)]
  simp only
  rw [if_neg (by omega)]
  rfl

theorem Inv.add {b b' : Buf O A R} {g : Ghost O A R} (I : Inv b g) {t : Trans O A R} {r : AddResult R}
    (h : b.add t = .ok (b', r)) :
    Inv b' ⟨g.received ++ [expectedRow b.opts t],
        if t.terminated || t.truncated then [] else g.openEp ++ [t],
        if t.terminated || t.truncated then g.received.length + 1 else g.startPos⟩ ∧
      b'.opts = b.opts ∧ b'.idx.maxsize = b.idx.maxsize ∧
      r = { slot := b.idx.ins
            epRet := if t.terminated || t.truncated then ((g.openEp ++ [t]).map Trans.rew).sum else 0
            epLen := if t.terminated || t.truncated then g.openEp.length + 1 else 0
            epStart := g.startPos % b.idx.maxsize } ∧
      b'.idx.last = b.idx.ins ∧ b'.data = Function.update b.data b.idx.ins (some (expectedRow b.opts t)) := by
  unfold Buf.add at h
  simp only [prep_eq] at h
  rw [I.preAdd] at h
  simp only [Except.ok.injEq, Prod.mk.injEq, expectedRow_done] at h
  obtain ⟨rfl, rfl⟩ := h
  have hpos := I.holds.pos
  refine ⟨⟨?_, ?_, ?_, ?_, ?_, ?_⟩, rfl, rfl, ?_, rfl, rfl⟩
  · have := I.holds.push (expectedRow b.opts t)
    rw [content, lastN_lastN_append] at this
    exact this.congr rfl rfl rfl rfl
  · show (b.idx.ins + 1) % b.idx.maxsize = _
    rw [I.ins, Nat.mod_add_mod]; simp [Idx.push]
  · show (if (t.terminated || t.truncated) = true then 0 else b.idx.epLen + 1) = _
    rw [I.epLen]; simp only; cases (t.terminated || t.truncated) <;> simp
  · show (if (t.terminated || t.truncated) = true then 0 else b.idx.epRet + t.rew) = _
    rw [I.epRet]; simp only; cases (t.terminated || t.truncated) <;> simp
  · show (if (t.terminated || t.truncated) = true then (b.idx.ins + 1) % b.idx.maxsize else b.idx.epStart) =
      (if (t.terminated || t.truncated) = true then g.received.length + 1 else g.startPos) % b.idx.maxsize
    rw [I.ins, I.epStart, Nat.mod_add_mod]; cases (t.terminated || t.truncated) <;> rfl
  · have := I.startPos
    show (if (t.terminated || t.truncated) = true then g.received.length + 1 else g.startPos) ≤ _
    simp only [List.length_append, List.length_cons, List.length_nil]
    cases (t.terminated || t.truncated)
    · simp; omega
    · simp
  · congr 1
    · show (if (t.terminated || t.truncated) = true then b.idx.epRet + t.rew else 0) = _
      rw [I.epRet]; simp
    · show (if (t.terminated || t.truncated) = true then b.idx.epLen + 1 else 0) = _
      rw [I.epLen]
    · exact I.epStart

theorem Inv.add_ok {b : Buf O A R} {g : Ghost O A R} (I : Inv b g) (t : Trans O A R) :
    ∃ b' r, b.add t = .ok (b', r) := by
  unfold Buf.add
  simp only
  rw [I.preAdd]
  exact ⟨_, _, rfl⟩

theorem advance_frame (x : Idx R) (n : Nat) :
    (x.advance n).2.epLen = x.epLen ∧ (x.advance n).2.epRet = x.epRet ∧
    (x.advance n).2.epStart = x.epStart ∧ (x.advance n).2.maxsize = x.maxsize := by
  induction n generalizing x with
  | zero => exact ⟨rfl, rfl, rfl, rfl⟩
  | succ n ih => simp only [Idx.advance]; exact ih _

theorem advance_ins (x : Idx R) (hx : x.ins < x.maxsize) (n : Nat) :
    (x.advance n).2.ins = (x.ins + n) % x.maxsize ∧
      (x.advance n).1 = (List.range n).map fun j => (x.ins + j) % x.maxsize := by
  induction n generalizing x with
  | zero => simp [Idx.advance, Nat.mod_eq_of_lt hx]
  | succ n ih =>
    simp only [Idx.advance]
    have hpos : 0 < x.maxsize := by omega
    have := ih { x with last := x.ins, ins := (x.ins + 1) % x.maxsize, size := min (x.size + 1) x.maxsize }
      (Nat.mod_lt _ hpos)
    simp only at this
    rw [this.1, this.2, Nat.mod_add_mod]
    refine ⟨by congr 1; omega, ?_⟩
    rw [List.range_succ_eq_map, List.map_cons, List.map_map]
    congr 1
    · rw [Nat.add_zero, Nat.mod_eq_of_lt hx]
    apply List.map_congr_left
    intro j _
    simp only [Function.comp]
    rw [Nat.mod_add_mod]
    congr 1
    omega

theorem Inv.ins_lt {b : Buf O A R} {g : Ghost O A R} (I : Inv b g) : b.idx.ins < b.idx.maxsize := by
  rw [I.ins]; exact Nat.mod_lt _ I.holds.pos

theorem Inv.update {b src : Buf O A R} {g gs : Ghost O A R} (I : Inv b g) (J : Inv src gs) :
    Inv (b.update src).1 ⟨g.received ++ content src gs, g.openEp, g.startPos⟩ ∧
      (b.update src).2 = (List.range src.len).map
        (fun j => (g.received.length + j) % b.idx.maxsize) ∧
      (b.update src).1.opts = b.opts ∧ (b.update src).1.idx.maxsize = b.idx.maxsize := by
  have hlen : (content src gs).length = src.len := J.holds.len
  unfold Buf.update
  by_cases h0 : src.len = 0 ∨ b.idx.maxsize = 0
  · rw [if_pos h0]
    have hpos := I.holds.pos
    have h0' : src.len = 0 := by omega
    have hnil : content src gs = [] := List.length_eq_zero_iff.mp (by omega)
    rw [hnil, List.append_nil, h0']
    exact ⟨I, by simp, by simp, by simp⟩
  · rw [if_neg h0]
    have hall := J.holds.allIndices_length
    rw [if_neg (by rw [hall]; intro h; exact h0 (Or.inl h))]
    simp only
    have hfrom : src.idx.allIndices.map src.data = (content src gs).map some := J.holds.contents
    have hn : src.idx.allIndices.length = (content src gs).length := by rw [hall, J.holds.len]
    have hadv := I.holds.advance (content src gs)
    rw [← hn] at hadv
    obtain ⟨f1, f2, f3, f4⟩ := advance_frame b.idx src.idx.allIndices.length
    obtain ⟨a1, a2⟩ := advance_ins b.idx I.ins_lt src.idx.allIndices.length
    refine ⟨⟨?_, ?_, ?_, ?_, ?_, ?_⟩, ?_, trivial, f4⟩
    · simp only
      rw [hfrom]
      have := hadv.1
      simp only [content] at this ⊢
      rw [lastN_lastN_append] at this
      rw [f4]
      exact this
    · simp only
      rw [a1, I.ins, Nat.mod_add_mod, f4, hn, List.length_append]
    · exact f1.trans I.epLen
    · exact f2.trans I.epRet
    · show _ = _ % (b.idx.advance src.idx.allIndices.length).2.maxsize
      rw [f4]; exact f3.trans I.epStart
    · have := I.startPos
      simp only [List.length_append]
      omega
    · rw [a2, I.ins, hall]
      apply List.map_congr_left
      intro j _
      rw [Nat.mod_add_mod]

theorem History.inv {b : Buf O A R} {g : Ghost O A R} (h : History b g) : Inv b g := by
  induction h with
  | new m hm opts =>
    refine ⟨?_, by simp [Buf.new, Idx.new], rfl, rfl, by simp [Buf.new, Idx.new], le_refl _⟩
    rw [content, lastN_nil]; exact Holds.new (R := R) m hm _
  | add _ ha ih => exact (ih.add ha).1
  | update _ _ ih1 ih2 => exact (ih1.update ih2).1
  | reset keep _ ih =>
    refine ⟨by rw [content, lastN_nil]; exact ih.holds.reset keep, by simp [Buf.reset, Idx.reset], ?_, ?_, by simp [Buf.reset, Idx.reset],
      le_refl _⟩
    · simp only [Buf.reset, Idx.reset]; rw [ih.epLen]; split <;> rfl
    · simp only [Buf.reset, Idx.reset]; rw [ih.epRet]; split <;> rfl

theorem History.holds {b : Buf O A R} {g : Ghost O A R} (h : History b g) :
    Holds b.idx b.data (content b g) := h.inv.holds

theorem Holds.len_eq {b : Buf O A R} {c : List (Trans O A R)} (h : Holds b.idx b.data c) :
    b.len = c.length := h.len.symm

end Verif.Buffer
