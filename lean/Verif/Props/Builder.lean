import Verif.Spec.Builder
import Mathlib.Algebra.Order.Ring.Nat
import Mathlib.Tactic.Common

/-! # Experiment builders (property C223) -/

namespace Verif.Builder

variable {C S V : Type}

/-- Every object in use belongs to one builder; experiments use the objects of the builder that built them. -/
def Owned (w : World C S V) : Prop :=
  ∃ owner : Nat → Nat,
    (∀ i b, w.builders[i]? = some b → owner b.config = i ∧ owner b.sampling = i ∧ owner b.callbacks = i ∧
      b.config < w.mem.next ∧ b.sampling < w.mem.next ∧ b.callbacks < w.mem.next) ∧
    ∀ p ∈ w.experiments, owner p.2.config = p.1 ∧ owner p.2.sampling = p.1 ∧ owner p.2.callbacks = p.1 ∧
      p.2.config < w.mem.next ∧ p.2.sampling < w.mem.next ∧ p.2.callbacks < w.mem.next

theorem owned_start (m : Mem C S V) : Owned (World.start m) := ⟨fun _ => 0, by simp [World.start], by simp [World.start]⟩

theorem getElem?_snoc {α : Type} {l : List α} {x y : α} {i : Nat} (h : (l ++ [x])[i]? = some y) :
    l[i]? = some y ∨ i = l.length ∧ y = x := by
  rcases lt_trichotomy i l.length with h1 | h1 | h1
  · rw [List.getElem?_append_left h1] at h
    exact .inl h
  · subst h1
    rw [List.getElem?_append_right (le_refl _)] at h
    simp at h
    exact .inr ⟨rfl, h.symm⟩
  · rw [List.getElem?_eq_none (by simp; omega)] at h
    cases h

theorem owned_snoc {w : World C S V} (h : Owned w) {m : Mem C S V} {b : Bld V} (hm : m.next = w.mem.next + 1)
    (hb : b.config = w.mem.next ∧ b.sampling = w.mem.next ∧ b.callbacks = w.mem.next) :
    Owned { w with mem := m, builders := w.builders ++ [b] } := by
  obtain ⟨owner, h1, h2⟩ := h
  refine ⟨Function.update owner w.mem.next w.builders.length, ?_, ?_⟩
  · intro i c hc
    rcases getElem?_snoc hc with hc | ⟨rfl, rfl⟩
    · obtain ⟨a1, a2, a3, a4, a5, a6⟩ := h1 i c hc
      simp only [Function.update_of_ne (Nat.ne_of_lt a4), Function.update_of_ne (Nat.ne_of_lt a5), Function.update_of_ne (Nat.ne_of_lt a6), hm]
      exact ⟨a1, a2, a3, by omega, by omega, by omega⟩
    · simp only [hb, Function.update_self, hm]
      exact ⟨trivial, trivial, trivial, by omega, by omega, by omega⟩
  · intro p hp
    obtain ⟨a1, a2, a3, a4, a5, a6⟩ := h2 p hp
    simp only [Function.update_of_ne (Nat.ne_of_lt a4), Function.update_of_ne (Nat.ne_of_lt a5), Function.update_of_ne (Nat.ne_of_lt a6), hm]
    exact ⟨a1, a2, a3, by omega, by omega, by omega⟩

theorem owned_set {w : World C S V} (h : Owned w) {i : Nat} {b : Bld V} (hb : w.builders[i]? = some b) {m : Mem C S V} {b' : Bld V}
    (hm : m.next = w.mem.next ∨ m.next = w.mem.next + 1)
    (h1 : b'.config = b.config ∨ m.next = w.mem.next + 1 ∧ b'.config = w.mem.next)
    (h2 : b'.sampling = b.sampling ∨ m.next = w.mem.next + 1 ∧ b'.sampling = w.mem.next) (h3 : b'.callbacks = b.callbacks) :
    Owned { w with mem := m, builders := w.builders.set i b' } := by
  obtain ⟨owner, g1, g2⟩ := h
  refine ⟨Function.update owner w.mem.next i, ?_, ?_⟩
  · intro j c hc
    rw [List.getElem?_set] at hc
    by_cases hij : i = j
    · subst hij
      have hlt := (List.getElem?_eq_some_iff.mp hb).1
      simp only [if_true, hlt] at hc
      cases hc
      obtain ⟨a1, a2, a3, a4, a5, a6⟩ := g1 i b hb
      have e1 : ∀ r, r = w.mem.next ∨ owner r = i → Function.update owner w.mem.next i r = i := by
        intro r hr
        by_cases hrn : r = w.mem.next
        · subst hrn; exact Function.update_self ..
        · rw [Function.update_of_ne hrn]
          exact hr.resolve_left hrn
      simp only
      refine ⟨e1 _ ?_, e1 _ ?_, e1 _ ?_, ?_, ?_, ?_⟩
      · rcases h1 with h1 | h1
        · exact .inr (by rw [h1, a1])
        · exact .inl h1.2
      · rcases h2 with h2 | h2
        · exact .inr (by rw [h2, a2])
        · exact .inl h2.2
      · exact .inr (by rw [h3, a3])
      · rcases h1 with h1 | h1 <;> omega
      · rcases h2 with h2 | h2 <;> omega
      · omega
    · rw [if_neg hij] at hc
      obtain ⟨a1, a2, a3, a4, a5, a6⟩ := g1 j c hc
      simp only [Function.update_of_ne (Nat.ne_of_lt a4), Function.update_of_ne (Nat.ne_of_lt a5), Function.update_of_ne (Nat.ne_of_lt a6)]
      exact ⟨a1, a2, a3, by omega, by omega, by omega⟩
  · intro p hp
    obtain ⟨a1, a2, a3, a4, a5, a6⟩ := g2 p hp
    simp only [Function.update_of_ne (Nat.ne_of_lt a4), Function.update_of_ne (Nat.ne_of_lt a5), Function.update_of_ne (Nat.ne_of_lt a6)]
    exact ⟨a1, a2, a3, by omega, by omega, by omega⟩

theorem owned_act {w : World C S V} (h : Owned w) (a : Act C S V) : Owned (w.act a) := by
  cases a with
  | new c s n name params => exact owned_snoc h rfl ⟨rfl, rfl, rfl⟩
  | copy i =>
    simp only [World.act]
    cases hb : w.builders[i]? with
    | none => exact h
    | some b => exact owned_snoc h rfl ⟨rfl, rfl, rfl⟩
  | build i =>
    simp only [World.act]
    cases hb : w.builders[i]? with
    | none => exact h
    | some b =>
      obtain ⟨owner, h1, h2⟩ := h
      refine ⟨owner, h1, ?_⟩
      intro p hp
      rcases List.mem_append.mp hp with hp | hp
      · exact h2 p hp
      · rw [List.mem_singleton] at hp
        subst hp
        exact h1 i b hb
  | op i o =>
    simp only [World.act]
    cases hb : w.builders[i]? with
    | none => exact h
    | some b =>
      cases o with
      | setConfig c => exact owned_set h hb (.inr rfl) (.inr ⟨rfl, rfl⟩) (.inl rfl) rfl
      | setSampling c => exact owned_set h hb (.inr rfl) (.inl rfl) (.inr ⟨rfl, rfl⟩) rfl
      | _ => exact owned_set h hb (.inl rfl) (.inl rfl) (.inl rfl) rfl

/-- Contents of objects that exist and do not belong to builder `i` are not changed by an operation on builder `i`. -/
theorem apply_frame {w : World C S V} {owner : Nat → Nat} {i : Nat} {b : Bld V}
    (hb : owner b.config = i ∧ owner b.sampling = i ∧ owner b.callbacks = i) (o : Op C S V) (r : Nat) (hr : r < w.mem.next) (ho : owner r ≠ i) :
    (apply w.mem b o).1.config r = w.mem.config r ∧ (apply w.mem b o).1.sampling r = w.mem.sampling r ∧
      (apply w.mem b o).1.callbacks r = w.mem.callbacks r := by
  have n1 : r ≠ b.config := fun h => ho (by rw [h]; exact hb.1)
  have n2 : r ≠ b.sampling := fun h => ho (by rw [h]; exact hb.2.1)
  have n3 : r ≠ b.callbacks := fun h => ho (by rw [h]; exact hb.2.2)
  have n4 : r ≠ w.mem.next := Nat.ne_of_lt hr
  cases o <;> simp [apply, Function.update_of_ne, n1, n2, n3, n4]

/-- Operations that replace values leave all objects that exist alone. -/
theorem apply_replace (m : Mem C S V) (b : Bld V) (o : Op C S V) (ho : o.inPlace = false) (r : Nat) (hr : r < m.next) :
    (apply m b o).1.config r = m.config r ∧ (apply m b o).1.sampling r = m.sampling r ∧ (apply m b o).1.callbacks r = m.callbacks r := by
  have n4 : r ≠ m.next := Nat.ne_of_lt hr
  cases o <;> simp [apply, Function.update_of_ne, n4, Op.inPlace] at ho ⊢

theorem apply_settings (m : Mem C S V) (b : Bld V) (o : Op C S V) (hb : b.config < m.next ∧ b.sampling < m.next ∧ b.callbacks < m.next) :
    (apply m b o).2.settings (apply m b o).1 = meant (b.settings m) o := by
  have n1 := Nat.ne_of_lt hb.1
  have n2 := Nat.ne_of_lt hb.2.1
  cases o <;> simp [apply, meant, Bld.settings, Function.update_of_ne, n1, n2]

/-- **C223: calls take effect.** Whatever is done with builders, each of them has the settings it is meant to have: a call changes the setting
it names, in its builder only, and a copy starts with the settings of the original. -/
theorem C223_calls (m : Mem C S V) (acts : List (Act C S V)) :
    ((World.start m).run acts).builders.map (fun b => b.settings ((World.start m).run acts).mem) = intended [] acts := by
  suffices H : ∀ (w : World C S V), Owned w → (w.run acts).builders.map (fun b => b.settings (w.run acts).mem) =
      intended (w.builders.map fun b => b.settings w.mem) acts from H _ (owned_start m)
  induction acts with
  | nil => intro w _; rfl
  | cons a rest ih =>
    intro w hw
    have hstep : w.run (a :: rest) = (w.act a).run rest := rfl
    rw [hstep, ih _ (owned_act hw a)]
    obtain ⟨owner, g1, g2⟩ := hw
    have hold : ∀ (m' : Mem C S V), (∀ r < w.mem.next, m'.config r = w.mem.config r ∧ m'.sampling r = w.mem.sampling r ∧
        m'.callbacks r = w.mem.callbacks r) → w.builders.map (fun b => b.settings m') = w.builders.map fun b => b.settings w.mem := by
      intro m' hm'
      apply List.map_congr_left
      intro b hb
      obtain ⟨i, hi⟩ := List.mem_iff_getElem?.mp hb
      obtain ⟨_, _, _, a4, a5, a6⟩ := g1 i b hi
      simp only [Bld.settings, (hm' _ a4).1, (hm' _ a5).2.1, (hm' _ a6).2.2]
    cases a with
    | new c s n name params =>
      simp only [intended, World.act, List.map_append, List.map_cons, List.map_nil]
      rw [hold]
      · simp [Builder.new, Bld.settings, fresh]
      · intro r hr
        simp [Builder.new, Function.update_of_ne (Nat.ne_of_lt hr)]
    | copy i =>
      simp only [intended, World.act, List.getElem?_map]
      cases hb : w.builders[i]? with
      | none => simp
      | some b =>
        obtain ⟨_, _, _, a4, a5, a6⟩ := g1 i b hb
        simp only [List.map_append, List.map_cons, List.map_nil, Option.map_some, Option.toList_some]
        rw [hold]
        · simp [Builder.copy, Bld.settings]
        · intro r hr
          simp [Builder.copy, Function.update_of_ne (Nat.ne_of_lt hr)]
    | build i =>
      simp only [intended, World.act]
      cases hb : w.builders[i]? <;> rfl
    | op i o =>
      simp only [intended, World.act]
      congr 1
      cases hb : w.builders[i]? with
      | none =>
        have : w.builders.length ≤ i := by simpa using hb
        rw [List.modify_eq_self (by simpa using this)]
      | some b =>
        obtain ⟨a1, a2, a3, a4, a5, a6⟩ := g1 i b hb
        apply List.ext_getElem?
        intro j
        simp only [List.getElem?_map, List.getElem?_set, List.getElem?_modify]
        by_cases hij : i = j
        · subst hij
          have hlt := (List.getElem?_eq_some_iff.mp hb).1
          simp only [if_true, hlt, Option.map_some, hb, Option.map_eq_map]
          rw [apply_settings _ _ _ ⟨a4, a5, a6⟩]
        · simp only [if_neg hij]
          cases hc : w.builders[j]? with
          | none => rfl
          | some c =>
            obtain ⟨b1, b2, b3, b4, b5, b6⟩ := g1 j c hc
            have f := apply_frame (w := w) (owner := owner) (i := i) (b := b) ⟨a1, a2, a3⟩ o
            simp only [Option.map_some, id_eq, Option.some.injEq, Bld.settings, Option.map_eq_map]
            rw [(f _ b4 (by rw [b1]; exact Ne.symm hij)).1, (f _ b5 (by rw [b2]; exact Ne.symm hij)).2.1,
              (f _ b6 (by rw [b3]; exact Ne.symm hij)).2.2]

/-- **C223: building.** An experiment is built with the settings its builder has. -/
theorem C223_build (w : World C S V) (i : Nat) (b : Bld V) (hb : w.builders[i]? = some b) :
    ∃ e, (w.act (.build i)).experiments = w.experiments ++ [(i, e)] ∧
      e.settings (w.act (.build i)).mem = b.settings w.mem ∧
      (w.act (.build i)).builders = w.builders := by
  refine ⟨Builder.build b, ?_, ?_, ?_⟩ <;> simp [World.act, hb] <;> rfl

/-- **C223: an experiment keeps its settings**, whatever is done afterwards, as long as no callback is given to the builder that built it and its
configurations are not edited. Missing: these calls, see `C223_violated`. -/
theorem C223_keeps_partial (m : Mem C S V) (before after : List (Act C S V)) (i : Nat) (e : Exper V)
    (he : (i, e) ∈ ((World.start m).run before).experiments) (h : ∀ a ∈ after, a.inPlace i = false) :
    (i, e) ∈ ((World.start m).run (before ++ after)).experiments ∧
      e.settings ((World.start m).run (before ++ after)).mem = e.settings ((World.start m).run before).mem := by
  have hrun : ∀ (acts : List (Act C S V)) (w : World C S V), Owned w → Owned (w.run acts) := by
    intro acts
    induction acts with
    | nil => intro w hw; exact hw
    | cons a rest ih => intro w hw; exact ih _ (owned_act hw a)
  have hw := hrun before _ (owned_start m)
  have happ : (World.start m).run (before ++ after) = ((World.start m).run before).run after := by
    unfold World.run
    rw [List.foldl_append]
  rw [happ]
  generalize (World.start m).run before = w at he hw
  clear happ
  induction after generalizing w with
  | nil => exact ⟨he, rfl⟩
  | cons a rest ih =>
    have hstep : w.run (a :: rest) = (w.act a).run rest := rfl
    obtain ⟨owner, g1, g2⟩ := hw
    obtain ⟨c1, c2, c3, c4, c5, c6⟩ := g2 _ he
    simp only at c1 c2 c3 c4 c5 c6
    have key : (i, e) ∈ (w.act a).experiments ∧ e.settings (w.act a).mem = e.settings w.mem := by
      cases a with
      | new c s n name params =>
        refine ⟨he, ?_⟩
        simp [World.act, Builder.new, Exper.settings, Function.update_of_ne, Nat.ne_of_lt c4, Nat.ne_of_lt c5, Nat.ne_of_lt c6]
      | copy j =>
        simp only [World.act]
        cases hb : w.builders[j]? with
        | none => exact ⟨he, rfl⟩
        | some b =>
          refine ⟨he, ?_⟩
          simp [Builder.copy, Exper.settings, Function.update_of_ne, Nat.ne_of_lt c4, Nat.ne_of_lt c5, Nat.ne_of_lt c6]
      | build j =>
        simp only [World.act]
        cases hb : w.builders[j]? with
        | none => exact ⟨he, rfl⟩
        | some b => exact ⟨List.mem_append_left _ he, rfl⟩
      | op j o =>
        simp only [World.act]
        cases hb : w.builders[j]? with
        | none => exact ⟨he, rfl⟩
        | some b =>
          refine ⟨he, ?_⟩
          by_cases hij : j = i
          · have ho : o.inPlace = false := by
              have := h _ List.mem_cons_self
              simpa [Act.inPlace, hij] using this
            have f := apply_replace w.mem b o ho
            simp only [Exper.settings, (f _ c4).1, (f _ c5).2.1, (f _ c6).2.2]
          · obtain ⟨a1, a2, a3, _⟩ := g1 j b hb
            have f := apply_frame (w := w) (owner := owner) (i := j) (b := b) ⟨a1, a2, a3⟩ o
            simp only [Exper.settings]
            rw [(f _ c4 (by rw [c1]; exact Ne.symm hij)).1, (f _ c5 (by rw [c2]; exact Ne.symm hij)).2.1,
              (f _ c6 (by rw [c3]; exact Ne.symm hij)).2.2]
    rw [hstep]
    have := ih (fun a ha => h a (List.mem_cons_of_mem _ ha)) (w.act a) key.1 (owned_act ⟨owner, g1, g2⟩ a)
    exact ⟨this.1, this.2.trans key.2⟩

/-- **C223: seeded collections.** The `k`-th experiment of `build_seeded_collection(n)` has the settings of the builder, apart from its seeds and its
name; the builder itself, and everything that existed before, stays as it is. -/
theorem C223_seeded (m : Mem C S V) (b : Bld V) (hb : b.config < m.next ∧ b.sampling < m.next ∧ b.callbacks < m.next)
    (seed : Nat → C → C) (shift : Nat → S → S) (rename : V → C → S → V) (n : Nat) :
    (∀ r < m.next, (buildSeeded m b seed shift rename (List.range n)).1.config r = m.config r ∧
      (buildSeeded m b seed shift rename (List.range n)).1.sampling r = m.sampling r ∧
      (buildSeeded m b seed shift rename (List.range n)).1.callbacks r = m.callbacks r) ∧
    (buildSeeded m b seed shift rename (List.range n)).2.length = n ∧
    ∀ (k : Nat) (e : Exper V), (buildSeeded m b seed shift rename (List.range n)).2[k]? = some e →
      e.settings (buildSeeded m b seed shift rename (List.range n)).1 =
        { b.settings m with
          config := seed k (m.config b.config)
          sampling := shift k (m.sampling b.sampling)
          name := rename b.name (seed k (m.config b.config)) (shift k (m.sampling b.sampling)) } ∧
      m.next ≤ e.config ∧ m.next ≤ e.sampling ∧ m.next ≤ e.callbacks := by
  suffices H : ∀ (l : List Nat) (m : Mem C S V), (b.config < m.next ∧ b.sampling < m.next ∧ b.callbacks < m.next) →
      m.next ≤ (buildSeeded m b seed shift rename l).1.next ∧
      (∀ r < m.next, (buildSeeded m b seed shift rename l).1.config r = m.config r ∧
        (buildSeeded m b seed shift rename l).1.sampling r = m.sampling r ∧
        (buildSeeded m b seed shift rename l).1.callbacks r = m.callbacks r) ∧
      (buildSeeded m b seed shift rename l).2.length = l.length ∧
      ∀ (k : Nat) (e : Exper V) (i : Nat), (buildSeeded m b seed shift rename l).2[k]? = some e → l[k]? = some i →
        e.settings (buildSeeded m b seed shift rename l).1 =
          { b.settings m with
            config := seed i (m.config b.config)
            sampling := shift i (m.sampling b.sampling)
            name := rename b.name (seed i (m.config b.config)) (shift i (m.sampling b.sampling)) } ∧
        m.next ≤ e.config ∧ m.next ≤ e.sampling ∧ m.next ≤ e.callbacks by
    obtain ⟨_, h1, h2, h3⟩ := H (List.range n) m hb
    refine ⟨h1, by rw [h2, List.length_range], fun k e he => h3 k e k he ?_⟩
    have hk := (List.getElem?_eq_some_iff.mp he).1
    rw [h2, List.length_range] at hk
    simp [hk]
  intro l
  induction l with
  | nil => intro m _; exact ⟨le_refl _, fun _ _ => ⟨rfl, rfl, rfl⟩, rfl, fun k e i he => by simp [buildSeeded] at he⟩
  | cons j rest ih =>
    intro m hb
    obtain ⟨n1, n2, n3⟩ := hb
    simp only [buildSeeded, copy, apply, build]
    generalize hm1 : (Mem.mk _ _ _ _ : Mem C S V) = m1
    have hnext : m1.next = m.next + 1 := by rw [← hm1]
    obtain ⟨i0, i1, i2, i3⟩ := ih m1 (by rw [hnext]; omega)
    have frame : ∀ r < m.next, m1.config r = m.config r ∧ m1.sampling r = m.sampling r ∧ m1.callbacks r = m.callbacks r := by
      intro r hr
      rw [← hm1]
      simp [Function.update_of_ne (Nat.ne_of_lt hr)]
    have own : m1.config m.next = seed j (m.config b.config) ∧ m1.sampling m.next = shift j (m.sampling b.sampling) ∧
        m1.callbacks m.next = m.callbacks b.callbacks := by
      rw [← hm1]
      simp
    refine ⟨by omega, ?_, by simp [i2], ?_⟩
    · intro r hr
      obtain ⟨a1, a2, a3⟩ := i1 r (by omega)
      obtain ⟨b1, b2, b3⟩ := frame r hr
      exact ⟨a1.trans b1, a2.trans b2, a3.trans b3⟩
    · intro k e i he hi
      cases k with
      | zero =>
        simp only [List.getElem?_cons_zero, Option.some.injEq] at he hi
        subst he hi
        obtain ⟨a1, a2, a3⟩ := i1 m.next (by omega)
        refine ⟨?_, le_refl _, le_refl _, le_refl _⟩
        simp only [Exper.settings, Bld.settings, a1, a2, a3, own]
        simp
      | succ k =>
        rw [List.getElem?_cons_succ] at he hi
        obtain ⟨a1, a2, a3, a4⟩ := i3 k e i he hi
        refine ⟨?_, by omega, by omega, by omega⟩
        rw [a1]
        simp only [Bld.settings, (frame _ n1).1, (frame _ n2).2.1, (frame _ n3).2.2]

/-! ### Examples -/

/-- Configurations are seeds, factories texts. -/
abbrev Ex := World Nat Nat String

def exMem : Mem Nat Nat String := ⟨fun _ => 0, fun _ => 0, fun _ => {}, 0⟩

/-- A builder with two critics; one experiment is built, then a copy of the builder gets a callback and another seed, and is built. -/
def exActs : List (Act Nat Nat String) :=
  [.new 42 7 2 "sac" "default", .op 0 (.commonCritic "mlp"), .op 0 (.critic 1 "cnn"), .build 0, .copy 0, .op 1 (.trainCallback "decay"),
   .op 1 (.editConfig (· + 1)), .build 1, .op 0 (.optim "rmsprop")]

example : ((World.start exMem).run exActs).experiments.map (fun p => p.2.settings ((World.start exMem).run exActs).mem) =
    [⟨42, 7, {}, none, none, none, "sac", none, [some "mlp", some "cnn"], "default"⟩,
     ⟨43, 7, ⟨some "decay", none, none⟩, none, none, none, "sac", none, [some "mlp", some "cnn"], "default"⟩] := by decide +kernel

example : ∀ a ∈ exActs.drop 4, Act.inPlace 0 a = false := by decide +kernel

example : ((buildSeeded exMem ⟨0, 0, 0, none, none, none, "ppo", none, [none], "default"⟩ (fun i c => c + i) (fun i s => s + 10 * i)
      (fun v c _ => v ++ toString c) (List.range 3)).2.map fun e => (e.name, e.config)) = [("ppo0", 0), ("ppo1", 1), ("ppo2", 2)] := by
  rfl

/-- In full: an experiment keeps the settings it was built with, whatever is done with its builder. -/
def C223 : Prop := ∀ (m : Mem Nat Nat String) (before after : List (Act Nat Nat String)) (i : Nat) (e : Exper String)
  (_ : (i, e) ∈ ((World.start m).run before).experiments),
  e.settings ((World.start m).run (before ++ after)).mem = e.settings ((World.start m).run before).mem

/-- **C223 is violated:** a callback given to the builder is called by the experiments it has built before. -/
theorem C223_violated : ¬ C223 := by
  intro h
  have := h exMem [.new 42 7 2 "sac" "default", .build 0] [.op 0 (.stopCallback "reward threshold")] 0
    ⟨0, 0, 0, none, none, none, "sac", none, [none, none], "default"⟩ (by decide +kernel)
  revert this
  decide +kernel

/-- So does a seed: two experiments, both with seed 2. -/
example : ((World.start exMem).run [.new 1 7 2 "sac" "default", .build 0, .op 0 (.editConfig fun _ => 2), .build 0]).experiments.map
      (fun p => (p.2.settings ((World.start exMem).run [.new 1 7 2 "sac" "default", .build 0, .op 0 (.editConfig fun _ => 2),
        .build 0]).mem).config) = [2, 2] := by decide +kernel

end Verif.Builder
