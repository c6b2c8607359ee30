import Verif.Spec.ShMem
import Mathlib.Data.List.Forall2

/-! Lemmas for `Verif.Props.ShMem`. -/

namespace Verif.ShMem

variable {V σ A R : Type}

namespace Forest
variable {α : Type}

theorem get?_mem {k : String} {x : Tree α} : ∀ {f : Forest α}, f.get? k = some x → (k, x) ∈ f.items
  | .nil, h => by simp [get?] at h
  | .cons k' t r, h => by
    simp only [get?] at h
    split_ifs at h with hk
    · cases h; subst hk; simp [items]
    · simp only [items, List.mem_cons]; right; exact get?_mem h

theorem get?_of_keys {k : String} : ∀ {f : Forest α}, k ∈ f.keys → ∃ x, f.get? k = some x
  | .nil, h => by simp [keys, items] at h
  | .cons k' t r, h => by
    simp only [get?]
    split_ifs with hk
    · exact ⟨_, rfl⟩
    · apply get?_of_keys
      simp only [keys, items, List.map_cons, List.mem_cons] at h
      rcases h with h | h
      · exact absurd h.symm hk
      · exact h

theorem mem_keys {k : String} {x : Tree α} {f : Forest α} (h : (k, x) ∈ f.items) : k ∈ f.keys :=
  List.mem_map.mpr ⟨_, h, rfl⟩

theorem get?_eq {k : String} {x : Tree α} : ∀ {f : Forest α}, f.keys.Nodup → (k, x) ∈ f.items → f.get? k = some x
  | .nil, _, h => by simp [items] at h
  | .cons k' t r, hn, h => by
    simp only [keys, items, List.map_cons, List.nodup_cons] at hn
    simp only [items, List.mem_cons, Prod.mk.injEq] at h
    simp only [get?]
    rcases h with ⟨rfl, rfl⟩ | h
    · simp
    · have : k' ≠ k := fun e => hn.1 (e ▸ mem_keys h)
      rw [if_neg this]
      exact get?_eq hn.2 h

theorem put_keys (k : String) (x : Tree α) : ∀ f : Forest α, (f.put k x).keys = f.keys
  | .nil => rfl
  | .cons k' t r => by
    simp only [put]
    split_ifs
    · simp [keys, items]
    · have := put_keys k x r
      simp only [keys, items, List.map_cons] at this ⊢
      rw [this]

theorem get?_put_same (k : String) (x : Tree α) : ∀ {f : Forest α}, k ∈ f.keys → (f.put k x).get? k = some x
  | .nil, h => by simp [keys, items] at h
  | .cons k' t r, h => by
    simp only [put]
    split_ifs with hk
    · simp [get?, hk]
    · simp only [get?, if_neg hk]
      apply get?_put_same
      simp only [keys, items, List.map_cons, List.mem_cons] at h
      rcases h with h | h
      · exact absurd h.symm hk
      · exact h

theorem get?_put_other {k k' : String} (x : Tree α) (h : k ≠ k') : ∀ f : Forest α, (f.put k x).get? k' = f.get? k'
  | .nil => rfl
  | .cons j t r => by
    simp only [put]
    split_ifs with hk
    · have : j ≠ k' := fun e => h (hk ▸ e)
      simp [get?, this]
    · simp only [get?, get?_put_other x h r]

end Forest

/-- Memory laid out for a space. -/
inductive Fits : Tree Space → Tree (ShArray V) → Prop
  | box (shape : List Nat) (entries : List V) : Fits (.leaf (.box shape)) (.leaf ⟨shape, entries⟩)
  | discrete (entries : List V) : Fits (.leaf .discrete) (.leaf ⟨[], entries⟩)
  | dict {f : Forest Space} {g : Forest (ShArray V)} (keys : g.keys = f.keys)
      (items : ∀ k s m, (k, s) ∈ f.items → (k, m) ∈ g.items → Fits s m) : Fits (.dict f) (.dict g)

theorem setupItems_keys (zero : V) : ∀ f : Forest Space, (setupItems zero f).keys = f.keys
  | .nil => rfl
  | .cons k s r => by
    have := setupItems_keys zero r
    simp only [setupItems, Forest.keys, Forest.items, List.map_cons] at this ⊢
    rw [this]

theorem setupItems_items (zero : V) : ∀ (f : Forest Space),
    (setupItems zero f).items = f.items.map fun p => (p.1, setup zero p.2)
  | .nil => rfl
  | .cons k s r => by
    simp [setupItems, Forest.items, setupItems_items zero r]

theorem decodeItems_items : ∀ (f : Forest (ShArray V)),
    (decodeItems f).items = f.items.map fun p => (p.1, decode p.2)
  | .nil => rfl
  | .cons k s r => by
    simp [decodeItems, Forest.items, decodeItems_items r]

theorem nodup_unique {β : Type} {k : String} {a b : β} : ∀ {l : List (String × β)}, (l.map Prod.fst).Nodup → (k, a) ∈ l →
    (k, b) ∈ l → a = b
  | [], _, h, _ => by simp at h
  | p :: t, hn, ha, hb => by
    simp only [List.map_cons, List.nodup_cons] at hn
    rcases List.mem_cons.mp ha with ha | ha <;> rcases List.mem_cons.mp hb with hb | hb
    · rw [← ha] at hb; exact (Prod.mk.inj hb).2.symm
    · exact absurd (List.mem_map.mpr ⟨_, hb, by rw [← ha]⟩) hn.1
    · exact absurd (List.mem_map.mpr ⟨_, ha, by rw [← hb]⟩) hn.1
    · exact nodup_unique hn.2 ha hb

theorem setup_fits (zero : V) {space : Tree Space} (h : Boxes space) : Fits space (setup zero space) := by
  induction h with
  | box shape => simp only [setup]; exact .box _ _
  | dict hd _ ih =>
    rename_i f _
    simp only [setup]
    refine .dict (setupItems_keys zero f) fun k s m hs hm => ?_
    rw [setupItems_items] at hm
    obtain ⟨p, hp, he⟩ := List.mem_map.mp hm
    obtain ⟨rfl, rfl⟩ := Prod.mk.inj he
    have : p.2 = s := nodup_unique hd (k := p.1) hp hs
    rw [this]
    exact ih _ _ hs

/-- What the loop over the keys of an observation leaves in memory. -/
theorem encodeItems_spec : ∀ (o : Forest (Value V)) (m : Forest (ShArray V)), o.keys.Nodup →
    (∀ k x, (k, x) ∈ o.items → ∃ y z, m.get? k = some y ∧ encode x y = some z) →
    ∃ m', encodeItems o m = some m' ∧ m'.keys = m.keys ∧ (∀ k, k ∉ o.keys → m'.get? k = m.get? k) ∧
      ∀ k x, (k, x) ∈ o.items → ∃ y z, m.get? k = some y ∧ encode x y = some z ∧ m'.get? k = some z
  | .nil, m, _, _ => ⟨m, rfl, rfl, fun _ _ => rfl, by simp [Forest.items]⟩
  | .cons k x r, m, hn, h => by
    simp only [Forest.keys, Forest.items, List.map_cons, List.nodup_cons] at hn
    obtain ⟨y, z, hy, hz⟩ := h k x (by simp [Forest.items])
    have hkm : k ∈ m.keys := Forest.mem_keys (Forest.get?_mem hy)
    have hne : ∀ k' x', (k', x') ∈ r.items → k ≠ k' := fun k' x' hm e => hn.1 (e ▸ Forest.mem_keys hm)
    obtain ⟨m', h1, h2, h3, h4⟩ := encodeItems_spec r (m.put k z) hn.2 (fun k' x' hm => by
      obtain ⟨y', z', hy', hz'⟩ := h k' x' (by simp [Forest.items, hm])
      exact ⟨y', z', by rw [Forest.get?_put_other z (hne k' x' hm)]; exact hy', hz'⟩)
    refine ⟨m', ?_, ?_, ?_, ?_⟩
    · simp only [encodeItems, hy, hz]; exact h1
    · rw [h2, Forest.put_keys]
    · intro k' hk'
      simp only [Forest.keys, Forest.items, List.map_cons, List.mem_cons, not_or] at hk'
      rw [h3 k' hk'.2, Forest.get?_put_other z (Ne.symm hk'.1)]
    · intro k' x' hm
      simp only [Forest.items, List.mem_cons, Prod.mk.injEq] at hm
      rcases hm with ⟨rfl, rfl⟩ | hm
      · exact ⟨y, z, hy, hz, by rw [h3 k' hn.1, Forest.get?_put_same k' z hkm]⟩
      · obtain ⟨y', z', hy', hz', hz''⟩ := h4 k' x' hm
        exact ⟨y', z', by rw [← Forest.get?_put_other z (hne k' x' hm)]; exact hy', hz', hz''⟩

/-- An observation of the space is found in memory after writing it. -/
theorem encode_decode {space : Tree Space} (hb : Boxes space) : ∀ {o : Tree (Value V)} {m : Tree (ShArray V)},
    InSpace space o → Fits space m → ∃ m', encode o m = some m' ∧ Fits space m' ∧ Same (decode m') o := by
  induction hb with
  | box shape =>
    intro o m ho hm
    cases ho with
    | box _ entries size =>
      cases hm with
      | box _ entries' =>
        exact ⟨.leaf ⟨shape, entries⟩, by simp [encode, ShArray.save], .box _ _, by simp only [decode]; exact .leaf _⟩
  | dict hd hi ih =>
    rename_i f
    intro o m ho hm
    cases ho with
    | dict hg hk items =>
      rename_i g
      cases hm with
      | dict hmk hmi =>
        rename_i mf
        have hmn : mf.keys.Nodup := by rw [hmk]; exact hd
        have key : ∀ k x, (k, x) ∈ g.items → ∃ s y, (k, s) ∈ f.items ∧ mf.get? k = some y ∧ (k, y) ∈ mf.items := by
          intro k x hx
          have h1 : k ∈ f.keys := (hk k).mpr (Forest.mem_keys hx)
          obtain ⟨s, hs⟩ := Forest.get?_of_keys h1
          obtain ⟨y, hy⟩ := Forest.get?_of_keys (f := mf) (by rw [hmk]; exact h1)
          exact ⟨s, y, Forest.get?_mem hs, hy, Forest.get?_mem hy⟩
        obtain ⟨m', h1, h2, _, h4⟩ := encodeItems_spec g mf hg (fun k x hx => by
          obtain ⟨s, y, hs, hy, hym⟩ := key k x hx
          obtain ⟨z, hz, _⟩ := ih k s hs (items k s x hs hx) (hmi k s y hs hym)
          exact ⟨y, z, hy, hz⟩)
        have hm'n : m'.keys.Nodup := by rw [h2]; exact hmn
        have part : ∀ k s x y, (k, s) ∈ f.items → (k, x) ∈ g.items → (k, y) ∈ m'.items → Fits s y ∧ Same (decode y) x := by
          intro k s x y hs hx hy
          obtain ⟨a, z, ha, hz, hz'⟩ := h4 k x hx
          rw [Forest.get?_eq hm'n hy] at hz'
          obtain rfl := Option.some.inj hz'
          obtain ⟨z, hz1, hz2, hz3⟩ := ih k s hs (items k s x hs hx) (hmi k s a hs (Forest.get?_mem ha))
          rw [hz] at hz1
          obtain rfl := Option.some.inj hz1
          exact ⟨hz2, hz3⟩
        refine ⟨.dict m', by simp [encode, h1], .dict (by rw [h2, hmk]) ?_, ?_⟩
        · intro k s y hs hy
          obtain ⟨x, hx⟩ := Forest.get?_of_keys ((hk k).mp (Forest.mem_keys hs))
          exact (part k s x y hs (Forest.get?_mem hx) hy).1
        · simp only [decode]
          refine .dict (fun k => ?_) fun k a b ha hb => ?_
          · rw [← hk k, ← hmk, ← h2]
            simp only [Forest.keys, decodeItems_items, List.map_map, Function.comp_def]
          · rw [decodeItems_items] at ha
            obtain ⟨p, hp, he⟩ := List.mem_map.mp ha
            obtain ⟨rfl, rfl⟩ := Prod.mk.inj he
            obtain ⟨s, hs⟩ := Forest.get?_of_keys ((hk p.1).mpr (Forest.mem_keys hb))
            exact (part p.1 s b p.2 (Forest.get?_mem hs) hb hp).2

/-! ### Workers -/

/-- A worker with shared memory and one without, whose environments are in the same state. -/
def Rel (space : Tree Space) (w v : Worker σ V) : Prop :=
  w.env = v.env ∧ v.memory = none ∧ ∃ m, w.memory = some m ∧ Fits space m

theorem forall2_get {α β : Type} {P : α → β → Prop} {l : List α} {m : List β} (h : List.Forall₂ P l m) (i : Nat)
    (hi : i < l.length) : ∃ a b, l[i]? = some a ∧ m[i]? = some b ∧ P a b := by
  have hm : i < m.length := h.length_eq ▸ hi
  exact ⟨l[i], m[i], List.getElem?_eq_getElem hi, List.getElem?_eq_getElem hm, (List.forall₂_iff_get.mp h).2 i hi hm⟩

theorem forall2_set {α β : Type} {P : α → β → Prop} {a : α} {b : β} (hab : P a b) : ∀ {l : List α} {m : List β} (i : Nat),
    List.Forall₂ P l m → List.Forall₂ P (l.set i a) (m.set i b)
  | _, _, _, .nil => by simp
  | _, _, 0, .cons _ h => by simpa using ⟨hab, h⟩
  | _, _, i + 1, .cons hp h => by
    simp only [List.set_cons_succ]
    exact .cons hp (forall2_set hab i h)

/-- The same commands handled with and without shared memory. -/
theorem handleAll_both (run : A → σ → σ × Tree (Value V) × R) {space : Tree Space} (hb : Boxes space)
    (hin : ∀ c x, InSpace space (run c x).2.1) : ∀ (c : List (Nat × A)) (ws vs : List (Worker σ V)),
    List.Forall₂ (Rel space) ws vs → (c.map Prod.fst).Nodup → (∀ p ∈ c, p.1 < ws.length) →
    ∃ ws' vs' a b, handleAll run c ws = some (ws', a) ∧ handleAll run c vs = some (vs', b) ∧
      List.Forall₂ (Rel space) ws' vs' ∧ (∀ j, j ∉ c.map Prod.fst → ws'[j]? = ws[j]?) ∧
      List.Forall₂ (fun p q => p.1 = q.1 ∧ p.2.1 = none ∧ p.2.2 = q.2.2 ∧
        ∃ o w m, q.2.1 = some o ∧ ws'[p.1]? = some w ∧ w.memory = some m ∧ Same (decode m) o) a b
  | [], ws, vs, h, _, _ => ⟨ws, vs, [], [], rfl, rfl, h, fun _ _ => rfl, .nil⟩
  | (i, x) :: t, ws, vs, h, hn, hi => by
    simp only [List.map_cons, List.nodup_cons] at hn
    have hi0 : i < ws.length := hi (i, x) (by simp)
    obtain ⟨w, v, hw, hv, henv, hvm, m, hm, hfit⟩ := forall2_get h i hi0
    obtain ⟨m', he, hf', hsame⟩ := encode_decode hb (hin x w.env) hfit
    have hrel : Rel space (⟨(run x w.env).1, some m'⟩ : Worker σ V) { v with env := (run x v.env).1 } :=
      ⟨by rw [henv], hvm, m', rfl, hf'⟩
    obtain ⟨ws', vs', a, b, h1, h2, h3, h4, h5⟩ := handleAll_both run hb hin t _ _ (forall2_set hrel i h) hn.2
      (fun p hp => by rw [List.length_set]; exact hi p (by simp [hp]))
    refine ⟨ws', vs', (i, none, (run x w.env).2.2) :: a, (i, some (run x v.env).2.1, (run x v.env).2.2) :: b, ?_, ?_, h3, ?_,
      .cons ⟨rfl, rfl, by rw [henv], (run x v.env).2.1, ⟨(run x w.env).1, some m'⟩, m', rfl, ?_, rfl, by rw [← henv]; exact hsame⟩ h5⟩
    · simp only [handleAll, hw, Worker.handle, hm, he, Option.map_some, h1]
    · have hh : v.handle run x = some ({ v with env := (run x v.env).1 }, some (run x v.env).2.1, (run x v.env).2.2) := by
        obtain ⟨ve, vm⟩ := v
        obtain rfl : vm = none := hvm
        rfl
      simp only [handleAll, hv, hh, h2, Option.map_some]
    · intro j hj
      simp only [List.map_cons, List.mem_cons, not_or] at hj
      rw [h4 j hj.2, List.getElem?_set_ne (Ne.symm hj.1)]
    · rw [h4 i hn.1, List.getElem?_set_self hi0]

/-- Stacking does not change what one sees. -/
theorem stack_look (ws : List (Worker σ V)) (obs : List (Ret V)) :
    (stack ws obs).map (Ret.look ws) = obs.map (Ret.look ws) := by
  have key : ∀ shape : List Nat, ((obs.map (Ret.look ws)).all (hasShape shape)) = true →
      ((obs.map (Ret.look ws)).filterMap fun o => o.map Ret.own).map (Ret.look ws) = obs.map (Ret.look ws) := by
    intro shape h
    generalize obs.map (Ret.look ws) = l at h
    induction l with
    | nil => rfl
    | cons o t ih =>
      simp only [List.all_cons, Bool.and_eq_true] at h
      cases o with
      | none => simp [hasShape] at h
      | some o => simp only [List.filterMap_cons, Option.map_some, List.map_cons, ih h.2]; rfl
  unfold stack
  split
  · split_ifs with h
    · exact key _ h
    · rfl
  · split_ifs with h
    · exact key _ h
    · rfl
  · rfl

theorem stack_length (ws : List (Worker σ V)) (obs : List (Ret V)) : (stack ws obs).length = obs.length := by
  have := congrArg List.length (stack_look ws obs)
  simpa using this

/-- What is seen of the result of a call. -/
theorem call_look (ws : List (Worker σ V)) (q : List (Nat × Option (Tree (Value V)) × R)) :
    ((stack ws (q.map fun q => recvObs q.1 q.2.1)).zip (q.map fun q => q.2.2)).map (fun r => (r.1.look ws, r.2)) =
      q.map fun q => ((recvObs q.1 q.2.1).look ws, q.2.2) := by
  have h : ∀ (a : List (Ret V)) (b : List R), (a.zip b).map (fun r => (r.1.look ws, r.2)) = (a.map (Ret.look ws)).zip b := by
    intro a
    induction a with
    | nil => intro b; simp
    | cons x t ih => intro b; cases b <;> simp [ih]
  rw [h, stack_look, List.map_map]
  induction q with
  | nil => rfl
  | cons x t ih => simp only [List.map_cons, List.zip_cons_cons, ih, Function.comp_apply]

/-- What holds for each worker holds for all of them. -/
theorem handleAll_inv (run : A → σ → σ × Tree (Value V) × R) (P : Worker σ V → Prop) (Q : Option (Tree (Value V)) → Prop)
    (hstep : ∀ w c w' o r, P w → w.handle run c = some (w', o, r) → P w' ∧ Q o) :
    ∀ (c : List (Nat × A)) (ws ws' : List (Worker σ V)) (rep : List (Nat × Option (Tree (Value V)) × R)), (∀ w ∈ ws, P w) →
      handleAll run c ws = some (ws', rep) → ws'.length = ws.length ∧ (∀ w ∈ ws', P w) ∧
        (∀ q ∈ rep, q.1 < ws.length ∧ Q q.2.1) ∧ rep.map Prod.fst = c.map Prod.fst := by
  intro c
  induction c with
  | nil =>
    intro ws ws' rep hw h
    simp only [handleAll, Option.some.injEq, Prod.mk.injEq] at h
    rw [← h.1, ← h.2]
    exact ⟨rfl, hw, by simp, rfl⟩
  | cons x t ih =>
    intro ws ws' rep hw h
    obtain ⟨i, x⟩ := x
    simp only [handleAll] at h
    split at h
    · exact absurd h (by simp)
    · rename_i w hwi
      have hwm : w ∈ ws := List.mem_of_getElem? hwi
      have hil : i < ws.length := (List.getElem?_eq_some_iff.mp hwi).1
      split at h
      · exact absurd h (by simp)
      · rename_i w' o rr hh
        rw [Option.map_eq_some_iff] at h
        obtain ⟨⟨p1, p2⟩, hp, he⟩ := h
        obtain ⟨e1, e2⟩ := Prod.mk.inj he
        simp only at e1 e2
        obtain ⟨hP, hQ⟩ := hstep w x w' o rr (hw w hwm) hh
        obtain ⟨a1, a2, a3, a4⟩ := ih _ _ _ (fun v hv => by
          rcases List.mem_or_eq_of_mem_set hv with hv | hv
          · exact hw v hv
          · rw [hv]; exact hP) hp
        rw [List.length_set] at a1 a3
        rw [← e1, ← e2]
        refine ⟨a1, a2, fun q hq => ?_, by simp [a4]⟩
        rcases List.mem_cons.mp hq with rfl | hq
        · exact ⟨hil, hQ⟩
        · exact a3 q hq

theorem call_inv (run : A → σ → σ × Tree (Value V) × R) (P : Worker σ V → Prop) (Q : Option (Tree (Value V)) → Prop)
    (hstep : ∀ w c w' o r, P w → w.handle run c = some (w', o, r) → P w' ∧ Q o)
    (c : List (Nat × A)) (ws ws' : List (Worker σ V)) (rows : List (Ret V × R)) (hw : ∀ w ∈ ws, P w)
    (h : call run c ws = some (ws', rows)) : (∀ w ∈ ws', P w) ∧ ∃ rep, handleAll run c ws = some (ws', rep) ∧
      rows = (stack ws' (rep.map fun q => recvObs q.1 q.2.1)).zip (rep.map fun q => q.2.2) ∧
      (∀ q ∈ rep, q.1 < ws'.length ∧ Q q.2.1) ∧ rep.map Prod.fst = c.map Prod.fst := by
  unfold call at h
  rw [Option.map_eq_some_iff] at h
  obtain ⟨⟨p1, rep⟩, hp, he⟩ := h
  obtain ⟨e1, e2⟩ := Prod.mk.inj he
  simp only at e1 e2
  subst e1
  obtain ⟨a1, a2, a3, a4⟩ := handleAll_inv run P Q hstep c ws _ rep hw hp
  exact ⟨a2, rep, hp, e2.symm, fun q hq => by rw [a1]; exact a3 q hq, a4⟩

theorem after_inv (run : A → σ → σ × Tree (Value V) × R) (P : Worker σ V → Prop) (Q : Option (Tree (Value V)) → Prop)
    (hstep : ∀ w c w' o r, P w → w.handle run c = some (w', o, r) → P w' ∧ Q o) :
    ∀ (h : List (List (Nat × A))) (ws ws' : List (Worker σ V)), (∀ w ∈ ws, P w) → after run h ws = some ws' →
      ∀ w ∈ ws', P w
  | [], ws, ws', hw, h => by
    simp only [after, Option.some.injEq] at h
    rw [← h]; exact hw
  | c :: t, ws, ws', hw, h => by
    simp only [after, Option.bind_eq_some_iff] at h
    obtain ⟨⟨p1, rows⟩, hp, h⟩ := h
    exact after_inv run P Q hstep t _ _ (call_inv run P Q hstep c ws p1 rows hw hp).1 h

/-- Stacking arrays of one shape copies them. -/
theorem stack_arrays (ws : List (Worker σ V)) (shape : List Nat) (obs : List (Ret V))
    (h : ∀ r ∈ obs, ∃ e, r.look ws = some (.leaf (.array shape e))) : ∀ r ∈ stack ws obs, ∃ o, r = .own o := by
  have own : ∀ r ∈ (obs.map (Ret.look ws)).filterMap fun o => o.map Ret.own, ∃ o, r = .own o := by
    intro r hr
    obtain ⟨o, _, ho⟩ := List.mem_filterMap.mp hr
    rw [Option.map_eq_some_iff] at ho
    obtain ⟨x, _, rfl⟩ := ho
    exact ⟨x, rfl⟩
  cases obs with
  | nil => simp [stack]
  | cons a t =>
    obtain ⟨e, he⟩ := h a (by simp)
    have all : (((a :: t).map (Ret.look ws)).all (hasShape shape)) = true := by
      rw [List.all_eq_true]
      intro o ho
      obtain ⟨r, hr, rfl⟩ := List.mem_map.mp ho
      obtain ⟨e, he⟩ := h r hr
      rw [he]
      simp [hasShape]
    have hd : ((a :: t).map (Ret.look ws)).head? = some (some (.leaf (.array shape e))) := by simp [he]
    unfold stack
    rw [hd]
    simp only [all, if_true]
    exact own

/-- Objects of their own stay so. -/
theorem stack_own (ws : List (Worker σ V)) (obs : List (Ret V)) (h : ∀ r ∈ obs, ∃ o, r = .own o) :
    ∀ r ∈ stack ws obs, ∃ o, r = .own o := by
  have own : ∀ r ∈ (obs.map (Ret.look ws)).filterMap fun o => o.map Ret.own, ∃ o, r = .own o := by
    intro r hr
    obtain ⟨o, _, ho⟩ := List.mem_filterMap.mp hr
    rw [Option.map_eq_some_iff] at ho
    obtain ⟨x, _, rfl⟩ := ho
    exact ⟨x, rfl⟩
  unfold stack
  split
  · split_ifs
    · exact own
    · exact h
  · split_ifs
    · exact own
    · exact h
  · exact h

/-- Dictionaries are not copied. -/
theorem stack_dict (ws : List (Worker σ V)) (obs : List (Ret V)) (h : ∀ r ∈ obs, ∃ g, r.look ws = some (.dict g)) :
    stack ws obs = obs := by
  cases obs with
  | nil => simp [stack]
  | cons a t =>
    obtain ⟨g, hg⟩ := h a (by simp)
    simp [stack, hg]

end Verif.ShMem
