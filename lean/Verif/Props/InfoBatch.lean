import Verif.Model.InfoBatch
import Verif.Props.Batch

/-! Property C202: the infos the policy sees. -/

namespace Verif.Batch

theorem mem_falsy {infos : List B} {i : Nat} : i ∈ falsyPositions infos ↔ ∃ b, infos[i]? = some b ∧ b.keys = [] := by
  unfold falsyPositions
  simp only [List.mem_map, List.mem_filter, decide_eq_true_eq, Prod.exists, exists_eq_right]
  constructor
  · rintro ⟨b, h1, h2⟩
    exact ⟨b, by simpa using List.mem_zipIdx_iff_getElem?.1 h1, h2⟩
  · rintro ⟨b, h1, h2⟩
    exact ⟨b, List.mem_zipIdx_iff_getElem?.2 (by simpa using h1), h2⟩

/-- Filling several rows: the selected rows are blank, the others stay. -/
theorem fill_rows {o : Bool} {z : D} (hz : Blank o z) (ps : List Nat) : ∀ rows : List D,
    (ps.foldl (fun r p => r.modify p (D.fill z)) rows).length = rows.length ∧
    ∀ q : Nat, (q ∉ ps → (ps.foldl (fun r p => r.modify p (D.fill z)) rows)[q]? = rows[q]?) ∧
      (q ∈ ps → ∀ x, (ps.foldl (fun r p => r.modify p (D.fill z)) rows)[q]? = some x → Blank o x) := by
  induction ps with
  | nil => intro rows; exact ⟨rfl, fun q => ⟨fun _ => rfl, by simp⟩⟩
  | cons p ps ih =>
    intro rows
    obtain ⟨h1, h2⟩ := ih (rows.modify p (D.fill z))
    refine ⟨by rw [List.foldl_cons, h1]; simp, fun q => ?_⟩
    rw [List.foldl_cons]
    obtain ⟨h3, h4⟩ := h2 q
    constructor
    · intro hq
      rw [h3 fun h => hq (List.mem_cons_of_mem _ h), List.getElem?_modify]
      have : p ≠ q := by rintro rfl; exact hq (by simp)
      simp [this]
    · intro hq x hx
      by_cases hqs : q ∈ ps
      · exact h4 hqs x hx
      · have hqp : q = p := by
          rcases List.mem_cons.1 hq with h | h
          · exact h
          · exact absurd h hqs
        rw [h3 hqs, List.getElem?_modify] at hx
        simp only [hqp.symm, if_true] at hx
        cases hr : rows[q]? with
        | none => rw [hr] at hx; cases hx
        | some y =>
          rw [hr] at hx
          injection hx with hx
          rw [← hx]
          exact fill_blank hz y

theorem positions_nat {n : Nat} {ps : List Nat} (h : ∀ p ∈ ps, p < n) : positions n (ps.map fun p : Nat => (p : Int)) = some ps := by
  apply positions_of (by simp)
  intro t p i hp hi
  rw [List.getElem?_map, hp] at hi
  injection hi with hi
  have hi : i = (p : Int) := hi.symm
  subst hi
  exact ⟨h p (List.mem_of_getElem? hp), by rw [if_neg (by omega)]⟩

/-- Assigning an empty batch to some rows. -/
theorem clear_rows {n : Nat} {ps : List Nat} (hps : ∀ p ∈ ps, p < n) : ∀ b : B, b.Tall n →
    ∃ b', B.setLoop (.many (ps.map fun p : Nat => (p : Int))) .nil b = (b', none) ∧ b'.Tall n ∧ b'.keys = b.keys ∧
      ∀ q : Nat, q < n → ∃ r r', b.getLoop (.one q) = .ok r ∧ b'.getLoop (.one q) = .ok r' ∧ (q ∉ ps → r' = r) ∧
        (q ∈ ps → ∀ path l', r'.leafAt path = some l' → Blank l'.object l'.data) := by
  intro b
  induction b with
  | nil => intro _; exact ⟨.nil, rfl, trivial, rfl, fun q _ => ⟨.nil, .nil, rfl, rfl, fun _ => rfl,
    fun _ path l' h => by cases path <;> simp [B.leafAt] at h⟩⟩
  | leaf k l rest ih =>
    intro hb
    obtain ⟨⟨rows, hd, hn⟩, hrest⟩ := hb
    obtain ⟨rest', h1, h2, h3, h4⟩ := ih hrest
    obtain ⟨f1, f2⟩ := fill_rows (zero_blank l) ps rows
    have hset : l.data.setfill (.many (ps.map fun p : Nat => (p : Int))) l.zero =
        .ok (.arr (ps.foldl (fun r p => r.modify p (D.fill l.zero)) rows)) := by
      rw [hd]
      simp only [D.setfill, hn, positions_nat hps]
    refine ⟨.leaf k ⟨l.object, .arr (ps.foldl (fun r p => r.modify p (D.fill l.zero)) rows)⟩ rest', ?_, ?_, ?_, ?_⟩
    · simp only [B.setLoop, B.get?, hset, h1]
    · exact ⟨⟨_, rfl, f1.trans hn⟩, h2⟩
    · simp [B.keys, h3]
    · intro q hq
      obtain ⟨r, r', r1, r2, r3, r4⟩ := h4 q hq
      have get : ∀ rows : List D, rows.length = n → ∃ x, rows[q]? = some x ∧ (D.arr rows).getitem (.one q) = .ok x := by
        intro rows hn
        have hlt : q < rows.length := by omega
        refine ⟨rows[q], List.getElem?_eq_getElem hlt, ?_⟩
        have : pos rows.length (q : Int) = some q := by simp [pos, hlt]
        simp only [D.getitem, this, Option.bind_some, List.getElem?_eq_getElem hlt]
      obtain ⟨x, x1, x2⟩ := get rows hn
      obtain ⟨y, y1, y2⟩ := get _ (f1.trans hn)
      refine ⟨.leaf k ⟨l.object, x⟩ r, .leaf k ⟨l.object, y⟩ r', ?_, ?_, ?_, ?_⟩
      · simp only [B.getLoop, hd, x2, r1, bind, Except.bind]
      · simp only [B.getLoop, y2, r2, bind, Except.bind]
      · intro hqp
        rw [(f2 q).1 hqp, x1] at y1
        injection y1 with y1
        rw [y1, r3 hqp]
      · intro hqp
        intro path l' hl'
        cases path with
        | nil => simp [B.leafAt] at hl'
        | cons key path =>
          simp only [B.leafAt] at hl'
          split_ifs at hl'
          · cases hl'; exact (f2 q).2 hqp y y1
          · exact r4 hqp _ _ hl'
  | sub k b rest ihb ih =>
    intro hb
    obtain ⟨hsub, hrest⟩ := hb
    obtain ⟨rest', h1, h2, h3, h4⟩ := ih hrest
    obtain ⟨b', g1, g2, g3, g4⟩ := ihb hsub
    refine ⟨.sub k b' rest', ?_, ⟨g2, h2⟩, by simp [B.keys, h3], ?_⟩
    · simp only [B.setLoop, B.get?, g1, h1]
    · intro q hq
      obtain ⟨r, r', r1, r2, r3, r4⟩ := h4 q hq
      obtain ⟨s, s', s1, s2, s3, s4⟩ := g4 q hq
      refine ⟨.sub k s r, .sub k s' r', ?_, ?_, ?_, ?_⟩
      · simp only [B.getLoop, s1, r1, bind, Except.bind]
      · simp only [B.getLoop, s2, r2, bind, Except.bind]
      · intro hqp; rw [r3 hqp, s3 hqp]
      · intro hqp path l' hl'
        cases path with
        | nil => simp [B.leafAt] at hl'
        | cons key path =>
          simp only [B.leafAt] at hl'
          split_ifs at hl'
          · exact s4 hqp _ _ hl'
          · exact r4 hqp _ _ hl'

theorem leafAt_of_no_keys {b : B} (h : b.keys = []) (path : List String) : b.leafAt path = none := by
  cases b with
  | nil => cases path <;> simp [B.leafAt]
  | leaf k l rest => simp [B.keys] at h
  | sub k b rest => simp [B.keys] at h

theorem keys_of_getitem {b r : B} {i : Index} (h : b.getitem i = .ok r) : b.keys ≠ [] := by
  cases b with
  | nil => simp [B.getitem] at h
  | leaf k l rest => simp [B.keys]
  | sub k b rest => simp [B.keys]

theorem getitem_loop {b : B} (h : b.keys ≠ []) (i : Index) : b.getitem i = b.getLoop i := by
  cases b with
  | nil => simp [B.keys] at h
  | leaf k l rest => rfl
  | sub k b rest => rfl

/-- C202. If the infos of the environments can be made one batch at all, row `i` of the batch that the policy sees has exactly the
data of the info of environment `i`: all its values, and zeros or `None` where it has none. In particular the row of an environment
with an empty info has nothing of the infos of the others. -/
theorem C202_rows (infos : List B) (out : B) (h : infoBatch infos = .ok out) (hsome : ∃ b ∈ infos, b.keys ≠ []) (i : Nat) (b : B)
    (hb : infos[i]? = some b) : ∃ r, out.getitem (.one i) = .ok r ∧ Reads b r := by
  unfold infoBatch at h
  cases hs : someInfo infos with
  | none =>
    obtain ⟨c, hc, hk⟩ := hsome
    rw [someInfo, List.find?_eq_none] at hs
    exact absurd (hs c hc) (by simpa using hk)
  | some info =>
    have hinfo : info.keys ≠ [] := by simpa using List.find?_some hs
    rw [hs] at h
    simp only at h
    have hlen : (infos.map fun b => if b.keys = [] then info else b).length = infos.length := by simp
    have hk : ∀ c ∈ infos.map (fun b => if b.keys = [] then info else b), c.keys ≠ [] := by
      intro c hc
      obtain ⟨d, _, rfl⟩ := List.mem_map.1 hc
      split_ifs with hd
      · exact hinfo
      · exact hd
    have hne : infos.map (fun b => if b.keys = [] then info else b) ≠ [] := by
      obtain ⟨c, hc, _⟩ := hsome
      intro he
      rw [List.map_eq_nil_iff] at he
      rw [he] at hc; cases hc
    cases hst : stack (infos.map fun b => if b.keys = [] then info else b) with
    | error e => rw [hst] at h; cases h
    | ok st =>
      rw [hst] at h
      simp only at h
      obtain ⟨t1, t2⟩ := C47_stack _ st hne hk hst
      rw [hlen] at t1
      have hps : ∀ p ∈ falsyPositions infos, p < infos.length := by
        intro p hp
        obtain ⟨c, hc, _⟩ := mem_falsy.1 hp
        exact (List.getElem?_eq_some_iff.mp hc).1
      obtain ⟨b', c1, c2, c3, c4⟩ := clear_rows hps st t1
      have hset : st.setitem (.many ((falsyPositions infos).map fun p : Nat => (p : Int))) .nil = (b', none) := by
        rw [B.setitem, if_pos (by simp [B.keys]), c1]
      rw [hset] at h
      simp only at h
      injection h with h
      subst h
      have hi : i < infos.length := (List.getElem?_eq_some_iff.mp hb).1
      obtain ⟨r, r', r1, r2, r3, r4⟩ := c4 i hi
      have hbi : (infos.map fun b => if b.keys = [] then info else b)[i]? = some (if b.keys = [] then info else b) := by
        rw [List.getElem?_map, hb]; rfl
      obtain ⟨q, q1, q2, _⟩ := t2 i _ hbi
      have hstk : st.keys ≠ [] := keys_of_getitem q1
      refine ⟨r', by rw [getitem_loop (by rw [c3]; exact hstk)]; exact r2, ?_⟩
      by_cases hbk : b.keys = []
      · have hmem : i ∈ falsyPositions infos := mem_falsy.2 ⟨b, hb, hbk⟩
        intro path
        refine ⟨fun l hl => ?_, fun _ l' hl' => r4 hmem path l' hl'⟩
        rw [leafAt_of_no_keys hbk] at hl; cases hl
      · have hmem : i ∉ falsyPositions infos := by
          intro hm
          obtain ⟨c, hc1, hc2⟩ := mem_falsy.1 hm
          rw [hb] at hc1
          injection hc1 with hc1
          subst hc1
          exact hbk hc2
        rw [getitem_loop hstk, r1] at q1
        injection q1 with q1
        rw [r3 hmem, q1]
        rw [if_neg hbk] at q2
        exact q2

/-- C202. Infos that are empty or have one structure can always be made one batch. -/
theorem C202_ok (infos : List B) (hs : ∀ b ∈ infos, ∀ c ∈ infos, b.keys ≠ [] → c.keys ≠ [] → SameShape b c) :
    ∃ out, infoBatch infos = .ok out := by
  unfold infoBatch
  cases hsi : someInfo infos with
  | none => exact ⟨_, rfl⟩
  | some info =>
    have hinfo : info.keys ≠ [] := by simpa using List.find?_some hsi
    have hmem : info ∈ infos := List.mem_of_find?_eq_some hsi
    have hk : ∀ c ∈ infos.map (fun b => if b.keys = [] then info else b), c ∈ infos ∧ c.keys ≠ [] := by
      intro c hc
      obtain ⟨d, hd0, rfl⟩ := List.mem_map.1 hc
      split_ifs with hd
      · exact ⟨hmem, hinfo⟩
      · exact ⟨hd0, hd⟩
    have hne : infos.map (fun b => if b.keys = [] then info else b) ≠ [] := by
      intro he
      rw [List.map_eq_nil_iff] at he
      rw [he] at hmem; cases hmem
    obtain ⟨st, hst, _⟩ := C47_stack_same _ hne (fun c hc => (hk c hc).2)
      fun b hb c hc => hs b (hk b hb).1 c (hk c hc).1 (hk b hb).2 (hk c hc).2
    obtain ⟨t1, _⟩ := C47_stack _ st hne (fun c hc => (hk c hc).2) hst
    rw [List.length_map] at t1
    have hps : ∀ p ∈ falsyPositions infos, p < infos.length := by
      intro p hp
      obtain ⟨c, hc, _⟩ := mem_falsy.1 hp
      exact (List.getElem?_eq_some_iff.mp hc).1
    obtain ⟨b', c1, _⟩ := clear_rows hps st t1
    simp only [hst]
    rw [B.setitem, if_pos (by simp [B.keys]), c1]
    exact ⟨b', rfl⟩

/-- C202. Without any info the policy sees an empty batch. -/
theorem C202_none (infos : List B) (h : ∀ b ∈ infos, b.keys = []) : infoBatch infos = .ok .nil := by
  have : someInfo infos = none := by
    rw [someInfo, List.find?_eq_none]
    intro b hb
    simpa using h b hb
  rw [infoBatch, this]

/-- The infos of three environments: the second has none. -/
def exInfos : List B :=
  [.leaf "lives" ⟨false, .num 3⟩ (.sub "pos" (.leaf "x" ⟨false, .num 7⟩ .nil) .nil), .nil,
   .leaf "lives" ⟨false, .num 2⟩ (.sub "pos" (.leaf "x" ⟨false, .num 8⟩ .nil) .nil)]

example : ((infoBatch exInfos).toOption.bind fun b => b.leafAt ["lives"]).map (fun l => l.data.beq (.arr [.num 3, .num 0, .num 2])) =
    some true := by decide +kernel
example : ((infoBatch exInfos).toOption.bind fun b => b.leafAt ["pos", "x"]).map (fun l => l.data.beq (.arr [.num 7, .num 0, .num 8])) =
    some true := by decide +kernel

end Verif.Batch
