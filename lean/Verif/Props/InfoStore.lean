import Verif.Lemmas.InfoStore
import Verif.Props.AsyncPipeline
import Verif.Props.CachedPipeline

/-!
# Missing values and the information stored with transitions (properties C221 and C222)

`log` are rounds of transitions recorded by a collector (`Recorded`; `C222_recorded` and `C222_recorded_async` say that this covers both
collectors in ordinary use), `infoRounds` the buffer after them, where `x0` is what was left of earlier use before the buffer was reset.
-/

namespace Verif.InfoStore

open Verif.Buffer Verif.Pipeline Verif.Spec Verif.EpisodeHook

set_option linter.unusedSectionVars false

variable {σ O A R S H K : Type}

/-- Rounds of transitions of environments below `N`, each environment at most once in a round. -/
def Recorded (N : Nat) (log : List (List (Nat × Collector.Row O A R (Info S)))) : Prop :=
  (∀ p ∈ log.flatten, p.1 < N) ∧ ∀ round ∈ log, (round.map Prod.fst).Nodup

/-- The arrays left from earlier use have the types of the values. -/
def Sound (kindOf : String → Kind) (x0 : Store S) : Prop :=
  (∀ key c, x0.column key = some c → c.kind = kindOf key) ∧ ∀ key, key ∈ x0.names ↔ (x0.column key).isSome = true

section
variable [AddCommMonoid R]

/-- What a collector in ordinary use has recorded since its buffer was reset. -/
theorem C222_recorded (c : Collector.Cfg σ A O R (Info S) H K) (hs : c.share = false) (b : Bool) (s : Collector.Col σ A O R (Info S) H)
    (h : Collector.Usage c b s) : Recorded c.envNum s.log :=
  ⟨ids_lt c hs b s h, sync_distinct c hs b s h⟩

/-- The same for asynchronous collectors. -/
theorem C222_recorded_async (c : Collector.ACfg σ A O R (Info S) H K) (hsch : Collector.Schedule c.wait)
    (s : Collector.ACol σ A O R (Info S) H) (h : Collector.AUsage c s) : Recorded c.base.envNum s.log :=
  ⟨async_ids c hsch s h, async_distinct c hsch s h⟩

/-- What is known after the rounds. -/
theorem after_log {N : Nat} {log : List (List (Nat × Collector.Row O A R (Info S)))} (hrec : Recorded N log)
    {m0 : Mgr O A R} {sep0 : List (Buf O A R)} (h0 : Reach m0 sep0) (hn : N ≤ sep0.length) (nan : Int) {kindOf : String → Kind}
    (ht : Typed kindOf log.flatten) {x0 : Store S} (hx0 : Sound kindOf x0) :
    ∃ x sep, infoRounds nan ⟨m0.reset false, x0⟩ log = .ok x ∧ Reach x.mgr sep ∧ x.mgr.opts = m0.opts ∧ sep.length = sep0.length ∧
      (∀ e, startOf sep e = startOf sep0 e) ∧
      Follows m0.opts (Pipeline.sizeOf sep0) sep (fun e => (Collector.rowsOf e [log.flatten]).map experience) ∧
      Knows kindOf (startOf sep0) (Pipeline.sizeOf sep0) sep0.length x0 log.flatten x.store := by
  have hstart : startOf (sep0.map fun b => b.reset false) = startOf sep0 := by
    funext e
    unfold startOf
    rw [List.map_map]
    rfl
  have hK : Knows (O := O) (A := A) (R := R) kindOf (startOf (sep0.map fun b => b.reset false)) (Pipeline.sizeOf sep0)
      (sep0.map fun b => b.reset false).length x0 [] x0 := by
    refine ⟨hx0.1, hx0.2, by simp, ?_⟩
    intro e _ p row hh
    have : Collector.rowsOf e [([] : List (Nat × Collector.Row O A R (Info S)))] = [] := rfl
    have h1 := hh.1
    rw [this] at h1
    simp at h1
  obtain ⟨x, sep, r0, r1, r2, r3, r4, r5, r6⟩ := info_rounds (nan := nan) log (x := ⟨m0.reset false, x0⟩) (h0.reset false) (follows_reset h0)
    (by
      intro p hp
      rw [List.length_map]
      exact Nat.lt_of_lt_of_le (hrec.1 p hp) hn) hrec.2 ht hK
  rw [List.nil_append] at r5 r6
  rw [hstart, List.length_map] at r6
  exact ⟨x, sep, r0, r1, r2, by rw [r3, List.length_map], fun e => by rw [r4, hstart], r5, r6⟩

/-- The transitions listed by `sample_indices(0)` are those held. -/
theorem listed {N : Nat} {log : List (List (Nat × Collector.Row O A R (Info S)))} (hrec : Recorded N log) {opts : Opts O}
    {sep0 : List (Buf O A R)} {m : Mgr O A R} {sep : List (Buf O A R)} (hm : Reach m sep) (ho : m.opts = opts)
    (hopt : opts.stackNum = 1 ∨ opts.sampleAvail = false) (hl : sep.length = sep0.length) (hst : ∀ e, startOf sep e = startOf sep0 e)
    (T : Follows opts (Pipeline.sizeOf sep0) sep (fun e => (Collector.rowsOf e [log.flatten]).map experience)) (hn : N ≤ sep0.length) :
    ∃ l, m.sampleIndices (fun _ => 0) (fun _ _ => 0) (some 0) = .ok l ∧
      ∀ i, i ∈ l ↔ ∃ e < N, ∃ p row, Held (Pipeline.sizeOf sep0) log.flatten e p row ∧ i = startOf sep0 e + p % Pipeline.sizeOf sep0 e := by
  obtain ⟨l, l1, _, _, l4⟩ := C23_all hm (by rw [ho]; exact hopt) (fun _ => 0) (fun _ _ => 0) (some 0) (.inr rfl)
  refine ⟨l, l1, fun i => ?_⟩
  rw [l4 i]
  constructor
  · rintro ⟨e, cb, hcb, hlo, hhi⟩
    obtain ⟨hco, hcs, hist⟩ := T e cb hcb
    have hI := hist.inv
    have hsize := hI.size
    simp only [ghostOf, List.length_map, hcs] at hsize
    have hlen : cb.len = cb.idx.size := rfl
    rw [hst] at hlo hhi
    obtain ⟨l', _, e2, _, _, e5⟩ := C06_enumerates hist (by rw [hco]; exact hopt) (fun _ => 0)
    have hmem : i - startOf sep0 e ∈ cb.idx.allIndices := by rw [← e2, e5]; omega
    rw [hI.allIndices_eq, List.mem_map] at hmem
    obtain ⟨k, hk, hk2⟩ := hmem
    rw [List.mem_range] at hk
    simp only [ghostOf, List.length_map, hcs] at hk2
    have hq : (Collector.rowsOf e [log.flatten]).length - cb.idx.size + k < (Collector.rowsOf e [log.flatten]).length := by omega
    refine ⟨e, ?_, (Collector.rowsOf e [log.flatten]).length - cb.idx.size + k, _, ⟨List.getElem?_eq_getElem hq, by omega⟩, by omega⟩
    have hmem := List.getElem_mem hq
    generalize (Collector.rowsOf e [log.flatten])[(Collector.rowsOf e [log.flatten]).length - cb.idx.size + k] = row at hmem
    simp only [Collector.rowsOf, List.flatten_cons, List.flatten_nil, List.append_nil, List.mem_map, List.mem_filter] at hmem
    obtain ⟨⟨e', row''⟩, ⟨q1, q2⟩, _⟩ := hmem
    have : e' = e := by simpa using q2
    subst this
    exact hrec.1 _ q1
  · rintro ⟨e, he, p, row, ⟨hp, hlive⟩, rfl⟩
    have hlt := (List.getElem?_eq_some_iff.mp hp).1
    have hcb : sep[e]? = some (sep[e]'(by omega)) := List.getElem?_eq_getElem (by omega)
    obtain ⟨hco, hcs, hist⟩ := T e _ hcb
    have hpos := hist.inv.holds.pos
    rw [hcs] at hpos
    have hsize := hist.inv.size
    simp only [ghostOf, List.length_map, hcs] at hsize
    have hlen : (sep[e]'(by omega)).len = (sep[e]'(by omega)).idx.size := rfl
    have hmod := Nat.mod_lt p hpos
    have hle := Nat.mod_le p (Pipeline.sizeOf sep0 e)
    refine ⟨e, _, hcb, ?_, ?_⟩
    · rw [hst]; omega
    · rw [hst, hlen, hsize]; omega

/-- `False`, 0 or `None`, as the type says. -/
inductive Blank : Kind → Val S → Prop
  | bool : Blank .bool (.bool false)
  | int : Blank .int (.int 0)
  | float : Blank .float (.float (some 0))
  | obj : Blank .obj (.obj none)

/-- **C222.** If the values under each key have one type, nothing raises, and every transition that is still in the buffer has its data, and
under every key the value the environment returned with it; if it returned none but others did, it has 0 (or `False`, or `None`). -/
theorem C222_partial {N : Nat} {log : List (List (Nat × Collector.Row O A R (Info S)))} (hrec : Recorded N log)
    {m0 : Mgr O A R} {sep0 : List (Buf O A R)} (h0 : Reach m0 sep0) (hn : N ≤ sep0.length) (nan : Int) {kindOf : String → Kind}
    (ht : Typed kindOf log.flatten) {x0 : Store S} (hx0 : Sound kindOf x0) :
    ∃ x, infoRounds nan ⟨m0.reset false, x0⟩ log = .ok x ∧
      ∀ e < N, ∀ p row, Held (Pipeline.sizeOf sep0) log.flatten e p row →
        let slot := startOf sep0 e + p % Pipeline.sizeOf sep0 e
        x.mgr.data slot = some (expectedRow m0.opts (experience row)) ∧
        (∀ key v, get row.out.info key = some v → x.store.read key slot = some v) ∧
        ∀ key, get row.out.info key = none → ∀ v, x.store.read key slot = some v → Blank (kindOf key) v := by
  obtain ⟨x, sep, r0, r1, r2, r3, r4, r5, r6⟩ := after_log hrec h0 hn nan ht hx0
  refine ⟨x, r0, ?_⟩
  intro e he p row hh
  have hcb : sep[e]? = some (sep[e]'(by omega)) := List.getElem?_eq_getElem (by omega)
  obtain ⟨_, hcs, hist⟩ := r5 e _ hcb
  have hpos := hist.inv.holds.pos
  rw [hcs] at hpos
  refine ⟨?_, ?_, ?_⟩
  · have hmod := Nat.mod_lt p hpos
    have := (C20_store r1 e _ hcb).1 (p % Pipeline.sizeOf sep0 e) (by omega)
    rw [r4] at this
    rw [this]
    refine follows_data r5 hcb _ _ ?_ (by rw [List.length_map]; exact hh.2)
    rw [List.getElem?_map, hh.1]
    rfl
  · intro key v hv
    have hsome : (x.store.column key).isSome = true := by
      rw [r6.columns]
      have hmem := List.mem_of_getElem? hh.1
      simp only [Collector.rowsOf, List.flatten_cons, List.flatten_nil, List.append_nil, List.mem_map, List.mem_filter] at hmem
      obtain ⟨q, ⟨q1, _⟩, q3⟩ := hmem
      exact .inr ⟨q, q1, by rw [q3, hv]; rfl⟩
    obtain ⟨c, hc⟩ := Option.isSome_iff_exists.mp hsome
    unfold Store.read
    rw [hc, Option.map_some, r6.cells e (by omega) p row hh key c hc, hv]
    rfl
  · intro key hnone v hv
    unfold Store.read at hv
    rw [Option.map_eq_some_iff] at hv
    obtain ⟨c, hc, rfl⟩ := hv
    rw [r6.cells e (by omega) p row hh key c hc, hnone]
    cases kindOf key <;> constructor

/-- **C221: what is found.** A missing value is found exactly if a transition in the buffer has one itself, or lacks an object that another
transition has (or had, before the buffer was reset). -/
theorem C221_exact {N : Nat} {log : List (List (Nat × Collector.Row O A R (Info S)))} (hrec : Recorded N log)
    {m0 : Mgr O A R} {sep0 : List (Buf O A R)} (h0 : Reach m0 sep0) (hn : N ≤ sep0.length)
    (hopt : m0.opts.stackNum = 1 ∨ m0.opts.sampleAvail = false) (nan : Int) {kindOf : String → Kind}
    (ht : Typed kindOf log.flatten) {x0 : Store S} (hx0 : Sound kindOf x0) (rowNull : Trans O A R → Bool) :
    ∃ x null, infoRounds nan ⟨m0.reset false, x0⟩ log = .ok x ∧ hasNull rowNull x = .ok null ∧
      (null = true ↔ ∃ e < N, ∃ p row, Held (Pipeline.sizeOf sep0) log.flatten e p row ∧
        (rowNull (expectedRow m0.opts (experience row)) = true ∨ (∃ key v, get row.out.info key = some v ∧ Missing v) ∨
          ∃ key, kindOf key = .obj ∧ get row.out.info key = none ∧
            ((x0.column key).isSome = true ∨ ∃ q ∈ log.flatten, (get q.2.out.info key).isSome = true))) := by
  obtain ⟨x, sep, r0, r1, r2, r3, r4, r5, r6⟩ := after_log hrec h0 hn nan ht hx0
  obtain ⟨x', s0, s1⟩ := C222_partial hrec h0 hn nan ht hx0
  rw [r0] at s0
  cases s0
  obtain ⟨l, l1, l2⟩ := listed hrec r1 r2 hopt r3 r4 r5 hn
  refine ⟨x, _, r0, by unfold hasNull; rw [l1], ?_⟩
  rw [List.any_eq_true]
  have key : ∀ e < N, ∀ p row, Held (Pipeline.sizeOf sep0) log.flatten e p row → ∀ i, i = startOf sep0 e + p % Pipeline.sizeOf sep0 e →
      (((match x.mgr.data i with
        | some t => rowNull t
        | none => false) ||
      x.store.names.any fun key =>
        match x.store.column key with
        | some c => isNull (c.cell i)
        | none => false) = true ↔
        (rowNull (expectedRow m0.opts (experience row)) = true ∨ (∃ key v, get row.out.info key = some v ∧ Missing v) ∨
          ∃ key, kindOf key = .obj ∧ get row.out.info key = none ∧
            ((x0.column key).isSome = true ∨ ∃ q ∈ log.flatten, (get q.2.out.info key).isSome = true))) := by
    rintro e he p row hh i rfl
    obtain ⟨t1, t2, t3⟩ := s1 e he p row hh
    rw [t1, Bool.or_eq_true, List.any_eq_true]
    simp only
    refine or_congr Iff.rfl ?_
    constructor
    · rintro ⟨key, hk, hnull⟩
      rw [r6.names] at hk
      obtain ⟨c, hc⟩ := Option.isSome_iff_exists.mp hk
      simp only [hc] at hnull
      rw [isNull_iff, r6.cells e (by omega) p row hh key c hc] at hnull
      cases hg : get row.out.info key with
      | some v =>
        rw [hg, Option.getD_some] at hnull
        exact .inl ⟨key, v, hg, hnull⟩
      | none =>
        rw [hg, Option.getD_none] at hnull
        refine .inr ⟨key, ?_, hg, (r6.columns key).mp hk⟩
        rcases hnull with h | h
        · cases hkk : kindOf key <;> rw [hkk] at h <;> simp [zero] at h
        · cases hkk : kindOf key <;> rw [hkk] at h <;> simp [zero] at h ⊢
    · rintro (⟨key, v, hg, hv⟩ | ⟨key, hk, hg, hcol⟩)
      · have hr := t2 key v hg
        unfold Store.read at hr
        rw [Option.map_eq_some_iff] at hr
        obtain ⟨c, hc, hcell⟩ := hr
        refine ⟨key, (r6.names key).mpr (by rw [hc]; rfl), ?_⟩
        simp only [hc]
        rw [hcell, isNull_iff]
        exact hv
      · have hsome := (r6.columns key).mpr hcol
        obtain ⟨c, hc⟩ := Option.isSome_iff_exists.mp hsome
        refine ⟨key, (r6.names key).mpr hsome, ?_⟩
        simp only [hc]
        rw [r6.cells e (by omega) p row hh key c hc, hg, hk]
        rfl
  constructor
  · rintro ⟨i, hi, hbad⟩
    obtain ⟨e, he, p, row, hh, hi⟩ := (l2 i).mp hi
    exact ⟨e, he, p, row, hh, (key e he p row hh i hi).mp hbad⟩
  · rintro ⟨e, he, p, row, hh, hbad⟩
    exact ⟨_, (l2 _).mpr ⟨e, he, p, row, hh, rfl⟩, (key e he p row hh _ rfl).mpr hbad⟩

/-- **C221, both collectors, with `raise_on_nan_in_buffer`:** if all transitions have the same objects in their information, the collection
ends with `MalformedBufferError` exactly if a transition in the buffer has a missing value, and returns otherwise. -/
theorem C221_partial {N : Nat} {log : List (List (Nat × Collector.Row O A R (Info S)))} (hrec : Recorded N log)
    {m0 : Mgr O A R} {sep0 : List (Buf O A R)} (h0 : Reach m0 sep0) (hn : N ≤ sep0.length)
    (hopt : m0.opts.stackNum = 1 ∨ m0.opts.sampleAvail = false) (nan : Int) {kindOf : String → Kind}
    (ht : Typed kindOf log.flatten) (hobj : ∀ key, kindOf key = .obj → ∀ q ∈ log.flatten, ∀ q' ∈ log.flatten,
      (get q.2.out.info key).isSome = (get q'.2.out.info key).isSome) (rowNull : Trans O A R → Bool) (isAsync : Bool) :
    ∃ x, infoRounds nan ⟨m0.reset false, Store.empty⟩ log = .ok x ∧
      (finish isAsync true rowNull x = .error .malformed ∨ finish isAsync true rowNull x = .ok ()) ∧
      (finish isAsync true rowNull x = .error .malformed ↔ ∃ e < N, ∃ p row, Held (Pipeline.sizeOf sep0) log.flatten e p row ∧
        (rowNull (expectedRow m0.opts (experience row)) = true ∨ ∃ key v, get row.out.info key = some v ∧ Missing v)) := by
  obtain ⟨x, null, r0, r1, r2⟩ := C221_exact hrec h0 hn hopt nan ht (x0 := Store.empty)
    ⟨by simp [Store.empty], by simp [Store.empty]⟩ rowNull
  refine ⟨x, r0, ?_, ?_⟩
  · unfold finish
    rw [r1]
    simp only [Bool.true_and]
    cases null <;> cases isAsync <;> simp
  · have : finish isAsync true rowNull x = .error .malformed ↔ null = true := by
      unfold finish
      rw [r1]
      simp only [Bool.true_and]
      cases null <;> cases isAsync <;> simp
    rw [this, r2]
    constructor
    · rintro ⟨e, he, p, row, hh, h | h | ⟨key, hk, hg, h⟩⟩
      · exact ⟨e, he, p, row, hh, .inl h⟩
      · exact ⟨e, he, p, row, hh, .inr h⟩
      · rcases h with h | ⟨q, hq, h⟩
        · simp [Store.empty] at h
        · have hmem := List.mem_of_getElem? hh.1
          simp only [Collector.rowsOf, List.flatten_cons, List.flatten_nil, List.append_nil, List.mem_map, List.mem_filter] at hmem
          obtain ⟨q', ⟨q1, _⟩, q3⟩ := hmem
          have := hobj key hk q hq q' q1
          rw [h, q3, hg] at this
          cases this
    · rintro ⟨e, he, p, row, hh, h | h⟩
      · exact ⟨e, he, p, row, hh, .inl h⟩
      · exact ⟨e, he, p, row, hh, .inr (.inl h)⟩

end

/-- **C221, without `raise_on_nan_in_buffer`:** the asynchronous collector does not raise `MalformedBufferError`. -/
theorem C221_async_off (rowNull : Trans O A R → Bool) (x : IBuf O A R S) : finish true false rowNull x ≠ .error .malformed := by
  unfold finish hasNull
  cases hs : x.mgr.sampleIndices (fun _ => 0) (fun _ _ => 0) (some 0) with
  | error e => simp
  | ok l => simp

/-- The synchronous collector does not honour `raise_on_nan_in_buffer=False`: it raises whenever it finds a missing value. -/
theorem C221_flag_violated (rowNull : Trans O A R → Bool) (x : IBuf O A R S) (h : hasNull rowNull x = .ok true) :
    finish false false rowNull x = .error .malformed := by
  unfold finish
  rw [h]
  rfl

/-! ### Examples -/

/-- A transition with this information. -/
def exRow (info : Info String) : Collector.Row Nat Nat Int (Info String) := ⟨0, [], 0, 0, ⟨0, 1, false, false, info⟩⟩

/-- The buffer after rounds of information, `n` transitions for each of two environments. -/
def exAfter (n : Nat) (rounds : List (List (Nat × Info String))) : Option (IBuf Nat Nat Int String) :=
  (infoRounds 0 ⟨(exBuffer [n, n]).reset false, Store.empty⟩ (rounds.map fun r => r.map fun p => (p.1, exRow p.2))).toOption

/-- The first entries of an array. -/
def exRead (n : Nat) (key : String) (x : IBuf Nat Nat Int String) : List (Option (Val String)) := (List.range n).map fun i => x.store.read key i

/-- Three rounds; the score comes with some transitions only. -/
def exRounds : List (List (Nat × Collector.Row Nat Nat Int (Info String))) :=
  [[(0, exRow [("id", .int 0)]), (1, exRow [("id", .int 1)])], [(1, exRow [("id", .int 1), ("score", .float (some (1 / 2)))])],
   [(0, exRow [("id", .int 0), ("score", .float (some 3))]), (1, exRow [("id", .int 1)])]]

def exKind (key : String) : Kind := if key = "id" then .int else .float

example : Recorded 2 exRounds := ⟨by decide +kernel, by decide +kernel⟩

theorem mem_of_get {info : Info S} {key : String} {v : Val S} (h : get info key = some v) : (key, v) ∈ info := by
  unfold get at h
  induction info with
  | nil => cases h
  | cons p l ih =>
    rw [List.lookup_cons] at h
    split at h
    · next heq =>
      cases h
      have : key = p.1 := by simpa using heq
      rw [this]
      exact List.mem_cons_self
    · exact List.mem_cons_of_mem _ (ih h)

theorem exTyped : Typed exKind exRounds.flatten := by
  intro p hp key v hv
  simp only [exRounds, List.flatten_cons, List.flatten_nil, List.cons_append, List.nil_append, List.append_nil, List.mem_cons,
    List.not_mem_nil, or_false] at hp
  have hm := mem_of_get hv
  rcases hp with rfl | rfl | rfl | rfl | rfl <;>
    simp only [exRow, List.mem_cons, List.not_mem_nil, or_false, Prod.mk.injEq] at hm
  · obtain ⟨rfl, rfl⟩ := hm; rfl
  · obtain ⟨rfl, rfl⟩ := hm; rfl
  · rcases hm with ⟨rfl, rfl⟩ | ⟨rfl, rfl⟩ <;> rfl
  · rcases hm with ⟨rfl, rfl⟩ | ⟨rfl, rfl⟩ <;> rfl
  · obtain ⟨rfl, rfl⟩ := hm; rfl

/-- Both arrays after the rounds, with four slots for each environment. -/
example : (exAfter 4 [[(0, [("id", .int 0)]), (1, [("id", .int 1)])], [(1, [("id", .int 1), ("score", .float (some (1 / 2)))])],
      [(0, [("id", .int 0), ("score", .float (some 3))]), (1, [("id", .int 1)])]]).map (fun x => (exRead 8 "id" x, exRead 8 "score" x)) =
    some ([some (.int 0), some (.int 0), some (.int 0), some (.int 0), some (.int 1), some (.int 1), some (.int 1), some (.int 0)],
      [some (.float (some 0)), some (.float (some 3)), some (.float (some 0)), some (.float (some 0)),
        some (.float (some 0)), some (.float (some (1 / 2))), some (.float (some 0)), some (.float (some 0))]) := by
  decide +kernel

/-- In full: whatever number is returned is read back. -/
def C222 : Prop := ∀ (N : Nat) (log : List (List (Nat × Collector.Row Nat Nat Int (Info String)))) (_ : Recorded N log)
  (m0 : Mgr Nat Nat Int) (sep0 : List (Buf Nat Nat Int)) (_ : Reach m0 sep0) (_ : N ≤ sep0.length) (nan : Int) (x : IBuf Nat Nat Int String)
  (_ : infoRounds nan ⟨m0.reset false, Store.empty⟩ log = .ok x) (e : Nat) (_ : e < N) (p : Nat)
  (row : Collector.Row Nat Nat Int (Info String)) (_ : Held (Pipeline.sizeOf sep0) log.flatten e p row) (key : String) (q : ℚ)
  (_ : get row.out.info key = some (.float (some q))),
  x.store.read key (startOf sep0 e + p % Pipeline.sizeOf sep0 e) = some (.float (some q)) ∨
    ∃ z : Int, x.store.read key (startOf sep0 e + p % Pipeline.sizeOf sep0 e) = some (.int z) ∧ (z : ℚ) = q

/-- A score of 0 (an integer) and then a score of one half. -/
def exScores : List (List (Nat × Collector.Row Nat Nat Int (Info String))) :=
  [[(0, exRow [("score", .int 0)])], [(0, exRow [("score", .float (some (1 / 2)))])]]

theorem Except.ok_of_isSome {ε α : Type} (y : Except ε α) (h : y.toOption.isSome = true) : y = .ok (y.toOption.get h) := by
  cases y with
  | error e => cases h
  | ok z => rfl

def exBuf2 (rounds : List (List (Nat × Collector.Row Nat Nat Int (Info String)))) : Except Err (IBuf Nat Nat Int String) :=
  infoRounds 0 ⟨(exBuffer [4]).reset false, Store.empty⟩ rounds

/-- **C222 is violated:** the array has the type of the first value; a number that comes later is converted to it, here cut off to 0. -/
theorem C222_violated : ¬ C222 := by
  intro hC
  have hok := Except.ok_of_isSome (exBuf2 exScores) (by decide +kernel)
  have := hC 1 exScores ⟨by decide +kernel, by decide +kernel⟩ (exBuffer [4]) _ (exBuffer_reach [4] (by decide)) (by decide) 0 _ hok 0
    (by decide) 1 (exRow [("score", .float (some (1 / 2)))]) ⟨by decide +kernel, by decide +kernel⟩ "score" (1 / 2) (by decide +kernel)
  have hread : ((exBuf2 exScores).toOption.get (by decide +kernel)).store.read "score"
      (startOf ([4].map fun n => (Buf.new n {} : Buf Nat Nat Int)) 0 +
        1 % Pipeline.sizeOf ([4].map fun n => (Buf.new n {} : Buf Nat Nat Int)) 0) = some (.int 0) := by decide +kernel
  rw [hread] at this
  rcases this with h | ⟨z, h, hz⟩
  · cases h
  · cases h
    norm_num at hz

/-- This happens within one round too, if one of the environments does not return the key. -/
example : (exAfter 4 [[(0, [("score", .int 1)]), (1, [("score", .float (some (1 / 2)))])]]).map (fun x => exRead 5 "score" x) =
      some [some (.float (some 1)), some (.float (some 0)), some (.float (some 0)), some (.float (some 0)), some (.float (some (1 / 2)))] ∧
    ((infoRounds 0 ⟨(exBuffer [1, 1, 1]).reset false, Store.empty⟩
      [[(0, exRow [("score", .int 1)]), (1, exRow [("env_id", .int 1)]), (2, exRow [("score", .float (some (1 / 2)))])]]).toOption.map
        fun x => exRead 3 "score" x) = some [some (.int 1), some (.int 0), some (.int 0)] := by decide +kernel

/-- In full: a collection with `raise_on_nan_in_buffer` raises exactly if a transition in the buffer has a missing value. -/
def C221 : Prop := ∀ (N : Nat) (log : List (List (Nat × Collector.Row Nat Nat Int (Info String)))) (_ : Recorded N log)
  (m0 : Mgr Nat Nat Int) (sep0 : List (Buf Nat Nat Int)) (_ : Reach m0 sep0) (_ : N ≤ sep0.length)
  (_ : m0.opts.stackNum = 1 ∨ m0.opts.sampleAvail = false) (nan : Int) (x : IBuf Nat Nat Int String)
  (_ : infoRounds nan ⟨m0.reset false, Store.empty⟩ log = .ok x) (isAsync : Bool),
  finish isAsync true (fun _ => false) x = .error .malformed ↔ ∃ e < N, ∃ p row, Held (Pipeline.sizeOf sep0) log.flatten e p row ∧
    ∃ key v, get row.out.info key = some v ∧ Missing v

/-- Two steps, of which the second returns a text. -/
def exTexts : List (List (Nat × Collector.Row Nat Nat Int (Info String))) :=
  [[(0, exRow [("env_id", .int 0)])], [(0, exRow [("env_id", .int 0), ("reason", .obj (some "time limit"))])]]

/-- **C221 is violated** by an environment that returns a text with some of its steps: the array is `None` for the others, and the collection
raises although no value is missing. -/
theorem C221_violated : ¬ C221 := by
  intro hC
  have hok := Except.ok_of_isSome (exBuf2 exTexts) (by decide +kernel)
  have := (hC 1 exTexts ⟨by decide +kernel, by decide +kernel⟩ (exBuffer [4]) _ (exBuffer_reach [4] (by decide)) (by decide) (.inl rfl) 0 _ hok
    false).mp (by decide +kernel)
  obtain ⟨e, he, p, row, hh, key, v, hg, hv⟩ := this
  have hmem := List.mem_of_getElem? hh.1
  simp only [Collector.rowsOf, List.flatten_cons, List.flatten_nil, List.append_nil, List.mem_map, List.mem_filter] at hmem
  obtain ⟨q, ⟨q1, _⟩, rfl⟩ := hmem
  simp only [exTexts, List.flatten_cons, List.flatten_nil, List.cons_append, List.nil_append, List.append_nil, List.mem_cons,
    List.not_mem_nil, or_false] at q1
  have hm := mem_of_get hg
  rcases q1 with rfl | rfl <;> simp only [exRow, List.mem_cons, List.not_mem_nil, or_false, Prod.mk.injEq] at hm
  · obtain ⟨rfl, rfl⟩ := hm
    rcases hv with hv | hv <;> cases hv
  · rcases hm with ⟨rfl, rfl⟩ | ⟨rfl, rfl⟩ <;> rcases hv with hv | hv <;> cases hv

/-- A NaN is found, with and without the setting, by the synchronous collector. -/
example : (exAfter 4 [[(0, [("score", .float none)])]]).map (fun x => (finish false true (fun _ => false) x, finish false false (fun _ => false) x,
      finish true true (fun _ => false) x, finish true false (fun _ => false) x)) =
    some (.error .malformed, .error .malformed, .error .malformed, .ok ()) := by rfl

end Verif.InfoStore
