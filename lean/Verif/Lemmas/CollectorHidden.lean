import Verif.Lemmas.CollectorTraj

namespace Verif.Collector

set_option linter.unusedSectionVars false

variable {σ A O R I H K : Type}

theorem iter_hidden (c : Cfg σ A O R I H K) (nEpisode : Option Int) (random : Bool) (kw : K) (s s' : Loop σ A O R I H)
    (h : iter c nEpisode random kw s = .ok s') :
    ∃ (hid : Option (List H)) (dones : List Bool) (ig : List Nat),
      s'.asked = s.asked ++ [some ⟨s.ready, s.lastHidden, hid, dones⟩] ∧
      s'.ready = dropAt s.ready ig ∧
      s'.lastHidden = (resetHidden c (whereTrue dones) hid).map (fun l => dropAt l ig) ∧
      dones.length = s.ready.length ∧
      (hid = none ∨ hid = (c.policy.forward s.calls (s.lastObs.map (Cell.read s.world.mem)) s.lastInfo s.lastHidden).2) := by
  unfold iter at h
  simp only at h
  set d := decide c random s.calls s.ready (s.lastObs.map (Cell.read s.world.mem)) s.lastInfo s.lastHidden with hd
  by_cases h1 : d.actNormalized.length = s.ready.length
  swap
  · rw [if_pos h1] at h; exact absurd h (by simp)
  rw [if_neg (by simpa using h1)] at h
  by_cases h2 : s.ready = []
  · rw [if_pos h2] at h; exact absurd h (by simp)
  rw [if_neg h2] at h
  injection h with h
  subst h
  refine ⟨d.hidden, _, _, rfl, rfl, rfl, ?_, ?_⟩
  · rw [List.length_map, stepEnvs_length, List.length_zip, h1, Nat.min_self]
  · rw [hd]
    unfold decide
    split_ifs
    · left; rfl
    · right; rfl
    · right; rfl

/-- The invariant about recurrent states: `ready` and `hidden` are what the next call will be about. -/
structure HInv (c : Cfg σ A O R I H K) (asked : List (Option (Call H))) (ready : List Nat) (hidden : Option (List H)) : Prop where
  first : ∀ b, asked[0]? = some (some b) → b.given = none
  empty : asked = [] → hidden = none
  chain : ∀ (k : Nat) (x : Option (Call H)) (b : Call H), asked[k]? = some x → asked[k + 1]? = some (some b) →
    (x = none → b.given = none) ∧ (∀ a, x = some a → Continues c a b)
  link : ∀ x, asked.getLast? = some x → (x = none → hidden = none) ∧
    (∀ a, x = some a → Continues c a ⟨ready, hidden, none, []⟩)
  len : ∀ g, hidden = some g → g.length = ready.length

theorem HInv.ask {c : Cfg σ A O R I H K} {asked : List (Option (Call H))} {ready : List Nat} {hidden : Option (List H)}
    (h : HInv c asked ready hidden) (ready' : List Nat) (hidden' : Option (List H)) (hid : Option (List H)) (dones : List Bool)
    (hl : ∀ g, hidden' = some g → g.length = ready'.length)
    (hc : Continues c ⟨ready, hidden, hid, dones⟩ ⟨ready', hidden', none, []⟩) :
    HInv c (asked ++ [some ⟨ready, hidden, hid, dones⟩]) ready' hidden' := by
  refine ⟨?_, by simp, ?_, ?_, hl⟩
  · intro b hb
    cases asked with
    | nil =>
      simp only [List.nil_append, List.getElem?_cons_zero, Option.some.injEq] at hb
      subst hb
      exact h.empty rfl
    | cons a t => exact h.first b (by simpa using hb)
  · intro k x b hx hb
    have hlt := getElem?_some_lt hb
    rw [List.length_append, List.length_singleton] at hlt
    by_cases hk : k + 1 < asked.length
    · rw [List.getElem?_append_left (by omega)] at hx
      rw [List.getElem?_append_left hk] at hb
      exact h.chain k x b hx hb
    · have heq : k + 1 = asked.length := by omega
      rw [List.getElem?_append_left (by omega)] at hx
      rw [List.getElem?_append_right (by omega), heq, Nat.sub_self] at hb
      simp only [List.getElem?_cons_zero, Option.some.injEq] at hb
      subst hb
      have hlast : asked.getLast? = some x := by
        rw [List.getLast?_eq_getElem?, ← heq]; exact hx
      obtain ⟨h1, h2⟩ := h.link x hlast
      exact ⟨h1, h2⟩
  · intro x hx
    simp only [List.getLast?_append, List.getLast?_singleton, Option.some_or, Option.some.injEq] at hx
    subst hx
    refine ⟨by simp, ?_⟩
    intro a ha
    rw [Option.some.injEq] at ha
    subst ha
    exact hc

theorem HInv.reset {c : Cfg σ A O R I H K} {asked : List (Option (Call H))} {ready : List Nat} {hidden : Option (List H)}
    (h : HInv c asked ready hidden) (ready' : List Nat) : HInv c (asked ++ [none]) ready' none := by
  refine ⟨?_, by simp, ?_, ?_, by simp⟩
  · intro b hb
    cases asked with
    | nil => simp at hb
    | cons a t => exact h.first b (by simpa using hb)
  · intro k x b hx hb
    have hlt := getElem?_some_lt hb
    rw [List.length_append, List.length_singleton] at hlt
    by_cases hk : k + 1 < asked.length
    · rw [List.getElem?_append_left (by omega)] at hx
      rw [List.getElem?_append_left hk] at hb
      exact h.chain k x b hx hb
    · have heq : k + 1 = asked.length := by omega
      rw [List.getElem?_append_right (by omega), heq, Nat.sub_self] at hb
      simp at hb
  · intro x hx
    simp only [List.getLast?_append, List.getLast?_singleton, Option.some_or, Option.some.injEq] at hx
    subst hx
    simp

/-- Restricting the next call to fewer environments. -/
theorem HInv.restrict {c : Cfg σ A O R I H K} {asked : List (Option (Call H))} {n : Nat} {hidden : Option (List H)}
    (h : HInv c asked (List.range n) hidden) (m : Nat) (hm : m ≤ n) :
    HInv c asked (List.range m) (hidden.map fun l => (List.range m).filterMap fun i => l[i]?) := by
  have hlen : ∀ g, hidden = some g → g.length = n := fun g hg => by rw [h.len g hg, List.length_range]
  refine ⟨h.first, fun he => by rw [h.empty he]; rfl, h.chain, ?_, ?_⟩
  · intro x hx
    obtain ⟨h1, h2⟩ := h.link x hx
    refine ⟨fun hn => by rw [h1 hn]; rfl, ?_⟩
    intro a ha i j e hi hj
    have hjm : j < m := by simpa using getElem?_some_lt hj
    have hje : (List.range n)[j]? = some e := by
      rw [List.getElem?_range hjm] at hj
      rw [List.getElem?_range (by omega)]
      exact hj
    have := h2 a ha i j e hi hje
    cases hr : a.returned with
    | none =>
      rw [hr] at this
      simp only at this ⊢
      rw [this]; rfl
    | some r =>
      rw [hr] at this
      simp only at this ⊢
      obtain ⟨g, hg, hgj⟩ := this
      refine ⟨(List.range m).filterMap fun i => g[i]?, by rw [hg]; rfl, ?_⟩
      rw [filterMap_range _ _ (by rw [hlen g hg]; exact hm), List.getElem?_take, if_pos hjm]
      exact hgj
  · intro g hg
    rw [Option.map_eq_some_iff] at hg
    obtain ⟨l, hl, rfl⟩ := hg
    rw [filterMap_range _ _ (by rw [hlen l hl]; exact hm), List.length_take, List.length_range, hlen l hl]
    omega

theorem HInv.iter {c : Cfg σ A O R I H K} (hk : c.hiddenKind = .arrayOrBatch) (hf : FittingHidden c) {nEpisode : Option Int}
    {random : Bool} {kw : K} {s s' : Loop σ A O R I H} (hn : s.ready.Nodup) (hlo : s.lastObs.length = s.ready.length)
    (h : HInv c s.asked s.ready s.lastHidden) (hi : iter c nEpisode random kw s = .ok s') :
    HInv c s'.asked s'.ready s'.lastHidden := by
  obtain ⟨hid, dones, ig, h1, h2, h3, h4, h5⟩ := iter_hidden c nEpisode random kw s s' hi
  have hhl : ∀ l, hid = some l → l.length = s.ready.length := by
    intro l hl
    rcases h5 with h5 | h5
    · rw [h5] at hl; exact absurd hl (by simp)
    · rw [hf _ _ _ _ l (by rw [← h5]; exact hl), List.length_map, hlo]
  rw [h1]
  apply h.ask
  · intro g hg
    rw [h3, resetHidden, hk, Option.map_map, Option.map_eq_some_iff] at hg
    obtain ⟨l, hl, rfl⟩ := hg
    simp only [Function.comp]
    rw [h2, dropAt_length, dropAt_length, writeAt_length, hhl l hl]
  · intro i j e hi' hj
    simp only at hi' hj ⊢
    cases hid with
    | none => simp only [h3, resetHidden, hk, Option.map_none]
    | some l =>
      simp only
      refine ⟨_, by rw [h3, resetHidden, hk]; rfl, ?_⟩
      rw [h2, dropAt_get] at hj
      rw [dropAt_get, writeAt_length, hhl l rfl]
      cases hkk : (keep s.ready.length ig)[j]? with
      | none => rw [hkk] at hj; simp at hj
      | some i' =>
        rw [hkk] at hj
        have : i' = i := nodup_idx hn hj hi'
        subst this
        simp only [Option.bind_some]
        have hlt : i' < s.ready.length := getElem?_some_lt hi'
        by_cases hd : dones[i']? = some true
        · rw [if_pos hd]
          have hm := (mem_whereTrue dones i').2 hd
          obtain ⟨k, hkx⟩ := getElem?_mem_idx hm
          exact writeAt_at l _ _ (whereTrue_nodup _) k i' _ hkx (by rw [List.getElem?_map, hkx]; rfl)
            (by rw [hhl l rfl]; exact hlt)
        · rw [if_neg hd]
          exact writeAt_other _ _ _ _ fun hc => hd ((mem_whereTrue _ _).1 hc)

/-- The invariant between calls. -/
theorem reachable_hinv (c : Cfg σ A O R I H K) (hk : c.hiddenKind = .arrayOrBatch) (hf : FittingHidden c)
    (s : Col σ A O R I H) (h : Reachable c s) : HInv c s.asked (List.range c.envNum) s.preHidden := by
  have hreset : ∀ (s : Col σ A O R I H) (b st : Bool) (kw : K), HInv c s.asked (List.range c.envNum) s.preHidden →
      HInv c (reset c b st kw s).asked (List.range c.envNum) (reset c b st kw s).preHidden := by
    intro s b st kw h
    have := h.reset (List.range c.envNum)
    cases b <;> cases st <;> exact this
  have hprep : ∀ (s : Col σ A O R I H) (before : Bool) (kw : K), HInv c s.asked (List.range c.envNum) s.preHidden →
      HInv c (prepared c before kw s).asked (List.range c.envNum) (prepared c before kw s).preHidden := by
    intro s before kw h
    cases before with
    | false => exact h
    | true => exact hreset s false true kw h
  induction h with
  | built w => exact ⟨by simp, fun _ => rfl, by simp, by simp, by simp⟩
  | reset h b st kw ih => exact hreset _ b st kw ih
  | @steps s s' h n random before kw fuel st hc ih =>
    obtain ⟨_, po, pi, l, hpo, hpi, hr, rfl, _⟩ := collect_steps c n random before kw fuel s s' st hc
    obtain ⟨w1, w2⟩ := prepared_wf c before kw s (reachable_wf c s h)
    have hi := start_inv (none : Option Int) (prepared c before kw s) c.envNum po pi (by rw [w1 _ hpo]) (by rw [w2 _ hpi])
    obtain ⟨⟨⟨new, hinv⟩, hh⟩, _⟩ := run_induct c (some n) none random kw
      (fun x => (∃ new, Inv none (List.range c.envNum) (prepared c before kw s).log new x) ∧
        HInv c x.asked x.ready x.lastHidden)
      (by
        rintro a b ⟨⟨new, ha⟩, hb⟩ hit
        obtain ⟨ent, _, hinv⟩ := ha.iter hit
        exact ⟨⟨_, hinv⟩, hb.iter hk hf ha.nodup ha.lenObs hit⟩)
      fuel _ _ hr ⟨⟨[], hi⟩, (hprep s before kw ih).restrict c.envNum le_rfl⟩
    have := (hinv.stay rfl).1
    rw [this] at hh
    exact hh
  | @episodes s s' h n random before kw fuel st hc ih =>
    obtain ⟨_, po, pi, l, hpo, hpi, hr, rfl, _⟩ := collect_episodes c n random before kw fuel s s' st hc
    obtain ⟨w1, w2⟩ := prepared_wf c before kw s (reachable_wf c s h)
    have hm : (min (c.envNum : Int) n).toNat ≤ c.envNum := by omega
    have hi := start_inv (some n) (prepared c before kw s) (min (c.envNum : Int) n).toNat po pi
      (by rw [w1 _ hpo]; exact hm) (by rw [w2 _ hpi]; exact hm)
    obtain ⟨⟨⟨new, hinv⟩, hh⟩, _⟩ := run_induct c none (some n) random kw
      (fun x => (∃ new, Inv (some n) (List.range (min (c.envNum : Int) n).toNat) (prepared c before kw s).log new x) ∧
        HInv c x.asked x.ready x.lastHidden)
      (by
        rintro a b ⟨⟨new, ha⟩, hb⟩ hit
        obtain ⟨ent, _, hinv⟩ := ha.iter hit
        exact ⟨⟨_, hinv⟩, hb.iter hk hf ha.nodup ha.lenObs hit⟩)
      fuel _ _ hr ⟨⟨[], hi⟩, (hprep s before kw ih).restrict _ hm⟩
    exact hh.reset (List.range c.envNum)

end Verif.Collector
