import Verif.Lemmas.Stats
import Mathlib.Algebra.Order.Ring.Rat

/-! Properties C56, C57, C75, C76, C85: statistics. -/

namespace Verif.Stats

set_option linter.unusedSectionVars false

variable {F ι : Type} [Field F] [LinearOrder F] [IsStrictOrderedRing F]

/-- C56. After updates with non-empty batches, starting with no data (and any initial mean and variance), the mean and variance
of every component are those of all the data, however it was split into batches; the count is the number of items. -/
theorem C56_pooled (s : RMS ι F) (h0 : s.count = 0) (batches : List (List (ι → F))) (hb : ∀ b ∈ batches, b ≠ [])
    (hne : batches ≠ []) :
    (batches.foldl RMS.update s).count = batches.flatten.length ∧
    ∀ i, (batches.foldl RMS.update s).mean i = meanOf (batches.flatten.map fun x => x i) ∧
      (batches.foldl RMS.update s).var i = varOf (batches.flatten.map fun x => x i) := by
  have h := describes_foldl s [] batches hb ⟨by simpa using h0, by simp⟩
  rw [List.nil_append] at h
  refine ⟨h.1, h.2 ?_⟩
  cases batches with
  | nil => exact absurd rfl hne
  | cons b bs => simp [hb b (by simp)]

/-- C56. Two ways to split the same data give the same statistics. -/
theorem C56_split_independent (s s' : RMS ι F) (h0 : s.count = 0) (h0' : s'.count = 0)
    (batches batches' : List (List (ι → F))) (hb : ∀ b ∈ batches, b ≠ []) (hb' : ∀ b ∈ batches', b ≠ [])
    (hne : batches ≠ []) (h : batches.flatten = batches'.flatten) :
    (batches.foldl RMS.update s).mean = (batches'.foldl RMS.update s').mean ∧
    (batches.foldl RMS.update s).var = (batches'.foldl RMS.update s').var ∧
    (batches.foldl RMS.update s).count = (batches'.foldl RMS.update s').count := by
  have hne' : batches' ≠ [] := by
    rintro rfl
    cases batches with
    | nil => exact hne rfl
    | cons b bs =>
      have : b = [] := by simp at h; exact h.1
      exact hb b (by simp) this
  obtain ⟨a1, a2⟩ := C56_pooled s h0 batches hb hne
  obtain ⟨b1, b2⟩ := C56_pooled s' h0' batches' hb' hne'
  refine ⟨funext fun i => ?_, funext fun i => ?_, ?_⟩
  · rw [(a2 i).1, (b2 i).1, h]
  · rw [(a2 i).2, (b2 i).2, h]
  · rw [a1, b1, h]

/-- Three numbers in two batches. -/
example : (([[fun _ => 1, fun _ => 3], [fun _ => 8]] : List (List (Unit → ℚ))).foldl RMS.update
    ⟨fun _ => 0, fun _ => 1, 0, some 10, 0⟩).mean () = 4 ∧
    (([[fun _ => 1, fun _ => 3], [fun _ => 8]] : List (List (Unit → ℚ))).foldl RMS.update
    ⟨fun _ => 0, fun _ => 1, 0, some 10, 0⟩).var () = 26 / 3 := by decide +kernel

/-- C57, for histories in which every NaN is the object `np.nan`: `get` is the mean of the last `size` finite values added (of
all of them if `size` is not positive) and 0 if there are none. -/
theorem C57_average_partial (size : Int) (adds : List (List (Num F)))
    (hx : ∀ a ∈ adds, ∀ x ∈ a, x ≠ .nan false) :
    let values := finite adds.flatten
    (adds.foldl MovAvg.add ⟨size, []⟩).get
      = .fin (if values = [] then 0 else meanOf (if size > 0 then lastN size.toNat values else values)) := by
  intro values
  have h := adds_cache (⟨size, []⟩ : MovAvg F) [] adds hx (by unfold kept lastN; simp)
  simp only [List.nil_append] at h
  rw [MovAvg.get, h]
  have hv : kept size values = [] ↔ values = [] := by
    unfold kept lastN
    split_ifs with hs
    · rw [List.drop_eq_nil_iff]
      constructor
      · intro hh
        have : values.length = 0 := by omega
        simpa using this
      · rintro hh; simp [hh]
    · rfl
  by_cases he : values = []
  · rw [if_pos he, if_pos (by rw [List.length_map, List.length_eq_zero_iff]; exact hv.2 he)]
  · rw [if_neg he, if_neg (by rw [List.length_map, List.length_eq_zero_iff]; exact fun hh => he (hv.1 hh)), npMean_fin]
    rfl

/-- C57 fails for a NaN that is not the object `np.nan` (such as `float("nan")` or an entry of an array): it is averaged in. -/
theorem C57_nan_violated : ∃ adds : List (List (Num ℚ)),
    finite adds.flatten = [1, 2] ∧ (adds.foldl MovAvg.add ⟨100, []⟩).get = .nan false :=
  ⟨[[.fin 1], [.nan false, .fin 2]], by decide, by decide⟩

example : (([[.fin 1, .inf], [.fin 2, .nan true], [.ninf, .fin 4]] : List (List (Num ℚ))).foldl MovAvg.add ⟨2, []⟩).get
    = .fin 3 := by decide +kernel

/-- What `VectorEnvNormObs` returns in a series of resets and steps. -/
def observeAll (sqrt : F → F) : NormObs ι F → List (List (ι → F)) → NormObs ι F × List (List (ι → F))
  | w, [] => (w, [])
  | w, obs :: rest =>
    let p := w.observe sqrt obs
    let q := observeAll sqrt p.1 rest
    (q.1, p.2 :: q.2)

/-- C75. While statistics are updated, the observations returned by any reset or step are normalised with the mean and
variance of all observations returned by the wrapped environments so far, these included, and clipped. -/
theorem C75_normalised (sqrt : F → F) (w : NormObs ι F) (hu : w.updateObsRms = true) (h0 : w.rms.count = 0)
    (c : F) (hc : w.rms.clipMax = some c) (hc0 : c ≠ 0)
    (past : List (List (ι → F))) (obs : List (ι → F)) (hp : ∀ b ∈ past, b ≠ []) (ho : obs ≠ []) :
    let seen := past.flatten ++ obs
    ((observeAll sqrt w past).1.observe sqrt obs).2 = obs.map fun x i =>
      min (max ((x i - meanOf (seen.map fun y => y i)) / sqrt (varOf (seen.map fun y => y i) + w.rms.eps)) (-c)) c := by
  intro seen
  have key : ∀ (past : List (List (ι → F))) (w : NormObs ι F) (seen : List (ι → F)), w.updateObsRms = true →
      (∀ b ∈ past, b ≠ []) → Describes w.rms seen →
      (observeAll sqrt w past).1.updateObsRms = true ∧ Describes (observeAll sqrt w past).1.rms (seen ++ past.flatten) ∧
      (observeAll sqrt w past).1.rms.eps = w.rms.eps ∧ (observeAll sqrt w past).1.rms.clipMax = w.rms.clipMax := by
    intro past
    induction past with
    | nil => intro w seen h1 _ h3; exact ⟨h1, by simpa [observeAll] using h3, rfl, rfl⟩
    | cons b bs ih =>
      intro w seen h1 h2 h3
      have hw : (w.observe sqrt b).1 = { w with rms := w.rms.update b } := by simp [NormObs.observe, h1]
      obtain ⟨i1, i2, i3, i4⟩ := ih (w.observe sqrt b).1 (seen ++ b) (by rw [hw]; exact h1)
        (fun b hb => h2 b (by simp [hb])) (by rw [hw]; exact describes_update _ _ _ (h2 b (by simp)) h3)
      rw [observeAll]
      refine ⟨i1, by simpa using i2, ?_, ?_⟩
      · rw [i3, hw]; rfl
      · rw [i4, hw]; rfl
  obtain ⟨k1, k2, k3, k4⟩ := key past w [] hu hp ⟨by simpa using h0, by simp⟩
  have hd := describes_update _ _ obs ho k2
  rw [List.nil_append] at hd
  simp only [NormObs.observe, k1, if_true]
  apply List.map_congr_left
  intro x _
  funext i
  obtain ⟨e1, e2⟩ := hd.2 (by simp [ho]) i
  have e3 : ((observeAll sqrt w past).1.rms.update obs).clipMax = some c := by
    rw [← hc, ← k4]; rfl
  have e4 : ((observeAll sqrt w past).1.rms.update obs).eps = w.rms.eps := by rw [← k3]; rfl
  simp only [RMS.norm, e1, e2, e3, e4, if_neg hc0]
  rfl

/-- C75. Every number returned lies between `-clip_max` and `clip_max`. -/
theorem C75_clipped (sqrt : F → F) (w : NormObs ι F) (c : F) (hc : w.rms.clipMax = some c) (hc0 : 0 < c)
    (obs : List (ι → F)) (x : ι → F) (hx : x ∈ (w.observe sqrt obs).2) (i : ι) : -c ≤ x i ∧ x i ≤ c := by
  simp only [NormObs.observe, List.mem_map] at hx
  obtain ⟨y, _, rfl⟩ := hx
  have : (if w.updateObsRms = true then w.rms.update obs else w.rms).clipMax = some c := by
    split_ifs
    · exact hc
    · exact hc
  simp only [RMS.norm, this, if_neg (ne_of_gt hc0)]
  exact ⟨le_min (le_max_right _ _) (by linarith), min_le_right _ _⟩

/-- C75. With `update_obs_rms=False` the statistics stay as they are. -/
theorem C75_frozen (sqrt : F → F) (w : NormObs ι F) (hu : w.updateObsRms = false) (past : List (List (ι → F))) :
    (observeAll sqrt w past).1 = w := by
  induction past with
  | nil => rfl
  | cons b bs ih =>
    have hw : (w.observe sqrt b).1 = w := by
      cases w; cases hu; rfl
    simp only [observeAll, hw, ih]

example : ((observeAll id ⟨true, ⟨fun _ => 0, fun _ => 1, 0, some 10, 0⟩⟩ [[fun _ => 1, fun _ => 3]]).1.observe id
    ([fun _ => 8] : List (Unit → ℚ))).2.map (fun x => x ()) = [(8 - 4) / (26 / 3)] := by decide +kernel

/-- C76. The summary of a non-empty sequence: the largest and the smallest number of the sequence, its mean, which lies between
them, and the square root of its variance. -/
theorem C76_summary (sqrt : F → F) (l : List F) (h : l ≠ []) :
    let s := summarise sqrt l
    (s.max ∈ l ∧ ∀ x ∈ l, x ≤ s.max) ∧ (s.min ∈ l ∧ ∀ x ∈ l, s.min ≤ x) ∧
    s.mean = meanOf l ∧ s.min ≤ s.mean ∧ s.mean ≤ s.max ∧ s.std = sqrt (varOf l) := by
  cases l with
  | nil => exact absurd rfl h
  | cons x xs =>
    intro s
    obtain ⟨a1, a2⟩ := foldl_max_spec xs x
    obtain ⟨b1, b2⟩ := foldl_min_spec xs x
    have hn : (0 : F) < ((x :: xs).length : F) := Nat.cast_pos.2 (by simp)
    have sums : ∀ (l : List F) (lo hi : F), (∀ y ∈ l, lo ≤ y ∧ y ≤ hi) →
        (l.length : F) * lo ≤ l.sum ∧ l.sum ≤ (l.length : F) * hi := by
      intro l lo hi
      induction l with
      | nil => intro _; simp
      | cons z zs ih =>
        intro hz
        obtain ⟨i1, i2⟩ := ih fun y hy => hz y (by simp [hy])
        obtain ⟨z1, z2⟩ := hz z (by simp)
        simp only [List.length_cons, List.sum_cons, Nat.cast_add, Nat.cast_one]
        constructor <;> nlinarith
    obtain ⟨s1, s2⟩ := sums (x :: xs) (xs.foldl min x) (xs.foldl max x) fun y hy => ⟨b1 y hy, a1 y hy⟩
    refine ⟨⟨a2, a1⟩, ⟨b2, b1⟩, rfl, ?_, ?_, rfl⟩
    · change xs.foldl min x ≤ (x :: xs).sum / ((x :: xs).length : F)
      rw [le_div_iff₀ hn]; linarith
    · change (x :: xs).sum / ((x :: xs).length : F) ≤ xs.foldl max x
      rw [div_le_iff₀ hn]; linarith

/-- C76. The summary of an empty sequence consists of zeros. -/
theorem C76_empty (sqrt : F → F) : summarise sqrt ([] : List F) = ⟨0, 0, 0, 0⟩ := rfl

example : (summarise id [(3 : ℚ), 1, 5]).max = 5 ∧ (summarise id [(3 : ℚ), 1, 5]).min = 1 ∧
    (summarise id [(3 : ℚ), 1, 5]).mean = 3 := by decide +kernel

/-- C85, for a given standard deviation of 0 or 1 and a given bound other than 0 (see the violations below). -/
theorem C85_initial_partial (sqrt : F → F) (mean std : ι → F) (c eps : F) (x : ι → F) (i : ι) (hstd : std i = 0 ∨ std i = 1)
    (hc : c ≠ 0) :
    (RMS.new mean std (some c) eps).norm sqrt x i = min (max ((x i - mean i) / sqrt (std i ^ 2 + eps)) (-c)) c := by
  have : std i ^ 2 = std i := by rcases hstd with h | h <;> rw [h] <;> ring
  rw [this]
  simp only [RMS.norm, RMS.new, if_neg hc]

/-- C85. Without a bound nothing is clipped. -/
theorem C85_unbounded_partial (sqrt : F → F) (mean std : ι → F) (eps : F) (x : ι → F) (i : ι) (hstd : std i = 0 ∨ std i = 1) :
    (RMS.new mean std none eps).norm sqrt x i = (x i - mean i) / sqrt (std i ^ 2 + eps) := by
  have : std i ^ 2 = std i := by rcases hstd with h | h <;> rw [h] <;> ring
  rw [this]
  rfl

/-- C85. The initial values have no influence once there are data. -/
theorem C85_forgotten (sqrt : F → F) (mean std mean' std' : ι → F) (clipMax : Option F) (eps : F) (batches : List (List (ι → F)))
    (hb : ∀ b ∈ batches, b ≠ []) (hne : batches ≠ []) :
    (batches.foldl RMS.update (RMS.new mean std clipMax eps)).norm sqrt =
      (batches.foldl RMS.update (RMS.new mean' std' clipMax eps)).norm sqrt := by
  have keep : ∀ (bs : List (List (ι → F))) (s : RMS ι F), (bs.foldl RMS.update s).clipMax = s.clipMax ∧
      (bs.foldl RMS.update s).eps = s.eps := by
    intro bs
    induction bs with
    | nil => intro s; exact ⟨rfl, rfl⟩
    | cons b bs ih => intro s; exact ih (s.update b)
  obtain ⟨h1, h2⟩ := C56_split_independent (RMS.new mean std clipMax eps) (RMS.new mean' std' clipMax eps) rfl rfl batches batches
    hb hb hne rfl
  obtain ⟨k1, k2⟩ := keep batches (RMS.new mean std clipMax eps)
  obtain ⟨k1', k2'⟩ := keep batches (RMS.new mean' std' clipMax eps)
  funext x i
  unfold RMS.norm
  rw [h1, h2.1, k1, k2, k1', k2']
  rfl

/-- C85 fails for other standard deviations: the given one is used as a variance. With mean 0, standard deviation 4 and no epsilon, the number 8
becomes 8 / √4 = 4 instead of 8 / √16 = 2. -/
theorem C85_std_violated (sqrt : ℚ → ℚ) (h4 : sqrt 4 = 2) (h16 : sqrt 16 = 4) :
    (RMS.new (fun _ => 0) (fun _ => 4) (some 10) 0 : RMS Unit ℚ).norm sqrt (fun _ => 8) () = 4 ∧
      min (max ((8 - 0) / sqrt (4 ^ 2 + 0)) (-10)) 10 = 2 := by
  refine ⟨?_, ?_⟩
  · simp only [RMS.norm, RMS.new, add_zero, h4]
    norm_num
  · rw [show (4 : ℚ) ^ 2 + 0 = 16 by norm_num, h16]
    norm_num

/-- C85 fails for a bound of 0: nothing is clipped. -/
theorem C85_clip_violated (sqrt : ℚ → ℚ) (h1 : sqrt 1 = 1) :
    (RMS.new (fun _ => 0) (fun _ => 1) (some 0) 0 : RMS Unit ℚ).norm sqrt (fun _ => 8) () = 8 := by
  simp [RMS.norm, RMS.new, h1]

example : ∃ sqrt : ℚ → ℚ, sqrt 4 = 2 ∧ sqrt 16 = 4 ∧ sqrt 1 = 1 := ⟨fun x => if x = 4 then 2 else if x = 16 then 4 else 1, rfl, rfl, rfl⟩

end Verif.Stats
