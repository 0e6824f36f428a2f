import Verif.Proofs.Cycles

/-!
# Properties C58, C59: generated test histories
-/

namespace Pyoptmat.Props

open Pyoptmat.Experiments Pyoptmat.Spec

/-! ### C58 -/

private lemma flatMap_len {α : Type} (N q : ℕ) (f : ℕ → List α) (hf : ∀ k, (f k).length = q) :
    ((List.range N).flatMap f).length = N * q := by
  induction N with
  | zero => simp
  | succ N ih => rw [List.range_succ, List.flatMap_append, List.length_append, ih]; simp [hf, Nat.succ_mul]

private lemma flatMap_get {α : Type} (d : α) (N q : ℕ) (f : ℕ → List α) (hf : ∀ k, (f k).length = q) (k j : ℕ) (hk : k < N) (hj : j < q) :
    ((List.range N).flatMap f).getD (k * q + j) d = (f k).getD j d := by
  induction N with
  | zero => omega
  | succ N ih =>
    rw [List.range_succ, List.flatMap_append]
    have hlen := flatMap_len N q f hf
    rcases Nat.lt_succ_iff_lt_or_eq.1 hk with h | h
    · have : k * q + j < N * q := by
        have : (k + 1) * q ≤ N * q := Nat.mul_le_mul_right q h
        rw [Nat.succ_mul] at this
        omega
      rw [List.getD_append _ _ _ _ (by rw [hlen]; exact this), ih h]
    · subst h
      rw [List.getD_append_right _ _ _ _ (by rw [hlen]; omega), hlen]
      simp

/-- **C58** (sizes). For every cycle definition the three arrays have `1 + N (4 nload + 2 nhold)` entries. -/
theorem C58_length (c : Cycle) (N nload nhold : ℕ) :
    (sampleCycle c N nload nhold).1.length = 1 + N * (4 * nload + 2 * nhold) ∧
    (sampleCycle c N nload nhold).2.1.length = 1 + N * (4 * nload + 2 * nhold) ∧
    (sampleCycle c N nload nhold).2.2.length = 1 + N * (4 * nload + 2 * nhold) := by
  have h1 := flatMap_len N (4 * nload + 2 * nhold) (fun k : ℕ => segTimes (k * c.period) (c.segments nload nhold)) fun k => by
    rw [segTimes_length]; exact (segments_sum c nload nhold).2
  have h2 := flatMap_len N (4 * nload + 2 * nhold) (fun k : ℕ => List.replicate (4 * nload + 2 * nhold) k) fun k => by simp
  simp only [sampleCycle, cycleLoop_eq, List.length_map, List.length_cons, h1, h2]
  omega

/-- **C58** (times). For a positive strain rate and non-negative holds, the times start at zero, never decrease, and lie in `[0, N period]`; they strictly
increase if every segment that is given points has a positive duration. -/
theorem C58_times (c : Cycle) (h : c.Valid) (N nload nhold : ℕ) :
    (sampleCycle c N nload nhold).1.getD 0 1 = 0 ∧
    (sampleCycle c N nload nhold).1.Pairwise (· ≤ ·) ∧
    (∀ t ∈ (sampleCycle c N nload nhold).1, 0 ≤ t ∧ t ≤ N * c.period) ∧
    ((0 < nload → c.emax ≠ 0 ∧ c.emin ≠ 0 ∧ c.emax ≠ c.emin) → (0 < nhold → 0 < c.tensionHold ∧ 0 < c.compressionHold) →
      (sampleCycle c N nload nhold).1.Pairwise (· < ·)) := by
  have hs : ∀ p ∈ c.segments nload nhold, 0 ≤ p.1 := by
    intro p hp
    simp only [Cycle.segments, List.mem_cons, List.not_mem_nil, or_false] at hp
    rcases hp with rfl | rfl | rfl | rfl | rfl
    exacts [h.t1, h.t2, h.t3, h.t4, h.t5]
  have hper : 0 ≤ c.period := by
    have := Cycle.cdivs h
    linarith
  have seg := fun k : ℕ => segTimes_sorted (c.segments nload nhold) hs (k * c.period)
  simp only [(segments_sum c nload nhold).1] at seg
  have e : (sampleCycle c N nload nhold).1 = 0 :: (List.range N).flatMap fun k : ℕ => segTimes (k * c.period) (c.segments nload nhold) := by
    simp only [sampleCycle, cycleLoop_eq]
  have hb : ∀ t ∈ (sampleCycle c N nload nhold).1, 0 ≤ t ∧ t ≤ N * c.period := by
    rw [e]
    intro t ht
    rcases List.mem_cons.1 ht with rfl | ht
    · exact ⟨le_rfl, by positivity⟩
    · obtain ⟨k, hk, hx⟩ := List.mem_flatMap.1 ht
      have hk' : (k : ℝ) + 1 ≤ N := by exact_mod_cast List.mem_range.1 hk
      have := (seg k).1 t hx
      have hk0 : (0 : ℝ) ≤ k := by positivity
      constructor
      · nlinarith
      · nlinarith
  refine ⟨by rw [e]; simp, ?_, hb, fun hl hh => ?_⟩
  · rw [e, List.pairwise_cons]
    refine ⟨fun t ht => (hb t (by rw [e]; exact List.mem_cons_of_mem _ ht)).1, ?_⟩
    rw [List.pairwise_flatMap]
    refine ⟨fun k _ => (seg k).2.1, List.pairwise_lt_range.imp fun {a b} hab x hx y hy => ?_⟩
    have h1 := ((seg a).1 x hx).2
    have h2 := ((seg b).1 y hy).1
    have : (a : ℝ) + 1 ≤ b := by exact_mod_cast hab
    nlinarith
  · have hpos : ∀ p ∈ c.segments nload nhold, 0 < p.2 → 0 < p.1 := by
      have habs : ∀ x : ℝ, x ≠ 0 → 0 < |x| / c.strainRate := fun x hx => div_pos (abs_pos.2 hx) h.rate
      intro p hp
      simp only [Cycle.segments, List.mem_cons, List.not_mem_nil, or_false] at hp
      rcases hp with rfl | rfl | rfl | rfl | rfl
      · intro hn; exact habs _ (hl hn).1
      · intro hn; exact (hh hn).1
      · intro hn; simp only at hn; exact habs _ (sub_ne_zero.2 (hl (by omega)).2.2)
      · intro hn; exact (hh hn).2
      · intro hn; exact habs _ (hl hn).2.1
    rw [e, List.pairwise_cons]
    refine ⟨fun t ht => ?_, ?_⟩
    · obtain ⟨k, hk, hx⟩ := List.mem_flatMap.1 ht
      have := ((seg k).2.2 hpos).1 t hx
      have hk0 : (0 : ℝ) ≤ k := by positivity
      nlinarith
    · rw [List.pairwise_flatMap]
      refine ⟨fun k _ => ((seg k).2.2 hpos).2, List.pairwise_lt_range.imp fun {a b} hab x hx y hy => ?_⟩
      have h1 := ((seg a).1 x hx).2
      have h2 := ((seg b).2.2 hpos).1 y hy
      have : (a : ℝ) + 1 ≤ b := by exact_mod_cast hab
      nlinarith

/-- **C58** (cycle labels). Entry 0 has label 0; the `4 nload + 2 nhold` entries after the first `k` cycles have label `k`. -/
theorem C58_labels (c : Cycle) (N nload nhold k j : ℕ) (hk : k < N) (hj : j < 4 * nload + 2 * nhold) :
    (sampleCycle c N nload nhold).2.2.getD 0 1 = 0 ∧
    (sampleCycle c N nload nhold).2.2.getD (1 + (k * (4 * nload + 2 * nhold) + j)) 0 = k := by
  simp only [sampleCycle, cycleLoop_eq]
  refine ⟨rfl, ?_⟩
  rw [Nat.add_comm 1, List.getD_cons_succ, flatMap_get 0 N _ _ (fun k => by simp) k j hk hj, List.getD_eq_getElem _ _ (by simpa using hj)]
  simp

/-- The corners of one cycle of the waveform: loading to the maximum, tension hold, unloading to the minimum, compression hold, return to zero. -/
noncomputable def cornerTime (c : Cycle) (i : ℕ) : ℝ := [0, c.t1, c.t1 + c.t2, c.t1 + c.t2 + c.t3, c.t1 + c.t2 + c.t3 + c.t4, c.period].getD i 0

/-- The strains at the corners. -/
def cornerStrain (c : Cycle) (i : ℕ) : ℝ := [0, c.maxStrain, c.maxStrain, c.R * c.maxStrain, c.R * c.maxStrain, 0].getD i 0

/-- **C58** (strains). For a positive rate, non-negative holds and a positive period, every sample is on the trapezoidal waveform: its time is a whole number
of periods plus a remainder, and its strain the height of the polyline through the corners at this remainder. -/
theorem C58_waveform (c : Cycle) (h : c.Valid) (hp : 0 < c.period) (N nload nhold i : ℕ) (hi : i < 1 + N * (4 * nload + 2 * nhold)) :
    ∃ (k : ℕ) (r : ℝ), (sampleCycle c N nload nhold).1.getD i 0 = k * c.period + r ∧ 0 ≤ r ∧ r < c.period ∧
      OnWave 5 (cornerTime c) (cornerStrain c) r ((sampleCycle c N nload nhold).2.1.getD i 0) := by
  have hlen := (C58_length c N nload nhold).1
  set t := (sampleCycle c N nload nhold).1.getD i 0 with ht
  have hmem : t ∈ (sampleCycle c N nload nhold).1 := by
    rw [ht, List.getD_eq_getElem _ _ (by omega)]
    exact List.getElem_mem _
  have ht0 := ((C58_times c h N nload nhold).2.2.1 t hmem).1
  have hst : (sampleCycle c N nload nhold).2.1.getD i 0 = strainAt c t := by
    have e : (sampleCycle c N nload nhold).2.1 = (sampleCycle c N nload nhold).1.map (strainAt c) := rfl
    rw [e, ht, List.getD_eq_getElem _ _ (by rw [List.length_map]; omega), List.getD_eq_getElem _ _ (by omega), List.getElem_map]
  obtain ⟨f0, f1, fe⟩ := fmod_spec hp t
  refine ⟨⌊t / c.period⌋.toNat, fmod t c.period, ?_, f0, f1, ?_⟩
  · have : 0 ≤ ⌊t / c.period⌋ := Int.floor_nonneg.2 (by positivity)
    have e : ((⌊t / c.period⌋.toNat : ℕ) : ℝ) = (⌊t / c.period⌋ : ℤ) := by
      exact_mod_cast congrArg (Int.cast (R := ℝ)) (Int.toNat_of_nonneg this)
    rw [e]
    exact fe
  · rw [hst, strainAt_eq h hp]
    set r := fmod t c.period
    obtain ⟨d0, d1, d2, d3, d4⟩ := Cycle.cdivs h
    have a3 := h.t3; have a5 := h.t5
    have e0 : c.cdiv0 = c.t1 := rfl
    have e1 : c.cdiv1 = c.t1 + c.t2 := rfl
    have e2 : c.cdiv2 = c.t1 + c.t2 + c.t3 := rfl
    have e3 : c.cdiv3 = c.t1 + c.t2 + c.t3 + c.t4 := rfl
    have e4 : c.period = c.t1 + c.t2 + c.t3 + c.t4 + c.t5 := rfl
    have em : c.emax = c.maxStrain := rfl
    have en : c.emin = c.R * c.maxStrain := rfl
    have m1m := h.m1_mul
    have m3m := h.m3_mul
    have m5m := h.m5_mul
    unfold Cycle.wave
    by_cases h1 : r < c.t1
    · refine ⟨0, by norm_num, by simpa [cornerTime] using f0, by simpa [cornerTime] using h1, ?_⟩
      rw [ramp_mid f0 h1.le, ramp_low a3 (by linarith), ramp_low a5 (by linarith)]
      simp [cornerTime, cornerStrain, Cycle.m1, em]
      ring
    · push Not at h1
      by_cases h2 : r < c.t1 + c.t2
      · refine ⟨1, by norm_num, by simpa [cornerTime] using h1, by simpa [cornerTime] using h2, ?_⟩
        rw [ramp_high h1, ramp_low a3 (by linarith), ramp_low a5 (by linarith), m1m]
        simp [cornerStrain, em]
      · push Not at h2
        by_cases h3 : r < c.t1 + c.t2 + c.t3
        · refine ⟨2, by norm_num, by simpa [cornerTime] using h2, by simpa [cornerTime] using h3, ?_⟩
          rw [ramp_high h1, ramp_mid (by linarith) (by linarith), ramp_low a5 (by linarith), m1m, Cycle.m3]
          simp [cornerTime, cornerStrain, em, en, e1]
          ring
        · push Not at h3
          by_cases h4 : r < c.t1 + c.t2 + c.t3 + c.t4
          · refine ⟨3, by norm_num, by simpa [cornerTime] using h3, by simpa [cornerTime] using h4, ?_⟩
            rw [ramp_high h1, ramp_high (by linarith), ramp_low a5 (by linarith), m1m, m3m]
            simp [cornerStrain, em, en]
          · push Not at h4
            refine ⟨4, by norm_num, by simpa [cornerTime] using h4, by simpa [cornerTime] using f1, ?_⟩
            rw [ramp_high h1, ramp_high (by linarith), ramp_mid (by linarith) (by linarith), m1m, m3m, Cycle.m5]
            simp [cornerTime, cornerStrain, em, en, e3, e4]
            ring

/-- **C58** (bounds). Under the same conditions every strain lies between the smallest and the largest of 0, the maximum and the minimum strain. -/
theorem C58_bounds (c : Cycle) (h : c.Valid) (hp : 0 < c.period) (N nload nhold i : ℕ) (hi : i < 1 + N * (4 * nload + 2 * nhold)) :
    min 0 (min c.maxStrain (c.R * c.maxStrain)) ≤ (sampleCycle c N nload nhold).2.1.getD i 0 ∧
    (sampleCycle c N nload nhold).2.1.getD i 0 ≤ max 0 (max c.maxStrain (c.R * c.maxStrain)) := by
  obtain ⟨k, r, -, -, -, j, hj, h1, h2, e⟩ := C58_waveform c h hp N nload nhold i hi
  set lo := min 0 (min c.maxStrain (c.R * c.maxStrain)) with hlo
  set hi' := max 0 (max c.maxStrain (c.R * c.maxStrain)) with hhi
  have hc : ∀ j, lo ≤ cornerStrain c j ∧ cornerStrain c j ≤ hi' := by
    have b0 : lo ≤ 0 ∧ 0 ≤ hi' := ⟨min_le_left _ _, le_max_left _ _⟩
    have b1 : lo ≤ c.maxStrain ∧ c.maxStrain ≤ hi' :=
      ⟨(min_le_right _ _).trans (min_le_left _ _), (le_max_left _ _).trans (le_max_right _ _)⟩
    have b2 : lo ≤ c.R * c.maxStrain ∧ c.R * c.maxStrain ≤ hi' :=
      ⟨(min_le_right _ _).trans (min_le_right _ _), (le_max_right _ _).trans (le_max_right _ _)⟩
    intro j
    unfold cornerStrain
    match j with
    | 0 => exact b0
    | 1 => exact b1
    | 2 => exact b1
    | 3 => exact b2
    | 4 => exact b2
    | 5 => exact b0
    | j + 6 => exact b0
  have hd : 0 < cornerTime c (j + 1) - cornerTime c j := by linarith
  have s0 : 0 ≤ (r - cornerTime c j) / (cornerTime c (j + 1) - cornerTime c j) := div_nonneg (by linarith) hd.le
  have s1 : (r - cornerTime c j) / (cornerTime c (j + 1) - cornerTime c j) ≤ 1 := (div_le_one hd).2 (by linarith)
  generalize (r - cornerTime c j) / (cornerTime c (j + 1) - cornerTime c j) = s at *
  have a := hc j
  have b := hc (j + 1)
  rw [e]
  constructor
  · nlinarith [mul_nonneg s0 (sub_nonneg.2 b.1), mul_nonneg (sub_nonneg.2 s1) (sub_nonneg.2 a.1)]
  · nlinarith [mul_nonneg s0 (sub_nonneg.2 b.2), mul_nonneg (sub_nonneg.2 s1) (sub_nonneg.2 a.2)]

/-- **C58** (rate). Between any two samples the strain changes by at most the strain rate times the time between them. -/
theorem C58_rate (c : Cycle) (h : c.Valid) (hp : 0 < c.period) (N nload nhold i j : ℕ) (hi : i < 1 + N * (4 * nload + 2 * nhold))
    (hj : j < 1 + N * (4 * nload + 2 * nhold)) :
    |(sampleCycle c N nload nhold).2.1.getD i 0 - (sampleCycle c N nload nhold).2.1.getD j 0| ≤
      c.strainRate * |(sampleCycle c N nload nhold).1.getD i 0 - (sampleCycle c N nload nhold).1.getD j 0| := by
  have hlen := (C58_length c N nload nhold).1
  have e : (sampleCycle c N nload nhold).2.1 = (sampleCycle c N nload nhold).1.map (strainAt c) := rfl
  have key : ∀ i, i < 1 + N * (4 * nload + 2 * nhold) →
      (sampleCycle c N nload nhold).2.1.getD i 0 = strainAt c ((sampleCycle c N nload nhold).1.getD i 0) := by
    intro i hi
    rw [e, List.getD_eq_getElem _ _ (by rw [List.length_map]; omega), List.getD_eq_getElem _ _ (by omega), List.getElem_map]
  rw [key i hi, key j hj]
  exact strainAt_lip h hp _ _

/-- **C58** (turning points). With at least one point per segment, the sample at the end of each of the five segments of every cycle is exactly at the corner: at the maximum strain at the ends of the
loading and of the tension hold, at the minimum strain at the ends of the unloading and of the compression hold, and back at zero strain and a whole number of periods at the end of the cycle. -/
theorem C58_turning_points (c : Cycle) (h : c.Valid) (hp : 0 < c.period) (N nload nhold k : ℕ) (hk : k < N) (hl : 0 < nload) (hh : 0 < nhold) :
    let at' := fun j => ((sampleCycle c N nload nhold).1.getD (k * (4 * nload + 2 * nhold) + j) 0,
      (sampleCycle c N nload nhold).2.1.getD (k * (4 * nload + 2 * nhold) + j) 0)
    at' nload = (k * c.period + c.t1, c.maxStrain) ∧
    at' (nload + nhold) = (k * c.period + (c.t1 + c.t2), c.maxStrain) ∧
    at' (3 * nload + nhold) = (k * c.period + (c.t1 + c.t2 + c.t3), c.R * c.maxStrain) ∧
    at' (3 * nload + 2 * nhold) = (k * c.period + (c.t1 + c.t2 + c.t3 + c.t4), c.R * c.maxStrain) ∧
    at' (4 * nload + 2 * nhold) = ((k + 1) * c.period, 0) := by
  intro at'
  obtain ⟨d0, d1, d2, d3, d4⟩ := Cycle.cdivs h
  have a1 := h.t1; have a3 := h.t3; have a5 := h.t5
  have e0 : c.cdiv0 = c.t1 := rfl
  have e1 : c.cdiv1 = c.t1 + c.t2 := rfl
  have e2 : c.cdiv2 = c.t1 + c.t2 + c.t3 := rfl
  have e3 : c.cdiv3 = c.t1 + c.t2 + c.t3 + c.t4 := rfl
  have e4 : c.period = c.t1 + c.t2 + c.t3 + c.t4 + c.t5 := rfl
  have hlen := (C58_length c N nload nhold).1
  -- entry `j + 1` of cycle `k`
  have htime : ∀ j, j < 4 * nload + 2 * nhold → (sampleCycle c N nload nhold).1.getD (k * (4 * nload + 2 * nhold) + (j + 1)) 0 =
      (segTimes (k * c.period) (c.segments nload nhold)).getD j 0 := by
    intro j hj
    simp only [sampleCycle, cycleLoop_eq]
    rw [← Nat.add_assoc, List.getD_cons_succ]
    exact flatMap_get 0 N _ (fun k : ℕ => segTimes (k * c.period) (c.segments nload nhold))
      (fun k => by rw [segTimes_length]; exact (segments_sum c nload nhold).2) k j hk hj
  have hstrain : ∀ j, j < 4 * nload + 2 * nhold → (sampleCycle c N nload nhold).2.1.getD (k * (4 * nload + 2 * nhold) + (j + 1)) 0 =
      strainAt c ((sampleCycle c N nload nhold).1.getD (k * (4 * nload + 2 * nhold) + (j + 1)) 0) := by
    intro j hj
    have hb : k * (4 * nload + 2 * nhold) + (j + 1) < (sampleCycle c N nload nhold).1.length := by
      rw [hlen]
      have : (k + 1) * (4 * nload + 2 * nhold) ≤ N * (4 * nload + 2 * nhold) := Nat.mul_le_mul_right _ hk
      rw [Nat.succ_mul] at this
      omega
    have e : (sampleCycle c N nload nhold).2.1 = (sampleCycle c N nload nhold).1.map (strainAt c) := rfl
    rw [e, List.getD_eq_getElem _ _ (by rw [List.length_map]; exact hb), List.getD_eq_getElem _ _ hb, List.getElem_map]
  -- the last entry of a segment
  have hend : ∀ (tc t : ℝ) (n : ℕ) (rest : List ℝ), 0 < n →
      (((List.range n).map fun j => linspace tc (tc + t) (n + 1) (j + 1)) ++ rest).getD (n - 1) 0 = tc + t := by
    intro tc t n rest hn
    rw [List.getD_append _ _ _ _ (by simp; omega), List.getD_eq_getElem _ _ (by simp; omega)]
    simp only [List.getElem_map, List.getElem_range]
    rw [linspace_succ _ _ _ _ hn]
    have hn' : (n : ℝ) ≠ 0 := by positivity
    have : ((n - 1 : ℕ) : ℝ) + 1 = n := by
      have : n - 1 + 1 = n := by omega
      exact_mod_cast this
    rw [this, div_self hn', mul_one]
  have hskip : ∀ (l rest : List ℝ) (j : ℕ), (l ++ rest).getD (l.length + j) 0 = rest.getD j 0 := by
    intro l rest j
    rw [List.getD_append_right _ _ _ _ (by omega)]
    congr 1
    omega
  set tc : ℝ := k * c.period with htc
  have hseg : segTimes tc (c.segments nload nhold) =
      ((List.range nload).map fun j => linspace tc (tc + c.t1) (nload + 1) (j + 1)) ++
      (((List.range nhold).map fun j => linspace (tc + c.t1) (tc + c.t1 + c.t2) (nhold + 1) (j + 1)) ++
      (((List.range (2 * nload)).map fun j => linspace (tc + c.t1 + c.t2) (tc + c.t1 + c.t2 + c.t3) (2 * nload + 1) (j + 1)) ++
      (((List.range nhold).map fun j => linspace (tc + c.t1 + c.t2 + c.t3) (tc + c.t1 + c.t2 + c.t3 + c.t4) (nhold + 1) (j + 1)) ++
      (((List.range nload).map fun j => linspace (tc + c.t1 + c.t2 + c.t3 + c.t4) (tc + c.t1 + c.t2 + c.t3 + c.t4 + c.t5) (nload + 1)
        (j + 1)) ++ [])))) := by
    simp only [Cycle.segments, segTimes]
  have T1 : (segTimes tc (c.segments nload nhold)).getD (nload - 1) 0 = tc + c.t1 := by
    rw [hseg]; exact hend _ _ _ _ hl
  have T2 : (segTimes tc (c.segments nload nhold)).getD (nload + (nhold - 1)) 0 = tc + c.t1 + c.t2 := by
    rw [hseg]
    have := hskip ((List.range nload).map fun j => linspace tc (tc + c.t1) (nload + 1) (j + 1))
    simp only [List.length_map, List.length_range] at this
    rw [this]
    exact hend _ _ _ _ hh
  have T3 : (segTimes tc (c.segments nload nhold)).getD (nload + (nhold + (2 * nload - 1))) 0 = tc + c.t1 + c.t2 + c.t3 := by
    rw [hseg]
    have s1 := hskip ((List.range nload).map fun j => linspace tc (tc + c.t1) (nload + 1) (j + 1))
    have s2 := hskip ((List.range nhold).map fun j => linspace (tc + c.t1) (tc + c.t1 + c.t2) (nhold + 1) (j + 1))
    simp only [List.length_map, List.length_range] at s1 s2
    rw [s1, s2]
    exact hend _ _ _ _ (by omega)
  have T4 : (segTimes tc (c.segments nload nhold)).getD (nload + (nhold + (2 * nload + (nhold - 1)))) 0 =
      tc + c.t1 + c.t2 + c.t3 + c.t4 := by
    rw [hseg]
    have s1 := hskip ((List.range nload).map fun j => linspace tc (tc + c.t1) (nload + 1) (j + 1))
    have s2 := hskip ((List.range nhold).map fun j => linspace (tc + c.t1) (tc + c.t1 + c.t2) (nhold + 1) (j + 1))
    have s3 := hskip ((List.range (2 * nload)).map fun j => linspace (tc + c.t1 + c.t2) (tc + c.t1 + c.t2 + c.t3) (2 * nload + 1) (j + 1))
    simp only [List.length_map, List.length_range] at s1 s2 s3
    rw [s1, s2, s3]
    exact hend _ _ _ _ hh
  have T5 : (segTimes tc (c.segments nload nhold)).getD (nload + (nhold + (2 * nload + (nhold + (nload - 1))))) 0 =
      tc + c.t1 + c.t2 + c.t3 + c.t4 + c.t5 := by
    rw [hseg]
    have s1 := hskip ((List.range nload).map fun j => linspace tc (tc + c.t1) (nload + 1) (j + 1))
    have s2 := hskip ((List.range nhold).map fun j => linspace (tc + c.t1) (tc + c.t1 + c.t2) (nhold + 1) (j + 1))
    have s3 := hskip ((List.range (2 * nload)).map fun j => linspace (tc + c.t1 + c.t2) (tc + c.t1 + c.t2 + c.t3) (2 * nload + 1) (j + 1))
    have s4 := hskip ((List.range nhold).map fun j =>
      linspace (tc + c.t1 + c.t2 + c.t3) (tc + c.t1 + c.t2 + c.t3 + c.t4) (nhold + 1) (j + 1))
    simp only [List.length_map, List.length_range] at s1 s2 s3 s4
    rw [s1, s2, s3, s4]
    exact hend _ _ _ _ hl
  have conv : ∀ (j : ℕ) (hj : j < 4 * nload + 2 * nhold) (r : ℝ), 0 ≤ r → r ≤ c.period →
      (segTimes tc (c.segments nload nhold)).getD j 0 = tc + r → at' (j + 1) = (tc + r, c.wave r) := by
    intro j hj r h0 h1 e
    have ht := htime j hj
    rw [e] at ht
    have hs := hstrain j hj
    rw [ht] at hs
    have hw : strainAt c (tc + r) = c.wave r := by
      have := strainAt_shift h hp (k : ℤ) h0 h1
      rw [htc]
      exact_mod_cast this
    rw [hw] at hs
    exact Prod.ext ht hs
  have m1m := h.m1_mul
  have m3m := h.m3_mul
  refine ⟨?_, ?_, ?_, ?_, ?_⟩
  · have := conv (nload - 1) (by omega) c.t1 a1 (by linarith) T1
    rw [show nload - 1 + 1 = nload by omega] at this
    rw [this]
    unfold Cycle.wave
    rw [ramp_high le_rfl, ramp_low a3 (by linarith), ramp_low a5 (by linarith), m1m]
    simp [Cycle.emax]
  · have := conv (nload + (nhold - 1)) (by omega) (c.t1 + c.t2) (by linarith) (by linarith) (by rw [T2]; ring)
    rw [show nload + (nhold - 1) + 1 = nload + nhold by omega] at this
    rw [this]
    unfold Cycle.wave
    rw [ramp_high (by linarith), ramp_low a3 (by linarith), ramp_low a5 (by linarith), m1m]
    simp [Cycle.emax]
  · have := conv (nload + (nhold + (2 * nload - 1))) (by omega) (c.t1 + c.t2 + c.t3) (by linarith) (by linarith) (by rw [T3]; ring)
    rw [show nload + (nhold + (2 * nload - 1)) + 1 = 3 * nload + nhold by omega] at this
    rw [this]
    unfold Cycle.wave
    rw [ramp_high (by linarith), ramp_high (by linarith), ramp_low a5 (by linarith), m1m, m3m]
    simp [Cycle.emin]
  · have := conv (nload + (nhold + (2 * nload + (nhold - 1)))) (by omega) (c.t1 + c.t2 + c.t3 + c.t4) (by linarith) (by linarith)
      (by rw [T4]; ring)
    rw [show nload + (nhold + (2 * nload + (nhold - 1))) + 1 = 3 * nload + 2 * nhold by omega] at this
    rw [this]
    unfold Cycle.wave
    rw [ramp_high (by linarith), ramp_high (by linarith), ramp_low a5 (by linarith), m1m, m3m]
    simp [Cycle.emin]
  · have := conv (nload + (nhold + (2 * nload + (nhold + (nload - 1))))) (by omega) c.period hp.le le_rfl (by rw [T5, e4]; ring)
    rw [show nload + (nhold + (2 * nload + (nhold + (nload - 1)))) + 1 = 4 * nload + 2 * nhold by omega] at this
    rw [this, Cycle.wave_period h, htc]
    ring_nf

/-- Non-vacuity: a symmetric cycle of amplitude 0.01 at rate 0.001 with a hold of 100 in tension. -/
example : (Cycle.mk 0.01 (-1) 0.001 100 0).Valid ∧ (Cycle.mk 0.01 (-1) 0.001 100 0).period = 140 := by
  refine ⟨⟨by norm_num, by norm_num, by norm_num⟩, ?_⟩
  norm_num [Cycle.period, Cycle.t1, Cycle.t2, Cycle.t3, Cycle.t4, Cycle.t5, Cycle.emax, Cycle.emin, abs_of_pos, abs_of_neg]

/-! ### C59 -/

private lemma linspace_last (a b : ℝ) (n : ℕ) (hn : 2 ≤ n) : linspace a b n (n - 1) = b := by
  unfold linspace
  rw [if_neg (by omega)]
  have e : ((n - 1 : ℕ) : ℝ) = (n : ℝ) - 1 := by
    rw [Nat.cast_sub (by omega)]; simp
  have : (n : ℝ) - 1 ≠ 0 := by
    have : (2 : ℝ) ≤ n := by exact_mod_cast hn
    linarith
  rw [e]
  field_simp
  ring

private lemma linspace_zero (a b : ℝ) (n : ℕ) : linspace a b n 0 = a := by
  unfold linspace
  split_ifs <;> simp

private lemma linspace_lt (a b : ℝ) (n i j : ℕ) (hn : 2 ≤ n) (hab : a < b) (hij : i < j) : linspace a b n i < linspace a b n j := by
  unfold linspace
  rw [if_neg (by omega), if_neg (by omega)]
  have h1 : (0 : ℝ) < (n : ℝ) - 1 := by
    have : (2 : ℝ) ≤ n := by exact_mod_cast hn
    linarith
  have h2 : (0 : ℝ) < (b - a) / ((n : ℝ) - 1) := div_pos (by linarith) h1
  have h3 : (i : ℝ) < j := by exact_mod_cast hij
  nlinarith

/-- **C59** (creep: loads, labels, temperatures). At least two loading steps, a nonzero rate. Every test starts at zero load and zero time; during the loading the load is the
rate times the time, and the last loading step reaches the full load; after that the load stays there. Labels are 0 during the loading and 1 during the hold; the
temperature is the one of the test. -/
theorem C59_creep_load (stress temperature rate hold : ℕ → ℝ) (nload nhold : ℕ) (lg : Bool) (hn : 2 ≤ nload) (i : ℕ) (hr : rate i ≠ 0) :
    let x := makeCreepTests stress temperature rate hold nload nhold lg
    x.times 0 i = 0 ∧ x.loads 0 i = 0 ∧
    (∀ t < nload, x.loads t i = rate i * x.times t i ∧ x.cycles t i = 0) ∧
    (x.loads (nload - 1) i = stress i ∧ x.times (nload - 1) i = stress i / rate i) ∧
    (∀ t, nload ≤ t → x.loads t i = stress i ∧ x.cycles t i = 1) ∧ (∀ t, x.temps t i = temperature i) := by
  intro x
  have h0 : 0 < nload := by omega
  have hl : nload - 1 < nload := by omega
  refine ⟨?_, ?_, fun t ht => ⟨?_, ?_⟩, ⟨?_, ?_⟩, fun t ht => ⟨?_, ?_⟩, fun t => rfl⟩
  · simp only [x, makeCreepTests, if_pos h0, linspace_zero]
  · simp only [x, makeCreepTests, if_pos h0, linspace_zero]
  · simp only [x, makeCreepTests, if_pos ht, linspace]
    rw [if_neg (by omega), if_neg (by omega)]
    field_simp
    ring
  · simp only [x, makeCreepTests, if_pos ht]
  · simp only [x, makeCreepTests, if_pos hl, linspace_last _ _ _ hn]
  · simp only [x, makeCreepTests, if_pos hl, linspace_last _ _ _ hn]
  · simp only [x, makeCreepTests, if_neg (not_lt.2 ht)]
  · simp only [x, makeCreepTests, if_neg (not_lt.2 ht)]

/-- **C59** (creep: the hold). The last time is the given hold time, taken as an *absolute* time (not a duration after the loading). With positive rate and load, and a hold time beyond the end of the loading, the times strictly
increase over the whole test, with linear as with logarithmic spacing; if the hold time lies before the end of the loading, the times strictly
decrease during the hold. -/
theorem C59_creep_hold (stress temperature rate hold : ℕ → ℝ) (nload nhold : ℕ) (lg : Bool) (hn : 2 ≤ nload) (hh : 1 ≤ nhold) (i : ℕ)
    (hr : 0 < rate i) (hs : 0 < stress i) (ht : 0 < hold i) :
    let x := makeCreepTests stress temperature rate hold nload nhold lg
    x.times (nload + nhold - 1) i = hold i ∧
    (stress i / rate i < hold i → ∀ t t', t < t' → x.times t i < x.times t' i) ∧
    (hold i < stress i / rate i → ∀ t t', nload - 1 ≤ t → t < t' → x.times t' i < x.times t i) := by
  intro x
  have hend : 0 < stress i / rate i := div_pos hs hr
  have hload : ∀ t, t < nload → x.times t i = linspace 0 (stress i / rate i) nload t := by
    intro t ht
    simp only [x, makeCreepTests, if_pos ht]
  have hlast : linspace 0 (stress i / rate i) nload (nload - 1) = stress i / rate i := linspace_last _ _ _ hn
  -- the hold, as one formula starting at the last loading step
  set f : ℕ → ℝ := fun m => if lg then logspace (Real.logb 10 (stress i / rate i)) (Real.logb 10 (hold i)) (nhold + 1) m
    else linspace (stress i / rate i) (hold i) (nhold + 1) m with hf
  have hlog : ∀ y : ℝ, 0 < y → (10 : ℝ) ^ Real.logb 10 y = y := fun y hy => Real.rpow_logb (by norm_num) (by norm_num) hy
  have hhold : ∀ t, nload - 1 ≤ t → x.times t i = f (t - (nload - 1)) := by
    intro t ht1
    by_cases hlt : t < nload
    · have : t = nload - 1 := by omega
      subst this
      rw [hload _ hlt, hlast, Nat.sub_self]
      simp only [f, logspace, linspace_zero]
      cases lg
      · simp
      · simp only [if_true]
        rw [hlog _ hend]
    · have e : 1 + (t - nload) = t - (nload - 1) := by omega
      simp only [x, makeCreepTests, if_neg hlt, hlast, e, f]
  have f0 : f 0 = stress i / rate i := by
    have := hhold (nload - 1) le_rfl
    rw [Nat.sub_self, hload _ (by omega), hlast] at this
    exact this.symm
  have hmono : stress i / rate i < hold i → ∀ a b, a < b → f a < f b := by
    intro hlt a b hab
    simp only [f]
    cases lg
    · simp only [Bool.false_eq_true, if_false]
      exact linspace_lt _ _ _ _ _ (by omega) hlt hab
    · simp only [if_true, logspace]
      exact Real.rpow_lt_rpow_of_exponent_lt (by norm_num)
        (linspace_lt _ _ _ _ _ (by omega) (Real.logb_lt_logb (by norm_num) hend hlt) hab)
  have hneg : ∀ (a b : ℝ) n m, linspace a b n m = -linspace (-a) (-b) n m := by
    intro a b n m
    unfold linspace
    split_ifs
    · ring
    · ring
  have hanti : hold i < stress i / rate i → ∀ a b, a < b → f b < f a := by
    intro hlt a b hab
    simp only [f]
    cases lg
    · simp only [Bool.false_eq_true, if_false]
      rw [hneg _ _ _ b, hneg _ _ _ a]
      have := linspace_lt (-(stress i / rate i)) (-hold i) (nhold + 1) a b (by omega) (by linarith) hab
      linarith
    · simp only [if_true, logspace]
      apply Real.rpow_lt_rpow_of_exponent_lt (by norm_num)
      rw [hneg _ _ _ b, hneg _ _ _ a]
      have := linspace_lt (-Real.logb 10 (stress i / rate i)) (-Real.logb 10 (hold i)) (nhold + 1) a b (by omega)
        (by linarith [Real.logb_lt_logb (b := 10) (by norm_num) ht hlt]) hab
      linarith
  refine ⟨?_, fun hlt t t' htt => ?_, fun hlt t t' ht1 htt => ?_⟩
  · rw [hhold _ (by omega), show nload + nhold - 1 - (nload - 1) = nhold + 1 - 1 by omega]
    simp only [f]
    cases lg
    · simp only [Bool.false_eq_true, if_false]
      exact linspace_last _ _ _ (by omega)
    · simp only [if_true, logspace]
      rw [linspace_last _ _ _ (by omega), hlog _ ht]
  · by_cases h1 : t' < nload
    · rw [hload t (by omega), hload t' h1]
      exact linspace_lt _ _ _ _ _ hn hend htt
    · by_cases h2 : t < nload
      · have a : x.times t i ≤ stress i / rate i := by
          rw [hload t h2]
          rcases (by omega : t = nload - 1 ∨ t < nload - 1) with e | e
          · rw [e, hlast]
          · exact (linspace_lt _ _ _ _ _ hn hend e).le.trans hlast.le
        have b : stress i / rate i < x.times t' i := by
          rw [hhold t' (by omega), ← f0]
          exact hmono hlt _ _ (by omega)
        linarith
      · rw [hhold t (by omega), hhold t' (by omega)]
        exact hmono hlt _ _ (by omega)
  · rw [hhold t ht1, hhold t' (by omega)]
    exact hanti hlt _ _ (by omega)

/-- **C59** (tension tests). With at least two steps and a nonzero rate every test of `make_tension_tests` runs from zero to its strain limit, the strain is the rate times the
time, the temperature its own and all labels are zero; for positive limit and rate the times strictly increase. The same holds of `sample_tension`. -/
theorem C59_tension (rates temperatures elimits : ℕ → ℝ) (nsteps : ℕ) (hn : 2 ≤ nsteps) (i : ℕ) (hr : rates i ≠ 0) :
    let x := makeTensionTests rates temperatures elimits nsteps
    let s := sampleTension (elimits i) (rates i) nsteps
    (x.times 0 i = 0 ∧ x.loads 0 i = 0 ∧ x.loads (nsteps - 1) i = elimits i ∧ x.times (nsteps - 1) i = elimits i / rates i) ∧
    (∀ t, x.loads t i = rates i * x.times t i ∧ x.temps t i = temperatures i ∧ x.cycles t i = 0) ∧
    (0 < elimits i → 0 < rates i → ∀ t t', t < t' → x.times t i < x.times t' i) ∧
    ∀ t, s.1 t = x.times t i ∧ s.2 t = x.loads t i := by
  intro x s
  have hload : ∀ t, x.loads t i = rates i * x.times t i := by
    intro t
    simp only [x, makeTensionTests, linspace]
    rw [if_neg (by omega), if_neg (by omega)]
    field_simp
    ring
  refine ⟨⟨linspace_zero _ _ _, linspace_zero _ _ _, linspace_last _ _ _ hn, linspace_last _ _ _ hn⟩, fun t => ⟨hload t, rfl, rfl⟩,
    fun h1 h2 t t' htt => linspace_lt _ _ _ _ _ hn (div_pos h1 h2) htt, fun t => ⟨rfl, ?_⟩⟩
  rw [hload t, mul_comm]
  rfl

/-- **C59** (random rates). The rate drawn between two positive rates lies between them, in whichever order they are given. -/
theorem C59_random_rate (u a b : ℝ) (h0 : 0 ≤ u) (h1 : u ≤ 1) (ha : 0 < a) (hb : 0 < b) :
    min a b ≤ randomRate u a b ∧ randomRate u a b ≤ max a b := by
  have hlog : ∀ y : ℝ, 0 < y → (10 : ℝ) ^ Real.logb 10 y = y := fun y hy => Real.rpow_logb (by norm_num) (by norm_num) hy
  have mono : ∀ x y : ℝ, x ≤ y → (10 : ℝ) ^ x ≤ (10 : ℝ) ^ y := fun x y h => Real.rpow_le_rpow_of_exponent_le (by norm_num) h
  unfold randomRate uniform
  rcases le_total a b with hab | hab
  · have hl : Real.logb 10 a ≤ Real.logb 10 b := Real.logb_le_logb_of_le (by norm_num) ha hab
    rw [min_eq_left hab, max_eq_right hab]
    constructor
    · conv_lhs => rw [← hlog a ha]
      exact mono _ _ (by nlinarith)
    · conv_rhs => rw [← hlog b hb]
      exact mono _ _ (by nlinarith)
  · have hl : Real.logb 10 b ≤ Real.logb 10 a := Real.logb_le_logb_of_le (by norm_num) hb hab
    rw [min_eq_right hab, max_eq_left hab]
    constructor
    · conv_lhs => rw [← hlog b hb]
      exact mono _ _ (by nlinarith)
    · conv_rhs => rw [← hlog a ha]
      exact mono _ _ (by nlinarith)

example : (makeCreepTests (fun _ => 100) (fun _ => 300) (fun _ => 10) (fun _ => 1000) 3 2 false).times 3 0 = 505 := by
  norm_num [makeCreepTests, linspace]

end Pyoptmat.Props
