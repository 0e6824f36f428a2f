import Verif.Proofs.Experiments
import Verif.Proofs.Interp

namespace Pyoptmat.Experiments

open Pyoptmat.Spec

/-! ### Clamped ramps -/

/-- the ramp that rises from 0 to `L` -/
noncomputable def ramp (L x : ℝ) : ℝ := min (max x 0) L

lemma ramp_mono (L : ℝ) : Monotone (ramp L) := fun _ _ h => min_le_min_right _ (max_le_max_right _ h)

lemma ramp_low {L x : ℝ} (hL : 0 ≤ L) (h : x ≤ 0) : ramp L x = 0 := by rw [ramp, max_eq_right h, min_eq_left hL]
lemma ramp_high {L x : ℝ} (h : L ≤ x) : ramp L x = L := by rw [ramp, min_eq_right (h.trans (le_max_left _ _))]
lemma ramp_mid {L x : ℝ} (h0 : 0 ≤ x) (h : x ≤ L) : ramp L x = x := by rw [ramp, max_eq_left h0, min_eq_left h]

lemma ramp_add {L M x : ℝ} (hL : 0 ≤ L) (hM : 0 ≤ M) : ramp L x + ramp M (x - L) = ramp (L + M) x := by
  rcases le_total x 0 with h0 | h0
  · rw [ramp_low hL h0, ramp_low hM (by linarith), ramp_low (by linarith) h0, add_zero]
  · rcases le_total x L with h1 | h1
    · rw [ramp_mid h0 h1, ramp_low hM (by linarith), ramp_mid h0 (by linarith), add_zero]
    · rcases le_total x (L + M) with h2 | h2
      · rw [ramp_high h1, ramp_mid (by linarith) (by linarith), ramp_mid h0 h2]; ring
      · rw [ramp_high h1, ramp_high (by linarith), ramp_high h2]

/-! ### The waveform -/

namespace Cycle
variable (c : Cycle)

/-- positive rate, no negative hold -/
structure Valid : Prop where
  rate : 0 < c.strainRate
  hold1 : 0 ≤ c.tensionHold
  hold2 : 0 ≤ c.compressionHold

variable {c}

lemma Valid.t1 (h : c.Valid) : 0 ≤ c.t1 := div_nonneg (abs_nonneg _) h.rate.le
lemma Valid.t2 (h : c.Valid) : 0 ≤ c.t2 := h.hold1
lemma Valid.t3 (h : c.Valid) : 0 ≤ c.t3 := div_nonneg (abs_nonneg _) h.rate.le
lemma Valid.t4 (h : c.Valid) : 0 ≤ c.t4 := h.hold2
lemma Valid.t5 (h : c.Valid) : 0 ≤ c.t5 := div_nonneg (abs_nonneg _) h.rate.le

/-- slopes -/
noncomputable def m1 (c : Cycle) : ℝ := c.emax / c.t1
noncomputable def m3 (c : Cycle) : ℝ := -((c.emax - c.emin) / c.t3)
noncomputable def m5 (c : Cycle) : ℝ := -(c.emin / c.t5)

lemma slope_bound {r e : ℝ} (hr : 0 < r) : |e / (|e| / r)| ≤ r ∧ e / (|e| / r) * (|e| / r) = e := by
  by_cases he : e = 0
  · subst he; simp [hr.le]
  · have ha : 0 < |e| := abs_pos.2 he
    refine ⟨?_, div_mul_cancel₀ _ (div_pos ha hr).ne'⟩
    rw [abs_div, abs_div, abs_abs, abs_of_pos hr, div_div_eq_mul_div, mul_div_right_comm, div_self ha.ne', one_mul]

lemma Valid.m1_le (h : c.Valid) : |c.m1| ≤ c.strainRate := (slope_bound h.rate).1
lemma Valid.m3_le (h : c.Valid) : |c.m3| ≤ c.strainRate := by rw [m3, abs_neg]; exact (slope_bound h.rate).1
lemma Valid.m5_le (h : c.Valid) : |c.m5| ≤ c.strainRate := by rw [m5, abs_neg]; exact (slope_bound h.rate).1
lemma Valid.m1_mul (h : c.Valid) : c.m1 * c.t1 = c.emax := (slope_bound h.rate).2
lemma Valid.m3_mul (h : c.Valid) : c.m3 * c.t3 = -(c.emax - c.emin) := by
  rw [m3, neg_mul]; exact congrArg _ (slope_bound h.rate).2
lemma Valid.m5_mul (h : c.Valid) : c.m5 * c.t5 = -c.emin := by rw [m5, neg_mul]; exact congrArg _ (slope_bound h.rate).2

/-- the waveform on one closed period -/
noncomputable def wave (c : Cycle) (t : ℝ) : ℝ :=
  c.m1 * ramp c.t1 t + c.m3 * ramp c.t3 (t - c.cdiv1) + c.m5 * ramp c.t5 (t - c.cdiv3)

lemma cdivs (h : c.Valid) : 0 ≤ c.cdiv0 ∧ c.cdiv0 ≤ c.cdiv1 ∧ c.cdiv1 ≤ c.cdiv2 ∧ c.cdiv2 ≤ c.cdiv3 ∧ c.cdiv3 ≤ c.period := by
  have h1 := h.t1; have h2 := h.t2; have h3 := h.t3; have h4 := h.t4; have h5 := h.t5
  unfold cdiv0 cdiv1 cdiv2 cdiv3 period
  refine ⟨h1, ?_, ?_, ?_, ?_⟩ <;> linarith

lemma pieces_eq (h : c.Valid) {tp : ℝ} (h0 : 0 ≤ tp) (hp : tp < c.period) : pieces c tp = c.wave tp := by
  obtain ⟨d0, d1, d2, d3, d4⟩ := cdivs h
  have a1 := h.t1; have a2 := h.t2; have a3 := h.t3; have a4 := h.t4; have a5 := h.t5
  have e2 : c.cdiv2 = c.cdiv1 + c.t3 := rfl
  have e3 : c.cdiv3 = c.cdiv2 + c.t4 := rfl
  have e4 : c.period = c.cdiv3 + c.t5 := rfl
  have e0 : c.cdiv0 = c.t1 := rfl
  unfold pieces wave
  simp only []
  by_cases h1 : tp < c.cdiv0
  · rw [if_neg (by intro hc; linarith [hc.1]), if_neg (by intro hc; linarith [hc.1]), if_neg (by intro hc; linarith [hc.1]),
      if_neg (by intro hc; linarith [hc.1]), if_pos ⟨h0, h1⟩, ramp_mid h0 (by linarith), ramp_low a3 (by linarith),
      ramp_low a5 (by linarith), m1]
    ring
  · push Not at h1
    by_cases h2 : tp < c.cdiv1
    · rw [if_neg (by intro hc; linarith [hc.1]), if_neg (by intro hc; linarith [hc.1]), if_neg (by intro hc; linarith [hc.1]),
        if_pos ⟨h1, h2⟩, ramp_high (by linarith), ramp_low a3 (by linarith), ramp_low a5 (by linarith), h.m1_mul]
      ring
    · push Not at h2
      by_cases h3 : tp < c.cdiv2
      · rw [if_neg (by intro hc; linarith [hc.1]), if_neg (by intro hc; linarith [hc.1]),
          if_pos ⟨h2, h3⟩, ramp_high (by linarith), ramp_mid (by linarith) (by linarith), ramp_low a5 (by linarith), h.m1_mul, m3]
        ring
      · push Not at h3
        by_cases h4 : tp < c.cdiv3
        · rw [if_neg (by intro hc; linarith [hc.1]),
            if_pos ⟨h3, h4⟩, ramp_high (by linarith), ramp_high (by linarith), ramp_low a5 (by linarith), h.m1_mul, h.m3_mul]
          ring
        · push Not at h4
          rw [if_pos ⟨h4, hp⟩, ramp_high (by linarith), ramp_high (by linarith), ramp_mid (by linarith) (by linarith), h.m1_mul,
            h.m3_mul, m5]
          ring

lemma wave_zero (h : c.Valid) : c.wave 0 = 0 := by
  obtain ⟨d0, d1, d2, d3, d4⟩ := cdivs h
  unfold wave
  rw [ramp_low h.t1 le_rfl, ramp_low h.t3 (by linarith), ramp_low h.t5 (by linarith)]
  ring

lemma wave_period (h : c.Valid) : c.wave c.period = 0 := by
  obtain ⟨d0, d1, d2, d3, d4⟩ := cdivs h
  have e2 : c.cdiv2 = c.cdiv1 + c.t3 := rfl
  have e4 : c.period = c.cdiv3 + c.t5 := rfl
  have e0 : c.cdiv0 = c.t1 := rfl
  unfold wave
  rw [ramp_high (by linarith), ramp_high (by linarith), ramp_high (by linarith), h.m1_mul, h.m3_mul, h.m5_mul]
  ring

/-- total time -/
lemma ramp_total (h : c.Valid) {t : ℝ} (h0 : 0 ≤ t) (hp : t ≤ c.period) :
    ramp c.t1 t + ramp c.t2 (t - c.cdiv0) + ramp c.t3 (t - c.cdiv1) + ramp c.t4 (t - c.cdiv2) + ramp c.t5 (t - c.cdiv3) = t := by
  obtain ⟨d0, d1, d2, d3, d4⟩ := cdivs h
  rw [show ramp c.t1 t + ramp c.t2 (t - c.cdiv0) = ramp c.cdiv1 t from ramp_add h.t1 h.t2,
    show ramp c.cdiv1 t + ramp c.t3 (t - c.cdiv1) = ramp c.cdiv2 t from ramp_add (by linarith) h.t3,
    show ramp c.cdiv2 t + ramp c.t4 (t - c.cdiv2) = ramp c.cdiv3 t from ramp_add (by linarith) h.t4,
    show ramp c.cdiv3 t + ramp c.t5 (t - c.cdiv3) = ramp c.period t from ramp_add (by linarith) h.t5, ramp_mid h0 hp]

lemma wave_lip (h : c.Valid) {s t : ℝ} (h0 : 0 ≤ s) (hst : s ≤ t) (hp : t ≤ c.period) :
    |c.wave t - c.wave s| ≤ c.strainRate * (t - s) := by
  have r1 := sub_nonneg.2 (ramp_mono c.t1 hst)
  have r2 := sub_nonneg.2 (ramp_mono c.t2 (sub_le_sub_right hst c.cdiv0))
  have r3 := sub_nonneg.2 (ramp_mono c.t3 (sub_le_sub_right hst c.cdiv1))
  have r4 := sub_nonneg.2 (ramp_mono c.t4 (sub_le_sub_right hst c.cdiv2))
  have r5 := sub_nonneg.2 (ramp_mono c.t5 (sub_le_sub_right hst c.cdiv3))
  have e1 := ramp_total h h0 (hst.trans hp)
  have e2 := ramp_total h (h0.trans hst) hp
  have b1 := abs_le.1 h.m1_le
  have b3 := abs_le.1 h.m3_le
  have b5 := abs_le.1 h.m5_le
  have hr := h.rate
  have d : c.wave t - c.wave s = c.m1 * (ramp c.t1 t - ramp c.t1 s) + c.m3 * (ramp c.t3 (t - c.cdiv1) - ramp c.t3 (s - c.cdiv1)) +
      c.m5 * (ramp c.t5 (t - c.cdiv3) - ramp c.t5 (s - c.cdiv3)) := by unfold wave; ring
  have et : t - s = (ramp c.t1 t - ramp c.t1 s) + (ramp c.t2 (t - c.cdiv0) - ramp c.t2 (s - c.cdiv0)) +
      (ramp c.t3 (t - c.cdiv1) - ramp c.t3 (s - c.cdiv1)) + (ramp c.t4 (t - c.cdiv2) - ramp c.t4 (s - c.cdiv2)) +
      (ramp c.t5 (t - c.cdiv3) - ramp c.t5 (s - c.cdiv3)) := by linarith
  rw [d, et]
  generalize ramp c.t1 t - ramp c.t1 s = x1 at *
  generalize ramp c.t2 (t - c.cdiv0) - ramp c.t2 (s - c.cdiv0) = x2 at *
  generalize ramp c.t3 (t - c.cdiv1) - ramp c.t3 (s - c.cdiv1) = x3 at *
  generalize ramp c.t4 (t - c.cdiv2) - ramp c.t4 (s - c.cdiv2) = x4 at *
  generalize ramp c.t5 (t - c.cdiv3) - ramp c.t5 (s - c.cdiv3) = x5 at *
  have p2 := mul_nonneg hr.le r2
  have p4 := mul_nonneg hr.le r4
  rw [abs_le]
  constructor
  · nlinarith [mul_nonneg (by linarith [b1.1] : 0 ≤ c.m1 + c.strainRate) r1, mul_nonneg (by linarith [b3.1] : 0 ≤ c.m3 + c.strainRate) r3,
      mul_nonneg (by linarith [b5.1] : 0 ≤ c.m5 + c.strainRate) r5]
  · nlinarith [mul_nonneg (by linarith [b1.2] : 0 ≤ c.strainRate - c.m1) r1, mul_nonneg (by linarith [b3.2] : 0 ≤ c.strainRate - c.m3) r3,
      mul_nonneg (by linarith [b5.2] : 0 ≤ c.strainRate - c.m5) r5]

end Cycle

/-! ### The remainder -/

lemma fmod_spec {p : ℝ} (hp : 0 < p) (t : ℝ) : 0 ≤ fmod t p ∧ fmod t p < p ∧ t = ⌊t / p⌋ * p + fmod t p := by
  have h1 := Int.floor_le (t / p)
  have h2 := Int.lt_floor_add_one (t / p)
  have e : t / p * p = t := div_mul_cancel₀ _ hp.ne'
  unfold fmod
  refine ⟨?_, ?_, by ring⟩
  · nlinarith
  · nlinarith

lemma fmod_unique {p : ℝ} (hp : 0 < p) {t r : ℝ} {k : ℤ} (h0 : 0 ≤ r) (h1 : r < p) (e : t = k * p + r) : fmod t p = r := by
  have : ⌊t / p⌋ = k := by
    rw [Int.floor_eq_iff, le_div_iff₀ hp, div_lt_iff₀ hp]
    constructor <;> linarith
  unfold fmod
  rw [this, e]
  ring

/-- the strain at a time -/
noncomputable def strainAt (c : Cycle) (t : ℝ) : ℝ := pieces c (fmod t c.period)

lemma strainAt_eq {c : Cycle} (h : c.Valid) (hp : 0 < c.period) (t : ℝ) : strainAt c t = c.wave (fmod t c.period) :=
  Cycle.pieces_eq h (fmod_spec hp t).1 (fmod_spec hp t).2.1

lemma strainAt_shift {c : Cycle} (h : c.Valid) (hp : 0 < c.period) (k : ℤ) {r : ℝ} (h0 : 0 ≤ r) (h1 : r ≤ c.period) :
    strainAt c (k * c.period + r) = c.wave r := by
  rw [strainAt_eq h hp]
  rcases h1.lt_or_eq with h1 | h1
  · rw [fmod_unique hp h0 h1 rfl]
  · rw [fmod_unique hp (r := 0) (k := k + 1) le_rfl hp (by rw [h1]; push_cast; ring), h1, Cycle.wave_period h, Cycle.wave_zero h]

lemma strainAt_lip {c : Cycle} (h : c.Valid) (hp : 0 < c.period) (s t : ℝ) : |strainAt c t - strainAt c s| ≤ c.strainRate * |t - s| := by
  wlog hst : s ≤ t generalizing s t
  · rw [abs_sub_comm, abs_sub_comm t s]
    exact this t s (by linarith)
  rw [strainAt_eq h hp, strainAt_eq h hp, abs_of_nonneg (by linarith : 0 ≤ t - s)]
  obtain ⟨a0, a1, ae⟩ := fmod_spec hp s
  obtain ⟨b0, b1, be⟩ := fmod_spec hp t
  have hr := h.rate
  have hfl : ⌊s / c.period⌋ ≤ ⌊t / c.period⌋ := Int.floor_le_floor (div_le_div_of_nonneg_right hst hp.le)
  rcases hfl.lt_or_eq with hlt | heq
  · have w1 := Cycle.wave_lip h a0 a1.le le_rfl
    have w2 := Cycle.wave_lip h le_rfl b0 b1.le
    rw [Cycle.wave_period h] at w1
    rw [Cycle.wave_zero h] at w2
    have hk : ((⌊s / c.period⌋ : ℤ) : ℝ) + 1 ≤ (⌊t / c.period⌋ : ℤ) := by exact_mod_cast hlt
    have hd : c.period - fmod s c.period + fmod t c.period ≤ t - s := by
      have : (((⌊s / c.period⌋ : ℤ) : ℝ) + 1) * c.period ≤ (⌊t / c.period⌋ : ℤ) * c.period := mul_le_mul_of_nonneg_right hk hp.le
      linarith
    have : |c.wave (fmod t c.period) - c.wave (fmod s c.period)| ≤
        |c.wave (fmod t c.period) - 0| + |0 - c.wave (fmod s c.period)| := by
      have := abs_sub_le (c.wave (fmod t c.period)) 0 (c.wave (fmod s c.period))
      simpa using this
    nlinarith [mul_le_mul_of_nonneg_left hd hr.le]
  · have e : fmod t c.period - fmod s c.period = t - s := by
      rw [heq] at ae
      linarith
    have := Cycle.wave_lip h a0 (by linarith) b1.le
    rwa [e] at this

/-! ### The time grid -/

/-- the times of consecutive segments from `tc` on -/
noncomputable def segTimes : ℝ → List (ℝ × ℕ) → List ℝ
  | _, [] => []
  | tc, (t, n) :: rest => ((List.range n).map fun j => linspace tc (tc + t) (n + 1) (j + 1)) ++ segTimes (tc + t) rest

lemma seg_fold (k : ℕ) (segs : List (ℝ × ℕ)) : ∀ s : LoopState, segs.foldl (segStep k) s =
    { times := s.times ++ segTimes s.tc segs, cycles := s.cycles ++ List.replicate (segs.map Prod.snd).sum k,
      tc := s.tc + (segs.map Prod.fst).sum } := by
  induction segs with
  | nil => intro s; simp [segTimes]
  | cons p segs ih =>
    intro s
    rw [List.foldl_cons, ih]
    simp only [segStep, segTimes, List.map_cons, List.sum_cons, List.append_assoc, List.replicate_add, add_assoc]

lemma segTimes_length (segs : List (ℝ × ℕ)) : ∀ tc, (segTimes tc segs).length = (segs.map Prod.snd).sum := by
  induction segs with
  | nil => intro tc; rfl
  | cons p segs ih =>
    intro tc
    obtain ⟨t, n⟩ := p
    simp [segTimes, ih]

lemma linspace_succ (tc t : ℝ) (n j : ℕ) (hn : 0 < n) : linspace tc (tc + t) (n + 1) (j + 1) = tc + t * ((j + 1) / n) := by
  unfold linspace
  rw [if_neg (by omega)]
  have : (n : ℝ) ≠ 0 := by positivity
  have e : ((n + 1 : ℕ) : ℝ) - 1 = n := by push_cast; ring
  rw [e]
  push_cast
  field_simp
  ring

/-- the times of the segments lie in their range, and increase -/
lemma segTimes_sorted (segs : List (ℝ × ℕ)) (hs : ∀ p ∈ segs, 0 ≤ p.1) : ∀ tc,
    (∀ x ∈ segTimes tc segs, tc ≤ x ∧ x ≤ tc + (segs.map Prod.fst).sum) ∧ (segTimes tc segs).Pairwise (· ≤ ·) ∧
    ((∀ p ∈ segs, 0 < p.2 → 0 < p.1) → (∀ x ∈ segTimes tc segs, tc < x) ∧ (segTimes tc segs).Pairwise (· < ·)) := by
  induction segs with
  | nil => intro tc; simp [segTimes]
  | cons p segs ih =>
    intro tc
    obtain ⟨t, n⟩ := p
    have ht : 0 ≤ t := hs (t, n) (by simp)
    obtain ⟨i1, i2, i3⟩ := ih (fun p hp => hs p (by simp [hp])) (tc + t)
    have hsum : 0 ≤ (segs.map Prod.fst).sum := List.sum_nonneg (by
      intro x hx
      obtain ⟨p, hp, rfl⟩ := List.mem_map.1 hx
      exact hs p (by simp [hp]))
    have hfirst : ∀ x ∈ (List.range n).map (fun j => linspace tc (tc + t) (n + 1) (j + 1)), tc ≤ x ∧ x ≤ tc + t ∧ (0 < t → tc < x) := by
      intro x hx
      obtain ⟨j, hj, rfl⟩ := List.mem_map.1 hx
      rw [List.mem_range] at hj
      have hn : 0 < n := by omega
      have hn' : (0 : ℝ) < n := by exact_mod_cast hn
      rw [linspace_succ tc t n j hn]
      have f0 : (0 : ℝ) < ((j : ℝ) + 1) / n := by positivity
      have f1 : ((j : ℝ) + 1) / n ≤ 1 := by
        rw [div_le_one hn']
        exact_mod_cast hj
      refine ⟨by nlinarith, by nlinarith, fun h => by nlinarith⟩
    simp only [segTimes, List.map_cons, List.sum_cons, List.mem_append]
    refine ⟨?_, ?_, fun hpos => ⟨?_, ?_⟩⟩
    · rintro x (hx | hx)
      · have := hfirst x hx; constructor <;> linarith
      · have := i1 x hx; constructor <;> linarith
    · rw [List.pairwise_append]
      refine ⟨?_, i2, fun x hx y hy => (hfirst x hx).2.1.trans (i1 y hy).1⟩
      rw [List.pairwise_map]
      refine List.pairwise_lt_range.imp_of_mem fun {a b} ha hb hab => ?_
      have hn : 0 < n := by have := List.mem_range.1 ha; omega
      have hn' : (0 : ℝ) < n := by exact_mod_cast hn
      rw [linspace_succ tc t n a hn, linspace_succ tc t n b hn]
      have hab' : (a : ℝ) ≤ b := by exact_mod_cast hab.le
      have : ((a : ℝ) + 1) / n ≤ ((b : ℝ) + 1) / n := by gcongr
      nlinarith
    · rintro x (hx | hx)
      · refine (hfirst x hx).2.2 (hpos (t, n) (by simp) ?_)
        obtain ⟨j, hj, -⟩ := List.mem_map.1 hx
        have := List.mem_range.1 hj
        simp only; omega
      · have := (i3 fun p hp => hpos p (by simp [hp])).1 x hx
        linarith
    · rw [List.pairwise_append]
      refine ⟨?_, (i3 fun p hp => hpos p (by simp [hp])).2, fun x hx y hy =>
        lt_of_le_of_lt (hfirst x hx).2.1 ((i3 fun p hp => hpos p (by simp [hp])).1 y hy)⟩
      rw [List.pairwise_map]
      refine List.pairwise_lt_range.imp_of_mem fun {a b} ha hb hab => ?_
      have hn : 0 < n := by have := List.mem_range.1 ha; omega
      have hn' : (0 : ℝ) < n := by exact_mod_cast hn
      have ht' : 0 < t := hpos (t, n) (by simp) hn
      rw [linspace_succ tc t n a hn, linspace_succ tc t n b hn]
      have hab' : (a : ℝ) < b := by exact_mod_cast hab
      have : ((a : ℝ) + 1) / n < ((b : ℝ) + 1) / n := by gcongr
      nlinarith

lemma segments_sum (c : Cycle) (nload nhold : ℕ) :
    ((c.segments nload nhold).map Prod.fst).sum = c.period ∧ ((c.segments nload nhold).map Prod.snd).sum = 4 * nload + 2 * nhold := by
  constructor
  · simp [Cycle.segments, Cycle.period]; ring
  · simp [Cycle.segments]; ring

/-- the loops in closed form -/
lemma cycleLoop_eq (c : Cycle) (N nload nhold : ℕ) : cycleLoop c N nload nhold =
    { times := 0 :: (List.range N).flatMap fun k : ℕ => segTimes (k * c.period) (c.segments nload nhold),
      cycles := 0 :: (List.range N).flatMap fun k => List.replicate (4 * nload + 2 * nhold) k,
      tc := N * c.period } := by
  induction N with
  | zero => simp [cycleLoop]
  | succ N ih =>
    unfold cycleLoop at ih ⊢
    rw [List.range_succ, List.foldl_append, ih, List.foldl_cons, List.foldl_nil, seg_fold]
    obtain ⟨s1, s2⟩ := segments_sum c nload nhold
    simp only [List.flatMap_append, List.flatMap_cons, List.flatMap_nil, List.append_nil, List.cons_append, s1, s2]
    congr 1
    push_cast
    ring

end Pyoptmat.Experiments
