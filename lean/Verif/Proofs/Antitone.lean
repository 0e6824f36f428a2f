import Mathlib.Analysis.Calculus.MeanValue
import Mathlib.Analysis.Calculus.Deriv.Slope
import Mathlib.Analysis.Calculus.Deriv.MeanValue
import Mathlib.Tactic

/-!
# Scalar differential equations `x' = F x` with a non-increasing right hand side
-/

namespace Pyoptmat.Proofs

open Set Filter Topology

variable {F : ℝ → ℝ} {x : ℝ → ℝ} {a b : ℝ}

/-- a solution that starts with a non-negative rate keeps one -/
theorem rate_nonneg (hF : Antitone F) (hx : ∀ s ∈ Icc a b, HasDerivWithinAt x (F (x s)) (Icc a b) s) (h0 : 0 ≤ F (x a)) (s : ℝ) (hs : s ∈ Icc a b) : 0 ≤ F (x s) := by
  by_contra hneg
  push Not at hneg
  have hab : a ≤ b := hs.1.trans hs.2
  have ha : x a < x s := by
    by_contra h
    push Not at h
    linarith [hF h]
  have has : a < s := lt_of_le_of_ne hs.1 (by rintro rfl; exact lt_irrefl _ ha)
  have hsub : Icc a s ⊆ Icc a b := Icc_subset_Icc_right hs.2
  have hle : ∀ u ∈ Icc a s, x u ≤ x s := by
    refine image_le_of_deriv_right_lt_deriv_boundary (f := x) (f' := fun u => F (x u)) (B := fun _ => x s) (B' := fun _ => 0) ?_ ?_ ha.le (fun u => hasDerivAt_const u _) ?_
    · exact fun u hu => ((hx u (hsub hu)).continuousWithinAt).mono hsub
    · intro u hu
      have h1 := hx u (hsub (Ico_subset_Icc_self hu))
      exact (h1.mono_of_mem_nhdsWithin (Icc_mem_nhdsGE_of_mem ⟨hu.1, hu.2.trans_le hs.2⟩))
    · intro u _ hu
      beta_reduce
      rw [hu]; exact hneg
  have hd : HasDerivWithinAt x (F (x s)) (Iio s) s := by
    refine (hx s hs).mono_of_mem_nhdsWithin ?_
    exact mem_of_superset (Ico_mem_nhdsLT has) (fun u hu => ⟨hu.1, (hu.2.le).trans hs.2⟩)
  have ht := (hasDerivWithinAt_iff_tendsto_slope' (by simp)).1 hd
  refine absurd (ge_of_tendsto ht ?_) (not_le.2 hneg)
  filter_upwards [Ico_mem_nhdsLT has] with u hu
  rw [slope_def_field]
  exact div_nonneg_of_nonpos (sub_nonpos.2 (hle u ⟨hu.1, hu.2.le⟩)) (sub_nonpos.2 hu.2.le)

/-- increments of such a solution -/
theorem increment_bounds (hF : Antitone F) (hx : ∀ s ∈ Icc a b, HasDerivWithinAt x (F (x s)) (Icc a b) s) (h0 : 0 ≤ F (x a)) {u v : ℝ} (hau : a ≤ u) (huv : u ≤ v) (hvb : v ≤ b) :
    x u ≤ x v ∧ (v - u) * F (x v) ≤ x v - x u ∧ x v - x u ≤ (v - u) * F (x u) := by
  have hmono : MonotoneOn x (Icc a b) := by
    refine monotoneOn_of_deriv_nonneg (convex_Icc a b) (fun s hs => (hx s hs).continuousWithinAt) ?_ ?_
    · rw [interior_Icc]
      exact fun s hs => ((hx s (Ioo_subset_Icc_self hs)).hasDerivAt (Icc_mem_nhds hs.1 hs.2)).differentiableAt.differentiableWithinAt
    · rw [interior_Icc]
      intro s hs
      rw [((hx s (Ioo_subset_Icc_self hs)).hasDerivAt (Icc_mem_nhds hs.1 hs.2)).deriv]
      exact rate_nonneg hF hx h0 s (Ioo_subset_Icc_self hs)
  have hu : u ∈ Icc a b := ⟨hau, huv.trans hvb⟩
  have hv : v ∈ Icc a b := ⟨hau.trans huv, hvb⟩
  refine ⟨hmono hu hv huv, ?_⟩
  rcases huv.eq_or_lt with rfl | huv'
  · simp
  have hsub : Icc u v ⊆ Icc a b := Icc_subset_Icc hau hvb
  obtain ⟨c, hc, hc'⟩ := exists_hasDerivAt_eq_slope x (fun s => F (x s)) huv' (fun s hs => ((hx s (hsub hs)).continuousWithinAt).mono hsub)
    (fun s hs => (hx s (hsub (Ioo_subset_Icc_self hs))).hasDerivAt (Icc_mem_nhds (hau.trans_lt hs.1) (hs.2.trans_le hvb)))
  rw [eq_div_iff (sub_pos.2 huv').ne'] at hc'
  have hcm : c ∈ Icc a b := hsub (Ioo_subset_Icc_self hc)
  have h1 := hF (hmono hu hcm hc.1.le)
  have h2 := hF (hmono hcm hv hc.2.le)
  rw [← hc']
  have h3 := sub_pos.2 huv'
  constructor <;> nlinarith

/-- backward Euler steps with defects against such a solution: from below, by at most the largest step times the drop of the rate -/
theorem antitone_compare (hF : Antitone F) (hx : ∀ s ∈ Icc a b, HasDerivWithinAt x (F (x s)) (Icc a b) s) (h0 : 0 ≤ F (x a)) {K : ℕ} {t y : ℕ → ℝ} {h δ : ℝ} (hδ : 0 ≤ δ)
    (ht0 : t 0 = a) (htK : t K ≤ b) (ht : ∀ k < K, t k ≤ t (k + 1)) (hh : ∀ k < K, t (k + 1) - t k ≤ h) (hy0 : y 0 = x a)
    (hy : ∀ k < K, |y (k + 1) - y k - (t (k + 1) - t k) * F (y (k + 1))| ≤ δ) (k : ℕ) (hk : k ≤ K) :
    y k ≤ x (t k) + k * δ ∧ x (t k) - h * (F (x a) - F (x (t k))) - k * δ ≤ y k := by
  have hmono : ∀ j, j ≤ K → ∀ i, i ≤ j → t i ≤ t j := by
    intro j
    induction j with
    | zero => intro _ i hi; obtain rfl : i = 0 := by omega
              exact le_rfl
    | succ j ih =>
      intro hj i hi
      rcases Nat.lt_or_ge i (j + 1) with h' | h'
      · exact (ih (by omega) i (by omega)).trans (ht j (by omega))
      · obtain rfl : i = j + 1 := by omega
        exact le_rfl
  induction k with
  | zero => rw [ht0, hy0]; simp
  | succ k ih =>
    obtain ⟨i1, i2⟩ := ih (by omega)
    have hdt := sub_nonneg.2 (ht k (by omega))
    obtain ⟨m1, m2, m3⟩ := increment_bounds hF hx h0 (u := t k) (v := t (k + 1)) (by rw [← ht0]; exact hmono k (by omega) 0 (by omega)) (ht k (by omega)) ((hmono K le_rfl (k + 1) hk).trans htK)
    have hd := abs_le.1 (hy k (by omega))
    have hk0 : (0 : ℝ) ≤ k * δ := by positivity
    have hFF : 0 ≤ F (x (t k)) - F (x (t (k + 1))) := sub_nonneg.2 (hF m1)
    have hhs := mul_le_mul_of_nonneg_right (hh k (by omega)) hFF
    have hpos : F (x (t (k + 1))) ≤ F (x a) := by
      refine hF ?_
      exact (increment_bounds hF hx h0 le_rfl (by rw [← ht0]; exact hmono (k + 1) hk 0 (by omega)) ((hmono K le_rfl (k + 1) hk).trans htK)).1
    have hh0 : 0 ≤ h := hdt.trans (hh k (by omega))
    have hhp := mul_nonneg hh0 (sub_nonneg.2 hpos)
    push_cast
    constructor
    · by_contra hc
      push Not at hc
      have h1 : x (t (k + 1)) ≤ y (k + 1) := by nlinarith
      have h2 := mul_le_mul_of_nonneg_left (hF h1) hdt
      nlinarith
    · by_contra hc
      push Not at hc
      have h1 : y (k + 1) ≤ x (t (k + 1)) := by nlinarith
      have h2 := mul_le_mul_of_nonneg_left (hF h1) hdt
      nlinarith

end Pyoptmat.Proofs
