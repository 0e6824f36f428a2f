import Verif.Model.Hardening
import Mathlib.Analysis.SpecialFunctions.Pow.Deriv
import Mathlib.Analysis.SpecialFunctions.Pow.Continuity
import Mathlib.Analysis.Calculus.Deriv.Abs
import Mathlib.Analysis.Calculus.Deriv.Slope
import Mathlib.Analysis.InnerProductSpace.NormPow
import Mathlib.Tactic

/-! Helper lemmas: sign, Macaulay brackets and powers. -/

namespace Pyoptmat.Material

open Filter Topology Asymptotics

theorem sgn_pos {x : ℝ} (h : 0 < x) : sgn x = 1 := Real.sign_of_pos h
theorem sgn_neg {x : ℝ} (h : x < 0) : sgn x = -1 := Real.sign_of_neg h
@[simp] theorem sgn_zero : sgn 0 = 0 := Real.sign_zero

theorem sgn_cases (x : ℝ) : (x < 0 ∧ sgn x = -1) ∨ (x = 0 ∧ sgn x = 0) ∨ (0 < x ∧ sgn x = 1) := by
  rcases lt_trichotomy x 0 with h | h | h
  · exact .inl ⟨h, sgn_neg h⟩
  · exact .inr (.inl ⟨h, by rw [h, sgn_zero]⟩)
  · exact .inr (.inr ⟨h, sgn_pos h⟩)

theorem sgn_mul_abs (x : ℝ) : sgn x * |x| = x := by
  rcases sgn_cases x with ⟨h, hs⟩ | ⟨h, hs⟩ | ⟨h, hs⟩
  · rw [hs, abs_of_neg h]; ring
  · simp [h]
  · rw [hs, abs_of_pos h]; ring

theorem sgn_mul_self (x : ℝ) : sgn x * x = |x| := by
  rcases sgn_cases x with ⟨h, hs⟩ | ⟨h, hs⟩ | ⟨h, hs⟩
  · rw [hs, abs_of_neg h]; ring
  · simp [h]
  · rw [hs, abs_of_pos h]; ring

theorem sgn_sq {x : ℝ} (h : x ≠ 0) : sgn x * sgn x = 1 := by
  rcases sgn_cases x with ⟨_, hs⟩ | ⟨h', _⟩ | ⟨_, hs⟩
  · rw [hs]; ring
  · exact absurd h' h
  · rw [hs]; ring

theorem abs_sgn_le (x : ℝ) : |sgn x| ≤ 1 := by
  rcases sgn_cases x with ⟨_, hs⟩ | ⟨_, hs⟩ | ⟨_, hs⟩ <;> simp [hs]

theorem sgn_eventually {x : ℝ} (h : x ≠ 0) : ∀ᶠ y in 𝓝 x, sgn y = sgn x := by
  rcases lt_or_gt_of_ne h with h | h
  · filter_upwards [eventually_lt_nhds h] with y hy
    rw [sgn_neg hy, sgn_neg h]
  · filter_upwards [eventually_gt_nhds h] with y hy
    rw [sgn_pos hy, sgn_pos h]

theorem hasDerivAt_abs' {x : ℝ} (h : x ≠ 0) : HasDerivAt (fun y : ℝ => |y|) (sgn x) x := by
  have h1 : HasDerivAt (fun y : ℝ => sgn x * y) (sgn x) x := by
    simpa using (hasDerivAt_id x).const_mul (sgn x)
  refine h1.congr_of_eventuallyEq ?_
  filter_upwards [sgn_eventually h] with y hy
  rw [← hy, sgn_mul_self]

theorem macaulay_eq (x : ℝ) : macaulay x = max x 0 := by
  unfold macaulay heaviside
  rcases sgn_cases x with ⟨h, hs⟩ | ⟨h, hs⟩ | ⟨h, hs⟩
  · rw [hs, max_eq_right h.le]; ring
  · simp [h]
  · rw [hs, max_eq_left h.le]; ring

theorem macaulay_nonneg (x : ℝ) : 0 ≤ macaulay x := by rw [macaulay_eq]; exact le_max_right _ _

theorem macaulay_of_nonpos {x : ℝ} (h : x ≤ 0) : macaulay x = 0 := by rw [macaulay_eq, max_eq_right h]

theorem macaulay_of_pos {x : ℝ} (h : 0 < x) : macaulay x = x := by rw [macaulay_eq, max_eq_left h.le]

/-- `|x|^r sign x = x |x|^(r-1)`. -/
theorem abs_rpow_mul_sgn (x r : ℝ) : |x| ^ r * sgn x = x * |x| ^ (r - 1) := by
  by_cases h : x = 0
  · simp [h]
  · have hp : 0 < |x| := abs_pos.2 h
    rw [Real.rpow_sub_one hp.ne']
    field_simp
    rw [sgn_mul_abs]

theorem hasDerivAt_mul_abs_rpow {x r : ℝ} (h : x ≠ 0 ∨ 1 ≤ r) :
    HasDerivAt (fun y : ℝ => y * |y| ^ (r - 1)) (r * |x| ^ (r - 1)) x := by
  by_cases hx : x = 0
  · subst hx
    have hr : 1 ≤ r := by tauto
    rw [hasDerivAt_iff_tendsto_slope]
    have hc : ContinuousAt (fun y : ℝ => |y| ^ (r - 1)) 0 :=
      (Real.continuousAt_rpow_const _ _ (Or.inr (by linarith))).comp continuousAt_id.abs
    have he : r * |(0 : ℝ)| ^ (r - 1) = |(0 : ℝ)| ^ (r - 1) := by
      rcases hr.eq_or_lt with h1 | h1
      · rw [← h1]; simp
      · simp [Real.zero_rpow (by linarith : r - 1 ≠ 0)]
    rw [he]
    refine (hc.tendsto.mono_left nhdsWithin_le_nhds).congr' ?_
    filter_upwards [self_mem_nhdsWithin] with y hy
    have hy : y ≠ 0 := hy
    simp [slope_def_field]
    field_simp
  · have h1 := (hasDerivAt_id x).mul ((hasDerivAt_abs' hx).rpow_const (p := r - 1) (Or.inl (abs_ne_zero.2 hx)))
    refine h1.congr_deriv ?_
    have hp : 0 < |x| := abs_pos.2 hx
    simp only [id]
    rw [Real.rpow_sub_one hp.ne' (r - 1)]
    field_simp
    have := sgn_mul_self x
    linear_combination (r - 1) * this

theorem hasDerivAt_spow {x r : ℝ} (h : x ≠ 0 ∨ 1 ≤ r) :
    HasDerivAt (fun y : ℝ => |y| ^ r * sgn y) (r * |x| ^ (r - 1)) x := by
  simp only [abs_rpow_mul_sgn]
  exact hasDerivAt_mul_abs_rpow h

theorem hasDerivAt_macaulay_rpow {x n : ℝ} (h : 0 < x ∨ 1 < n) :
    HasDerivAt (fun y : ℝ => macaulay y ^ n) (n * macaulay x ^ (n - 1)) x := by
  rcases lt_trichotomy x 0 with hx | hx | hx
  · have hn : 1 < n := by rcases h with h | h; · linarith
                          exact h
    rw [macaulay_of_nonpos hx.le, Real.zero_rpow (by linarith), mul_zero]
    refine (hasDerivAt_const x (0 : ℝ)).congr_of_eventuallyEq ?_
    filter_upwards [eventually_lt_nhds hx] with y hy
    rw [macaulay_of_nonpos hy.le, Real.zero_rpow (by linarith)]
  · subst hx
    have hn : 1 < n := by rcases h with h | h; · linarith
                          exact h
    have h1 := hasDerivAt_mul_abs_rpow (x := 0) (r := n) (Or.inr hn.le)
    have h2 := hasDerivAt_abs_rpow 0 hn
    have h3 := (h1.add h2).div_const 2
    refine (h3.congr_deriv ?_).congr_of_eventuallyEq (Eventually.of_forall fun y => ?_)
    · rw [macaulay_of_nonpos le_rfl]
      simp [Real.zero_rpow (by linarith : n - 1 ≠ 0)]
    · simp only [Pi.add_apply]
      rcases lt_trichotomy y 0 with hy | hy | hy
      · rw [macaulay_of_nonpos hy.le, Real.zero_rpow (by linarith), abs_of_neg hy]
        have : (-y) ^ n = (-y) ^ (n - 1) * (-y) := by
          rw [Real.rpow_sub_one (by linarith)]
          exact (div_mul_cancel₀ _ (by linarith)).symm
        rw [this]; ring
      · subst hy
        rw [macaulay_of_nonpos le_rfl]
        simp [Real.zero_rpow (by linarith : n ≠ 0)]
      · rw [macaulay_of_pos hy, abs_of_pos hy]
        have : y ^ n = y ^ (n - 1) * y := by
          rw [Real.rpow_sub_one (by linarith)]; field_simp
        rw [this]; ring
  · rw [macaulay_of_pos hx]
    refine (Real.hasDerivAt_rpow_const (Or.inl hx.ne')).congr_of_eventuallyEq ?_
    filter_upwards [eventually_gt_nhds hx] with y hy
    rw [macaulay_of_pos hy]

/-- `y^n = o(y)` as `y → 0+` for `n > 1`, along any function. -/
theorem rpow_littleO {E : Type*} {l : Filter E} {u : E → ℝ} {n : ℝ} (hn : 1 < n) (hu : Tendsto u l (𝓝 0)) :
    (fun x => |u x| ^ n) =o[l] u := by
  have h := hasDerivAt_abs_rpow 0 hn
  rw [hasDerivAt_iff_isLittleO] at h
  have h2 := h.comp_tendsto hu
  refine h2.congr_left ?_ |>.congr_right ?_
  · intro x
    simp [Real.zero_rpow (by linarith : n ≠ 0)]
  · intro x; simp

end Pyoptmat.Material
