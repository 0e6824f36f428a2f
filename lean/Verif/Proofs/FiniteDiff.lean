import Verif.Model.FiniteDiff
import Mathlib.Analysis.Calculus.Deriv.MeanValue
import Mathlib.Analysis.Calculus.Deriv.Prod
import Mathlib.Analysis.Calculus.Deriv.Slope
import Mathlib.Analysis.Calculus.Deriv.Pi
import Mathlib.Analysis.Calculus.FDeriv.Comp
import Mathlib.Tactic

namespace Pyoptmat.FiniteDiff

lemma inc_eq {eps : ℝ} (h : 0 < eps) (x : ℝ) : inc eps x = max |x| 1 * eps := by
  unfold inc
  split_ifs with h1
  · have : |x| < 1 := by
      by_contra hc
      push Not at hc
      nlinarith
    rw [max_eq_right this.le, one_mul]
  · have : 1 ≤ |x| := by
      by_contra hc
      push Not at hc
      exact h1 (by nlinarith)
    rw [max_eq_left this]

lemma inc_pos {eps : ℝ} (h : 0 < eps) (x : ℝ) : 0 < inc eps x := by
  rw [inc_eq h]
  exact mul_pos (lt_max_of_lt_right one_pos) h

lemma fdiv_some {a b : ℝ} (h : b ≠ 0) : fdiv a b = some (a / b) := if_neg h

lemma add_bump {β : Type} {n : ℕ} (eps : ℝ) (x0 : β → Fin n → ℝ) (j : Fin n) (b : β) :
    (x0 + bump eps x0 j) b = Function.update (x0 b) j (x0 b j + inc eps (x0 b j)) := by
  funext k
  by_cases hk : k = j
  · subst hk
    simp [bump]
  · simp [bump, hk]

/-- A forward difference of step `c * eps`, `c > 0`, tends to the derivative. -/
lemma tendsto_forward {g : ℝ → ℝ} {g' x c : ℝ} (hg : HasDerivAt g g' x) (hc : 0 < c) :
    Filter.Tendsto (fun eps => (g (x + c * eps) - g x) / (c * eps)) (nhdsWithin 0 (Set.Ioi 0)) (nhds g') := by
  have h1 := hg.tendsto_slope_zero_right
  have h2 : Filter.Tendsto (fun eps : ℝ => c * eps) (nhdsWithin 0 (Set.Ioi 0)) (nhdsWithin 0 (Set.Ioi 0)) := by
    apply tendsto_nhdsWithin_of_tendsto_nhds_of_eventually_within
    · have : Filter.Tendsto (fun eps : ℝ => c * eps) (nhds 0) (nhds (c * 0)) := (continuous_const_mul c).tendsto 0
      rw [mul_zero] at this
      exact this.mono_left nhdsWithin_le_nhds
    · filter_upwards [self_mem_nhdsWithin] with e he
      exact mul_pos hc he
  refine (h1.comp h2).congr fun e => ?_
  simp only [Function.comp, smul_eq_mul]
  field_simp

lemma sliceStop_neg (m f : ℕ) (hf : 0 < f) : sliceStop (m + f) (-(f : ℤ)) = m := by
  unfold sliceStop
  rw [if_pos (by omega)]
  omega

lemma sliceStop_zero (m : ℕ) : sliceStop (m + 0) (-((0 : ℕ) : ℤ)) = 0 := by
  simp [sliceStop]

end Pyoptmat.FiniteDiff
