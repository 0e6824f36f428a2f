import Mathlib.Data.Real.Basic

/-! # Specification of piecewise linear interpolation (independent of the model) -/

namespace Pyoptmat.Spec

/-- Strictly increasing times `0 … n`. -/
def StrictGrid (n : ℕ) (times : ℕ → ℝ) : Prop := ∀ j < n, times j < times (j + 1)

/-- `v` is the height at `t` of the polyline through the points `(times j, vals j)`, `j ≤ n`. -/
def OnPolyline (n : ℕ) (times vals : ℕ → ℝ) (t v : ℝ) : Prop :=
  ∃ j < n, times j ≤ t ∧ t ≤ times (j + 1) ∧
    v = vals j + (t - times j) / (times (j + 1) - times j) * (vals (j + 1) - vals j)

/-- `v` is the value at `t` of the straight line through `(a, ya)` and `(b, yb)`. -/
def OnLine (a ya b yb t v : ℝ) : Prop := (v - ya) * (b - a) = (yb - ya) * (t - a)

/-- Row `k ≤ n` of a padded table is row `σ k` of a table with rows `0 … N`: after the first two rows, rows may be repeated any number of times (in
particular the last one). -/
structure Padding (σ : ℕ → ℕ) (n N : ℕ) : Prop where
  zero : σ 0 = 0
  first : 0 < n ∧ σ 1 = 1
  step : ∀ k < n, σ (k + 1) = σ k ∨ σ (k + 1) = σ k + 1
  last : σ n = N

end Pyoptmat.Spec
