import Mathlib.Data.List.Sort
import Mathlib.Data.Real.Archimedean
import Mathlib.Algebra.Order.Floor.Defs
import Mathlib.Algebra.Order.Floor.Ring
import Mathlib.Algebra.BigOperators.Fin

/-!
# Model of `visualize_variance` (utility.py:67-115)

Drawing is modelled by the curves and bands that are drawn. Exact arithmetic: `int(n * alpha)` is the floor of the exact product. Arrays have no NaN.
-/

namespace Pyoptmat.Visualize

/-- `x.kthvalue(k)` of a vector of `n` numbers (utility.py:80-81, 85-86): the `k`-th smallest, counted from one; refused unless `1 ≤ k ≤ n`. -/
noncomputable def kthvalue {n : ℕ} (x : Fin n → ℝ) (k : ℤ) : Except String ℝ :=
  if 1 ≤ k ∧ k ≤ n then .ok (((List.ofFn x).insertionSort (· ≤ ·)).getD (k.toNat - 1) 0) else .error "kthvalue(): selected number k out of range for dimension"

/-- `x.kthvalue(k, dim=1)` of a table with `nt` rows (utility.py:80-81, 85-86). The bound on `k` is checked against the number of columns, whatever the number of rows. -/
noncomputable def kthvalues {nt n : ℕ} (x : Fin nt → Fin n → ℝ) (k : ℤ) : Except String (Fin nt → ℝ) :=
  if 1 ≤ k ∧ k ≤ n then .ok fun t => (kthvalue (x t) k).toOption.getD 0 else .error "kthvalue(): selected number k out of range for dimension"

/-- What is drawn for one set of samples: the mean curve and the limits of the shaded band, over the strains. (utility.py:89-110) -/
structure Drawn (nt : ℕ) where
  strain : Fin nt → ℝ
  mean : Fin nt → ℝ
  lower : Fin nt → ℝ
  upper : Fin nt → ℝ

/-- Mean and percentiles of one table of samples (utility.py:79-82, 84-87). `int` of a nonnegative number is its floor. -/
noncomputable def band {nt n : ℕ} (strain : Fin nt → ℝ) (x : Fin nt → Fin n → ℝ) (alpha : ℝ) : Except String (Drawn nt) :=
  match kthvalues x ⌊(n : ℝ) * (1 - alpha)⌋ with
  | .error e => .error e
  | .ok hi =>
    match kthvalues x ⌊(n : ℝ) * alpha⌋ with
    | .error e => .error e
    | .ok lo => .ok { strain := strain, mean := fun t => (∑ j, x t j) / n, lower := lo, upper := hi }

/-- `visualize_variance(strain, stress_true, stress_calc, alpha)` (utility.py:67-115), for tables with as many rows as there are strains: the drawing of the true and of the predicted samples. -/
noncomputable def visualizeVariance {nt ntrue npred : ℕ} (strain : Fin nt → ℝ) (true_ : Fin nt → Fin ntrue → ℝ) (pred : Fin nt → Fin npred → ℝ) (alpha : ℝ) : Except String (Drawn nt × Drawn nt) :=
  match band strain true_ alpha with
  | .error e => .error e
  | .ok a =>
    match band strain pred alpha with
    | .error e => .error e
    | .ok b => .ok (a, b)

end Pyoptmat.Visualize
