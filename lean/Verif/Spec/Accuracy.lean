import Verif.Spec.Ode
import Mathlib.LinearAlgebra.Matrix.DotProduct
import Mathlib.Analysis.Calculus.Deriv.Basic

/-!
# Specification: accuracy and stability of the time integration (independent of the model)
-/

namespace Pyoptmat.Spec

variable {m : ℕ}

/-- Euclidean norm of a state vector. -/
noncomputable def l2 (v : Fin m → ℝ) : ℝ := Real.sqrt (∑ i, v i ^ 2)

/-- One-sided Lipschitz condition with constant `ν`: `(F x - F y) · (x - y) ≤ ν |x - y|²`. `ν = 0` says that solutions of `y' = F y` do not move apart. -/
def OneSided (F : (Fin m → ℝ) → Fin m → ℝ) (nu : ℝ) : Prop :=
  ∀ x y, (F x - F y) ⬝ᵥ (x - y) ≤ nu * ((x - y) ⬝ᵥ (x - y))

/-- Lipschitz condition in the Euclidean norm. -/
def Lip (F : (Fin m → ℝ) → Fin m → ℝ) (L : ℝ) : Prop := ∀ x y, l2 (F x - F y) ≤ L * l2 (x - y)

/-- `Y` solves `Y' = F(t, Y)` on `[a, b]`, and its derivative is Lipschitz with constant `M`. -/
structure SmoothSolution (F : ℝ → (Fin m → ℝ) → Fin m → ℝ) (a b M : ℝ) (Y : ℝ → Fin m → ℝ) : Prop where
  deriv : ∀ s ∈ Set.Icc a b, HasDerivWithinAt Y (F s (Y s)) (Set.Icc a b) s
  lip : ∀ s ∈ Set.Icc a b, ∀ u ∈ Set.Icc a b, l2 (F s (Y s) - F u (Y u)) ≤ M * |s - u|

/-- `Y` is continuous on `[t_0, t_K]` and, inside every step `(t_k, t_{k+1})` of the grid, solves `Y' = F(t, Y)` with a rate that stays within `M (t_{k+1} - s)` of its value at the end of the step. The rate
may jump from one step to the next, as it does for piecewise linear strain histories. -/
structure PiecewiseSolution (F : ℝ → (Fin m → ℝ) → Fin m → ℝ) (K : ℕ) (t : ℕ → ℝ) (M : ℝ) (Y : ℝ → Fin m → ℝ) : Prop where
  cont : ContinuousOn Y (Set.Icc (t 0) (t K))
  deriv : ∀ k < K, ∀ s ∈ Set.Ioo (t k) (t (k + 1)), HasDerivAt Y (F s (Y s)) s
  lip : ∀ k < K, ∀ s ∈ Set.Ioo (t k) (t (k + 1)), l2 (F s (Y s) - F (t (k + 1)) (Y (t (k + 1)))) ≤ M * |s - t (k + 1)|

/-- Bounds on the rates `g` and on the reported Jacobian `J` over the set `S` of states: the rates are at most `F`, `g` and `J` are one-sided Lipschitz with constant `ν`, and `J` predicts the
change of `g` up to `K/2` times the square of the distance. -/
structure RateBounds (g : (Fin m → ℝ) → Fin m → ℝ) (J : (Fin m → ℝ) → Matrix (Fin m) (Fin m) ℝ) (S : Set (Fin m → ℝ)) (F nu K : ℝ) : Prop where
  bound : ∀ y ∈ S, l2 (g y) ≤ F
  oneSided : ∀ x ∈ S, ∀ y ∈ S, (g x - g y) ⬝ᵥ (x - y) ≤ nu * ((x - y) ⬝ᵥ (x - y))
  jac : ∀ y ∈ S, ∀ v, (J y).mulVec v ⬝ᵥ v ≤ nu * (v ⬝ᵥ v)
  quad : ∀ x ∈ S, ∀ y ∈ S, l2 (g y - g x - (J x).mulVec (y - x)) ≤ K / 2 * l2 (y - x) ^ 2

end Pyoptmat.Spec
