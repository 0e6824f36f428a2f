import Mathlib.Analysis.Real.Sqrt
import Mathlib.Algebra.BigOperators.Fin
import Mathlib.Analysis.Calculus.FDeriv.Basic
import Mathlib.Analysis.Normed.Module.FiniteDimension
import Mathlib.LinearAlgebra.Matrix.ToLin

/-!
# Specification of the time integration (independent of the model)

`rate b t y` is the right hand side of the ODE of batch entry `b`; `y k b` is the state at time number `k`.
-/

namespace Pyoptmat.Spec

variable {β : Type*} {m : ℕ}

/-- `y_{k+1} = y_k + (t_{k+1} - t_k) f(t_{k+1}, y_{k+1})` for all `nt` times. -/
def IsBackwardEuler (rate : β → ℝ → (Fin m → ℝ) → Fin m → ℝ) (nt : ℕ) (t : ℕ → β → ℝ)
    (y : ℕ → β → Fin m → ℝ) : Prop :=
  ∀ k b, k + 1 < nt →
    y (k + 1) b = y k b + (t (k + 1) b - t k b) • rate b (t (k + 1) b) (y (k + 1) b)

/-- `y_{k+1} = y_k + (t_{k+1} - t_k) f(t_k, y_k)` for all `nt` times. -/
def IsForwardEuler (rate : β → ℝ → (Fin m → ℝ) → Fin m → ℝ) (nt : ℕ) (t : ℕ → β → ℝ)
    (y : ℕ → β → Fin m → ℝ) : Prop :=
  ∀ k b, k + 1 < nt →
    y (k + 1) b = y k b + (t (k + 1) b - t k b) • rate b (t k b) (y k b)

/-- By how much step `k → k+1` misses the backward Euler formula. -/
def backwardDefect (rate : β → ℝ → (Fin m → ℝ) → Fin m → ℝ) (t : ℕ → β → ℝ)
    (y : ℕ → β → Fin m → ℝ) (k : ℕ) (b : β) : Fin m → ℝ :=
  y (k + 1) b - y k b - (t (k + 1) b - t k b) • rate b (t (k + 1) b) (y (k + 1) b)

/-- By how much step `k → k+1` misses the forward Euler formula. -/
def forwardDefect (rate : β → ℝ → (Fin m → ℝ) → Fin m → ℝ) (t : ℕ → β → ℝ)
    (y : ℕ → β → Fin m → ℝ) (k : ℕ) (b : β) : Fin m → ℝ :=
  y (k + 1) b - y k b - (t (k + 1) b - t k b) • rate b (t k b) (y k b)

/-- Euclidean norm of `len` consecutive rows of vectors, `d j` for `j < len`. -/
noncomputable def rowsNorm (len : ℕ) (d : ℕ → Fin m → ℝ) : ℝ :=
  Real.sqrt (∑ j ∈ Finset.range len, ∑ i, d j i ^ 2)

/-- The continuous linear map of a real matrix. -/
noncomputable def matCLM {n k : ℕ} (M : Matrix (Fin n) (Fin k) ℝ) : (Fin k → ℝ) →L[ℝ] (Fin n → ℝ) :=
  LinearMap.toContinuousLinearMap M.mulVecLin

/-- The linear functional "dot product with `v`". -/
noncomputable def dotCLM {n : ℕ} (v : Fin n → ℝ) : (Fin n → ℝ) →L[ℝ] ℝ :=
  ∑ i, v i • ContinuousLinearMap.proj (R := ℝ) (φ := fun _ : Fin n => ℝ) i

end Pyoptmat.Spec
