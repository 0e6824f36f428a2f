import Verif.Model.Examples
import Mathlib.Analysis.Calculus.FDeriv.Basic
import Mathlib.Topology.Algebra.Module.FiniteDimension

/-!
# Specification of the example systems
-/

namespace Pyoptmat.Spec

open Pyoptmat.Ode

variable {β : Type*} {m : ℕ}

/-- The Jacobian a right hand side reports is its derivative with respect to the state, everywhere. -/
def ReportsJacobian (f : Func β m) : Prop :=
  ∀ b t y, HasFDerivAt (fun y => (f b t y).1) (LinearMap.toContinuousLinearMap (Matrix.toLin' (f b t y).2)) y

/-- Elongation of the element `i` of a chain: displacement of the mass behind it (the ground, which does not move, for the last) minus that of the mass before it. -/
def stretch {N : ℕ} (u : Fin N → ℝ) (i : Fin N) : ℝ := (if h : i.val + 1 < N then u ⟨i.val + 1, h⟩ else 0) - u i

/-- Mechanical energy of a chain of masses `M` and springs `K` with the displacements `u` and velocities `v`. -/
noncomputable def energy {N : ℕ} (K M u v : Fin N → ℝ) : ℝ := ∑ i, M i * v i ^ 2 / 2 + ∑ i, K i * stretch u i ^ 2 / 2

end Pyoptmat.Spec
