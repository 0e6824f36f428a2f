import Verif.Spec.Material

/-!
# Specification: stored energy and dissipation of a material

The second law of thermodynamics at constant temperature (Clausius-Duhem inequality), for one-dimensional materials: part of the plastic work
`s · flow` may be stored in the internal variables, the rest is dissipated.
-/

namespace Pyoptmat.Spec

open Pyoptmat.Material

/-- `ψ` is an energy stored by the internal variables of the flow rule `f` at temperature `T`: it is convex with gradient `dψ`, and for every
state the plastic power `s · flow` covers the rate of storing `dψ · hist` and a dissipation of at least `D`. -/
structure StoredEnergy {n : ℕ} (f : FlowRule n) (ψ : (Fin n → ℝ) → ℝ) (dψ : (Fin n → ℝ) → Fin n → ℝ) (T : ℝ)
    (D : ℝ → (Fin n → ℝ) → ℝ → ℝ → ℝ) : Prop where
  convex : ∀ h h', ψ h' - ψ h ≤ dψ h' ⬝ᵥ (h' - h)
  power : ∀ s h t e, dψ h ⬝ᵥ f.hist s h t T e + D s h t e ≤ s * f.flow s h t T e

/-- `ψ` is an energy stored by a kinematic hardening model: the power of its backstress on the inelastic rate covers the rate of storing. -/
structure KinematicEnergy {n : ℕ} (kin : Hardening n) (ψ : (Fin n → ℝ) → ℝ) (dψ : (Fin n → ℝ) → Fin n → ℝ) (T : ℝ) : Prop where
  convex : ∀ h h', ψ h' - ψ h ≤ dψ h' ⬝ᵥ (h' - h)
  power : ∀ s h t ep e, dψ h ⬝ᵥ kin.rate s h t ep T e ≤ kin.value h * ep

/-- The energy of springs: `∑ x_i² / (2 c_i)`. -/
noncomputable def springEnergy {n : ℕ} (c : Fin n → ℝ) (x : Fin n → ℝ) : ℝ := ∑ i, x i ^ 2 / (2 * c i)

end Pyoptmat.Spec
