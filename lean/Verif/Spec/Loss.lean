import Verif.Spec.Experiments
import Verif.Props.InexactGrad
import Verif.Props.Experiments

/-! # Specification of losses and their gradients (C127) -/

namespace Pyoptmat.Spec

open Pyoptmat.Experiments Pyoptmat.Ode Pyoptmat.Props Filter Topology

variable {β : Type*} [Fintype β] {m p : ℕ}

/-- `g` is the gradient of `loss` at the recorded states `Y`: the derivative in the direction `d` is `∑ ⟨g, d⟩`. This is what autograd hands to the integrator. -/
def OutputGradient (nt : ℕ) (loss : (Fin nt → β → Fin m → ℝ) → ℝ) (Y g : ℕ → β → Fin m → ℝ) : Prop :=
  ∃ D : (Fin nt → β → Fin m → ℝ) →L[ℝ] ℝ, HasFDerivAt loss D (fun k => Y k) ∧ ∀ d, D d = ∑ k : Fin nt, ∑ b, g k b ⬝ᵥ d k b

/-- `grad`, `lam` are the exact gradient of `loss (y q x)` with respect to parameters `q` and initial states `x`, where `y q x` are the states of the scheme `Scheme q` that depend continuously on `q` and `x` and are `Y` at `(p0, Y 0)`. -/
def IsLossGradient (Solves : (Fin p → ℝ) → (ℕ → β → Fin m → ℝ) → Prop) (nt : ℕ) (Y : ℕ → β → Fin m → ℝ) (p0 : Fin p → ℝ) (loss : (Fin nt → β → Fin m → ℝ) → ℝ)
    (grad : Fin p → ℝ) (lam : β → Fin m → ℝ) : Prop :=
  ∃ y : (Fin p → ℝ) → (β → Fin m → ℝ) → ℕ → β → Fin m → ℝ,
    y p0 (Y 0) = Y ∧ (∀ q x, y q x 0 = x) ∧
    (∀ᶠ v in 𝓝 (p0, Y 0), Solves v.1 (y v.1 v.2)) ∧
    (∀ y' : (Fin p → ℝ) → (β → Fin m → ℝ) → ℕ → β → Fin m → ℝ,
      (∀ᶠ v in 𝓝 (p0, Y 0), Solves v.1 (y' v.1 v.2)) →
      (∀ᶠ v in 𝓝 (p0, Y 0), y' v.1 v.2 0 = v.2) → (∀ k < nt, y' p0 (Y 0) k = Y k) →
      (∀ k < nt, ∀ b, ContinuousAt (fun v : (Fin p → ℝ) × (β → Fin m → ℝ) => y' v.1 v.2 k b) (p0, Y 0)) →
      ∀ᶠ v in 𝓝 (p0, Y 0), ∀ k < nt, y' v.1 v.2 k = y v.1 v.2 k) ∧
    ∃ D : (Fin p → ℝ) × (β → Fin m → ℝ) →L[ℝ] ℝ,
      HasFDerivAt (fun v : (Fin p → ℝ) × (β → Fin m → ℝ) => loss fun k => y v.1 v.2 k) D (p0, Y 0) ∧ ∀ dq dx, D (dq, dx) = grad ⬝ᵥ dq + ∑ b, lam b ⬝ᵥ dx b

/-- What `convert_results` makes of the raw results (zero if it raises). -/
noncomputable def converted (nt nb : ℕ) (garbage : ℕ → ℕ → ℝ) (cycles : ℕ → ℕ → ℤ) (types : ℕ → ℤ) (R : Fin nt → Fin nb → ℝ) : Fin nt → Fin nb → ℝ := fun t b =>
  match convertResults nt nb garbage (fun t b => if h : t < nt ∧ b < nb then R ⟨t, h.1⟩ ⟨b, h.2⟩ else 0) cycles types with
  | .ok out => out t b
  | .error _ => 0

/-- Only one of the rows with property `p` has the largest value. -/
def UniqueMax (n : ℕ) (p : Fin n → Prop) (col : Fin n → ℝ) : Prop :=
  ∀ s s', p s → p s' → (∀ r, p r → col r ≤ col s) → (∀ r, p r → col r ≤ col s') → s = s'

/-- No ties where `convert_results` takes a maximum: within each cycle of each cyclic test (by the labels that are used for it), and over the whole history of each abstract tensile test for which the ultimate strength is asked. -/
def NoTies (nt nb : ℕ) (cycles : ℕ → ℕ → ℤ) (types : ℕ → ℤ) (R : Fin nt → Fin nb → ℝ) : Prop :=
  ∀ b : Fin nb, (types b = 2 ∨ types b = 4 → ∀ l, Leader nb types (types b) l → ∀ i : ℤ, 0 ≤ i → i ≤ cycles (nt - 1) l → UniqueMax nt (fun s => cycles s l = i) fun s => R s b) ∧
    (types b = 5 → (∃ s < nt, cycles s b = 2) → UniqueMax nt (fun _ => True) fun s => R s b)

end Pyoptmat.Spec
