import Verif.Model.Ode
import Verif.Model.Material

/-!
# Specification of a change of state coordinates, test by test (C124)

`U b` is an orthogonal matrix for test `b` of the batch: for instance the change of sign of the stress and of the backstresses of the tests in some
subset of the batch (tension and compression), or a renumbering of the backstresses.
-/

namespace Pyoptmat.Spec

open Pyoptmat.Chunktime Pyoptmat.Ode Pyoptmat.Material

/-- Every `U b` is orthogonal. -/
def Orthogonal {β : Type*} {m : ℕ} (U : β → Matrix (Fin m) (Fin m) ℝ) : Prop :=
  ∀ b, U b * (U b).transpose = 1 ∧ (U b).transpose * U b = 1

/-- `F'` is the right hand side `F` in the new coordinates: for states `U y` it returns the rates `U (F y)` and the Jacobians `U J Uᵀ`. -/
def SameInCoordinates {β : Type*} {m : ℕ} (U : β → Matrix (Fin m) (Fin m) ℝ) (F F' : BFunc β m) : Prop :=
  ∀ (n : ℕ) (t : Fin n → β → ℝ) (y : Fin n → BVec β m ℝ),
    F' n t (fun k b => (U b).mulVec (y k b)) =
      (fun k b => (U b).mulVec ((F n t y).1 k b), fun k b => U b * (F n t y).2 k b * (U b).transpose)

/-- A renumbering of the components of a state together with changes of sign: component `i` of the new state is `sign i` times component
`perm i` of the old one. -/
structure Relabel (m : ℕ) where
  sign : Fin m → ℝ
  perm : Equiv.Perm (Fin m)
  unit : ∀ i, sign i = 1 ∨ sign i = -1

/-- The new state, rate or derivative of the rate. -/
def Relabel.state {m : ℕ} (r : Relabel m) (y : Fin m → ℝ) : Fin m → ℝ := fun i => r.sign i * y (r.perm i)

/-- The new Jacobian. -/
def Relabel.jac {m : ℕ} (r : Relabel m) (J : Matrix (Fin m) (Fin m) ℝ) : Matrix (Fin m) (Fin m) ℝ := fun i j =>
  r.sign i * r.sign j * J (r.perm i) (r.perm j)

/-- `M'` is the material model `M` after relabelling. The first component of the state is the stress; the sign of the strain rate changes with it. -/
def SameModel {m : ℕ} (r : Relabel (m + 1)) (M M' : Model (m + 1)) : Prop := ∀ (t : ℝ) (y : Fin (m + 1) → ℝ) (e T : ℝ),
  (M' t (r.state y) (r.sign 0 * e) T).ydot = r.state (M t y e T).ydot ∧
  (M' t (r.state y) (r.sign 0 * e) T).J = r.jac (M t y e T).J ∧
  (M' t (r.state y) (r.sign 0 * e) T).Je = r.state (fun i => r.sign 0 * (M t y e T).Je i)

/-! ## Tension and compression

`p` collects the signs of the internal variables: `1` for one that stays (an isotropic strength, a damage), `-1` for one that changes sign (a
backstress). -/

/-- Under the opposite stress and strain rates and with internal variables `p * h`, the hardening model contributes `v` times the value, and its
internal variables have the rates `p * rate`; with the derivatives that follow from this. -/
structure HardeningMirrors {n : ℕ} (v : ℝ) (p : Fin n → ℝ) (H : Hardening n) : Prop where
  value : ∀ h, H.value (p * h) = v * H.value h
  dvalue : ∀ h i, H.dvalue (p * h) i = v * p i * H.dvalue h i
  rate : ∀ s h t ep T e, H.rate (-s) (p * h) t (-ep) T (-e) = p * H.rate s h t ep T e
  drate_ds : ∀ s h t ep T e, H.drate_ds (-s) (p * h) t (-ep) T (-e) = -p * H.drate_ds s h t ep T e
  drate_dh : ∀ s h t ep T e i j, H.drate_dh (-s) (p * h) t (-ep) T (-e) i j = p i * p j * H.drate_dh s h t ep T e i j
  drate_dep : ∀ s h t ep T e, H.drate_dep (-s) (p * h) t (-ep) T (-e) = -p * H.drate_dep s h t ep T e
  drate_de : ∀ s h t ep T e, H.drate_de (-s) (p * h) t (-ep) T (-e) = -p * H.drate_de s h t ep T e

/-- The same for a flow rule: the opposite inelastic rate. -/
structure FlowMirrors {n : ℕ} (p : Fin n → ℝ) (f : FlowRule n) : Prop where
  flow : ∀ s h t T e, f.flow (-s) (p * h) t T (-e) = -f.flow s h t T e
  dflow_ds : ∀ s h t T e, f.dflow_ds (-s) (p * h) t T (-e) = f.dflow_ds s h t T e
  dflow_dh : ∀ s h t T e, f.dflow_dh (-s) (p * h) t T (-e) = -p * f.dflow_dh s h t T e
  dflow_de : ∀ s h t T e, f.dflow_de (-s) (p * h) t T (-e) = f.dflow_de s h t T e
  hist : ∀ s h t T e, f.hist (-s) (p * h) t T (-e) = p * f.hist s h t T e
  dhist_dh : ∀ s h t T e i j, f.dhist_dh (-s) (p * h) t T (-e) i j = p i * p j * f.dhist_dh s h t T e i j
  dhist_ds : ∀ s h t T e, f.dhist_ds (-s) (p * h) t T (-e) = -p * f.dhist_ds s h t T e
  dhist_de : ∀ s h t T e, f.dhist_de (-s) (p * h) t T (-e) = -p * f.dhist_de s h t T e

/-- The same for a damage model: the same damage rate. -/
structure DamageMirrors (D : Damage) : Prop where
  rate : ∀ s d t T e, D.rate (-s) d t T (-e) = D.rate s d t T e
  drate_dd : ∀ s d t T e, D.drate_dd (-s) d t T (-e) = D.drate_dd s d t T e
  drate_ds : ∀ s d t T e, D.drate_ds (-s) d t T (-e) = -D.drate_ds s d t T e
  drate_de : ∀ s d t T e, D.drate_de (-s) d t T (-e) = -D.drate_de s d t T e

/-- The same for a material model, the signs `p` now including the one of the stress. -/
structure ModelMirrors {m : ℕ} (p : Fin m → ℝ) (M : Model m) : Prop where
  ydot : ∀ t y e T, (M t (p * y) (-e) T).ydot = p * (M t y e T).ydot
  J : ∀ t y e T i j, (M t (p * y) (-e) T).J i j = p i * p j * (M t y e T).J i j
  Je : ∀ t y e T, (M t (p * y) (-e) T).Je = -p * (M t y e T).Je

/-- Signs of the components of a state, the first one (the stress) changing. -/
structure MirrorSigns {m : ℕ} (p : Fin (m + 1) → ℝ) : Prop where
  stress : p 0 = -1
  unit : ∀ i, p i = 1 ∨ p i = -1

open Classical in
/-- The tests in `S` with the opposite prescribed strains or stresses. -/
noncomputable def flipped {β : Type*} (S : Set β) (data : ℕ → β → ℝ) : ℕ → β → ℝ := fun k b => if b ∈ S then -data k b else data k b

open Classical in
/-- The results with the tests in `S` mirrored. -/
noncomputable def mirrored {β : Type*} {m : ℕ} (S : Set β) (p : β → Fin m → ℝ) (r : Partial β m × Bool) : Partial β m × Bool :=
  (fun k => (r.1 k).map fun y b => if b ∈ S then p b * y b else y b, r.2)

end Pyoptmat.Spec
