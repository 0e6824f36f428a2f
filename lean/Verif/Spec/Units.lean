import Verif.Model.Ode
import Verif.Model.Material
import Verif.Spec.Material

/-!
# Specification of a change of units (C118)

New units: a number that measured a stress is multiplied by `c`; a time `t` becomes `τ * t + o` (another unit and another origin; they may differ
between the tests of a batch); a temperature `T` becomes `T'`. Strains have no unit, so a strain rate `e` becomes `e / τ`.
-/

namespace Pyoptmat.Spec

open Pyoptmat.Chunktime Pyoptmat.Ode Pyoptmat.Material

variable {β : Type*} {m : ℕ}

/-- The time of every test in the new units. -/
def newTime (τ o : β → ℝ) (t : β → ℝ) : β → ℝ := fun b => τ b * t b + o b

/-- `F'` is the right hand side `F` written in the new units, at the rows of times in `S`: on rescaled times and states it returns the rescaled
rates (state per time) and the rescaled Jacobians (one per time). -/
def Rescaled (c : ℝ) (τ o : β → ℝ) (S : Set (β → ℝ)) (F F' : BFunc β m) : Prop :=
  ∀ (n : ℕ) (t : Fin n → β → ℝ) (y : Fin n → BVec β m ℝ), (∀ k, t k ∈ S) →
    (∀ k b, (F' n (fun k => newTime τ o (t k)) (c • y)).1 k b = (c / τ b) • (F n t y).1 k b) ∧
    ∀ k b, (F' n (fun k => newTime τ o (t k)) (c • y)).2 k b = (1 / τ b) • (F n t y).2 k b

/-- `M'` at temperature `T'` is the material model `M` at temperature `T`, written in the new units (every component of the state is a stress). -/
def ModelRescaled (c τ o T T' : ℝ) (M M' : Model m) : Prop :=
  ∀ (t : ℝ) (y : Fin m → ℝ) (e : ℝ),
    (M' (τ * t + o) (c • y) (e / τ) T').ydot = (c / τ) • (M t y e T).ydot ∧
    (M' (τ * t + o) (c • y) (e / τ) T').J = (1 / τ) • (M t y e T).J ∧
    (M' (τ * t + o) (c • y) (e / τ) T').Je = c • (M t y e T).Je

/-- The same for a flow rule, whose internal variables are stresses. -/
structure FlowRescaled (c τ o T T' : ℝ) {n : ℕ} (f f' : FlowRule n) : Prop where
  flow : ∀ s h t e, f'.flow (c * s) (c • h) (τ * t + o) T' (e / τ) = f.flow s h t T e / τ
  dflow_ds : ∀ s h t e, f'.dflow_ds (c * s) (c • h) (τ * t + o) T' (e / τ) = f.dflow_ds s h t T e / (c * τ)
  dflow_dh : ∀ s h t e, f'.dflow_dh (c * s) (c • h) (τ * t + o) T' (e / τ) = (1 / (c * τ)) • f.dflow_dh s h t T e
  dflow_de : ∀ s h t e, f'.dflow_de (c * s) (c • h) (τ * t + o) T' (e / τ) = f.dflow_de s h t T e
  hist : ∀ s h t e, f'.hist (c * s) (c • h) (τ * t + o) T' (e / τ) = (c / τ) • f.hist s h t T e
  dhist_dh : ∀ s h t e, f'.dhist_dh (c * s) (c • h) (τ * t + o) T' (e / τ) = (1 / τ) • f.dhist_dh s h t T e
  dhist_ds : ∀ s h t e, f'.dhist_ds (c * s) (c • h) (τ * t + o) T' (e / τ) = (1 / τ) • f.dhist_ds s h t T e
  dhist_de : ∀ s h t e, f'.dhist_de (c * s) (c • h) (τ * t + o) T' (e / τ) = c • f.dhist_de s h t T e

/-- The same for a hardening model. -/
structure HardeningRescaled (c τ o T T' : ℝ) {n : ℕ} (H H' : Hardening n) : Prop where
  value : ∀ h, H'.value (c • h) = c * H.value h
  dvalue : ∀ h, H'.dvalue (c • h) = H.dvalue h
  rate : ∀ s h t ep e, H'.rate (c * s) (c • h) (τ * t + o) (ep / τ) T' (e / τ) = (c / τ) • H.rate s h t ep T e
  drate_ds : ∀ s h t ep e, H'.drate_ds (c * s) (c • h) (τ * t + o) (ep / τ) T' (e / τ) = (1 / τ) • H.drate_ds s h t ep T e
  drate_dh : ∀ s h t ep e, H'.drate_dh (c * s) (c • h) (τ * t + o) (ep / τ) T' (e / τ) = (1 / τ) • H.drate_dh s h t ep T e
  drate_dep : ∀ s h t ep e, H'.drate_dep (c * s) (c • h) (τ * t + o) (ep / τ) T' (e / τ) = c • H.drate_dep s h t ep T e
  drate_de : ∀ s h t ep e, H'.drate_de (c * s) (c • h) (τ * t + o) (ep / τ) T' (e / τ) = c • H.drate_de s h t ep T e

/-- The same for a damage model, when only times are rescaled (a damage has no unit, so it cannot be multiplied with the stresses). -/
structure DamageRescaled (τ o T T' : ℝ) (D D' : Damage) : Prop where
  rate : ∀ s d t e, D'.rate s d (τ * t + o) T' (e / τ) = D.rate s d t T e / τ
  drate_dd : ∀ s d t e, D'.drate_dd s d (τ * t + o) T' (e / τ) = D.drate_dd s d t T e / τ
  drate_ds : ∀ s d t e, D'.drate_ds s d (τ * t + o) T' (e / τ) = D.drate_ds s d t T e / τ
  drate_de : ∀ s d t e, D'.drate_de s d (τ * t + o) T' (e / τ) = D.drate_de s d t T e

/-- The parameters of the viscoplastic material in the new units; `ψ` converts a new temperature into an old one. -/
noncomputable def VCParams.inUnits {nk : ℕ} (c τ : ℝ) (ψ : ℝ → ℝ) (P : VCParams nk) : VCParams nk where
  E T := c * P.E (ψ T)
  n T := P.n (ψ T)
  eta T := c * τ ^ (1 / P.n (ψ T)) * P.eta (ψ T)
  s0 T := c * P.s0 (ψ T)
  R T := c * P.R (ψ T)
  d T := P.d (ψ T)
  C i T := c * P.C i (ψ T)
  g i T := P.g i (ψ T)
  bb i T := c ^ (1 - P.r i (ψ T)) / τ * P.bb i (ψ T)
  r i T := P.r i (ψ T)

end Pyoptmat.Spec
