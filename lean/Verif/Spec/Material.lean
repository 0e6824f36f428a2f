import Verif.Spec.Ode
import Verif.Model.Material
import Mathlib.Analysis.Calculus.FDeriv.Prod
import Mathlib.Analysis.Calculus.ContDiff.Defs

/-!
# Specification: "the derivatives this object reports are exact"

Stated with Mathlib's Fréchet derivative. A point is `(s, h, e)` (stress, internal variables, total strain rate); time
and temperature are fixed parameters.
-/

namespace Pyoptmat.Spec

open Pyoptmat.Material Topology

/-- The linear functional `(ds, dh, de) ↦ a ds + v·dh + c de`. -/
noncomputable def row3 {n : ℕ} (a : ℝ) (v : Fin n → ℝ) (c : ℝ) : ℝ × (Fin n → ℝ) × ℝ →L[ℝ] ℝ :=
  a • ContinuousLinearMap.fst ℝ ℝ ((Fin n → ℝ) × ℝ) +
    (dotCLM v).comp ((ContinuousLinearMap.fst ℝ (Fin n → ℝ) ℝ).comp
      (ContinuousLinearMap.snd ℝ ℝ ((Fin n → ℝ) × ℝ))) +
    c • (ContinuousLinearMap.snd ℝ (Fin n → ℝ) ℝ).comp (ContinuousLinearMap.snd ℝ ℝ ((Fin n → ℝ) × ℝ))

/-- The linear functional `(ds, dh, de, dep) ↦ a ds + v·dh + c de + b dep`. -/
noncomputable def row4 {n : ℕ} (a : ℝ) (v : Fin n → ℝ) (c b : ℝ) : (ℝ × (Fin n → ℝ) × ℝ) × ℝ →L[ℝ] ℝ :=
  (row3 a v c).coprod (b • ContinuousLinearMap.id ℝ ℝ)

/-- All six derivatives reported by a flow rule at a point are the derivatives of the two rates it returns. -/
structure FlowExact {n : ℕ} (f : FlowRule n) (s : ℝ) (h : Fin n → ℝ) (t T e : ℝ) : Prop where
  flow : HasFDerivAt (fun x : ℝ × (Fin n → ℝ) × ℝ => f.flow x.1 x.2.1 t T x.2.2)
    (row3 (f.dflow_ds s h t T e) (f.dflow_dh s h t T e) (f.dflow_de s h t T e)) (s, h, e)
  hist : ∀ i, HasFDerivAt (fun x : ℝ × (Fin n → ℝ) × ℝ => f.hist x.1 x.2.1 t T x.2.2 i)
    (row3 (f.dhist_ds s h t T e i) (f.dhist_dh s h t T e i) (f.dhist_de s h t T e i)) (s, h, e)

/-- The derivatives reported by a hardening model are exact at a point. The rates contain `|ep|`, which has no
derivative at `ep = 0`; there we ask that the derivatives with respect to everything else are exact and that the
rate changes at most proportionally to `|ep|`. -/
structure HardeningExact {n : ℕ} (m : Hardening n) (s : ℝ) (h : Fin n → ℝ) (t ep T e : ℝ) : Prop where
  value : HasFDerivAt m.value (dotCLM (m.dvalue h)) h
  rate : ep ≠ 0 → ∀ i, HasFDerivAt
    (fun x : (ℝ × (Fin n → ℝ) × ℝ) × ℝ => m.rate x.1.1 x.1.2.1 t x.2 T x.1.2.2 i)
    (row4 (m.drate_ds s h t ep T e i) (m.drate_dh s h t ep T e i) (m.drate_de s h t ep T e i)
      (m.drate_dep s h t ep T e i)) ((s, h, e), ep)
  rate_zero : ep = 0 → ∀ i,
    HasFDerivAt (fun x : ℝ × (Fin n → ℝ) × ℝ => m.rate x.1 x.2.1 t 0 T x.2.2 i)
      (row3 (m.drate_ds s h t 0 T e i) (m.drate_dh s h t 0 T e i) (m.drate_de s h t 0 T e i)) (s, h, e) ∧
    (fun x : (ℝ × (Fin n → ℝ) × ℝ) × ℝ =>
      m.rate x.1.1 x.1.2.1 t x.2 T x.1.2.2 i - m.rate x.1.1 x.1.2.1 t 0 T x.1.2.2 i)
      =O[𝓝 ((s, h, e), 0)] fun x => x.2

/-- The three derivatives reported by a damage model are exact (point `(s, d, e)`). -/
def DamageExact (dm : Damage) (s d t T e : ℝ) : Prop :=
  HasFDerivAt (fun x : ℝ × ℝ × ℝ => dm.rate x.1 x.2.1 t T x.2.2)
    (dm.drate_ds s d t T e • ContinuousLinearMap.fst ℝ ℝ (ℝ × ℝ) +
      dm.drate_dd s d t T e • (ContinuousLinearMap.fst ℝ ℝ ℝ).comp (ContinuousLinearMap.snd ℝ ℝ (ℝ × ℝ)) +
      dm.drate_de s d t T e • (ContinuousLinearMap.snd ℝ ℝ ℝ).comp (ContinuousLinearMap.snd ℝ ℝ (ℝ × ℝ))) (s, d, e)

/-- The state Jacobian and the strain rate derivative reported by a material model are exact. -/
def ModelExact {m : ℕ} (M : Model m) (t : ℝ) (y : Fin m → ℝ) (e T : ℝ) : Prop :=
  HasFDerivAt (fun x : (Fin m → ℝ) × ℝ => (M t x.1 x.2 T).ydot)
    ((matCLM (M t y e T).J).coprod ((ContinuousLinearMap.id ℝ ℝ).smulRight (M t y e T).Je)) (y, e)

/-- Physically meaningful parameters of a model with power law flow, Voce and Chaboche hardening, at temperature `T`: everything is non-negative,
viscosity and rate sensitivity are positive. -/
structure VCAdmissible {nk : ℕ} (E n eta s0 R d : ℝ → ℝ) (C g : Fin nk → ℝ → ℝ) (T : ℝ) : Prop where
  E : 0 ≤ E T
  n : 0 < n T
  eta : 0 < eta T
  s0 : 0 ≤ s0 T
  R : 0 ≤ R T
  d : 0 ≤ d T
  C : ∀ i, 0 ≤ C i T
  g : ∀ i, 0 ≤ g i T

/-- The admissible states of an isothermal test: isotropic strength in `[0, R]`, backstresses in `[-C_i/g_i, C_i/g_i]`. -/
def VCState {nk : ℕ} (R : ℝ → ℝ) (C g : Fin nk → ℝ → ℝ) (T : ℝ) (y : Fin (1 + nk + 1) → ℝ) : Prop :=
  (0 ≤ y 1 ∧ y 1 ≤ R T) ∧ ∀ i : Fin nk, |y (Fin.natAdd 1 i).succ| * g i T ≤ C i T

/-- The mirror image of a state `[stress, isotropic strength, backstresses]`: stress and backstresses change sign. -/
def mirror {nk : ℕ} (y : Fin (1 + nk + 1) → ℝ) : Fin (1 + nk + 1) → ℝ := fun j => if j = 1 then y j else -y j

/-- The temperature dependent parameters of a material with power law flow, Voce hardening and `nk` Chaboche backstresses with static recovery. -/
structure VCParams (nk : ℕ) where
  E : ℝ → ℝ
  n : ℝ → ℝ
  eta : ℝ → ℝ
  s0 : ℝ → ℝ
  R : ℝ → ℝ
  d : ℝ → ℝ
  C : Fin nk → ℝ → ℝ
  g : Fin nk → ℝ → ℝ
  bb : Fin nk → ℝ → ℝ
  r : Fin nk → ℝ → ℝ

namespace VCParams
variable {nk : ℕ}

/-- Its flow rule -/
noncomputable def flowRule (P : VCParams nk) : FlowRule (1 + nk) := isoKin P.n P.eta P.s0 (voce P.R P.d) (chabocheRecovery P.C P.g P.bb P.r)

/-- and material model. -/
noncomputable def model (P : VCParams nk) : Model (1 + nk + 1) := inelastic P.E P.flowRule

/-- Meaningful values, at temperature `T`, for which the rates are smooth: non-negative, exponents above one, positive viscosity and threshold. -/
structure Smooth (P : VCParams nk) (T : ℝ) : Prop where
  adm : VCAdmissible P.E P.n P.eta P.s0 P.R P.d P.C P.g T
  n : 1 < P.n T
  s0 : 0 < P.s0 T
  bb : ∀ i, 0 ≤ P.bb i T
  r : ∀ i, 1 < P.r i T

/-- The values at temperature `T` depend continuously differentiably on a parameter `x` (e.g. they are constants, or given by any of the smooth scalings). -/
structure DiffAt {X : Type*} [NormedAddCommGroup X] [NormedSpace ℝ X] (P : X → VCParams nk) (x : X) (T : ℝ) : Prop where
  E : ContDiffAt ℝ 1 (fun x => (P x).E T) x
  n : ContDiffAt ℝ 1 (fun x => (P x).n T) x
  eta : ContDiffAt ℝ 1 (fun x => (P x).eta T) x
  s0 : ContDiffAt ℝ 1 (fun x => (P x).s0 T) x
  R : ContDiffAt ℝ 1 (fun x => (P x).R T) x
  d : ContDiffAt ℝ 1 (fun x => (P x).d T) x
  C : ∀ i, ContDiffAt ℝ 1 (fun x => (P x).C i T) x
  g : ∀ i, ContDiffAt ℝ 1 (fun x => (P x).g i T) x
  bb : ∀ i, ContDiffAt ℝ 1 (fun x => (P x).bb i T) x
  r : ∀ i, ContDiffAt ℝ 1 (fun x => (P x).r i T) x

end VCParams

end Pyoptmat.Spec
