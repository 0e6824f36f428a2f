import Verif.Spec.Mirror
import Verif.Spec.Material

/-!
# Specification of a renumbering of internal variables (C125)

Internal variable `i` of the new material is internal variable `π i` of the old one.
-/

namespace Pyoptmat.Spec

open Pyoptmat.Material

/-- `H'` is the hardening model `H` with its internal variables renumbered. -/
structure HardeningRenumbered {n : ℕ} (π : Equiv.Perm (Fin n)) (H H' : Hardening n) : Prop where
  value : ∀ h : Fin n → ℝ, H'.value (h ∘ π) = H.value h
  dvalue : ∀ h : Fin n → ℝ, H'.dvalue (h ∘ π) = H.dvalue h ∘ π
  rate : ∀ s h t ep T e, H'.rate s (h ∘ π) t ep T e = H.rate s h t ep T e ∘ π
  drate_ds : ∀ s h t ep T e, H'.drate_ds s (h ∘ π) t ep T e = H.drate_ds s h t ep T e ∘ π
  drate_dh : ∀ s h t ep T e i j, H'.drate_dh s (h ∘ π) t ep T e i j = H.drate_dh s h t ep T e (π i) (π j)
  drate_dep : ∀ s h t ep T e, H'.drate_dep s (h ∘ π) t ep T e = H.drate_dep s h t ep T e ∘ π
  drate_de : ∀ s h t ep T e, H'.drate_de s (h ∘ π) t ep T e = H.drate_de s h t ep T e ∘ π

/-- The material with its backstresses (and their parameters) renumbered. -/
def VCParams.renumber {nk : ℕ} (π : Equiv.Perm (Fin nk)) (P : VCParams nk) : VCParams nk :=
  { P with C := fun i => P.C (π i), g := fun i => P.g (π i), bb := fun i => P.bb (π i), r := fun i => P.r (π i) }

/-- A state `[stress or strain, isotropic strength, backstresses]` with the backstresses renumbered. -/
def renumbered {nk : ℕ} (π : Equiv.Perm (Fin nk)) (y : Fin (1 + nk + 1) → ℝ) : Fin (1 + nk + 1) → ℝ :=
  Fin.cons (y 0) (Fin.append (fun _ : Fin 1 => y 1) fun i => y (Fin.natAdd 1 (π i)).succ)

end Pyoptmat.Spec
