import Mathlib.Analysis.SpecialFunctions.Pow.Real
import Mathlib.Data.Real.Sign
import Mathlib.Data.Matrix.Basic
import Mathlib.LinearAlgebra.Matrix.Notation
import Mathlib.Algebra.BigOperators.Fin

/-!
# Model of `pyoptmat/hardening.py` (and of the two scalar helpers of `utility.py` used by the flow rules)

One batch entry ("lane") at a time: every function of the code acts on each batch entry separately, by
elementwise operations on the leading dimensions. Exact real arithmetic. A temperature dependent material
parameter (`pyoptmat.temperature`) is a function `ℝ → ℝ` of the temperature; a vector valued one
(`ChabocheHardeningModel`) is a family of them.

`x ** p` is `Real.rpow`. It agrees with torch for `x > 0` and for `x = 0, p ≥ 0` (in particular `0 ** 0 = 1`);
for `x = 0, p < 0` torch gives `inf` and `rpow` gives `0`: the theorems exclude that case.
-/

namespace Pyoptmat.Material

/-- `torch.sign`. (hardening.py:186, 976; flowrules.py:1097, 1188; utility.py:492) -/
noncomputable def sgn (x : ℝ) : ℝ := Real.sign x

/-- `utility.heaviside` (utility.py:478-492). -/
noncomputable def heaviside (x : ℝ) : ℝ := (sgn x + 1) / 2

/-- `utility.macaulay` (utility.py:495-509). -/
noncomputable def macaulay (x : ℝ) : ℝ := x * heaviside x

/-- `h[..., o : o + n]` of a history vector with `N` rows. (hardening.py:1170, 1215; flowrules.py:936) -/
def slice {N : ℕ} (h : Fin N → ℝ) (o n : ℕ) : Fin n → ℝ :=
  fun j => if hj : o + j.val < N then h ⟨o + j.val, hj⟩ else 0

/-- `res[..., o : o + n] = x`. (hardening.py:1187, 1215; flowrules.py:1009) -/
def writeSlice {N n : ℕ} (res : Fin N → ℝ) (o : ℕ) (x : Fin n → ℝ) : Fin N → ℝ :=
  fun r => if hr : o ≤ r.val ∧ r.val - o < n then x ⟨r.val - o, hr.2⟩ else res r

/-- `res[..., o : o + n, o : o + n] = x`. (hardening.py:1259; flowrules.py:1010) -/
def writeBlock {N n : ℕ} (res : Matrix (Fin N) (Fin N) ℝ) (o : ℕ) (x : Matrix (Fin n) (Fin n) ℝ) :
    Matrix (Fin N) (Fin N) ℝ :=
  fun r c => if hr : (o ≤ r.val ∧ r.val - o < n) ∧ (o ≤ c.val ∧ c.val - o < n) then
    x ⟨r.val - o, hr.1.2⟩ ⟨c.val - o, hr.2.2⟩ else res r c

/-- `self.offsets = [0] + list(np.cumsum(self.nhist_per))[:-1]` (flowrules.py:906, hardening.py:1155):
entry `i` is the sum of the sizes before `i`. -/
def offset {k : ℕ} (nh : Fin k → ℕ) (i : Fin k) : ℕ := ∑ j : Fin i.val, nh ⟨j.val, by omega⟩

/-- The interface of an isotropic or kinematic hardening model with `n` internal variables
(hardening.py:24-61, 447-456). Argument order `s h t ep T e` as in the code. -/
structure Hardening (n : ℕ) where
  /-- `value(h)` -/
  value : (Fin n → ℝ) → ℝ
  /-- `dvalue(h)` -/
  dvalue : (Fin n → ℝ) → Fin n → ℝ
  /-- `history_rate(s, h, t, ep, T, e)` -/
  rate : ℝ → (Fin n → ℝ) → ℝ → ℝ → ℝ → ℝ → Fin n → ℝ
  /-- `dhistory_rate_dstress` -/
  drate_ds : ℝ → (Fin n → ℝ) → ℝ → ℝ → ℝ → ℝ → Fin n → ℝ
  /-- `dhistory_rate_dhistory` -/
  drate_dh : ℝ → (Fin n → ℝ) → ℝ → ℝ → ℝ → ℝ → Matrix (Fin n) (Fin n) ℝ
  /-- `dhistory_rate_derate`: derivative with respect to the inelastic rate, the only column -/
  drate_dep : ℝ → (Fin n → ℝ) → ℝ → ℝ → ℝ → ℝ → Fin n → ℝ
  /-- `dhistory_rate_dtotalrate`; zero in the base class (hardening.py:33-51) -/
  drate_de : ℝ → (Fin n → ℝ) → ℝ → ℝ → ℝ → ℝ → Fin n → ℝ := fun _ _ _ _ _ _ => 0

/-- `VoceIsotropicHardeningModel` (hardening.py:64-186). -/
noncomputable def voce (R d : ℝ → ℝ) : Hardening 1 where
  value h := h 0
  dvalue _ := fun _ => 1
  rate _ h _ ep T _ := fun _ => d T * (R T - h 0) * |ep|
  drate_ds _ _ _ _ _ _ := 0
  drate_dh _ _ _ ep T _ := !![-d T * 1 * |ep|]
  drate_dep _ h _ ep T _ := fun _ => d T * (R T - h 0) * sgn ep

/-- `Theta0VoceIsotropicHardeningModel` (hardening.py:189-318). -/
noncomputable def theta0Voce (tau theta : ℝ → ℝ) : Hardening 1 where
  value h := h 0
  dvalue _ := fun _ => 1
  rate _ h _ ep T _ := fun _ => theta T * (1 - h 0 / tau T) * |ep|
  drate_ds _ _ _ _ _ _ := 0
  drate_dh _ _ _ ep T _ := !![-theta T / tau T * 1 * |ep|]
  drate_dep _ h _ ep T _ := fun _ => theta T * (1 - h 0 / tau T) * sgn ep

/-- `Theta0RecoveryVoceIsotropicHardeningModel` (hardening.py:321-444). -/
noncomputable def theta0Recovery (tau theta R0 r1 r2 : ℝ → ℝ) : Hardening 1 where
  value h := h 0
  dvalue _ := fun _ => 1
  rate _ h _ ep T _ := fun _ =>
    theta T * (1 - h 0 / tau T) * |ep| + r1 T * (R0 T - h 0) * |R0 T - h 0| ^ (r2 T - 1)
  drate_ds _ _ _ _ _ _ := 0
  drate_dh _ h _ ep T _ :=
    !![-theta T / tau T * 1 * |ep| - r2 T * r1 T * |R0 T - h 0| ^ (r2 T - 1)]
  drate_dep _ h _ ep T _ := fun _ => theta T * (1 - h 0 / tau T) * sgn ep

/-- `NoKinematicHardeningModel` (hardening.py:458-554); its `torch.empty` tensors have no entries. -/
noncomputable def noKinematic : Hardening 0 where
  value _ := 0
  dvalue _ := 0
  rate _ _ _ _ _ _ := 0
  drate_ds _ _ _ _ _ _ := 0
  drate_dh _ _ _ _ _ _ := 0
  drate_dep _ _ _ _ _ _ := 0

/-- `FAKinematicHardeningModel` (hardening.py:557-702). The defaults `b = 0`, `r = 1` (hardening.py:586-589)
are `fa C g (fun _ => 0) (fun _ => 1)`. -/
noncomputable def fa (C g b r : ℝ → ℝ) : Hardening 1 where
  value h := h 0
  dvalue _ := fun _ => 1
  rate _ h _ ep T _ := fun _ =>
    C T * 1 * ep - g T * h 0 * |ep| - b T * |h 0| ^ (r T - 1) * h 0
  drate_ds _ _ _ _ _ _ := 0
  drate_dh _ h _ ep T _ := !![-g T * 1 * |ep| - b T * r T * |h 0| ^ (r T - 1)]
  drate_dep _ h _ ep T _ := fun _ => C T - g T * h 0 * sgn ep

/-- `FAKinematicHardeningModelNoRecovery` (hardening.py:705-834). -/
noncomputable def faNoRecovery (C g : ℝ → ℝ) : Hardening 1 where
  value h := h 0
  dvalue _ := fun _ => 1
  rate _ h _ ep T _ := fun _ => C T * 1 * ep - g T * h 0 * |ep|
  drate_ds _ _ _ _ _ _ := 0
  drate_dh _ _ _ ep T _ := !![-g T * 1 * |ep|]
  drate_dep _ h _ ep T _ := fun _ => C T - g T * h 0 * sgn ep

/-- `ChabocheHardeningModel` (hardening.py:837-978) with `nback` backstresses. -/
noncomputable def chaboche {nback : ℕ} (C g : Fin nback → ℝ → ℝ) : Hardening nback where
  value h := ∑ i, h i
  dvalue _ := fun _ => 1
  rate _ h _ ep T _ := fun i => C i T * ep - g i T * h i * |ep|
  drate_ds _ _ _ _ _ _ := 0
  drate_dh _ _ _ ep T _ := Matrix.diagonal fun i => -g i T * |ep|
  drate_dep _ h _ ep T _ := fun i => C i T * 1 - g i T * h i * sgn ep

/-- `ChabocheHardeningModelRecovery` (hardening.py:981-1137). -/
noncomputable def chabocheRecovery {nback : ℕ} (C g b r : Fin nback → ℝ → ℝ) : Hardening nback where
  value h := ∑ i, h i
  dvalue _ := fun _ => 1
  rate _ h _ ep T _ := fun i => C i T * ep - g i T * h i * |ep| - b i T * |h i| ^ (r i T - 1) * h i
  drate_ds _ _ _ _ _ _ := 0
  drate_dh _ h _ ep T _ := Matrix.diagonal (fun i => -g i T * |ep|) +
    Matrix.diagonal (fun i => -b i T * r i T * |h i| ^ (r i T - 1))
  drate_dep _ h _ ep T _ := fun i => C i T * 1 - g i T * h i * sgn ep

/-- `SuperimposedKinematicHardening` (hardening.py:1140-1311): every method is a loop over
`zip(offsets, nhist_per, models)` that adds to, or writes a slice of, a tensor of zeros. -/
noncomputable def superimposedKinematic {k : ℕ} (nh : Fin k → ℕ) (models : (i : Fin k) → Hardening (nh i)) :
    Hardening (∑ i, nh i) where
  value h := (List.finRange k).foldl
    (fun v i => v + (models i).value (slice h (offset nh i) (nh i))) 0
  dvalue h := (List.finRange k).foldl
    (fun v i => writeSlice v (offset nh i) ((models i).dvalue (slice h (offset nh i) (nh i)))) 0
  rate s h t ep T e := (List.finRange k).foldl
    (fun v i => writeSlice v (offset nh i) ((models i).rate s (slice h (offset nh i) (nh i)) t ep T e)) 0
  drate_ds s h t ep T e := (List.finRange k).foldl
    (fun v i => writeSlice v (offset nh i) ((models i).drate_ds s (slice h (offset nh i) (nh i)) t ep T e)) 0
  drate_dh s h t ep T e := (List.finRange k).foldl
    (fun v i => writeBlock v (offset nh i) ((models i).drate_dh s (slice h (offset nh i) (nh i)) t ep T e)) 0
  drate_dep s h t ep T e := (List.finRange k).foldl
    (fun v i => writeSlice v (offset nh i) ((models i).drate_dep s (slice h (offset nh i) (nh i)) t ep T e)) 0
  drate_de s h t ep T e := (List.finRange k).foldl
    (fun v i => writeSlice v (offset nh i) ((models i).drate_de s (slice h (offset nh i) (nh i)) t ep T e)) 0

end Pyoptmat.Material
