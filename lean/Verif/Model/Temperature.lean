import Verif.Model.Interp
import Mathlib.Analysis.SpecialFunctions.Exp
import Mathlib.Analysis.SpecialFunctions.Pow.Real

/-!
# Model of `pyoptmat/temperature.py`

One batch entry, unless said otherwise. Parameters and their scale functions are explicit arguments; a temperature parameter used by another one (`mu`)
is a function of the temperature. Exact arithmetic.
-/

namespace Pyoptmat.Temperature

/-- `TemperatureParameter.forward` (temperature.py:63-70). -/
def forward (scaling : ℝ → ℝ) (value : ℝ → ℝ) (T : ℝ) : ℝ := scaling (value T)

/-- `torch.clip` (temperature.py:359): the upper bound wins when the bounds are in the wrong order. -/
noncomputable def clip (x lo hi : ℝ) : ℝ := min (max x lo) hi

/-- `ConstantParameter.value` (temperature.py:97-107). -/
def constantValue (pScale : ℝ → ℝ) (pvalue : ℝ) (_T : ℝ) : ℝ := pScale pvalue

/-- `ShearModulusScaling.value` (temperature.py:149-159). -/
def shearValue (AScale : ℝ → ℝ) (A : ℝ) (mu : ℝ → ℝ) (T : ℝ) : ℝ := AScale A * mu T

/-- `ShearModulusScalingExp.value` (temperature.py:201-211). -/
noncomputable def shearExpValue (AScale : ℝ → ℝ) (A : ℝ) (mu : ℝ → ℝ) (T : ℝ) : ℝ := Real.exp (AScale A) * mu T

/-- `MTSScaling.value` (temperature.py:286-300), with the parameters after their scale functions. -/
noncomputable def mtsValue (tau0 g0 q p k b : ℝ) (mu : ℝ → ℝ) (T : ℝ) : ℝ :=
  tau0 * (1 - (k * T / (mu T * b ^ (3 : ℝ) * g0)) ^ (1 / q)) ^ (1 / p)

/-- `KMRateSensitivityScaling.value` (temperature.py:349-363), `A` after its scale function. The default `cutoff` is 20 (line 332). -/
noncomputable def kmRateValue (A : ℝ) (mu : ℝ → ℝ) (b k cutoff : ℝ) (T : ℝ) : ℝ :=
  clip (-mu T * b ^ (3 : ℝ) / (k * T * A)) 1 cutoff

/-- `KMViscosityScaling.value` (temperature.py:427-429, 438-449), `A` and `B` after their scale functions. The `cutoff` of the rate
sensitivity it builds for itself is 1000 (line 428). -/
noncomputable def kmViscosityValue (A B : ℝ) (mu : ℝ → ℝ) (eps0 b k : ℝ) (T : ℝ) : ℝ :=
  let n := forward (fun x => x) (kmRateValue A mu b k 1000) T
  Real.exp B * mu T * eps0 ^ (-1 / n)

/-- `PolynomialScaling.value` (temperature.py:484-501): `acoefs[0]` fails on an empty list. -/
def polynomialValue (scaleFn : List ℝ → List ℝ) (coefs : List ℝ) (T : ℝ) : Except String ℝ :=
  match scaleFn coefs with
  | [] => .error "index 0 is out of bounds"
  | c0 :: rest => .ok (rest.foldl (fun res c => res * T + c) (0 + c0))

/-- `PiecewiseScaling.value` (temperature.py:540-572) for `n + 1` control points and `q` temperatures in row major order: `vcurr j k` is the
scaled value at control point `j` in the row that goes with temperature `k` (the same for all `k` unless `values` is batched). Lines
552-560 are `Interp.poss`, lines 562-570 `Interp.loc`, and `poss[locs.movedim(0, -1)]` lists, temperature by temperature, the selected
entries; `reshape` (line 572) fails unless there are `q` of them. -/
noncomputable def piecewiseValue (n q : ℕ) (control : ℕ → ℝ) (vcurr : ℕ → ℕ → ℝ) (T : ℕ → ℝ) : Except String (ℕ → ℝ) :=
  let l := (List.range q).flatMap fun k => Interp.hits n control (fun j => vcurr j k) (T k)
  if l.length = q then .ok fun k => l.getD k 0
  else .error "shape is invalid for input"

/-- `ArrheniusScaling.value` (temperature.py:613-623). -/
noncomputable def arrheniusValue (A Q : ℝ) (T : ℝ) : ℝ := A * Real.exp (-Q / T)

/-- `InverseArrheniusScaling.value` (temperature.py:664-674). -/
noncomputable def inverseArrheniusValue (A Q : ℝ) (T : ℝ) : ℝ := A * (1 - Real.exp (-Q / T))

end Pyoptmat.Temperature
