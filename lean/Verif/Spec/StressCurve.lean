import Mathlib.Analysis.SpecialFunctions.Pow.Real
import Mathlib.Analysis.Calculus.Deriv.Basic
import Mathlib.Data.Real.Sign

/-!
# Exact stress histories of Norton's law

`E` is the elastic modulus, `n` and `eta` the exponent and the drag stress of the power law, `e` the imposed strain rate.
-/

namespace Pyoptmat.Spec

/-- The rate of the stress at the stress `s`: `E (e - sign(s) (|s| / η)^n)`. -/
noncomputable def nortonRate (E n eta e s : ℝ) : ℝ := E * (e - Real.sign s * (|s| / eta) ^ n)

/-- `σ` is an exact stress history between the times `a` and `b` under the constant strain rate `e`. -/
def NortonCurve (E n eta e a b : ℝ) (σ : ℝ → ℝ) : Prop :=
  ∀ s ∈ Set.Icc a b, HasDerivWithinAt σ (nortonRate E n eta e (σ s)) (Set.Icc a b) s

/-- Norton relaxation from the stress `s0 > 0` at the time `a`, for an exponent other than one: `(s0^(1-n) + (n-1) E (s - a) / η^n)^(1/(1-n))`. -/
noncomputable def nortonRelaxation (E n eta s0 a s : ℝ) : ℝ := (s0 ^ (1 - n) + (n - 1) * E * (s - a) / eta ^ n) ^ (1 / (1 - n))

end Pyoptmat.Spec
