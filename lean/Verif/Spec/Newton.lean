import Mathlib.Data.Real.Basic
import Mathlib.Logic.Function.Iterate

/-!
# Specification of a Newton solve (independent of the model)
-/

namespace Pyoptmat.Spec

variable {X Res Jac β : Type*}

/-- The `j`-th Newton iterate from `x0`: `x ↦ x - J(x)⁻¹ R(x)`, with `solve J R` standing for `J⁻¹ R`. -/
def newtonIterate (fn : X → Res × Jac) (solve : Jac → Res → X) (sub : X → X → X) (x0 : X) (j : ℕ) : X :=
  (fun x => sub x (solve (fn x).2 (fn x).1))^[j] x0

/-- The whole batch met the absolute tolerance, or the whole batch met the relative one. -/
def MetTolerance (norm norm0 : β → ℝ) (rtol atol : ℝ) : Prop :=
  (∀ b, norm b ≤ atol) ∨ ∀ b, norm b ≤ rtol * norm0 b

end Pyoptmat.Spec
