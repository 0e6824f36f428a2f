import Verif.Model.Control

/-!
# Model: what automatic differentiation sees of stress control

`torch.autograd.grad` (ode.py:421-423) differentiates the operations that were executed. The parameters `p` enter through the base model; the tests of the loop
(solvers.py:116) are not differentiated, so the number `K` of updates is that of the run, fixed.
-/

namespace Pyoptmat.Control

open Pyoptmat.Material

variable {P : Type*} {m : ℕ}

/-- One update `x -= solver(J, R)` of the strain rate of one batch entry (models.py:538-546, solvers.py:117, 149). -/
noncomputable def recordedUpdate (model : Model (m + 1)) (csr cs cT t : ℝ) (y : Fin (m + 1) → ℝ) (e : ℝ) : ℝ :=
  e - ((model t (imposed cs y) e cT).ydot 0 - csr) / (model t (imposed cs y) e cT).Je 0

/-- The recorded strain rate of one batch entry after `K` updates, as a function of the parameters (models.py:536-548, solvers.py:109-120). -/
noncomputable def recordedStrainRate (model : P → Model (m + 1)) (csr cs cT t : ℝ) (y : Fin (m + 1) → ℝ) (K : ℕ) (p : P) : ℝ :=
  (recordedUpdate (model p) csr cs cT t y)^[K] 0

/-- The recorded rates `ydot` of one batch entry (models.py:548-558), as a function of the parameters. -/
noncomputable def recordedRates (model : P → Model (m + 1)) (csr cs cT t : ℝ) (y : Fin (m + 1) → ℝ) (K : ℕ) (p : P) : Fin (m + 1) → ℝ :=
  (stressOut (model p) cs cT t y (recordedStrainRate model csr cs cT t y K p)).1

/-- `StressBasedModel.forward` (models.py:524-560) around `InelasticModel`, one batch entry, as a right hand side: rates and Jacobian after `K` updates. The code makes the same number of updates in all entries of a call; here
the number may depend on entry and time. Every test may have its own material (parameters of batch shape). -/
noncomputable def creepFunc {β : Type*} {n : ℕ} (E : β → ℝ → ℝ) (f : β → FlowRule n) (srate stress T : β → ℝ → ℝ) (K : β → ℝ → ℕ) : Ode.Func β (n + 1) := fun b t y =>
  stressOut (inelastic (E b) (f b)) (stress b t) (T b t) t y
    ((recordedUpdate (inelastic (E b) (f b)) (srate b t) (stress b t) (T b t) t y)^[K b t] 0)

/-- The recorded rates of one batch entry of `BothBasedModel.forward` (models.py:460-469): the masked copies pass on what the model for the entry's label recorded; entries with other labels stay zero. The strain
rate for stress control was found together for the whole call, in `K` updates. -/
noncomputable def recordedBoth (model : P → Model (m + 1)) (label rate base cT t : ℝ) (y : Fin (m + 1) → ℝ) (K : ℕ) (p : P) : Fin (m + 1) → ℝ :=
  open Classical in
  if label = 1 then recordedRates model rate base cT t y K p else if label = 0 then (model p t y rate cT).ydot else 0

/-- Versions of the strain rate tensor backward asks for, if the model's operations keep a reference to it (as `torch.abs(e)` does, flowrules.py:753, 477): `x -= …` works in place and increases the version each
time (solvers.py:117); at version 0 the tensor needs no gradient and is not kept; the calls whose residuals enter updates `2 … K` were made at versions `1 … K-1`, the last call (models.py:551) at version `K`; the last
residual (solvers.py:118) is not used. -/
def savedVersions (K : ℕ) : List ℕ := if K = 0 then [] else List.range' 1 (K - 1) ++ [K]

/-- Backward through `StressBasedModel.forward` (ode.py:423): autograd refuses a kept tensor whose version has changed since. -/
def backwardCheck (keepsStrainRate : Bool) (K : ℕ) : Except String Unit :=
  if keepsStrainRate ∧ ∃ v ∈ savedVersions K, v ≠ K then
    .error "one of the variables needed for gradient computation has been modified by an inplace operation"
  else .ok ()

end Pyoptmat.Control
