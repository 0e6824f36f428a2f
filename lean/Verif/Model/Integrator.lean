import Verif.Model.Control
import Verif.Model.OdeFront

/-!
# Model of `ModelIntegrator` with its keyword arguments (`pyoptmat/models.py:271-412`)

`Model/Control.lean` has the right hand sides and the calls with a finished solver; here the keyword arguments
given to the constructor travel through `odeint` / `odeint_adjoint` to the solver.
-/

namespace Pyoptmat.Control

open Pyoptmat.Material

variable {β : Type*} {m : ℕ}

/-- A `ModelIntegrator` apart from its material model (models.py:283-294). `kw` lists the names in `**kwargs` other
than `method` and `extra_params`, which are named parameters of the front ends (ode.py:529-531, 614-616); `opts` has the
values. `method` has the default of the front ends. `extra_params` adds gradients only (C84) and is left out here. -/
structure Integrator where
  useAdjoint : Bool := true
  method : String := "backward-euler"
  kw : List String := []
  opts : Ode.Options := {}

/-- `self.imethod(func, init, times, **self.kwargs_for_integration)` (models.py:291-294, 332, 369, 412). -/
noncomputable def Integrator.run (i : Integrator) (f : Ode.BFunc β m) (nt : ℕ) (times : ℕ → β → ℝ) :
    Except String (Ode.Partial β m × Bool) :=
  if i.useAdjoint then Ode.odeintAdjoint f 0 nt times i.method i.kw i.opts
  else Ode.odeint f 0 nt times i.method ([] : List Unit) i.kw i.opts

/-- `ModelIntegrator.solve_strain` (models.py:334-369). -/
noncomputable def Integrator.strain (i : Integrator) (model : β → Model m) (nt : ℕ) (times strains temps : ℕ → β → ℝ) :=
  i.run (Ode.Func.lift (strainFunc model nt times strains temps)) nt times

/-- `ModelIntegrator.solve_stress` (models.py:371-412). -/
noncomputable def Integrator.stress (i : Integrator) (model : β → Model (m + 1)) (nt : ℕ) (times stresses temps : ℕ → β → ℝ) :=
  i.run (stressFunc model nt times stresses temps) nt times

/-- `ModelIntegrator.solve_both` (models.py:297-332). -/
noncomputable def Integrator.both (i : Integrator) (model : β → Model (m + 1)) (nt : ℕ) (times temps idata : ℕ → β → ℝ)
    (control : β → ℝ) :=
  i.run (bothFunc model nt times idata temps control) nt times

end Pyoptmat.Control
