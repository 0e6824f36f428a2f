import Verif.Model.Material
import Verif.Model.Solvers
import Verif.Model.Interp
import Verif.Model.Ode
import Mathlib.LinearAlgebra.Matrix.Notation

/-!
# Model of `pyoptmat/models.py`: strain, stress and mixed control, and `ModelIntegrator`

`β` is the batch (in the block integrator: pairs of a time in the block and a test). Each batch entry may have its own material
parameters, so the base model is `β → Model`.
-/

namespace Pyoptmat.Control

open Pyoptmat.Material Pyoptmat.Newton Pyoptmat.Solvers

variable {β : Type*} {m : ℕ}

/-- `StrainBasedModel.forward` (models.py:494-504). -/
def strainForward (model : β → Model m) (erate T : β → ℝ → ℝ) (t : β → ℝ) (y : β → Fin m → ℝ) :
    (β → Fin m → ℝ) × (β → Matrix (Fin m) (Fin m) ℝ) :=
  (fun b => (model b (t b) (y b) (erate b (t b)) (T b (t b))).ydot,
   fun b => (model b (t b) (y b) (erate b (t b)) (T b (t b))).J)

/-- `yp = y.clone(); yp[..., 0] = cs` (models.py:539-540, 549-550): the state with the imposed stress in place of the strain. -/
def imposed (cs : ℝ) (y : Fin (m + 1) → ℝ) : Fin (m + 1) → ℝ := Function.update y 0 cs

/-- `RJ` of `StressBasedModel.forward` (models.py:538-546): residual and Jacobian of the strain rate. `csr`, `cs`, `cT` are the imposed stress rate,
stress and temperature. -/
def stressRJ (model : β → Model (m + 1)) (csr cs cT t : β → ℝ) (y : β → Fin (m + 1) → ℝ) (e : β → Fin 1 → ℝ) :
    (β → Fin 1 → ℝ) × (β → Matrix (Fin 1) (Fin 1) ℝ) :=
  (fun b _ => (model b (t b) (imposed (cs b) (y b)) (e b 0) (cT b)).ydot 0 - csr b,
   fun b _ _ => (model b (t b) (imposed (cs b) (y b)) (e b 0) (cT b)).Je 0)

/-- The solve for the strain rate (models.py:536, 548): from zero, with the default tolerances; one unknown, hence division by the diagonal
(solvers.py:100-101). -/
noncomputable def stressSolve (model : β → Model (m + 1)) (csr cs cT t : β → ℝ) (y : β → Fin (m + 1) → ℝ) :
    SolveOut (β → Fin 1 → ℝ) (β → Matrix (Fin 1) (Fin 1) ℝ) :=
  newtonRaphson (stressRJ model csr cs cT t y) jacobiLinearSolve (fun x dx => x - dx) (fun r b => some (rowNorm (r b)))
    0 1e-6 1e-10 100

/-- The Jacobian `StressBasedModel.forward` makes out of the base model's (models.py:554-555). -/
noncomputable def stressJac (o : ModelOut (m + 1)) : Matrix (Fin (m + 1)) (Fin (m + 1)) ℝ := fun i j =>
  if j = 0 then 0 else if i = 0 then -o.J 0 j / o.Je 0 else o.J i j

/-- What `StressBasedModel.forward` returns for one batch entry, given the strain rate found (models.py:549-560). -/
noncomputable def stressOut (model : Model (m + 1)) (cs cT t : ℝ) (y : Fin (m + 1) → ℝ) (erate : ℝ) :
    (Fin (m + 1) → ℝ) × Matrix (Fin (m + 1)) (Fin (m + 1)) ℝ :=
  let o := model t (imposed cs y) erate cT
  (Function.update o.ydot 0 erate, stressJac o)

/-- `StressBasedModel.forward` (models.py:524-560). -/
noncomputable def stressForward (model : β → Model (m + 1)) (srate stress T : β → ℝ → ℝ) (t : β → ℝ)
    (y : β → Fin (m + 1) → ℝ) : (β → Fin (m + 1) → ℝ) × (β → Matrix (Fin (m + 1)) (Fin (m + 1)) ℝ) :=
  let cs : β → ℝ := fun b => stress b (t b)
  let cT : β → ℝ := fun b => T b (t b)
  let s := stressSolve model (fun b => srate b (t b)) cs cT t y
  (fun b => (stressOut (model b) (cs b) (cT b) (t b) (y b) (s.x b 0)).1,
   fun b => (stressOut (model b) (cs b) (cT b) (t b) (y b) (s.x b 0)).2)

/-- `BothBasedModel.forward` (models.py:451-475): both models run on the whole batch; `control` labels the entries. Masked assignment, first
the entries labelled 0, then those labelled 1. -/
noncomputable def bothForward (model : β → Model (m + 1)) (rate base T : β → ℝ → ℝ) (control : β → ℝ) (t : β → ℝ)
    (y : β → Fin (m + 1) → ℝ) : (β → Fin (m + 1) → ℝ) × (β → Matrix (Fin (m + 1)) (Fin (m + 1)) ℝ) :=
  let se := strainForward model rate T t y
  let ss := stressForward model rate base T t y
  open Classical in
  let r0 : β → Fin (m + 1) → ℝ := fun b => if control b = 0 then se.1 b else 0
  open Classical in
  let r1 : β → Fin (m + 1) → ℝ := fun b => if control b = 1 then ss.1 b else r0 b
  open Classical in
  let j0 : β → Matrix (Fin (m + 1)) (Fin (m + 1)) ℝ := fun b => if control b = 0 then se.2 b else 0
  open Classical in
  let j1 : β → Matrix (Fin (m + 1)) (Fin (m + 1)) ℝ := fun b => if control b = 1 then ss.2 b else j0 b
  (r1, j1)

/-- The rates the integrator forms from the recorded data (models.py:307-314, 347-354, 384-391): zero at the first time, then difference quotients. (A
quotient `0 / 0` becomes `0`, as it is in Lean; `x / 0` stays infinite in torch, so that case needs distinct times.) -/
noncomputable def rateData (times data : ℕ → ℝ) (k : ℕ) : ℝ :=
  if k = 0 then 0 else (data k - data (k - 1)) / (times k - times (k - 1))

/-- The interpolators of `ModelIntegrator` (models.py:316-320, 356-361, 393-401), one batch entry, `nt` times. -/
noncomputable def rateFn (nt : ℕ) (times data : ℕ → ℝ) : ℝ → ℝ := Interp.interpFn (nt - 1) times (rateData times data)

/-- The same for the data itself. (models.py:396-398) -/
noncomputable def dataFn (nt : ℕ) (times data : ℕ → ℝ) : ℝ → ℝ := Interp.interpFn (nt - 1) times data

/-- The right hand side `emodel` integrated by `ModelIntegrator.solve_strain` (models.py:365-367), batch entry by batch entry. -/
noncomputable def strainFunc (model : β → Model m) (nt : ℕ) (times strains temps : ℕ → β → ℝ) : Ode.Func β m := fun b t y =>
  let o := model b t y (rateFn nt (fun k => times k b) (fun k => strains k b) t) (dataFn nt (fun k => times k b) (fun k => temps k b) t)
  (o.ydot, o.J)

/-- `ModelIntegrator.solve_strain` (models.py:334-369) with `use_adjoint=False`: the state starts at zero. -/
noncomputable def solveStrain (c : Ode.Config) (model : β → Model m) (nt : ℕ) (times strains temps : ℕ → β → ℝ) (n : ℤ) :=
  Ode.integrate (m := m) c (strainFunc model nt times strains temps) 0 nt times n

/-- `StressBasedModel` as the right hand side of the block integrator (models.py:405-412, 524-560; ode.py:496-503): the inner solve runs over all times of the block and all tests
together. -/
noncomputable def stressFunc (model : β → Model (m + 1)) (nt : ℕ) (times stresses temps : ℕ → β → ℝ) : Ode.BFunc β (m + 1) := fun n t y =>
  let out := stressForward (β := Fin n × β) (fun p => model p.2) (fun p => rateFn nt (fun k => times k p.2) fun k => stresses k p.2)
    (fun p => dataFn nt (fun k => times k p.2) fun k => stresses k p.2) (fun p => dataFn nt (fun k => times k p.2) fun k => temps k p.2)
    (fun p => t p.1 p.2) (fun p => y p.1 p.2)
  (fun k b => out.1 (k, b), fun k b => out.2 (k, b))

/-- `ModelIntegrator.solve_stress` (models.py:371-412) with `use_adjoint=False`: the state starts at zero. The flag counts only warnings of the outer solves. -/
noncomputable def solveStress (c : Ode.Config) (model : β → Model (m + 1)) (nt : ℕ) (times stresses temps : ℕ → β → ℝ) (n : ℤ) :=
  Ode.integrate c (stressFunc model nt times stresses temps) 0 nt times n

/-- `BothBasedModel` as the right hand side of the block integrator (models.py:324-330, 451-475); `control` is per test. -/
noncomputable def bothFunc (model : β → Model (m + 1)) (nt : ℕ) (times idata temps : ℕ → β → ℝ) (control : β → ℝ) : Ode.BFunc β (m + 1) := fun n t y =>
  let out := bothForward (β := Fin n × β) (fun p => model p.2) (fun p => rateFn nt (fun k => times k p.2) fun k => idata k p.2)
    (fun p => dataFn nt (fun k => times k p.2) fun k => idata k p.2) (fun p => dataFn nt (fun k => times k p.2) fun k => temps k p.2)
    (fun p => control p.2) (fun p => t p.1 p.2) (fun p => y p.1 p.2)
  (fun k b => out.1 (k, b), fun k b => out.2 (k, b))

/-- `ModelIntegrator.solve_both` (models.py:297-332) with `use_adjoint=False`: the state starts at zero. -/
noncomputable def solveBoth (c : Ode.Config) (model : β → Model (m + 1)) (nt : ℕ) (times temps idata : ℕ → β → ℝ) (control : β → ℝ) (n : ℤ) :=
  Ode.integrate c (bothFunc model nt times idata temps control) 0 nt times n

end Pyoptmat.Control
