import Verif.Model.Material
import Verif.Model.Scaling
import Verif.Model.Temperature
import Verif.Model.Experiments

/-!
# The models and data of the inference examples

The functions `make_model`, `generate_input`, `downsample` and `load_subset_data` of examples/structural-inference, and `true_model` of its temperature-dependent example. `make_model` returns a
`ModelIntegrator`; here it is the material model inside. Parameters are real numbers; the devices are left out.
-/

namespace Pyoptmat.Inference

open Pyoptmat.Material Pyoptmat.Scaling Pyoptmat.Temperature

/-- `CP(x, scaling=optimize.bounded_scale_function((p_true * (1 - sf), p_true * (1 + sf))))` with `sf = 0.5` (examples/structural-inference/tension/maker.py:41, 56-64 and the other parameters;
creep-fatigue/maker.py:48, 64-72). -/
noncomputable def unit (pTrue x : ℝ) : ℝ → ℝ :=
  forward (boundedScaleFunction (pTrue * (1 - 1 / 2), pTrue * (1 + 1 / 2)) none) (constantValue (fun p => p) x)

/-- The arguments of `make_model` that are numbers. (tension/maker.py:51, creep-fatigue/maker.py:59) -/
structure Params where
  E : ℝ
  n : ℝ
  eta : ℝ
  s0 : ℝ
  R : ℝ
  d : ℝ

/-- The actual parameters (tension/maker.py:33-38, creep-fatigue/maker.py:38-43). -/
def truth : Params where
  E := 150000
  R := 200
  d := 5
  n := 7
  eta := 300
  s0 := 50

/-- `C_true` (creep-fatigue/maker.py:44). -/
def CTrue : Fin 3 → ℝ := ![10000, 5000, 500]

/-- `g_true` (creep-fatigue/maker.py:45). -/
def gTrue : Fin 3 → ℝ := ![200, 150, 5]

/-- `make_model` (tension/maker.py:51-120). -/
noncomputable def tensionModel (p : Params) : Model (1 + 0 + 1) :=
  inelastic (unit truth.E p.E) (isoKin (unit truth.n p.n) (unit truth.eta p.eta) (unit truth.s0 p.s0) (voce (unit truth.R p.R) (unit truth.d p.d)) noKinematic)

/-- `make_model` (creep-fatigue/maker.py:59-147): `C` and `g` have three entries, scaled one by one. -/
noncomputable def creepFatigueModel (p : Params) (C g : Fin 3 → ℝ) : Model (1 + 3 + 1) :=
  inelastic (unit truth.E p.E) (isoKin (unit truth.n p.n) (unit truth.eta p.eta) (unit truth.s0 p.s0) (voce (unit truth.R p.R) (unit truth.d p.d))
    (chaboche (fun i => unit (CTrue i) (C i)) fun i => unit (gTrue i) (g i)))

/-- `PolynomialScaling(coefs)` without scale function (temperature.py:484-501); the coefficients below are never empty, so it never fails. -/
def poly (coefs : List ℝ) (T : ℝ) : ℝ := (polynomialValue (fun x => x) coefs T).toOption.getD 0

/-- `E` (tension-temperature/generate_data.py:30, 50). -/
noncomputable def youngs : ℝ → ℝ := poly [-5.76107011e-05, 7.52478382e-02, -9.98116448e+01, 2.19193150e+05]

/-- `mu` (tension-temperature/generate_data.py:31, 51). -/
noncomputable def shear : ℝ → ℝ := poly [-2.19888172e-05, 2.87205489e-02, -3.80960476e+01, 8.36615078e+04]

/-- `eps0` (generate_data.py:45). -/
noncomputable def eps0 : ℝ := 1.0e6

/-- `b` (generate_data.py:46). -/
noncomputable def burgers : ℝ := 2.019e-7

/-- `k` (generate_data.py:47). -/
noncomputable def boltzmann : ℝ := 1.38064e-20

/-- `true_model` (tension-temperature/generate_data.py:53-86). The rate sensitivity has the default cutoff 20 (temperature.py:332). -/
noncomputable def trueModel (A B H tau0 Q : ℝ) : Model (1 + 0 + 1) :=
  inelastic youngs (isoKin (kmRateValue A shear burgers boltzmann 20) (kmViscosityValue A B shear eps0 burgers boltzmann) (constantValue (fun p => p) 0)
    (theta0Voce (inverseArrheniusValue tau0 Q) (shearValue (fun p => p) H shear)) noKinematic)

/-- `generate_input(erates, emax, ntime)` (tension/maker.py:123-132): times and strains, row by row. -/
noncomputable def generateInput {β : Type*} (erates : β → ℝ) (emax : ℝ) (ntime : ℕ) : (ℕ → β → ℝ) × (ℕ → β → ℝ) :=
  (fun k b => Experiments.linspace 0 emax ntime k / erates b, fun k _ => Experiments.linspace 0 emax ntime k)

/-- `x.flatten(-2, -1)` of a row with `a` times `b` entries (tension/maker.py:192-205, creep-fatigue/maker.py:156-188). -/
def flatten {α : Type*} {a b : ℕ} (x : Fin a → Fin b → α) : Fin (a * b) → α := fun c => x (finProdFinEquiv.symm c).1 (finProdFinEquiv.symm c).2

/-- `x[..., :k]` (tension/maker.py:141, creep-fatigue/maker.py:157): all entries if there are fewer than `k`. -/
def upTo {α : Type*} {b : ℕ} (k : ℕ) (x : Fin b → α) : Fin (min k b) → α := fun j => x ⟨j.val, by omega⟩

/-- `downsample(rawdata, nkeep, nrates, nsamples)` (tension/maker.py:135-145), one row of one of the arrays. `nkeep` is not negative, and the rows have `nrates * nsamples` entries (otherwise the first
`reshape` fails). -/
def downsample {α : Type*} (nkeep nrates nsamples : ℕ) (data : Fin (nrates * nsamples) → α) : Fin (nrates * min nkeep nsamples) → α :=
  flatten fun i => upTo nkeep fun j => data (finProdFinEquiv (i, j))

/-- `load_subset_data(dataset, nsamples)` (creep-fatigue/maker.py:150-190), one row of one of the arrays of the data set; labels `type` and `control` are looked up afterwards, one by one. -/
def loadSubset {α : Type*} {ntests ntotal : ℕ} (nsamples : ℕ) (data : Fin ntests → Fin ntotal → α) : Fin (ntests * min nsamples ntotal) → α :=
  flatten fun i => upTo nsamples (data i)

end Pyoptmat.Inference
