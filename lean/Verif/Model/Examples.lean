import Verif.Model.Ode
import Mathlib.Analysis.SpecialFunctions.Trigonometric.Basic

/-!
# The example systems in examples/ode

Right hand sides written for the integrators in the examples shipped with the package, with the Jacobians they report. One time and one entry of the batch at a time: every operation of these `forward`
methods acts on the last dimensions only. Parameters are real numbers (no gradients here), `x ** 2.0`, `x ** 3.0`, `x ** 4.0` are integer powers, and a division by zero (an infinite or undefined entry in
torch) is zero.
-/

namespace Pyoptmat.Examples

open Pyoptmat.Ode Matrix

variable {β : Type*}

/-- `VanderPolODE.forward` (examples/ode/vanderpohl.py:56-67). -/
def vanDerPol (mu : ℝ) : Func β 2 := fun _ _ y =>
  (![y 1, -y 0 + mu * (1 - y 0 ^ 2) * y 1],
   !![0, 1; -1 - 2 * mu * y 0 * y 1, mu * (1 - y 0 ^ 2)])

/-- `ODE.forward` (examples/ode/trajectory.py:108-124): speed `v` and angle `a` of each trial, gravity `g` (trajectory.py:45, there `0.1`). -/
noncomputable def trajectory (g : ℝ) (v a : β → ℝ) : Func β 2 := fun b t _ =>
  (![v b * Real.cos (a b), v b * Real.sin (a b) - g * t], 0)

/-- Entry `k`, or zero past the end (not in the code: it replaces the slices `[1:]` and `[:-1]` below, which never reach past the end). -/
def entry {N : ℕ} (x : Fin N → ℝ) (k : ℕ) : ℝ := if h : k < N then x ⟨k, h⟩ else 0

/-- The contribution of springs of stiffness `K`, or dampers of viscosity `K`, to the accelerations (examples/ode/damping.py:94, 106-108, and 95, 112-114): element `i` connects the masses `i` and `i + 1`,
the last one connects the last mass to the ground. -/
noncomputable def elementForce {N : ℕ} (K M x : Fin N → ℝ) (i : Fin N) : ℝ :=
  (if i.val + 1 < N then K i * (entry x (i.val + 1) - x i) / M i else 0) +
  (if 0 < i.val then -entry K (i.val - 1) * (x i - entry x (i.val - 1)) / M i else 0) +
  (if i.val + 1 = N then -K i * x i / M i else 0)

/-- The contribution of springs, or dampers, to the Jacobian (damping.py:121-124, and 127-130). -/
noncomputable def elementJacobian {N : ℕ} (K M : Fin N → ℝ) : Matrix (Fin N) (Fin N) ℝ := Matrix.of fun i j =>
  (if i = j then -K i / M i else 0) + (if 0 < i.val ∧ i = j then -entry K (i.val - 1) / M i else 0) +
  (if j.val = i.val + 1 then K i / M i else 0) + (if i.val = j.val + 1 then K j / M i else 0)

/-- The displacements `y[..., :half_size]` (damping.py:90). -/
def disp {N : ℕ} (y : Fin (N + N) → ℝ) : Fin N → ℝ := fun i => y (Fin.castAdd N i)

/-- The velocities `y[..., half_size:]` (damping.py:91). -/
def vel {N : ℕ} (y : Fin (N + N) → ℝ) : Fin N → ℝ := fun i => y (Fin.natAdd N i)

/-- `MassDamperSpring.forward` (damping.py:74-132): stiffnesses `K`, dampers `C`, masses `M`, the scales of the dampers and masses (by default `1e-4` and `1e-5`), and the force on the first mass.
The size of the state is `2 N`. -/
noncomputable def massDamperSpring {N : ℕ} (K C M : Fin N → ℝ) (cScale mScale : ℝ) (force : β → ℝ → ℝ) : Func β (N + N) := fun b t y =>
  let m : Fin N → ℝ := fun i => M i * mScale
  let c : Fin N → ℝ := fun i => C i * cScale
  (Fin.append (vel y) fun i => elementForce K m (disp y) i + (if i.val = 0 then force b t / m i else 0) + elementForce c m (vel y) i,
   Matrix.of fun r s => Fin.addCases
    (fun i => Fin.addCases (fun _ => 0) (fun j => if i = j then 1 else 0) s)
    (fun i => Fin.addCases (fun j => elementJacobian K m i j) (fun j => elementJacobian c m i j) s) r)

/-- The parameters of `HodgkinHuxleyCoupledNeurons` (examples/ode/neuron.py:115-136). -/
structure Neurons (n : ℕ) where
  C : Fin n → ℝ
  gNa : Fin n → ℝ
  ENa : Fin n → ℝ
  gK : Fin n → ℝ
  EK : Fin n → ℝ
  gL : Fin n → ℝ
  EL : Fin n → ℝ
  mInf : Fin n → ℝ
  tauM : Fin n → ℝ
  hInf : Fin n → ℝ
  tauH : Fin n → ℝ
  nInf : Fin n → ℝ
  tauN : Fin n → ℝ
  gC : Fin n → ℝ

/-- Position of variable `q` (voltage, m, h, n) of neuron `i` in the state: `y[..., q::4]` (neuron.py:152-155). -/
def var {n : ℕ} (i : Fin n) (q : Fin 4) : Fin (n * 4) := finProdFinEquiv (i, q)

/-- `HodgkinHuxleyCoupledNeurons.forward`, the rates (neuron.py:150-175). -/
noncomputable def Neurons.rate {n : ℕ} (p : Neurons n) (Ic : ℝ) (y : Fin (n * 4) → ℝ) : Fin (n * 4) → ℝ := fun r =>
  let i := (finProdFinEquiv.symm r).1
  let V := fun i => y (var i 0)
  let m := y (var i 1)
  let h := y (var i 2)
  let x := y (var i 3)
  match (finProdFinEquiv.symm r).2 with
  | 0 => 1 / p.C i * (-p.gNa i * m ^ 3 * h * (V i - p.ENa i) - p.gK i * x ^ 4 * (V i - p.EK i) - p.gL i * (V i - p.EL i) + Ic) + ∑ j, p.gC j * (V i - V j) / p.C j
  | 1 => (p.mInf i - m) / p.tauM i
  | 2 => (p.hInf i - h) / p.tauH i
  | 3 => (p.nInf i - x) / p.tauN i

/-- `HodgkinHuxleyCoupledNeurons.forward`, the Jacobian (neuron.py:177-209). -/
noncomputable def Neurons.jacobian {n : ℕ} (p : Neurons n) (y : Fin (n * 4) → ℝ) : Matrix (Fin (n * 4)) (Fin (n * 4)) ℝ := Matrix.of fun r s =>
  let i := (finProdFinEquiv.symm r).1
  let j := (finProdFinEquiv.symm s).1
  let V := y (var i 0)
  let m := y (var i 1)
  let h := y (var i 2)
  let x := y (var i 3)
  match (finProdFinEquiv.symm r).2, (finProdFinEquiv.symm s).2 with
  | 0, 0 => (if i = j then 1 / p.C i * (-p.gL i - p.gNa i * h * m ^ 3 - p.gK i * x ^ 4) else 0) - p.gC j / p.C j + (if i = j then 1 else 0) * ∑ k, p.gC k / p.C k
  | 0, 1 => if i = j then -1 / p.C i * (3 * p.gNa i * h * m ^ 2 * (-p.ENa i + V)) else 0
  | 0, 2 => if i = j then -1 / p.C i * (p.gNa i * m ^ 3 * (-p.ENa i + V)) else 0
  | 0, 3 => if i = j then -1 / p.C i * (4 * p.gK i * x ^ 3 * (-p.EK i + V)) else 0
  | 1, 1 => if i = j then -1 / p.tauM i else 0
  | 2, 2 => if i = j then -1 / p.tauH i else 0
  | 3, 3 => if i = j then -1 / p.tauN i else 0
  | _, _ => 0

/-- `HodgkinHuxleyCoupledNeurons.forward` (neuron.py:138-211), with the driving current `I`. -/
noncomputable def neurons {n : ℕ} (p : Neurons n) (I : β → ℝ → ℝ) : Func β (n * 4) := fun b t y => (p.rate (I b t) y, p.jacobian y)

end Pyoptmat.Examples
