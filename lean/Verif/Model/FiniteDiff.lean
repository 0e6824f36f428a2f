import Mathlib.Data.Real.Basic
import Mathlib.Analysis.Calculus.FDeriv.Basic
import Mathlib.Analysis.Calculus.FDeriv.Pi
import Mathlib.Analysis.Calculus.Deriv.Basic
import Mathlib.Data.Fin.Tuple.Basic

/-!
# Model of the finite differences of `pyoptmat/utility.py` and of `pyoptmat/neuralode.py`

Arrays are functions of the batch entry (type `β`) and of the component. The function that is differentiated maps a whole batched array
to a whole batched array, as in the code. Exact arithmetic; a division by zero (`inf` or `nan` in the code) is `none`.
-/

namespace Pyoptmat.FiniteDiff

/-- `inc = torch.abs(x) * eps; inc[inc < eps] = eps` (utility.py:153-154, 213-214, 262-263). -/
noncomputable def inc (eps x : ℝ) : ℝ := if |x| * eps < eps then eps else |x| * eps

/-- An array division, where `inf` and `nan` are `none`. (utility.py:162, 222, 268-274) -/
noncomputable def fdiv (a b : ℝ) : Option ℝ := if b = 0 then none else some (a / b)

section
variable {β : Type} {n p q : ℕ}

/-- `dx` (utility.py:152-155, 212-215, 258, 262-264): zero but for column `j`. -/
noncomputable def bump (eps : ℝ) (x0 : β → Fin n → ℝ) (j : Fin n) : β → Fin n → ℝ := fun b k => if k = j then inc eps (x0 b j) else 0

/-- `batch_differentiate` (utility.py:113-173) for values and arguments of one dimension besides those of the batch. (`squeeze` and
`unsqueeze` make a scalar a vector of length one and back. With an argument of two or more dimensions `x0[..., i2]` is an indexing by a
list along the last axis, and the code does not work; not modelled.) -/
noncomputable def batchDifferentiate (fn : (β → Fin n → ℝ) → β → Fin p → ℝ) (eps : ℝ) (x0 : β → Fin n → ℝ) :
    β → Fin p → Fin n → Option ℝ :=
  let v0 := fn x0
  fun b i j =>
    let v1 := fn (x0 + bump eps x0 j)
    fdiv (v1 b i - v0 b i) (inc eps (x0 b j))

/-- `batch_differentiate` (utility.py:113-173) for matrix valued functions, one batch dimension of length `nb`: `inc.unsqueeze(-2)` has shape
`(nb, 1, 1)` and is expanded to `(nb, p, q, 1)`, which lines its batch axis up with the *rows* of the value. -/
noncomputable def batchDifferentiateMat {nb : ℕ} (fn : (Fin nb → Fin n → ℝ) → Fin nb → Fin p → Fin q → ℝ) (eps : ℝ)
    (x0 : Fin nb → Fin n → ℝ) : Except String (Fin nb → Fin p → Fin q → Fin n → Option ℝ) :=
  let v0 := fn x0
  let d (lane : Fin nb → Fin p → Fin nb) : Fin nb → Fin p → Fin q → Fin n → Option ℝ := fun b i k j =>
    let v1 := fn (x0 + bump eps x0 j)
    fdiv (v1 b i k - v0 b i k) (inc eps (x0 (lane b i) j))
  if nb = 1 then .ok (d fun b _ => b)
  else if h : p = nb then .ok (d fun _ i => Fin.cast h i)
  else .error "The expanded size of the tensor must match the existing size"

/-- `new_differentiate` (utility.py:176-224), argument of one dimension besides that of the batch. -/
noncomputable def newDifferentiate (fn : (β → Fin n → ℝ) → β → Fin p → ℝ) (eps : ℝ) (x0 : β → Fin n → ℝ) :
    β → Fin p → Fin n → Option ℝ :=
  let v0 := fn x0
  fun b i j =>
    let v1 := fn (x0 + bump eps x0 j)
    fdiv (v1 b i - v0 b i) (inc eps (x0 b j))

/-- `new_differentiate` (utility.py:176-224) with a batch of scalars as argument (`flatten`): `x0[..., (0,)]` picks the *first batch entry*,
`b0` here, and its increment serves for all of them. -/
noncomputable def newDifferentiateScalar (b0 : β) (fn : (β → ℝ) → β → Fin p → ℝ) (eps : ℝ) (x0 : β → ℝ) : β → Fin p → Option ℝ :=
  let v0 := fn x0
  let i := inc eps (x0 b0)
  let v1 := fn fun b => x0 b + i
  fun b k => fdiv (v1 b k - v0 b k) i

/-- `differentiate` (utility.py:227-276), scalar function of a scalar: lines 260, 265, 268. -/
noncomputable def differentiateScalar (fn : (β → ℝ) → β → ℝ) (eps : ℝ) (x0 : β → ℝ) : β → Option ℝ :=
  let v0 := fn x0
  let dx := fun b => |x0 b| * eps
  let v1 := fn fun b => x0 b + dx b
  fun b => fdiv (v1 b - v0 b) (dx b)

/-- `differentiate` (utility.py:227-276), vector function of a vector (non-empty batch): lines 258, 262-265, 274. The division is
by the whole of `dx`, with the usual broadcasting, and the quotient is then stored in column `j`. -/
noncomputable def differentiateVec (fn : (β → Fin n → ℝ) → β → Fin p → ℝ) (eps : ℝ) (x0 : β → Fin n → ℝ) :
    Except String (β → Fin p → Fin n → Option ℝ) :=
  let v0 := fn x0
  if n = 1 then .ok fun b i j => fdiv (fn (x0 + bump eps x0 j) b i - v0 b i) (bump eps x0 j b j)
  else if h : p = n then
    .ok fun b i j => fdiv (fn (x0 + bump eps x0 j) b i - v0 b i) (bump eps x0 j b (Fin.cast h i))
  else if n = 0 then .ok fun _ _ _ => none
  else .error "shape mismatch"

/-- `differentiate` (utility.py:227-276), scalar function of a vector (non-empty batch): `dx.reshape(v1.shape)` at line 272 needs as many
elements as there are batch entries. -/
noncomputable def differentiateGrad (fn : (β → Fin n → ℝ) → β → ℝ) (eps : ℝ) (x0 : β → Fin n → ℝ) :
    Except String (β → Fin n → Option ℝ) :=
  let v0 := fn x0
  if n ≤ 1 then .ok fun b j => fdiv (fn (x0 + bump eps x0 j) b - v0 b) (bump eps x0 j b j)
  else .error "shape is invalid for input"

end

/-! ### NeuralODE -/

/-- The number of items that the Python slice `[: stop]` keeps of a sequence of `len` items. (neuralode.py:65) -/
def sliceStop (len : ℕ) (stop : ℤ) : ℕ := if stop < 0 then (len + stop).toNat else min stop.toNat len

/-- `NeuralODE.forward` (neuralode.py:53-65), one batch entry: `model` is the network on the concatenated state (`m` components) and
forces (`f` components). The Jacobian by automatic differentiation (utility.py:31-57; `functorch.jacrev` under `vmap`) is taken to be
the exact derivative. The second result is the matrix of the columns that the slice `[..., : -f]` keeps; column `j` of it is
column `j` of the whole Jacobian. -/
noncomputable def neuralOde {m f p : ℕ} (model : (Fin (m + f) → ℝ) → Fin p → ℝ) (force : ℝ → Fin f → ℝ) (t : ℝ) (y : Fin m → ℝ) :
    (Fin p → ℝ) × (Fin p → Fin (sliceStop (m + f) (-(f : ℤ))) → ℝ) :=
  let x := Fin.append y (force t)
  (model x, fun i j => fderiv ℝ model x (fun k => if k.val = j.val then 1 else 0) i)

end Pyoptmat.FiniteDiff
