import Verif.Model.Ode
import Verif.Model.Tensor

/-!
# Time integration in terms of tensors

The lane level functions of `Model/Ode.lean` get, for every time and test, numbers, vectors and matrices. These are the ones in a tensor.
-/

namespace Pyoptmat.Spec

open Pyoptmat.Tensor Pyoptmat.Chunktime Pyoptmat.Ode

/-- the times in a tensor of shape `(n, nb)` -/
def timesOf (nb n : ℕ) (x : Tensor) : Fin n → Fin nb → ℝ := fun k b => x.data [b.val, k.val]

/-- the rows of a tensor of shape `(n, nb, m)` -/
def rowsOf (nb m n : ℕ) (x : Tensor) : Fin n → BVec (Fin nb) m ℝ := fun k b j => x.data [j.val, b.val, k.val]

/-- the matrices in a tensor of shape `(n, nb, m, m)` -/
def blksOf (nb m n : ℕ) (x : Tensor) : Fin n → Blk (Fin nb) m ℝ := fun k b r c => x.data [c.val, r.val, b.val, k.val]

/-- The torch function `func(t, y)`, called with any number of times and states for `nb` tests, the times of test `b` from `P b`, gives rates and Jacobians of the right shapes with the entries that
`F` gives. -/
def FuncIs (nb m : ℕ) (P : Fin nb → Set ℝ) (func : Tensor → Tensor → Except String (Tensor × Tensor)) (F : BFunc (Fin nb) m) : Prop :=
  ∀ (q : ℕ) (t y : Tensor), t.shape = [nb, q] → y.shape = [m, nb, q] → (∀ k b, timesOf nb q t k b ∈ P b) →
    ∃ R J : Tensor, func t y = .ok (R, J) ∧ R.shape = [m, nb, q] ∧ J.shape = [m, m, nb, q] ∧
      (rowsOf nb m q R, blksOf nb m q J) = F q (timesOf nb q t) (rowsOf nb m q y)

/-- The tensor being filled holds the rows that were written; the others are as `torch.empty` left them. -/
structure Filled (nb m nt : ℕ) (garbage : List ℕ → ℝ) (X : Tensor) (p : Partial (Fin nb) m) : Prop where
  shape : X.shape = [m, nb, nt]
  row : ∀ (j : ℕ) (v : BVec (Fin nb) m ℝ), j < nt → p j = some v → ∀ (b : Fin nb) (i : Fin m), X.data [i.val, b.val, j] = v b i
  rest : ∀ (j : ℕ), j < nt → p j = none → ∀ (b : Fin nb) (i : Fin m), X.data [i.val, b.val, j] = garbage [i.val, b.val, j]

/-- A torch program and the lane level function either both raise, or both return the same states and warn alike. -/
def SameRun (nb m nt : ℕ) (garbage : List ℕ → ℝ) (R : Except String (Tensor × Bool)) (L : Except String (Partial (Fin nb) m × Bool)) : Prop :=
  match L with
  | .error _ => ∃ e, R = .error e
  | .ok z => ∃ Y : Tensor, R = .ok (Y, z.2) ∧ Filled nb m nt garbage Y z.1

/-- the states in a tensor of shape `(nt, nb, m)` -/
def statesOf (nb m : ℕ) (Y : Tensor) : ℕ → BVec (Fin nb) m ℝ := fun k b j => Y.data [j.val, b.val, k]

/-- What `torch.autograd.grad` returns: the product of `a` with the derivative `fp` of the rates with respect to the `p` parameters, summed over times and tests, for any number of times with those of test
`b` from `P b`. -/
def VjpIs {p : ℕ} (nb m : ℕ) (P : Fin nb → Set ℝ) (vjp : Tensor → Tensor → Tensor → Except String (Fin p → ℝ)) (fp : Fin nb → ℝ → (Fin m → ℝ) → Matrix (Fin m) (Fin p) ℝ) : Prop :=
  ∀ (q : ℕ) (t y a : Tensor), t.shape = [nb, q] → y.shape = [m, nb, q] → a.shape = [m, nb, q] → (∀ k b, timesOf nb q t k b ∈ P b) →
    vjp t y a = .ok (∑ k, ∑ b, Matrix.vecMul (rowsOf nb m q a k b) (fp b (timesOf nb q t k b) (rowsOf nb m q y k b)))

/-- A call of the right-hand side with `q > 0` rows, all of them among those rows `Y j` at times `times j` of a run for which `S j`. -/
structure CallOn (nb m : ℕ) (S : ℕ → Prop) (times : ℕ → Fin nb → ℝ) (Y : ℕ → BVec (Fin nb) m ℝ) (q : ℕ) (t y : Tensor) : Prop where
  pos : 0 < q
  times_shape : t.shape = [nb, q]
  states_shape : y.shape = [m, nb, q]
  rows : ∀ k : Fin q, ∃ j, S j ∧ timesOf nb q t k = times j ∧ rowsOf nb m q y k = Y j

/-- On rows of the run `func` returns the Jacobians `J`, test by test. -/
def JacOn (nb m : ℕ) (S : ℕ → Prop) (times : ℕ → Fin nb → ℝ) (Y : ℕ → BVec (Fin nb) m ℝ) (func : Tensor → Tensor → Except String (Tensor × Tensor))
    (J : Fin nb → ℝ → (Fin m → ℝ) → Matrix (Fin m) (Fin m) ℝ) : Prop :=
  ∀ (q : ℕ) (t y : Tensor), CallOn nb m S times Y q t y → ∃ R K : Tensor, func t y = .ok (R, K) ∧ K.shape = [m, m, nb, q] ∧
    blksOf nb m q K = fun k b => J b (timesOf nb q t k b) (rowsOf nb m q y k b)

/-- On rows of the run `torch.autograd.grad` returns the product of `a` with the derivative `fp` of the rates with respect to the `p` parameters, summed over times and tests. -/
def VjpOn {p : ℕ} (nb m : ℕ) (S : ℕ → Prop) (times : ℕ → Fin nb → ℝ) (Y : ℕ → BVec (Fin nb) m ℝ) (vjp : Tensor → Tensor → Tensor → Except String (Fin p → ℝ))
    (fp : Fin nb → ℝ → (Fin m → ℝ) → Matrix (Fin m) (Fin p) ℝ) : Prop :=
  ∀ (q : ℕ) (t y a : Tensor), CallOn nb m S times Y q t y → a.shape = [m, nb, q] →
    vjp t y a = .ok (∑ k, ∑ b, Matrix.vecMul (rowsOf nb m q a k b) (fp b (timesOf nb q t k b) (rowsOf nb m q y k b)))

/-- The rows at which a scheme evaluates the rates: the ends of the steps for backward Euler, the beginnings for forward Euler. -/
def StepRow (s : Scheme) (nt j : ℕ) : Prop :=
  match s with
  | .backwardEuler => 0 < j ∧ j < nt
  | .forwardEuler => j + 1 < nt

end Pyoptmat.Spec
