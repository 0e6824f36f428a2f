import Verif.Model.Newton
import Mathlib.LinearAlgebra.Matrix.NonsingularInverse

/-!
# Model of `pyoptmat/solvers.py`

`β` is the batch. Real arithmetic; residual norms may be `none` (not-a-number, every comparison false), as in
`Verif.Model.Newton`.
-/

namespace Pyoptmat.Solvers

open Pyoptmat.Newton

variable {X Res Jac β : Type*}

/-- Everything observable about a call of a nonlinear solver: the two values returned, whether it warned, the number of
updates and the contents of the caller's `x0` afterwards. (solvers.py:75, 125, 433) -/
structure SolveOut (X Jac : Type*) where
  x : X
  J : Jac
  warned : Bool
  iters : ℕ
  callerX0 : X

/-- `newton_raphson` (solvers.py:109-125), the linear solver being given. `x = x0` is an alias and `x -= …` works in
place. -/
noncomputable def newtonRaphson (fn : X → Res × Jac) (solve : Jac → Res → X) (sub : X → X → X)
    (nrm : Res → β → Option ℝ) (x0 : X) (rtol atol : ℝ) (miter : ℤ) : SolveOut X Jac :=
  let r := loop fn solve sub nrm rtol atol (nrm (fn x0).1) miter.toNat x0
  { x := r.1, J := (fn r.1).2, warned := decide ((r.2 : ℤ) = miter), iters := r.2, callerX0 := r.1 }

/-- `lu_linear_solve` (solvers.py:128-137). (`solve_ex` gives no error for a singular matrix; the model then gives `0`,
torch unspecified values.) -/
noncomputable def luLinearSolve {n : ℕ} (A : β → Matrix (Fin n) (Fin n) ℝ) (b : β → Fin n → ℝ) : β → Fin n → ℝ :=
  fun i => (A i)⁻¹.mulVec (b i)

/-- `jacobi_iteration_linear_solve` (solvers.py:140-149). -/
noncomputable def jacobiLinearSolve {n : ℕ} (A : β → Matrix (Fin n) (Fin n) ℝ) (b : β → Fin n → ℝ) :
    β → Fin n → ℝ := fun i j => b i j / A i j j

/-- The choice of the linear solver (solvers.py:36-43, 100-107). -/
noncomputable def linearSolverOf {n : ℕ} (linsolver : String) :
    Except String ((β → Matrix (Fin n) (Fin n) ℝ) → (β → Fin n → ℝ) → β → Fin n → ℝ) :=
  if n = 1 then .ok jacobiLinearSolve
  else if linsolver = "lu" then .ok luLinearSolve
  else if linsolver = "diag" then .ok jacobiLinearSolve
  else .error "Unknown linear solver type"

/-- `newton_raphson` on tensors (solvers.py:78-125). -/
noncomputable def newtonRaphsonT {n : ℕ} (fn : (β → Fin n → ℝ) → (β → Fin n → ℝ) × (β → Matrix (Fin n) (Fin n) ℝ))
    (x0 : β → Fin n → ℝ) (linsolver : String) (rtol atol : ℝ) (miter : ℤ) :
    Except String (SolveOut (β → Fin n → ℝ) (β → Matrix (Fin n) (Fin n) ℝ)) :=
  match linearSolverOf (β := β) (n := n) linsolver with
  | .error e => .error e
  | .ok s => .ok (newtonRaphson fn s (fun x dx => x - dx) (fun r b => some (rowNorm (r b))) x0 rtol atol miter)

/-! ## Newton with backtracking -/

/-- `nR_prev > nR` for one batch entry. (solvers.py:64) -/
def ltOpt (a b : Option ℝ) : Prop :=
  match a, b with
  | some a, some b => a < b
  | _, _ => False

/-- `(nR - nR_prev) > atol` for one batch entry. (solvers.py:66) -/
def increased (nR nPrev : Option ℝ) (atol : ℝ) : Prop :=
  match nR, nPrev with
  | some a, some b => atol < a - b
  | _, _ => False

variable {V : Type*} [AddCommGroup V] [Module ℝ V]

open Classical in
/-- The `while True` loop of `newton_raphson_bt` (solvers.py:59-67). `fuel` is `max_bt + 1 - k`: the test `k > max_bt` is
`fuel = 0`. Returns the accepted point and the number of points tried. `alpha` has one (repeated) entry per batch entry. -/
noncomputable def btSearch (fn : (β → V) → Res × Jac) (nrm : Res → β → Option ℝ) (atol : ℝ) (x dx : β → V)
    (nPrev : β → Option ℝ) : ℕ → (β → ℝ) → (β → V) × ℕ
  | fuel, alpha =>
    let xp : β → V := fun b => x b - alpha b • dx b
    let nR := nrm (fn xp).1
    match fuel with
    | 0 => (xp, 1)
    | fuel + 1 =>
      if ∀ b, ltOpt (nR b) (nPrev b) then (xp, 1)
      else
        let r := btSearch fn nrm atol x dx nPrev fuel
          fun b => if increased (nR b) (nPrev b) atol then alpha b / 2 else alpha b
        (r.1, r.2 + 1)

/-- One pass of the outer loop of `newton_raphson_bt` (solvers.py:54-70), with its number of trials. -/
noncomputable def btStep (fn : (β → V) → Res × Jac) (solve : Jac → Res → β → V) (nrm : Res → β → Option ℝ) (atol : ℝ)
    (maxBt : ℤ) (x : β → V) : (β → V) × ℕ :=
  btSearch fn nrm atol x (solve (fn x).2 (fn x).1) (nrm (fn x).1) (maxBt + 1).toNat fun _ => 1

open Classical in
/-- The outer loop of `newton_raphson_bt` (solvers.py:53-70). -/
noncomputable def btLoop (fn : (β → V) → Res × Jac) (solve : Jac → Res → β → V) (nrm : Res → β → Option ℝ)
    (rtol atol : ℝ) (maxBt : ℤ) (nR0 : β → Option ℝ) : ℕ → (β → V) → (β → V) × ℕ
  | 0, x => (x, 0)
  | fuel + 1, x =>
    if notConverged (nrm (fn x).1) nR0 rtol atol then
      let r := btLoop fn solve nrm rtol atol maxBt nR0 fuel (btStep fn solve nrm atol maxBt x).1
      (r.1, r.2 + 1)
    else (x, 0)

/-- `newton_raphson_bt` (solvers.py:11-75), the linear solver being given. `x = xp` rebinds the name, so the caller's `x0` is not
modified. -/
noncomputable def newtonRaphsonBt (fn : (β → V) → Res × Jac) (solve : Jac → Res → β → V)
    (nrm : Res → β → Option ℝ) (x0 : β → V) (rtol atol : ℝ) (miter maxBt : ℤ) : SolveOut (β → V) Jac :=
  let r := btLoop fn solve nrm rtol atol maxBt (nrm (fn x0).1) miter.toNat x0
  { x := r.1, J := (fn r.1).2, warned := decide ((r.2 : ℤ) = miter), iters := r.2, callerX0 := x0 }

/-! ## GMRES -/

/-- The tensors `V`, `Z` and `H` of `gmres` (solvers.py:317-325), all zero at first. `V j b` is `V[b, :, j]`, `H j k b` is
`H[b, j, k]`. -/
structure Krylov (β : Type*) (n : ℕ) where
  V : ℕ → β → Fin n → ℝ
  Z : ℕ → β → Fin n → ℝ
  H : ℕ → ℕ → β → ℝ

/-- A preconditioner: `M.dot(x)`. (solvers.py:152-224) -/
abbrev Precond (β : Type*) (n : ℕ) := (β → Fin n → ℝ) → β → Fin n → ℝ

/-- `b - A x` (solvers.py:314, 368). -/
def residual {n : ℕ} (A : β → Matrix (Fin n) (Fin n) ℝ) (b x : β → Fin n → ℝ) : β → Fin n → ℝ :=
  fun i => b i - (A i).mulVec (x i)

/-- The state before the loop (solvers.py:314-322). (A batch entry with a zero initial residual makes its `V[..., 0]` not-a-number
in torch; the model's division by zero gives `0`.) -/
noncomputable def krylovInit {n : ℕ} (M : Precond β n) (r : β → Fin n → ℝ) : Krylov β n :=
  let v0 : β → Fin n → ℝ := fun i j => r i j / rowNorm (r i)
  { V := fun j => if j = 0 then v0 else 0
    Z := fun j => if j = 0 then M v0 else 0
    H := fun _ _ _ => 0 }

/-- The orthogonalisation loop `for j in range(k + 1)` (solvers.py:346-350): column `k` of `H` and the vector `w`, after `J` passes. -/
def orthogonalize {n : ℕ} (V : ℕ → β → Fin n → ℝ) (w0 : β → Fin n → ℝ) : ℕ → (ℕ → β → ℝ) × (β → Fin n → ℝ)
  | 0 => (fun _ _ => 0, w0)
  | j + 1 =>
    let s := orthogonalize V w0 j
    let hj : β → ℝ := fun i => V j i ⬝ᵥ s.2 i
    (fun l => if l = j then hj else s.1 l, fun i => s.2 i - hj i • V j i)

/-- One pass of the Arnoldi iteration (solvers.py:343-357). -/
noncomputable def arnoldi {n : ℕ} (A : β → Matrix (Fin n) (Fin n) ℝ) (M : Precond β n) (eps : ℝ) (k : ℕ) (s : Krylov β n) :
    Krylov β n :=
  let o := orthogonalize s.V (fun i => (A i).mulVec (s.Z k i)) (k + 1)
  let hn : β → ℝ := fun i => rowNorm (o.2 i) + eps
  let v : β → Fin n → ℝ := fun i j => o.2 i j / hn i
  { V := fun j => if j = k + 1 then v else s.V j
    Z := fun j => if j = k + 1 then M v else s.Z j
    H := fun l c => if c = k then (if l = k + 1 then hn else if l < k + 1 then o.1 l else s.H l c) else s.H l c }

/-- A least squares routine (`torch.linalg.lstsq`): from `H[..., : k + 1, : k]` and the first `k + 1` entries of a right hand side to
`k` numbers per batch entry. Left arbitrary. (solvers.py:362-364) -/
abbrev Lstsq (β : Type*) := (k : ℕ) → (ℕ → ℕ → β → ℝ) → (ℕ → β → ℝ) → ℕ → β → ℝ

/-- The approximate solution computed in pass `k` (solvers.py:362-366). -/
noncomputable def project {n : ℕ} (lstsq : Lstsq β) (nR : β → ℝ) (x0 : β → Fin n → ℝ) (k : ℕ) (s : Krylov β n) :
    β → Fin n → ℝ :=
  let e1 : ℕ → β → ℝ := fun j => if j = 0 then nR else fun _ => 0
  let y := lstsq k s.H e1
  fun i => (∑ l ∈ Finset.range k, y l i • s.Z l i) + x0 i

open Classical in
/-- The loop `for k in range(maxiter)` (solvers.py:341-372): `fuel` passes left, the next one is number `k`. Returns `x` and the
`k` of the last pass. -/
noncomputable def gmresLoop {n : ℕ} (A : β → Matrix (Fin n) (Fin n) ℝ) (b x0 : β → Fin n → ℝ) (M : Precond β n)
    (lstsq : Lstsq β) (tol eps : ℝ) (check maxiter : ℕ) (nR : β → ℝ) :
    ℕ → ℕ → Krylov β n → (β → Fin n → ℝ) → (β → Fin n → ℝ) × ℕ
  | 0, k, _, x => (x, k - 1)
  | fuel + 1, k, s, x =>
    let s' := arnoldi A M eps k s
    if (k + 1) % check = 0 ∨ k + 1 = maxiter then
      let x' := project lstsq nR x0 k s'
      if ∀ i, rowNorm (residual A b x' i) < tol then (x', k)
      else gmresLoop A b x0 M lstsq tol eps check maxiter nR fuel (k + 1) s' x'
    else gmresLoop A b x0 M lstsq tol eps check maxiter nR fuel (k + 1) s' x

open Classical in
/-- `gmres` (solvers.py:274-376) with `return_iters=True`; `maxiter ≥ 1`. -/
noncomputable def gmres {n : ℕ} (A : β → Matrix (Fin n) (Fin n) ℝ) (b x0 : β → Fin n → ℝ) (M : Precond β n)
    (lstsq : Lstsq β) (tol eps : ℝ) (maxiter check : ℕ) : (β → Fin n → ℝ) × ℕ :=
  let r := residual A b x0
  let nR : β → ℝ := fun i => rowNorm (r i)
  if ∀ i, nR i < tol then (x0, 0)
  else gmresLoop A b x0 M lstsq tol eps check maxiter nR maxiter 0 (krylovInit M r) x0

/-! ## Newton with a remembered preconditioner -/

/-- `LUPreconitionerOperator(J).dot` (solvers.py:209-224). -/
noncomputable def luPrecond {n : ℕ} (J : β → Matrix (Fin n) (Fin n) ℝ) : Precond β n := luLinearSolve J

open Classical in
/-- The loop of `PreconditionerReuseNonlinearSolver.solve` (solvers.py:410-426) on the pair (`x`, stored preconditioner).
The update `x -= dx` works in place on the tensor that was handed to `gmres` as `x0`; `gmres` does not keep it, but may return it
itself (solvers.py:333): `x -= x`. -/
noncomputable def reuseLoop {n : ℕ} (fn : (β → Fin n → ℝ) → (β → Fin n → ℝ) × (β → Matrix (Fin n) (Fin n) ℝ))
    (lstsq : Lstsq β) (rtol atol ltol : ℝ) (nR0 : β → Option ℝ) :
    ℕ → (β → Fin n → ℝ) → Precond β n → ((β → Fin n → ℝ) × Precond β n) × ℕ
  | 0, x, M => ((x, M), 0)
  | fuel + 1, x, M =>
    if notConverged (fun b => some (rowNorm ((fn x).1 b))) nR0 rtol atol then
      let g := gmres (fn x).2 (fn x).1 x M lstsq ltol 1e-15 (n + 1) (max 1 ((n + 1) / 10))
      let x' := x - g.1
      let M' := if n * 2 / 3 < g.2 then luPrecond (fn x').2 else M
      let r := reuseLoop fn lstsq rtol atol ltol nR0 fuel x' M'
      (r.1, r.2 + 1)
    else ((x, M), 0)

/-- `PreconditionerReuseNonlinearSolver.solve` (solvers.py:392-433): takes the preconditioner stored by earlier calls (`none`
at first), returns also the one it leaves behind. -/
noncomputable def reuseSolve {n : ℕ} (fn : (β → Fin n → ℝ) → (β → Fin n → ℝ) × (β → Matrix (Fin n) (Fin n) ℝ))
    (lstsq : Lstsq β) (stored : Option (Precond β n)) (x0 : β → Fin n → ℝ) (rtol atol : ℝ) (miter : ℤ) (ltol : ℝ) :
    SolveOut (β → Fin n → ℝ) (β → Matrix (Fin n) (Fin n) ℝ) × Precond β n :=
  let M := stored.getD (luPrecond (fn x0).2)
  let r := reuseLoop fn lstsq rtol atol ltol (fun b => some (rowNorm ((fn x0).1 b))) miter.toNat x0 M
  ({ x := r.1.1, J := (fn r.1.1).2, warned := decide ((r.2 : ℤ) = miter), iters := r.2, callerX0 := r.1.1 }, r.1.2)

end Pyoptmat.Solvers
