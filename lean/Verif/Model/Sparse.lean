import Verif.Model.Chunktime
import Verif.Model.Solvers

/-!
# Model of the CSR conversion of `pyoptmat/chunktime.py` and of the preconditioned GMRES front ends of `pyoptmat/solvers.py`
-/

namespace Pyoptmat.Chunktime

variable {β : Type*} {m : ℕ} {K : Type*} [Field K]

/-- A CSR matrix: its two sizes and its entries. (chunktime.py:713-716) -/
structure Csr (K : Type*) where
  rows : ℕ
  cols : ℕ
  entry : ℕ → ℕ → K

/-- The size `torch.sparse_coo_tensor` gives a sparse dimension when called without `size`, as at chunktime.py:714: the smallest
that holds every index. -/
def inferredSize (is : List ℕ) : ℕ := (is.map (· + 1)).foldl max 0

/-- `to_unrolled_csr` (chunktime.py:707-716): one matrix per batch entry, built from the coalesced indices and column `i` of the
values. (`coalesce` leaves the set of indices as it is and sums the values at equal indices. Indices pass through a `float32` array at
chunktime.py:660; those of `2^24` and above are rounded there, which is not modelled.) -/
def BlockDiag.unrolledCsr {sbat : ℕ} (M : BlockDiag (Fin sbat) m K) : List (Csr K) :=
  List.ofFn fun i : Fin sbat =>
    { rows := inferredSize (M.cooEntries.map fun e => e.1)
      cols := inferredSize (M.cooEntries.map fun e => e.2.1)
      entry := fun r c => cooDenote M.cooEntries r c i }

end Pyoptmat.Chunktime

namespace Pyoptmat.Solvers

variable {β : Type*} {n : ℕ}

/-- `NoOp.dot` (solvers.py:152-170). -/
def noOp : Precond β n := fun x => x

/-- `JacobiPreconitionerOperator(A).dot` (solvers.py:173-198). -/
noncomputable def jacobiPrecond (A : β → Matrix (Fin n) (Fin n) ℝ) : Precond β n := fun x i j => x i j / A i j j

/-- The keyword arguments of `gmres` (solvers.py:274-284) as a caller may give them; `none` is an absent one. -/
structure GmresKw (β : Type*) (n : ℕ) where
  x0 : Option (β → Fin n → ℝ) := none
  M : Option (Precond β n) := none
  tol : Option ℝ := none
  maxiter : Option ℕ := none
  check : Option ℕ := none
  eps : Option ℝ := none

/-- `gmres(A, b, **kwargs)` with its defaults (solvers.py:274-284, 309-311), `return_iters=True`. -/
noncomputable def gmresKw (A : β → Matrix (Fin n) (Fin n) ℝ) (b : β → Fin n → ℝ) (lstsq : Lstsq β) (kw : GmresKw β n) :
    (β → Fin n → ℝ) × ℕ :=
  gmres A b (kw.x0.getD 0) (kw.M.getD noOp) lstsq (kw.tol.getD 1e-10) (kw.eps.getD 1e-15) (kw.maxiter.getD 100) (kw.check.getD 5)

/-- `lu_gmres(A, b, **kwargs)` (solvers.py:227-249). Python refuses a second value for the keyword `M`; `check` is dropped. -/
noncomputable def luGmres (A : β → Matrix (Fin n) (Fin n) ℝ) (b : β → Fin n → ℝ) (lstsq : Lstsq β) (kw : GmresKw β n) :
    Except String ((β → Fin n → ℝ) × ℕ) :=
  let kw' := { kw with check := none }
  match kw'.M with
  | some _ => .error "TypeError: gmres() got multiple values for keyword argument 'M'"
  | none => .ok (gmresKw A b lstsq { kw' with M := some (luPrecond A), check := some 1 })

/-- `jacobi_gmres(A, b, **kwargs)` (solvers.py:252-271). -/
noncomputable def jacobiGmres (A : β → Matrix (Fin n) (Fin n) ℝ) (b : β → Fin n → ℝ) (lstsq : Lstsq β) (kw : GmresKw β n) :
    Except String ((β → Fin n → ℝ) × ℕ) :=
  match kw.M with
  | some _ => .error "TypeError: gmres() got multiple values for keyword argument 'M'"
  | none => .ok (gmresKw A b lstsq { kw with M := some (jacobiPrecond A) })

end Pyoptmat.Solvers
