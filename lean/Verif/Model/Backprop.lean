import Verif.Model.Ode

/-!
# Model: what automatic differentiation sees of `odeint`

`odeint` (ode.py:530-558) runs `integrate` with gradients enabled, so `backward` differentiates the operations that were executed. The test that ends the Newton loop (chunktime.py:50) is not
differentiated: the number of updates of each block is that of the run. Only Thomas and dense solves: the other factorizations overwrite tensors kept for `backward`, which autograd may refuse.
-/

namespace Pyoptmat.Ode

open Pyoptmat.Chunktime

variable {β : Type*} {m : ℕ}

/-- The rows `block_update` returns (ode.py:477-523) if its Newton loop (chunktime.py:43-61) makes `K` updates of the zero guess (ode.py:397-398). -/
noncomputable def recordedBlock (s : Scheme) (meth : SolveMethod) (f : BFunc β m) {n : ℕ} (t : Fin n → β → ℝ) (tStart : β → ℝ) (yStart : BVec β m ℝ) (K : ℕ) : Fin n → BVec β m ℝ :=
  fun k => unflatten ((fun x => x - solve meth (blockRJ s f t tStart yStart x).2 (blockRJ s f t tStart yStart x).1)^[K] 0) k + yStart

/-- The result tensor after the first `i` blocks (ode.py:369-381) if block `i` makes `K i` updates; rows not written yet are `0`. -/
noncomputable def recordedLoop (s : Scheme) (meth : SolveMethod) (f : BFunc β m) (y0 : BVec β m ℝ) (nt n : ℕ) (t : ℕ → β → ℝ) (K : ℕ → ℕ) : ℕ → ℕ → BVec β m ℝ
  | 0 => fun j => if j = 0 then y0 else 0
  | i + 1 => fun j =>
    if h : 1 + i * n ≤ j ∧ j - (1 + i * n) < sliceLen nt (1 + i * n) n then
      recordedBlock s meth f (fun l : Fin (sliceLen nt (1 + i * n) n) => t (1 + i * n + l.val)) (t (i * n)) (recordedLoop s meth f y0 nt n t K i (i * n)) (K i) ⟨j - (1 + i * n), h.2⟩
    else recordedLoop s meth f y0 nt n t K i j

/-- The rows of `integrate` (ode.py:354-388) as the straight-line computation that was recorded, given the numbers of updates of the blocks. -/
noncomputable def recordedIntegrate (s : Scheme) (meth : SolveMethod) (f : BFunc β m) (y0 : BVec β m ℝ) (nt n : ℕ) (t : ℕ → β → ℝ) (K : ℕ → ℕ) : ℕ → BVec β m ℝ :=
  recordedLoop s meth f y0 nt n t K ((nt - 1 + (n - 1)) / n)

end Pyoptmat.Ode
