import Mathlib.Analysis.Real.Sqrt
import Mathlib.Algebra.BigOperators.Fin

/-!
# Model of `newton_raphson_chunk` (`pyoptmat/chunktime.py:22-61`)

The norms may be `none`, standing for a not-a-number; every comparison with it is false.
-/

namespace Pyoptmat.Newton

/-- `torch.norm(R, dim=-1)` of one batch entry (chunktime.py:46): the Euclidean norm, exact. -/
noncomputable def rowNorm {N : ℕ} (r : Fin N → ℝ) : ℝ := Real.sqrt (∑ i, r i ^ 2)

/-- `nR > atol` (chunktime.py:50) for one entry, false on not-a-number. -/
def gtAtol (a : Option ℝ) (atol : ℝ) : Prop :=
  match a with
  | some a => atol < a
  | none => False

/-- `nR / nR0 > rtol` (chunktime.py:50) for one entry of non-negative norms. Division by a zero `nR0`
gives `inf` (test true) for a positive `nR` and not-a-number (test false) for `nR = 0`; so on numbers the
test is `rtol * nR0 < nR`. -/
def gtRtol (a a0 : Option ℝ) (rtol : ℝ) : Prop :=
  match a, a0 with
  | some a, some a0 => rtol * a0 < a
  | _, _ => False

variable {X Res Jac β : Type*}

/-- The two `torch.any` tests of the loop condition (chunktime.py:50). -/
def notConverged (nR nR0 : β → Option ℝ) (rtol atol : ℝ) : Prop :=
  (∃ b, gtAtol (nR b) atol) ∧ ∃ b, gtRtol (nR b) (nR0 b) rtol

open Classical in
/-- The `while` loop (chunktime.py:50-54). `fuel` is `miter - i`. `sub x dx` is the in-place `x -= dx`.
Returns the final `x` and the number of updates made in the loop. -/
noncomputable def loop (fn : X → Res × Jac) (solve : Jac → Res → X) (sub : X → X → X)
    (nrm : Res → β → Option ℝ) (rtol atol : ℝ) (nR0 : β → Option ℝ) : ℕ → X → X × ℕ
  | 0, x => (x, 0)
  | fuel + 1, x =>
    if notConverged (nrm (fn x).1) nR0 rtol atol then
      let r := loop fn solve sub nrm rtol atol nR0 fuel (sub x (solve (fn x).2 (fn x).1))
      (r.1, r.2 + 1)
    else (x, 0)

/-- Everything observable about a call: the value returned (or the exception), whether a warning was
issued, the number of updates and the contents of the caller's `x0` afterwards. (chunktime.py:22-61) -/
structure Out (X : Type*) where
  result : Except String X
  warned : Bool
  iters : ℕ
  callerX0 : X

/-- `newton_raphson_chunk` (chunktime.py:22-61). `x = x0` is an alias (chunktime.py:43) and `x -= …`
works in place, so the caller's `x0` ends up holding the last iterate. `miter` is a Python integer: a
negative one makes no update and `i == miter` fails. -/
noncomputable def newtonChunk (fn : X → Res × Jac) (solve : Jac → Res → X) (sub : X → X → X)
    (nrm : Res → β → Option ℝ) (x0 : X) (rtol atol : ℝ) (miter : ℤ) (throwOnFail : Bool) : Out X :=
  let r := loop fn solve sub nrm rtol atol (nrm (fn x0).1) miter.toNat x0
  if (r.2 : ℤ) = miter then
    if throwOnFail then
      { result := .error "Implicit solve did not succeed.", warned := false, iters := r.2,
        callerX0 := r.1 }
    else { result := .ok r.1, warned := true, iters := r.2, callerX0 := r.1 }
  else { result := .ok r.1, warned := false, iters := r.2, callerX0 := r.1 }

end Pyoptmat.Newton
