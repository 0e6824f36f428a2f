import Verif.Model.Ode

/-!
# Model of the block time integration with inexact arithmetic (`pyoptmat/ode.py:354-519`)

The same program as `Model/Ode.lean`, in which every operation that rounds on a computer is an arbitrary function: the residual and Jacobian of a block, the linear solve, the Newton update, the norm and the
addition of the starting state. States are numbers (a not-a-number can only appear as a norm); the division of the two norms in the relative test and the differences of the guess `"previous"` are not rounded.
-/

namespace Pyoptmat.Ode

open Pyoptmat.Chunktime Pyoptmat.Newton

variable {β : Type*} {m : ℕ}

/-- What a machine computes in place of the operations of a block update: `R` for `RJ` (ode.py:490-505: reshape, stack, the call of the right hand side, `form_operators`), `solve` for `J_inv.matvec` of
the linear solver (chunktime.py:52), `sub` for `x -= dx` (chunktime.py:52), `norm` for `torch.norm` (chunktime.py:46, 54), `add` for `dy.reshape(…).transpose(0, 1) + y_start` (ode.py:517-519). -/
structure Arith (β : Type*) (m : ℕ) where
  R : (n : ℕ) → (Fin n → β → ℝ) → (β → ℝ) → BVec β m ℝ → (β → Fin (n * m) → ℝ) → (β → Fin (n * m) → ℝ) × BidiagOp β n m ℝ
  solve : (n : ℕ) → BidiagOp β n m ℝ → (β → Fin (n * m) → ℝ) → β → Fin (n * m) → ℝ
  sub : (n : ℕ) → (β → Fin (n * m) → ℝ) → (β → Fin (n * m) → ℝ) → β → Fin (n * m) → ℝ
  norm : (n : ℕ) → (β → Fin (n * m) → ℝ) → β → Option ℝ
  add : (n : ℕ) → (β → Fin (n * m) → ℝ) → BVec β m ℝ → Fin n → BVec β m ℝ

/-- The exact operations (ode.py:490-519), as in `Model/Ode.lean`. -/
noncomputable def exactArith (c : Config) (f : BFunc β m) : Arith β m where
  R := fun _ t tStart yStart => blockRJ c.scheme f t tStart yStart
  solve := fun _ J R => Chunktime.solve c.method J R
  sub := fun _ x dx => x - dx
  norm := fun _ R b => some (rowNorm (R b))
  add := fun _ dy yStart k => unflatten dy k + yStart

/-- The operations with rounding (ode.py:490-519, and 51-93 and 159-203 for the two schemes): `fl` rounds the result of every addition, subtraction and product in the residual and in the returned states;
`f` is the right hand side as the machine computes it. The Jacobian, the linear solve, the Newton update and the norm are arbitrary. -/
def floatArith (fl : ℝ → ℝ) (s : Scheme) (f : BFunc β m) (jac : (n : ℕ) → (Fin n → β → ℝ) → (β → ℝ) → BVec β m ℝ → (β → Fin (n * m) → ℝ) → BidiagOp β n m ℝ)
    (solve : (n : ℕ) → BidiagOp β n m ℝ → (β → Fin (n * m) → ℝ) → β → Fin (n * m) → ℝ) (sub : (n : ℕ) → (β → Fin (n * m) → ℝ) → (β → Fin (n * m) → ℝ) → β → Fin (n * m) → ℝ)
    (norm : (n : ℕ) → (β → Fin (n * m) → ℝ) → β → Option ℝ) : Arith β m where
  R := fun n t tStart yStart dy =>
    let dyS : Fin (n + 1) → BVec β m ℝ := stack 0 (unflatten dy)
    let y : Fin (n + 1) → BVec β m ℝ := fun k b i => fl (dyS k b i + yStart b i)
    let times := stack tStart t
    let dt : Fin n → β → ℝ := fun k b => fl (times k.succ b - times k.castSucc b)
    let yd := (f (n + 1) times y).1
    (flatten fun k b i => fl (fl (dyS k.succ b i - dyS k.castSucc b i) -
        fl (dt k b * (match s with | .backwardEuler => yd k.succ b i | .forwardEuler => yd k.castSucc b i))), jac n t tStart yStart dy)
  solve := solve
  sub := sub
  norm := norm
  add := fun _ dy yStart k b i => fl (unflatten dy k b i + yStart b i)

/-- The Newton solve of `block_update` (ode.py:507-515) in inexact arithmetic. -/
noncomputable def blockNewtonWith (a : Arith β m) (c : Config) {n : ℕ} (t : Fin n → β → ℝ) (tStart : β → ℝ) (yStart : BVec β m ℝ) (guess : β → Fin (n * m) → ℝ) :
    Out (β → Fin (n * m) → ℝ) :=
  newtonChunk (a.R n t tStart yStart) (a.solve n) (a.sub n) (a.norm n) guess c.rtol c.atol c.miter c.throwOnFail

/-- `block_update` (ode.py:477-519) in inexact arithmetic. -/
noncomputable def blockUpdateWith (a : Arith β m) (c : Config) {n : ℕ} (t : Fin n → β → ℝ) (tStart : β → ℝ) (yStart : BVec β m ℝ) (guess : β → Fin (n * m) → ℝ) :
    Except String ((Fin n → BVec β m ℝ) × Bool) :=
  match (blockNewtonWith a c t tStart yStart guess).result with
  | .error e => .error e
  | .ok dy => .ok (a.add n dy yStart, (blockNewtonWith a c t tStart yStart guess).warned)

/-- Body of the time loop (ode.py:375-381) in inexact arithmetic. -/
noncomputable def integrateStepWith (a : Arith β m) (c : Config) (nt n : ℕ) (t : ℕ → β → ℝ) (st : Partial β m × Bool) (k : ℕ) : Except String (Partial β m × Bool) :=
  match initialGuess c.guessType nt n st.1 k with
  | .error e => .error e
  | .ok g =>
    if g.length = sliceLen nt k n then
      match blockUpdateWith a c (fun j : Fin (sliceLen nt k n) => t (k + j.val)) (t (k - 1)) (st.1.get (k - 1)) (flatten fun j : Fin (sliceLen nt k n) => g.getD j.val 0) with
      | .error e => .error e
      | .ok r => .ok (fun j => if h : k ≤ j ∧ j - k < sliceLen nt k n then some (r.1 ⟨j - k, h.2⟩) else st.1 j, st.2 || r.2)
    else .error "shape mismatch in reshape"

/-- The time loop (ode.py:374-381) in inexact arithmetic. -/
noncomputable def integrateLoopWith (a : Arith β m) (c : Config) (nt n : ℕ) (t : ℕ → β → ℝ) : List ℕ → Partial β m × Bool → Except String (Partial β m × Bool)
  | [], st => .ok st
  | k :: ks, st =>
    match integrateStepWith a c nt n t st k with
    | .error e => .error e
    | .ok st' => integrateLoopWith a c nt n t ks st'

/-- `FixedGridBlockSolver.integrate` (ode.py:354-388) in inexact arithmetic: of the options `c`, the scheme and the linear solver are in `a`. -/
noncomputable def integrateWith (a : Arith β m) (c : Config) (y0 : BVec β m ℝ) (nt : ℕ) (t : ℕ → β → ℝ) (blockSize : ℤ) : Except String (Partial β m × Bool) :=
  if nt = 0 then .error "IndexError"
  else
    match blockStarts nt blockSize with
    | .error e => .error e
    | .ok starts => integrateLoopWith a c nt blockSize.toNat t starts (fun j => if j = 0 then some y0 else none, false)

end Pyoptmat.Ode
