import Verif.Model.Chunktime
import Verif.Model.Newton

/-!
# Model of `pyoptmat/ode.py`: block time integration and its adjoint

`β` is the batch index, `m` the number of equations. The right hand side `func(t, y)` is called on all the
times of a block and all batch entries at once (`BFunc`); most act time by time and batch entry by batch
entry (`Func`, with `f b t y` the pair of rate and Jacobian), but under stress control the entries of a call
are coupled by the inner Newton solve. Real arithmetic.
-/

namespace Pyoptmat.Ode

open Pyoptmat.Chunktime Pyoptmat.Newton

variable {β : Type*} {m : ℕ}

/-- `func` returning the rate and the Jacobian (ode.py:268, 503). -/
abbrev Func (β : Type*) (m : ℕ) :=
  β → ℝ → (Fin m → ℝ) → (Fin m → ℝ) × Matrix (Fin m) (Fin m) ℝ

/-- `func` as it is called (ode.py:496-503): `n` times and states for every batch entry, in one call. -/
abbrev BFunc (β : Type*) (m : ℕ) :=
  (n : ℕ) → (Fin n → β → ℝ) → (Fin n → BVec β m ℝ) → (Fin n → BVec β m ℝ) × (Fin n → Blk β m ℝ)

/-- A right hand side that acts entry by entry (ode.py:541-543), as a call on a block (ode.py:496-503). -/
def Func.lift (f : Func β m) : BFunc β m := fun _ t y =>
  (fun k b => (f b (t k b) (y k b)).1, fun k b => (f b (t k b) (y k b)).2)

instance : Coe (Func β m) (BFunc β m) := ⟨Func.lift⟩

/-- The two time integration schemes (ode.py:46, 154). -/
inductive Scheme where
  | backwardEuler
  | forwardEuler

/-- `int_methods[method]` (ode.py:523-526, 572, 665); an unknown name raises `KeyError`. -/
def intMethods (s : String) : Except String Scheme :=
  if s = "backward-euler" then .ok .backwardEuler
  else if s = "forward-euler" then .ok .forwardEuler
  else .error "KeyError"

/-- The `direct_solve_method` dispatch of the constructor (ode.py:331-342). -/
def directOfString (s : String) (minSize : ℤ) : Except String Direct :=
  if s = "thomas" then .ok .thomas
  else if s = "pcr" then .ok .pcr
  else if s = "hybrid" then .ok (.hybrid minSize)
  else .error "Unknown batched bidiagonal solver method"

/-- The option strings of the constructor (ode.py:326-342) combined with
`ChunkTimeOperatorSolverContext.__init__`. -/
def solveMethodOfStrings (linear direct : String) (minSize : ℤ) : Except String SolveMethod := do
  let isDense ← contextOfString linear
  let d ← directOfString direct minSize
  return if isDense then .dense else .direct d

/-- `times = vstack((t_start, t))` or `dy = vstack((0, dy))` (ode.py:494, 499). -/
def stack {α : Type*} {n : ℕ} (x0 : α) (x : Fin n → α) : Fin (n + 1) → α := Fin.cons x0 x

/-- `times.diff(dim=0)` (ode.py:500). -/
def diff {n : ℕ} (times : Fin (n + 1) → β → ℝ) : Fin n → β → ℝ :=
  fun k b => times k.succ b - times k.castSucc b

/-- `form_operators` of the two schemes (ode.py:51-93 and 159-203): residual and bidiagonal operator.
Rows are 0-based: row `k` of `dy[1:]` is `dy k.succ`, of `dy[:-1]` is `dy k.castSucc`; entry `j` of
`yJ[1:-1]` and of `dt[1:]` are `yJ (j+1)` and `dt (j+1)`. -/
def formOperators (s : Scheme) {n : ℕ} (dy yd : Fin (n + 1) → BVec β m ℝ)
    (yJ : Fin (n + 1) → Blk β m ℝ) (dt : Fin n → β → ℝ) :
    (β → Fin (n * m) → ℝ) × BidiagOp β n m ℝ :=
  match s with
  | .backwardEuler =>
    (flatten fun k b => dy k.succ b - dy k.castSucc b - dt k b • yd k.succ b,
     { A := fun k b => 1 - dt k b • yJ k.succ b
       B := fun _ _ => -1 })
  | .forwardEuler =>
    (flatten fun k b => dy k.succ b - dy k.castSucc b - dt k b • yd k.castSucc b,
     { A := fun _ _ => 1
       B := fun j b => -1 - dt ⟨j.val + 1, by omega⟩ b • yJ ⟨j.val + 1, by omega⟩ b })

/-- The function `RJ` of `block_update` (ode.py:490-505). -/
def blockRJ (s : Scheme) (f : BFunc β m) {n : ℕ} (t : Fin n → β → ℝ) (tStart : β → ℝ)
    (yStart : BVec β m ℝ) (dy : β → Fin (n * m) → ℝ) :
    (β → Fin (n * m) → ℝ) × BidiagOp β n m ℝ :=
  let dyS : Fin (n + 1) → BVec β m ℝ := stack 0 (unflatten dy)
  let y : Fin (n + 1) → BVec β m ℝ := fun k => dyS k + yStart
  let times := stack tStart t
  formOperators s dyS (f (n + 1) times y).1 (f (n + 1) times y).2 (diff times)

/-- Parameters of `FixedGridBlockSolver` (ode.py:288-304). -/
structure Config where
  scheme : Scheme
  method : SolveMethod
  rtol : ℝ
  atol : ℝ
  miter : ℤ
  throwOnFail : Bool
  guessType : String

/-- The Newton solve of `block_update` (ode.py:507-515). -/
noncomputable def blockNewton (c : Config) (f : BFunc β m) {n : ℕ} (t : Fin n → β → ℝ)
    (tStart : β → ℝ) (yStart : BVec β m ℝ) (guess : β → Fin (n * m) → ℝ) :
    Out (β → Fin (n * m) → ℝ) :=
  newtonChunk (blockRJ c.scheme f t tStart yStart) (fun J R => solve c.method J R)
    (fun x dx => x - dx) (fun R b => some (rowNorm (R b))) guess c.rtol c.atol c.miter c.throwOnFail

/-- `block_update` (ode.py:477-519): rows `dy_k + y_start`, and whether a warning was issued. -/
noncomputable def blockUpdate (c : Config) (f : BFunc β m) {n : ℕ} (t : Fin n → β → ℝ)
    (tStart : β → ℝ) (yStart : BVec β m ℝ) (guess : β → Fin (n * m) → ℝ) :
    Except String ((Fin n → BVec β m ℝ) × Bool) :=
  match (blockNewton c f t tStart yStart guess).result with
  | .error e => .error e
  | .ok dy => .ok (fun k => unflatten dy k + yStart, (blockNewton c f t tStart yStart guess).warned)

/-- `range(1, nt, n)` (ode.py:374, 443): a zero step raises, a negative step gives no iterations. -/
def blockStarts (nt : ℕ) (n : ℤ) : Except String (List ℕ) :=
  if n = 0 then .error "range() arg 3 must not be zero"
  else if n < 0 then .ok []
  else .ok (List.range' 1 ((nt - 1 + (n.toNat - 1)) / n.toNat) n.toNat)

/-- Length of the slice `x[k : k + n]` of a tensor with `nt` rows. (ode.py:375-376, 443-446) -/
def sliceLen (nt k n : ℕ) : ℕ := min (k + n) nt - k

/-- The result tensor being filled: `none` marks an entry of `torch.empty` that was never written. (ode.py:369) -/
abbrev Partial (β : Type*) (m : ℕ) := ℕ → Option (BVec β m ℝ)

/-- Reading an entry; an uninitialised one could hold anything (represented by `0`, never used in a
positive statement). (ode.py:369) -/
def Partial.get (r : Partial β m) (k : ℕ) : BVec β m ℝ := (r k).getD 0

/-- `_initial_guess` before the final flattening (ode.py:390-410): a list of rows. -/
def initialGuess (guessType : String) (nt n : ℕ) (result : Partial β m) (k : ℕ) :
    Except String (List (BVec β m ℝ)) :=
  if guessType = "zero" then .ok (List.replicate (sliceLen nt k n) 0)
  else if guessType = "previous" then
    let guess : List (BVec β m ℝ) :=
      if (k : ℤ) - n - 1 < 0 then List.replicate (sliceLen nt k n) 0
      else (List.range' (k - n) n).map fun j => result.get j - result.get (k - n - 1)
    .ok (guess.drop (n - sliceLen nt k n))
  else .error "Unknown initial guess strategy"

/-- Body of the time loop (ode.py:375-381). A guess with the wrong number of rows makes the `reshape` in
`block_update` (ode.py:492) fail. -/
noncomputable def integrateStep (c : Config) (f : BFunc β m) (nt n : ℕ) (t : ℕ → β → ℝ)
    (st : Partial β m × Bool) (k : ℕ) : Except String (Partial β m × Bool) :=
  match initialGuess c.guessType nt n st.1 k with
  | .error e => .error e
  | .ok g =>
    if g.length = sliceLen nt k n then
      match blockUpdate c f (fun j : Fin (sliceLen nt k n) => t (k + j.val)) (t (k - 1))
        (st.1.get (k - 1)) (flatten fun j : Fin (sliceLen nt k n) => g.getD j.val 0) with
      | .error e => .error e
      | .ok r =>
        .ok (fun j => if h : k ≤ j ∧ j - k < sliceLen nt k n then some (r.1 ⟨j - k, h.2⟩) else st.1 j,
          st.2 || r.2)
    else .error "shape mismatch in reshape"

/-- The `for k in range(1, t.shape[0], self.n)` loop (ode.py:374-381), stopping at the first exception. -/
noncomputable def integrateLoop (c : Config) (f : BFunc β m) (nt n : ℕ) (t : ℕ → β → ℝ) :
    List ℕ → Partial β m × Bool → Except String (Partial β m × Bool)
  | [], st => .ok st
  | k :: ks, st =>
    match integrateStep c f nt n t st k with
    | .error e => .error e
    | .ok st' => integrateLoop c f nt n t ks st'

/-- `FixedGridBlockSolver.integrate` (ode.py:354-388): the `nt` rows of `t` are `t 0 … t (nt-1)`. Returns
the result tensor and whether any warning was issued. `result[0] = y0` fails without any time. -/
noncomputable def integrate (c : Config) (f : BFunc β m) (y0 : BVec β m ℝ) (nt : ℕ) (t : ℕ → β → ℝ)
    (blockSize : ℤ) : Except String (Partial β m × Bool) :=
  if nt = 0 then .error "IndexError"
  else
    match blockStarts nt blockSize with
    | .error e => .error e
    | .ok starts =>
      integrateLoop c f nt blockSize.toNat t starts (fun j => if j = 0 then some y0 else none, false)

/-! ## Adjoint -/

/-- `update_adjoint` of the two schemes (ode.py:95-131 and 205-240). `dt` is the difference of the *flipped*
times. `adjoint_block + a_prev` has `a_prev` in row 0. -/
noncomputable def updateAdjoint (s : Scheme) (d : Direct) {n : ℕ} (dt : Fin n → β → ℝ)
    (J : Fin (n + 1) → Blk β m ℝ) (aPrev : BVec β m ℝ) (grads : Fin (n + 1) → BVec β m ℝ) :
    Fin (n + 1) → BVec β m ℝ :=
  let z : Fin n → BVec β m ℝ :=
    match s with
    | .backwardEuler =>
      let dJ : Fin n → Blk β m ℝ := fun k b => dt k b • (J k.castSucc b).transpose
      let rhs : Fin n → BVec β m ℝ := fun k b =>
        grads k.succ b + (dJ k b).mulVec (grads k.succ b - aPrev b)
      fun k => (d.matvec n (memOf fun (k : Fin n) b => (1 : Matrix (Fin m) (Fin m) ℝ) + dJ k b)
        (memOf fun (_ : Fin (n - 1)) (_ : β) => (-1 : Matrix (Fin m) (Fin m) ℝ)) (memOf rhs)).ret k
    | .forwardEuler =>
      let dJ : Fin n → Blk β m ℝ := fun k b => dt k b • (J k.succ b).transpose
      let rhs : Fin n → BVec β m ℝ := fun k b => grads k.succ b + (dJ k b).mulVec (-aPrev b)
      fun k => (d.matvec n (memOf fun (_ : Fin n) (_ : β) => (1 : Matrix (Fin m) (Fin m) ℝ))
        (memOf fun (k : Fin (n - 1)) b => dJ ⟨k.val + 1, by omega⟩ b - 1) (memOf rhs)).ret k
  fun k => stack 0 z k + aPrev

/-- `_get_param_partial` (ode.py:412-423): the vector-Jacobian product with all parameters, summed over
the times and batches passed in. The tuple of parameter tensors is one flat vector of length `p`;
`fp b t y` is the derivative of the rate with respect to it. -/
def paramPartial [Fintype β] {p n : ℕ} (fp : β → ℝ → (Fin m → ℝ) → Matrix (Fin m) (Fin p) ℝ)
    (t : Fin n → β → ℝ) (y w : Fin n → BVec β m ℝ) : Fin p → ℝ :=
  ∑ k, ∑ b, Matrix.vecMul (w k b) (fp b (t k b) (y k b))

/-- `accumulate` of the two schemes (ode.py:133-151, 242-260). -/
def accumulate [Fintype β] (s : Scheme) {p n : ℕ}
    (fp : β → ℝ → (Fin m → ℝ) → Matrix (Fin m) (Fin p) ℝ) (prev : Fin p → ℝ)
    (time : Fin (n + 1) → β → ℝ) (y a grad : Fin (n + 1) → BVec β m ℝ) : Fin p → ℝ :=
  match s with
  | .backwardEuler =>
    prev + paramPartial fp (fun k : Fin n => time k.castSucc) (fun k => y k.castSucc)
      (fun k b => (-diff time k b) • (a k.succ b - grad k.succ b))
  | .forwardEuler =>
    prev + paramPartial fp (fun k : Fin n => time k.succ) (fun k => y k.succ)
      (fun k b => (-diff time k b) • a k.castSucc b)

/-- Body of the loop in `rewind` (ode.py:443-471) on flipped tensors. -/
noncomputable def rewindStep [Fintype β] (s : Scheme) (d : Direct) (f : Func β m) {p : ℕ}
    (fp : β → ℝ → (Fin m → ℝ) → Matrix (Fin m) (Fin p) ℝ) (nt n : ℕ) (t : ℕ → β → ℝ)
    (y g : ℕ → BVec β m ℝ) (st : (Fin p → ℝ) × BVec β m ℝ) (k : ℕ) : (Fin p → ℝ) × BVec β m ℝ :=
  let len := sliceLen nt k n
  let ts : Fin (len + 1) → β → ℝ := fun j => t (k - 1 + j.val)
  let ys : Fin (len + 1) → BVec β m ℝ := fun j => y (k - 1 + j.val)
  let gs : Fin (len + 1) → BVec β m ℝ := fun j => g (k - 1 + j.val)
  let full := updateAdjoint s d (diff ts) (fun j b => (f b (ts j b) (ys j b)).2) st.2 gs
  (accumulate s fp st.1 ts ys full gs, full (Fin.last len))

/-- `x.flip(0)` of a tensor with `nt` rows. (ode.py:385-386, 438) -/
def flipRows {α : Type*} (nt : ℕ) (x : ℕ → α) : ℕ → α := fun j => x (nt - 1 - j)

/-- `rewind` (ode.py:425-475) after `integrate(cache_adjoint=True)` stored the flipped `t` and `result`
(ode.py:384-386). Returns the parameter gradient and the gradient with respect to the initial condition.
Without parameters (`p = 0`) the code returns an empty tuple, here the only vector of length 0. -/
noncomputable def rewind [Fintype β] (s : Scheme) (d : Direct) (f : Func β m) {p : ℕ}
    (fp : β → ℝ → (Fin m → ℝ) → Matrix (Fin m) (Fin p) ℝ) (nt : ℕ) (t : ℕ → β → ℝ)
    (y outputGrad : ℕ → BVec β m ℝ) (blockSize : ℤ) :
    Except String ((Fin p → ℝ) × BVec β m ℝ) :=
  match blockStarts nt blockSize with
  | .error e => .error e
  | .ok starts =>
    .ok (starts.foldl (rewindStep s d f fp nt blockSize.toNat (flipRows nt t) (flipRows nt y)
      (flipRows nt outputGrad)) (0, flipRows nt outputGrad 0))

end Pyoptmat.Ode
