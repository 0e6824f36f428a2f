import Verif.Model.Ode

/-!
# Model of the front ends `odeint` and `odeint_adjoint` (`pyoptmat/ode.py:522-673`)

Keyword arguments are modelled by the list of their names and a record with the values. Parameter tensors
are modelled scalar by scalar: `P` is the set of all scalar entries of all leaf tensors and an environment
`P → ℝ` gives their values.
-/

namespace Pyoptmat.Ode

open Pyoptmat.Chunktime Pyoptmat.Newton

variable {β : Type*} {m : ℕ}

/-- The options of `FixedGridBlockSolver.__init__` with their defaults (ode.py:288-304). -/
structure Options where
  blockSize : ℤ := 1
  rtol : ℝ := 1e-6
  atol : ℝ := 1e-8
  miter : ℤ := 100
  linear : String := "direct"
  direct : String := "thomas"
  minSize : ℤ := 0
  guess : String := "zero"
  throwOnFail : Bool := false

/-- The keywords the constructor has parameters for (ode.py:288-304). -/
def solverKeywords : List String :=
  ["func", "y0", "scheme", "block_size", "rtol", "atol", "miter", "linear_solve_method", "direct_solve_method",
    "direct_solve_min_size", "adjoint_params", "guess_type", "throw_on_fail"]

/-- Building the solver in the front ends (ode.py:572, 664-666 and 288-352). `taken` are the arguments the front
end passes itself: repeating one of them in the keywords is a `TypeError`. Keywords without a parameter
end up in `ChunkTimeOperatorSolverContext(linear_solve_method, **kwargs)` (ode.py:326-328), which accepts
none (chunktime.py:495). `y0` is assumed to be two-dimensional. -/
def makeSolver (method : String) (taken kw : List String) (o : Options) : Except String Config :=
  match intMethods method with
  | .error e => .error e
  | .ok s =>
    if kw.any (fun k => taken.contains k) then .error "TypeError: multiple values for keyword argument"
    else if kw.any (fun k => !solverKeywords.contains k) then .error "TypeError: unexpected keyword argument"
    else
      match solveMethodOfStrings o.linear o.direct o.minSize with
      | .error e => .error e
      | .ok meth => .ok {
          scheme := s
          method := meth
          rtol := o.rtol
          atol := o.atol
          miter := o.miter
          throwOnFail := o.throwOnFail
          guessType := o.guess }

/-- `odeint` (ode.py:529-574). `extra_params` is a named parameter that is never used. -/
noncomputable def odeint {P : Type*} (f : BFunc β m) (y0 : BVec β m ℝ) (nt : ℕ) (t : ℕ → β → ℝ) (method : String)
    (_extraParams : List P) (kw : List String) (o : Options) : Except String (Partial β m × Bool) :=
  match makeSolver method ["func", "y0", "scheme"] kw o with
  | .error e => .error e
  | .ok c => integrate c f y0 nt t o.blockSize

/-- The forward pass of `odeint_adjoint` (ode.py:659-673 and 585-597): the same solver and the same
`integrate` call. -/
noncomputable def odeintAdjoint (f : BFunc β m) (y0 : BVec β m ℝ) (nt : ℕ) (t : ℕ → β → ℝ) (method : String)
    (kw : List String) (o : Options) : Except String (Partial β m × Bool) :=
  match makeSolver method ["func", "y0", "scheme", "adjoint_params"] kw o with
  | .error e => .error e
  | .ok c => integrate c f y0 nt t o.blockSize

/-- `adjoint_params` (ode.py:660-662): the parameters of `func`, then the extra ones (`None` is no extra). -/
def adjointParams {P : Type*} (funcParams : List P) (extra : Option (List P)) : List P :=
  funcParams ++ extra.getD []

/-- What the backward pass leaves in the `.grad` of the leaves: `none` if it was given no gradient. -/
structure LeafGrads (P β : Type*) (m : ℕ) where
  param : P → Option ℝ
  y0 : Option (BVec β m ℝ)

/-- The backward pass (ode.py:599-611 and 425-475, `direct` as in ode.py:331-342). `fp ℓ` is the derivative of the
rate with respect to leaf `ℓ`. `torch.autograd.grad` (ode.py:423) raises for a parameter that does not
occur in the graph of the rate (`used ℓ = false`); it is reached once the loop runs at all. Autograd adds the
gradients of all positions of the argument tuple that hold the same leaf. -/
noncomputable def backward [Fintype β] {P : Type*} [DecidableEq P] (c : Config) (d : Direct) (f : Func β m)
    (fp : P → β → ℝ → (Fin m → ℝ) → Fin m → ℝ) (used : P → Bool) (params : List P) (y0RequiresGrad : Bool)
    (nt : ℕ) (t : ℕ → β → ℝ) (result outputGrad : ℕ → BVec β m ℝ) (blockSize : ℤ) :
    Except String (LeafGrads P β m) :=
  match blockStarts nt blockSize with
  | .error e => .error e
  | .ok starts =>
    if starts ≠ [] ∧ params.any (fun l => !used l) then .error "RuntimeError: unused parameter"
    else
      match rewind c.scheme d f (fun b t y => Matrix.of fun r (j : Fin params.length) => fp (params.get j) b t y r) nt
        t result outputGrad blockSize with
      | .error e => .error e
      | .ok (grad, lam) =>
        .ok { param := fun l => if l ∈ params then
                some (∑ j : Fin params.length, if params.get j = l then grad j else 0) else none
              y0 := if y0RequiresGrad then some lam else none }

end Pyoptmat.Ode
