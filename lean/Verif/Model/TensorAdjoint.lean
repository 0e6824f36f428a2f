import Verif.Model.TensorOde

/-!
# The adjoint pass as a torch program

`rewind` of `ode.py` with `update_adjoint` and `accumulate` of the two schemes on whole tensors, as in `Model/TensorOde.lean`. The product of `torch.autograd.grad` with the parameters is an argument, `vjp`; all
parameters together are one vector of `p` numbers.
-/

namespace Pyoptmat.Tensor

open Pyoptmat.Chunktime Pyoptmat.Ode

/-- `x.transpose(-1, -2)` (ode.py:118, 228). -/
def transLast (x : TE) : TE := TE.bind x fun t =>
  match t.shape with
  | a :: b :: S => ((⟨b :: a :: S, fun i => t.data (i.tail.headD 0 :: i.headD 0 :: i.tail.tail)⟩ : Tensor) : TE)
  | _ => (Except.error "IndexError: Dimension out of range" : TE)

/-- `x.flip(0)` (ode.py:385-386, 438). -/
def flipFirst (x : TE) : TE := TE.bind x fun t =>
  match t.shape.getLast? with
  | none => (Except.error "IndexError: Dimension out of range" : TE)
  | some n => ((⟨t.shape, fun i => t.data (i.dropLast ++ [n - 1 - i.getLastD 0])⟩ : Tensor) : TE)

/-- `update_adjoint` of the two schemes (ode.py:95-131, 205-240). -/
noncomputable def tUpdateAdjoint (s : Scheme) (d : Direct) (dt J aPrev grads : Tensor) : TE :=
  match J.shape with
  | [_, m, b, n1] =>
    match s with
    | .backwardEuler =>
      TE.bind (transLast (firstInit (J : TE)) * unsq (unsq (dt : TE))) fun dJ =>
      TE.bind (eyes m b (n1 - 1) + (dJ : TE)) fun A => TE.bind (-firstInit (eyes m b (n1 - 1))) fun B =>
      TE.bind (unsq (firstFrom (grads : TE)) + mbmm (dJ : TE) (unsq (firstFrom (grads : TE)) - unsq (expandFirst (n1 - 1) (lead (aPrev : TE))))) fun rhs =>
      setFirstSlice 1 n1 (full [m, b, n1] 0) (squeezeLast (tMatvec d ⟨A, B⟩ (rhs : TE))) + (aPrev : TE)
    | .forwardEuler =>
      TE.bind (transLast (firstFrom (J : TE)) * unsq (unsq (dt : TE))) fun dJ =>
      TE.bind (eyes m b (n1 - 1)) fun A => TE.bind (firstFrom ((dJ : TE) - eyes m b (n1 - 1))) fun B =>
      TE.bind (unsq (firstFrom (grads : TE)) + mbmm (dJ : TE) (-unsq (expandFirst (n1 - 1) (lead (aPrev : TE))))) fun rhs =>
      setFirstSlice 1 n1 (full [m, b, n1] 0) (squeezeLast (tMatvec d ⟨A, B⟩ (rhs : TE))) + (aPrev : TE)
  | _ => (Except.error "IndexError: tuple index out of range" : TE)

/-- `accumulate` of the two schemes (ode.py:133-151, 242-260). -/
def tAccumulate {p : ℕ} (s : Scheme) (vjp : Tensor → Tensor → Tensor → Except String (Fin p → ℝ)) (prev : Fin p → ℝ) (time y a grad : Tensor) : Except String (Fin p → ℝ) :=
  TE.bind (diffFirst (time : TE)) fun dt =>
  match s with
  | .backwardEuler =>
    TE.bind (firstInit (time : TE)) fun t' => TE.bind (firstInit (y : TE)) fun y' => TE.bind ((firstFrom (a : TE) - firstFrom (grad : TE)) * -unsq (dt : TE)) fun w =>
    match vjp t' y' w with
    | .error e => .error e
    | .ok g => .ok (prev + g)
  | .forwardEuler =>
    TE.bind (firstFrom (time : TE)) fun t' => TE.bind (firstFrom (y : TE)) fun y' => TE.bind (firstInit (a : TE) * -unsq (dt : TE)) fun w =>
    match vjp t' y' w with
    | .error e => .error e
    | .ok g => .ok (prev + g)

/-- The body of the loop of `rewind` (ode.py:445-471) with the flipped times, results and gradients. Without parameters nothing is accumulated. -/
noncomputable def tRewindStep {p : ℕ} (s : Scheme) (d : Direct) (func : Tensor → Tensor → Except String (Tensor × Tensor)) (vjp : Tensor → Tensor → Tensor → Except String (Fin p → ℝ)) (n : ℕ)
    (t y g : Tensor) (st : (Fin p → ℝ) × Tensor) (k : ℕ) : Except String ((Fin p → ℝ) × Tensor) :=
  TE.bind (firstSlice (k - 1) (k + n) (t : TE)) fun ts => TE.bind (firstSlice (k - 1) (k + n) (y : TE)) fun ys => TE.bind (firstSlice (k - 1) (k + n) (g : TE)) fun gs =>
  withPair (func ts ys) fun _ J => TE.bind (diffFirst (ts : TE)) fun dt => TE.bind (tUpdateAdjoint s d dt J st.2 gs) fun a =>
  match (if 0 < p then tAccumulate s vjp st.1 ts ys a gs else .ok st.1 : Except String (Fin p → ℝ)) with
  | .error e => .error e
  | .ok r => TE.bind (first (a.shape.getLastD 0 - 1) (a : TE)) fun last => .ok (r, last)

/-- The loop of `rewind` (ode.py:443-471). -/
noncomputable def tRewindLoop {p : ℕ} (s : Scheme) (d : Direct) (func : Tensor → Tensor → Except String (Tensor × Tensor)) (vjp : Tensor → Tensor → Tensor → Except String (Fin p → ℝ)) (n : ℕ)
    (t y g : Tensor) : List ℕ → (Fin p → ℝ) × Tensor → Except String ((Fin p → ℝ) × Tensor)
  | [], st => .ok st
  | k :: ks, st =>
    match tRewindStep s d func vjp n t y g st k with
    | .error e => .error e
    | .ok st' => tRewindLoop s d func vjp n t y g ks st'

/-- `rewind` (ode.py:425-475) after `integrate(t, cache_adjoint=True)` returned `result` (ode.py:383-386). -/
noncomputable def tRewind {p : ℕ} (s : Scheme) (d : Direct) (func : Tensor → Tensor → Except String (Tensor × Tensor)) (vjp : Tensor → Tensor → Tensor → Except String (Fin p → ℝ))
    (t result outputGrad : Tensor) (blockSize : ℤ) : Except String ((Fin p → ℝ) × Tensor) :=
  TE.bind (flipFirst (t : TE)) fun t' => TE.bind (flipFirst (result : TE)) fun y' => TE.bind (flipFirst (outputGrad : TE)) fun g' => TE.bind (first 0 (g' : TE)) fun a0 =>
  match t'.shape.getLast? with
  | none => .error "IndexError: tuple index out of range"
  | some nt =>
    match blockStarts nt blockSize with
    | .error e => .error e
    | .ok starts => tRewindLoop s d func vjp blockSize.toNat t' y' g' starts (0, a0)

end Pyoptmat.Tensor
