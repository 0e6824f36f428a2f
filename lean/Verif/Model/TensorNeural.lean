import Verif.Model.Tensor
import Mathlib.Analysis.Calculus.Deriv.Basic

/-!
# `NeuralODE` and `jacobianize` on tensors (`pyoptmat/neuralode.py`, `pyoptmat/utility.py:18-57`)

`Model/FiniteDiff.lean` has `NeuralODE.forward` for one batch entry. Here it is as written: a function of whole tensors, differentiated by
`functorch.jacrev` under as many `functorch.vmap` as the value has leading dimensions.
-/

namespace Pyoptmat.Tensor

/-- A Python function of one tensor. (the `fn` of utility.py:40) -/
abbrev TF := Tensor → TE

/-- An entry of the value of an expression; meaningless if it raises. (utility.py:45) -/
def entry (x : TE) (i : List ℕ) : ℝ :=
  match x with
  | .ok t => t.data i
  | .error _ => 0

/-- `functorch.jacrev(fn)` (utility.py:49): the shape is that of the value followed by that of the argument, and the entries are taken to be the exact
partial derivatives. It raises if `fn` does. -/
noncomputable def jacrev (fn : TF) : TF := fun x => TE.bind (fn x) fun r =>
  ((⟨x.shape ++ r.shape, fun i => deriv (fun s => entry (fn ⟨x.shape, Function.update x.data (i.take x.shape.length) s⟩) (i.drop x.shape.length))
    (x.data (i.take x.shape.length))⟩ : Tensor) : TE)

/-- `functorch.vmap(fn)` (utility.py:50): `fn` on every `x[k]`, the values stacked. torch runs `fn` once, on a tensor that stands for all of them, so the shape of the
value and an exception cannot depend on `k`: they are those for `x[0]`. -/
def vmap (fn : TF) : TF := fun x =>
  match x.shape.getLast? with
  | none => (Except.error "ValueError: vmap: Got in_dim=0 for an input of rank 0" : TE)
  | some n => TE.bind (fn ⟨x.shape.dropLast, fun i => x.data (i ++ [0])⟩) fun r =>
      ((⟨r.shape ++ [n], fun i => entry (fn ⟨x.shape.dropLast, fun j => x.data (j ++ [i.getLastD 0])⟩) i.dropLast⟩ : Tensor) : TE)

/-- What `jacobianize()` makes of a function of one tensor (utility.py:31-57): the value, and `vmap(... vmap(jacrev(fn)))` with `res.dim() - 1` times `vmap` (none for a value without
dimensions: a list times a negative number is empty). `jacrev` gets the tuple `(0,)` of argument numbers and hence returns a tuple with one item, here the item. -/
noncomputable def jacobianize (fn : TF) (x : Tensor) : Except String (Tensor × Tensor) :=
  TE.bind (fn x) fun res => TE.bind (vmap^[res.shape.length - 1] (jacrev fn) x) fun J => .ok (res, J)

/-- `x[..., : -k]` (neuralode.py:65): `-0` is `0`. -/
def sliceDrop (k : ℕ) (x : TE) : TE := TE.bind x fun t =>
  match t.shape with
  | [] => (Except.error "IndexError: too many indices" : TE)
  | n :: S => ((⟨(if k = 0 then 0 else n - k) :: S, t.data⟩ : Tensor) : TE)

/-- `NeuralODE.forward` (neuralode.py:40-65). -/
noncomputable def tNeuralOde (model force : TF) (t y : Tensor) : Except String (Tensor × Tensor) :=
  TE.bind (force t) fun f => TE.bind (cat (y : TE) (f : TE)) fun x =>
    match jacobianize model x with
    | .error e => .error e
    | .ok vj => TE.bind (sliceDrop (f.shape.headD 0) (vj.2 : TE)) fun J => .ok (vj.1, J)

end Pyoptmat.Tensor
