import Verif.Model.Tensor

/-!
# What it means that a torch expression has given entries

`Is S x f`: the expression `x` evaluates, to a tensor of shape `S` (last dimension first) whose entry at index `i` is `f i`.
`Rep S x f`: the expression `x` evaluates, to a tensor that can be broadcast to shape `S`, and then its entry at index `i` is `f i`.
-/

namespace Pyoptmat.Spec

open Pyoptmat.Tensor

/-- `i` is an index of a tensor of shape `S`. -/
def Valid (S i : List ℕ) : Prop := List.Forall₂ (fun s k => k < s) S i

/-- the tensor `t` has shape `S` and entries `f` -/
def IsT (S : List ℕ) (t : Tensor) (f : List ℕ → ℝ) : Prop := t.shape = S ∧ ∀ i, Valid S i → t.data i = f i

/-- the expression `x` evaluates, with shape `S` and entries `f` -/
def Is (S : List ℕ) (x : TE) (f : List ℕ → ℝ) : Prop := ∃ t : Tensor, x = (t : TE) ∧ IsT S t f

/-- the expression `x` evaluates, to a tensor that broadcasts to shape `S` with entries `f` -/
def Rep (S : List ℕ) (x : TE) (f : List ℕ → ℝ) : Prop :=
  ∃ t : Tensor, x = (t : TE) ∧ bshape t.shape S = some S ∧ ∀ i, Valid S i → t.data (bidx t.shape i) = f i

end Pyoptmat.Spec
