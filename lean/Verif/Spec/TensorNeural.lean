import Verif.Model.TensorNeural
import Verif.Spec.Tensor
import Verif.Spec.TensorOde

/-! # Networks in terms of tensors -/

namespace Pyoptmat.Spec

open Pyoptmat.Tensor

/-- The network `model` treats the last dimension of its argument, of size `n`, as the input vector and any number of leading dimensions as batch: at every
batch index the value is `N` of the vector there, `p` numbers. (Layers like `torch.nn.Linear` and elementwise activations, with parameters shared by the whole batch.) -/
def ActsOnLast (n p : ℕ) (N : (Fin n → ℝ) → Fin p → ℝ) (model : TF) : Prop :=
  ∀ (S : List ℕ) (x : Tensor), x.shape = n :: S → ∃ r : Tensor, model x = (r : TE) ∧ r.shape = p :: S ∧
    ∀ (i : Fin p) (is : List ℕ), Valid S is → r.data (i.val :: is) = N (fun j => x.data (j.val :: is)) i

/-- The forcing function, called with any number of times for `nb` tests, the times of test `b` from `P b`, gives the `f` forces `F b t`. -/
def ForceIs (nb f : ℕ) (P : Fin nb → Set ℝ) (F : Fin nb → ℝ → Fin f → ℝ) (force : TF) : Prop :=
  ∀ (q : ℕ) (t : Tensor), t.shape = [nb, q] → (∀ k b, timesOf nb q t k b ∈ P b) → ∃ r : Tensor, force t = (r : TE) ∧ r.shape = [f, nb, q] ∧
    ∀ (j : Fin f) (b : Fin nb) (k : Fin q), r.data [j.val, b.val, k.val] = F b (timesOf nb q t k b) j

/-- The differential equation `y' = N(y, F(t))` of each test, with its derivative in `y`. -/
noncomputable def neuralFunc {nb m f : ℕ} (N : (Fin (m + f) → ℝ) → Fin m → ℝ) (F : Fin nb → ℝ → Fin f → ℝ) : Ode.Func (Fin nb) m := fun b t y =>
  (N (Fin.append y (F b t)), fun i j => deriv (fun s => N (Fin.append (Function.update y j s) (F b t)) i) (y j))

end Pyoptmat.Spec
