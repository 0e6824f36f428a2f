import Verif.Model.Ode

/-!
# Specification of another arrangement of the same tests (C120)

`β'` is the new batch; test `b` of it is a copy of test `e b` of the old batch. A bijective `e` reorders the tests; a surjective one may also
repeat some of them.
-/

namespace Pyoptmat.Spec

open Pyoptmat.Chunktime Pyoptmat.Ode

/-- `F'` is the right hand side `F` for the new arrangement: on copied times and states it returns the copied rates and Jacobians. -/
def SameTests {β β' : Type*} {m : ℕ} (e : β' → β) (F : BFunc β m) (F' : BFunc β' m) : Prop :=
  ∀ (n : ℕ) (t : Fin n → β → ℝ) (y : Fin n → BVec β m ℝ),
    F' n (fun k b => t k (e b)) (fun k b => y k (e b)) = (fun k b => (F n t y).1 k (e b), fun k b => (F n t y).2 k (e b))

end Pyoptmat.Spec
