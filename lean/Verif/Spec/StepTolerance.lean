import Verif.Model.Ode
import Verif.Proofs.Accuracy

/-!
# What the convergence tolerances permit a step to miss (specification of C123)
-/

namespace Pyoptmat.Spec

open Pyoptmat.Ode Pyoptmat.Chunktime

variable {β : Type*} {m : ℕ}

/-- `δ` bounds what the tolerances of the block solver permit each step of test `b` to miss: it is at least `atol`; and either `rtol` is zero, or the guess is
the default one and `δ` is at least `rtol · G · duration`, where `G` bounds the rates of test `b` when the right hand side `F` is called on a block of the run's
times with all rows equal to the state the block starts from (the default guess). -/
structure StepTolerance (c : Config) (F : BFunc β m) (nt : ℕ) (t : ℕ → β → ℝ) (y : ℕ → BVec β m ℝ) (b : β) (δ : ℝ) : Prop where
  nonneg : 0 ≤ δ
  abs : c.atol ≤ δ
  rel : c.rtol = 0 ∨ (c.guessType = "zero" ∧ 0 ≤ c.rtol ∧ ∃ G, (∀ k0 N, k0 + N < nt → ∀ j : Fin (N + 1),
    l2 ((F (N + 1) (fun i => t (k0 + i.val)) fun _ => y k0).1 j b) ≤ G) ∧ c.rtol * (G * (t (nt - 1) b - t 0 b)) ≤ δ)

end Pyoptmat.Spec
