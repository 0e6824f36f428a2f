import Verif.Model.Strided

/-! # Dense memory layouts -/

namespace Pyoptmat.Spec

open Pyoptmat.Chunktime

/-- An order of the three dimensions time (`t`), batch (`b`) and component (`r`), outermost first. -/
inductive Order where
  | tbr | trb | btr | brt | rtb | rbt

/-- The strides of a dense tensor of shape `(n, nb, m)` stored in the given order of its dimensions. The results of elementwise operations of torch are dense, in the order of their arguments. -/
def Order.strides (n nb m : ℕ) : Order → Strides
  | .tbr => ⟨nb * m, m, 1⟩
  | .trb => ⟨m * nb, 1, nb⟩
  | .btr => ⟨m, n * m, 1⟩
  | .brt => ⟨1, m * n, n⟩
  | .rtb => ⟨nb, 1, n * nb⟩
  | .rbt => ⟨1, n, nb * n⟩

/-- The dimensions stored outside of time have size one, so that consecutive time steps are adjacent in memory. -/
def Order.timeOutermost (nb m : ℕ) : Order → Prop
  | .tbr => True
  | .trb => True
  | .btr => nb = 1
  | .brt => nb = 1 ∧ m = 1
  | .rtb => m = 1
  | .rbt => nb = 1 ∧ m = 1

end Pyoptmat.Spec
