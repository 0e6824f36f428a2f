import Mathlib.Data.Matrix.Mul
import Mathlib.LinearAlgebra.Matrix.NonsingularInverse
import Mathlib.Logic.Equiv.Fin.Basic

/-!
# Specification of blocked bidiagonal systems (independent of the model)
-/

namespace Pyoptmat.Spec

variable {β : Type*} {K : Type*} [Field K]

/-- `x` solves the block lower bidiagonal system with diagonal blocks `A` and sub-diagonal blocks `B`:
`A₀ x₀ = v₀` and `B_{k-1} x_{k-1} + A_k x_k = v_k`, for every batch entry. -/
def SolvesBidiagonal {nblk m : ℕ} (A : Fin nblk → β → Matrix (Fin m) (Fin m) K)
    (B : Fin (nblk - 1) → β → Matrix (Fin m) (Fin m) K) (v x : Fin nblk → β → Fin m → K) : Prop :=
  (∀ (h : 0 < nblk) (b : β), (A ⟨0, h⟩ b).mulVec (x ⟨0, h⟩ b) = v ⟨0, h⟩ b) ∧
  ∀ (k : ℕ) (h : k + 1 < nblk) (b : β),
    (B ⟨k, by omega⟩ b).mulVec (x ⟨k, by omega⟩ b) + (A ⟨k + 1, h⟩ b).mulVec (x ⟨k + 1, h⟩ b)
      = v ⟨k + 1, h⟩ b

/-- The dense block lower bidiagonal matrix (one batch entry). Flat index `i` is entry `i % m` of block
`i / m`. -/
def bidiagonalMatrix {nblk m : ℕ} (A : Fin nblk → Matrix (Fin m) (Fin m) K)
    (B : Fin (nblk - 1) → Matrix (Fin m) (Fin m) K) :
    Matrix (Fin (nblk * m)) (Fin (nblk * m)) K :=
  fun i j =>
    if i.divNat = j.divNat then A i.divNat i.modNat j.modNat
    else if h : i.divNat.val = j.divNat.val + 1 then
      B ⟨j.divNat.val, by have := i.divNat.isLt; omega⟩ i.modNat j.modNat
    else 0

end Pyoptmat.Spec
