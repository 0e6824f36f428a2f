import Verif.Model.Inexact
import Verif.Spec.Accuracy

/-!
# Specification: what rounding errors may do (C130)
-/

namespace Pyoptmat.Spec

open Pyoptmat.Ode Pyoptmat.Chunktime

variable {β : Type*} {m : ℕ}

/-- What is left of the Euler formula of the scheme for the step from `(t, x)` to `(t', y)`, with the rates `g`, in exact arithmetic. -/
def stepResidual (s : Scheme) (g : ℝ → (Fin m → ℝ) → Fin m → ℝ) (t t' : ℝ) (x y : Fin m → ℝ) : Fin m → ℝ :=
  match s with
  | .backwardEuler => y - x - (t' - t) • g t' y
  | .forwardEuler => y - x - (t' - t) • g t x

/-- By how much the step misses the formula. -/
noncomputable def stepMiss (s : Scheme) (g : ℝ → (Fin m → ℝ) → Fin m → ℝ) (t t' : ℝ) (x y : Fin m → ℝ) : ℝ := l2 (stepResidual s g t t' x y)

/-- The stopping test of the machine can be trusted for test `b` up to `ε`, as long as its states stay below `B`: whenever the rows a block update would return (and the state it starts from) are at most `B`,
the computed norm of the computed residual is a number, and if that number is at most `δ`, no step of the returned rows misses the Euler formula, evaluated exactly, by more than `δ + ε`. -/
def ResidualsRight (a : Arith β m) (s : Scheme) (g : ℝ → (Fin m → ℝ) → Fin m → ℝ) (nt : ℕ) (t : ℕ → β → ℝ) (b : β) (B δ ε : ℝ) : Prop :=
  ∀ (k N : ℕ) (yStart : BVec β m ℝ) (dy : β → Fin (N * m) → ℝ), k + N < nt → l2 (yStart b) ≤ B → (∀ j, l2 (a.add N dy yStart j b) ≤ B) →
    ∃ x, a.norm N (a.R N (fun j => t (k + 1 + j.val)) (t k) yStart dy).1 b = some x ∧
      (x ≤ δ → ∀ (y : ℕ → Fin m → ℝ), y 0 = yStart b → (∀ j : Fin N, y (j.val + 1) = a.add N dy yStart j b) →
        ∀ j < N, stepMiss s g (t (k + j) b) (t (k + j + 1) b) (y j) (y (j + 1)) ≤ δ + ε)

/-- Error budget of a machine, for test `b` and states below `B`: for a block whose unknowns are `dy` (so that its exact rows are `dy_j + yStart`), the rows of the computed residual are the
exact ones up to `e1`; the computed norm is a number, and if it is at most `δ` then each computed row is at most `δ + e2`; and the returned rows are `dy_j + yStart` up to `e3`. -/
structure Budget (a : Arith β m) (s : Scheme) (g : ℝ → (Fin m → ℝ) → Fin m → ℝ) (nt : ℕ) (t : ℕ → β → ℝ) (b : β) (B δ e1 e2 e3 : ℝ) : Prop where
  residual : ∀ (k N : ℕ) (yStart : BVec β m ℝ) (dy : β → Fin (N * m) → ℝ), k + N < nt → l2 (yStart b) ≤ B → (∀ j, l2 (a.add N dy yStart j b) ≤ B) →
    ∀ (X : ℕ → Fin m → ℝ), X 0 = yStart b → (∀ j : Fin N, X (j.val + 1) = unflatten dy j b + yStart b) → ∀ j : Fin N,
      l2 (unflatten (a.R N (fun j => t (k + 1 + j.val)) (t k) yStart dy).1 j b - stepResidual s g (t (k + j.val) b) (t (k + j.val + 1) b) (X j.val) (X (j.val + 1))) ≤ e1
  norm : ∀ (k N : ℕ) (yStart : BVec β m ℝ) (dy : β → Fin (N * m) → ℝ), k + N < nt → l2 (yStart b) ≤ B → (∀ j, l2 (a.add N dy yStart j b) ≤ B) →
    ∃ x, a.norm N (a.R N (fun j => t (k + 1 + j.val)) (t k) yStart dy).1 b = some x ∧
      (x ≤ δ → ∀ j : Fin N, l2 (unflatten (a.R N (fun j => t (k + 1 + j.val)) (t k) yStart dy).1 j b) ≤ δ + e2)
  add : ∀ (N : ℕ) (yStart : BVec β m ℝ) (dy : β → Fin (N * m) → ℝ), l2 (yStart b) ≤ B → ∀ j : Fin N, l2 (a.add N dy yStart j b) ≤ B →
    l2 (a.add N dy yStart j b - (unflatten dy j b + yStart b)) ≤ e3

/-- `δ` bounds what the tolerances permit, with the default guess: it is at least `atol` and at least `rtol` times the computed norm of the residual of test `b` at the start of every block, which is a number. -/
structure MachineTolerance (a : Arith β m) (c : Config) (nt : ℕ) (t : ℕ → β → ℝ) (y : ℕ → BVec β m ℝ) (b : β) (δ : ℝ) : Prop where
  abs : c.atol ≤ δ
  guess : c.guessType = "zero"
  start : ∀ k N, k + N < nt → ∃ x, a.norm N (a.R N (fun j => t (k + 1 + j.val)) (t k) (y k) 0).1 b = some x ∧ c.rtol * x ≤ δ

/-- Rounding with relative error `u`: the standard model of floating point arithmetic. -/
def Rounds (fl : ℝ → ℝ) (u : ℝ) : Prop := ∀ x, |fl x - x| ≤ u * |x|

end Pyoptmat.Spec
