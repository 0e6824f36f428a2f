import Verif.Spec.Accuracy

/-!
# Specification: sensitivities of the exact solution (independent of the model)
-/

namespace Pyoptmat.Spec

open Filter Topology

variable {m p : ℕ}

/-- `Y` is continuous on `[t_0, t_K]` and, inside every step of the grid, solves `Y' = F(t, Y)`. -/
structure GridSolution (F : ℝ → (Fin m → ℝ) → Fin m → ℝ) (K : ℕ) (t : ℕ → ℝ) (Y : ℝ → Fin m → ℝ) : Prop where
  cont : ContinuousOn Y (Set.Icc (t 0) (t K))
  deriv : ∀ k < K, ∀ s ∈ Set.Ioo (t k) (t (k + 1)), HasDerivAt Y (F s (Y s)) s

/-- Along `Y`, the rate `F` changes with the state by `J` and with the parameters, in the direction `q`, by `fp`, to first order and uniformly in time. -/
def DerivAlong (F : (Fin p → ℝ) → ℝ → (Fin m → ℝ) → Fin m → ℝ) (J : ℝ → (Fin m → ℝ) → Matrix (Fin m) (Fin m) ℝ) (fp : ℝ → (Fin m → ℝ) → Matrix (Fin m) (Fin p) ℝ) (p0 q : Fin p → ℝ) (K : ℕ)
    (t : ℕ → ℝ) (Y : ℝ → Fin m → ℝ) : Prop :=
  ∀ η > 0, ∃ ρ > 0, ∀ k < K, ∀ s ∈ Set.Ioo (t k) (t (k + 1)), ∀ (e : ℝ) (z : Fin m → ℝ), |e| ≤ ρ → l2 z ≤ ρ →
    l2 (F (p0 + e • q) s (Y s + z) - F p0 s (Y s) - ((J s (Y s)).mulVec z + e • (fp s (Y s)).mulVec q)) ≤ η * (|e| + l2 z)

/-- The right hand side of the variational equation in the direction `q`: `S' = J S + fp q` along `Y`. -/
def variational (J : ℝ → (Fin m → ℝ) → Matrix (Fin m) (Fin m) ℝ) (fp : ℝ → (Fin m → ℝ) → Matrix (Fin m) (Fin p) ℝ) (q : Fin p → ℝ) (Y : ℝ → Fin m → ℝ) : ℝ → (Fin m → ℝ) → Fin m → ℝ :=
  fun s z => (J s (Y s)).mulVec z + (fp s (Y s)).mulVec q

/-- A test with the exact solution `Y` for the parameters `p0`: one-sided Lipschitz rates, a solution that is smooth inside every step, and within `ρ` of it at the ends of the steps a state derivative `J` that is
Lipschitz with constant `Λ`. -/
structure ExactTest (F : (Fin p → ℝ) → ℝ → (Fin m → ℝ) → Fin m → ℝ) (J : ℝ → (Fin m → ℝ) → Matrix (Fin m) (Fin m) ℝ) (p0 : Fin p → ℝ) (K : ℕ) (t : ℕ → ℝ) (nu M Λ ρ : ℝ) (Y : ℝ → Fin m → ℝ) : Prop where
  oneSided : ∀ s ∈ Set.Icc (t 0) (t K), OneSided (F p0 s) nu
  solution : PiecewiseSolution (F p0) K t M Y
  jac : ∀ k < K, ∀ y, l2 (y - Y (t (k + 1))) ≤ ρ → ∀ z, HasDerivAt (fun τ : ℝ => F p0 (t (k + 1)) (y + τ • z)) ((J (t (k + 1)) y).mulVec z) 0
  lip : ∀ k < K, ∀ y, l2 (y - Y (t (k + 1))) ≤ ρ → ∀ z, l2 ((J (t (k + 1)) y).mulVec z - (J (t (k + 1)) (Y (t (k + 1)))).mulVec z) ≤ Λ * l2 (y - Y (t (k + 1))) * l2 z

/-- The exact solutions `Ys e` of a test for the parameters `p0 + e q` and the initial states `Y(t_0) + e v`, and the solution `S` of the variational equation in the direction `(q, v)`. -/
structure ExactDirection (F : (Fin p → ℝ) → ℝ → (Fin m → ℝ) → Fin m → ℝ) (J : ℝ → (Fin m → ℝ) → Matrix (Fin m) (Fin m) ℝ) (fp : ℝ → (Fin m → ℝ) → Matrix (Fin m) (Fin p) ℝ) (p0 : Fin p → ℝ) (K : ℕ)
    (t : ℕ → ℝ) (nu Λ ρ : ℝ) (Y : ℝ → Fin m → ℝ) (q : Fin p → ℝ) (v : Fin m → ℝ) (MS B : ℝ) (Ys : ℝ → ℝ → Fin m → ℝ) (S : ℝ → Fin m → ℝ) : Prop where
  base : Ys 0 = Y
  oneSided : ∀ᶠ e in 𝓝 (0 : ℝ), ∀ s ∈ Set.Icc (t 0) (t K), OneSided (F (p0 + e • q) s) nu
  family : ∀ᶠ e in 𝓝 (0 : ℝ), GridSolution (F (p0 + e • q)) K t (Ys e) ∧ Ys e (t 0) = Y (t 0) + e • v
  along : DerivAlong F J fp p0 q K t Y
  sens : PiecewiseSolution (variational J fp q Y) K t MS S
  start : S (t 0) = v
  bound : ∀ s ∈ Set.Icc (t 0) (t K), l2 (S s) ≤ B ∧ l2 ((fp s (Y s)).mulVec q) ≤ B
  lip : ∀ k < K, ∀ y, l2 (y - Y (t (k + 1))) ≤ ρ → l2 ((fp (t (k + 1)) y).mulVec q - (fp (t (k + 1)) (Y (t (k + 1)))).mulVec q) ≤ Λ * l2 (y - Y (t (k + 1)))

/-- The data of `ExactTest` for the forward Euler scheme: rates that are Lipschitz with constant `L` (also for parameters near `p0`, see `ForwardDirection`), a solution with a Lipschitz derivative, and within `ρ` of it at the *start* of
every step state matrices `J` that are derivatives of the rates and Lipschitz with constant `Λ`. -/
structure ForwardTest (F : (Fin p → ℝ) → ℝ → (Fin m → ℝ) → Fin m → ℝ) (J : ℝ → (Fin m → ℝ) → Matrix (Fin m) (Fin m) ℝ) (p0 : Fin p → ℝ) (K : ℕ) (t : ℕ → ℝ) (L M Λ ρ : ℝ) (Y : ℝ → Fin m → ℝ) : Prop where
  rates : ∀ s ∈ Set.Icc (t 0) (t K), Lip (F p0 s) L
  solution : SmoothSolution (F p0) (t 0) (t K) M Y
  jac : ∀ k < K, ∀ y, l2 (y - Y (t k)) ≤ ρ → ∀ z, HasDerivAt (fun τ : ℝ => F p0 (t k) (y + τ • z)) ((J (t k) y).mulVec z) 0
  lip : ∀ k < K, ∀ y, l2 (y - Y (t k)) ≤ ρ → ∀ z, l2 ((J (t k) y).mulVec z - (J (t k) (Y (t k))).mulVec z) ≤ Λ * l2 (y - Y (t k)) * l2 z

/-- The data of `ExactDirection` for the forward Euler scheme. -/
structure ForwardDirection (F : (Fin p → ℝ) → ℝ → (Fin m → ℝ) → Fin m → ℝ) (J : ℝ → (Fin m → ℝ) → Matrix (Fin m) (Fin m) ℝ) (fp : ℝ → (Fin m → ℝ) → Matrix (Fin m) (Fin p) ℝ) (p0 : Fin p → ℝ) (K : ℕ)
    (t : ℕ → ℝ) (L Λ ρ : ℝ) (Y : ℝ → Fin m → ℝ) (q : Fin p → ℝ) (v : Fin m → ℝ) (MS B : ℝ) (Ys : ℝ → ℝ → Fin m → ℝ) (S : ℝ → Fin m → ℝ) : Prop where
  base : Ys 0 = Y
  rates : ∀ᶠ e in 𝓝 (0 : ℝ), ∀ s ∈ Set.Icc (t 0) (t K), Lip (F (p0 + e • q) s) L
  family : ∀ᶠ e in 𝓝 (0 : ℝ), GridSolution (F (p0 + e • q)) K t (Ys e) ∧ Ys e (t 0) = Y (t 0) + e • v
  along : DerivAlong F J fp p0 q K t Y
  sens : SmoothSolution (variational J fp q Y) (t 0) (t K) MS S
  start : S (t 0) = v
  bound : ∀ s ∈ Set.Icc (t 0) (t K), l2 (S s) ≤ B ∧ l2 ((fp s (Y s)).mulVec q) ≤ B
  lip : ∀ k < K, ∀ y, l2 (y - Y (t k)) ≤ ρ → l2 ((fp (t k) y).mulVec q - (fp (t k) (Y (t k))).mulVec q) ≤ Λ * l2 (y - Y (t k))

end Pyoptmat.Spec
