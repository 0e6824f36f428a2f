import Verif.Spec.Inexact
import Verif.Proofs.Inexact
import Verif.Props.Accuracy
import Mathlib.Analysis.Calculus.Deriv.Prod
import Mathlib.Analysis.SpecialFunctions.ExpDeriv

/-!
# C130: rounding errors and inexact linear solves
-/

namespace Pyoptmat.Props

open Pyoptmat.Newton Pyoptmat.Spec Pyoptmat.Ode Pyoptmat.Chunktime

variable {β β' : Type*} {m : ℕ}

/-- **C130.** With exact operations, the run in inexact arithmetic is the run of the rest of the theory. -/
theorem C130_exact (c : Config) (f : BFunc β m) (y0 : BVec β m ℝ) (nt : ℕ) (t : ℕ → β → ℝ) (blk : ℤ) :
    integrateWith (exactArith c f) c y0 nt t blk = integrate c f y0 nt t blk := by
  unfold integrateWith integrate
  cases blockStarts nt blk with
  | error e => rfl
  | ok starts =>
    split_ifs
    · rfl
    · exact integrateLoopWith_exact c f nt blk.toNat t starts _

/-- **C130.** Whatever a machine does in the linear solves, the Newton updates and the residuals: if it finishes a run without a warning and its stopping test can be trusted up to `ε`, then every step of the
run satisfies the Euler formula, evaluated exactly, up to `δ + ε`. -/
theorem C130_step (a : Arith β m) (s : Scheme) (c : Config) (hm : 0 ≤ c.miter) (g : ℝ → (Fin m → ℝ) → Fin m → ℝ) (y0 : BVec β m ℝ) (nt : ℕ) (t : ℕ → β → ℝ) (n : ℤ) (hn : 0 < n)
    (res : Partial β m) (h : integrateWith a c y0 nt t n = .ok (res, false)) (b : β) (B ε δ : ℝ) (hε : ResidualsRight a s g nt t b B δ ε)
    (hδ : MachineTolerance a c nt t res.get b δ) (hB : ∀ k, k < nt → l2 (res.get k b) ≤ B) (k : ℕ) (hk : k + 1 < nt) :
    stepMiss s g (t k b) (t (k + 1) b) (res.get k b) (res.get (k + 1) b) ≤ δ + ε := by
  obtain ⟨-, -, h4⟩ := integrateWith_spec a c y0 nt t n hn res false h
  revert k
  refine all_rows (N := n.toNat) (by omega) ?_
  intro i hi j hj
  have hb := h4 i hi
  rw [Nat.add_comm] at hb
  unfold BlockWith at hb
  generalize hL : sliceLen nt (i * n.toNat + 1) n.toNat = L at hb hj
  have hLn : i * n.toNat + L < nt := by
    have := nblocks_lt (by omega) hi
    unfold sliceLen at hL
    omega
  generalize i * n.toNat = k at *
  obtain ⟨guess, rows, wk, h1, h2, h3, h5⟩ := hb
  rw [Nat.add_sub_cancel] at h1
  have hg := h5 hδ.guess
  subst hg
  have hw := h2 rfl
  subst hw
  unfold blockUpdateWith at h1
  split at h1
  · exact absurd h1 (by simp)
  · next dy hdy =>
    simp only [Except.ok.injEq, Prod.mk.injEq] at h1
    obtain ⟨r1, r2⟩ := h1
    have stop := newton_stops _ _ _ _ _ _ _ _ _ hm _ hdy r2
    have hrow : ∀ j : Fin L, res.get (k + (j.val + 1)) b = a.add L dy (res.get k) j b := by
      intro j
      have := h3 j
      rw [← r1] at this
      rw [show k + (j.val + 1) = k + 1 + j.val by omega, Partial.get, this]
      rfl
    obtain ⟨x, hx, hmiss⟩ := hε k L (res.get k) dy hLn (hB k (by omega)) (fun j => by rw [← hrow j]; exact hB _ (by have := j.2; omega))
    obtain ⟨x0, hx0, htol⟩ := hδ.start k L hLn
    refine hmiss ?_ (fun j => res.get (k + j) b) rfl hrow j hj
    unfold notConverged at stop
    rw [not_and_or, not_exists, not_exists] at stop
    rcases stop with q | q
    · have := q b
      rw [hx] at this
      simp only [gtAtol, not_lt] at this
      exact this.trans hδ.abs
    · have := q b
      rw [hx, hx0] at this
      simp only [gtRtol, not_lt] at this
      exact this.trans htol

/-- **C130.** So backward Euler in inexact arithmetic stays near the true solution, with the explicit bound of C81 in which `δ` is replaced by `δ + ε`: rounding errors add up at most linearly with the
number of steps and, for dissipative problems (`ν = 0`), are never amplified. -/
theorem C130_accuracy (a : Arith β m) (c : Config) (hm : 0 ≤ c.miter) (g : ℝ → (Fin m → ℝ) → Fin m → ℝ) (y0 : BVec β m ℝ) (nt : ℕ) (t : ℕ → β → ℝ) (n : ℤ) (hn : 0 < n)
    (res : Partial β m) (h : integrateWith a c y0 nt t n = .ok (res, false)) (b : β) (B ε δ : ℝ) (hε : ResidualsRight a .backwardEuler g nt t b B δ ε)
    (hδ : MachineTolerance a c nt t res.get b δ) (hB : ∀ k, k < nt → l2 (res.get k b) ≤ B) (ht : ∀ k, k + 1 < nt → t k b ≤ t (k + 1) b)
    (hmax : ℝ) (hh : ∀ k, k + 1 < nt → t (k + 1) b - t k b ≤ hmax) (nu : ℝ) (hnu : 0 ≤ nu) (hnuh : nu * hmax ≤ 1 / 2)
    (hF : ∀ k, k + 1 < nt → OneSided (g (t (k + 1) b)) nu) (M : ℝ) (hM : 0 ≤ M) (Y : ℝ → Fin m → ℝ) (hY0 : Y (t 0 b) = y0 b)
    (hY : PiecewiseSolution g (nt - 1) (fun k => t k b) M Y) (k : ℕ) (hk : k < nt) :
    l2 (res.get k b - Y (t k b)) ≤ Real.exp (2 * nu * (t k b - t 0 b)) * (M / 2 * hmax * (t k b - t 0 b) + k * (δ + ε)) := by
  obtain ⟨-, f2, -⟩ := integrateWith_spec a c y0 nt t n hn res false h
  have g0 : res.get 0 b = y0 b := by simp only [Partial.get]; rw [f2]; rfl
  have hmem : ∀ k, k < nt → t k b ∈ Set.Icc (t 0 b) (t (nt - 1) b) := fun k hk =>
    ⟨mono_of_steps (t := fun k => t k b) ht (by omega) hk, mono_of_steps (t := fun k => t k b) ht (by omega) (by omega)⟩
  have main := backward_compare (F := fun k y => g (t k b) y) hnu (K := nt - 1) (t := fun k => t k b) (fun k hk => ht k (by omega)) (fun k hk => hF k (by omega))
    (fun k hk => (mul_le_mul_of_nonneg_left (hh k (by omega)) hnu).trans hnuh) (x := fun k => res.get k b) (y := fun k => Y (t k b)) (dx := fun _ => δ + ε)
    (dy := fun k => M / 2 * (t (k + 1) b - t k b) ^ 2) (fun k hk => C130_step a .backwardEuler c hm g y0 nt t n hn res h b B ε δ hε hδ hB k (by omega)) (fun k hk => by
      have hsub : Set.Icc (t k b) (t (k + 1) b) ⊆ Set.Icc (t 0 b) (t (nt - 1) b) :=
        Set.Icc_subset_Icc (hmem k (by omega)).1 (hmem (k + 1) (by omega)).2
      exact truncation_interior (Y' := fun s => g s (Y s)) (ht k (by omega)) _ (hY.cont.mono hsub) (hY.deriv k hk) (hY.lip k hk)) k (by omega)
  refine main.trans (mul_le_mul_of_nonneg_left ?_ (Real.exp_pos _).le)
  beta_reduce
  rw [g0, hY0, sub_self, l2_zero, zero_add]
  exact trunc_sum hM (K := nt - 1) (t := fun k => t k b) (fun k hk => ht k (by omega)) (fun k hk => hh k (by omega)) k (by omega)

/-- **C130.** Two machines (other hardware, precision, linear solver, batch, block size, options) that run the same test with backward Euler without warnings agree up to
`exp(2 ν (t_k - t_0)) (|y0 - y0'| + k (δ + ε + δ' + ε'))`. -/
theorem C130_reproducible (a : Arith β m) (a' : Arith β' m) (c c' : Config) (hm : 0 ≤ c.miter) (hm' : 0 ≤ c'.miter) (g : ℝ → (Fin m → ℝ) → Fin m → ℝ) (y0 : BVec β m ℝ) (y0' : BVec β' m ℝ)
    (nt : ℕ) (t : ℕ → β → ℝ) (t' : ℕ → β' → ℝ) (n n' : ℤ) (hn : 0 < n) (hn' : 0 < n') (res : Partial β m) (res' : Partial β' m)
    (h : integrateWith a c y0 nt t n = .ok (res, false)) (h' : integrateWith a' c' y0' nt t' n' = .ok (res', false)) (b : β) (b' : β') (htt : ∀ k, k < nt → t k b = t' k b')
    (B ε δ B' ε' δ' : ℝ) (hε : ResidualsRight a .backwardEuler g nt t b B δ ε) (hε' : ResidualsRight a' .backwardEuler g nt t' b' B' δ' ε')
    (hδ : MachineTolerance a c nt t res.get b δ) (hδ' : MachineTolerance a' c' nt t' res'.get b' δ')
    (hB : ∀ k, k < nt → l2 (res.get k b) ≤ B) (hB' : ∀ k, k < nt → l2 (res'.get k b') ≤ B') (ht : ∀ k, k + 1 < nt → t k b ≤ t (k + 1) b)
    (nu : ℝ) (hnu : 0 ≤ nu) (hnuh : ∀ k, k + 1 < nt → nu * (t (k + 1) b - t k b) ≤ 1 / 2) (hF : ∀ k, k + 1 < nt → OneSided (g (t (k + 1) b)) nu) (k : ℕ) (hk : k < nt) :
    l2 (res.get k b - res'.get k b') ≤ Real.exp (2 * nu * (t k b - t 0 b)) * (l2 (y0 b - y0' b') + k * (δ + ε + (δ' + ε'))) := by
  obtain ⟨-, f2, -⟩ := integrateWith_spec a c y0 nt t n hn res false h
  obtain ⟨-, f2', -⟩ := integrateWith_spec a' c' y0' nt t' n' hn' res' false h'
  have g0 : res.get 0 b = y0 b := by simp only [Partial.get]; rw [f2]; rfl
  have g0' : res'.get 0 b' = y0' b' := by simp only [Partial.get]; rw [f2']; rfl
  have main := backward_compare (F := fun k y => g (t k b) y) hnu (K := nt - 1) (t := fun k => t k b) (fun k hk => ht k (by omega)) (fun k hk => hF k (by omega))
    (fun k hk => hnuh k (by omega)) (x := fun k => res.get k b) (y := fun k => res'.get k b') (dx := fun _ => δ + ε) (dy := fun _ => δ' + ε')
    (fun k hk => C130_step a .backwardEuler c hm g y0 nt t n hn res h b B ε δ hε hδ hB k (by omega)) (fun k hk => by
      have := C130_step a' .backwardEuler c' hm' g y0' nt t' n' hn' res' h' b' B' ε' δ' hε' hδ' hB' k (by omega)
      simp only [stepMiss, stepResidual] at this
      rw [← htt k (by omega), ← htt (k + 1) (by omega)] at this
      exact this) k (by omega)
  beta_reduce at main
  rw [g0, g0', Finset.sum_const, Finset.card_range, nsmul_eq_mul] at main
  exact main

/-- **C130.** Forward Euler: accuracy against a smooth solution of the true equation. -/
theorem C130_forward_accuracy (a : Arith β m) (c : Config) (hm : 0 ≤ c.miter) (g : ℝ → (Fin m → ℝ) → Fin m → ℝ) (y0 : BVec β m ℝ) (nt : ℕ) (t : ℕ → β → ℝ) (n : ℤ) (hn : 0 < n)
    (res : Partial β m) (h : integrateWith a c y0 nt t n = .ok (res, false)) (b : β) (B ε δ : ℝ) (hε : ResidualsRight a .forwardEuler g nt t b B δ ε)
    (hδ : MachineTolerance a c nt t res.get b δ) (hB : ∀ k, k < nt → l2 (res.get k b) ≤ B) (ht : ∀ k, k + 1 < nt → t k b ≤ t (k + 1) b)
    (hmax : ℝ) (hh : ∀ k, k + 1 < nt → t (k + 1) b - t k b ≤ hmax) (L : ℝ) (hL : 0 ≤ L)
    (hF : ∀ k, k + 1 < nt → Lip (g (t k b)) L) (M : ℝ) (hM : 0 ≤ M) (Y : ℝ → Fin m → ℝ) (hY0 : Y (t 0 b) = y0 b)
    (hY : SmoothSolution g (t 0 b) (t (nt - 1) b) M Y) (k : ℕ) (hk : k < nt) :
    l2 (res.get k b - Y (t k b)) ≤ Real.exp (L * (t k b - t 0 b)) * (M / 2 * hmax * (t k b - t 0 b) + k * (δ + ε)) := by
  obtain ⟨-, f2, -⟩ := integrateWith_spec a c y0 nt t n hn res false h
  have g0 : res.get 0 b = y0 b := by simp only [Partial.get]; rw [f2]; rfl
  have hmem : ∀ k, k < nt → t k b ∈ Set.Icc (t 0 b) (t (nt - 1) b) := fun k hk =>
    ⟨mono_of_steps (t := fun k => t k b) ht (by omega) hk, mono_of_steps (t := fun k => t k b) ht (by omega) (by omega)⟩
  have main := forward_compare (F := fun k y => g (t k b) y) hL (K := nt - 1) (t := fun k => t k b) (fun k hk => ht k (by omega)) (fun k hk => hF k (by omega))
    (x := fun k => res.get k b) (y := fun k => Y (t k b)) (dx := fun _ => δ + ε)
    (dy := fun k => M / 2 * (t (k + 1) b - t k b) ^ 2) (fun k hk => C130_step a .forwardEuler c hm g y0 nt t n hn res h b B ε δ hε hδ hB k (by omega)) (fun k hk => by
      have hsub : Set.Icc (t k b) (t (k + 1) b) ⊆ Set.Icc (t 0 b) (t (nt - 1) b) :=
        Set.Icc_subset_Icc (hmem k (by omega)).1 (hmem (k + 1) (by omega)).2
      exact truncation (Y' := fun s => g s (Y s)) (ht k (by omega)) _ (fun s hs => (hY.deriv s (hsub hs)).mono hsub)
        (fun s hs => hY.lip s (hsub hs) (t k b) (hmem k (by omega))) (Or.inl rfl)) k (by omega)
  refine main.trans (mul_le_mul_of_nonneg_left ?_ (Real.exp_pos _).le)
  beta_reduce
  rw [g0, hY0, sub_self, l2_zero, zero_add]
  exact trunc_sum hM (K := nt - 1) (t := fun k => t k b) (fun k hk => ht k (by omega)) (fun k hk => hh k (by omega)) k (by omega)

/-- **C130.** Forward Euler: two machines that run the same test without warnings agree up to `exp(L (t_k - t_0)) (|y0 - y0'| + k (δ + ε + δ' + ε'))`. -/
theorem C130_forward_reproducible (a : Arith β m) (a' : Arith β' m) (c c' : Config) (hm : 0 ≤ c.miter) (hm' : 0 ≤ c'.miter) (g : ℝ → (Fin m → ℝ) → Fin m → ℝ) (y0 : BVec β m ℝ) (y0' : BVec β' m ℝ)
    (nt : ℕ) (t : ℕ → β → ℝ) (t' : ℕ → β' → ℝ) (n n' : ℤ) (hn : 0 < n) (hn' : 0 < n') (res : Partial β m) (res' : Partial β' m)
    (h : integrateWith a c y0 nt t n = .ok (res, false)) (h' : integrateWith a' c' y0' nt t' n' = .ok (res', false)) (b : β) (b' : β') (htt : ∀ k, k < nt → t k b = t' k b')
    (B ε δ B' ε' δ' : ℝ) (hε : ResidualsRight a .forwardEuler g nt t b B δ ε) (hε' : ResidualsRight a' .forwardEuler g nt t' b' B' δ' ε')
    (hδ : MachineTolerance a c nt t res.get b δ) (hδ' : MachineTolerance a' c' nt t' res'.get b' δ')
    (hB : ∀ k, k < nt → l2 (res.get k b) ≤ B) (hB' : ∀ k, k < nt → l2 (res'.get k b') ≤ B') (ht : ∀ k, k + 1 < nt → t k b ≤ t (k + 1) b)
    (L : ℝ) (hL : 0 ≤ L) (hF : ∀ k, k + 1 < nt → Lip (g (t k b)) L) (k : ℕ) (hk : k < nt) :
    l2 (res.get k b - res'.get k b') ≤ Real.exp (L * (t k b - t 0 b)) * (l2 (y0 b - y0' b') + k * (δ + ε + (δ' + ε'))) := by
  obtain ⟨-, f2, -⟩ := integrateWith_spec a c y0 nt t n hn res false h
  obtain ⟨-, f2', -⟩ := integrateWith_spec a' c' y0' nt t' n' hn' res' false h'
  have g0 : res.get 0 b = y0 b := by simp only [Partial.get]; rw [f2]; rfl
  have g0' : res'.get 0 b' = y0' b' := by simp only [Partial.get]; rw [f2']; rfl
  have main := forward_compare (F := fun k y => g (t k b) y) hL (K := nt - 1) (t := fun k => t k b) (fun k hk => ht k (by omega)) (fun k hk => hF k (by omega))
    (x := fun k => res.get k b) (y := fun k => res'.get k b') (dx := fun _ => δ + ε) (dy := fun _ => δ' + ε')
    (fun k hk => C130_step a .forwardEuler c hm g y0 nt t n hn res h b B ε δ hε hδ hB k (by omega)) (fun k hk => by
      have := C130_step a' .forwardEuler c' hm' g y0' nt t' n' hn' res' h' b' B' ε' δ' hε' hδ' hB' k (by omega)
      simp only [stepMiss, stepResidual] at this
      rw [← htt k (by omega), ← htt (k + 1) (by omega)] at this
      exact this) k (by omega)
  beta_reduce at main
  rw [g0, g0', Finset.sum_const, Finset.card_range, nsmul_eq_mul] at main
  exact main

/-- **C130.** Where `ε` comes from: with errors `e1` in the computed residuals, `e2` in the computed norms and `e3` in the returned states, and rates with Lipschitz constant `L`, the stopping test can
be trusted up to `e1 + e2 + (2 + h L) e3`, for steps of at most `h`. The linear solves and the Newton updates do not matter. -/
theorem C130_budget (a : Arith β m) (s : Scheme) (g : ℝ → (Fin m → ℝ) → Fin m → ℝ) (nt : ℕ) (t : ℕ → β → ℝ) (b : β) (B δ e1 e2 e3 : ℝ) (he : 0 ≤ e3) (ha : Budget a s g nt t b B δ e1 e2 e3)
    (L : ℝ) (hL : 0 ≤ L) (hg : ∀ k, k < nt → Lip (g (t k b)) L) (hmax : ℝ) (ht : ∀ k, k + 1 < nt → t k b ≤ t (k + 1) b) (hh : ∀ k, k + 1 < nt → t (k + 1) b - t k b ≤ hmax) :
    ResidualsRight a s g nt t b B δ (e1 + e2 + (2 + hmax * L) * e3) := by
  intro k N yStart dy hN h0 hrows
  obtain ⟨x, hx, hn⟩ := ha.norm k N yStart dy hN h0 hrows
  refine ⟨x, hx, fun hxδ y hy0 hy j hj => ?_⟩
  let X : ℕ → Fin m → ℝ := fun j => if h : j - 1 < N ∧ j ≠ 0 then unflatten dy ⟨j - 1, h.1⟩ b + yStart b else yStart b
  have X0 : X 0 = yStart b := by simp [X]
  have XS : ∀ j : Fin N, X (j.val + 1) = unflatten dy j b + yStart b := fun j => by simp [X]
  have near : ∀ i, i ≤ N → l2 (y i - X i) ≤ e3 := by
    intro i hi
    cases i with
    | zero => rw [X0, hy0, sub_self, l2_zero]; exact he
    | succ i => rw [hy ⟨i, by omega⟩, XS ⟨i, by omega⟩]; exact ha.add N yStart dy h0 ⟨i, by omega⟩ (hrows _)
  have r1 := ha.residual k N yStart dy hN h0 hrows X X0 XS ⟨j, hj⟩
  have r2 := hn hxδ ⟨j, hj⟩
  generalize unflatten (a.R N (fun j => t (k + 1 + j.val)) (t k) yStart dy).1 ⟨j, hj⟩ b = r at r1 r2
  have hd := sub_nonneg.2 (ht (k + j) (by omega))
  have hdm := hh (k + j) (by omega)
  have n1 := near j (by omega)
  have n2 := near (j + 1) (by omega)
  have key : ∀ (u v : Fin m → ℝ) (q : ℕ), q < nt → l2 (u - v) ≤ e3 → l2 ((t (k + j + 1) b - t (k + j) b) • (g (t q b) u - g (t q b) v)) ≤ hmax * L * e3 := by
    intro u v q hq huv
    rw [l2_smul, abs_of_nonneg hd]
    have h1 := (hg q hq u v).trans (mul_le_mul_of_nonneg_left huv hL)
    calc (t (k + j + 1) b - t (k + j) b) * l2 (g (t q b) u - g (t q b) v) ≤ hmax * l2 (g (t q b) u - g (t q b) v) := mul_le_mul_of_nonneg_right hdm (l2_nonneg _)
      _ ≤ hmax * (L * e3) := mul_le_mul_of_nonneg_left h1 (hd.trans hdm)
      _ = hmax * L * e3 := by ring
  have cmp : l2 (stepResidual s g (t (k + j) b) (t (k + j + 1) b) (y j) (y (j + 1)) - stepResidual s g (t (k + j) b) (t (k + j + 1) b) (X j) (X (j + 1))) ≤
      (2 + hmax * L) * e3 := by
    have split : ∀ A C D : Fin m → ℝ, l2 A ≤ e3 → l2 C ≤ e3 → l2 D ≤ hmax * L * e3 → l2 (A - C - D) ≤ (2 + hmax * L) * e3 := by
      intro A C D hA hC hD
      have q1 := l2_add_le (A - C) (-D)
      have q2 := l2_add_le A (-C)
      rw [l2_neg, ← sub_eq_add_neg] at q1 q2
      linarith
    cases s with
    | backwardEuler =>
      have e : stepResidual .backwardEuler g (t (k + j) b) (t (k + j + 1) b) (y j) (y (j + 1)) - stepResidual .backwardEuler g (t (k + j) b) (t (k + j + 1) b) (X j) (X (j + 1)) =
          (y (j + 1) - X (j + 1)) - (y j - X j) - (t (k + j + 1) b - t (k + j) b) • (g (t (k + j + 1) b) (y (j + 1)) - g (t (k + j + 1) b) (X (j + 1))) := by
        simp only [stepResidual]
        rw [smul_sub]
        abel
      rw [e]
      exact split _ _ _ n2 n1 (key _ _ _ (by omega) n2)
    | forwardEuler =>
      have e : stepResidual .forwardEuler g (t (k + j) b) (t (k + j + 1) b) (y j) (y (j + 1)) - stepResidual .forwardEuler g (t (k + j) b) (t (k + j + 1) b) (X j) (X (j + 1)) =
          (y (j + 1) - X (j + 1)) - (y j - X j) - (t (k + j + 1) b - t (k + j) b) • (g (t (k + j) b) (y j) - g (t (k + j) b) (X j)) := by
        simp only [stepResidual]
        rw [smul_sub]
        abel
      rw [e]
      exact split _ _ _ n2 n1 (key _ _ _ (by omega) n1)
  unfold stepMiss
  generalize stepResidual s g (t (k + j) b) (t (k + j + 1) b) (y j) (y (j + 1)) = P at *
  simp only at r1
  generalize stepResidual s g (t (k + j) b) (t (k + j + 1) b) (X j) (X (j + 1)) = Q at *
  have e : P = r + (-(r - Q) + (P - Q)) := by abel
  rw [e]
  have q1 := l2_add_le r (-(r - Q) + (P - Q))
  have q2 := l2_add_le (-(r - Q)) (P - Q)
  rw [l2_neg] at q2
  linarith

/-- the exact residual rows -/
private theorem exact_rows (s : Scheme) (f : Func β m) {k N : ℕ} (t : ℕ → β → ℝ) (yStart : BVec β m ℝ) (dy : β → Fin (N * m) → ℝ) (b : β) (X : ℕ → Fin m → ℝ) (h0 : X 0 = yStart b)
    (hX : ∀ j : Fin N, X (j.val + 1) = unflatten dy j b + yStart b) (j : Fin N) :
    unflatten (blockRJ s (Func.lift f) (fun j : Fin N => t (k + 1 + j.val)) (t k) yStart dy).1 j b =
      stepResidual s (fun s y => (f b s y).1) (t (k + j.val) b) (t (k + j.val + 1) b) (X j.val) (X (j.val + 1)) := by
  let y : ℕ → BVec β m ℝ := fun i => if h : i - (k + 1) < N ∧ k < i then unflatten dy ⟨i - (k + 1), h.1⟩ + yStart else yStart
  have y0 : y k = yStart := by simp [y]
  have yS : ∀ j : Fin N, y (k + 1 + j.val) = unflatten dy j + yStart := by
    intro j
    have h : k + 1 + j.val - (k + 1) < N ∧ k < k + 1 + j.val := ⟨by have := j.2; omega, by omega⟩
    simp only [y]
    rw [dif_pos h]
    congr 2
    ext
    simp
  rw [blockRJ_residual s f _ _ _ dy t y k rfl y0 (fun _ => rfl) yS j b]
  have hc : ∀ i, i ≤ N → y (k + i) b = X i := by
    intro i hi
    cases i with
    | zero => rw [Nat.add_zero, y0, h0]
    | succ i => rw [show k + (i + 1) = k + 1 + i by omega, yS ⟨i, by omega⟩, hX ⟨i, by omega⟩]; rfl
  have c1 := hc j.val (by have := j.2; omega)
  have c2 := hc (j.val + 1) j.2
  rw [← Nat.add_assoc] at c2
  cases s <;> simp only [defect, backwardDefect, forwardDefect, Ode.rate, stepResidual, c1, c2]

theorem l2_le_rowNorm {N : ℕ} (R : β → Fin (N * m) → ℝ) (b : β) (j : Fin N) : l2 (unflatten R j b) ≤ rowNorm (R b) := by
  let d : ℕ → Fin m → ℝ := fun i => if h : i < N then unflatten R ⟨i, h⟩ b else 0
  have hd : ∀ j : Fin N, unflatten R j b = d j.val := fun j => by simp [d]
  rw [rowNorm_eq_rowsNorm R b d hd, hd j]
  exact l2_le_rowsNorm j.2

/-- **C130.** The exact operations have the budget zero, however large the states. -/
theorem C130_exact_budget (c : Config) (f : Func β m) (nt : ℕ) (t : ℕ → β → ℝ) (b : β) (B δ : ℝ) :
    Budget (exactArith c (Func.lift f)) c.scheme (fun s y => (f b s y).1) nt t b B δ 0 0 0 := by
  refine ⟨fun k N yStart dy _ _ _ X h0 hX j => ?_, fun k N yStart dy _ _ _ => ⟨_, rfl, fun hx j => ?_⟩, fun N yStart dy _ j _ => ?_⟩
  · have := exact_rows c.scheme f t yStart dy b X h0 hX (k := k) j
    change l2 (unflatten (blockRJ c.scheme (Func.lift f) (fun j : Fin N => t (k + 1 + j.val)) (t k) yStart dy).1 j b - _) ≤ 0
    rw [this, sub_self, l2_zero]
  · rw [add_zero]
    exact (l2_le_rowNorm _ b j).trans hx
  · change l2 (unflatten dy j b + yStart b - (unflatten dy j b + yStart b)) ≤ 0
    rw [sub_self, l2_zero]

/-- **C130.** Rounding so coarse that the tolerances cannot be met is never silent: if the computed residual norms of some test always stay between `lo` and `hi`, with `atol < lo` and `rtol · hi < lo`,
then no run with at least one step finishes without a warning. -/
theorem C130_stagnation (a : Arith β m) (c : Config) (hm : 0 ≤ c.miter) (hr : 0 ≤ c.rtol) (y0 : BVec β m ℝ) (nt : ℕ) (hnt : 1 < nt) (t : ℕ → β → ℝ) (n : ℤ) (hn : 0 < n) (b : β) (lo hi : ℝ)
    (hlo : c.atol < lo) (hrel : c.rtol * hi < lo)
    (hnorm : ∀ (N : ℕ) (T : Fin N → β → ℝ) (tS : β → ℝ) (yS : BVec β m ℝ) (dy : β → Fin (N * m) → ℝ), ∃ x, a.norm N (a.R N T tS yS dy).1 b = some x ∧ lo ≤ x ∧ x ≤ hi)
    (res : Partial β m) : integrateWith a c y0 nt t n ≠ .ok (res, false) := by
  intro h
  obtain ⟨-, -, h4⟩ := integrateWith_spec a c y0 nt t n hn res false h
  obtain ⟨i, hi', -⟩ := block_of_row (nt := nt) (N := n.toNat) (by omega) (le_refl 1) hnt
  obtain ⟨guess, rows, wk, h1, h2, -⟩ := h4 i hi'
  have hw := h2 rfl
  subst hw
  unfold blockUpdateWith at h1
  split at h1
  · exact absurd h1 (by simp)
  · next dy hdy =>
    simp only [Except.ok.injEq, Prod.mk.injEq] at h1
    refine newton_stops _ _ _ _ _ _ _ _ _ hm _ hdy h1.2 ?_
    obtain ⟨x, hx, l1, l2⟩ := hnorm _ _ _ _ dy
    obtain ⟨x0, hx0, l3, l4⟩ := hnorm _ _ _ _ guess
    refine ⟨⟨b, ?_⟩, ⟨b, ?_⟩⟩
    · rw [hx]
      exact lt_of_lt_of_le hlo l1
    · rw [hx, hx0]
      exact lt_of_le_of_lt (mul_le_mul_of_nonneg_left l4 hr) (lt_of_lt_of_le hrel l1)

/-- A machine for the examples: every entry of a computed residual is wrong by `1e-12`, every Newton update by `1e-13`, and the linear solver ignores the Jacobian. -/
noncomputable def sloppy (c : Config) (f : Func Unit 1) : Arith Unit 1 where
  R := fun _ t tS yS dy => (fun b i => (blockRJ c.scheme (Func.lift f) t tS yS dy).1 b i + 1e-12, (blockRJ c.scheme (Func.lift f) t tS yS dy).2)
  solve := fun _ _ R => R
  sub := fun _ x dx b i => x b i - dx b i + 1e-13
  norm := fun _ R b => some (rowNorm (R b))
  add := fun _ dy yS k => unflatten dy k + yS

theorem sloppy_budget (c : Config) (f : Func Unit 1) (nt : ℕ) (t : ℕ → Unit → ℝ) (B δ : ℝ) :
    Budget (sloppy c f) c.scheme (fun s y => (f () s y).1) nt t () B δ 1e-12 0 0 := by
  refine ⟨fun k N yStart dy _ _ _ X h0 hX j => ?_, fun k N yStart dy _ _ _ => ⟨_, rfl, fun hx j => ?_⟩, fun N yStart dy _ j _ => ?_⟩
  · have := exact_rows c.scheme f t yStart dy () X h0 hX (k := k) j
    rw [← this, l2_one, Pi.sub_apply]
    simp only [sloppy, unflatten]
    rw [add_sub_cancel_left]
    norm_num
  · rw [add_zero]
    exact (l2_le_rowNorm _ () j).trans hx
  · change l2 (unflatten dy j () + yStart () - (unflatten dy j () + yStart ())) ≤ 0
    rw [sub_self, l2_zero]

/-- the options of the examples -/
noncomputable def sloppyConfig (atol : ℝ) : Config :=
  { scheme := .backwardEuler, method := .direct .thomas, rtol := 0, atol := atol, miter := 100, throwOnFail := true, guessType := "zero" }

private theorem sloppy_residual (atol : ℝ) (T : Fin 1 → Unit → ℝ) (hT : T 0 () = 1) (tS : Unit → ℝ) (hS : tS () = 0) (yS : BVec Unit 1 ℝ) (dy : Unit → Fin (1 * 1) → ℝ) (i : Fin (1 * 1)) :
    ((sloppy (sloppyConfig atol) fun _ _ _ => (fun _ => 1, 0)).R 1 T tS yS dy).1 () i = dy () i - 1 + 1e-12 := by
  have hi : ∀ i j : Fin (1 * 1), i = j := fun i j => Subsingleton.elim (α := Fin 1) i j
  let t : ℕ → Unit → ℝ := fun k => if k = 0 then tS else T 0
  have e := exact_rows (sloppyConfig atol).scheme (fun (_ : Unit) _ (_ : Fin 1 → ℝ) => ((fun _ => (1 : ℝ)), (0 : Matrix (Fin 1) (Fin 1) ℝ))) (k := 0) t yS dy ()
    (fun k => if k = 0 then yS () else unflatten dy 0 () + yS ()) (by simp) (fun j => by obtain rfl : j = 0 := Subsingleton.elim _ _; simp) (0 : Fin 1)
  have hT' : (fun j : Fin 1 => t (0 + 1 + j.val)) = T := by funext j; obtain rfl : j = 0 := Subsingleton.elim _ _; simp [t]
  rw [hT'] at e
  have e0 := congrFun e 0
  simp only [sloppyConfig, stepResidual, t] at e0
  norm_num [hT, hS, unflatten] at e0
  simp only [sloppy, sloppyConfig]
  rw [hi i (finProdFinEquiv (0, 0)), e0]

private theorem rowNorm_const (r : Fin (1 * 1) → ℝ) (v : ℝ) (h : ∀ i, r i = v) : rowNorm r = |v| := by
  unfold rowNorm
  simp only [h]
  change Real.sqrt (∑ i : Fin 1, v ^ 2) = |v|
  rw [Fin.sum_univ_one, Real.sqrt_sq_eq_abs]

private theorem sloppy_norm (atol : ℝ) (T : Fin 1 → Unit → ℝ) (hT : T 0 () = 1) (tS : Unit → ℝ) (hS : tS () = 0) (yS : BVec Unit 1 ℝ) (dy : Unit → Fin (1 * 1) → ℝ) (v : ℝ) (hv : ∀ i, dy () i = v) :
    (sloppy (sloppyConfig atol) fun _ _ _ => (fun _ => 1, 0)).norm 1 ((sloppy (sloppyConfig atol) fun _ _ _ => (fun _ => 1, 0)).R 1 T tS yS dy).1 () = some |v - 1 + 1e-12| := by
  change some (rowNorm _) = _
  rw [rowNorm_const _ (v - 1 + 1e-12)]
  intro i
  rw [sloppy_residual atol T hT tS hS yS dy i, hv]

private theorem sloppy_block (N : ℕ) (hN : N = 1) (T : Fin N → Unit → ℝ) (hT : ∀ j, T j () = 1) (tS : Unit → ℝ) (hS : tS () = 0) (guess : Unit → Fin (N * 1) → ℝ) (hg : guess = 0) :
    ∃ rows, blockUpdateWith (sloppy (sloppyConfig 1e-8) fun _ _ _ => (fun _ => 1, 0)) (sloppyConfig 1e-8) T tS (fun _ _ => 0) guess = .ok (rows, false) ∧ ∀ j, rows j () 0 = 1 - 9e-13 := by
  subst hN hg
  have r := sloppy_residual 1e-8 T (hT 0) tS hS (fun _ _ => 0)
  have nrm := sloppy_norm 1e-8 T (hT 0) tS hS (fun _ _ => 0)
  let a := sloppy (sloppyConfig 1e-8) fun (_ : Unit) _ (_ : Fin 1 → ℝ) => ((fun _ => (1 : ℝ)), (0 : Matrix (Fin 1) (Fin 1) ℝ))
  let x1 : Unit → Fin (1 * 1) → ℝ := a.sub 1 0 (a.solve 1 (a.R 1 T tS (fun _ _ => 0) 0).2 (a.R 1 T tS (fun _ _ => 0) 0).1)
  have hx1 : ∀ i, x1 () i = 1 - 9e-13 := by
    intro i
    have := r 0 i
    change (0 : ℝ) - ((sloppy (sloppyConfig 1e-8) fun _ _ _ => (fun _ => 1, 0)).R 1 T tS (fun _ _ => 0) 0).1 () i + 1e-13 = _
    rw [this]
    norm_num
  have c0 : notConverged (a.norm 1 (a.R 1 T tS (fun _ _ => 0) 0).1) (a.norm 1 (a.R 1 T tS (fun _ _ => 0) 0).1) 0 1e-8 := by
    have := nrm 0 0 (fun _ => rfl)
    refine ⟨⟨(), ?_⟩, ⟨(), ?_⟩⟩
    · simp only [a]
      rw [this]
      simp only [gtAtol]
      rw [abs_of_neg (by norm_num)]
      norm_num
    · simp only [a]
      rw [this]
      simp only [gtRtol]
      rw [abs_of_neg (by norm_num)]
      norm_num
  have c1 : ¬ notConverged (a.norm 1 (a.R 1 T tS (fun _ _ => 0) x1).1) (a.norm 1 (a.R 1 T tS (fun _ _ => 0) 0).1) 0 1e-8 := by
    rintro ⟨⟨_, h⟩, -⟩
    have := nrm x1 _ hx1
    simp only [a] at h
    rw [this] at h
    simp only [gtAtol] at h
    rw [abs_of_pos (by norm_num)] at h
    norm_num at h
  have hl : loop (a.R 1 T tS (fun _ _ => 0)) (a.solve 1) (a.sub 1) (a.norm 1) 0 1e-8 (a.norm 1 (a.R 1 T tS (fun _ _ => 0) 0).1) (98 + 1 + 1) 0 = (x1, 1) := by
    rw [loop, if_pos c0, loop, if_neg c1]
  have hbn : blockNewtonWith a (sloppyConfig 1e-8) T tS (fun _ _ => 0) 0 = { result := .ok x1, warned := false, iters := 1, callerX0 := x1 } := by
    exact newtonChunk_of_loop hl (by norm_num [sloppyConfig])
  refine ⟨a.add 1 x1 (fun _ _ => 0), ?_, fun j => ?_⟩
  · exact blockUpdateWith_of hbn
  · change x1 () _ + 0 = _
    rw [hx1, add_zero]

/-- Non-vacuity of C130: the machine `sloppy` solves `y' = 1` in one step from 0 to 1, its run meets the hypotheses with `ε = 1e-12` and `δ = atol = 1e-8`, and its result is near 1 but not 1. -/
example : ∃ res : Partial Unit 1, integrateWith (sloppy (sloppyConfig 1e-8) fun _ _ _ => (fun _ => 1, 0)) (sloppyConfig 1e-8) (fun _ _ => 0) 2 (fun k _ => (k : ℝ)) 1 = .ok (res, false) ∧
    |res.get 1 () 0 - 1| ≤ 1e-8 + 1e-12 ∧ res.get 1 () 0 ≠ 1 := by
  have hlen : sliceLen 2 1 1 = 1 := rfl
  obtain ⟨rows, hrows, hval⟩ := sloppy_block (sliceLen 2 1 1) hlen (fun j => fun _ => ((1 + j.val : ℕ) : ℝ)) (by
    intro j
    have : j.val = 0 := by have := j.2; omega
    rw [this]; norm_num) (fun _ => ((1 - 1 : ℕ) : ℝ)) (by norm_num) 0 rfl
  let res : Partial Unit 1 := fun j => if h : 1 ≤ j ∧ j - 1 < sliceLen 2 1 1 then some (rows ⟨j - 1, h.2⟩) else if j = 0 then some (fun _ _ => 0) else none
  have hrun : integrateWith (sloppy (sloppyConfig 1e-8) fun _ _ _ => (fun _ => 1, 0)) (sloppyConfig 1e-8) (fun _ _ => 0) 2 (fun k _ => (k : ℝ)) 1 = .ok (res, false) := by
    unfold integrateWith
    rw [if_neg (by norm_num), blockStarts_pos 2 (by norm_num)]
    change integrateLoopWith _ _ 2 1 _ [1] _ = _
    rw [integrateLoopWith]
    rw [integrateStepWith_zero _ _ rfl 2 1 _ _ 1 (rows, false) hrows]
    rfl
  have hB : ∀ k, k < 2 → l2 (res.get k ()) ≤ 1 := by
    intro k hk
    interval_cases k
    · rw [l2_one]; simp [res, Partial.get]
    · have : res.get 1 () 0 = 1 - 9e-13 := by simp only [res, Partial.get]; rw [dif_pos ⟨le_rfl, by decide⟩]; exact hval _
      rw [l2_one, this, abs_of_pos (by norm_num)]; norm_num
  refine ⟨res, hrun, ?_, ?_⟩
  · have hε := C130_budget _ _ _ 2 (fun k (_ : Unit) => (k : ℝ)) () 1 1e-8 1e-12 0 0 le_rfl (sloppy_budget (sloppyConfig 1e-8) (fun _ _ _ => (fun _ => 1, 0)) 2 (fun k _ => (k : ℝ)) 1 1e-8)
      0 le_rfl (fun k _ x y => by simp [l2_zero]) 1 (fun k _ => by push_cast; linarith) (fun k _ => by push_cast; linarith)
    have hδ : MachineTolerance (sloppy (sloppyConfig 1e-8) fun _ _ _ => (fun _ => 1, 0)) (sloppyConfig 1e-8) 2 (fun k (_ : Unit) => (k : ℝ)) res.get () 1e-8 :=
      ⟨le_rfl, rfl, fun k N _ => ⟨_, rfl, by simp only [sloppyConfig]; rw [zero_mul]; norm_num⟩⟩
    have main := C130_step _ _ _ (by norm_num [sloppyConfig]) _ _ 2 _ 1 (by norm_num) res hrun () 1 _ 1e-8 hε hδ hB 0 (by norm_num)
    simp only [sloppyConfig, stepMiss, stepResidual] at main
    rw [l2_one] at main
    have h0 : res.get 0 () 0 = 0 := by simp [res, Partial.get]
    simp only [Pi.sub_apply, Pi.smul_apply, smul_eq_mul, h0] at main
    norm_num at main ⊢
    exact main
  · have : res.get 1 () 0 = 1 - 9e-13 := by simp only [res, Partial.get]; rw [dif_pos ⟨le_rfl, by decide⟩]; exact hval _
    rw [this]
    norm_num

/-- Non-vacuity of `C130_stagnation`: a machine whose residual norms never fall below `1e-6` (as in single precision with large stresses) cannot meet the default tolerances silently. -/
example (res : Partial Unit 1) : integrateWith (β := Unit) (m := 1)
    { R := fun _ _ _ _ _ => (fun _ _ => 0, ⟨fun _ _ => 1, fun _ _ => 0⟩), solve := fun _ _ R => R, sub := fun _ x dx => x - dx, norm := fun _ _ _ => some 1e-6, add := fun _ dy yS k => unflatten dy k + yS }
    { scheme := .backwardEuler, method := .direct .thomas, rtol := 1e-6, atol := 1e-8, miter := 100, throwOnFail := false, guessType := "zero" } (fun _ _ => 0) 3 (fun k _ => (k : ℝ)) 1 ≠
      .ok (res, false) :=
  C130_stagnation _ _ (by norm_num) (by norm_num) _ 3 (by norm_num) _ 1 (by norm_num) () 1e-6 1e-6 (by norm_num) (by norm_num) (fun _ _ _ _ _ => ⟨1e-6, rfl, le_rfl, le_rfl⟩) res

private theorem exp_slope {s u : ℝ} (hs : 0 ≤ s) (hu : 0 ≤ u) : |Real.exp (-s) - Real.exp (-u)| ≤ |s - u| := by
  wlog h : s ≤ u generalizing s u with H
  · rw [abs_sub_comm, abs_sub_comm s u]
    exact H hu hs (not_le.1 h).le
  have h1 : Real.exp (-u) ≤ Real.exp (-s) := Real.exp_le_exp.2 (by linarith)
  have h2 : Real.exp (-u) = Real.exp (-s) * Real.exp (s - u) := by rw [← Real.exp_add]; congr 1; ring
  have h3 := Real.add_one_le_exp (s - u)
  have h4 : Real.exp (-s) ≤ 1 := Real.exp_le_one_iff.2 (by linarith)
  rw [abs_of_nonneg (by linarith), abs_of_nonpos (by linarith)]
  nlinarith [Real.exp_pos (-s)]

/-- Non-vacuity of C130 for forward Euler: `y' = -y`, `y(0) = 1`, a thousand steps of 1/1000 in blocks of seven, with the exact operations and tolerances zero. -/
example : let c : Config := ⟨.forwardEuler, .direct .thomas, 0, 0, 100, true, "zero"⟩
    let f : Func Unit 1 := fun _ _ y => (fun _ => -1 * y 0, !![-1])
    ∃ res, integrateWith (exactArith c (Func.lift f)) c (fun _ _ => 1) 1001 (fun k _ => (k : ℝ) / 1000) 7 = .ok (res, false) ∧
      |res.get 1000 () 0 - Real.exp (-1)| ≤ Real.exp 1 * (1 / 2 * (1 / 1000)) := by
  intro c f
  obtain ⟨res, ho⟩ := C18_linear_succeeds (β := Unit) (m := 1) c le_rfl (by norm_num) (fun _ _ => !![-1]) (fun _ _ => 0) (fun _ _ => 1) 1001 (by norm_num)
    (fun k _ => (k : ℝ) / 1000) 7 (by norm_num) (Or.inl rfl) (fun h => by cases h)
  have hf : (fun (_ : Unit) (_ : ℝ) (y : Fin 1 → ℝ) => ((!![-1] : Matrix (Fin 1) (Fin 1) ℝ).mulVec y + 0, !![(-1 : ℝ)])) = f := by
    funext _ _ y
    refine Prod.ext (funext fun i => ?_) rfl
    simp [f, Matrix.mulVec, dotProduct]
  rw [hf] at ho
  have h := (C130_exact c (Func.lift f) (fun _ _ => 1) 1001 (fun k _ => (k : ℝ) / 1000) 7).trans ho
  have lip : ∀ s, Lip (fun y => (f () s y).1) 1 := by
    intro s x y
    rw [l2_one, l2_one, one_mul]
    change |(-1 * x 0) - (-1 * y 0)| ≤ |x 0 - y 0|
    rw [← abs_neg]
    exact le_of_eq (congrArg _ (by ring))
  have step : ∀ k : ℕ, k + 1 < 1001 → ((k + 1 : ℕ) : ℝ) / 1000 - (k : ℝ) / 1000 = 1 / 1000 := fun k _ => by push_cast; ring
  have right := C130_budget (exactArith c (Func.lift f)) .forwardEuler (fun s y => (f () s y).1) 1001 (fun k _ => (k : ℝ) / 1000) ()
    (∑ k ∈ Finset.range 1001, l2 (res.get k ())) 0 0 0 0 le_rfl (C130_exact_budget c f 1001 _ () _ 0) 1 zero_le_one (fun _ _ => lip 0) (1 / 1000)
    (fun k hk => by have := step k hk; linarith) (fun k hk => (step k hk).le)
  have main := C130_forward_accuracy (exactArith c (Func.lift f)) c (by norm_num [c]) (fun s y => (f () s y).1) (fun _ _ => 1) 1001 (fun k _ => (k : ℝ) / 1000) 7 (by norm_num) res h () _ _ 0 right
    ⟨le_rfl, rfl, fun k N _ => ⟨_, rfl, (zero_mul _).le⟩⟩ (fun k hk => Finset.single_le_sum (f := fun k => l2 (res.get k ())) (fun _ _ => l2_nonneg _) (Finset.mem_range.2 hk))
    (fun k hk => by have := step k hk; linarith) (1 / 1000) (fun k hk => (step k hk).le) 1 zero_le_one (fun _ _ => lip 0) 1 zero_le_one (fun s _ => Real.exp (-s)) (by funext i; simp)
    ⟨fun s _ => by
      refine HasDerivAt.hasDerivWithinAt ?_
      rw [hasDerivAt_pi]
      intro i
      refine ((hasDerivAt_id s).neg.exp).congr_deriv ?_
      simp [f], fun s hs u hu => by
      have hs0 : 0 ≤ s := by simpa using hs.1
      have hu0 : 0 ≤ u := by simpa using hu.1
      rw [l2_one, one_mul]
      refine le_trans (le_of_eq ?_) (exp_slope hs0 hu0)
      rw [abs_sub_comm]
      congr 1
      simp only [Pi.sub_apply, f]
      ring⟩ 1000 (by norm_num)
  refine ⟨res, h, ?_⟩
  rw [l2_one, Pi.sub_apply] at main
  norm_num at main ⊢
  exact main

end Pyoptmat.Props
