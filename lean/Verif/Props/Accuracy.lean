import Verif.Proofs.Accuracy
import Verif.Props.Elastic

/-!
# Properties C81, C82: accuracy of the integrator, and what the tolerances do to it
-/

namespace Pyoptmat.Props

open Pyoptmat.Control Pyoptmat.Material Pyoptmat.Newton Pyoptmat.Spec Pyoptmat.Ode Pyoptmat.Chunktime

variable {β β' : Type*} {m : ℕ}

/-- `δ` bounds what the convergence tolerances of the block solver permit each step to miss, for test `b`: `δ` is at least `atol`, and either `rtol` is zero, or the guess is the default one and `δ` is at
least `rtol · G · duration`, where `G` bounds the rates of the test met in the run. -/
def ToleranceBound (c : Config) (f : Func β m) (nt : ℕ) (t : ℕ → β → ℝ) (y : ℕ → BVec β m ℝ) (b : β) (δ : ℝ) : Prop :=
  0 ≤ δ ∧ c.atol ≤ δ ∧ (c.rtol = 0 ∨ (c.guessType = "zero" ∧ 0 ≤ c.rtol ∧
    ∃ G, (∀ i j, i < nt → j < nt → l2 (f b (t i b) (y j b)).1 ≤ G) ∧ c.rtol * (G * (t (nt - 1) b - t 0 b)) ≤ δ))

theorem l2_le_rowsNorm {n : ℕ} {d : ℕ → Fin m → ℝ} {j : ℕ} (hj : j < n) : l2 (d j) ≤ rowsNorm n d := by
  unfold l2 rowsNorm
  refine Real.sqrt_le_sqrt ?_
  exact Finset.single_le_sum (f := fun j => ∑ i, d j i ^ 2) (fun j _ => Finset.sum_nonneg fun i _ => sq_nonneg _) (Finset.mem_range.2 hj)

theorem rowsNorm_le_sum (n : ℕ) (d : ℕ → Fin m → ℝ) : rowsNorm n d ≤ ∑ j ∈ Finset.range n, l2 (d j) := by
  unfold rowsNorm
  rw [Real.sqrt_le_left (Finset.sum_nonneg fun j _ => l2_nonneg _)]
  have : ∀ j, ∑ i, d j i ^ 2 = l2 (d j) ^ 2 := fun j => by
    unfold l2; rw [Real.sq_sqrt (Finset.sum_nonneg fun i _ => sq_nonneg _)]
  simp only [this]
  exact Finset.sum_sq_le_sq_sum_of_nonneg fun j _ => l2_nonneg _

theorem mono_of_steps {nt : ℕ} {t : ℕ → ℝ} (ht : ∀ k, k + 1 < nt → t k ≤ t (k + 1)) {i j : ℕ} (hij : i ≤ j) (hj : j < nt) : t i ≤ t j := by
  induction j, hij using Nat.le_induction with
  | base => exact le_rfl
  | succ j hij ih => exact (ih (by omega)).trans (ht j hj)

/-- every step of an unwarned run misses its scheme by at most `δ` -/
theorem step_defect_le (c : Config) (hm : 0 ≤ c.miter) (f : Func β m) (y0 : BVec β m ℝ) (nt : ℕ) (t : ℕ → β → ℝ) (n : ℤ) (hn : 0 < n) (res : Partial β m)
    (h : integrate c f y0 nt t n = .ok (res, false)) (b : β) (ht : ∀ k, k + 1 < nt → t k b ≤ t (k + 1) b) {δ : ℝ} (hδ : ToleranceBound c f nt t res.get b δ)
    (k : ℕ) (hk : k + 1 < nt) : l2 (defect c.scheme f t res.get k b) ≤ δ := by
  obtain ⟨d0, d1, d2⟩ := hδ
  refine all_rows (nt := nt) (N := n.toNat) (P := fun k => l2 (defect c.scheme f t res.get k b) ≤ δ) (by omega) ?_ k hk
  intro i hi j hj
  obtain ⟨-, -, -, h4, -⟩ := integrate_spec c f y0 nt t n hn res false h
  have hlt : i * n.toNat + 1 < nt := by have := nblocks_lt (by omega) hi; omega
  have hlen : sliceLen nt (i * n.toNat + 1) n.toNat = min n.toNat (nt - 1 - i * n.toNat) := by unfold sliceLen; omega
  rcases d2 with d2 | ⟨g1, g2, G, g3, g4⟩
  · have hb := h4 i hi
    rw [Nat.add_comm] at hb
    obtain ⟨guess, -, htol⟩ := block_tolerance hm hb
    rw [d2] at htol
    refine (l2_le_rowsNorm (d := fun j => defect c.scheme f t res.get (i * n.toNat + j) b) hj).trans ?_
    rcases htol with q | q
    · exact (q b).trans d1
    · refine (q b).trans ?_
      rw [zero_mul]; exact d0
  · rw [hlen] at hj
    refine (l2_le_rowsNorm (d := fun j => defect c.scheme f t res.get (i * n.toNat + j) b) hj).trans ?_
    have bound : ∀ g : ℕ → Fin m → ℝ, (∀ j, j < min n.toNat (nt - 1 - i * n.toNat) → l2 (g j) ≤ G) →
        c.rtol * rowsNorm (min n.toNat (nt - 1 - i * n.toNat)) (fun j => (t (i * n.toNat + j + 1) b - t (i * n.toNat + j) b) • g j) ≤ δ := by
      intro g hg
      refine le_trans (mul_le_mul_of_nonneg_left ?_ g2) g4
      refine (rowsNorm_le_sum _ _).trans ?_
      have s1 : ∀ j ∈ Finset.range (min n.toNat (nt - 1 - i * n.toNat)), l2 ((t (i * n.toNat + j + 1) b - t (i * n.toNat + j) b) • g j) ≤
          G * (t (i * n.toNat + (j + 1)) b - t (i * n.toNat + j) b) := by
        intro j hj
        have hj := Finset.mem_range.1 hj
        have hd := sub_nonneg.2 (ht (i * n.toNat + j) (by omega))
        rw [l2_smul, abs_of_nonneg hd, mul_comm]
        exact mul_le_mul_of_nonneg_right (hg j hj) hd
      refine (Finset.sum_le_sum s1).trans ?_
      rw [← Finset.mul_sum, Finset.sum_range_sub (fun j => t (i * n.toNat + j) b)]
      have hG : 0 ≤ G := (l2_nonneg _).trans (g3 0 0 (by omega) (by omega))
      refine mul_le_mul_of_nonneg_left ?_ hG
      have m1 : t 0 b ≤ t (i * n.toNat + 0) b := mono_of_steps (t := fun k => t k b) ht (by omega) (by omega)
      have m2 : t (i * n.toNat + min n.toNat (nt - 1 - i * n.toNat)) b ≤ t (nt - 1) b := mono_of_steps (t := fun k => t k b) ht (by omega) (by omega)
      linarith
    have htol := C15_defect_within_tolerance c hm g1 f y0 nt t n hn res h i hlt
    cases hs : c.scheme with
    | backwardEuler =>
      rw [hs] at htol
      simp only at htol
      rcases htol with q | q
      · exact (q b).trans d1
      · exact (q b).trans (bound (fun j => (f b (t (i * n.toNat + j + 1) b) (res.get (i * n.toNat) b)).1) fun j hj => g3 _ _ (by omega) (by omega))
    | forwardEuler =>
      rw [hs] at htol
      simp only at htol
      rcases htol with q | q
      · exact (q b).trans d1
      · exact (q b).trans (bound (fun j => (f b (t (i * n.toNat + j) b) (res.get (i * n.toNat) b)).1) fun j hj => g3 _ _ (by omega) (by omega))

/-- two sequences nearly satisfying the backward Euler formula for the same rates -/
theorem backward_compare {F : ℕ → (Fin m → ℝ) → Fin m → ℝ} {nu : ℝ} (hnu : 0 ≤ nu) {K : ℕ} {t : ℕ → ℝ} (ht : ∀ k < K, t k ≤ t (k + 1))
    (hF : ∀ k < K, OneSided (F (k + 1)) nu) (hs : ∀ k < K, nu * (t (k + 1) - t k) ≤ 1 / 2) {x y : ℕ → Fin m → ℝ} {dx dy : ℕ → ℝ}
    (hx : ∀ k < K, l2 (x (k + 1) - x k - (t (k + 1) - t k) • F (k + 1) (x (k + 1))) ≤ dx k)
    (hy : ∀ k < K, l2 (y (k + 1) - y k - (t (k + 1) - t k) • F (k + 1) (y (k + 1))) ≤ dy k) (k : ℕ) (hk : k ≤ K) :
    l2 (x k - y k) ≤ Real.exp (2 * nu * (t k - t 0)) * (l2 (x 0 - y 0) + ∑ j ∈ Finset.range k, (dx j + dy j)) := by
  refine gronwall_implicit (e := fun k => l2 (x k - y k)) (tau := fun k => dx k + dy k) (t := t) hnu ht hs
    (fun k hk => add_nonneg ((l2_nonneg _).trans (hx k hk)) ((l2_nonneg _).trans (hy k hk))) (fun k => l2_nonneg _) ?_ k hk
  intro k hk
  refine (implicit_step (hF k hk) (sub_nonneg.2 (ht k hk)) (x := x (k + 1)) (y := y (k + 1)) (a := x k) (a' := y k)
    (d := x (k + 1) - x k - (t (k + 1) - t k) • F (k + 1) (x (k + 1))) (d' := y (k + 1) - y k - (t (k + 1) - t k) • F (k + 1) (y (k + 1))) (by abel) (by abel)).trans ?_
  have h1 := l2_add_le (x (k + 1) - x k - (t (k + 1) - t k) • F (k + 1) (x (k + 1))) (-(y (k + 1) - y k - (t (k + 1) - t k) • F (k + 1) (y (k + 1))))
  rw [l2_neg, ← sub_eq_add_neg] at h1
  have := hx k hk
  have := hy k hk
  linarith

theorem forward_compare {F : ℕ → (Fin m → ℝ) → Fin m → ℝ} {L : ℝ} (hL : 0 ≤ L) {K : ℕ} {t : ℕ → ℝ} (ht : ∀ k < K, t k ≤ t (k + 1))
    (hF : ∀ k < K, Lip (F k) L) {x y : ℕ → Fin m → ℝ} {dx dy : ℕ → ℝ}
    (hx : ∀ k < K, l2 (x (k + 1) - x k - (t (k + 1) - t k) • F k (x k)) ≤ dx k)
    (hy : ∀ k < K, l2 (y (k + 1) - y k - (t (k + 1) - t k) • F k (y k)) ≤ dy k) (k : ℕ) (hk : k ≤ K) :
    l2 (x k - y k) ≤ Real.exp (L * (t k - t 0)) * (l2 (x 0 - y 0) + ∑ j ∈ Finset.range k, (dx j + dy j)) := by
  refine gronwall_explicit (e := fun k => l2 (x k - y k)) (tau := fun k => dx k + dy k) (t := t) hL ht
    (fun k hk => add_nonneg ((l2_nonneg _).trans (hx k hk)) ((l2_nonneg _).trans (hy k hk))) (fun k => l2_nonneg _) ?_ k hk
  intro k hk
  refine (explicit_step (hF k hk) (sub_nonneg.2 (ht k hk)) (x := x (k + 1)) (y := y (k + 1)) (a := x k) (a' := y k)
    (d := x (k + 1) - x k - (t (k + 1) - t k) • F k (x k)) (d' := y (k + 1) - y k - (t (k + 1) - t k) • F k (y k)) (by abel) (by abel)).trans ?_
  have h1 := l2_add_le (x (k + 1) - x k - (t (k + 1) - t k) • F k (x k)) (-(y (k + 1) - y k - (t (k + 1) - t k) • F k (y k)))
  rw [l2_neg, ← sub_eq_add_neg] at h1
  have := hx k hk
  have := hy k hk
  linarith

theorem trunc_sum {M hmax δ : ℝ} (hM : 0 ≤ M) {t : ℕ → ℝ} {K : ℕ} (ht : ∀ k < K, t k ≤ t (k + 1)) (hh : ∀ k < K, t (k + 1) - t k ≤ hmax) (k : ℕ) (hk : k ≤ K) :
    ∑ j ∈ Finset.range k, (δ + M / 2 * (t (j + 1) - t j) ^ 2) ≤ M / 2 * hmax * (t k - t 0) + k * δ := by
  rw [Finset.sum_add_distrib, Finset.sum_const, Finset.card_range, nsmul_eq_mul, add_comm]
  refine add_le_add ?_ le_rfl
  rw [← Finset.sum_range_sub t, Finset.mul_sum]
  refine Finset.sum_le_sum fun j hj => ?_
  have hj := Finset.mem_range.1 hj
  have h1 := hh j (by omega)
  have h2 := sub_nonneg.2 (ht j (by omega))
  have h3 := mul_le_mul_of_nonneg_right h1 h2
  have := mul_le_mul_of_nonneg_left h3 (by linarith : 0 ≤ M / 2)
  nlinarith

/-! ## C81: accuracy -/

/-- **C81.** Backward Euler converges to the true solution of the differential equation, at first order, with an explicit constant: after `k` steps of size at most `hmax`, the computed state is within
`exp(2 ν (t_k - t_0)) (M/2 · hmax · (t_k - t_0) + k δ)` of it. `ν ≥ 0` is a one-sided Lipschitz constant of the rates (`ν = 0` for dissipative problems, however stiff), `M` a Lipschitz constant of the
solution's derivative, `δ` what the convergence tolerances permit. It does not matter in which batch and with which block size or linear solver the test is run. -/
theorem C81_backward_accuracy (c : Config) (hs : c.scheme = .backwardEuler) (hm : 0 ≤ c.miter) (f : Func β m) (y0 : BVec β m ℝ) (nt : ℕ) (t : ℕ → β → ℝ) (n : ℤ) (hn : 0 < n)
    (res : Partial β m) (h : integrate c f y0 nt t n = .ok (res, false)) (b : β) (ht : ∀ k, k + 1 < nt → t k b ≤ t (k + 1) b) (δ : ℝ) (hδ : ToleranceBound c f nt t res.get b δ)
    (hmax : ℝ) (hh : ∀ k, k + 1 < nt → t (k + 1) b - t k b ≤ hmax) (nu : ℝ) (hnu : 0 ≤ nu) (hnuh : nu * hmax ≤ 1 / 2)
    (hF : ∀ k, k + 1 < nt → OneSided (fun y => (f b (t (k + 1) b) y).1) nu) (M : ℝ) (hM : 0 ≤ M) (Y : ℝ → Fin m → ℝ) (hY0 : Y (t 0 b) = y0 b)
    (hY : SmoothSolution (fun s y => (f b s y).1) (t 0 b) (t (nt - 1) b) M Y) (k : ℕ) (hk : k < nt) :
    l2 (res.get k b - Y (t k b)) ≤ Real.exp (2 * nu * (t k b - t 0 b)) * (M / 2 * hmax * (t k b - t 0 b) + k * δ) := by
  obtain ⟨-, f2⟩ := C14_every_time_filled c f y0 nt t n hn res false h
  have g0 : res.get 0 b = y0 b := by simp only [Partial.get]; rw [f2]; rfl
  have hmem : ∀ k, k < nt → t k b ∈ Set.Icc (t 0 b) (t (nt - 1) b) := fun k hk =>
    ⟨mono_of_steps (t := fun k => t k b) ht (by omega) hk, mono_of_steps (t := fun k => t k b) ht (by omega) (by omega)⟩
  have main := backward_compare (F := fun k y => (f b (t k b) y).1) hnu (K := nt - 1) (t := fun k => t k b) (fun k hk => ht k (by omega)) (fun k hk => hF k (by omega))
    (fun k hk => (mul_le_mul_of_nonneg_left (hh k (by omega)) hnu).trans hnuh) (x := fun k => res.get k b) (y := fun k => Y (t k b)) (dx := fun _ => δ)
    (dy := fun k => M / 2 * (t (k + 1) b - t k b) ^ 2) (fun k hk => by
      have := step_defect_le c hm f y0 nt t n hn res h b ht hδ k (by omega)
      rw [hs] at this
      exact this) (fun k hk => by
      have hsub : Set.Icc (t k b) (t (k + 1) b) ⊆ Set.Icc (t 0 b) (t (nt - 1) b) :=
        Set.Icc_subset_Icc (hmem k (by omega)).1 (hmem (k + 1) (by omega)).2
      exact truncation (Y' := fun s => (f b s (Y s)).1) (ht k (by omega)) _ (fun s hs => (hY.deriv s (hsub hs)).mono hsub)
        (fun s hs => hY.lip s (hsub hs) (t (k + 1) b) (hmem (k + 1) (by omega))) (Or.inr rfl)) k (by omega)
  refine main.trans (mul_le_mul_of_nonneg_left ?_ (Real.exp_pos _).le)
  beta_reduce
  rw [g0, hY0, sub_self, l2_zero, zero_add]
  exact trunc_sum hM (K := nt - 1) (t := fun k => t k b) (fun k hk => ht k (by omega)) (fun k hk => hh k (by omega)) k (by omega)

/-- **C81.** The same when the rates jump from step to step, as the strain rate of a piecewise linear strain history does: it is enough that the true solution is continuous and, inside each step,
has a derivative within `M (t_{k+1} - s)` of the rate at the end of the step. -/
theorem C81_backward_piecewise (c : Config) (hs : c.scheme = .backwardEuler) (hm : 0 ≤ c.miter) (f : Func β m) (y0 : BVec β m ℝ) (nt : ℕ) (t : ℕ → β → ℝ) (n : ℤ) (hn : 0 < n)
    (res : Partial β m) (h : integrate c f y0 nt t n = .ok (res, false)) (b : β) (ht : ∀ k, k + 1 < nt → t k b ≤ t (k + 1) b) (δ : ℝ) (hδ : ToleranceBound c f nt t res.get b δ)
    (hmax : ℝ) (hh : ∀ k, k + 1 < nt → t (k + 1) b - t k b ≤ hmax) (nu : ℝ) (hnu : 0 ≤ nu) (hnuh : nu * hmax ≤ 1 / 2)
    (hF : ∀ k, k + 1 < nt → OneSided (fun y => (f b (t (k + 1) b) y).1) nu) (M : ℝ) (hM : 0 ≤ M) (Y : ℝ → Fin m → ℝ) (hY0 : Y (t 0 b) = y0 b)
    (hY : PiecewiseSolution (fun s y => (f b s y).1) (nt - 1) (fun k => t k b) M Y) (k : ℕ) (hk : k < nt) :
    l2 (res.get k b - Y (t k b)) ≤ Real.exp (2 * nu * (t k b - t 0 b)) * (M / 2 * hmax * (t k b - t 0 b) + k * δ) := by
  obtain ⟨-, f2⟩ := C14_every_time_filled c f y0 nt t n hn res false h
  have g0 : res.get 0 b = y0 b := by simp only [Partial.get]; rw [f2]; rfl
  have hmem : ∀ k, k < nt → t k b ∈ Set.Icc (t 0 b) (t (nt - 1) b) := fun k hk =>
    ⟨mono_of_steps (t := fun k => t k b) ht (by omega) hk, mono_of_steps (t := fun k => t k b) ht (by omega) (by omega)⟩
  have main := backward_compare (F := fun k y => (f b (t k b) y).1) hnu (K := nt - 1) (t := fun k => t k b) (fun k hk => ht k (by omega)) (fun k hk => hF k (by omega))
    (fun k hk => (mul_le_mul_of_nonneg_left (hh k (by omega)) hnu).trans hnuh) (x := fun k => res.get k b) (y := fun k => Y (t k b)) (dx := fun _ => δ)
    (dy := fun k => M / 2 * (t (k + 1) b - t k b) ^ 2) (fun k hk => by
      have := step_defect_le c hm f y0 nt t n hn res h b ht hδ k (by omega)
      rw [hs] at this
      exact this) (fun k hk => by
      have hsub : Set.Icc (t k b) (t (k + 1) b) ⊆ Set.Icc (t 0 b) (t (nt - 1) b) :=
        Set.Icc_subset_Icc (hmem k (by omega)).1 (hmem (k + 1) (by omega)).2
      exact truncation_interior (Y' := fun s => (f b s (Y s)).1) (ht k (by omega)) _ (hY.cont.mono hsub) (hY.deriv k hk) (hY.lip k hk)) k (by omega)
  refine main.trans (mul_le_mul_of_nonneg_left ?_ (Real.exp_pos _).le)
  beta_reduce
  rw [g0, hY0, sub_self, l2_zero, zero_add]
  exact trunc_sum hM (K := nt - 1) (t := fun k => t k b) (fun k hk => ht k (by omega)) (fun k hk => hh k (by omega)) k (by omega)

/-- **C81.** The same for forward Euler, with a Lipschitz constant `L` of the rates. -/
theorem C81_forward_accuracy (c : Config) (hs : c.scheme = .forwardEuler) (hm : 0 ≤ c.miter) (f : Func β m) (y0 : BVec β m ℝ) (nt : ℕ) (t : ℕ → β → ℝ) (n : ℤ) (hn : 0 < n)
    (res : Partial β m) (h : integrate c f y0 nt t n = .ok (res, false)) (b : β) (ht : ∀ k, k + 1 < nt → t k b ≤ t (k + 1) b) (δ : ℝ) (hδ : ToleranceBound c f nt t res.get b δ)
    (hmax : ℝ) (hh : ∀ k, k + 1 < nt → t (k + 1) b - t k b ≤ hmax) (L : ℝ) (hL : 0 ≤ L)
    (hF : ∀ k, k + 1 < nt → Lip (fun y => (f b (t k b) y).1) L) (M : ℝ) (hM : 0 ≤ M) (Y : ℝ → Fin m → ℝ) (hY0 : Y (t 0 b) = y0 b)
    (hY : SmoothSolution (fun s y => (f b s y).1) (t 0 b) (t (nt - 1) b) M Y) (k : ℕ) (hk : k < nt) :
    l2 (res.get k b - Y (t k b)) ≤ Real.exp (L * (t k b - t 0 b)) * (M / 2 * hmax * (t k b - t 0 b) + k * δ) := by
  obtain ⟨-, f2⟩ := C14_every_time_filled c f y0 nt t n hn res false h
  have g0 : res.get 0 b = y0 b := by simp only [Partial.get]; rw [f2]; rfl
  have hmem : ∀ k, k < nt → t k b ∈ Set.Icc (t 0 b) (t (nt - 1) b) := fun k hk =>
    ⟨mono_of_steps (t := fun k => t k b) ht (by omega) hk, mono_of_steps (t := fun k => t k b) ht (by omega) (by omega)⟩
  have main := forward_compare (F := fun k y => (f b (t k b) y).1) hL (K := nt - 1) (t := fun k => t k b) (fun k hk => ht k (by omega)) (fun k hk => hF k (by omega))
    (x := fun k => res.get k b) (y := fun k => Y (t k b)) (dx := fun _ => δ)
    (dy := fun k => M / 2 * (t (k + 1) b - t k b) ^ 2) (fun k hk => by
      have := step_defect_le c hm f y0 nt t n hn res h b ht hδ k (by omega)
      rw [hs] at this
      exact this) (fun k hk => by
      have hsub : Set.Icc (t k b) (t (k + 1) b) ⊆ Set.Icc (t 0 b) (t (nt - 1) b) :=
        Set.Icc_subset_Icc (hmem k (by omega)).1 (hmem (k + 1) (by omega)).2
      exact truncation (Y' := fun s => (f b s (Y s)).1) (ht k (by omega)) _ (fun s hs => (hY.deriv s (hsub hs)).mono hsub)
        (fun s hs => hY.lip s (hsub hs) (t k b) (hmem k (by omega))) (Or.inl rfl)) k (by omega)
  refine main.trans (mul_le_mul_of_nonneg_left ?_ (Real.exp_pos _).le)
  beta_reduce
  rw [g0, hY0, sub_self, l2_zero, zero_add]
  exact trunc_sum hM (K := nt - 1) (t := fun k => t k b) (fun k hk => ht k (by omega)) (fun k hk => hh k (by omega)) k (by omega)

/-! ## C82: how far two runs can differ -/

/-- **C82.** Backward Euler: two unwarned runs of the same test, in batches of any composition, with any block sizes, linear solvers, guesses, limits and tolerances, and possibly different
initial states, differ after `k` steps by at most `exp(2 ν (t_k - t_0)) (|y0 - y0'| + k (δ + δ'))`. -/
theorem C82_backward_runs (c c' : Config) (hs : c.scheme = .backwardEuler) (hs' : c'.scheme = .backwardEuler) (hm : 0 ≤ c.miter) (hm' : 0 ≤ c'.miter) (f : Func β m) (f' : Func β' m)
    (y0 : BVec β m ℝ) (y0' : BVec β' m ℝ) (nt : ℕ) (t : ℕ → β → ℝ) (t' : ℕ → β' → ℝ) (n n' : ℤ) (hn : 0 < n) (hn' : 0 < n') (res : Partial β m) (res' : Partial β' m)
    (h : integrate c f y0 nt t n = .ok (res, false)) (h' : integrate c' f' y0' nt t' n' = .ok (res', false)) (b : β) (b' : β')
    (hf : ∀ s y, (f b s y).1 = (f' b' s y).1) (htt : ∀ k, k < nt → t k b = t' k b') (ht : ∀ k, k + 1 < nt → t k b ≤ t (k + 1) b) (δ δ' : ℝ)
    (hδ : ToleranceBound c f nt t res.get b δ) (hδ' : ToleranceBound c' f' nt t' res'.get b' δ') (nu : ℝ) (hnu : 0 ≤ nu) (hnuh : ∀ k, k + 1 < nt → nu * (t (k + 1) b - t k b) ≤ 1 / 2)
    (hF : ∀ k, k + 1 < nt → OneSided (fun y => (f b (t (k + 1) b) y).1) nu) (k : ℕ) (hk : k < nt) :
    l2 (res.get k b - res'.get k b') ≤ Real.exp (2 * nu * (t k b - t 0 b)) * (l2 (y0 b - y0' b') + k * (δ + δ')) := by
  obtain ⟨-, f2⟩ := C14_every_time_filled c f y0 nt t n hn res false h
  obtain ⟨-, f2'⟩ := C14_every_time_filled c' f' y0' nt t' n' hn' res' false h'
  have g0 : res.get 0 b = y0 b := by simp only [Partial.get]; rw [f2]; rfl
  have g0' : res'.get 0 b' = y0' b' := by simp only [Partial.get]; rw [f2']; rfl
  have main := backward_compare (F := fun k y => (f b (t k b) y).1) hnu (K := nt - 1) (t := fun k => t k b) (fun k hk => ht k (by omega)) (fun k hk => hF k (by omega))
    (fun k hk => hnuh k (by omega)) (x := fun k => res.get k b) (y := fun k => res'.get k b') (dx := fun _ => δ)
    (dy := fun k => δ') (fun k hk => by
      have := step_defect_le c hm f y0 nt t n hn res h b ht hδ k (by omega)
      rw [hs] at this
      exact this) (fun k hk => by
      have := step_defect_le c' hm' f' y0' nt t' n' hn' res' h' b' (fun k hk => by rw [← htt k (by omega), ← htt (k + 1) hk]; exact ht k hk) hδ' k (by omega)
      rw [hs'] at this
      simp only [defect, backwardDefect, Ode.rate] at this
      rw [← htt k (by omega), ← htt (k + 1) (by omega), ← hf] at this
      exact this) k (by omega)
  beta_reduce at main
  rw [g0, g0', Finset.sum_const, Finset.card_range, nsmul_eq_mul] at main
  exact main

/-- **C82.** The same for forward Euler. -/
theorem C82_forward_runs (c c' : Config) (hs : c.scheme = .forwardEuler) (hs' : c'.scheme = .forwardEuler) (hm : 0 ≤ c.miter) (hm' : 0 ≤ c'.miter) (f : Func β m) (f' : Func β' m)
    (y0 : BVec β m ℝ) (y0' : BVec β' m ℝ) (nt : ℕ) (t : ℕ → β → ℝ) (t' : ℕ → β' → ℝ) (n n' : ℤ) (hn : 0 < n) (hn' : 0 < n') (res : Partial β m) (res' : Partial β' m)
    (h : integrate c f y0 nt t n = .ok (res, false)) (h' : integrate c' f' y0' nt t' n' = .ok (res', false)) (b : β) (b' : β')
    (hf : ∀ s y, (f b s y).1 = (f' b' s y).1) (htt : ∀ k, k < nt → t k b = t' k b') (ht : ∀ k, k + 1 < nt → t k b ≤ t (k + 1) b) (δ δ' : ℝ)
    (hδ : ToleranceBound c f nt t res.get b δ) (hδ' : ToleranceBound c' f' nt t' res'.get b' δ') (L : ℝ) (hL : 0 ≤ L)
    (hF : ∀ k, k + 1 < nt → Lip (fun y => (f b (t k b) y).1) L) (k : ℕ) (hk : k < nt) :
    l2 (res.get k b - res'.get k b') ≤ Real.exp (L * (t k b - t 0 b)) * (l2 (y0 b - y0' b') + k * (δ + δ')) := by
  obtain ⟨-, f2⟩ := C14_every_time_filled c f y0 nt t n hn res false h
  obtain ⟨-, f2'⟩ := C14_every_time_filled c' f' y0' nt t' n' hn' res' false h'
  have g0 : res.get 0 b = y0 b := by simp only [Partial.get]; rw [f2]; rfl
  have g0' : res'.get 0 b' = y0' b' := by simp only [Partial.get]; rw [f2']; rfl
  have main := forward_compare (F := fun k y => (f b (t k b) y).1) hL (K := nt - 1) (t := fun k => t k b) (fun k hk => ht k (by omega)) (fun k hk => hF k (by omega))
    (x := fun k => res.get k b) (y := fun k => res'.get k b') (dx := fun _ => δ)
    (dy := fun k => δ') (fun k hk => by
      have := step_defect_le c hm f y0 nt t n hn res h b ht hδ k (by omega)
      rw [hs] at this
      exact this) (fun k hk => by
      have := step_defect_le c' hm' f' y0' nt t' n' hn' res' h' b' (fun k hk => by rw [← htt k (by omega), ← htt (k + 1) hk]; exact ht k hk) hδ' k (by omega)
      rw [hs'] at this
      simp only [defect, forwardDefect, Ode.rate] at this
      rw [← htt k (by omega), ← htt (k + 1) (by omega), ← hf] at this
      exact this) k (by omega)
  beta_reduce at main
  rw [g0, g0', Finset.sum_const, Finset.card_range, nsmul_eq_mul] at main
  exact main

theorem overflow_mono {n eta u v : ℝ} (hn : 0 < n) (heta : 0 < eta) (h : u ≤ v) : overflow n eta (u, 0) ≤ overflow n eta (v, 0) := by
  rcases lt_trichotomy u 0 with hu | hu | hu
  · rcases lt_trichotomy v 0 with hv | hv | hv
    · have e1 := overflow_neg n eta (-u) 0
      have e2 := overflow_neg n eta (-v) 0
      rw [neg_neg] at e1 e2
      rw [e1, e2, overflow_of_gt heta le_rfl (by linarith), overflow_of_gt heta le_rfl (by linarith), neg_le_neg_iff]
      exact Real.rpow_le_rpow (div_nonneg (by linarith) heta.le) (div_le_div_of_nonneg_right (by linarith) heta.le) hn.le
    · rw [hv, overflow_of_le hn heta (by simp : |(0 : ℝ)| ≤ 0)]
      exact (overflow_lt_neg heta le_rfl (by simpa using hu)).le
    · exact (overflow_lt_neg heta le_rfl (by simpa using hu)).le.trans (overflow_pos heta le_rfl hv).le
  · rw [hu, overflow_of_le hn heta (by simp : |(0 : ℝ)| ≤ 0)]
    rcases (hu ▸ h : (0 : ℝ) ≤ v).eq_or_lt with hv | hv
    · rw [← hv, overflow_of_le hn heta (by simp : |(0 : ℝ)| ≤ 0)]
    · exact (overflow_pos heta le_rfl hv).le
  · rw [overflow_of_gt heta le_rfl hu, overflow_of_gt heta le_rfl (by linarith)]
    exact Real.rpow_le_rpow (div_nonneg (by linarith) heta.le) (div_le_div_of_nonneg_right (by linarith) heta.le) hn.le

/-- Perfect viscoplasticity is dissipative: the stresses of two states never move apart, at any strain rate. -/
theorem perfect_oneSided (E n eta : ℝ → ℝ) (t e T : ℝ) (hE : 0 ≤ E T) (hn : 0 < n T) (heta : 0 < eta T) :
    OneSided (fun y : Fin (0 + 1) → ℝ => (inelastic E (perfect n eta) t y e T).ydot) 0 := by
  have flow : ∀ y : Fin (0 + 1) → ℝ, (inelastic E (perfect n eta) t y e T).ydot 0 = E T * (e - overflow (n T) (eta T) (y 0, 0)) := by
    intro y
    simp only [inelastic, perfect, overflow, sub_zero, Fin.cons_zero]
    rw [macaulay_eq, max_eq_left (div_nonneg (abs_nonneg _) heta.le)]
  intro x y
  rw [zero_mul]
  simp only [dotProduct, Pi.sub_apply]
  rw [Fin.sum_univ_one, flow, flow]
  rcases le_total (x 0) (y 0) with h | h
  · have := mul_nonneg hE (sub_nonneg.2 (overflow_mono hn heta h))
    nlinarith
  · have := mul_nonneg hE (sub_nonneg.2 (overflow_mono hn heta h))
    nlinarith

/-- **C82.** So for `InelasticModel` with `PerfectViscoplasticity` under strain control, two unwarned simulations of the same test, whatever the batches (and the materials of the other tests), block sizes, solvers and tolerances,
give stresses that differ by at most `k (δ + δ')` after `k` steps: errors of earlier steps are never amplified, however long the test and however stiff the material. -/
theorem C82_perfect_stress (c c' : Config) (hs : c.scheme = .backwardEuler) (hs' : c'.scheme = .backwardEuler) (hm : 0 ≤ c.miter) (hm' : 0 ≤ c'.miter) (model : β → Model (0 + 1)) (model' : β' → Model (0 + 1)) (nt : ℕ)
    (times strains temps : ℕ → β → ℝ) (times' strains' temps' : ℕ → β' → ℝ) (blk blk' : ℤ) (hb : 0 < blk) (hb' : 0 < blk') (res : Partial β (0 + 1)) (res' : Partial β' (0 + 1))
    (h : solveStrain c model nt times strains temps blk = .ok (res, false))
    (h' : solveStrain c' model' nt times' strains' temps' blk' = .ok (res', false)) (b : β) (b' : β')
    (E n eta : ℝ → ℝ) (hmod : model b = inelastic E (perfect n eta)) (hmod' : model' b' = inelastic E (perfect n eta))
    (hsame : (fun k => times k b) = (fun k => times' k b') ∧ (fun k => strains k b) = (fun k => strains' k b') ∧ (fun k => temps k b) = (fun k => temps' k b'))
    (hg : StrictGrid (nt - 1) fun k => times k b) (hp : ∀ k, k < nt → 0 ≤ E (temps k b) ∧ 0 < n (temps k b) ∧ 0 < eta (temps k b)) (δ δ' : ℝ)
    (hδ : ToleranceBound c (strainFunc model nt times strains temps) nt times res.get b δ)
    (hδ' : ToleranceBound c' (strainFunc model' nt times' strains' temps') nt times' res'.get b' δ') (k : ℕ) (hk : k < nt) :
    |res.get k b 0 - res'.get k b' 0| ≤ k * (δ + δ') := by
  have hst : ∀ k, k + 1 < nt → times k b ≤ times (k + 1) b := fun k hk => (hg k (by omega)).le
  obtain ⟨s1, s2, s3⟩ := hsame
  have main := C82_backward_runs c c' hs hs' hm hm' _ _ 0 0 nt times times' blk blk' hb hb' res res' h h' b b' (by
    intro s y
    simp only [strainFunc, hmod, hmod']
    rw [s1, s2, s3]) (fun k _ => congrFun s1 k) hst δ δ' hδ hδ' 0 le_rfl (fun k _ => by norm_num) (by
    intro k hk
    have e := dataFn_grid hg (fun k => temps k b) hk (by omega)
    obtain ⟨p1, p2, p3⟩ := hp (k + 1) hk
    rw [← e] at p1 p2 p3
    simp only [strainFunc, hmod]
    exact perfect_oneSided E n eta _ _ _ p1 p2 p3) k hk
  have e0 : l2 ((0 : BVec β (0 + 1) ℝ) b - (0 : BVec β' (0 + 1) ℝ) b') = 0 := by
    have : (0 : BVec β (0 + 1) ℝ) b - (0 : BVec β' (0 + 1) ℝ) b' = 0 := by simp
    rw [this, l2_zero]
  rw [e0, mul_zero, zero_mul, Real.exp_zero, one_mul] at main
  replace main : l2 (res.get k b - res'.get k b') ≤ k * (δ + δ') := by linarith
  have := l2_one (res.get k b - res'.get k b')
  rw [Pi.sub_apply] at this
  rw [← this]
  exact main

private theorem decay_solution : SmoothSolution (m := 1) (fun _ y => (-1 : Matrix (Fin 1) (Fin 1) ℝ).mulVec y + 0) 0 1 1 (fun s _ => Real.exp (-s)) where
  deriv := by
    intro s _
    refine HasDerivAt.hasDerivWithinAt (hasDerivAt_pi.2 fun i => ?_)
    have := ((hasDerivAt_id s).neg).exp
    refine this.congr_deriv ?_
    simp [Matrix.neg_mulVec]
  lip := by
    intro s hs u hu
    have e : ((-1 : Matrix (Fin 1) (Fin 1) ℝ).mulVec (fun _ => Real.exp (-s)) + 0 - ((-1 : Matrix (Fin 1) (Fin 1) ℝ).mulVec (fun _ => Real.exp (-u)) + 0)) =
        fun _ => Real.exp (-u) - Real.exp (-s) := by
      funext i; simp [Matrix.neg_mulVec]; ring
    rw [e, l2_one, one_mul]
    have key : ∀ a b : ℝ, 0 ≤ a → a ≤ b → |Real.exp (-b) - Real.exp (-a)| ≤ b - a := by
      intro a b ha hab
      have h1 : Real.exp (-b) ≤ Real.exp (-a) := Real.exp_le_exp.2 (by linarith)
      rw [abs_of_nonpos (by linarith)]
      have h2 : Real.exp (-b) = Real.exp (-a) * Real.exp (-(b - a)) := by rw [← Real.exp_add]; congr 1; ring
      have h3 : 1 - (b - a) ≤ Real.exp (-(b - a)) := by have := Real.add_one_le_exp (-(b - a)); linarith
      have h4 : Real.exp (-a) ≤ 1 := Real.exp_le_one_iff.2 (by linarith)
      have h5 := Real.exp_pos (-a)
      nlinarith
    rcases le_total s u with h | h
    · have := key s u hs.1 h
      rw [abs_sub_comm s u, abs_of_nonneg (sub_nonneg.2 h)]
      exact this
    · have := key u s hu.1 h
      rw [abs_of_nonneg (sub_nonneg.2 h), abs_sub_comm]
      exact this

/-- Non-vacuity of C81: `y' = -y` from 1, ten steps of size 1/10 in blocks of four, with tolerances `rtol = 0`, `atol = 1e-8`: the run succeeds, and ends within `0.0500001` of `1/e`. -/
example : ∃ res, integrate (β := Unit) (m := 1)
    { scheme := .backwardEuler, method := .direct .thomas, rtol := 0, atol := 1e-8, miter := 100, throwOnFail := false, guessType := "zero" }
    (Func.lift fun _ _ y => ((-1 : Matrix (Fin 1) (Fin 1) ℝ).mulVec y + 0, -1)) (fun _ _ => 1) 11 (fun k _ => k / 10) 4 = .ok (res, false) ∧
    |res.get 10 () 0 - Real.exp (-1)| ≤ 0.0500001 := by
  obtain ⟨res, h⟩ := C18_linear_succeeds (β := Unit) (m := 1)
    { scheme := .backwardEuler, method := .direct .thomas, rtol := 0, atol := 1e-8, miter := 100, throwOnFail := false, guessType := "zero" } (by norm_num) (by norm_num)
    (fun _ _ => -1) (fun _ _ => 0) (fun _ _ => 1) 11 (by norm_num) (fun k _ => (k : ℝ) / 10) 4 (by norm_num) (Or.inl rfl) (by
      intro _ k b _
      have e : ((k + 1 : ℕ) : ℝ) / 10 - (k : ℝ) / 10 = 1 / 10 := by push_cast; ring
      rw [e, Matrix.det_fin_one]
      norm_num)
  refine ⟨res, h, ?_⟩
  have main := C81_backward_accuracy _ rfl (by norm_num) (fun _ _ y => ((-1 : Matrix (Fin 1) (Fin 1) ℝ).mulVec y + 0, -1)) (fun _ _ => 1) 11 (fun k (_ : Unit) => (k : ℝ) / 10) 4 (by norm_num)
    res h () (by intro k _; push_cast; linarith) 1e-8 ⟨by norm_num, le_rfl, Or.inl rfl⟩ (1 / 10) (by intro k _; push_cast; linarith) 0 le_rfl (by norm_num) (by
      intro k _ x y
      have e : ((-1 : Matrix (Fin 1) (Fin 1) ℝ).mulVec x + 0 - ((-1 : Matrix (Fin 1) (Fin 1) ℝ).mulVec y + 0)) = -(x - y) := by
        simp [Matrix.neg_mulVec]; abel
      beta_reduce
      rw [e, neg_dotProduct, l2_sq, zero_mul]
      have := sq_nonneg (l2 (x - y))
      linarith) 1 zero_le_one (fun s _ => Real.exp (-s)) (by funext i; norm_num) (by
      have := decay_solution
      norm_num at this ⊢
      exact this) 10 (by norm_num)
  rw [l2_one] at main
  norm_num at main ⊢
  linarith

end Pyoptmat.Props
