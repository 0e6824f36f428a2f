import Verif.Proofs.Kantorovich
import Verif.Props.Accuracy

/-!
# Property C94: small enough steps always succeed
-/

namespace Pyoptmat.Props

open Pyoptmat.Newton Pyoptmat.Spec Pyoptmat.Ode Pyoptmat.Chunktime

variable {β : Type*} {m : ℕ}

/-! ## Helpers -/

theorem rowNorm_le_sum {n : ℕ} (R : β → Fin (n * m) → ℝ) (b : β) {t : ℕ → ℝ} {B H : ℝ} (hB : 0 ≤ B) (hH : t n - t 0 ≤ H)
    (h : ∀ k : Fin n, l2 (unflatten R k b) ≤ (t (k.val + 1) - t k.val) * B) : rowNorm (R b) ≤ H * B := by
  rw [rowNorm_eq_rowsNorm R b (fun j => if hj : j < n then unflatten R ⟨j, hj⟩ b else 0) (fun j => by rw [dif_pos j.2])]
  refine (rowsNorm_le_sum _ _).trans ?_
  have : ∀ j ∈ Finset.range n, l2 (if hj : j < n then unflatten R ⟨j, hj⟩ b else 0) ≤ (t (j + 1) - t j) * B := by
    intro j hj
    have hj := Finset.mem_range.1 hj
    rw [dif_pos hj]
    exact h ⟨j, hj⟩
  refine (Finset.sum_le_sum this).trans ?_
  rw [← Finset.sum_mul, Finset.sum_range_sub t]
  exact mul_le_mul_of_nonneg_right hH hB

theorem l2_row_le {n : ℕ} (R : β → Fin (n * m) → ℝ) (b : β) (k : Fin n) : l2 (unflatten R k b) ≤ rowNorm (R b) := by
  rw [rowNorm_eq_rowsNorm R b (fun j => if hj : j < n then unflatten R ⟨j, hj⟩ b else 0) (fun j => by rw [dif_pos j.2])]
  have := l2_le_rowsNorm (d := fun j => if hj : j < n then unflatten R ⟨j, hj⟩ b else 0) k.2
  beta_reduce at this
  rwa [dif_pos k.2] at this

/-- What is assumed of one block of `n` backward Euler steps at the times `t 0, …, t n`, started at `yS`: the block is no longer than `H`, the rates and Jacobians obey the bounds `F`, `ν`, `K` on the
ball of radius `4 H F` around the start, and `H` is small: `ν H ≤ 1/4` and `4 H² F K ≤ 1`. -/
structure SmallBlock (f : Func β m) (n : ℕ) (t : ℕ → β → ℝ) (yS : BVec β m ℝ) (F nu K H : ℝ) : Prop where
  steps : 0 < n
  mono : ∀ b, ∀ k < n, t k b ≤ t (k + 1) b
  signs : 0 ≤ nu ∧ 0 ≤ F ∧ 0 ≤ K ∧ 0 ≤ H
  length : ∀ b, t n b - t 0 b ≤ H
  small : nu * H ≤ 1 / 4 ∧ 4 * H ^ 2 * F * K ≤ 1
  bounds : ∀ b, ∀ k < n, RateBounds (fun y => (f b (t (k + 1) b) y).1) (fun y => (f b (t (k + 1) b) y).2) {y | l2 (y - yS b) ≤ 4 * H * F} F nu K

private theorem SmallBlock.hyp {f : Func β m} {n : ℕ} {t : ℕ → β → ℝ} {yS : BVec β m ℝ} {F nu K H : ℝ} (h : SmallBlock f n t yS F nu K H) : BlockHyp f n t yS F nu K H (4 * H * F) :=
  ⟨h.steps, h.mono, h.signs.1, h.signs.2.1, h.signs.2.2.1, h.signs.2.2.2, h.length, h.small.1, h.small.2, le_rfl, h.bounds⟩

/-- **C94.** Quadratic convergence of the block Newton iteration: from the default guess, the residual of the block after `j + 1` updates is at most `2 K H (H F)² (1/4)^(2^j - 1)` for every batch entry, the next
update moves no row by more than `2 H F (1/2)^(2^j - 1)`, and no iterate leaves the ball of radius `4 H F` around the start — for every linear solve option and every number of steps in the block. -/
theorem C94_quadratic (f : Func β m) {n : ℕ} {t : ℕ → β → ℝ} {yS : BVec β m ℝ} {F nu K H : ℝ} (h : SmallBlock f n t yS F nu K H) (meth : SolveMethod) (j : ℕ) (b : β) :
    let RJ := blockRJ .backwardEuler f (fun j : Fin n => t (j.val + 1)) (t 0) yS
    let x : ℕ → β → Fin (n * m) → ℝ := newtonIterate RJ (fun J R => solve meth J R) (fun x dx => x - dx) 0
    rowNorm ((RJ (x (j + 1))).1 b) ≤ 2 * K * H * (H * F) ^ 2 * (1 / 4) ^ (2 ^ j - 1) ∧
    (∀ k : Fin n, l2 (unflatten (x (j + 1)) k b - unflatten (x j) k b) ≤ 2 * H * F * (1 / 2) ^ (2 ^ j - 1)) ∧ ∀ k : Fin n, l2 (unflatten (x j) k b) ≤ 4 * H * F := by
  intro RJ x
  obtain ⟨s1, s2, s3, s4⟩ := h.signs
  refine ⟨?_, fun k => ?_, fun k => ?_⟩
  · have := rowNorm_le_sum (RJ (x (j + 1))).1 b (t := fun k => t k b) (B := 2 * K * (H * F) ^ 2 * (1 / 4) ^ (2 ^ j - 1)) (by positivity) (h.length b) (fun k => h.hyp.defect_le meth j b k)
    refine this.trans (le_of_eq ?_)
    ring
  · have := (h.hyp.close meth j b (k.val + 1) k.2).2
    rw [blockRows_succ, blockRows_succ, add_sub_add_right_eq_sub] at this
    exact this
  · have := (h.hyp.close meth j b (k.val + 1) k.2).1
    rw [blockRows_succ, add_sub_cancel_right] at this
    exact this

/-- **C94.** So the block update succeeds without a warning as soon as more than `j + 1` updates are allowed, where `2 K H (H F)² (1/4)^(2^j - 1) ≤ atol`; and its rows stay within `4 H F` of the start. -/
theorem C94_block_succeeds (c : Config) (hs : c.scheme = .backwardEuler) (f : Func β m) {n : ℕ} {t : ℕ → β → ℝ} {yS : BVec β m ℝ} {F nu K H : ℝ} (h : SmallBlock f n t yS F nu K H) (j : ℕ)
    (hj : (j : ℤ) + 1 < c.miter) (ha : 2 * K * H * (H * F) ^ 2 * (1 / 4) ^ (2 ^ j - 1) ≤ c.atol) :
    ∃ rows, blockUpdate c f (fun j : Fin n => t (j.val + 1)) (t 0) yS 0 = .ok (rows, false) ∧ ∀ k b, l2 (rows k b - yS b) ≤ 4 * H * F := by
  have hN : ∃ dy, (blockNewton c f (fun j : Fin n => t (j.val + 1)) (t 0) yS 0).result = .ok dy ∧ (blockNewton c f (fun j : Fin n => t (j.val + 1)) (t 0) yS 0).warned = false := by
    unfold blockNewton
    refine newton_succeeds _ _ _ (fun (R : β → Fin (n * m) → ℝ) (b : β) => rowNorm (R b)) _ _ _ _ _ (j + 1) (by push_cast; exact hj) (Or.inl fun b => ?_)
    rw [hs]
    exact ((C94_quadratic f h c.method j b).1).trans ha
  obtain ⟨dy, h1, h2⟩ := hN
  refine ⟨fun k => unflatten dy k + yS, ?_, fun k b => ?_⟩
  · unfold blockUpdate
    rw [h1, h2]
  · obtain ⟨-, q, -⟩ := C10_returns_first_iterate (blockRJ c.scheme f (fun j : Fin n => t (j.val + 1)) (t 0) yS) (fun J R => solve c.method J R)
      (fun x dx => x - dx) (fun (R : β → Fin (n * m) → ℝ) (b : β) => rowNorm (R b)) 0 c.rtol c.atol c.miter (by omega) c.throwOnFail
    obtain ⟨i, e⟩ : ∃ i, dy = newtonIterate (blockRJ .backwardEuler f (fun j : Fin n => t (j.val + 1)) (t 0) yS) (fun J R => solve c.method J R) (fun x dx => x - dx) 0 i :=
      ⟨_, by rw [← hs]; exact q dy h1⟩
    have := (C94_quadratic f h c.method i b).2.2 k
    rw [← e] at this
    show l2 (unflatten dy k b + yS b - yS b) ≤ _
    rw [add_sub_cancel_right]
    exact this

/-- the time loop with an invariant -/
theorem integrateLoop_inv (c : Config) (f : BFunc β m) (nt N : ℕ) (t : ℕ → β → ℝ) (Q : ℕ → Partial β m × Bool → Prop) : ∀ (cnt k0 : ℕ) (st : Partial β m × Bool), Q k0 st →
    (∀ i < cnt, ∀ st, Q (k0 + i * N) st → ∃ st', integrateStep c f nt N t st (k0 + i * N) = .ok st' ∧ Q (k0 + (i + 1) * N) st') →
    ∃ r, integrateLoop c f nt N t (List.range' k0 cnt N) st = .ok r ∧ Q (k0 + cnt * N) r := by
  intro cnt
  induction cnt with
  | zero => intro k0 st h _; exact ⟨st, rfl, by simpa using h⟩
  | succ cnt ih =>
    intro k0 st h hs
    obtain ⟨st', h1, h2⟩ := hs 0 (by omega) st (by simpa using h)
    rw [Nat.zero_mul, Nat.add_zero] at h1
    rw [List.range'_succ, integrateLoop, h1]
    rw [Nat.zero_add, Nat.one_mul] at h2
    obtain ⟨r, r1, r2⟩ := ih (k0 + N) st' h2 (fun i hi st hst => by
      have e : ∀ i, k0 + N + i * N = k0 + (i + 1) * N := fun i => by ring
      rw [e] at hst ⊢
      rw [e]
      exact hs (i + 1) (by omega) st hst)
    refine ⟨r, r1, ?_⟩
    rwa [show k0 + N + cnt * N = k0 + (cnt + 1) * N by ring] at r2

/-- the rows of a successful small block miss the backward Euler formula by at most `δ` -/
private theorem block_defect (c : Config) (hs : c.scheme = .backwardEuler) (hm : 0 ≤ c.miter) (hr : 0 ≤ c.rtol) (f : Func β m) {n : ℕ} {t : ℕ → β → ℝ} {yS : BVec β m ℝ} {F nu K H : ℝ}
    (h : SmallBlock f n t yS F nu K H) {δ : ℝ} (hδ : c.atol ≤ δ ∧ c.rtol * (H * F) ≤ δ) {rows : Fin n → BVec β m ℝ}
    (hu : blockUpdate c f (fun j : Fin n => t (j.val + 1)) (t 0) yS 0 = .ok (rows, false)) (y : ℕ → BVec β m ℝ) (hy0 : y 0 = yS) (hy : ∀ j : Fin n, y (j.val + 1) = rows j) (k : Fin n) (b : β) :
    l2 (y (k.val + 1) b - y k.val b - (t (k.val + 1) b - t k.val b) • (f b (t (k.val + 1) b) (y (k.val + 1) b)).1) ≤ δ := by
  unfold blockUpdate at hu
  obtain ⟨s1, s2, s3, s4⟩ := h.signs
  cases hN : (blockNewton c f (fun j : Fin n => t (j.val + 1)) (t 0) yS 0).result with
  | error e => rw [hN] at hu; exact absurd hu (by simp)
  | ok dy =>
    rw [hN] at hu
    simp only [Except.ok.injEq, Prod.mk.injEq] at hu
    obtain ⟨u1, u2⟩ := hu
    have tol := C10_no_warning_meets_tolerance (blockRJ c.scheme f (fun j : Fin n => t (j.val + 1)) (t 0) yS) (fun J R => solve c.method J R)
      (fun x dx => x - dx) (fun (R : β → Fin (n * m) → ℝ) (b : β) => rowNorm (R b)) 0 dy c.rtol c.atol c.miter hm c.throwOnFail hN u2
    rw [hs] at tol
    have key := blockRJ_residual .backwardEuler f (fun j : Fin n => t (j.val + 1)) (t 0) yS dy t y 0 rfl hy0 (fun j => by rw [Nat.zero_add, Nat.add_comm 1 j.val])
      (fun j => by rw [Nat.zero_add, Nat.add_comm 1 j.val, hy j, ← u1]) k b
    simp only [defect, backwardDefect, Nat.zero_add] at key
    have e : l2 (y (k.val + 1) b - y k.val b - (t (k.val + 1) b - t k.val b) • (f b (t (k.val + 1) b) (y (k.val + 1) b)).1) ≤
        rowNorm ((blockRJ .backwardEuler f (fun j : Fin n => t (j.val + 1)) (t 0) yS dy).1 b) := by
      have := l2_row_le (blockRJ .backwardEuler f (fun j : Fin n => t (j.val + 1)) (t 0) yS dy).1 b k
      rw [key] at this
      exact this
    refine e.trans ?_
    rcases tol with q | q
    · exact (q b).trans hδ.1
    · refine (q b).trans (le_trans (mul_le_mul_of_nonneg_left ?_ hr) hδ.2)
      refine rowNorm_le_sum _ b (t := fun k => t k b) s2 (h.length b) fun k => ?_
      have key0 := blockRJ_residual .backwardEuler f (fun j : Fin n => t (j.val + 1)) (t 0) yS 0 t (fun _ => yS) 0 rfl rfl (fun j => by rw [Nat.zero_add, Nat.add_comm 1 j.val])
        (fun j => by funext b r; simp [unflatten]) k b
      rw [key0]
      simp only [defect, backwardDefect, Nat.zero_add, sub_self, zero_sub, Ode.rate]
      rw [l2_neg, l2_smul, abs_of_nonneg (sub_nonneg.2 (h.mono b k k.2))]
      refine mul_le_mul_of_nonneg_left ((h.bounds b k k.2).bound _ ?_) (sub_nonneg.2 (h.mono b k k.2))
      show l2 (yS b - yS b) ≤ _
      rw [sub_self, l2_zero]; positivity

/-- What is assumed of the problem: along the true solutions `Y b` of the tests, the rates and the reported Jacobians obey the bounds `F`, `ν`, `K` on the tube of radius `ρ`. -/
def TubeBounds (f : Func β m) (nt : ℕ) (t : ℕ → β → ℝ) (Y : β → ℝ → Fin m → ℝ) (ρ F nu K : ℝ) : Prop :=
  ∀ b, ∀ s ∈ Set.Icc (t 0 b) (t (nt - 1) b), RateBounds (fun y => (f b s y).1) (fun y => (f b s y).2) {y | l2 (y - Y b s) ≤ ρ} F nu K

/-- **C94.** Small enough steps always succeed. Suppose every test of the batch has a true solution `Y b`, along which rates and Jacobians are bounded on a tube of radius `ρ`. If the blocks are short
(of duration at most `H` with `ν H ≤ 1/4`, `4 H² F K ≤ 1` and `10 H F ≤ ρ`), the steps small and the tolerances tight enough for the error bound of C81 to stay below `ρ / 2`, and the iteration limit
exceeds `j + 1` with `2 K H (H F)² (1/4)^(2^j - 1) ≤ atol`, then backward Euler integration with the default guess succeeds without a warning, for every linear solve option, and every state it returns obeys the
error bound. -/
theorem C94_integrate_succeeds (c : Config) (hs : c.scheme = .backwardEuler) (hg : c.guessType = "zero") (hr : 0 ≤ c.rtol) (f : Func β m) (y0 : BVec β m ℝ) (nt : ℕ) (hnt : 0 < nt) (t : ℕ → β → ℝ) (n : ℤ)
    (hn : 0 < n) (ht : ∀ b k, k + 1 < nt → t k b ≤ t (k + 1) b) (Y : β → ℝ → Fin m → ℝ) (hY0 : ∀ b, Y b (t 0 b) = y0 b) (M : ℝ) (hM : 0 ≤ M)
    (hY : ∀ b, PiecewiseSolution (fun s y => (f b s y).1) (nt - 1) (fun k => t k b) M (Y b)) (ρ F nu K H hmax δ : ℝ) (hsign : 0 ≤ nu ∧ 0 ≤ F ∧ 0 ≤ K ∧ 0 ≤ H) (htube : TubeBounds f nt t Y ρ F nu K)
    (hblock : ∀ b i j, i ≤ j → j < nt → (j : ℤ) ≤ i + n → t j b - t i b ≤ H) (hstep : ∀ b k, k + 1 < nt → t (k + 1) b - t k b ≤ hmax)
    (hsmall : nu * H ≤ 1 / 4 ∧ 4 * H ^ 2 * F * K ≤ 1 ∧ 10 * (H * F) ≤ ρ) (hδ : 0 ≤ δ ∧ c.atol ≤ δ ∧ c.rtol * (H * F) ≤ δ)
    (hacc : ∀ b, Real.exp (2 * nu * (t (nt - 1) b - t 0 b)) * (M / 2 * hmax * (t (nt - 1) b - t 0 b) + nt * δ) ≤ ρ / 2) (j : ℕ) (hj : (j : ℤ) + 1 < c.miter)
    (ha : 2 * K * H * (H * F) ^ 2 * (1 / 4) ^ (2 ^ j - 1) ≤ c.atol) :
    ∃ res, integrate c f y0 nt t n = .ok (res, false) ∧ ∀ k < nt, ∀ b,
      l2 (res.get k b - Y b (t k b)) ≤ Real.exp (2 * nu * (t k b - t 0 b)) * (M / 2 * hmax * (t k b - t 0 b) + k * δ) := by
  obtain ⟨s1, s2, s3, s4⟩ := hsign
  obtain ⟨m1, m2, m3⟩ := hsmall
  obtain ⟨d0, d1, d2⟩ := hδ
  have hmono : ∀ b i j, i ≤ j → j < nt → t i b ≤ t j b := fun b i j hij hj => mono_of_steps (t := fun k => t k b) (ht b) hij hj
  have hone : ∀ b k, k + 1 < nt → nu * (t (k + 1) b - t k b) ≤ 1 / 2 := by
    intro b k hk
    have := mul_le_mul_of_nonneg_left (hblock b k (k + 1) (by omega) hk (by push_cast; omega)) s1
    linarith
  -- error bound from the step inequalities
  have bound : ∀ (b : β) (x : ℕ → Fin m → ℝ) (k : ℕ), k < nt → x 0 = y0 b →
      (∀ i < k, (1 - nu * (t (i + 1) b - t i b)) * l2 (x (i + 1) - Y b (t (i + 1) b)) ≤ l2 (x i - Y b (t i b)) + (δ + M / 2 * (t (i + 1) b - t i b) ^ 2)) →
      l2 (x k - Y b (t k b)) ≤ Real.exp (2 * nu * (t k b - t 0 b)) * (M / 2 * hmax * (t k b - t 0 b) + k * δ) := by
    intro b x k hk hx0 hx
    have := gronwall_implicit (e := fun k => l2 (x k - Y b (t k b))) (tau := fun k => δ + M / 2 * (t (k + 1) b - t k b) ^ 2) (t := fun k => t k b) s1 (K := k) (fun i hi => ht b i (by omega))
      (fun i hi => hone b i (by omega)) (fun i hi => by positivity) (fun i => l2_nonneg _) hx k le_rfl
    refine this.trans (mul_le_mul_of_nonneg_left ?_ (Real.exp_pos _).le)
    beta_reduce
    rw [hx0, hY0, sub_self, l2_zero, zero_add]
    exact trunc_sum hM (K := k) (t := fun k => t k b) (fun i hi => ht b i (by omega)) (fun i hi => hstep b i (by omega)) k le_rfl
  have half : ∀ b k, k < nt → Real.exp (2 * nu * (t k b - t 0 b)) * (M / 2 * hmax * (t k b - t 0 b) + k * δ) ≤ ρ / 2 := by
    intro b k hk
    refine le_trans ?_ (hacc b)
    have h0 := sub_nonneg.2 (hmono b 0 k (by omega) hk)
    have h1 := hmono b k (nt - 1) (by omega) (by omega)
    have hh0 : 0 ≤ M / 2 * hmax * (t k b - t 0 b) := by
      rcases Nat.eq_zero_or_pos k with rfl | hk0
      · simp
      · have : 0 ≤ hmax := le_trans (sub_nonneg.2 (ht b 0 (by omega))) (hstep b 0 (by omega))
        positivity
    have hh1 : M / 2 * hmax * (t k b - t 0 b) ≤ M / 2 * hmax * (t (nt - 1) b - t 0 b) := by
      rcases Nat.lt_or_ge 1 nt with h1nt | h1nt
      · have : 0 ≤ hmax := le_trans (sub_nonneg.2 (ht b 0 (by omega))) (hstep b 0 (by omega))
        exact mul_le_mul_of_nonneg_left (by linarith) (by positivity)
      · have : k = nt - 1 := by omega
        rw [this]
    have hkn : (k : ℝ) ≤ nt := by exact_mod_cast hk.le
    have hkd := mul_le_mul_of_nonneg_right hkn d0
    refine mul_le_mul (Real.exp_le_exp.2 (mul_le_mul_of_nonneg_left (by linarith) (by linarith))) (by linarith) (by positivity) (Real.exp_pos _).le
  have lipY : ∀ b i j, i ≤ j → j < nt → l2 (Y b (t j b) - Y b (t i b)) ≤ F * (t j b - t i b) := by
    intro b i j hij hj
    induction j, hij using Nat.le_induction with
    | base => simp [l2_zero]
    | succ j hij ih =>
      have h1 := ih (by omega)
      have hsub : Set.Icc (t j b) (t (j + 1) b) ⊆ Set.Icc (t 0 b) (t (nt - 1) b) := Set.Icc_subset_Icc (hmono b _ _ (by omega) (by omega)) (hmono b _ _ (by omega) (by omega))
      have h2 := mean_value_interior (Y := Y b) (Y' := fun s => (f b s (Y b s)).1) (F := F) (ht b j hj) ((hY b).cont.mono hsub) ((hY b).deriv j (by omega)) (fun s hs => by
        refine (htube b s (hsub (Set.Ioo_subset_Icc_self hs))).bound _ ?_
        show l2 (Y b s - Y b s) ≤ ρ
        rw [sub_self, l2_zero]
        have := mul_nonneg s4 s2
        linarith)
      have e : Y b (t (j + 1) b) - Y b (t i b) = (Y b (t (j + 1) b) - Y b (t j b)) + (Y b (t j b) - Y b (t i b)) := by abel
      rw [e]
      refine (l2_add_le _ _).trans ?_
      linarith
  -- the invariant of the time loop
  obtain ⟨r, r1, r2, r3⟩ := integrateLoop_inv c f nt n.toNat t (fun k st => st.2 = false ∧ ∀ b, st.1.get 0 b = y0 b ∧ ∀ i, i + 1 < k → i + 1 < nt →
      (1 - nu * (t (i + 1) b - t i b)) * l2 (st.1.get (i + 1) b - Y b (t (i + 1) b)) ≤ l2 (st.1.get i b - Y b (t i b)) + (δ + M / 2 * (t (i + 1) b - t i b) ^ 2))
    (nblocks nt n.toNat) 1 (fun j => if j = 0 then some y0 else none, false) ⟨rfl, fun b => ⟨rfl, fun i hi => by omega⟩⟩ (by
      intro i hi st hst
      obtain ⟨w, hst⟩ := hst
      have hlt : 1 + i * n.toNat < nt := nblocks_lt (by omega) hi
      have hadd : 1 + (i + 1) * n.toNat = 1 + i * n.toNat + n.toNat := by ring
      rw [hadd]
      generalize hk : i * n.toNat = k at *
      rw [Nat.add_comm 1 k] at *
      have hlen0 : 0 < sliceLen nt (k + 1) n.toNat := by unfold sliceLen; omega
      have hlen : ∀ j, j ≤ sliceLen nt (k + 1) n.toNat → k + j < nt ∧ j ≤ n.toNat := by unfold sliceLen; intro j; omega
      have hcov : ∀ j, j + 1 < k + 1 + n.toNat → j + 1 < nt → k ≤ j → j - k < sliceLen nt (k + 1) n.toNat := by unfold sliceLen; intro j; omega
      generalize hL : sliceLen nt (k + 1) n.toNat = len at *
      have hstart : ∀ b, l2 (st.1.get k b - Y b (t k b)) ≤ ρ / 2 := fun b =>
        (bound b (fun i => st.1.get i b) k (by omega) (hst b).1 (fun i hi => (hst b).2 i (by omega) (by omega))).trans (half b k (by omega))
      have tube : ∀ b j, j ≤ len → ∀ y, l2 (y - st.1.get k b) ≤ 4 * H * F → l2 (y - Y b (t (k + j) b)) ≤ ρ := by
        intro b j hj y hy
        have e : y - Y b (t (k + j) b) = (y - st.1.get k b) + ((st.1.get k b - Y b (t k b)) + -(Y b (t (k + j) b) - Y b (t k b))) := by abel
        rw [e]
        refine (l2_add_le _ _).trans ?_
        have a1 := l2_add_le (st.1.get k b - Y b (t k b)) (-(Y b (t (k + j) b) - Y b (t k b)))
        rw [l2_neg] at a1
        have a2 := lipY b k (k + j) (by omega) (hlen j hj).1
        have a3 := mul_le_mul_of_nonneg_left (hblock b k (k + j) (by omega) (hlen j hj).1 (by have := (hlen j hj).2; push_cast; omega)) s2
        have := hstart b
        nlinarith
      have hmem : ∀ b k, k < nt → t k b ∈ Set.Icc (t 0 b) (t (nt - 1) b) := fun b k hk => ⟨hmono b _ _ (by omega) hk, hmono b _ _ (by omega) (by omega)⟩
      have small : SmallBlock f len (fun j => t (k + j)) (st.1.get k) F nu K H :=
        { steps := hlen0
          mono := fun b j hj => ht b (k + j) (hlen (j + 1) hj).1
          signs := ⟨s1, s2, s3, s4⟩
          length := fun b => hblock b (k + 0) (k + len) (by omega) (hlen len le_rfl).1 (by have := (hlen len le_rfl).2; push_cast; omega)
          small := ⟨m1, m2⟩
          bounds := fun b j hj => by
            have hb := htube b (t (k + (j + 1)) b) (hmem b _ (hlen (j + 1) hj).1)
            have hsub := tube b (j + 1) hj
            exact ⟨fun y hy => hb.bound y (hsub y hy), fun x hx y hy => hb.oneSided x (hsub x hx) y (hsub y hy), fun y hy => hb.jac y (hsub y hy), fun x hx y hy => hb.quad x (hsub x hx) y (hsub y hy)⟩ }
      obtain ⟨rows, hu, hrow⟩ := C94_block_succeeds c hs f small j hj ha
      have hzero : (flatten fun j : Fin len => (List.replicate len (0 : BVec β m ℝ)).getD j.val 0) = (0 : β → Fin (len * m) → ℝ) := by
        funext b e
        simp [flatten, List.getD]
      have htimes : (fun j : Fin len => t (k + 1 + j.val)) = fun j : Fin len => t (k + (j.val + 1)) := by
        funext j; congr 1; omega
      refine ⟨(fun j => if h : k + 1 ≤ j ∧ j - (k + 1) < len then some (rows ⟨j - (k + 1), h.2⟩) else st.1 j, st.2 || false), ?_, ?_, ?_⟩
      · subst hL
        unfold integrateStep
        rw [hg, initialGuess_zero_eq]
        simp only
        rw [if_pos (by simp), hzero, htimes, Nat.add_sub_cancel]
        have hu' : blockUpdate c f (fun j : Fin (sliceLen nt (k + 1) n.toNat) => t (k + (j.val + 1))) (t k) (st.1.get k) 0 = .ok (rows, false) := hu
        rw [hu']
      · rw [w]; rfl
      · intro b
        have old : ∀ i, i ≤ k → (Partial.get (fun j => if h : k + 1 ≤ j ∧ j - (k + 1) < len then some (rows ⟨j - (k + 1), h.2⟩) else st.1 j) i : BVec β m ℝ) = st.1.get i := by
          intro i hi
          unfold Partial.get
          beta_reduce
          rw [dif_neg (by omega)]
        have new : ∀ j : Fin len, (Partial.get (fun j => if h : k + 1 ≤ j ∧ j - (k + 1) < len then some (rows ⟨j - (k + 1), h.2⟩) else st.1 j) (k + (j.val + 1)) : BVec β m ℝ) = rows j := by
          intro j
          unfold Partial.get
          beta_reduce
          rw [dif_pos ⟨by omega, by have := j.2; omega⟩]
          simp only [Option.getD_some]
          congr 1
          ext
          simp only
          omega
        refine ⟨by rw [old 0 (by omega)]; exact (hst b).1, fun i hi1 hi2 => ?_⟩
        rcases Nat.lt_or_ge i k with hik | hik
        · rw [old i (by omega), old (i + 1) (by omega)]
          exact (hst b).2 i (by omega) hi2
        · have hj := hcov i hi1 hi2 hik
          obtain ⟨q, rfl⟩ : ∃ q, i = k + q := ⟨i - k, by omega⟩
          rw [Nat.add_sub_cancel_left] at hj
          have hd := block_defect c hs (by omega) hr f small ⟨d1, d2⟩ hu (fun j => Partial.get (fun j => if h : k + 1 ≤ j ∧ j - (k + 1) < len then some (rows ⟨j - (k + 1), h.2⟩) else st.1 j) (k + j))
            (old k le_rfl) new ⟨q, hj⟩ b
          simp only at hd
          set x := fun j => Partial.get (fun j => if h : k + 1 ≤ j ∧ j - (k + 1) < len then some (rows ⟨j - (k + 1), h.2⟩) else st.1 j) (k + j) b with hx
          have hin : l2 (x (q + 1) - Y b (t (k + (q + 1)) b)) ≤ ρ := by
            refine tube b (q + 1) hj _ ?_
            have := hrow ⟨q, hj⟩ b
            rw [← new ⟨q, hj⟩] at this
            exact this
          have hinY : l2 (Y b (t (k + (q + 1)) b) - Y b (t (k + (q + 1)) b)) ≤ ρ := by
            rw [sub_self, l2_zero]
            have := mul_nonneg s4 s2
            linarith
          have hbd := htube b (t (k + (q + 1)) b) (hmem b _ (hlen (q + 1) hj).1)
          have hsub : Set.Icc (t (k + q) b) (t (k + q + 1) b) ⊆ Set.Icc (t 0 b) (t (nt - 1) b) := Set.Icc_subset_Icc (hmono b _ _ (by omega) (by omega)) (hmono b _ _ (by omega) (by omega))
          have htr := truncation_interior (Y' := fun s => (f b s (Y b s)).1) (M := M) (ht b (k + q) hi2) (f b (t (k + q + 1) b) (Y b (t (k + q + 1) b))).1 ((hY b).cont.mono hsub)
            ((hY b).deriv (k + q) (by omega)) ((hY b).lip (k + q) (by omega))
          have main := implicit_step_pair (nu := nu) (sub_nonneg.2 (ht b (k + q) hi2)) (F := fun y => (f b (t (k + q + 1) b) y).1) (x := x (q + 1)) (y := Y b (t (k + q + 1) b)) (a := x q) (a' := Y b (t (k + q) b))
            (d := x (q + 1) - x q - (t (k + q + 1) b - t (k + q) b) • (f b (t (k + q + 1) b) (x (q + 1))).1)
            (d' := Y b (t (k + q + 1) b) - Y b (t (k + q) b) - (t (k + q + 1) b - t (k + q) b) • (f b (t (k + q + 1) b) (Y b (t (k + q + 1) b))).1)
            (hbd.oneSided _ hin _ hinY) (by abel) (by abel)
          refine main.trans (add_le_add le_rfl ?_)
          have a1 := l2_add_le (x (q + 1) - x q - (t (k + q + 1) b - t (k + q) b) • (f b (t (k + q + 1) b) (x (q + 1))).1)
            (-(Y b (t (k + q + 1) b) - Y b (t (k + q) b) - (t (k + q + 1) b - t (k + q) b) • (f b (t (k + q + 1) b) (Y b (t (k + q + 1) b))).1))
          rw [l2_neg, ← sub_eq_add_neg] at a1
          exact a1.trans (add_le_add hd htr))
  refine ⟨r.1, ?_, fun k hk b => ?_⟩
  · unfold integrate
    rw [if_neg (by omega), blockStarts_pos nt hn]
    simp only
    rw [r1, ← r2]
  · refine bound b (fun i => r.1.get i b) k hk (r3 b).1 fun i hi => (r3 b).2 i ?_ (by omega)
    have := nblocks_cover (nt := nt) (N := n.toNat) (by omega)
    omega

/-- **C94.** With the default options (`rtol = 1e-6`, `atol = 1e-8`, `miter = 100`, zero guess) the iteration limit is never the obstacle: short enough blocks and small enough steps suffice. At most seven
updates per block are needed. -/
theorem C94_defaults (c : Config) (hs : c.scheme = .backwardEuler) (hg : c.guessType = "zero") (hr : c.rtol = 1e-6) (ha : c.atol = 1e-8) (hm : c.miter = 100) (f : Func β m) (y0 : BVec β m ℝ) (nt : ℕ) (hnt : 0 < nt)
    (t : ℕ → β → ℝ) (n : ℤ) (hn : 0 < n) (ht : ∀ b k, k + 1 < nt → t k b ≤ t (k + 1) b) (Y : β → ℝ → Fin m → ℝ) (hY0 : ∀ b, Y b (t 0 b) = y0 b) (M : ℝ) (hM : 0 ≤ M)
    (hY : ∀ b, PiecewiseSolution (fun s y => (f b s y).1) (nt - 1) (fun k => t k b) M (Y b)) (ρ F nu K H hmax : ℝ) (hsign : 0 ≤ nu ∧ 0 ≤ F ∧ 0 ≤ K ∧ 0 ≤ H) (htube : TubeBounds f nt t Y ρ F nu K)
    (hblock : ∀ b i j, i ≤ j → j < nt → (j : ℤ) ≤ i + n → t j b - t i b ≤ H) (hstep : ∀ b k, k + 1 < nt → t (k + 1) b - t k b ≤ hmax)
    (hsmall : nu * H ≤ 1 / 4 ∧ 4 * H ^ 2 * F * K ≤ 1 ∧ 10 * (H * F) ≤ ρ ∧ H * F ≤ 1e10)
    (hacc : ∀ b, Real.exp (2 * nu * (t (nt - 1) b - t 0 b)) * (M / 2 * hmax * (t (nt - 1) b - t 0 b) + nt * (1e-8 + 1e-6 * (H * F))) ≤ ρ / 2) :
    ∃ res, integrate c f y0 nt t n = .ok (res, false) ∧ ∀ k < nt, ∀ b,
      l2 (res.get k b - Y b (t k b)) ≤ Real.exp (2 * nu * (t k b - t 0 b)) * (M / 2 * hmax * (t k b - t 0 b) + k * (1e-8 + 1e-6 * (H * F))) := by
  obtain ⟨m1, m2, m3, m4⟩ := hsmall
  have hHF : 0 ≤ H * F := mul_nonneg hsign.2.2.2 hsign.2.1
  refine C94_integrate_succeeds c hs hg (by rw [hr]; norm_num) f y0 nt hnt t n hn ht Y hY0 M hM hY ρ F nu K H hmax (1e-8 + 1e-6 * (H * F)) hsign htube hblock hstep ⟨m1, m2, m3⟩
    ⟨by positivity, by rw [ha]; have : (0 : ℝ) ≤ 1e-6 * (H * F) := by positivity
                       linarith, by rw [hr]; norm_num⟩ hacc 5 (by rw [hm]; norm_num) ?_
  rw [ha]
  have e : 2 * K * H * (H * F) ^ 2 * (1 / 4) ^ (2 ^ 5 - 1) = (4 * H ^ 2 * F * K) * (H * F) * (1 / 2 * (1 / 4) ^ (2 ^ 5 - 1)) := by ring
  rw [e]
  have h1 := mul_le_mul_of_nonneg_right m2 hHF
  have h2 : (4 * H ^ 2 * F * K) * (H * F) ≤ 1e10 := by linarith
  have h3 := mul_le_mul_of_nonneg_right h2 (by positivity : (0 : ℝ) ≤ 1 / 2 * (1 / 4) ^ (2 ^ 5 - 1))
  refine h3.trans ?_
  norm_num

private theorem riccati_bounds (s : ℝ) (hs : s ∈ Set.Icc (0 : ℝ) (1 / 10)) :
    RateBounds (m := 1) (fun y i => -(y i) ^ 2) (fun y => Matrix.of fun i _ => -2 * y i) {y | l2 (y - fun _ => 1 / (1 + s)) ≤ 1} 4 (1 / 5) 2 := by
  have hin : ∀ y : Fin 1 → ℝ, l2 (y - fun _ => 1 / (1 + s)) ≤ 1 → -(1 / 10) ≤ y 0 ∧ y 0 ≤ 2 := by
    intro y hy
    rw [l2_one, Pi.sub_apply, abs_le] at hy
    have h1 : 1 / (1 + s) ≤ 1 := by rw [div_le_one (by linarith [hs.1])]; linarith [hs.1]
    have h2 : 9 / 10 ≤ 1 / (1 + s) := by rw [le_div_iff₀ (by linarith [hs.1])]; linarith [hs.2]
    constructor <;> linarith [hy.1, hy.2]
  refine ⟨fun y hy => ?_, fun x hx y hy => ?_, fun y hy v => ?_, fun x hx y hy => ?_⟩
  · obtain ⟨a, b⟩ := hin y hy
    rw [l2_one, abs_neg, abs_of_nonneg (sq_nonneg _)]
    nlinarith
  · obtain ⟨a, b⟩ := hin y hy
    obtain ⟨a', b'⟩ := hin x hx
    simp only [dotProduct, Pi.sub_apply, Fin.sum_univ_one]
    nlinarith [mul_nonneg (by linarith : 0 ≤ 1 / 5 + x 0 + y 0) (mul_self_nonneg (x 0 - y 0))]
  · obtain ⟨a, b⟩ := hin y hy
    simp only [dotProduct, Matrix.mulVec, Fin.sum_univ_one, Matrix.of_apply]
    nlinarith [mul_nonneg (by linarith : 0 ≤ 1 / 5 + 2 * y 0) (mul_self_nonneg (v 0))]
  · rw [l2_one, l2_one, sq_abs]
    simp only [dotProduct, Matrix.mulVec, Fin.sum_univ_one, Matrix.of_apply, Pi.sub_apply]
    have e : -(y 0) ^ 2 - -(x 0) ^ 2 - -2 * x 0 * (y 0 - x 0) = -(y 0 - x 0) ^ 2 := by ring
    rw [e, abs_neg, abs_of_nonneg (sq_nonneg _)]
    linarith

/-- Non-vacuity of C94: the nonlinear equation `y' = -y²` from 1, ten steps of 1/100 in blocks of two, with the default options. The run succeeds and ends within 0.00105 of the true value `1/1.1`. -/
example : ∃ res, integrate (β := Unit) (m := 1)
    { scheme := .backwardEuler, method := .direct .thomas, rtol := 1e-6, atol := 1e-8, miter := 100, throwOnFail := true, guessType := "zero" }
    (Func.lift fun _ _ y => (fun i => -(y i) ^ 2, Matrix.of fun i _ => -2 * y i)) (fun _ _ => 1) 11 (fun k _ => k / 100) 2 = .ok (res, false) ∧
    |res.get 10 () 0 - 1 / 1.1| ≤ 0.00105 := by
  have cast : ∀ k : ℕ, ((k + 1 : ℕ) : ℝ) / 100 - (k : ℝ) / 100 = 1 / 100 := fun k => by push_cast; ring
  have he : Real.exp (2 * (1 / 5) * (1 / 10)) ≤ 1 / 0.96 := by
    have h4 : (1 - 2 * (1 / 5) * (1 / 10) : ℝ) ≤ Real.exp (-(2 * (1 / 5) * (1 / 10))) := by have := Real.add_one_le_exp (-(2 * (1 / 5) * (1 / 10)) : ℝ); linarith
    rw [Real.exp_neg] at h4
    rw [le_inv_comm₀ (by norm_num) (Real.exp_pos _)] at h4
    refine h4.trans ?_
    norm_num
  obtain ⟨res, h1, h2⟩ := C94_defaults (β := Unit) (m := 1)
    { scheme := .backwardEuler, method := .direct .thomas, rtol := 1e-6, atol := 1e-8, miter := 100, throwOnFail := true, guessType := "zero" } rfl rfl rfl rfl rfl
    (fun _ _ y => (fun i => -(y i) ^ 2, Matrix.of fun i _ => -2 * y i)) (fun _ _ => 1) 11 (by norm_num) (fun k _ => (k : ℝ) / 100) 2 (by norm_num)
    (by intro _ k _; have := cast k; linarith) (fun _ s _ => 1 / (1 + s)) (by intro _; funext _; norm_num) 2 (by norm_num) (by
      intro _
      have h11 : (11 : ℕ) - 1 = 10 := rfl
      have hs : ∀ k : ℕ, k < 10 → ∀ s ∈ Set.Ioo ((k : ℝ) / 100) (((k + 1 : ℕ) : ℝ) / 100), 0 < s := fun k _ s hs => lt_of_le_of_lt (by positivity) hs.1
      refine ⟨?_, fun k hk s hs' => ?_, fun k hk s hs' => ?_⟩
      · refine continuousOn_pi.2 fun _ => continuousOn_const.div (by fun_prop) fun s hs => ?_
        have : 0 ≤ s := le_trans (by norm_num) hs.1
        positivity
      · have := hs k hk s hs'
        refine hasDerivAt_pi.2 fun i => ?_
        have := ((hasDerivAt_id s).const_add 1).fun_inv (by simp only [id]; positivity)
        simp only [one_div]
        refine this.congr_deriv ?_
        simp only [id]
        field_simp
      · have p1 := hs k hk s hs'
        have p2 : (0 : ℝ) ≤ ((k + 1 : ℕ) : ℝ) / 100 := by positivity
        generalize ((k + 1 : ℕ) : ℝ) / 100 = u at *
        rw [l2_one]
        simp only [Pi.sub_apply]
        have e : -(1 / (1 + s)) ^ 2 - -(1 / (1 + u)) ^ 2 = (s - u) * ((1 / (1 + s) + 1 / (1 + u)) * (1 / (1 + s) * (1 / (1 + u)))) := by
          have : (1 + s) ≠ 0 := by positivity
          have : (1 + u) ≠ 0 := by positivity
          field_simp
          ring
        have i1 : 1 / (1 + s) ≤ 1 := by rw [div_le_one (by positivity)]; linarith
        have i2 : 1 / (1 + u) ≤ 1 := by rw [div_le_one (by positivity)]; linarith
        have j1 : 0 ≤ 1 / (1 + s) := by positivity
        have j2 : 0 ≤ 1 / (1 + u) := by positivity
        have j3 : 1 / (1 + s) * (1 / (1 + u)) ≤ 1 := by nlinarith
        have j4 : (1 / (1 + s) + 1 / (1 + u)) * (1 / (1 + s) * (1 / (1 + u))) ≤ 2 := by nlinarith [mul_nonneg j1 j2]
        have j5 : 0 ≤ (1 / (1 + s) + 1 / (1 + u)) * (1 / (1 + s) * (1 / (1 + u))) := by positivity
        rw [e, abs_mul, abs_of_nonneg j5, mul_comm]
        exact mul_le_mul_of_nonneg_right j4 (abs_nonneg _)) 1 4 (1 / 5) 2 (1 / 50) (1 / 100) (by norm_num) (by
      intro _ s hs
      refine riccati_bounds s ?_
      norm_num at hs ⊢
      exact hs) (by
      intro _ i j _ _ hij
      have : (j : ℝ) ≤ i + 2 := by exact_mod_cast hij
      linarith) (by intro _ k _; have := cast k; linarith) (by norm_num) (by
      intro _
      have e : (2 : ℝ) * (1 / 5) * (((11 - 1 : ℕ) : ℝ) / 100 - ((0 : ℕ) : ℝ) / 100) = 2 * (1 / 5) * (1 / 10) := by norm_num
      rw [e]
      refine (mul_le_mul_of_nonneg_right he (by norm_num)).trans ?_
      norm_num)
  refine ⟨res, h1, ?_⟩
  have main := h2 10 (by norm_num) ()
  rw [l2_one] at main
  have e : (2 : ℝ) * (1 / 5) * (((10 : ℕ) : ℝ) / 100 - ((0 : ℕ) : ℝ) / 100) = 2 * (1 / 5) * (1 / 10) := by norm_num
  rw [e] at main
  have e2 : (1 : ℝ) / (1 + ((10 : ℕ) : ℝ) / 100) = 1 / 1.1 := by norm_num
  simp only [Pi.sub_apply] at main
  rw [e2] at main
  refine main.trans ((mul_le_mul_of_nonneg_right he (by norm_num)).trans ?_)
  norm_num

end Pyoptmat.Props
