import Verif.Props.Backprop
import Verif.Props.Convergence
import Verif.Props.SensitivityForward

/-!
# Properties C94 and C129: the limit of Newton's method on small blocks, and its gradients
-/

namespace Pyoptmat.Props

open Pyoptmat.Chunktime Pyoptmat.Newton Pyoptmat.Spec Pyoptmat.Ode Filter Topology

variable {β : Type*} {m p : ℕ}

private theorem quarter_lim (C : ℝ) : Tendsto (fun j : ℕ => C * (1 / 4 : ℝ) ^ (2 ^ j - 1)) atTop (𝓝 0) := by
  have h1 : Tendsto (fun j : ℕ => (1 / 4 : ℝ) ^ (2 ^ j - 1)) atTop (𝓝 0) := by
    refine squeeze_zero (fun j => by positivity) (fun j => ?_) (tendsto_pow_atTop_nhds_zero_of_lt_one (r := (1 / 4 : ℝ)) (by norm_num) (by norm_num))
    refine pow_le_pow_of_le_one (by norm_num) (by norm_num) ?_
    have := Nat.lt_two_pow_self (n := j)
    omega
  simpa using h1.const_mul C

private theorem tendsto_of_l2 {x : ℕ → Fin m → ℝ} {z : Fin m → ℝ} (h : Tendsto (fun j => l2 (x j - z)) atTop (𝓝 0)) : Tendsto x atTop (𝓝 z) := by
  rw [tendsto_iff_norm_sub_tendsto_zero]
  exact squeeze_zero (fun j => norm_nonneg _) (fun j => norm_le_l2 _) h

section
variable {f : Func β m} {n : ℕ} {t : ℕ → β → ℝ} {yS : BVec β m ℝ} {F nu K H : ℝ}

private theorem hyp (h : SmallBlock f n t yS F nu K H) : BlockHyp f n t yS F nu K H (4 * H * F) :=
  ⟨h.steps, h.mono, h.signs.1, h.signs.2.1, h.signs.2.2.1, h.signs.2.2.2, h.length, h.small.1, h.small.2, le_rfl, h.bounds⟩

private theorem step_small (h : SmallBlock f n t yS F nu K H) (b : β) {k : ℕ} (hk : k < n) : 0 ≤ t (k + 1) b - t k b ∧ nu * (t (k + 1) b - t k b) ≤ 1 / 4 := by
  have h0 := sub_nonneg.2 (h.mono b k hk)
  refine ⟨h0, ?_⟩
  have h1 := mono_grid (h.mono b) (Nat.zero_le k) hk.le
  have h2 := mono_grid (h.mono b) (show k + 1 ≤ n by omega) le_rfl
  have h3 := h.length b
  have := mul_le_mul_of_nonneg_left (show t (k + 1) b - t k b ≤ H by linarith) h.signs.1
  linarith [h.small.1]

/-- what the rows of an iterate miss -/
private theorem rows_defect (h : SmallBlock f n t yS F nu K H) (meth : SolveMethod) (j : ℕ) (b : β) (k : ℕ) (hk : k < n) :
    l2 (blockRows yS (iter f n t yS meth (j + 1)) (k + 1) b - blockRows yS (iter f n t yS meth (j + 1)) k b -
      (t (k + 1) b - t k b) • (f b (t (k + 1) b) (blockRows yS (iter f n t yS meth (j + 1)) (k + 1) b)).1) ≤ (t (k + 1) b - t k b) * (2 * K * (H * F) ^ 2 * (1 / 4) ^ (2 ^ j - 1)) := by
  obtain ⟨s1, s2, s3, s4⟩ := h.signs
  exact newton_rows_defect h.mono s1 s2 s3 s4 h.length h.small.1 h.small.2 le_rfl (g := fun b k y => (f b (t k b) y).1) (J := fun b k y => (f b (t k b) y).2) h.bounds
    (x := fun j k b => blockRows yS (iter f n t yS meth j) k b) (fun k b => blockRows_guess yS k b) (fun j b => blockRows_zero yS _ b) (fun j hj b k hk => (hyp h).recursion meth j hj b k hk) j b k hk

/-- the iterates converge to every solution in the ball -/
private theorem rows_tendsto (h : SmallBlock f n t yS F nu K H) (meth : SolveMethod) (Z : ℕ → BVec β m ℝ) (hZ0 : Z 0 = yS) (hZ : IsBackwardEuler (fun b t y => (f b t y).1) (n + 1) t Z)
    (hball : ∀ k ≤ n, ∀ b, l2 (Z k b - yS b) ≤ 4 * H * F) (b : β) (k : ℕ) (hk : k ≤ n) : Tendsto (fun j => l2 (blockRows yS (iter f n t yS meth j) k b - Z k b)) atTop (𝓝 0) := by
  induction k with
  | zero =>
    simp only [blockRows_zero, hZ0, sub_self, l2_zero]
    exact tendsto_const_nhds
  | succ k ih =>
    have ih := ih (by omega)
    obtain ⟨h0, h1⟩ := step_small h b (show k < n by omega)
    rw [← tendsto_add_atTop_iff_nat 1] at ih ⊢
    refine squeeze_zero (fun j => l2_nonneg _) (fun j => ?_) ((by simpa using (ih.add (quarter_lim ((t (k + 1) b - t k b) * (2 * K * (H * F) ^ 2)))).const_mul 2 :
      Tendsto (fun j : ℕ => 2 * (l2 (blockRows yS (iter f n t yS meth (j + 1)) k b - Z k b) + (t (k + 1) b - t k b) * (2 * K * (H * F) ^ 2) * (1 / 4) ^ (2 ^ j - 1))) atTop (𝓝 0)))
    have hd := rows_defect h meth j b k (by omega)
    have hs := (h.bounds b k (by omega)).oneSided _ (((hyp h).close meth (j + 1) b (k + 1) hk).1) _ (hball (k + 1) hk b)
    have := implicit_step_pair (F := fun y => (f b (t (k + 1) b) y).1) h0 hs (a := blockRows yS (iter f n t yS meth (j + 1)) k b) (a' := Z k b)
      (d := blockRows yS (iter f n t yS meth (j + 1)) (k + 1) b - blockRows yS (iter f n t yS meth (j + 1)) k b -
        (t (k + 1) b - t k b) • (f b (t (k + 1) b) (blockRows yS (iter f n t yS meth (j + 1)) (k + 1) b)).1) (d' := 0) (by abel) (by rw [add_zero]; exact hZ k b (by omega))
    rw [sub_zero] at this
    have hl := l2_nonneg (blockRows yS (iter f n t yS meth (j + 1)) (k + 1) b - Z (k + 1) b)
    nlinarith

/-- the iterates converge -/
private theorem rows_limit (h : SmallBlock f n t yS F nu K H) (meth : SolveMethod) (b : β) (k : ℕ) (hk : k ≤ n) : ∃ z, Tendsto (fun j => blockRows yS (iter f n t yS meth j) k b) atTop (𝓝 z) := by
  refine cauchySeq_tendsto_of_complete (cauchySeq_of_le_geometric (1 / 2) (2 * H * F) (by norm_num) fun j => ?_)
  rw [dist_comm, dist_eq_norm]
  refine (norm_le_l2 _).trans (((hyp h).close meth j b k hk).2.trans ?_)
  obtain ⟨s1, s2, s3, s4⟩ := h.signs
  refine mul_le_mul_of_nonneg_left (pow_le_pow_of_le_one (by norm_num) (by norm_num) ?_) (by positivity)
  have := Nat.lt_two_pow_self (n := j)
  omega

/-- **C94.** A small block has exactly one solution of the backward Euler equations in the ball of radius `4 H F` around its start, and the Newton iterates from the default guess converge to it, for every linear solve option. -/
theorem C94_limit (h : SmallBlock f n t yS F nu K H) (hc : ∀ b, ∀ k < n, ∀ y, l2 (y - yS b) ≤ 4 * H * F → ContinuousAt (fun y => (f b (t (k + 1) b) y).1) y) :
    ∃ Z : ℕ → BVec β m ℝ, Z 0 = yS ∧ IsBackwardEuler (fun b t y => (f b t y).1) (n + 1) t Z ∧ (∀ k ≤ n, ∀ b, l2 (Z k b - yS b) ≤ 4 * H * F) ∧
      (∀ Z' : ℕ → BVec β m ℝ, Z' 0 = yS → IsBackwardEuler (fun b t y => (f b t y).1) (n + 1) t Z' → (∀ k ≤ n, ∀ b, l2 (Z' k b - yS b) ≤ 4 * H * F) → ∀ k ≤ n, Z' k = Z k) ∧
      ∀ meth : SolveMethod, ∀ (k : Fin n) b, Tendsto (fun j => unflatten (newtonIterate (blockRJ .backwardEuler f (fun j : Fin n => t (j.val + 1)) (t 0) yS) (fun J R => solve meth J R) (fun x dx => x - dx) 0 j) k b + yS b)
        atTop (𝓝 (Z (k.val + 1) b)) := by
  classical
  set Z : ℕ → BVec β m ℝ := fun k b => if hk : k ≤ n then (rows_limit h .dense b k hk).choose else 0 with hZ
  have lim : ∀ b k, k ≤ n → Tendsto (fun j => blockRows yS (iter f n t yS .dense j) k b) atTop (𝓝 (Z k b)) := by
    intro b k hk
    have := (rows_limit h .dense b k hk).choose_spec
    rw [hZ]
    simp only [dif_pos hk]
    exact this
  have z0 : Z 0 = yS := by
    funext b
    have := lim b 0 (Nat.zero_le _)
    simp only [blockRows_zero] at this
    exact tendsto_nhds_unique this tendsto_const_nhds
  have zb : ∀ k ≤ n, ∀ b, l2 (Z k b - yS b) ≤ 4 * H * F := fun k hk b =>
    le_of_tendsto ((continuous_l2.tendsto _).comp ((lim b k hk).sub_const (yS b))) (Eventually.of_forall fun j => ((hyp h).close .dense j b k hk).1)
  have zs : IsBackwardEuler (fun b t y => (f b t y).1) (n + 1) t Z := by
    intro k b hk
    have hk' : k < n := by omega
    have hcont := (hc b k hk' _ (zb (k + 1) (by omega) b)).tendsto.comp (lim b (k + 1) (by omega))
    have e := ((lim b (k + 1) (by omega)).sub (lim b k hk'.le)).sub (hcont.const_smul (t (k + 1) b - t k b))
    have e1 := (continuous_l2.tendsto _).comp ((tendsto_add_atTop_iff_nat 1).2 e)
    have e2 := le_of_tendsto_of_tendsto e1 (quarter_lim ((t (k + 1) b - t k b) * (2 * K * (H * F) ^ 2))) (Eventually.of_forall fun j => by
      have := rows_defect h .dense j b k hk'
      simp only [Function.comp]
      linarith)
    have e3 := l2_eq_zero e2
    rw [sub_sub, sub_eq_zero] at e3
    exact e3
  refine ⟨Z, z0, zs, zb, fun Z' a1 a2 a3 k hk => ?_, fun meth k b => ?_⟩
  · funext b
    exact tendsto_nhds_unique (tendsto_of_l2 (rows_tendsto h .dense Z' a1 a2 a3 b k hk)) (lim b k hk)
  · have := tendsto_of_l2 (rows_tendsto h meth Z z0 zs zb b (k.val + 1) k.2)
    simp only [blockRows_succ] at this
    exact this

end

variable [Fintype β]

/-- **C129.** The convergence that `C129_limit` assumes holds on small blocks (`SmallBlock`, C94): if the trajectory stays in the balls of radius `4 H F` around the first states of its blocks, and rates and Jacobians are continuously differentiable there, then the
gradient that backpropagation computes with enough updates is as close as we like to the exact gradient, for every linear solve option. -/
theorem C129_small_blocks (meth : SolveMethod) (rate : (Fin p → ℝ) → β → ℝ → (Fin m → ℝ) → Fin m → ℝ) (J : (Fin p → ℝ) → β → ℝ → (Fin m → ℝ) → Matrix (Fin m) (Fin m) ℝ)
    (fp : β → ℝ → (Fin m → ℝ) → Matrix (Fin m) (Fin p) ℝ) (nt : ℕ) (hnt : 0 < nt) (t : ℕ → β → ℝ) (Y : ℕ → β → Fin m → ℝ) (p0 : Fin p → ℝ) (n : ℕ) (hn : 0 < n) (g : ℕ → β → Fin m → ℝ)
    (hY : IsBackwardEuler (rate p0) nt t Y) (F nu K H : ℝ)
    (hsmall : ∀ i, 1 + i * n < nt → SmallBlock (fun b t y => (rate p0 b t y, J p0 b t y)) (min n (nt - 1 - i * n)) (fun k => t (i * n + k)) (Y (i * n)) F nu K H)
    (hball : ∀ i k, i * n ≤ k → k < nt → k ≤ i * n + n → ∀ b, l2 (Y k b - Y (i * n) b) ≤ 4 * H * F)
    (hR : ∀ k < nt, ∀ b, HasStrictFDerivAt (fun x : (Fin p → ℝ) × (Fin m → ℝ) => rate x.1 b (t k b) x.2)
      ((matCLM (fp b (t k b) (Y k b))).coprod (matCLM (J p0 b (t k b) (Y k b)))) (p0, Y k b))
    (hs : ∀ i k, i * n ≤ k → k < nt → k ≤ i * n + n → ∀ b z, l2 (z - Y (i * n) b) ≤ 4 * H * F → ContDiffAt ℝ 1 (fun x : (Fin p → ℝ) × (Fin m → ℝ) => rate x.1 b (t k b) x.2) (p0, z) ∧
      ContDiffAt ℝ 1 (fun x : (Fin p → ℝ) × (Fin m → ℝ) => matCLM (J x.1 b (t k b) x.2)) (p0, z))
    (hfp : ∀ k < nt, ∀ b, ContinuousAt (fp b (t k b)) (Y k b)) :
    ∃ y : (Fin p → ℝ) → (β → Fin m → ℝ) → ℕ → β → Fin m → ℝ,
      y p0 (Y 0) = Y ∧ (∀ q x, y q x 0 = x) ∧ (∀ᶠ v in 𝓝 (p0, Y 0), IsBackwardEuler (rate v.1) nt t (y v.1 v.2)) ∧
      ∃ E : (Fin p → ℝ) × (β → Fin m → ℝ) →L[ℝ] ℝ, HasFDerivAt (fun v : (Fin p → ℝ) × (β → Fin m → ℝ) => ∑ k ∈ Finset.range nt, ∑ b, g k b ⬝ᵥ y v.1 v.2 k b) E (p0, Y 0) ∧
      ∀ eps > 0, ∃ N, ∀ U : ℕ → ℕ, (∀ i, N ≤ U i) →
        let rows := fun v : (Fin p → ℝ) × (β → Fin m → ℝ) => recordedIntegrate .backwardEuler meth (Func.lift fun b t y => (rate v.1 b t y, J v.1 b t y)) v.2 nt n t U
        (∀ k < nt, ‖rows (p0, Y 0) k - Y k‖ < eps) ∧
        ∃ D, HasFDerivAt (fun v => ∑ k ∈ Finset.range nt, ∑ b, g k b ⬝ᵥ rows v k b) D (p0, Y 0) ∧ ‖D - E‖ < eps := by
  have len : ∀ i, 1 + i * n < nt → sliceLen nt (1 + i * n) n = min n (nt - 1 - i * n) := by
    intro i hi
    unfold sliceLen
    omega
  have hsm : ∀ i, 1 + i * n < nt → SmallBlock (fun b t y => (rate p0 b t y, J p0 b t y)) (sliceLen nt (1 + i * n) n) (fun k => t (i * n + k)) (Y (i * n)) F nu K H := fun i hi => by
    rw [len i hi]; exact hsmall i hi
  have rel : ∀ i k, 1 + i * n ≤ k → k < nt → k ≤ i * n + n → ∃ l, k = i * n + (l + 1) ∧ l < sliceLen nt (1 + i * n) n ∧ 1 + i * n < nt := by
    intro i k h1 h2 h3
    refine ⟨k - (1 + i * n), by omega, ?_, by omega⟩
    unfold sliceLen
    omega
  set x : ℕ → ℕ → ℕ → β → Fin m → ℝ := fun i j k b =>
    blockRows (Y (i * n)) (iter (fun b t y => (rate p0 b t y, J p0 b t y)) (sliceLen nt (1 + i * n) n) (fun k => t (i * n + k)) (Y (i * n)) meth j) (k - i * n) b with hx
  have xin : ∀ i j k b, 1 + i * n ≤ k → k < nt → k ≤ i * n + n → l2 (x i j k b - Y (i * n) b) ≤ 4 * H * F := by
    intro i j k b h1 h2 h3
    obtain ⟨l, rfl, hl, hi⟩ := rel i k h1 h2 h3
    rw [hx]
    beta_reduce
    rw [Nat.add_sub_cancel_left]
    exact ((hyp (hsm i hi)).close meth j b (l + 1) (by omega)).1
  have det : ∀ i k b z, 1 + i * n ≤ k → k < nt → k ≤ i * n + n → l2 (z - Y (i * n) b) ≤ 4 * H * F → IsUnit (1 - (t k b - t (k - 1) b) • J p0 b (t k b) z).det := by
    intro i k b z h1 h2 h3 hz
    obtain ⟨l, rfl, hl, hi⟩ := rel i k h1 h2 h3
    have e : i * n + (l + 1) - 1 = i * n + l := by omega
    rw [e]
    obtain ⟨s1, s2⟩ := step_small (hsm i hi) b hl
    beta_reduce at s1 s2
    exact step_det_unit (nu := nu) s1 (by linarith) (((hsm i hi).bounds b l hl).jac z hz)
  have blk : ∀ k, 0 < k → k < nt → ∃ i, 1 + i * n ≤ k ∧ k ≤ i * n + n := by
    intro k h1 h2
    obtain ⟨i, hi, a, b⟩ := block_of_row hn h1 h2
    unfold sliceLen at b
    exact ⟨i, by omega, by omega⟩
  obtain ⟨y, y1, y2, y3, grad, lam, y4, y5⟩ := C129_limit .thomas meth rate J fp nt hnt t Y p0 n hn g hY (by
      intro k hk b
      obtain ⟨i, h1, h2⟩ := blk (k + 1) (by omega) hk
      exact det i (k + 1) b _ h1 hk h2 (hball i (k + 1) (by omega) hk h2 b)) hR (by
      intro k hk b
      rcases Nat.eq_zero_or_pos k with rfl | hpos
      · exact hs 0 0 (by omega) hk (by omega) b _ (hball 0 0 (by omega) hk (by omega) b)
      · obtain ⟨i, h1, h2⟩ := blk k hpos hk
        exact hs i k (by omega) hk h2 b _ (hball i k (by omega) hk h2 b)) hfp x (by
      intro i j l
      have hi : 1 + i * n < nt := by have := l.2; unfold sliceLen at this; omega
      funext b
      have e1 : 1 + i * n + l.val - i * n = l.val + 1 := by omega
      rw [hx]
      beta_reduce
      rw [e1, blockRows_succ]
      have e2 : (fun j : Fin (sliceLen nt (1 + i * n) n) => t (i * n + (j.val + 1))) = fun l => t (1 + i * n + l.val) := by
        funext j
        congr 1
        omega
      unfold iter
      beta_reduce
      rw [e2]
      rfl) (fun i j k b h1 h2 h3 => det i k b _ (by omega) h2 h3 (xin i j k b (by omega) h2 h3))
    (fun i j k b h1 h2 h3 => hs i k (by omega) h2 h3 b _ (xin i j k b (by omega) h2 h3)) (by
      intro i k b h1 h2 h3
      obtain ⟨l, rfl, hl, hi⟩ := rel i k (by omega) h2 h3
      have := tendsto_of_l2 (rows_tendsto (hsm i hi) meth (fun k => Y (i * n + k)) rfl (by
        intro k b hk
        have := hY (i * n + k) b (by unfold sliceLen at hk; omega)
        exact this) (by
        intro k hk b
        unfold sliceLen at hk
        exact hball i (i * n + k) (by omega) (by omega) (by omega) b) b (l + 1) (by omega))
      rw [hx]
      beta_reduce
      rw [Nat.add_sub_cancel_left]
      exact this)
  refine ⟨y, y1, y2, y3, totalGrad grad lam, y4, fun eps he => ?_⟩
  obtain ⟨N, hN⟩ := y5 eps he
  refine ⟨N, fun U hU => ?_⟩
  obtain ⟨r1, D, -, -, r2, r3, -⟩ := hN U hU
  exact ⟨r1, D, r2, r3⟩

/-! ## Non-vacuity -/

/-- One block of two steps of `y' = 2 - y^2` from `1` is small. -/
private theorem ex_small : SmallBlock (β := Unit) (fun (_ : Unit) (_ : ℝ) (y : Fin 1 → ℝ) => (fun i => 2 - y i ^ 2, !![-2 * y 0])) 2 (fun k _ => (k : ℝ) / 64) (fun _ _ => 1) 2 0 2 (1 / 32) := by
  have near : ∀ y : Fin 1 → ℝ, l2 (y - fun _ => (1 : ℝ)) ≤ 4 * (1 / 32) * 2 → 3 / 4 ≤ y 0 ∧ y 0 ≤ 5 / 4 := by
    intro y hy
    rw [l2_one, abs_le] at hy
    simp only [Pi.sub_apply] at hy
    exact ⟨by linarith [hy.1], by linarith [hy.2]⟩
  refine ⟨by norm_num, fun b k _ => ?_, by norm_num, fun b => by norm_num, by norm_num, fun b k _ => ⟨fun y hy => ?_, fun x hx y hy => ?_, fun y hy v => ?_, fun x hx y hy => ?_⟩⟩
  · push_cast; linarith
  · obtain ⟨h1, h2⟩ := near y hy
    rw [l2_one, abs_le]
    constructor <;> nlinarith
  · obtain ⟨h1, h2⟩ := near x hx
    obtain ⟨h3, h4⟩ := near y hy
    simp [dotProduct]
    nlinarith [mul_nonneg (show 0 ≤ x 0 + y 0 by linarith) (sq_nonneg (x 0 - y 0))]
  · obtain ⟨h1, h2⟩ := near y hy
    simp [dotProduct, Matrix.mulVec]
    nlinarith [mul_nonneg (show 0 ≤ y 0 by linarith) (sq_nonneg (v 0))]
  · rw [l2_one, l2_one, sq_abs]
    have e : ((fun i => 2 - y i ^ 2) - (fun i => 2 - x i ^ 2) - (!![-2 * x 0] : Matrix (Fin 1) (Fin 1) ℝ).mulVec (y - x) : Fin 1 → ℝ) 0 = -(y 0 - x 0) ^ 2 := by
      simp [dotProduct, Matrix.mulVec]
      ring
    rw [e, abs_neg, abs_of_nonneg (sq_nonneg _)]
    simp

/-- Both theorems for `y' = q - y^2` at `q = 2` from `1`, one block of two steps. -/
example : ∃ Y : ℕ → Unit → Fin 1 → ℝ, Y 0 = (fun _ _ => 1) ∧ IsBackwardEuler (fun _ _ y i => 2 - y i ^ 2) 3 (fun k _ => (k : ℝ) / 64) Y ∧
    ∃ E : (Fin 1 → ℝ) × (Unit → Fin 1 → ℝ) →L[ℝ] ℝ, ∀ eps > 0, ∃ N : ℕ, ∀ U ≥ N,
      let rows := fun v : (Fin 1 → ℝ) × (Unit → Fin 1 → ℝ) => recordedIntegrate .backwardEuler (.direct .thomas) (Func.lift fun (_ : Unit) (_ : ℝ) (y : Fin 1 → ℝ) => (fun i => v.1 0 - y i ^ 2, !![-2 * y 0])) v.2 3 2
        (fun k _ => (k : ℝ) / 64) (fun _ => U)
      (∀ k < 3, ‖rows ((fun _ => 2), fun _ _ => 1) k - Y k‖ < eps) ∧
      ∃ D, HasFDerivAt (fun v => ∑ k ∈ Finset.range 3, ∑ b : Unit, (fun _ : Fin 1 => (1 : ℝ)) ⬝ᵥ rows v k b) D ((fun _ => 2), fun _ _ => 1) ∧ ‖D - E‖ < eps := by
  have mul_id : ∀ a : ℝ, matCLM !![a] = a • ContinuousLinearMap.id ℝ (Fin 1 → ℝ) := by
    intro a
    ext v i
    obtain rfl : i = 0 := Subsingleton.elim _ _
    simp [matCLM_apply, Matrix.mulVec, dotProduct]
  have smooth : ∀ z : (Fin 1 → ℝ) × (Fin 1 → ℝ), ContDiffAt ℝ 1 (fun x : (Fin 1 → ℝ) × (Fin 1 → ℝ) => fun i => x.1 0 - x.2 i ^ 2) z ∧
      ContDiffAt ℝ 1 (fun x : (Fin 1 → ℝ) × (Fin 1 → ℝ) => matCLM !![-2 * x.2 0]) z := by
    intro z
    refine ⟨by fun_prop, ?_⟩
    simp only [mul_id]
    fun_prop
  obtain ⟨Y, h1, h2, h3, -, -⟩ := C94_limit ex_small (fun b k _ y _ => continuousAt_pi.2 fun i => (continuous_const.sub ((continuous_apply i).pow 2)).continuousAt)
  refine ⟨Y, h1, h2, ?_⟩
  obtain ⟨y, -, -, -, E, -, h4⟩ := C129_small_blocks (β := Unit) (m := 1) (p := 1) (.direct .thomas) (fun q _ _ y i => q 0 - y i ^ 2) (fun _ _ _ y => !![-2 * y 0]) (fun _ _ _ => !![1]) 3 (by norm_num) (fun k _ => (k : ℝ) / 64)
    Y (fun _ => 2) 2 (by norm_num) (fun _ _ _ => 1) h2 2 0 2 (1 / 32) (by
      intro i hi
      obtain rfl : i = 0 := by omega
      simp only [Nat.zero_mul, Nat.zero_add, h1]
      exact ex_small) (by
      intro i k hk1 hk2 hk3 b
      rcases Nat.eq_zero_or_pos i with rfl | hi
      · rw [Nat.zero_mul, h1]
        exact h3 k (by omega) b
      · obtain rfl : i = 1 := by omega
        obtain rfl : k = 2 := by omega
        rw [Nat.one_mul, sub_self, l2_zero]
        norm_num) (by
      intro k hk b
      have hs := (smooth ((fun _ => 2), Y k b)).1.hasStrictFDerivAt (by norm_num)
      refine hs.congr_fderiv ?_
      refine (HasFDerivAt.fderiv ?_)
      rw [hasFDerivAt_pi']
      intro i
      obtain rfl : i = 0 := Subsingleton.elim _ _
      have h1 : HasFDerivAt (fun x : (Fin 1 → ℝ) × (Fin 1 → ℝ) => x.1 0) ((ContinuousLinearMap.proj (R := ℝ) (φ := fun _ : Fin 1 => ℝ) 0).comp (ContinuousLinearMap.fst ℝ (Fin 1 → ℝ) (Fin 1 → ℝ))) ((fun _ => 2), Y k b) :=
        ((ContinuousLinearMap.proj (R := ℝ) (φ := fun _ : Fin 1 => ℝ) 0).comp (ContinuousLinearMap.fst ℝ (Fin 1 → ℝ) (Fin 1 → ℝ))).hasFDerivAt
      have h2 : HasFDerivAt (fun x : (Fin 1 → ℝ) × (Fin 1 → ℝ) => x.2 0) ((ContinuousLinearMap.proj (R := ℝ) (φ := fun _ : Fin 1 => ℝ) 0).comp (ContinuousLinearMap.snd ℝ (Fin 1 → ℝ) (Fin 1 → ℝ))) ((fun _ => 2), Y k b) :=
        ((ContinuousLinearMap.proj (R := ℝ) (φ := fun _ : Fin 1 => ℝ) 0).comp (ContinuousLinearMap.snd ℝ (Fin 1 → ℝ) (Fin 1 → ℝ))).hasFDerivAt
      refine (h1.sub (h2.pow 2)).congr_fderiv ?_
      ext v <;> simp [matCLM_apply, Matrix.mulVec, dotProduct])
    (fun i k _ _ _ b z _ => smooth _) (fun k _ b => continuousAt_const)
  rw [h1] at h4
  refine ⟨E, fun eps he => ?_⟩
  obtain ⟨N, hN⟩ := h4 eps he
  exact ⟨N, fun U hU => hN (fun _ => U) fun _ => hU⟩

end Pyoptmat.Props
