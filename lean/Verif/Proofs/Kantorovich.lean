import Verif.Proofs.Accuracy
import Verif.Proofs.BlockNewton

/-! Helper lemmas: convergence of the Newton iteration on a backward Euler block. -/

namespace Pyoptmat.Spec

variable {β : Type*} {m : ℕ}

theorem mono_grid {n : ℕ} {t : ℕ → ℝ} (ht : ∀ k < n, t k ≤ t (k + 1)) {i j : ℕ} (hij : i ≤ j) (hj : j ≤ n) : t i ≤ t j := by
  induction j, hij using Nat.le_induction with
  | base => exact le_rfl
  | succ j hij ih => exact (ih (by omega)).trans (ht j (by omega))

/-- a linear implicit recursion started from zero -/
theorem linear_bound {n : ℕ} {t : ℕ → ℝ} (ht : ∀ k < n, t k ≤ t (k + 1)) {nu H rho : ℝ} (hnu : 0 ≤ nu) (hH : t n - t 0 ≤ H) (hnH : nu * H ≤ 1 / 4) (hrho : 0 ≤ rho)
    {A : ℕ → Matrix (Fin m) (Fin m) ℝ} (hA : ∀ k < n, ∀ v, (A k).mulVec v ⬝ᵥ v ≤ nu * (v ⬝ᵥ v)) {r u : ℕ → Fin m → ℝ} (hr : ∀ k < n, l2 (r k) ≤ rho) (h0 : u 0 = 0)
    (hu : ∀ k < n, u (k + 1) = u k + (t (k + 1) - t k) • ((A k).mulVec (u (k + 1)) + r k)) (k : ℕ) (hk : k ≤ n) : l2 (u k) ≤ 2 * H * rho := by
  have hstep : ∀ k < n, t (k + 1) - t k ≤ H := fun k hk => by
    have := mono_grid ht (Nat.zero_le k) hk.le
    have := mono_grid ht (show k + 1 ≤ n by omega) le_rfl
    linarith
  have hH0 : 0 ≤ H := le_trans (sub_nonneg.2 (mono_grid ht (Nat.zero_le n) le_rfl)) hH
  have main := gronwall_implicit (e := fun k => l2 (u k)) (tau := fun k => (t (k + 1) - t k) * rho) (t := t) hnu ht (K := n) (fun k hk => by
      have := mul_le_mul_of_nonneg_left (hstep k hk) hnu
      linarith) (fun k hk => mul_nonneg (sub_nonneg.2 (ht k hk)) hrho) (fun k => l2_nonneg _) (by
      intro k hk
      have one : OneSided (fun v => (A k).mulVec v) nu := by
        intro x y
        rw [← Matrix.mulVec_sub]
        exact hA k hk _
      have hd := sub_nonneg.2 (ht k hk)
      have := implicit_step one hd (x := u (k + 1)) (y := 0) (a := u k) (a' := 0) (d := (t (k + 1) - t k) • r k) (d' := 0)
        (by conv_lhs => rw [hu k hk]
            rw [smul_add]; abel) (by simp)
      rw [sub_zero, sub_zero, sub_zero, l2_smul, abs_of_nonneg hd] at this
      exact this.trans (by have := mul_le_mul_of_nonneg_left (hr k hk) hd; linarith)) k hk
  beta_reduce at main
  rw [h0, l2_zero, zero_add, ← Finset.sum_mul, Finset.sum_range_sub t] at main
  have hk0 := sub_nonneg.2 (mono_grid ht (Nat.zero_le k) hk)
  have hkH : t k - t 0 ≤ H := by
    have := mono_grid ht hk le_rfl
    linarith
  have he : Real.exp (2 * nu * (t k - t 0)) ≤ 2 := by
    have h1 : 2 * nu * (t k - t 0) ≤ 1 / 2 := by
      have := mul_le_mul_of_nonneg_left hkH hnu
      linarith
    have h2 := inv_le_exp (x := 1 / 4) (by norm_num) (by norm_num)
    have h3 : Real.exp (1 / 2 : ℝ) ≤ 2 := by
      have h4 : (1 - 1 / 2 : ℝ) ≤ Real.exp (-(1 / 2)) := by have := Real.add_one_le_exp (-(1 / 2) : ℝ); linarith
      rw [Real.exp_neg] at h4
      have h5 := Real.exp_pos (1 / 2 : ℝ)
      rw [le_inv_comm₀ (by norm_num) h5] at h4
      linarith
    exact (Real.exp_le_exp.2 h1).trans h3
  refine main.trans ?_
  have h1 : (t k - t 0) * rho ≤ H * rho := mul_le_mul_of_nonneg_right hkH hrho
  have h2 := mul_nonneg hk0 hrho
  nlinarith [Real.exp_pos (2 * nu * (t k - t 0))]

/-- Kantorovich: the Newton iterates of an implicit block, started from the constant guess -/
theorem newton_rows {n : ℕ} {t : ℕ → β → ℝ} {yS : β → Fin m → ℝ} {F nu K H r : ℝ} (ht : ∀ b, ∀ k < n, t k b ≤ t (k + 1) b) (hnu : 0 ≤ nu) (hF : 0 ≤ F) (hK : 0 ≤ K) (hH0 : 0 ≤ H)
    (hH : ∀ b, t n b - t 0 b ≤ H) (hnH : nu * H ≤ 1 / 4) (hq : 4 * H ^ 2 * F * K ≤ 1) (hr : 4 * H * F ≤ r)
    {g : β → ℕ → (Fin m → ℝ) → Fin m → ℝ} {J : β → ℕ → (Fin m → ℝ) → Matrix (Fin m) (Fin m) ℝ}
    (hb : ∀ b, ∀ k < n, RateBounds (g b (k + 1)) (J b (k + 1)) {y | l2 (y - yS b) ≤ r} F nu K)
    {x : ℕ → ℕ → β → Fin m → ℝ} (hx0 : ∀ k b, x 0 k b = yS b) (hx : ∀ j b, x j 0 b = yS b)
    (hrec : ∀ j, (∀ b, ∀ k < n, l2 (x j (k + 1) b - yS b) ≤ r) → ∀ b, ∀ k < n, x (j + 1) (k + 1) b - x (j + 1) k b =
      (t (k + 1) b - t k b) • (g b (k + 1) (x j (k + 1) b) + (J b (k + 1) (x j (k + 1) b)).mulVec (x (j + 1) (k + 1) b - x j (k + 1) b))) :
    ∀ j, (∀ b, ∀ k ≤ n, l2 (x j k b - yS b) ≤ 2 * H * F * (2 - 2 * (1 / 2) ^ j)) ∧ (∀ b, ∀ k ≤ n, l2 (x (j + 1) k b - x j k b) ≤ 2 * H * F * (1 / 2) ^ (2 ^ j - 1)) := by
  have hD : 0 ≤ 2 * H * F := by positivity
  have ball : ∀ j b k, l2 (x j k b - yS b) ≤ 2 * H * F * (2 - 2 * (1 / 2) ^ j) → l2 (x j k b - yS b) ≤ r := by
    intro j b k h
    refine h.trans (le_trans ?_ hr)
    have : (0 : ℝ) ≤ (1 / 2) ^ j := by positivity
    nlinarith [mul_nonneg hD this]
  have pw : ∀ j : ℕ, ((1 : ℝ) / 2) ^ (2 ^ j - 1) ≤ (1 / 2) ^ j := by
    intro j
    refine pow_le_pow_of_le_one (by norm_num) (by norm_num) ?_
    have := Nat.lt_two_pow_self (n := j)
    omega
  intro j
  induction j with
  | zero =>
    have h1 : ∀ b, ∀ k ≤ n, l2 (x 0 k b - yS b) ≤ 2 * H * F * (2 - 2 * (1 / 2) ^ 0) := by
      intro b k _
      rw [hx0, sub_self, l2_zero]; norm_num
    refine ⟨h1, fun b k hk => ?_⟩
    have hrec0 := hrec 0 (fun b k hk => ball 0 b (k + 1) (h1 b (k + 1) (by omega)))
    have hs : yS b ∈ {y | l2 (y - yS b) ≤ r} := by
      have := ball 0 b 0 (h1 b 0 (by omega))
      rw [hx0] at this; exact this
    have := linear_bound (ht b) hnu (hH b) hnH hF (A := fun k => J b (k + 1) (x 0 (k + 1) b)) (r := fun k => g b (k + 1) (x 0 (k + 1) b)) (u := fun k => x 1 k b - x 0 k b)
      (fun k hk => by rw [hx0]; exact (hb b k hk).jac _ hs) (fun k hk => by rw [hx0]; exact (hb b k hk).bound _ hs) (by rw [hx, hx, sub_self]) (fun k hk => by
        have e := hrec0 b k hk
        rw [zero_add] at e
        beta_reduce
        rw [hx0 k b, ← hx0 (k + 1) b, add_comm ((J b (k + 1) (x 0 (k + 1) b)).mulVec _), ← e]
        abel) k hk
    beta_reduce at this
    simpa using this
  | succ j ih =>
    obtain ⟨i1, i2⟩ := ih
    have h1 : ∀ b, ∀ k ≤ n, l2 (x (j + 1) k b - yS b) ≤ 2 * H * F * (2 - 2 * (1 / 2) ^ (j + 1)) := by
      intro b k hk
      have e : x (j + 1) k b - yS b = (x (j + 1) k b - x j k b) + (x j k b - yS b) := by abel
      rw [e]
      refine (l2_add_le _ _).trans ?_
      have a1 := i1 b k hk
      have a2 := (i2 b k hk).trans (mul_le_mul_of_nonneg_left (pw j) hD)
      rw [pow_succ]
      nlinarith
    refine ⟨h1, fun b k hk => ?_⟩
    have hrecj := hrec j (fun b k hk => ball j b (k + 1) (i1 b (k + 1) (by omega)))
    have hrecj' := hrec (j + 1) (fun b k hk => ball (j + 1) b (k + 1) (h1 b (k + 1) (by omega)))
    set d : ℝ := 2 * H * F * (1 / 2) ^ (2 ^ j - 1) with hd
    have hd0 : 0 ≤ d := by positivity
    have := linear_bound (ht b) hnu (hH b) hnH (rho := K / 2 * d ^ 2) (by positivity) (A := fun k => J b (k + 1) (x (j + 1) (k + 1) b))
      (r := fun k => g b (k + 1) (x (j + 1) (k + 1) b) - g b (k + 1) (x j (k + 1) b) - (J b (k + 1) (x j (k + 1) b)).mulVec (x (j + 1) (k + 1) b - x j (k + 1) b))
      (u := fun k => x (j + 1 + 1) k b - x (j + 1) k b) (fun k hk => (hb b k hk).jac _ (ball (j + 1) b _ (h1 b _ (by omega)))) (fun k hk => by
        refine ((hb b k hk).quad _ (ball j b _ (i1 b _ (by omega))) _ (ball (j + 1) b _ (h1 b _ (by omega)))).trans ?_
        refine mul_le_mul_of_nonneg_left ?_ (by positivity)
        exact pow_le_pow_left₀ (l2_nonneg _) (i2 b _ (by omega)) 2) (by rw [hx, hx, sub_self]) (fun k hk => by
        have e1 := hrecj b k hk
        have e2 := hrecj' b k hk
        beta_reduce
        have e3 : x (j + 1 + 1) (k + 1) b - x (j + 1) (k + 1) b = (x (j + 1 + 1) k b - x (j + 1) k b) + ((x (j + 1 + 1) (k + 1) b - x (j + 1 + 1) k b) - (x (j + 1) (k + 1) b - x (j + 1) k b)) := by abel
        rw [e2, e1, ← smul_sub] at e3
        refine e3.trans ?_
        congr 2
        abel) k hk
    beta_reduce at this
    refine this.trans ?_
    have hpow : (2 : ℕ) ^ (j + 1) - 1 = (2 ^ j - 1) + (2 ^ j - 1) + 1 := by
      have := Nat.one_le_two_pow (n := j)
      rw [pow_succ]; omega
    rw [hpow, pow_add _ (2 ^ j - 1 + (2 ^ j - 1)) 1, pow_add _ (2 ^ j - 1) (2 ^ j - 1), pow_one]
    have e : 2 * H * (K / 2 * d ^ 2) = (4 * H ^ 2 * F * K) * (H * F * ((1 / 2) ^ (2 ^ j - 1) * (1 / 2) ^ (2 ^ j - 1))) := by
      rw [hd]; ring
    rw [e]
    have hp : 0 ≤ H * F * (((1 : ℝ) / 2) ^ (2 ^ j - 1) * (1 / 2) ^ (2 ^ j - 1)) := by positivity
    have := mul_le_mul_of_nonneg_right hq hp
    linarith

/-- what is left of each step after another update -/
theorem newton_rows_defect {n : ℕ} {t : ℕ → β → ℝ} {yS : β → Fin m → ℝ} {F nu K H r : ℝ} (ht : ∀ b, ∀ k < n, t k b ≤ t (k + 1) b) (hnu : 0 ≤ nu) (hF : 0 ≤ F) (hK : 0 ≤ K) (hH0 : 0 ≤ H)
    (hH : ∀ b, t n b - t 0 b ≤ H) (hnH : nu * H ≤ 1 / 4) (hq : 4 * H ^ 2 * F * K ≤ 1) (hr : 4 * H * F ≤ r)
    {g : β → ℕ → (Fin m → ℝ) → Fin m → ℝ} {J : β → ℕ → (Fin m → ℝ) → Matrix (Fin m) (Fin m) ℝ}
    (hb : ∀ b, ∀ k < n, RateBounds (g b (k + 1)) (J b (k + 1)) {y | l2 (y - yS b) ≤ r} F nu K)
    {x : ℕ → ℕ → β → Fin m → ℝ} (hx0 : ∀ k b, x 0 k b = yS b) (hx : ∀ j b, x j 0 b = yS b)
    (hrec : ∀ j, (∀ b, ∀ k < n, l2 (x j (k + 1) b - yS b) ≤ r) → ∀ b, ∀ k < n, x (j + 1) (k + 1) b - x (j + 1) k b =
      (t (k + 1) b - t k b) • (g b (k + 1) (x j (k + 1) b) + (J b (k + 1) (x j (k + 1) b)).mulVec (x (j + 1) (k + 1) b - x j (k + 1) b))) (j : ℕ) (b : β) (k : ℕ) (hk : k < n) :
    l2 (x (j + 1) (k + 1) b - x (j + 1) k b - (t (k + 1) b - t k b) • g b (k + 1) (x (j + 1) (k + 1) b)) ≤
      (t (k + 1) b - t k b) * (2 * K * (H * F) ^ 2 * (1 / 4) ^ (2 ^ j - 1)) := by
  have main := newton_rows ht hnu hF hK hH0 hH hnH hq hr hb hx0 hx hrec
  have ball : ∀ j b, ∀ k ≤ n, l2 (x j k b - yS b) ≤ r := by
    intro j b k hk
    refine ((main j).1 b k hk).trans (le_trans ?_ hr)
    have : (0 : ℝ) ≤ (1 / 2) ^ j := by positivity
    nlinarith [mul_nonneg (mul_nonneg hH0 hF) this]
  rw [hrec j (fun b k hk => ball j b (k + 1) (by omega)) b k hk, ← smul_sub, l2_smul, abs_of_nonneg (sub_nonneg.2 (ht b k hk))]
  refine mul_le_mul_of_nonneg_left ?_ (sub_nonneg.2 (ht b k hk))
  have q := (hb b k hk).quad _ (ball j b (k + 1) (by omega)) _ (ball (j + 1) b (k + 1) (by omega))
  rw [l2_sub_comm, add_comm (g b (k + 1) _), ← sub_sub, sub_right_comm]
  refine q.trans ?_
  have d := pow_le_pow_left₀ (l2_nonneg _) ((main j).2 b (k + 1) (by omega)) 2
  have := mul_le_mul_of_nonneg_left d (by positivity : 0 ≤ K / 2)
  refine this.trans (le_of_eq ?_)
  have e : ((1 : ℝ) / 4) ^ (2 ^ j - 1) = ((1 / 2) ^ (2 ^ j - 1)) ^ 2 := by
    rw [← pow_mul, mul_comm, pow_mul]; norm_num
  rw [e]; ring

end Pyoptmat.Spec

namespace Pyoptmat.Ode

open Pyoptmat.Chunktime Pyoptmat.Newton Pyoptmat.Spec

variable {β : Type*} {m : ℕ}

/-- the step matrix is invertible -/
theorem step_det_unit {A : Matrix (Fin m) (Fin m) ℝ} {nu h : ℝ} (hh : 0 ≤ h) (hnh : nu * h < 1) (hA : ∀ v, A.mulVec v ⬝ᵥ v ≤ nu * (v ⬝ᵥ v)) : IsUnit (1 - h • A).det := by
  rw [← Matrix.isUnit_iff_isUnit_det, ← Matrix.mulVec_injective_iff_isUnit]
  intro v w hvw
  have h0 : (1 - h • A).mulVec (v - w) = 0 := by
    rw [Matrix.mulVec_sub]; exact sub_eq_zero.2 hvw
  rw [Matrix.sub_mulVec, Matrix.one_mulVec, Matrix.smul_mulVec] at h0
  have h1 : (v - w) ⬝ᵥ (v - w) = h * (A.mulVec (v - w) ⬝ᵥ (v - w)) := by
    conv_lhs => lhs; rw [sub_eq_zero.1 h0]
    rw [smul_dotProduct, smul_eq_mul]
  have h2 := mul_le_mul_of_nonneg_left (hA (v - w)) hh
  rw [l2_sq] at h1 h2
  have h3 : (1 - nu * h) * l2 (v - w) ^ 2 ≤ 0 := by linarith
  have h4 : l2 (v - w) ^ 2 ≤ 0 := by
    by_contra hc
    push Not at hc
    have := mul_pos (sub_pos.2 hnh) hc
    linarith
  have h5 : l2 (v - w) ≤ 0 := by
    by_contra hc
    push Not at hc
    have := pow_pos hc 2
    linarith
  exact sub_eq_zero.1 (l2_eq_zero h5)

/-- one Newton update on a backward Euler block, row by row -/
theorem be_newton_update (f : Func β m) {n : ℕ} (hn : 0 < n) (T : Fin n → β → ℝ) (tStart : β → ℝ) (yStart : BVec β m ℝ) (meth : SolveMethod) (x : β → Fin (n * m) → ℝ)
    (hA : ∀ (k : Fin n) b, IsUnit (1 - diff (stack tStart T) k b • (f b (stack tStart T k.succ b) (unflatten x k b + yStart b)).2).det) (k : Fin n) (b : β) :
    let x' := x - solve meth (blockRJ .backwardEuler f T tStart yStart x).2 (blockRJ .backwardEuler f T tStart yStart x).1
    unflatten x' k b - (stack 0 (unflatten x') : Fin (n + 1) → BVec β m ℝ) k.castSucc b =
      diff (stack tStart T) k b • ((f b (stack tStart T k.succ b) (unflatten x k b + yStart b)).1 +
        (f b (stack tStart T k.succ b) (unflatten x k b + yStart b)).2.mulVec (unflatten x' k b - unflatten x k b)) := by
  intro x'
  set dx := solve meth (blockRJ .backwardEuler f T tStart yStart x).2 (blockRJ .backwardEuler f T tStart yStart x).1 with hdx
  have hc := newton_correction .backwardEuler hn meth (stack 0 (unflatten x))
      (fun k b => (f b (stack tStart T k b) ((stack 0 (unflatten x) : Fin (n + 1) → BVec β m ℝ) k b + yStart b)).1)
      (fun k b => (f b (stack tStart T k b) ((stack 0 (unflatten x) : Fin (n + 1) → BVec β m ℝ) k b + yStart b)).2)
      (diff (stack tStart T)) hA k b
  have hc' : (-1 : Matrix (Fin m) (Fin m) ℝ).mulVec ((stack 0 (unflatten dx) : Fin (n + 1) → BVec β m ℝ) k.castSucc b) +
      (1 - diff (stack tStart T) k b • (f b (stack tStart T k.succ b) (unflatten x k b + yStart b)).2).mulVec (unflatten dx k b) =
      unflatten (blockRJ .backwardEuler f T tStart yStart x).1 k b := hc
  rw [be_residual] at hc'
  have h2 : unflatten x' k b = unflatten x k b - unflatten dx k b := rfl
  have h3 : unflatten x' k b - unflatten x k b = -unflatten dx k b := by rw [h2]; abel
  rw [stack_unflatten_sub, h3, h2, Matrix.mulVec_neg]
  simp only [Matrix.neg_mulVec, Matrix.one_mulVec, Matrix.sub_mulVec, Matrix.smul_mulVec] at hc'
  simp only [Pi.sub_apply, smul_add, smul_neg]
  have e := sub_eq_zero.2 hc'
  rw [← sub_eq_zero, ← neg_eq_zero, ← e]
  abel

/-- the states of a block: the start state and the rows -/
def blockRows {n : ℕ} (yS : BVec β m ℝ) (z : β → Fin (n * m) → ℝ) (k : ℕ) (b : β) : Fin m → ℝ :=
  if h : k < n + 1 then (stack 0 (unflatten z) : Fin (n + 1) → BVec β m ℝ) ⟨k, h⟩ b + yS b else yS b

theorem blockRows_zero {n : ℕ} (yS : BVec β m ℝ) (z : β → Fin (n * m) → ℝ) (b : β) : blockRows yS z 0 b = yS b := by
  unfold blockRows
  rw [dif_pos (by omega)]
  simp [stack]

theorem blockRows_succ {n : ℕ} (yS : BVec β m ℝ) (z : β → Fin (n * m) → ℝ) (b : β) (k : Fin n) : blockRows yS z (k.val + 1) b = unflatten z k b + yS b := by
  unfold blockRows
  rw [dif_pos (by omega)]
  rfl

theorem blockRows_guess {n : ℕ} (yS : BVec β m ℝ) (k : ℕ) (b : β) : blockRows yS (0 : β → Fin (n * m) → ℝ) k b = yS b := by
  unfold blockRows
  split_ifs with h
  · have : (stack 0 (unflatten (0 : β → Fin (n * m) → ℝ)) : Fin (n + 1) → BVec β m ℝ) ⟨k, h⟩ b = 0 := by
      refine Fin.cases ?_ (fun k => ?_) (⟨k, h⟩ : Fin (n + 1))
      · simp [stack]
      · simp only [stack, Fin.cons_succ]; rfl
    rw [this, zero_add]
  · rfl

section
variable {f : Func β m} {n : ℕ} {t : ℕ → β → ℝ} {yS : BVec β m ℝ} {F nu K H r : ℝ}

/-- the hypotheses on one block -/
structure BlockHyp (f : Func β m) (n : ℕ) (t : ℕ → β → ℝ) (yS : BVec β m ℝ) (F nu K H r : ℝ) : Prop where
  n0 : 0 < n
  ht : ∀ b, ∀ k < n, t k b ≤ t (k + 1) b
  hnu : 0 ≤ nu
  hF : 0 ≤ F
  hK : 0 ≤ K
  hH0 : 0 ≤ H
  hH : ∀ b, t n b - t 0 b ≤ H
  hnH : nu * H ≤ 1 / 4
  hq : 4 * H ^ 2 * F * K ≤ 1
  hr : 4 * H * F ≤ r
  hb : ∀ b, ∀ k < n, RateBounds (fun y => (f b (t (k + 1) b) y).1) (fun y => (f b (t (k + 1) b) y).2) {y | l2 (y - yS b) ≤ r} F nu K

theorem stack_times (n : ℕ) (t : ℕ → β → ℝ) (k : Fin (n + 1)) : (stack (t 0) (fun j : Fin n => t (j.val + 1)) : Fin (n + 1) → β → ℝ) k = t k.val := by
  refine Fin.cases ?_ (fun k => ?_) k
  · simp [stack]
  · simp [stack, Fin.cons_succ]

/-- the Newton iterates of the block -/
noncomputable def iter (f : Func β m) (n : ℕ) (t : ℕ → β → ℝ) (yS : BVec β m ℝ) (meth : SolveMethod) (j : ℕ) : β → Fin (n * m) → ℝ :=
  newtonIterate (blockRJ .backwardEuler f (fun j : Fin n => t (j.val + 1)) (t 0) yS) (fun J R => solve meth J R) (fun x dx => x - dx) 0 j

theorem BlockHyp.recursion (h : BlockHyp f n t yS F nu K H r) (meth : SolveMethod) (j : ℕ) (hj : ∀ b, ∀ k < n, l2 (blockRows yS (iter f n t yS meth j) (k + 1) b - yS b) ≤ r) (b : β) (k : ℕ)
    (hk : k < n) : blockRows yS (iter f n t yS meth (j + 1)) (k + 1) b - blockRows yS (iter f n t yS meth (j + 1)) k b =
      (t (k + 1) b - t k b) • ((f b (t (k + 1) b) (blockRows yS (iter f n t yS meth j) (k + 1) b)).1 +
        (f b (t (k + 1) b) (blockRows yS (iter f n t yS meth j) (k + 1) b)).2.mulVec (blockRows yS (iter f n t yS meth (j + 1)) (k + 1) b - blockRows yS (iter f n t yS meth j) (k + 1) b)) := by
  have hd : ∀ (k : Fin n) b, diff (stack (t 0) (fun j : Fin n => t (j.val + 1))) k b = t (k.val + 1) b - t k.val b := by
    intro k b
    unfold diff
    rw [stack_times, stack_times, Fin.val_succ, Fin.val_castSucc]
  have hm : ∀ b, ∀ k < n, t (k + 1) b - t k b ≤ H := fun b k hk => by
    have h1 := mono_grid (h.ht b) (Nat.zero_le k) hk.le
    have h2 := mono_grid (h.ht b) (show k + 1 ≤ n by omega) le_rfl
    have := h.hH b
    linarith
  have main := be_newton_update f h.n0 (fun j : Fin n => t (j.val + 1)) (t 0) yS meth (iter f n t yS meth j) (by
    intro k b
    rw [hd, stack_times, Fin.val_succ, ← blockRows_succ]
    refine step_det_unit (nu := nu) (sub_nonneg.2 (h.ht b k k.2)) ?_ ((h.hb b k k.2).jac _ (hj b k k.2))
    have := mul_le_mul_of_nonneg_left (hm b k k.2) h.hnu
    have := h.hnH
    linarith) ⟨k, hk⟩ b
  have e : iter f n t yS meth (j + 1) = iter f n t yS meth j - solve meth (blockRJ .backwardEuler f (fun j : Fin n => t (j.val + 1)) (t 0) yS (iter f n t yS meth j)).2
      (blockRJ .backwardEuler f (fun j : Fin n => t (j.val + 1)) (t 0) yS (iter f n t yS meth j)).1 := by
    unfold iter newtonIterate
    rw [Function.iterate_succ_apply']
  simp only [← e] at main
  rw [hd, stack_times, Fin.val_succ] at main
  have r1 := blockRows_succ yS (iter f n t yS meth (j + 1)) b ⟨k, hk⟩
  have r2 := blockRows_succ yS (iter f n t yS meth j) b ⟨k, hk⟩
  simp only at r1 r2 main
  rw [r1, r2]
  have r3 : blockRows yS (iter f n t yS meth (j + 1)) k b = (stack 0 (unflatten (iter f n t yS meth (j + 1))) : Fin (n + 1) → BVec β m ℝ) (Fin.castSucc ⟨k, hk⟩) b + yS b := by
    unfold blockRows
    rw [dif_pos (by omega)]
    rfl
  rw [r3, add_sub_add_right_eq_sub, add_sub_add_right_eq_sub]
  exact main

theorem BlockHyp.close (h : BlockHyp f n t yS F nu K H r) (meth : SolveMethod) (j : ℕ) (b : β) (k : ℕ) (hk : k ≤ n) :
    l2 (blockRows yS (iter f n t yS meth j) k b - yS b) ≤ 4 * H * F ∧
    l2 (blockRows yS (iter f n t yS meth (j + 1)) k b - blockRows yS (iter f n t yS meth j) k b) ≤ 2 * H * F * (1 / 2) ^ (2 ^ j - 1) := by
  have main := newton_rows h.ht h.hnu h.hF h.hK h.hH0 h.hH h.hnH h.hq h.hr (g := fun b k y => (f b (t k b) y).1) (J := fun b k y => (f b (t k b) y).2) h.hb
    (x := fun j k b => blockRows yS (iter f n t yS meth j) k b) (fun k b => blockRows_guess yS k b) (fun j b => blockRows_zero yS _ b) (fun j hj b k hk => h.recursion meth j hj b k hk) j
  refine ⟨(main.1 b k hk).trans ?_, main.2 b k hk⟩
  have : (0 : ℝ) ≤ (1 / 2) ^ j := by positivity
  nlinarith [mul_nonneg (mul_nonneg h.hH0 h.hF) this]

theorem BlockHyp.defect_le (h : BlockHyp f n t yS F nu K H r) (meth : SolveMethod) (j : ℕ) (b : β) (k : Fin n) :
    l2 (unflatten (blockRJ .backwardEuler f (fun j : Fin n => t (j.val + 1)) (t 0) yS (iter f n t yS meth (j + 1))).1 k b) ≤ (t (k.val + 1) b - t k.val b) * (2 * K * (H * F) ^ 2 * (1 / 4) ^ (2 ^ j - 1)) := by
  have main := newton_rows_defect h.ht h.hnu h.hF h.hK h.hH0 h.hH h.hnH h.hq h.hr (g := fun b k y => (f b (t k b) y).1) (J := fun b k y => (f b (t k b) y).2) h.hb
    (x := fun j k b => blockRows yS (iter f n t yS meth j) k b) (fun k b => blockRows_guess yS k b) (fun j b => blockRows_zero yS _ b) (fun j hj b k hk => h.recursion meth j hj b k hk) j b k k.2
  have key := blockRJ_residual .backwardEuler f (fun j : Fin n => t (j.val + 1)) (t 0) yS (iter f n t yS meth (j + 1)) t (fun k => blockRows yS (iter f n t yS meth (j + 1)) k) 0 rfl
    (by funext b; exact blockRows_zero yS _ b) (fun j => by rw [Nat.zero_add, Nat.add_comm 1 j.val]) (fun j => by
      funext b
      rw [Nat.zero_add, Nat.add_comm 1 j.val]
      exact blockRows_succ yS _ b j) k b
  rw [key]
  simp only [defect, backwardDefect, Nat.zero_add]
  exact main

end

end Pyoptmat.Ode
