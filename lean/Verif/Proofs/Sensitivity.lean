import Verif.Proofs.Accuracy
import Verif.Spec.Sensitivity
import Mathlib.Analysis.Calculus.Deriv.MeanValue
import Mathlib.Analysis.Calculus.Deriv.Slope
import Mathlib.Analysis.Calculus.Deriv.Prod
import Mathlib.Analysis.SpecialFunctions.ExpDeriv

/-!
# Sensitivities of exact solutions

Energy estimate for one-sided Lipschitz equations, and the theorem that the solution of the variational equation is the derivative of the solution with respect to parameters and initial state.
-/

namespace Pyoptmat.Spec

open Filter Topology

variable {m p : ℕ}

theorem abs_le_l2 (v : Fin m → ℝ) (i : Fin m) : |v i| ≤ l2 v := by
  unfold l2
  rw [← Real.sqrt_sq_eq_abs]
  exact Real.sqrt_le_sqrt (Finset.single_le_sum (f := fun i => v i ^ 2) (fun i _ => sq_nonneg _) (Finset.mem_univ i))

theorem norm_le_l2 (v : Fin m → ℝ) : ‖v‖ ≤ l2 v :=
  (pi_norm_le_iff_of_nonneg (l2_nonneg v)).2 fun i => abs_le_l2 v i

theorem le_of_sq_le_sq' {a b : ℝ} (h : a ^ 2 ≤ b ^ 2) (hb : 0 ≤ b) : a ≤ b := (abs_le_of_sq_le_sq' h hb).2

/-- the derivative of a one-sided Lipschitz function is one-sided -/
theorem oneSided_dir {f : (Fin m → ℝ) → Fin m → ℝ} {nu : ℝ} (hf : OneSided f nu) {y z w : Fin m → ℝ} (h : HasDerivAt (fun τ : ℝ => f (y + τ • z)) w 0) : w ⬝ᵥ z ≤ nu * (z ⬝ᵥ z) := by
  have h1 : HasDerivAt (fun τ : ℝ => f (y + τ • z) ⬝ᵥ z) (w ⬝ᵥ z) 0 := by
    have := HasDerivAt.fun_sum (u := Finset.univ) fun i _ => ((hasDerivAt_pi.1 h) i).mul_const (z i)
    exact this
  have h2 := h1.tendsto_slope_zero_right
  refine le_of_tendsto h2 ?_
  filter_upwards [self_mem_nhdsWithin] with τ hτ
  have hτ : 0 < τ := hτ
  have h3 := hf (y + τ • z) y
  simp only [zero_add, zero_smul, add_zero, add_sub_cancel_left, dotProduct_smul, smul_dotProduct, smul_eq_mul] at h3 ⊢
  rw [sub_dotProduct] at h3
  rw [inv_mul_le_iff₀ hτ]
  nlinarith [h3]

/-- one step of the energy estimate -/
theorem energy_step {W W' : ℝ → Fin m → ℝ} {a b nu e : ℝ} (hnu : 0 ≤ nu) (hab : a ≤ b) (hc : ContinuousOn W (Set.Icc a b)) (hd : ∀ s ∈ Set.Ioo a b, HasDerivAt W (W' s) s)
    (hW : ∀ s ∈ Set.Ioo a b, W' s ⬝ᵥ W s ≤ nu * (W s ⬝ᵥ W s) + e * l2 (W s)) :
    l2 (W b) ^ 2 ≤ Real.exp ((2 * nu + 1) * (b - a)) * (l2 (W a) ^ 2 + e ^ 2 * (b - a)) := by
  let φ : ℝ → ℝ := fun s => Real.exp (-((2 * nu + 1) * (s - a))) * (W s ⬝ᵥ W s) - e ^ 2 * (s - a)
  have hcu : ContinuousOn (fun s => W s ⬝ᵥ W s) (Set.Icc a b) := by
    unfold dotProduct
    exact continuousOn_finset_sum _ fun i _ => (continuousOn_pi.1 hc i).mul (continuousOn_pi.1 hc i)
  have hφc : ContinuousOn φ (Set.Icc a b) := by
    refine ContinuousOn.sub (ContinuousOn.mul (Continuous.continuousOn (by fun_prop)) hcu) (Continuous.continuousOn (by fun_prop))
  have hφd : ∀ s ∈ Set.Ioo a b, HasDerivAt φ (-(2 * nu + 1) * Real.exp (-((2 * nu + 1) * (s - a))) * (W s ⬝ᵥ W s) + Real.exp (-((2 * nu + 1) * (s - a))) * (2 * (W' s ⬝ᵥ W s)) - e ^ 2) s := by
    intro s hs
    have h1 : HasDerivAt (fun s => W s ⬝ᵥ W s) (2 * (W' s ⬝ᵥ W s)) s := by
      have := HasDerivAt.fun_sum (u := Finset.univ) fun i _ => ((hasDerivAt_pi.1 (hd s hs)) i).mul ((hasDerivAt_pi.1 (hd s hs)) i)
      refine this.congr_deriv ?_
      simp only [dotProduct, Finset.mul_sum]
      exact Finset.sum_congr rfl fun i _ => by ring
    have h2 : HasDerivAt (fun s : ℝ => -((2 * nu + 1) * (s - a))) (-(2 * nu + 1)) s := by
      have := (((hasDerivAt_id s).sub_const a).const_mul (2 * nu + 1)).neg
      refine this.congr_deriv ?_
      ring
    have h3 := (h2.exp.mul h1).sub (((hasDerivAt_id s).sub_const a).const_mul (e ^ 2))
    refine h3.congr_deriv ?_
    ring
  have hle : φ b ≤ φ a := by
    refine antitoneOn_of_deriv_nonpos (convex_Icc a b) hφc (fun s hs => ?_) (fun s hs => ?_) (Set.left_mem_Icc.2 hab) (Set.right_mem_Icc.2 hab) hab
    · rw [interior_Icc] at hs
      exact (hφd s hs).differentiableAt.differentiableWithinAt
    · rw [interior_Icc] at hs
      rw [(hφd s hs).deriv]
      have h1 := hW s hs
      rw [l2_sq] at h1 ⊢
      have h2 : 0 < Real.exp (-((2 * nu + 1) * (s - a))) := Real.exp_pos _
      have h3 : Real.exp (-((2 * nu + 1) * (s - a))) ≤ 1 := by
        rw [Real.exp_le_one_iff]
        have := hs.1
        nlinarith
      have h4 : 2 * (W' s ⬝ᵥ W s) - (2 * nu + 1) * l2 (W s) ^ 2 ≤ e ^ 2 := by nlinarith [sq_nonneg (e - l2 (W s))]
      have h5 := mul_le_mul_of_nonneg_left h4 h2.le
      have h6 := mul_le_mul_of_nonneg_right h3 (sq_nonneg e)
      nlinarith
  simp only [φ, sub_self, mul_zero, neg_zero, Real.exp_zero, one_mul, sub_zero] at hle
  rw [l2_sq, l2_sq] at hle
  have h1 : l2 (W b) ^ 2 = Real.exp ((2 * nu + 1) * (b - a)) * (Real.exp (-((2 * nu + 1) * (b - a))) * l2 (W b) ^ 2) := by
    rw [← mul_assoc, ← Real.exp_add, add_neg_cancel, Real.exp_zero, one_mul]
  rw [h1]
  exact mul_le_mul_of_nonneg_left (by linarith) (Real.exp_pos _).le

/-- the energy estimate over the grid -/
theorem energy_grid {W W' : ℝ → Fin m → ℝ} {K : ℕ} {t : ℕ → ℝ} {nu e : ℝ} (hnu : 0 ≤ nu) (ht : ∀ k < K, t k ≤ t (k + 1)) (hc : ContinuousOn W (Set.Icc (t 0) (t K)))
    (hd : ∀ k < K, ∀ s ∈ Set.Ioo (t k) (t (k + 1)), HasDerivAt W (W' s) s)
    (hW : ∀ k < K, ∀ s ∈ Set.Ioo (t k) (t (k + 1)), W' s ⬝ᵥ W s ≤ nu * (W s ⬝ᵥ W s) + e * l2 (W s)) :
    (∀ k < K, ∀ s ∈ Set.Icc (t k) (t (k + 1)), l2 (W s) ^ 2 ≤ Real.exp ((2 * nu + 1) * (t K - t 0)) * (l2 (W (t 0)) ^ 2 + e ^ 2 * (t K - t 0))) ∧
      ∀ k ≤ K, l2 (W (t k)) ^ 2 ≤ Real.exp ((2 * nu + 1) * (t K - t 0)) * (l2 (W (t 0)) ^ 2 + e ^ 2 * (t K - t 0)) := by
  have hmono : ∀ i j, i ≤ j → j ≤ K → t i ≤ t j := by
    intro i j hij
    induction j, hij using Nat.le_induction with
    | base => exact fun _ => le_rfl
    | succ j hij ih => exact fun hj => (ih (by omega)).trans (ht j (by omega))
  have hstep : ∀ k < K, ∀ s ∈ Set.Icc (t k) (t (k + 1)), l2 (W (t k)) ^ 2 ≤ Real.exp ((2 * nu + 1) * (t k - t 0)) * (l2 (W (t 0)) ^ 2 + e ^ 2 * (t k - t 0)) →
      l2 (W s) ^ 2 ≤ Real.exp ((2 * nu + 1) * (s - t 0)) * (l2 (W (t 0)) ^ 2 + e ^ 2 * (s - t 0)) := by
    intro k hk s hs ih
    have h1 := energy_step (W := W) (W' := W') (e := e) hnu hs.1 (hc.mono (Set.Icc_subset_Icc (hmono 0 k (by omega) hk.le) (hs.2.trans (hmono (k + 1) K hk le_rfl))))
      (fun x hx => hd k hk x ⟨hx.1, hx.2.trans_le hs.2⟩) (fun x hx => hW k hk x ⟨hx.1, hx.2.trans_le hs.2⟩)
    have h0 := hmono 0 k (by omega) hk.le
    have h2 : 1 ≤ Real.exp ((2 * nu + 1) * (t k - t 0)) := Real.one_le_exp (by nlinarith)
    have e1 : Real.exp ((2 * nu + 1) * (s - t 0)) = Real.exp ((2 * nu + 1) * (s - t k)) * Real.exp ((2 * nu + 1) * (t k - t 0)) := by
      rw [← Real.exp_add]
      congr 1
      ring
    rw [e1, mul_assoc]
    refine h1.trans (mul_le_mul_of_nonneg_left ?_ (Real.exp_pos _).le)
    have h3 : 0 ≤ e ^ 2 * (s - t k) := mul_nonneg (sq_nonneg _) (by linarith [hs.1])
    nlinarith
  have hgrid : ∀ k ≤ K, l2 (W (t k)) ^ 2 ≤ Real.exp ((2 * nu + 1) * (t k - t 0)) * (l2 (W (t 0)) ^ 2 + e ^ 2 * (t k - t 0)) := by
    intro k
    induction k with
    | zero => intro _; simp
    | succ k ih => exact fun hk => hstep k (by omega) (t (k + 1)) (Set.right_mem_Icc.2 (ht k (by omega))) (ih (by omega))
  have hup : ∀ s, s ≤ t K → t 0 ≤ s → Real.exp ((2 * nu + 1) * (s - t 0)) * (l2 (W (t 0)) ^ 2 + e ^ 2 * (s - t 0)) ≤
      Real.exp ((2 * nu + 1) * (t K - t 0)) * (l2 (W (t 0)) ^ 2 + e ^ 2 * (t K - t 0)) := by
    intro s h1 h2
    refine mul_le_mul (Real.exp_le_exp.2 (mul_le_mul_of_nonneg_left (by linarith) (by linarith))) ?_ ?_ (Real.exp_pos _).le
    · nlinarith [sq_nonneg e]
    · exact add_nonneg (sq_nonneg _) (mul_nonneg (sq_nonneg _) (by linarith))
  exact ⟨fun k hk s hs => (hstep k hk s hs (hgrid k hk.le)).trans (hup s (hs.2.trans (hmono (k + 1) K hk le_rfl)) ((hmono 0 k (by omega) hk.le).trans hs.1)),
    fun k hk => (hgrid k hk).trans (hup _ (hmono k K hk le_rfl) (hmono 0 k (by omega) hk))⟩

/-- the state matrix along a solution is one-sided -/
theorem DerivAlong.oneSided {F : (Fin p → ℝ) → ℝ → (Fin m → ℝ) → Fin m → ℝ} {J : ℝ → (Fin m → ℝ) → Matrix (Fin m) (Fin m) ℝ} {fp : ℝ → (Fin m → ℝ) → Matrix (Fin m) (Fin p) ℝ} {p0 q : Fin p → ℝ} {K : ℕ}
    {t : ℕ → ℝ} {Y : ℝ → Fin m → ℝ} (h : DerivAlong F J fp p0 q K t Y) {k : ℕ} (hk : k < K) {s : ℝ} (hs : s ∈ Set.Ioo (t k) (t (k + 1))) {nu : ℝ} (hF : OneSided (F p0 s) nu) (z : Fin m → ℝ) :
    (J s (Y s)).mulVec z ⬝ᵥ z ≤ nu * (z ⬝ᵥ z) := by
  refine oneSided_dir hF (y := Y s) ?_
  rw [hasDerivAt_iff_isLittleO, Asymptotics.isLittleO_iff]
  intro c hc
  obtain ⟨ρ, hρ, h1⟩ := h (c / (l2 z + 1)) (div_pos hc (by linarith [l2_nonneg z]))
  have hz : 0 < l2 z + 1 := by linarith [l2_nonneg z]
  filter_upwards [Metric.ball_mem_nhds (0 : ℝ) (div_pos hρ hz)] with τ hτ
  rw [Metric.mem_ball, Real.dist_eq, sub_zero, lt_div_iff₀ hz] at hτ
  have h2 : l2 (τ • z) ≤ ρ := by
    rw [l2_smul]
    nlinarith [abs_nonneg τ]
  have h3 := h1 k hk s hs 0 (τ • z) (by rw [abs_zero]; exact hρ.le) h2
  rw [zero_smul, zero_smul, add_zero, add_zero, abs_zero, zero_add, l2_smul, Matrix.mulVec_smul] at h3
  rw [zero_smul, add_zero, sub_zero, Real.norm_eq_abs]
  refine (norm_le_l2 _).trans (h3.trans ?_)
  rw [div_mul_eq_mul_div, div_le_iff₀ hz]
  nlinarith [abs_nonneg τ, l2_nonneg z, mul_nonneg hc.le (abs_nonneg τ)]

/-- The solution of the variational equation is the derivative of the solution with respect to parameters and initial state. -/
theorem sensitivity {F : (Fin p → ℝ) → ℝ → (Fin m → ℝ) → Fin m → ℝ} {J : ℝ → (Fin m → ℝ) → Matrix (Fin m) (Fin m) ℝ} {fp : ℝ → (Fin m → ℝ) → Matrix (Fin m) (Fin p) ℝ} {p0 q : Fin p → ℝ} {K : ℕ}
    {t : ℕ → ℝ} {Y : ℝ → ℝ → Fin m → ℝ} {v : Fin m → ℝ} {nu B : ℝ} (hnu : 0 ≤ nu) (ht : ∀ k < K, t k ≤ t (k + 1))
    (hF : ∀ᶠ e in 𝓝 (0 : ℝ), ∀ k < K, ∀ s ∈ Set.Ioo (t k) (t (k + 1)), OneSided (F (p0 + e • q) s) nu)
    (hY : ∀ᶠ e in 𝓝 (0 : ℝ), GridSolution (F (p0 + e • q)) K t (Y e) ∧ Y e (t 0) = Y 0 (t 0) + e • v)
    (hD : DerivAlong F J fp p0 q K t (Y 0)) (hB : ∀ k < K, ∀ s ∈ Set.Ioo (t k) (t (k + 1)), l2 ((fp s (Y 0 s)).mulVec q) ≤ B)
    {S : ℝ → Fin m → ℝ} (hS : GridSolution (variational J fp q (Y 0)) K t S) (hS0 : S (t 0) = v) (k : ℕ) (hk : k ≤ K) : HasDerivAt (fun e => Y e (t k)) (S (t k)) 0 := by
  have hT : 0 ≤ t K - t 0 := by
    have : ∀ j ≤ K, t 0 ≤ t j := by
      intro j
      induction j with
      | zero => exact fun _ => le_rfl
      | succ j ih => exact fun hj => (ih (by omega)).trans (ht j (by omega))
    linarith [this K le_rfl]
  have hY0 : GridSolution (F p0) K t (Y 0) := by
    have := hY.self_of_nhds.1
    rwa [zero_smul, add_zero] at this
  have hF0 : ∀ k < K, ∀ s ∈ Set.Ioo (t k) (t (k + 1)), OneSided (F p0 s) nu := by
    have := hF.self_of_nhds
    simpa only [zero_smul, add_zero] using this
  set X := Real.exp ((2 * nu + 1) * (t K - t 0)) with hX
  have hXp : 0 < X := Real.exp_pos _
  obtain ⟨ρ1, hρ1, hD1⟩ := hD 1 one_pos
  -- the solutions are at most `C1 |e|` apart
  set C1 := Real.sqrt (X * (l2 v ^ 2 + (1 + B) ^ 2 * (t K - t 0))) with hC1
  have hC1n : 0 ≤ C1 := Real.sqrt_nonneg _
  have hclose : ∀ᶠ e in 𝓝 (0 : ℝ), ∀ k < K, ∀ s ∈ Set.Ioo (t k) (t (k + 1)), l2 (Y e s - Y 0 s) ≤ C1 * |e| := by
    filter_upwards [hF, hY, Metric.ball_mem_nhds (0 : ℝ) hρ1] with e h1 h2 h3 k hk s hs
    rw [Metric.mem_ball, Real.dist_eq, sub_zero] at h3
    have h4 := (energy_grid (W := fun s => Y e s - Y 0 s) (W' := fun s => F (p0 + e • q) s (Y e s) - F p0 s (Y 0 s)) (e := (1 + B) * |e|) hnu ht (h2.1.cont.sub hY0.cont)
      (fun k hk s hs => (h2.1.deriv k hk s hs).sub (hY0.deriv k hk s hs)) (fun k hk s hs => ?_)).1 k hk s (Set.Ioo_subset_Icc_self hs)
    · beta_reduce at h4
      rw [h2.2, add_sub_cancel_left, l2_smul] at h4
      have e1 : (C1 * |e|) ^ 2 = X * ((|e| * l2 v) ^ 2 + ((1 + B) * |e|) ^ 2 * (t K - t 0)) := by
        rw [mul_pow, hC1, Real.sq_sqrt (mul_nonneg hXp.le (add_nonneg (sq_nonneg _) (mul_nonneg (sq_nonneg _) hT)))]
        ring
      rw [← hX, ← e1] at h4
      exact le_of_sq_le_sq' h4 (mul_nonneg hC1n (abs_nonneg e))
    · have h5 := h1 k hk s hs (Y e s) (Y 0 s)
      have h6 := hD1 k hk s hs e 0 h3.le (by rw [l2_zero]; exact hρ1.le)
      rw [add_zero, Matrix.mulVec_zero, zero_add, l2_zero, add_zero, one_mul] at h6
      have h7 : l2 (F (p0 + e • q) s (Y 0 s) - F p0 s (Y 0 s)) ≤ (1 + B) * |e| := by
        have h8 := l2_add_le (F (p0 + e • q) s (Y 0 s) - F p0 s (Y 0 s) - e • (fp s (Y 0 s)).mulVec q) (e • (fp s (Y 0 s)).mulVec q)
        rw [sub_add_cancel, l2_smul] at h8
        have h9 := mul_le_mul_of_nonneg_left (hB k hk s hs) (abs_nonneg e)
        linarith
      have h8 := dot_le (F (p0 + e • q) s (Y 0 s) - F p0 s (Y 0 s)) (Y e s - Y 0 s)
      have h9 := mul_le_mul_of_nonneg_right h7 (l2_nonneg (Y e s - Y 0 s))
      have e2 : (F (p0 + e • q) s (Y e s) - F p0 s (Y 0 s)) ⬝ᵥ (Y e s - Y 0 s) = (F (p0 + e • q) s (Y e s) - F (p0 + e • q) s (Y 0 s)) ⬝ᵥ (Y e s - Y 0 s) +
          (F (p0 + e • q) s (Y 0 s) - F p0 s (Y 0 s)) ⬝ᵥ (Y e s - Y 0 s) := by
        rw [← add_dotProduct, sub_add_sub_cancel]
      change (F (p0 + e • q) s (Y e s) - F p0 s (Y 0 s)) ⬝ᵥ (Y e s - Y 0 s) ≤ _
      rw [e2]
      linarith
  -- the remainder
  rw [hasDerivAt_iff_isLittleO, Asymptotics.isLittleO_iff]
  intro c hc
  set C2 := Real.sqrt (X * (t K - t 0)) * (1 + C1) + 1 with hC2
  have hC2p : 0 < C2 := by
    have := mul_nonneg (Real.sqrt_nonneg (X * (t K - t 0))) (by linarith : 0 ≤ 1 + C1)
    linarith
  obtain ⟨ρ, hρ, hDη⟩ := hD (c / C2) (div_pos hc hC2p)
  filter_upwards [hclose, hY, Metric.ball_mem_nhds (0 : ℝ) hρ, Metric.ball_mem_nhds (0 : ℝ) (div_pos hρ (by linarith : 0 < C1 + 1))] with e h1 h2 h3 h3'
  rw [Metric.mem_ball, Real.dist_eq, sub_zero] at h3 h3'
  rw [lt_div_iff₀ (by linarith)] at h3'
  have h4 := (energy_grid (W := fun s => Y e s - Y 0 s - e • S s) (W' := fun s => F (p0 + e • q) s (Y e s) - F p0 s (Y 0 s) - e • variational J fp q (Y 0) s (S s))
    (e := c / C2 * (1 + C1) * |e|) hnu ht ((h2.1.cont.sub hY0.cont).sub (hS.cont.const_smul e))
    (fun k hk s hs => ((h2.1.deriv k hk s hs).sub (hY0.deriv k hk s hs)).sub ((hS.deriv k hk s hs).const_smul e)) (fun k hk s hs => ?_)).2 k hk
  · beta_reduce at h4
    rw [h2.2, add_sub_cancel_left, hS0, sub_self, l2_zero] at h4
    have e1 : (Real.sqrt (X * (t K - t 0)) * (c / C2 * (1 + C1) * |e|)) ^ 2 = X * (0 ^ 2 + (c / C2 * (1 + C1) * |e|) ^ 2 * (t K - t 0)) := by
      rw [mul_pow, Real.sq_sqrt (mul_nonneg hXp.le hT)]
      ring
    rw [← hX, ← e1] at h4
    have h5 := le_of_sq_le_sq' h4 (mul_nonneg (Real.sqrt_nonneg _) (mul_nonneg (mul_nonneg (div_pos hc hC2p).le (by linarith)) (abs_nonneg e)))
    rw [sub_zero, Real.norm_eq_abs]
    refine (norm_le_l2 _).trans (h5.trans ?_)
    have e2 : Real.sqrt (X * (t K - t 0)) * (c / C2 * (1 + C1) * |e|) = c * |e| * (Real.sqrt (X * (t K - t 0)) * (1 + C1)) / C2 := by ring
    rw [e2, div_le_iff₀ hC2p]
    exact mul_le_mul_of_nonneg_left (by linarith) (mul_nonneg hc.le (abs_nonneg e))
  · have h5 := h1 k hk s hs
    have h6 := hDη k hk s hs e (Y e s - Y 0 s) h3.le (h5.trans (by nlinarith [abs_nonneg e]))
    rw [add_sub_cancel] at h6
    set R := F (p0 + e • q) s (Y e s) - F p0 s (Y 0 s) - ((J s (Y 0 s)).mulVec (Y e s - Y 0 s) + e • (fp s (Y 0 s)).mulVec q) with hR
    have e1 : F (p0 + e • q) s (Y e s) - F p0 s (Y 0 s) - e • variational J fp q (Y 0) s (S s) = (J s (Y 0 s)).mulVec (Y e s - Y 0 s - e • S s) + R := by
      rw [hR, variational, Matrix.mulVec_sub (J s (Y 0 s)) (Y e s - Y 0 s), Matrix.mulVec_smul, smul_add]
      abel
    have h7 : l2 R ≤ c / C2 * (1 + C1) * |e| := by
      refine h6.trans ?_
      rw [mul_assoc]
      exact mul_le_mul_of_nonneg_left (by linarith) (div_pos hc hC2p).le
    beta_reduce
    rw [e1, add_dotProduct]
    have h8 := hD.oneSided hk hs (hF0 k hk s hs) (Y e s - Y 0 s - e • S s)
    have h9 := dot_le R (Y e s - Y 0 s - e • S s)
    have h10 := mul_le_mul_of_nonneg_right h7 (l2_nonneg (Y e s - Y 0 s - e • S s))
    linarith

end Pyoptmat.Spec
