import Verif.Spec.Accuracy
import Mathlib.Analysis.InnerProductSpace.PiL2
import Mathlib.Analysis.Calculus.MeanValue
import Mathlib.Analysis.Calculus.Deriv.Pow
import Mathlib.Analysis.SpecialFunctions.Exp
import Mathlib.Tactic

/-! Helper lemmas: perturbation of Euler steps, local truncation errors. -/

namespace Pyoptmat.Spec

variable {m : ℕ}

theorem l2_eq_norm (v : Fin m → ℝ) : l2 v = ‖(WithLp.toLp 2 v : EuclideanSpace ℝ (Fin m))‖ := by
  rw [EuclideanSpace.norm_eq]
  unfold l2
  congr 1
  refine Finset.sum_congr rfl fun i _ => ?_
  simp

theorem l2_nonneg (v : Fin m → ℝ) : 0 ≤ l2 v := Real.sqrt_nonneg _

theorem l2_add_le (v w : Fin m → ℝ) : l2 (v + w) ≤ l2 v + l2 w := by
  rw [l2_eq_norm, l2_eq_norm, l2_eq_norm]
  exact norm_add_le (WithLp.toLp 2 v : EuclideanSpace ℝ (Fin m)) (WithLp.toLp 2 w)

theorem l2_smul (c : ℝ) (v : Fin m → ℝ) : l2 (c • v) = |c| * l2 v := by
  rw [l2_eq_norm, l2_eq_norm]
  exact norm_smul c (WithLp.toLp 2 v : EuclideanSpace ℝ (Fin m))

theorem l2_neg (v : Fin m → ℝ) : l2 (-v) = l2 v := by
  simp [l2]

theorem l2_zero : l2 (0 : Fin m → ℝ) = 0 := by simp [l2]

theorem l2_sub_comm (v w : Fin m → ℝ) : l2 (v - w) = l2 (w - v) := by
  rw [← l2_neg, neg_sub]

theorem l2_sq (v : Fin m → ℝ) : v ⬝ᵥ v = l2 v ^ 2 := by
  unfold l2
  rw [Real.sq_sqrt (Finset.sum_nonneg fun i _ => sq_nonneg _)]
  simp [dotProduct, sq]

theorem dot_le (v w : Fin m → ℝ) : v ⬝ᵥ w ≤ l2 v * l2 w := by
  unfold l2
  exact Real.sum_mul_le_sqrt_mul_sqrt _ _ _

theorem l2_one (v : Fin 1 → ℝ) : l2 v = |v 0| := by
  simp [l2, Real.sqrt_sq_eq_abs]

theorem l2_eq_zero {v : Fin m → ℝ} (h : l2 v ≤ 0) : v = 0 := by
  have h1 : l2 v = 0 := le_antisymm h (l2_nonneg v)
  rw [l2_eq_norm, norm_eq_zero] at h1
  funext i
  exact congrFun (congrArg WithLp.ofLp h1) i

/-- one perturbed implicit step -/
theorem implicit_step_pair {F : (Fin m → ℝ) → Fin m → ℝ} {nu h : ℝ} (hh : 0 ≤ h) {x y a a' d d' : Fin m → ℝ} (hF : (F x - F y) ⬝ᵥ (x - y) ≤ nu * ((x - y) ⬝ᵥ (x - y)))
    (hx : x = a + h • F x + d) (hy : y = a' + h • F y + d') : (1 - nu * h) * l2 (x - y) ≤ l2 (a - a') + l2 (d - d') := by
  have e : x - y = (a - a') + (d - d') + h • (F x - F y) := by
    rw [smul_sub]
    conv_lhs => rw [hx, hy]
    abel
  have h1 : (x - y) ⬝ᵥ (x - y) = ((a - a') + (d - d')) ⬝ᵥ (x - y) + h * ((F x - F y) ⬝ᵥ (x - y)) := by
    conv_lhs => lhs; rw [e]
    rw [add_dotProduct, smul_dotProduct, smul_eq_mul]
  have h2 := dot_le ((a - a') + (d - d')) (x - y)
  have h3 := mul_le_mul_of_nonneg_left hF hh
  rw [l2_sq] at h1 h3
  have h4 := mul_le_mul_of_nonneg_right (l2_add_le (a - a') (d - d')) (l2_nonneg (x - y))
  rcases (l2_nonneg (x - y)).eq_or_lt with h0 | h0
  · rw [← h0, mul_zero]; exact add_nonneg (l2_nonneg _) (l2_nonneg _)
  · have : (1 - nu * h) * l2 (x - y) * l2 (x - y) ≤ (l2 (a - a') + l2 (d - d')) * l2 (x - y) := by nlinarith
    exact le_of_mul_le_mul_right this h0

/-- one perturbed implicit step -/
theorem implicit_step {F : (Fin m → ℝ) → Fin m → ℝ} {nu h : ℝ} (hF : OneSided F nu) (hh : 0 ≤ h) {x y a a' d d' : Fin m → ℝ}
    (hx : x = a + h • F x + d) (hy : y = a' + h • F y + d') : (1 - nu * h) * l2 (x - y) ≤ l2 (a - a') + l2 (d - d') :=
  implicit_step_pair hh (hF x y) hx hy

/-- one perturbed explicit step -/
theorem explicit_step {F : (Fin m → ℝ) → Fin m → ℝ} {L h : ℝ} (hF : Lip F L) (hh : 0 ≤ h) {x y a a' d d' : Fin m → ℝ}
    (hx : x = a + h • F a + d) (hy : y = a' + h • F a' + d') : l2 (x - y) ≤ (1 + L * h) * l2 (a - a') + l2 (d - d') := by
  have e : x - y = (a - a') + h • (F a - F a') + (d - d') := by
    rw [hx, hy, smul_sub]; abel
  have h1 := mul_le_mul_of_nonneg_left (hF a a') hh
  have h2 := l2_add_le ((a - a') + h • (F a - F a')) (d - d')
  have h3 := l2_add_le (a - a') (h • (F a - F a'))
  rw [l2_smul, abs_of_nonneg hh] at h3
  rw [e]
  nlinarith

theorem inv_le_exp {x : ℝ} (h0 : 0 ≤ x) (h1 : x ≤ 1 / 2) : 1 ≤ (1 - x) * Real.exp (2 * x) := by
  have := Real.add_one_le_exp (2 * x)
  have h2 : (1 - x) * (2 * x + 1) ≤ (1 - x) * Real.exp (2 * x) := mul_le_mul_of_nonneg_left this (by linarith)
  nlinarith

/-- accumulation of errors, implicit -/
theorem gronwall_implicit {e tau t : ℕ → ℝ} {nu : ℝ} (hnu : 0 ≤ nu) {K : ℕ} (ht : ∀ k < K, t k ≤ t (k + 1)) (hs : ∀ k < K, nu * (t (k + 1) - t k) ≤ 1 / 2)
    (htau : ∀ k < K, 0 ≤ tau k) (he : ∀ k, 0 ≤ e k) (hstep : ∀ k < K, (1 - nu * (t (k + 1) - t k)) * e (k + 1) ≤ e k + tau k) :
    ∀ k ≤ K, e k ≤ Real.exp (2 * nu * (t k - t 0)) * (e 0 + ∑ j ∈ Finset.range k, tau j) := by
  intro k
  induction k with
  | zero => intro _; simp
  | succ k ih =>
    intro hk
    have i := ih (by omega)
    have hx0 : 0 ≤ nu * (t (k + 1) - t k) := mul_nonneg hnu (sub_nonneg.2 (ht k (by omega)))
    have hx := inv_le_exp hx0 (hs k (by omega))
    have hst := hstep k (by omega)
    have hexp := Real.exp_pos (2 * (nu * (t (k + 1) - t k)))
    have hmono : ∀ k ≤ K, t 0 ≤ t k := by
      intro k
      induction k with
      | zero => intro _; exact le_rfl
      | succ k ih => intro hk; exact (ih (by omega)).trans (ht k (by omega))
    have hE : 1 ≤ Real.exp (2 * nu * (t k - t 0)) := by
      rw [← Real.exp_zero]
      exact Real.exp_le_exp.2 (mul_nonneg (by linarith) (sub_nonneg.2 (hmono k (by omega))))
    have h1 : e (k + 1) ≤ Real.exp (2 * (nu * (t (k + 1) - t k))) * (e k + tau k) := by
      have h2 := mul_le_mul_of_nonneg_left hst hexp.le
      have h3 := mul_le_mul_of_nonneg_right hx (he (k + 1))
      nlinarith
    have hsplit : Real.exp (2 * nu * (t (k + 1) - t 0)) = Real.exp (2 * (nu * (t (k + 1) - t k))) * Real.exp (2 * nu * (t k - t 0)) := by
      rw [← Real.exp_add]; congr 1; ring
    rw [hsplit, Finset.sum_range_succ, mul_assoc]
    refine h1.trans (mul_le_mul_of_nonneg_left ?_ hexp.le)
    have := mul_le_mul_of_nonneg_right hE (htau k (by omega))
    linarith

/-- accumulation of errors, explicit -/
theorem gronwall_explicit {e tau t : ℕ → ℝ} {L : ℝ} (hL : 0 ≤ L) {K : ℕ} (ht : ∀ k < K, t k ≤ t (k + 1))
    (htau : ∀ k < K, 0 ≤ tau k) (he : ∀ k, 0 ≤ e k) (hstep : ∀ k < K, e (k + 1) ≤ (1 + L * (t (k + 1) - t k)) * e k + tau k) :
    ∀ k ≤ K, e k ≤ Real.exp (L * (t k - t 0)) * (e 0 + ∑ j ∈ Finset.range k, tau j) := by
  intro k
  induction k with
  | zero => intro _; simp
  | succ k ih =>
    intro hk
    have i := ih (by omega)
    have hexp := Real.exp_pos (L * (t (k + 1) - t k))
    have hmono : ∀ k ≤ K, t 0 ≤ t k := by
      intro k
      induction k with
      | zero => intro _; exact le_rfl
      | succ k ih => intro hk; exact (ih (by omega)).trans (ht k (by omega))
    have hE : 1 ≤ Real.exp (L * (t (k + 1) - t 0)) := by
      rw [← Real.exp_zero]
      exact Real.exp_le_exp.2 (mul_nonneg hL (sub_nonneg.2 (hmono (k + 1) (by omega))))
    have h1 : e (k + 1) ≤ Real.exp (L * (t (k + 1) - t k)) * e k + tau k := by
      refine (hstep k (by omega)).trans ?_
      have := Real.add_one_le_exp (L * (t (k + 1) - t k))
      have := mul_le_mul_of_nonneg_right this (he k)
      linarith
    have hsplit : Real.exp (L * (t (k + 1) - t 0)) = Real.exp (L * (t (k + 1) - t k)) * Real.exp (L * (t k - t 0)) := by
      rw [← Real.exp_add]; congr 1; ring
    rw [Finset.sum_range_succ, ← add_assoc, mul_add]
    have h2 := mul_le_mul_of_nonneg_left i hexp.le
    rw [← mul_assoc, ← hsplit] at h2
    have := mul_le_mul_of_nonneg_right hE (htau k (by omega))
    linarith

/-- a smooth function nearly satisfies its Euler step: `F'` within `M |s - c|` of `v` -/
theorem truncation {Y Y' : ℝ → Fin m → ℝ} {a b M c : ℝ} (hab : a ≤ b) (v : Fin m → ℝ)
    (hY : ∀ s ∈ Set.Icc a b, HasDerivWithinAt Y (Y' s) (Set.Icc a b) s) (hv : ∀ s ∈ Set.Icc a b, l2 (Y' s - v) ≤ M * |s - c|) (hc : c = a ∨ c = b) :
    l2 (Y b - Y a - (b - a) • v) ≤ M / 2 * (b - a) ^ 2 := by
  let L := (PiLp.continuousLinearEquiv 2 ℝ (fun _ : Fin m => ℝ)).symm
  let g : ℝ → EuclideanSpace ℝ (Fin m) := fun s => L (Y s - Y a - (s - a) • v)
  have hg : ∀ s ∈ Set.Icc a b, HasDerivWithinAt g (L (Y' s - v)) (Set.Icc a b) s := by
    intro s hs
    have h1 : HasDerivWithinAt (fun s => Y s - Y a - (s - a) • v) (Y' s - v) (Set.Icc a b) s := by
      have h2 : HasDerivWithinAt (fun s : ℝ => (s - a) • v) ((1 : ℝ) • v) (Set.Icc a b) s :=
        ((hasDerivWithinAt_id s _).sub_const a).smul_const v
      rw [one_smul] at h2
      exact ((hY s hs).sub_const _).sub h2
    exact L.toContinuousLinearMap.hasFDerivAt.comp_hasDerivWithinAt s h1
  have hcont : ContinuousOn g (Set.Icc a b) := fun s hs => (hg s hs).continuousWithinAt
  have hgr : ∀ s ∈ Set.Ico a b, HasDerivWithinAt g (L (Y' s - v)) (Set.Ici s) s := by
    intro s hs
    exact (hg s (Set.Ico_subset_Icc_self hs)).mono_of_mem_nhdsWithin
      (mem_nhdsGE_iff_exists_Ico_subset.2 ⟨b, hs.2, fun u hu => ⟨hs.1.trans hu.1, hu.2.le⟩⟩)
  have hnorm : ∀ w : Fin m → ℝ, ‖L w‖ = l2 w := fun w => (l2_eq_norm w).symm
  have key : ∀ (B : ℝ → ℝ) (B' : ℝ → ℝ), B a = 0 → (∀ s, HasDerivAt B (B' s) s) → (∀ s ∈ Set.Ico a b, l2 (Y' s - v) ≤ B' s) → ‖g b‖ ≤ B b := by
    intro B B' hB0 hB hle
    refine image_norm_le_of_norm_deriv_right_le_deriv_boundary hcont hgr ?_ hB ?_ (Set.right_mem_Icc.2 hab)
    · simp only [g]; rw [hnorm, hB0]; simp [l2_zero]
    · intro s hs; rw [hnorm]; exact hle s hs
  have hgb : l2 (Y b - Y a - (b - a) • v) = ‖g b‖ := (hnorm _).symm
  rw [hgb]
  rcases hc with rfl | rfl
  · have := key (fun s => M / 2 * (s - c) ^ 2) (fun s => M * (s - c)) (by simp) (by
      intro s
      have := (((hasDerivAt_id s).sub_const c).fun_pow 2).const_mul (M / 2)
      refine this.congr_deriv ?_
      simp only [id]; norm_num; ring) (by
      intro s hs
      have := hv s (Set.Ico_subset_Icc_self hs)
      rwa [abs_of_nonneg (by linarith [hs.1])] at this)
    exact this
  · have := key (fun s => M / 2 * ((c - a) ^ 2 - (c - s) ^ 2)) (fun s => M * (c - s)) (by simp) (by
      intro s
      have h1 := (((hasDerivAt_id s).const_sub c).fun_pow 2).const_sub ((c - a) ^ 2)
      have := h1.const_mul (M / 2)
      refine this.congr_deriv ?_
      simp only [id]; norm_num; ring) (by
      intro s hs
      have := hv s (Set.Ico_subset_Icc_self hs)
      rwa [abs_of_nonpos (by linarith [hs.2]), neg_sub] at this)
    simpa using this

/-- mean value inequality with the derivative known in the interior only -/
theorem interior_mvt {Y Y' : ℝ → Fin m → ℝ} {a b : ℝ} (hab : a ≤ b) (v : Fin m → ℝ) (hc : ContinuousOn Y (Set.Icc a b)) (hY : ∀ s ∈ Set.Ioo a b, HasDerivAt Y (Y' s) s)
    {B B' : ℝ → ℝ} (hB : ∀ s, HasDerivAt B (B' s) s) (hle : ∀ s ∈ Set.Ioo a b, l2 (Y' s - v) ≤ B' s) : l2 (Y b - Y a - (b - a) • v) ≤ B b - B a := by
  rcases hab.eq_or_lt with rfl | hlt
  · simp [l2_zero]
  let L := (PiLp.continuousLinearEquiv 2 ℝ (fun _ : Fin m => ℝ)).symm
  have hnorm : ∀ w : Fin m → ℝ, ‖L w‖ = l2 w := fun w => (l2_eq_norm w).symm
  have key : ∀ a' ∈ Set.Ioo a b, ‖L (Y b - Y a' - (b - a') • v)‖ ≤ B b - B a' := by
    intro a' ha'
    have hsub : Set.Icc a' b ⊆ Set.Icc a b := Set.Icc_subset_Icc ha'.1.le le_rfl
    have hd : ∀ s ∈ Set.Ico a' b, HasDerivAt (fun s => L (Y s - Y a' - (s - a') • v)) (L (Y' s - v)) s := by
      intro s hs
      have h2 : HasDerivAt (fun s : ℝ => (s - a') • v) ((1 : ℝ) • v) s := ((hasDerivAt_id s).sub_const a').smul_const v
      rw [one_smul] at h2
      exact L.toContinuousLinearMap.hasFDerivAt.comp_hasDerivAt s (((hY s ⟨ha'.1.trans_le hs.1, hs.2⟩).sub_const (Y a')).sub h2)
    refine image_norm_le_of_norm_deriv_right_le_deriv_boundary (f := fun s => L (Y s - Y a' - (s - a') • v)) (f' := fun s => L (Y' s - v)) (B := fun s => B s - B a') (B' := B')
      ?_ (fun s hs => (hd s hs).hasDerivWithinAt) ?_ (fun s => (hB s).sub_const _) (fun s hs => ?_) (Set.right_mem_Icc.2 ha'.2.le)
    · refine L.continuous.comp_continuousOn ?_
      exact ((hc.mono hsub).sub continuousOn_const).sub (by fun_prop)
    · simp
    · rw [hnorm]; exact hle s ⟨ha'.1.trans_le hs.1, hs.2⟩
  rw [← hnorm]
  have hne : (nhdsWithin a (Set.Ioo a b)).NeBot := by
    rw [← mem_closure_iff_nhdsWithin_neBot, closure_Ioo hlt.ne]; exact Set.left_mem_Icc.2 hab
  have t1 : Filter.Tendsto (fun a' => ‖L (Y b - Y a' - (b - a') • v)‖) (nhdsWithin a (Set.Ioo a b)) (nhds ‖L (Y b - Y a - (b - a) • v)‖) := by
    have hYa : Filter.Tendsto Y (nhdsWithin a (Set.Ioo a b)) (nhds (Y a)) := (hc a (Set.left_mem_Icc.2 hab)).mono_left (nhdsWithin_mono _ Set.Ioo_subset_Icc_self)
    have hid : Filter.Tendsto (fun a' : ℝ => (b - a') • v) (nhdsWithin a (Set.Ioo a b)) (nhds ((b - a) • v)) :=
      (Continuous.tendsto (by fun_prop) a).mono_left nhdsWithin_le_nhds
    exact ((L.continuous.tendsto _).comp ((tendsto_const_nhds.sub hYa).sub hid)).norm
  have t2 : Filter.Tendsto (fun a' => B b - B a') (nhdsWithin a (Set.Ioo a b)) (nhds (B b - B a)) :=
    tendsto_const_nhds.sub ((hB a).continuousAt.tendsto.mono_left nhdsWithin_le_nhds)
  exact le_of_tendsto_of_tendsto t1 t2 (Filter.eventually_of_mem self_mem_nhdsWithin key)

/-- truncation error of a backward Euler step, with the derivative known inside the step only -/
theorem truncation_interior {Y Y' : ℝ → Fin m → ℝ} {a b M : ℝ} (hab : a ≤ b) (v : Fin m → ℝ) (hc : ContinuousOn Y (Set.Icc a b)) (hY : ∀ s ∈ Set.Ioo a b, HasDerivAt Y (Y' s) s)
    (hv : ∀ s ∈ Set.Ioo a b, l2 (Y' s - v) ≤ M * |s - b|) : l2 (Y b - Y a - (b - a) • v) ≤ M / 2 * (b - a) ^ 2 := by
  refine (interior_mvt hab v hc hY (B := fun s => -(M / 2 * (b - s) ^ 2)) (B' := fun s => M * (b - s)) (fun s => ?_) (fun s hs => ?_)).trans (le_of_eq ?_)
  · have := (((hasDerivAt_id s).const_sub b).fun_pow 2).const_mul (M / 2)
    refine this.neg.congr_deriv ?_
    simp only [id]; norm_num; ring
  · have := hv s hs
    rwa [abs_of_nonpos (by linarith [hs.2]), neg_sub] at this
  · simp

theorem mean_value_interior {Y Y' : ℝ → Fin m → ℝ} {a b F : ℝ} (hab : a ≤ b) (hc : ContinuousOn Y (Set.Icc a b)) (hY : ∀ s ∈ Set.Ioo a b, HasDerivAt Y (Y' s) s)
    (hv : ∀ s ∈ Set.Ioo a b, l2 (Y' s) ≤ F) : l2 (Y b - Y a) ≤ F * (b - a) := by
  have := interior_mvt hab 0 hc hY (B := fun s => F * s) (B' := fun _ => F) (fun s => by
    have := (hasDerivAt_id s).const_mul F
    refine this.congr_deriv ?_
    simp) (fun s hs => by rw [sub_zero]; exact hv s hs)
  rw [smul_zero, sub_zero] at this
  linarith

end Pyoptmat.Spec
