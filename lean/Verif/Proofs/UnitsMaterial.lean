import Verif.Proofs.Units
import Verif.Proofs.Control

/-!
# Materials in other units (for C118)
-/

namespace Pyoptmat.Units

open Pyoptmat.Material Pyoptmat.Spec Pyoptmat.Control

variable {c τ o T T' : ℝ}

theorem sgn_scale {a : ℝ} (ha : 0 < a) (x : ℝ) : sgn (a * x) = sgn x := by
  unfold sgn
  rcases lt_trichotomy x 0 with h | h | h
  · rw [Real.sign_of_neg h, Real.sign_of_neg (mul_neg_of_pos_of_neg ha h)]
  · subst h; simp
  · rw [Real.sign_of_pos h, Real.sign_of_pos (mul_pos ha h)]

theorem sgn_div {a : ℝ} (ha : 0 < a) (x : ℝ) : sgn (x / a) = sgn x := by
  rw [div_eq_inv_mul]
  exact sgn_scale (inv_pos.2 ha) x

theorem macaulay_scale {a : ℝ} (ha : 0 < a) (x : ℝ) : macaulay (a * x) = a * macaulay x := by
  unfold macaulay heaviside
  rw [sgn_scale ha]
  ring

theorem macaulay_nonneg' (x : ℝ) : 0 ≤ macaulay x := by
  unfold macaulay heaviside sgn
  rcases lt_trichotomy x 0 with h | h | h
  · rw [Real.sign_of_neg h]; norm_num
  · subst h; simp
  · rw [Real.sign_of_pos h]; nlinarith

theorem abs_div_pos (hτ : 0 < τ) (x : ℝ) : |x / τ| = |x| / τ := by rw [abs_div, abs_of_pos hτ]

theorem abs_mul_pos (hc : 0 < c) (x : ℝ) : |c * x| = c * |x| := by rw [abs_mul, abs_of_pos hc]

/-! ## Hardening -/

theorem voce_units (hc : 0 < c) (hτ : 0 < τ) {R d R' d' : ℝ → ℝ} (hR : R' T' = c * R T) (hd : d' T' = d T) :
    HardeningRescaled c τ o T T' (voce R d) (voce R' d') where
  value h := rfl
  dvalue h := rfl
  rate s h t ep e := by
    funext i
    simp only [voce, Pi.smul_apply, smul_eq_mul, hR, hd, abs_div_pos hτ]
    ring
  drate_ds s h t ep e := by simp [voce]
  drate_dh s h t ep e := by
    ext i j
    obtain rfl : i = 0 := Subsingleton.elim _ _
    obtain rfl : j = 0 := Subsingleton.elim _ _
    simp only [voce, Matrix.smul_apply, smul_eq_mul, hd, abs_div_pos hτ, Matrix.of_apply, Matrix.cons_val_zero]
    ring
  drate_dep s h t ep e := by
    funext i
    simp only [voce, Pi.smul_apply, smul_eq_mul, hR, hd, sgn_div hτ]
    ring
  drate_de s h t ep e := by simp [voce]

theorem theta0_units (hc : 0 < c) (hτ : 0 < τ) {tau theta tau' theta' : ℝ → ℝ} (h1 : tau' T' = c * tau T) (h2 : theta' T' = c * theta T) :
    HardeningRescaled c τ o T T' (theta0Voce tau theta) (theta0Voce tau' theta') where
  value h := rfl
  dvalue h := rfl
  rate s h t ep e := by
    funext i
    simp only [theta0Voce, Pi.smul_apply, smul_eq_mul, h1, h2, abs_div_pos hτ, mul_div_mul_left _ _ hc.ne']
    ring
  drate_ds s h t ep e := by simp [theta0Voce]
  drate_dh s h t ep e := by
    ext i j
    obtain rfl : i = 0 := Subsingleton.elim _ _
    obtain rfl : j = 0 := Subsingleton.elim _ _
    simp only [theta0Voce, Matrix.smul_apply, smul_eq_mul, h1, h2, abs_div_pos hτ, Matrix.of_apply, Matrix.cons_val_zero, neg_div,
      mul_div_mul_left _ _ hc.ne']
    ring
  drate_dep s h t ep e := by
    funext i
    simp only [theta0Voce, Pi.smul_apply, smul_eq_mul, h1, h2, sgn_div hτ, mul_div_mul_left _ _ hc.ne']
    ring
  drate_de s h t ep e := by simp [theta0Voce]

/-- a power law with a coefficient in the new units -/
theorem power_units (hc : 0 < c) (hτ : 0 < τ) {b b' r : ℝ} (hb : b' = c ^ (1 - r) / τ * b) (x : ℝ) :
    b' * |c * x| ^ (r - 1) = 1 / τ * (b * |x| ^ (r - 1)) := by
  rw [abs_mul_pos hc, Real.mul_rpow hc.le (abs_nonneg x), hb]
  have : c ^ (1 - r) * c ^ (r - 1) = 1 := by
    rw [← Real.rpow_add hc]; simp
  calc c ^ (1 - r) / τ * b * (c ^ (r - 1) * |x| ^ (r - 1)) = (c ^ (1 - r) * c ^ (r - 1)) / τ * (b * |x| ^ (r - 1)) := by ring
    _ = _ := by rw [this]

theorem theta0Recovery_units (hc : 0 < c) (hτ : 0 < τ) {tau theta R0 r1 r2 tau' theta' R0' r1' r2' : ℝ → ℝ} (h1 : tau' T' = c * tau T)
    (h2 : theta' T' = c * theta T) (h3 : R0' T' = c * R0 T) (h5 : r2' T' = r2 T) (h4 : r1' T' = c ^ (1 - r2 T) / τ * r1 T) :
    HardeningRescaled c τ o T T' (theta0Recovery tau theta R0 r1 r2) (theta0Recovery tau' theta' R0' r1' r2') where
  value h := rfl
  dvalue h := rfl
  rate s h t ep e := by
    funext i
    have hp := power_units hc hτ h4 (R0 T - h 0)
    simp only [theta0Recovery, Pi.smul_apply, smul_eq_mul, h1, h2, h3, h5, abs_div_pos hτ, mul_div_mul_left _ _ hc.ne', ← mul_sub]
    linear_combination (c * (R0 T - h 0)) * hp
  drate_ds s h t ep e := by simp [theta0Recovery]
  drate_dh s h t ep e := by
    ext i j
    obtain rfl : i = 0 := Subsingleton.elim _ _
    obtain rfl : j = 0 := Subsingleton.elim _ _
    have hp := power_units hc hτ h4 (R0 T - h 0)
    simp only [theta0Recovery, Matrix.smul_apply, Pi.smul_apply, smul_eq_mul, h1, h2, h3, h5, abs_div_pos hτ, Matrix.of_apply, Matrix.cons_val_zero, neg_div,
      mul_div_mul_left _ _ hc.ne', ← mul_sub]
    linear_combination -(r2 T) * hp
  drate_dep s h t ep e := by
    funext i
    simp only [theta0Recovery, Pi.smul_apply, smul_eq_mul, h1, h2, sgn_div hτ, mul_div_mul_left _ _ hc.ne']
    ring
  drate_de s h t ep e := by simp [theta0Recovery]

theorem noKinematic_units : HardeningRescaled c τ o T T' noKinematic noKinematic where
  value h := by simp [noKinematic]
  dvalue h := rfl
  rate s h t ep e := by simp [noKinematic]
  drate_ds s h t ep e := by simp [noKinematic]
  drate_dh s h t ep e := by simp [noKinematic]
  drate_dep s h t ep e := by simp [noKinematic]
  drate_de s h t ep e := by simp [noKinematic]

theorem fa_units (hc : 0 < c) (hτ : 0 < τ) {C g b r C' g' b' r' : ℝ → ℝ} (h1 : C' T' = c * C T) (h2 : g' T' = g T)
    (h4 : r' T' = r T) (h3 : b' T' = c ^ (1 - r T) / τ * b T) :
    HardeningRescaled c τ o T T' (fa C g b r) (fa C' g' b' r') where
  value h := rfl
  dvalue h := rfl
  rate s h t ep e := by
    funext i
    have hp := power_units hc hτ h3 (h 0)
    simp only [fa, Pi.smul_apply, smul_eq_mul, h1, h2, h4, abs_div_pos hτ]
    linear_combination -(c * h 0) * hp
  drate_ds s h t ep e := by simp [fa]
  drate_dh s h t ep e := by
    ext i j
    obtain rfl : i = 0 := Subsingleton.elim _ _
    obtain rfl : j = 0 := Subsingleton.elim _ _
    have hp := power_units hc hτ h3 (h 0)
    simp only [fa, Matrix.smul_apply, Pi.smul_apply, smul_eq_mul, h2, h4, abs_div_pos hτ, Matrix.of_apply, Matrix.cons_val_zero]
    linear_combination -(r T) * hp
  drate_dep s h t ep e := by
    funext i
    simp only [fa, Pi.smul_apply, smul_eq_mul, h1, h2, sgn_div hτ]
    ring
  drate_de s h t ep e := by simp [fa]

theorem faNoRecovery_units (hτ : 0 < τ) {C g C' g' : ℝ → ℝ} (h1 : C' T' = c * C T) (h2 : g' T' = g T) :
    HardeningRescaled c τ o T T' (faNoRecovery C g) (faNoRecovery C' g') where
  value h := rfl
  dvalue h := rfl
  rate s h t ep e := by
    funext i
    simp only [faNoRecovery, Pi.smul_apply, smul_eq_mul, h1, h2, abs_div_pos hτ]
    ring
  drate_ds s h t ep e := by simp [faNoRecovery]
  drate_dh s h t ep e := by
    ext i j
    obtain rfl : i = 0 := Subsingleton.elim _ _
    obtain rfl : j = 0 := Subsingleton.elim _ _
    simp only [faNoRecovery, Matrix.smul_apply, smul_eq_mul, h2, abs_div_pos hτ, Matrix.of_apply, Matrix.cons_val_zero]
    ring
  drate_dep s h t ep e := by
    funext i
    simp only [faNoRecovery, Pi.smul_apply, smul_eq_mul, h1, h2, sgn_div hτ]
    ring
  drate_de s h t ep e := by simp [faNoRecovery]

theorem chaboche_units (hτ : 0 < τ) {nk : ℕ} {C g C' g' : Fin nk → ℝ → ℝ} (h1 : ∀ i, C' i T' = c * C i T) (h2 : ∀ i, g' i T' = g i T) :
    HardeningRescaled c τ o T T' (chaboche C g) (chaboche C' g') where
  value h := by simp [chaboche, Finset.mul_sum]
  dvalue h := rfl
  rate s h t ep e := by
    funext i
    simp only [chaboche, Pi.smul_apply, smul_eq_mul, h1, h2, abs_div_pos hτ]
    ring
  drate_ds s h t ep e := by simp [chaboche]
  drate_dh s h t ep e := by
    simp only [chaboche, ← Matrix.diagonal_smul]
    congr 1
    funext i
    simp only [Pi.smul_apply, smul_eq_mul, h2, abs_div_pos hτ]
    ring
  drate_dep s h t ep e := by
    funext i
    simp only [chaboche, Pi.smul_apply, smul_eq_mul, h1, h2, sgn_div hτ]
    ring
  drate_de s h t ep e := by simp [chaboche]

theorem chabocheRecovery_units (hc : 0 < c) (hτ : 0 < τ) {nk : ℕ} {C g b r C' g' b' r' : Fin nk → ℝ → ℝ} (h1 : ∀ i, C' i T' = c * C i T)
    (h2 : ∀ i, g' i T' = g i T) (h4 : ∀ i, r' i T' = r i T) (h3 : ∀ i, b' i T' = c ^ (1 - r i T) / τ * b i T) :
    HardeningRescaled c τ o T T' (chabocheRecovery C g b r) (chabocheRecovery C' g' b' r') where
  value h := by simp [chabocheRecovery, Finset.mul_sum]
  dvalue h := rfl
  rate s h t ep e := by
    funext i
    have hp := power_units hc hτ (h3 i) (h i)
    simp only [chabocheRecovery, Pi.smul_apply, smul_eq_mul, h1, h2, h4, abs_div_pos hτ]
    linear_combination -(c * h i) * hp
  drate_ds s h t ep e := by simp [chabocheRecovery]
  drate_dh s h t ep e := by
    simp only [chabocheRecovery, smul_add, ← Matrix.diagonal_smul]
    congr 2
    · funext i
      simp only [Pi.smul_apply, smul_eq_mul, h2, abs_div_pos hτ]
      ring
    · funext i
      have hp := power_units hc hτ (h3 i) (h i)
      simp only [Pi.smul_apply, smul_eq_mul, h4]
      linear_combination -(r i T) * hp
  drate_dep s h t ep e := by
    funext i
    simp only [chabocheRecovery, Pi.smul_apply, smul_eq_mul, h1, h2, sgn_div hτ]
    ring
  drate_de s h t ep e := by simp [chabocheRecovery]

/-! ## Superposition -/

theorem slice_smul {N : ℕ} (h : Fin N → ℝ) (o n : ℕ) (a : ℝ) : slice (a • h) o n = a • slice h o n := by
  funext j
  unfold slice
  by_cases hj : o + j.val < N
  · simp [hj]
  · simp [hj]

theorem writeSlice_smul {N n : ℕ} (res : Fin N → ℝ) (o : ℕ) (x : Fin n → ℝ) (a : ℝ) :
    writeSlice (a • res) o (a • x) = a • writeSlice res o x := by
  funext r
  unfold writeSlice
  by_cases hr : o ≤ r.val ∧ r.val - o < n
  · simp [hr]
  · simp only [Pi.smul_apply, dif_neg hr]

theorem writeBlock_smul {N n : ℕ} (res : Matrix (Fin N) (Fin N) ℝ) (o : ℕ) (x : Matrix (Fin n) (Fin n) ℝ) (a : ℝ) :
    writeBlock (a • res) o (a • x) = a • writeBlock res o x := by
  ext r q
  rw [Matrix.smul_apply]
  unfold writeBlock
  by_cases hr : (o ≤ r.val ∧ r.val - o < n) ∧ (o ≤ q.val ∧ q.val - o < n)
  · simp only [dif_pos hr, Matrix.smul_apply]
  · simp only [dif_neg hr, Matrix.smul_apply]

theorem fold_smul {ι V : Type*} [AddCommGroup V] [Module ℝ V] (a : ℝ) (g g' : V → ι → V)
    (hg : ∀ v i, g' (a • v) i = a • g v i) (l : List ι) : l.foldl g' 0 = a • l.foldl g 0 := by
  suffices h : ∀ v, l.foldl g' (a • v) = a • l.foldl g v by simpa using h 0
  induction l with
  | nil => intro v; rfl
  | cons i is ih => intro v; simp only [List.foldl_cons, hg, ih]

theorem superKin_units {k : ℕ} (nh : Fin k → ℕ) {H H' : (i : Fin k) → Hardening (nh i)}
    (h : ∀ i, HardeningRescaled c τ o T T' (H i) (H' i)) :
    HardeningRescaled c τ o T T' (superimposedKinematic nh H) (superimposedKinematic nh H') where
  value x := by
    refine fold_smul c (fun v i => v + (H i).value (slice x (offset nh i) (nh i))) _ (fun v i => ?_) _
    rw [slice_smul, (h i).value, smul_eq_mul, smul_eq_mul, mul_add]
  dvalue x := by
    have := fold_smul (V := Fin (∑ i, nh i) → ℝ) 1 (fun v i => writeSlice v (offset nh i) ((H i).dvalue (slice x (offset nh i) (nh i))))
      (fun v i => writeSlice v (offset nh i) ((H' i).dvalue (slice (c • x) (offset nh i) (nh i))))
      (fun v i => by rw [slice_smul, (h i).dvalue, one_smul, one_smul]) (List.finRange k)
    rw [one_smul] at this
    exact this
  rate s x t ep e := fold_smul (c / τ) (fun v i => writeSlice v (offset nh i) ((H i).rate s (slice x (offset nh i) (nh i)) t ep T e)) _
    (fun v i => by rw [slice_smul, (h i).rate, writeSlice_smul]) _
  drate_ds s x t ep e := fold_smul (1 / τ) (fun v i => writeSlice v (offset nh i) ((H i).drate_ds s (slice x (offset nh i) (nh i)) t ep T e)) _
    (fun v i => by rw [slice_smul, (h i).drate_ds, writeSlice_smul]) _
  drate_dh s x t ep e := fold_smul (1 / τ) (fun v i => writeBlock v (offset nh i) ((H i).drate_dh s (slice x (offset nh i) (nh i)) t ep T e)) _
    (fun v i => by rw [slice_smul, (h i).drate_dh, writeBlock_smul]) _
  drate_dep s x t ep e := fold_smul c (fun v i => writeSlice v (offset nh i) ((H i).drate_dep s (slice x (offset nh i) (nh i)) t ep T e)) _
    (fun v i => by rw [slice_smul, (h i).drate_dep, writeSlice_smul]) _
  drate_de s x t ep e := fold_smul c (fun v i => writeSlice v (offset nh i) ((H i).drate_de s (slice x (offset nh i) (nh i)) t ep T e)) _
    (fun v i => by rw [slice_smul, (h i).drate_de, writeSlice_smul]) _

theorem super_units {k : ℕ} (nh : Fin k → ℕ) {f f' : (i : Fin k) → FlowRule (nh i)}
    (h : ∀ i, FlowRescaled c τ o T T' (f i) (f' i)) :
    FlowRescaled c τ o T T' (superimposed nh f) (superimposed nh f') where
  flow s x t e := by
    refine Eq.trans ?_ (div_eq_inv_mul _ τ).symm
    refine fold_smul τ⁻¹ (fun v i => v + (f i).flow s (slice x (offset nh i) (nh i)) t T e) _ (fun v i => ?_) _
    rw [slice_smul, (h i).flow, smul_eq_mul, smul_eq_mul, mul_add]
    ring
  dflow_ds s x t e := by
    refine Eq.trans ?_ (div_eq_inv_mul _ (c * τ)).symm
    refine fold_smul (c * τ)⁻¹ (fun v i => v + (f i).dflow_ds s (slice x (offset nh i) (nh i)) t T e) _ (fun v i => ?_) _
    rw [slice_smul, (h i).dflow_ds, smul_eq_mul, smul_eq_mul, mul_add]
    ring
  dflow_dh s x t e := fold_smul (1 / (c * τ)) (fun v i => writeSlice v (offset nh i) ((f i).dflow_dh s (slice x (offset nh i) (nh i)) t T e)) _
    (fun v i => by rw [slice_smul, (h i).dflow_dh, writeSlice_smul]) _
  dflow_de s x t e := by
    have := fold_smul (V := ℝ) 1 (fun v i => v + (f i).dflow_de s (slice x (offset nh i) (nh i)) t T e)
      (fun v i => v + (f' i).dflow_de (c * s) (slice (c • x) (offset nh i) (nh i)) (τ * t + o) T' (e / τ))
      (fun v i => by rw [slice_smul, (h i).dflow_de, one_smul, one_smul]) (List.finRange k)
    rw [one_smul] at this
    exact this
  hist s x t e := fold_smul (c / τ) (fun v i => writeSlice v (offset nh i) ((f i).hist s (slice x (offset nh i) (nh i)) t T e)) _
    (fun v i => by rw [slice_smul, (h i).hist, writeSlice_smul]) _
  dhist_dh s x t e := fold_smul (1 / τ) (fun v i => writeBlock v (offset nh i) ((f i).dhist_dh s (slice x (offset nh i) (nh i)) t T e)) _
    (fun v i => by rw [slice_smul, (h i).dhist_dh, writeBlock_smul]) _
  dhist_ds s x t e := fold_smul (1 / τ) (fun v i => writeSlice v (offset nh i) ((f i).dhist_ds s (slice x (offset nh i) (nh i)) t T e)) _
    (fun v i => by rw [slice_smul, (h i).dhist_ds, writeSlice_smul]) _
  dhist_de s x t e := fold_smul c (fun v i => writeSlice v (offset nh i) ((f i).dhist_de s (slice x (offset nh i) (nh i)) t T e)) _
    (fun v i => by rw [slice_smul, (h i).dhist_de, writeSlice_smul]) _

/-! ## Flow rules -/

/-- The power of the overstress in the new units. -/
theorem visc_units (hτ : 0 < τ) {n x : ℝ} (hn : n ≠ 0) (hx : 0 ≤ x) : (x / τ ^ (1 / n)) ^ n = x ^ n / τ := by
  rw [Real.div_rpow hx (Real.rpow_nonneg hτ.le _), ← Real.rpow_mul hτ.le, one_div_mul_cancel hn, Real.rpow_one]

theorem visc_deriv (hc : 0 < c) (hτ : 0 < τ) {n x eta : ℝ} (hn : n ≠ 0) (hx : 0 ≤ x) :
    (x / τ ^ (1 / n)) ^ (n - 1) / (c * τ ^ (1 / n) * eta) = 1 / (c * τ) * (x ^ (n - 1) / eta) := by
  rw [Real.div_rpow hx (Real.rpow_nonneg hτ.le _), ← Real.rpow_mul hτ.le]
  have h1 : τ ^ (1 / n * (n - 1)) * τ ^ (1 / n) = τ := by
    rw [← Real.rpow_add hτ]
    rw [show 1 / n * (n - 1) + 1 / n = 1 by field_simp; ring, Real.rpow_one]
  have h2 : 0 < τ ^ (1 / n * (n - 1)) := Real.rpow_pos_of_pos hτ _
  have h3 : 0 < τ ^ (1 / n) := Real.rpow_pos_of_pos hτ _
  rw [div_div, show τ ^ (1 / n * (n - 1)) * (c * τ ^ (1 / n) * eta) = (c * τ) * eta by
    linear_combination (c * eta) * h1]
  field_simp

theorem perfect_units (hc : 0 < c) (hτ : 0 < τ) {n eta n' eta' : ℝ → ℝ} (hn : n T ≠ 0) (heta : 0 < eta T) (h1 : n' T' = n T)
    (h2 : eta' T' = c * τ ^ (1 / n T) * eta T) : FlowRescaled c τ o T T' (perfect n eta) (perfect n' eta') where
  flow s h t e := by
    have hs : |c * s| / (c * τ ^ (1 / n T) * eta T) = |s| / eta T / τ ^ (1 / n T) := by
      rw [abs_mul_pos hc]
      have h3 : 0 < τ ^ (1 / n T) := Real.rpow_pos_of_pos hτ _
      field_simp
    simp only [perfect, h1, h2, hs]
    rw [visc_units hτ hn (by positivity), sgn_scale hc]
    ring
  dflow_ds s h t e := by
    have hs : |c * s| / (c * τ ^ (1 / n T) * eta T) = |s| / eta T / τ ^ (1 / n T) := by
      rw [abs_mul_pos hc]
      have h3 : 0 < τ ^ (1 / n T) := Real.rpow_pos_of_pos hτ _
      field_simp
    simp only [perfect, h1, h2, hs]
    rw [mul_div_assoc, visc_deriv hc hτ hn (by positivity)]
    ring
  dflow_dh s h t e := by simp [perfect]
  dflow_de s h t e := rfl
  hist s h t e := by simp [perfect]
  dhist_dh s h t e := by simp [perfect]
  dhist_ds s h t e := by simp [perfect]
  dhist_de s h t e := by simp [perfect]

section IsoKin

variable {ni nk : ℕ} {n eta s0 n' eta' s0' : ℝ → ℝ} {iso iso' : Hardening ni} {kin kin' : Hardening nk}

theorem isoPart_smul (h : Fin (ni + nk) → ℝ) : isoPart (c • h) = c • isoPart h := rfl
theorem kinPart_smul (h : Fin (ni + nk) → ℝ) : kinPart (c • h) = c • kinPart h := rfl

theorem append_smul (a : ℝ) (x : Fin ni → ℝ) (y : Fin nk → ℝ) : Fin.append (a • x) (a • y) = a • Fin.append x y := by
  funext j
  refine Fin.addCases (fun i => ?_) (fun i => ?_) j
  · simp
  · simp

structure IsoKinRescaled (c τ o T T' : ℝ) (n eta s0 n' eta' s0' : ℝ → ℝ) (iso iso' : Hardening ni) (kin kin' : Hardening nk) : Prop where
  n0 : n T ≠ 0
  eta0 : 0 < eta T
  eta : eta' T' = c * τ ^ (1 / n T) * eta T
  n : n' T' = n T
  s0 : s0' T' = c * s0 T
  iso : HardeningRescaled c τ o T T' iso iso'
  kin : HardeningRescaled c τ o T T' kin kin'

theorem over_units (hc : 0 < c) (hτ : 0 < τ) (H : IsoKinRescaled c τ o T T' n eta s0 n' eta' s0' iso iso' kin kin') (s : ℝ) (h : Fin (ni + nk) → ℝ) :
    macaulay ((|c * s - kin'.value (kinPart (c • h))| - s0' T' - iso'.value (isoPart (c • h))) / eta' T') =
      macaulay ((|s - kin.value (kinPart h)| - s0 T - iso.value (isoPart h)) / eta T) / τ ^ (1 / n T) := by
  have h3 : 0 < τ ^ (1 / n T) := Real.rpow_pos_of_pos hτ _
  have heta := H.eta0
  rw [isoPart_smul, kinPart_smul, H.iso.value, H.kin.value, H.s0, H.eta, ← mul_sub, abs_mul_pos hc]
  rw [show (c * |s - kin.value (kinPart h)| - c * s0 T - c * iso.value (isoPart h)) / (c * τ ^ (1 / n T) * eta T) =
    (τ ^ (1 / n T))⁻¹ * ((|s - kin.value (kinPart h)| - s0 T - iso.value (isoPart h)) / eta T) by field_simp]
  rw [macaulay_scale (inv_pos.2 h3)]
  ring

theorem isoKinFlow_units (hc : 0 < c) (hτ : 0 < τ) (H : IsoKinRescaled c τ o T T' n eta s0 n' eta' s0' iso iso' kin kin') (s : ℝ) (h : Fin (ni + nk) → ℝ) :
    isoKinFlow n' eta' s0' iso' kin' (c * s) (c • h) T' = isoKinFlow n eta s0 iso kin s h T / τ := by
  unfold isoKinFlow
  dsimp only
  rw [over_units hc hτ H, H.n, visc_units hτ H.n0 (macaulay_nonneg' _), kinPart_smul, H.kin.value, ← mul_sub, sgn_scale hc]
  ring

theorem isoKinDs_units (hc : 0 < c) (hτ : 0 < τ) (H : IsoKinRescaled c τ o T T' n eta s0 n' eta' s0' iso iso' kin kin') (s : ℝ) (h : Fin (ni + nk) → ℝ) :
    isoKinDs n' eta' s0' iso' kin' (c * s) (c • h) T' = isoKinDs n eta s0 iso kin s h T / (c * τ) := by
  unfold isoKinDs
  dsimp only
  rw [over_units hc hτ H, H.n, H.eta, mul_div_assoc, visc_deriv hc hτ H.n0 (macaulay_nonneg' _)]
  ring

theorem isoKinDiso_units (hc : 0 < c) (hτ : 0 < τ) (H : IsoKinRescaled c τ o T T' n eta s0 n' eta' s0' iso iso' kin kin') (s : ℝ) (h : Fin (ni + nk) → ℝ) :
    isoKinDiso n' eta' s0' iso' kin' (c * s) (c • h) T' = isoKinDiso n eta s0 iso kin s h T / (c * τ) := by
  unfold isoKinDiso
  dsimp only
  rw [over_units hc hτ H, H.n, H.eta, mul_div_assoc (-(n T)), visc_deriv hc hτ H.n0 (macaulay_nonneg' _), kinPart_smul, H.kin.value, ← mul_sub,
    sgn_scale hc]
  ring

theorem isoKinDkin_units (hc : 0 < c) (hτ : 0 < τ) (H : IsoKinRescaled c τ o T T' n eta s0 n' eta' s0' iso iso' kin kin') (s : ℝ) (h : Fin (ni + nk) → ℝ) :
    isoKinDkin n' eta' s0' iso' kin' (c * s) (c • h) T' = isoKinDkin n eta s0 iso kin s h T / (c * τ) := by
  unfold isoKinDkin
  dsimp only
  rw [over_units hc hτ H, H.n, H.eta, mul_div_assoc, visc_deriv hc hτ H.n0 (macaulay_nonneg' _)]
  ring

theorem isoKin_units (hc : 0 < c) (hτ : 0 < τ) (H : IsoKinRescaled c τ o T T' n eta s0 n' eta' s0' iso iso' kin kin') :
    FlowRescaled c τ o T T' (isoKin n eta s0 iso kin) (isoKin n' eta' s0' iso' kin') where
  flow s h t e := isoKinFlow_units hc hτ H s h
  dflow_ds s h t e := isoKinDs_units hc hτ H s h
  dflow_dh s h t e := by
    simp only [isoKin]
    rw [← append_smul]
    congr 1 <;> funext j
    · rw [isoKinDiso_units hc hτ H, isoPart_smul, H.iso.dvalue]; simp only [Pi.smul_apply, smul_eq_mul]; ring
    · rw [isoKinDkin_units hc hτ H, kinPart_smul, H.kin.dvalue]; simp only [Pi.smul_apply, smul_eq_mul]; ring
  dflow_de s h t e := rfl
  hist s h t e := by
    simp only [isoKin]
    rw [isoKinFlow_units hc hτ H, isoPart_smul, kinPart_smul, H.iso.rate, H.kin.rate, append_smul]
  dhist_dh s h t e := by
    ext i j
    rw [Matrix.smul_apply]
    simp only [isoKin]
    rw [isoKinFlow_units hc hτ H, isoPart_smul, kinPart_smul, H.iso.drate_dh, H.kin.drate_dh, H.iso.drate_dep, H.kin.drate_dep, H.iso.dvalue, H.kin.dvalue,
      isoKinDiso_units hc hτ H, isoKinDkin_units hc hτ H]
    refine Fin.addCases (fun i => ?_) (fun i => ?_) i <;> refine Fin.addCases (fun j => ?_) (fun j => ?_) j <;>
      simp only [Matrix.smul_apply, Fin.append_left, Fin.append_right, Pi.smul_apply, smul_eq_mul] <;> field_simp
  dhist_ds s h t e := by
    simp only [isoKin]
    rw [isoKinFlow_units hc hτ H, isoPart_smul, kinPart_smul, H.iso.drate_ds, H.kin.drate_ds, H.iso.drate_dep, H.kin.drate_dep,
      isoKinDs_units hc hτ H]
    funext i
    refine Fin.addCases (fun i => ?_) (fun i => ?_) i <;>
      simp only [Fin.append_left, Fin.append_right, Pi.smul_apply, smul_eq_mul] <;> field_simp
  dhist_de s h t e := by
    simp only [isoKin]
    rw [isoKinFlow_units hc hτ H, isoPart_smul, kinPart_smul, H.iso.drate_de, H.kin.drate_de, append_smul]

end IsoKin

/-! ## Switches and the wrapper -/

/-- The constants of the Kocks–Mecking rules in the new units: the reference rate and the offset are rates, `k T / (μ b³)` is a pure number. -/
structure KMRescaled (τ T T' : ℝ) (p p' : KMParams) : Prop where
  g0 : p'.g0 = p.g0
  energy : p'.k * T' / (p'.mu T' * p'.b ^ (3 : ℝ)) = p.k * T / (p.mu T * p.b ^ (3 : ℝ))
  eps0 : p'.eps0 = p.eps0 / τ
  eps : p'.eps = p.eps / τ

theorem g_units (hτ : 0 < τ) {p p' : KMParams} (H : KMRescaled τ T T' p p') (e : ℝ) : p'.g T' (e / τ) = p.g T e := by
  unfold KMParams.g
  rw [H.energy, H.eps0, H.eps, abs_div_pos hτ, ← add_div, div_div_div_cancel_right₀ hτ.ne']

theorem dg_units (hτ : 0 < τ) {p p' : KMParams} (H : KMRescaled τ T T' p p') (e : ℝ) : p'.dg T' (e / τ) = τ * p.dg T e := by
  unfold KMParams.dg
  rw [H.energy, H.eps, abs_div_pos hτ, ← add_div, sgn_div hτ, div_div_eq_mul_div]
  ring

theorem switch_units {α : Type*} (hτ : 0 < τ) {p p' : KMParams} (H : KMRescaled τ T T' p p') (e : ℝ) (v1 v2 v1' v2' : α) (φ : α → α)
    (h1 : v1' = φ v1) (h2 : v2' = φ v2) : switchValues p' v1' v2' T' (e / τ) = φ (switchValues p v1 v2 T e) := by
  unfold switchValues
  rw [g_units hτ H, H.g0, h1, h2]
  by_cases h : p.g T e > p.g0
  · rw [if_pos h, if_pos h]
  · rw [if_neg h, if_neg h]

theorem kmSwitch_units (hτ : 0 < τ) {n : ℕ} {p p' : KMParams} (H : KMRescaled τ T T' p p') {f1 f2 f1' f2' : FlowRule n}
    (h1 : FlowRescaled c τ o T T' f1 f1') (h2 : FlowRescaled c τ o T T' f2 f2') :
    FlowRescaled c τ o T T' (kmSwitch f1 f2 p) (kmSwitch f1' f2' p') where
  flow s h t e := switch_units hτ H e _ _ _ _ (· / τ) (h1.flow s h t e) (h2.flow s h t e)
  dflow_ds s h t e := switch_units hτ H e _ _ _ _ (· / (c * τ)) (h1.dflow_ds s h t e) (h2.dflow_ds s h t e)
  dflow_dh s h t e := switch_units hτ H e _ _ _ _ ((1 / (c * τ)) • ·) (h1.dflow_dh s h t e) (h2.dflow_dh s h t e)
  dflow_de s h t e := switch_units hτ H e _ _ _ _ id (h1.dflow_de s h t e) (h2.dflow_de s h t e)
  hist s h t e := switch_units hτ H e _ _ _ _ ((c / τ) • ·) (h1.hist s h t e) (h2.hist s h t e)
  dhist_dh s h t e := switch_units hτ H e _ _ _ _ ((1 / τ) • ·) (h1.dhist_dh s h t e) (h2.dhist_dh s h t e)
  dhist_ds s h t e := switch_units hτ H e _ _ _ _ ((1 / τ) • ·) (h1.dhist_ds s h t e) (h2.dhist_ds s h t e)
  dhist_de s h t e := switch_units hτ H e _ _ _ _ (c • ·) (h1.dhist_de s h t e) (h2.dhist_de s h t e)

theorem softF_units (hτ : 0 < τ) {p p' : KMParams} (H : KMRescaled τ T T' p p') (sf e : ℝ) : softF p' sf T' (e / τ) = softF p sf T e := by
  unfold softF
  rw [g_units hτ H, H.g0]

theorem softDF_units (hτ : 0 < τ) {p p' : KMParams} (H : KMRescaled τ T T' p p') (sf e : ℝ) : softDF p' sf T' (e / τ) = τ * softDF p sf T e := by
  unfold softDF
  rw [g_units hτ H, dg_units hτ H, H.g0]
  ring

theorem blend_units {α : Type*} [AddCommGroup α] [Module ℝ α] (hτ : 0 < τ) {p p' : KMParams} (H : KMRescaled τ T T' p p') (sf e a : ℝ) (v1 v2 : α) :
    blend p' sf (a • v1) (a • v2) T' (e / τ) = a • blend p sf v1 v2 T e := by
  unfold blend
  rw [softF_units hτ H, smul_add, smul_comm a, smul_comm a]

theorem kmSoft_units (hτ : 0 < τ) {n : ℕ} {p p' : KMParams} (H : KMRescaled τ T T' p p') (sf : ℝ) {f1 f2 f1' f2' : FlowRule n}
    (h1 : FlowRescaled c τ o T T' f1 f1') (h2 : FlowRescaled c τ o T T' f2 f2') :
    FlowRescaled c τ o T T' (kmSoft f1 f2 p sf) (kmSoft f1' f2' p' sf) where
  flow s h t e := by
    simp only [kmSoft]
    rw [h1.flow, h2.flow]
    have := blend_units hτ H sf e τ⁻¹ (f1.flow s h t T e) (f2.flow s h t T e)
    simp only [smul_eq_mul, ← div_eq_inv_mul] at this
    exact this
  dflow_ds s h t e := by
    simp only [kmSoft]
    rw [h1.dflow_ds, h2.dflow_ds]
    have := blend_units hτ H sf e (c * τ)⁻¹ (f1.dflow_ds s h t T e) (f2.dflow_ds s h t T e)
    simp only [smul_eq_mul, ← div_eq_inv_mul] at this
    exact this
  dflow_dh s h t e := by
    simp only [kmSoft]
    rw [h1.dflow_dh, h2.dflow_dh]
    exact blend_units hτ H sf e _ _ _
  dflow_de s h t e := by
    simp only [kmSoft]
    rw [h1.dflow_de, h2.dflow_de, h1.flow, h2.flow, softDF_units hτ H]
    have := blend_units hτ H sf e 1 (f1.dflow_de s h t T e) (f2.dflow_de s h t T e)
    rw [one_smul, one_smul, one_smul] at this
    rw [this]
    field_simp
  hist s h t e := by
    simp only [kmSoft]
    rw [h1.hist, h2.hist]
    exact blend_units hτ H sf e _ _ _
  dhist_dh s h t e := by
    simp only [kmSoft]
    rw [h1.dhist_dh, h2.dhist_dh]
    exact blend_units hτ H sf e _ _ _
  dhist_ds s h t e := by
    simp only [kmSoft]
    rw [h1.dhist_ds, h2.dhist_ds]
    exact blend_units hτ H sf e _ _ _
  dhist_de s h t e := by
    simp only [kmSoft]
    rw [h1.dhist_de, h2.dhist_de, h1.hist, h2.hist, softDF_units hτ H, blend_units hτ H sf e c]
    funext i
    simp only [Pi.smul_apply, smul_eq_mul]
    field_simp

theorem rateIndependent_units (hτ : 0 < τ) {n : ℕ} {f f' : FlowRule n} (lmbda epsRef : ℝ) (h : FlowRescaled c τ o T T' f f') :
    FlowRescaled c τ o T T' (rateIndependent f lmbda epsRef) (rateIndependent f' lmbda (epsRef / τ)) := by
  have hs : ∀ e, riScale lmbda (epsRef / τ) (e / τ) = riScale lmbda epsRef e := fun e => by
    unfold riScale
    rw [abs_div_pos hτ, mul_div_assoc', div_div_div_cancel_right₀ hτ.ne']
  have hd : ∀ e, riDScale lmbda (epsRef / τ) (e / τ) = τ * riDScale lmbda epsRef e := fun e => by
    unfold riDScale
    rw [sgn_div hτ, div_div_eq_mul_div]
    ring
  constructor <;> intro s x t e <;> simp only [rateIndependent, hs, hd]
  · rw [h.flow]; ring
  · rw [h.dflow_ds]; ring
  · rw [h.dflow_dh]; funext i; simp only [Pi.smul_apply, smul_eq_mul]; ring
  · rw [h.dflow_de, h.flow]; field_simp
  · rw [h.hist]; funext i; simp only [Pi.smul_apply, smul_eq_mul]; ring
  · rw [h.dhist_dh, smul_comm]
  · rw [h.dhist_ds]; funext i; simp only [Pi.smul_apply, smul_eq_mul]; ring
  · rw [h.dhist_de, h.hist]; funext i; simp only [Pi.smul_apply, smul_eq_mul]; field_simp

/-! ## Damage -/

theorem noDamage_units : DamageRescaled τ o T T' noDamage noDamage := by
  constructor <;> intros <;> simp [noDamage]

theorem constantDamage_units {R R' : ℝ → ℝ} (h : R' T' = R T / τ) : DamageRescaled τ o T T' (constantDamage R) (constantDamage R') := by
  constructor <;> intros <;> simp [constantDamage, h]

/-! ## Material models -/

theorem inelastic_units (hc : 0 < c) (hτ : 0 < τ) {n : ℕ} {E E' : ℝ → ℝ} {f f' : FlowRule n} (hE : E' T' = c * E T)
    (h : FlowRescaled c τ o T T' f f') : ModelRescaled c τ o T T' (inelastic E f) (inelastic E' f') := by
  intro t y e
  have hh : (fun j : Fin n => (c • y) j.succ) = c • fun j : Fin n => y j.succ := rfl
  have h0 : (c • y) 0 = c * y 0 := rfl
  refine ⟨?_, ?_, ?_⟩
  · simp only [inelastic]
    rw [hh, h0, h.flow, h.hist, hE]
    funext j
    refine Fin.cases ?_ (fun i => ?_) j
    · simp only [Fin.cons_zero, Pi.smul_apply, smul_eq_mul]; field_simp
    · simp only [Fin.cons_succ, Pi.smul_apply]
  · ext i j
    rw [Matrix.smul_apply]
    simp only [inelastic]
    rw [hh, h0, hE]
    refine Fin.cases ?_ (fun i => ?_) i <;> refine Fin.cases ?_ (fun j => ?_) j <;> simp only [Fin.cons_zero, Fin.cons_succ, smul_eq_mul] <;>
      [rw [h.dflow_ds]; rw [h.dflow_dh]; rw [h.dhist_ds]; rw [h.dhist_dh]] <;> (try simp only [Matrix.smul_apply, Pi.smul_apply, smul_eq_mul]) <;> (try field_simp)
  · simp only [inelastic]
    rw [hh, h0, h.dflow_de, h.dhist_de, hE]
    funext j
    refine Fin.cases ?_ (fun i => ?_) j
    · simp only [Fin.cons_zero, Pi.smul_apply, smul_eq_mul]; ring
    · simp only [Fin.cons_succ, Pi.smul_apply]

theorem damaged_units (hτ : 0 < τ) {n : ℕ} {E E' : ℝ → ℝ} {f f' : FlowRule n} {D D' : Damage} (hE : E' T' = E T)
    (h : FlowRescaled 1 τ o T T' f f') (hD : DamageRescaled τ o T T' D D') :
    ModelRescaled 1 τ o T T' (damaged E f D) (damaged E' f' D') := by
  intro t y e
  have h1 := h.flow; have h2 := h.dflow_ds; have h3 := h.dflow_dh; have h4 := h.dflow_de; have h5 := h.hist; have h6 := h.dhist_dh
  have h7 := h.dhist_ds; have h8 := h.dhist_de
  simp only [one_mul, one_smul] at h1 h2 h3 h4 h5 h6 h7 h8 ⊢
  refine ⟨?_, ?_, ?_⟩
  · simp only [damaged]
    rw [h1, h5, hE, hD.rate]
    funext j
    refine Fin.cases ?_ (fun i => ?_) j
    · simp only [cat3, Fin.cons_zero, Pi.smul_apply, smul_eq_mul]; field_simp
    · refine Fin.lastCases ?_ (fun i => ?_) i
      · simp only [cat3, Fin.cons_succ, Fin.snoc_last, Pi.smul_apply, smul_eq_mul]; ring
      · simp only [cat3, Fin.cons_succ, Fin.snoc_castSucc, Pi.smul_apply]
  · ext i j
    rw [Matrix.smul_apply]
    simp only [damaged]
    rw [h1, h2, hE, hD.drate_dd, hD.drate_ds]
    refine Fin.cases ?_ (fun i => ?_) i
    · refine Fin.cases ?_ (fun j => ?_) j
      · simp only [cat3, Fin.cons_zero, smul_eq_mul]; ring
      · refine Fin.lastCases ?_ (fun j => ?_) j
        · simp only [cat3, Fin.cons_zero, Fin.cons_succ, Fin.snoc_last, smul_eq_mul]; ring
        · simp only [cat3, Fin.cons_zero, Fin.cons_succ, Fin.snoc_castSucc, smul_eq_mul]
          rw [h3]
          simp only [Pi.smul_apply, smul_eq_mul]; ring
    · refine Fin.lastCases ?_ (fun i => ?_) i
      · refine Fin.cases ?_ (fun j => ?_) j
        · simp only [cat3, Fin.cons_zero, Fin.cons_succ, Fin.snoc_last, smul_eq_mul]; ring
        · refine Fin.lastCases ?_ (fun j => ?_) j
          · simp only [cat3, Fin.cons_succ, Fin.snoc_last, smul_eq_mul]; ring
          · simp only [cat3, Fin.cons_succ, Fin.snoc_last, Fin.snoc_castSucc, Pi.zero_apply, smul_zero]
      · refine Fin.cases ?_ (fun j => ?_) j
        · simp only [cat3, Fin.cons_zero, Fin.cons_succ, Fin.snoc_castSucc, smul_eq_mul]
          rw [h7]
          simp only [Pi.smul_apply, smul_eq_mul]; ring
        · refine Fin.lastCases ?_ (fun j => ?_) j
          · simp only [cat3, Fin.cons_succ, Fin.snoc_castSucc, Fin.snoc_last, smul_eq_mul]
            rw [h7]
            simp only [Pi.smul_apply, smul_eq_mul]; ring
          · simp only [cat3, Fin.cons_succ, Fin.snoc_castSucc]
            rw [h6]
            rfl
  · simp only [damaged]
    rw [h4, h8, hE, hD.drate_de]

end Pyoptmat.Units
