import Verif.Proofs.Histories
import Verif.Props.Models
import Verif.Props.Control

/-!
# Properties C71-C77: Larson-Miller derivatives, and what the tests simulated with the material models look like

`IsBackwardEuler` is in `Spec/Ode.lean`, `VCAdmissible` and `mirror` in `Spec/Material.lean`.
-/

namespace Pyoptmat.Props

open Pyoptmat Pyoptmat.Spec Pyoptmat.Material Pyoptmat.Control Pyoptmat.Interp

/-! ## C71: Larson-Miller derivatives -/

/-- **C71.** The reported derivative of the Larson-Miller damage rate with respect to the damage is exact. -/
theorem C71_damage_derivative (C A B : ℝ → ℝ) (eps s d t T e : ℝ) (hs : s ≠ 0) (hd : d < 1) (hT : T ≠ 0) :
    HasDerivAt (fun d => (larsonMiller C A B eps).rate s d t T e) ((larsonMiller C A B eps).drate_dd s d t T e) d := by
  have h1d : 0 < 1 - d := by linarith
  have h0 : |s| * (1 - d) ≠ 0 := mul_ne_zero (abs_ne_zero.2 hs) h1d.ne'
  have h1 := ((((hasDerivAt_id d).const_sub 1).const_mul |s|).rpow_const (p := -A T / T) (Or.inl h0)).const_mul
    ((10 : ℝ) ^ (C T - B T / T))
  refine h1.congr_deriv ?_
  simp only [larsonMiller, id]
  rw [show -(A T + T) / T = -A T / T - 1 by field_simp; ring]
  field_simp

/-- **C71.** The true derivative with respect to the stress is the reported one times `(|s| + eps)/|s|`. -/
theorem C71_stress_derivative (C A B : ℝ → ℝ) (eps s d t T e : ℝ) (heps : 0 ≤ eps) (hs : s ≠ 0) (hd : d < 1) (hT : T ≠ 0) :
    HasDerivAt (fun s => (larsonMiller C A B eps).rate s d t T e)
      ((|s| + eps) / |s| * (larsonMiller C A B eps).drate_ds s d t T e) s := by
  have h1d : 0 < 1 - d := by linarith
  have hsp := abs_pos.2 hs
  have h0 : |s| * (1 - d) ≠ 0 := mul_ne_zero hsp.ne' h1d.ne'
  have h1 := (((hasDerivAt_abs' hs).mul_const (1 - d)).rpow_const (p := -A T / T) (Or.inl h0)).const_mul
    ((10 : ℝ) ^ (C T - B T / T))
  refine h1.congr_deriv ?_
  simp only [larsonMiller]
  have h2 : (|s| * (1 - d)) ^ (-A T / T - 1) = (|s| * (1 - d)) ^ (-A T / T) / (|s| * (1 - d)) := by
    rw [Real.rpow_sub (mul_pos hsp h1d), Real.rpow_one]
  have h3 : |s| + eps ≠ 0 := by linarith
  rw [h2]
  field_simp

/-- **C71.** So the reported stress derivative is exact iff `eps = 0` or the rate does not depend on the stress (`A = 0`); its relative
error is `eps/(|s| + eps)`. -/
theorem C71_exact_iff (C A B : ℝ → ℝ) (eps s d t T e : ℝ) (heps : 0 ≤ eps) (hs : s ≠ 0) (hd : d < 1) (hT : T ≠ 0) :
    HasDerivAt (fun s => (larsonMiller C A B eps).rate s d t T e) ((larsonMiller C A B eps).drate_ds s d t T e) s ↔
      eps = 0 ∨ A T = 0 := by
  have h1 := C71_stress_derivative C A B eps s d t T e heps hs hd hT
  have hsp := abs_pos.2 hs
  have h1d : 0 < 1 - d := by linarith
  constructor
  · intro h
    have h2 := h1.unique h
    have h3 : eps * (larsonMiller C A B eps).drate_ds s d t T e = 0 := by
      field_simp at h2
      linarith
    rcases mul_eq_zero.1 h3 with h4 | h4
    · exact Or.inl h4
    · right
      by_contra hA
      have hk : (0 : ℝ) < 10 ^ (C T - B T / T) := Real.rpow_pos_of_pos (by norm_num) _
      have hp : 0 < (|s| * (1 - d)) ^ (-A T / T) := Real.rpow_pos_of_pos (mul_pos hsp h1d) _
      have hsg : sgn s ≠ 0 := by
        intro h0
        have := sgn_sq hs
        rw [h0] at this; norm_num at this
      revert h4
      simp only [larsonMiller]
      refine mul_ne_zero (div_ne_zero (mul_ne_zero (mul_ne_zero (neg_ne_zero.2 hk.ne') hA) hp.ne') ?_) hsg
      exact mul_ne_zero (by linarith) hT
  · rintro (h | h)
    · rw [h] at h1 ⊢
      rwa [add_zero, div_self hsp.ne', one_mul] at h1
    · have h2 : (larsonMiller C A B eps).drate_ds s d t T e = 0 := by simp [larsonMiller, h]
      rw [h2, mul_zero] at h1
      rw [h2]; exact h1

/-- With the constants of the code's own example the reported derivative is exact only for `eps = 0`. -/
example : ¬ HasDerivAt (fun s => (larsonMiller (fun _ => 28) (fun _ => -6653) (fun _ => 40000) 1e-10).rate s (1 / 2) 0 873 0)
    ((larsonMiller (fun _ => 28) (fun _ => -6653) (fun _ => 40000) 1e-10).drate_ds 100 (1 / 2) 0 873 0) 100 := by
  rw [C71_exact_iff _ _ _ _ _ _ _ _ _ (by norm_num) (by norm_num) (by norm_num) (by norm_num)]; norm_num

/-! ## C72: the elastic range -/

variable {β : Type*} {nk : ℕ}

private theorem be_vc {E n eta s0 R d : ℝ → ℝ} {C g bb r : Fin nk → ℝ → ℝ} {erate temp : β → ℝ → ℝ} {nt : ℕ} {t : ℕ → β → ℝ}
    {y : ℕ → β → Fin (1 + nk + 1) → ℝ}
    (hy : IsBackwardEuler (fun b s x =>
      (inelastic E (isoKin n eta s0 (voce R d) (chabocheRecovery C g bb r)) s x (erate b s) (temp b s)).ydot) nt t y)
    (k b) (hk : k + 1 < nt) :
    let T := temp b (t (k + 1) b)
    let x := y (k + 1) b
    let p := vcFlow n eta s0 x T
    x 0 = y k b 0 + (t (k + 1) b - t k b) * (E T * (erate b (t (k + 1) b) - p)) ∧
      x 1 = y k b 1 + (t (k + 1) b - t k b) * (d T * (R T - x 1) * |p|) ∧
      ∀ i : Fin nk, x (Fin.natAdd 1 i).succ = y k b (Fin.natAdd 1 i).succ + (t (k + 1) b - t k b) * (C i T * p -
          g i T * x (Fin.natAdd 1 i).succ * |p| - bb i T * |x (Fin.natAdd 1 i).succ| ^ (r i T - 1) * x (Fin.natAdd 1 i).succ) :=
  (vc_step_iff E n eta s0 R d C g bb r (t (k + 1) b) (t (k + 1) b - t k b) (y k b) (y (k + 1) b) (erate b (t (k + 1) b))
    (temp b (t (k + 1) b))).1 (hy k b hk)

/-- **C72.** Elastic range. Start with no stress and no hardening. As long as the elastically computed stress
`S_k = Σ E(T_j) ε̇_j Δt_j` has not exceeded the initial yield stress, the computed stress *is* `S_k` and nothing has hardened, whatever the step
sizes and the temperature history. -/
theorem C72_elastic_range (E n eta s0 R d : ℝ → ℝ) (C g bb r : Fin nk → ℝ → ℝ) (erate temp : β → ℝ → ℝ)
    (nt : ℕ) (t : ℕ → β → ℝ) (ht : ∀ k b, k + 1 < nt → t k b ≤ t (k + 1) b) (y : ℕ → β → Fin (1 + nk + 1) → ℝ)
    (hy : IsBackwardEuler (fun b s x =>
      (inelastic E (isoKin n eta s0 (voce R d) (chabocheRecovery C g bb r)) s x (erate b s) (temp b s)).ydot) nt t y)
    (hp : ∀ k b, k < nt → VCAdmissible E n eta s0 R d C g (temp b (t k b)) ∧ ∀ i, 0 ≤ bb i (temp b (t k b)))
    (b : β) (h0 : y 0 b = 0) (S : ℕ → ℝ)
    (hS : ∀ k, S k = ∑ j ∈ Finset.range k, E (temp b (t (j + 1) b)) * ((t (j + 1) b - t j b) * erate b (t (j + 1) b)))
    (k : ℕ) (hk : k < nt) (hel : ∀ j, j ≤ k → |S j| ≤ s0 (temp b (t j b))) :
    y k b 0 = S k ∧ ∀ j, j ≠ 0 → y k b j = 0 := by
  induction k with
  | zero => rw [h0, hS]; simp
  | succ k ih =>
    obtain ⟨i0, i1⟩ := ih (by omega) fun j hj => hel j (by omega)
    obtain ⟨a0, a1, a2⟩ := be_vc hy k b hk
    obtain ⟨ha, hbb⟩ := hp (k + 1) b hk
    have hdt := sub_nonneg.2 (ht k b hk)
    have hSk : S (k + 1) = S k + E (temp b (t (k + 1) b)) * ((t (k + 1) b - t k b) * erate b (t (k + 1) b)) := by
      rw [hS, hS, Finset.sum_range_succ]
    have hSl := hel (k + 1) le_rfl
    rw [i0] at a0
    rw [i1 1 (by simp [Fin.ext_iff])] at a1
    have a2' : ∀ i : Fin nk, _ := fun i => by
      have := a2 i
      rw [i1 _ (Fin.succ_ne_zero _)] at this
      exact this
    generalize hx : y (k + 1) b = x at *
    generalize temp b (t (k + 1) b) = T at *
    generalize erate b (t (k + 1) b) = e at *
    generalize t (k + 1) b - t k b = dt at *
    generalize hpp : vcFlow n eta s0 x T = p at *
    -- the flow vanishes
    have hih : 0 ≤ x 1 := by
      have h1 : x 1 * (1 + dt * (d T * |p|)) = dt * (d T * R T * |p|) := by linear_combination a1
      have h2 : 0 ≤ dt * (d T * |p|) := mul_nonneg hdt (mul_nonneg ha.d (abs_nonneg _))
      have h3 : 0 ≤ dt * (d T * R T * |p|) := mul_nonneg hdt (mul_nonneg (mul_nonneg ha.d ha.R) (abs_nonneg _))
      by_contra hc
      push Not at hc
      nlinarith
    have hxi : ∀ i : Fin nk, ∃ c, 0 ≤ c ∧ x (Fin.natAdd 1 i).succ = c * p := by
      intro i
      have h1 := a2' i
      set w := bb i T * |x (Fin.natAdd 1 i).succ| ^ (r i T - 1) with hw
      have hw0 : 0 ≤ w := mul_nonneg (hbb i) (Real.rpow_nonneg (abs_nonneg _) _)
      have h2 : 0 ≤ dt * (g i T * |p| + w) := mul_nonneg hdt (add_nonneg (mul_nonneg (ha.g i) (abs_nonneg _)) hw0)
      refine ⟨dt * C i T / (1 + dt * (g i T * |p| + w)), div_nonneg (mul_nonneg hdt (ha.C i)) (by linarith), ?_⟩
      rw [div_mul_eq_mul_div, eq_div_iff (by linarith)]
      linear_combination h1
    choose c hc0 hc using hxi
    have hsum : ∑ i : Fin nk, x (Fin.natAdd 1 i).succ = (∑ i, c i) * p := by
      rw [Finset.sum_mul]; exact Finset.sum_congr rfl fun i _ => hc i
    have hcs : 0 ≤ ∑ i, c i := Finset.sum_nonneg fun i _ => hc0 i
    have hw : 0 ≤ s0 T + x 1 := add_nonneg ha.s0 hih
    have hu : x 0 - ∑ i : Fin nk, x (Fin.natAdd 1 i).succ = S (k + 1) - (dt * E T + ∑ i, c i) * p := by
      rw [hsum, a0, hSk]; ring
    have hco : 0 ≤ dt * E T + ∑ i, c i := add_nonneg (mul_nonneg hdt ha.E) hcs
    obtain ⟨l1, l2⟩ := abs_le.1 hSl
    have hp0 : p = 0 := by
      rcases lt_trichotomy p 0 with h | h | h
      · exfalso
        have h1 : 0 < -p := by linarith
        rw [← hpp, vcFlow, ← overflow_neg, overflow_pos_iff ha.n ha.eta hw, hu] at h1
        have := mul_nonneg_of_nonpos_of_nonpos (by linarith : -(dt * E T + ∑ i, c i) ≤ 0) h.le
        linarith
      · exact h
      · exfalso
        have h1 := h
        rw [← hpp, vcFlow, overflow_pos_iff ha.n ha.eta hw, hu] at h1
        have := mul_nonneg hco h.le
        linarith
    refine ⟨?_, ?_⟩
    · rw [a0, hp0, hSk]; ring
    · intro j
      refine cases_vc ?_ ?_ (fun i => ?_) j
      · intro h; exact absurd rfl h
      · intro _; rw [a1, hp0]; simp
      · intro _; rw [hc i, hp0, mul_zero]

/-! ## C73: the stress is bounded -/

/-- **C73.** Stress bound. With strain rates bounded by `emax`, the stress of a simulated test never leaves
`± (yield stress + saturated isotropic strength + saturated backstresses + viscous overstress at emax)`. -/
theorem C73_stress_bound (E n eta s0 R d : ℝ → ℝ) (C g bb r : Fin nk → ℝ → ℝ) (erate temp : β → ℝ → ℝ)
    (nt : ℕ) (t : ℕ → β → ℝ) (ht : ∀ k b, k + 1 < nt → t k b ≤ t (k + 1) b) (y : ℕ → β → Fin (1 + nk + 1) → ℝ)
    (hy : IsBackwardEuler (fun b s x =>
      (inelastic E (isoKin n eta s0 (voce R d) (chabocheRecovery C g bb r)) s x (erate b s) (temp b s)).ydot) nt t y)
    (hp : ∀ k b, k < nt → VCAdmissible E n eta s0 R d C g (temp b (t k b)) ∧ ∀ i, 0 ≤ bb i (temp b (t k b)))
    (Rmax : ℝ) (hR : ∀ k b, k < nt → R (temp b (t k b)) ≤ Rmax) (B : Fin nk → ℝ)
    (hC : ∀ k b i, k < nt → C i (temp b (t k b)) ≤ B i * g i (temp b (t k b)))
    (emax : ℝ) (he : ∀ k b, k < nt → |erate b (t k b)| ≤ emax)
    (M : ℝ) (hM : ∀ k b, k < nt → s0 (temp b (t k b)) + Rmax + ∑ i, B i + eta (temp b (t k b)) * emax ^ (1 / n (temp b (t k b))) ≤ M)
    (h0 : ∀ b, |y 0 b 0| ≤ M ∧ (0 ≤ y 0 b 1 ∧ y 0 b 1 ≤ Rmax) ∧ ∀ i : Fin nk, |y 0 b (Fin.natAdd 1 i).succ| ≤ B i)
    (k b) (hk : k < nt) : |y k b 0| ≤ M := by
  have r39 := C39_voce_range E n eta s0 R d (chabocheRecovery C g bb r) erate temp nt t ht y hy Rmax
    (fun k b hk => (hp k b hk).1.d) (fun k b hk => ⟨(hp k b hk).1.R, hR k b hk⟩) fun b => (h0 b).2.1
  have r40 : ∀ i, _ := fun i => C40_recovery E n eta s0 (voce R d) C g bb r erate temp nt t ht y hy i (B i)
    (fun k b hk => by rw [abs_of_nonneg ((hp k b hk).1.C i)]; exact hC k b i hk) (fun k b hk => (hp k b hk).1.g i)
    (fun k b hk => (hp k b hk).2 i) fun b => (h0 b).2.2 i
  induction k with
  | zero => exact (h0 b).1
  | succ k ih =>
    have ih := ih (by omega)
    obtain ⟨a0, -, -⟩ := be_vc hy k b hk
    obtain ⟨ha, -⟩ := hp (k + 1) b hk
    have hdt := sub_nonneg.2 (ht k b hk)
    obtain ⟨q1, q2⟩ := r39 (k + 1) b hk
    have q3 : |∑ i : Fin nk, y (k + 1) b (Fin.natAdd 1 i).succ| ≤ ∑ i, B i :=
      (Finset.abs_sum_le_sum_abs _ _).trans (Finset.sum_le_sum fun i _ => r40 i (k + 1) b hk)
    have he' := he (k + 1) b hk
    have hM' := hM (k + 1) b hk
    generalize y (k + 1) b = x at *
    generalize temp b (t (k + 1) b) = T at *
    generalize erate b (t (k + 1) b) = e at *
    generalize t (k + 1) b - t k b = dt at *
    have hem : 0 ≤ emax := (abs_nonneg _).trans he'
    have hw : 0 ≤ s0 T + x 1 := add_nonneg ha.s0 q1
    obtain ⟨l1, l2⟩ := abs_le.1 q3
    obtain ⟨e1, e2⟩ := abs_le.1 he'
    obtain ⟨m1, m2⟩ := abs_le.1 ih
    -- beyond the bound, the material flows at least as fast as it is strained
    have key : ∀ u, s0 T + x 1 + eta T * emax ^ (1 / n T) < u → emax ≤ overflow (n T) (eta T) (u, s0 T + x 1) := by
      intro u hu
      have h0' : 0 ≤ eta T * emax ^ (1 / n T) := mul_nonneg ha.eta.le (Real.rpow_nonneg hem _)
      rw [overflow_of_gt ha.eta hw (by linarith)]
      have h1 : emax ^ (1 / n T) ≤ (u - (s0 T + x 1)) / eta T := by
        rw [le_div_iff₀ ha.eta]; linarith
      have h2 := Real.rpow_le_rpow (Real.rpow_nonneg hem _) h1 ha.n.le
      rwa [← Real.rpow_mul hem, one_div_mul_cancel ha.n.ne', Real.rpow_one] at h2
    have hEdt : 0 ≤ dt * E T := mul_nonneg hdt ha.E
    rw [abs_le]
    constructor
    · by_contra hc
      push Not at hc
      have h1 := key (-(x 0 - ∑ i : Fin nk, x (Fin.natAdd 1 i).succ)) (by linarith)
      rw [overflow_neg] at h1
      change emax ≤ -vcFlow n eta s0 x T at h1
      have h2 := mul_nonneg hEdt (by linarith : 0 ≤ e - vcFlow n eta s0 x T)
      linarith
    · by_contra hc
      push Not at hc
      have h1 := key (x 0 - ∑ i : Fin nk, x (Fin.natAdd 1 i).succ) (by linarith)
      change emax ≤ vcFlow n eta s0 x T at h1
      have h2 := mul_nonneg hEdt (by linarith : 0 ≤ vcFlow n eta s0 x T - e)
      linarith

/-! ## C74: every implicit step has exactly one solution -/

/-- **C74.** From a state with isotropic strength in `[0, R]` and backstresses in `[-C_i/g_i, C_i/g_i]`, the backward Euler equation of the
Voce-Chaboche model has exactly one solution, for every step size, strain rate and temperature. -/
theorem C74_step (E n eta s0 R d : ℝ → ℝ) (C g : Fin nk → ℝ → ℝ) (t dt : ℝ) (y : Fin (1 + nk + 1) → ℝ) (e T : ℝ)
    (hdt : 0 ≤ dt) (hp : VCAdmissible E n eta s0 R d C g T) (hr : 0 ≤ y 1 ∧ y 1 ≤ R T)
    (hx : ∀ i : Fin nk, |y (Fin.natAdd 1 i).succ| * g i T ≤ C i T) :
    ∃! y', y' = y + dt • (inelastic E (isoKin n eta s0 (voce R d) (chaboche C g)) t y' e T).ydot :=
  vc_step_unique E n eta s0 R d C g t dt y e T hdt hp.E hp.n hp.eta hp.s0 hp.d hp.g hr.1 hr.2 hx

/-- Admissible states in the sense of C74, for saturation values `R0` and `B`. -/
private def Adm (R0 : ℝ) (B : Fin nk → ℝ) (y : Fin (1 + nk + 1) → ℝ) : Prop :=
  (0 ≤ y 1 ∧ y 1 ≤ R0) ∧ ∀ i : Fin nk, |y (Fin.natAdd 1 i).succ| ≤ B i

private theorem adm_step (E n eta s0 R d : ℝ → ℝ) (C g : Fin nk → ℝ → ℝ) (R0 : ℝ) (B : Fin nk → ℝ) (t dt : ℝ)
    (y y' : Fin (1 + nk + 1) → ℝ) (e T : ℝ) (hdt : 0 ≤ dt) (hp : VCAdmissible E n eta s0 R d C g T) (hR : R T = R0)
    (hC : ∀ i, C i T = B i * g i T) (hy : Adm R0 B y)
    (h : y' = y + dt • (inelastic E (isoKin n eta s0 (voce R d) (chaboche C g)) t y' e T).ydot) : Adm R0 B y' := by
  -- a history with two times
  let Y : ℕ → Unit → Fin (1 + nk + 1) → ℝ := fun k _ => if k = 0 then y else y'
  let τ : ℕ → Unit → ℝ := fun k _ => if k = 0 then t - dt else t
  have hbe : IsBackwardEuler (fun _ s x => (inelastic E (isoKin n eta s0 (voce R d) (chaboche C g)) s x ((fun _ _ => e) () s)
      ((fun _ _ => T) () s)).ydot) 2 τ Y := by
    intro k b hk
    obtain rfl : k = 0 := by omega
    change y' = y + (t - (t - dt)) • _
    rw [sub_sub_cancel]; exact h
  have hτ : ∀ k b, k + 1 < 2 → τ k b ≤ τ (k + 1) b := by
    intro k b hk
    obtain rfl : k = 0 := by omega
    change t - dt ≤ t
    linarith
  refine ⟨?_, fun i => ?_⟩
  · exact C39_voce_range E n eta s0 R d (chaboche C g) (fun _ _ => e) (fun _ _ => T) 2 τ hτ Y hbe R0 (fun _ _ _ => hp.d)
      (fun _ _ _ => ⟨hp.R, hR.le⟩) (fun _ => hy.1) 1 () (by norm_num)
  · exact C40_chaboche E n eta s0 (voce R d) C g (fun _ _ => e) (fun _ _ => T) 2 τ hτ Y hbe i (B i)
      (fun _ _ _ => by rw [abs_of_nonneg (hp.C i)]; exact (hC i).le) (fun _ _ _ => hp.g i) (fun _ => hy.2 i) 1 () (by norm_num)

/-- **C74.** Hence, from any admissible initial state, there is exactly one backward Euler history. (Saturation values `R` and `C_i/g_i` that do not
depend on the temperature; all other parameters may.) -/
theorem C74_history (E n eta s0 R d : ℝ → ℝ) (C g : Fin nk → ℝ → ℝ) (erate temp : β → ℝ → ℝ) (nt : ℕ) (t : ℕ → β → ℝ)
    (ht : ∀ k b, k + 1 < nt → t k b ≤ t (k + 1) b) (R0 : ℝ) (B : Fin nk → ℝ)
    (hp : ∀ k b, k < nt → VCAdmissible E n eta s0 R d C g (temp b (t k b)) ∧ R (temp b (t k b)) = R0 ∧
      ∀ i, C i (temp b (t k b)) = B i * g i (temp b (t k b)))
    (y0 : β → Fin (1 + nk + 1) → ℝ)
    (h0 : ∀ b, (0 ≤ y0 b 1 ∧ y0 b 1 ≤ R0) ∧ ∀ i : Fin nk, |y0 b (Fin.natAdd 1 i).succ| ≤ B i) :
    (∃ y : ℕ → β → Fin (1 + nk + 1) → ℝ, y 0 = y0 ∧ IsBackwardEuler (fun b s x =>
      (inelastic E (isoKin n eta s0 (voce R d) (chaboche C g)) s x (erate b s) (temp b s)).ydot) nt t y) ∧
    ∀ y y' : ℕ → β → Fin (1 + nk + 1) → ℝ, y 0 = y0 → y' 0 = y0 →
      IsBackwardEuler (fun b s x =>
        (inelastic E (isoKin n eta s0 (voce R d) (chaboche C g)) s x (erate b s) (temp b s)).ydot) nt t y →
      IsBackwardEuler (fun b s x =>
        (inelastic E (isoKin n eta s0 (voce R d) (chaboche C g)) s x (erate b s) (temp b s)).ydot) nt t y' →
      ∀ k, k < nt → y k = y' k := by
  have step : ∀ k b, k + 1 < nt → ∀ z, Adm R0 B z → ∃! z', z' = z + (t (k + 1) b - t k b) •
      (inelastic E (isoKin n eta s0 (voce R d) (chaboche C g)) (t (k + 1) b) z' (erate b (t (k + 1) b)) (temp b (t (k + 1) b))).ydot := by
    intro k b hk z hz
    obtain ⟨ha, hR, hC⟩ := hp (k + 1) b hk
    refine C74_step E n eta s0 R d C g _ _ z _ _ (sub_nonneg.2 (ht k b hk)) ha ⟨hz.1.1, hR ▸ hz.1.2⟩ fun i => ?_
    rw [hC i]; exact mul_le_mul_of_nonneg_right (hz.2 i) (ha.g i)
  have adm : ∀ k b, k + 1 < nt → ∀ z z', Adm R0 B z → z' = z + (t (k + 1) b - t k b) •
      (inelastic E (isoKin n eta s0 (voce R d) (chaboche C g)) (t (k + 1) b) z' (erate b (t (k + 1) b)) (temp b (t (k + 1) b))).ydot →
      Adm R0 B z' := by
    intro k b hk z z' hz h
    obtain ⟨ha, hR, hC⟩ := hp (k + 1) b hk
    exact adm_step E n eta s0 R d C g R0 B _ _ z z' _ _ (sub_nonneg.2 (ht k b hk)) ha hR hC hz h
  constructor
  · classical
    let nxt : ℕ → β → (Fin (1 + nk + 1) → ℝ) → Fin (1 + nk + 1) → ℝ := fun k b z =>
      if h : k + 1 < nt ∧ Adm R0 B z then (step k b h.1 z h.2).choose else z
    let y : ℕ → β → Fin (1 + nk + 1) → ℝ := fun k b => Nat.rec (y0 b) (fun k z => nxt k b z) k
    have hys : ∀ k b, y (k + 1) b = nxt k b (y k b) := fun k b => rfl
    have hadm : ∀ k b, k < nt → Adm R0 B (y k b) := by
      intro k b
      induction k with
      | zero => intro _; exact h0 b
      | succ k ih =>
        intro hk
        have h1 := ih (by omega)
        rw [hys]
        simp only [nxt]
        rw [dif_pos ⟨hk, h1⟩]
        exact adm k b hk _ _ h1 (step k b hk _ h1).choose_spec.1
    refine ⟨y, rfl, fun k b hk => ?_⟩
    have h1 := hadm k b (by omega)
    have h2 : y (k + 1) b = (step k b hk _ h1).choose := by
      rw [hys]; simp only [nxt]; rw [dif_pos ⟨hk, h1⟩]
    have h3 := (step k b hk _ h1).choose_spec.1
    rw [← h2] at h3
    exact h3
  · intro y y' hy0 hy0' hy hy' k
    have main : k < nt → (∀ b, y k b = y' k b) ∧ ∀ b, Adm R0 B (y k b) := by
      induction k with
      | zero => intro _; exact ⟨fun b => by rw [hy0, hy0'], fun b => by rw [hy0]; exact h0 b⟩
      | succ k ih =>
        intro hk
        obtain ⟨i1, i2⟩ := ih (by omega)
        refine ⟨fun b => ?_, fun b => adm k b hk _ _ (i2 b) (hy k b hk)⟩
        have e' := hy' k b hk
        rw [← i1 b] at e'
        exact (step k b hk _ (i2 b)).unique (hy k b hk) e'
    intro hk
    exact funext (main hk).1

/-- **C74.** So the simulated strain controlled test (zero initial state, exact Newton solves, increasing times) does not depend on the block size, the linear
solver, the initial guess or the iteration limit. Only the material of this test matters; the other tests of the batch may have any. -/
theorem C74_solve_strain_block_size (c c' : Ode.Config) (hs : c.scheme = .backwardEuler) (hs' : c'.scheme = .backwardEuler)
    (hm : 0 ≤ c.miter) (hm' : 0 ≤ c'.miter) (hr : c.rtol = 0) (ha : c.atol = 0) (hr' : c'.rtol = 0) (ha' : c'.atol = 0)
    (model : β → Model (1 + nk + 1)) (nt : ℕ) (times strains temps : ℕ → β → ℝ) (blk blk' : ℤ)
    (hb : 0 < blk) (hb' : 0 < blk') (res res' : Ode.Partial β (1 + nk + 1))
    (h : solveStrain c model nt times strains temps blk = .ok (res, false))
    (h' : solveStrain c' model nt times strains temps blk' = .ok (res', false))
    (b : β) (hg : StrictGrid (nt - 1) fun k => times k b) (E n eta s0 R d : ℝ → ℝ) (C g : Fin nk → ℝ → ℝ)
    (hmod : model b = inelastic E (isoKin n eta s0 (voce R d) (chaboche C g))) (R0 : ℝ) (B : Fin nk → ℝ)
    (hp : ∀ k, k < nt → VCAdmissible E n eta s0 R d C g (temps k b) ∧ R (temps k b) = R0 ∧
      ∀ i, C i (temps k b) = B i * g i (temps k b)) (hR0 : 0 ≤ R0) (hB : ∀ i, 0 ≤ B i)
    (k : ℕ) (hk : k < nt) : res.get k b = res'.get k b := by
  obtain ⟨e, g0⟩ := strain_lane_backward c hs hm hr ha model nt times strains temps blk hb res h b _ hmod
  obtain ⟨e', g0'⟩ := strain_lane_backward c' hs' hm' hr' ha' model nt times strains temps blk' hb' res' h' b _ hmod
  rcases Nat.lt_or_ge 1 nt with hnt | hnt
  · refine congrFun ((C74_history (β := Unit) E n eta s0 R d C g (fun _ => rateFn nt (fun k => times k b) fun k => strains k b)
      (fun _ => dataFn nt (fun k => times k b) fun k => temps k b) nt (fun k _ => times k b) ?_ R0 B ?_ 0 ?_).2 (fun k _ => res.get k b) (fun k _ => res'.get k b)
      (funext fun _ => g0) (funext fun _ => g0') e e' k hk) ()
    · intro k _ hk; exact (hg k (by omega)).le
    · intro k _ hk
      beta_reduce
      rw [dataFn_grid hg (fun k => temps k b) hk hnt]
      exact hp k hk
    · intro _
      exact ⟨⟨le_rfl, hR0⟩, fun i => by simpa using hB i⟩
  · obtain rfl : k = 0 := by omega
    rw [g0, g0']

/-- Ordinary parameters meet the hypotheses of C72-C74. -/
example : VCAdmissible (nk := 2) (fun T => 200000 - 50 * T ^ 0) (fun _ => 5) (fun _ => 300) (fun _ => 50) (fun _ => 100) (fun T => 10 + T ^ 2)
    (fun i T => (1000 + 100 * i.val) * (2 + T ^ 2)) (fun _ T => 2 + T ^ 2) 300 ∧
    ∀ i : Fin 2, (fun (i : Fin 2) (T : ℝ) => (1000 + 100 * i.val) * (2 + T ^ 2)) i 300 =
      (1000 + 100 * i.val : ℝ) * (fun (_ : Fin 2) (T : ℝ) => 2 + T ^ 2) i 300 := by
  refine ⟨⟨?_, ?_, ?_, ?_, ?_, ?_, fun i => ?_, fun i => ?_⟩, fun i => rfl⟩ <;> norm_num <;> positivity

/-- The two regimes are both met: with `E = 100`, `s0 = 10`, a step of strain `1/20` gives the elastic stress `5`; from C74 and C72. -/
example : ∃ y : ℕ → Unit → Fin (1 + 1 + 1) → ℝ, IsBackwardEuler (fun b s x =>
      (inelastic (fun _ => 100) (isoKin (fun _ => 5) (fun _ => 300) (fun _ => 10) (voce (fun _ => 100) (fun _ => 10))
        (chabocheRecovery (fun _ _ => 1000) (fun _ _ => 2) (fun _ _ => 0) (fun _ _ => 1))) s x ((fun _ _ => 1 / 20) b s)
        ((fun _ _ => 300) b s)).ydot) 2 (fun k _ => k) y ∧ y 1 () 0 = 5 := by
  have hadm : VCAdmissible (nk := 1) (fun _ => 100) (fun _ => 5) (fun _ => 300) (fun _ => 10) (fun _ => 100) (fun _ => 10)
      (fun _ _ => 1000) (fun _ _ => 2) 300 := by
    refine ⟨?_, ?_, ?_, ?_, ?_, ?_, fun i => ?_, fun i => ?_⟩ <;> norm_num
  obtain ⟨⟨y, hy0, hy⟩, -⟩ := C74_history (β := Unit) (nk := 1) (fun _ => 100) (fun _ => 5) (fun _ => 300) (fun _ => 10) (fun _ => 100)
    (fun _ => 10) (fun _ _ => 1000) (fun _ _ => 2) (fun _ _ => 1 / 20) (fun _ _ => 300) 2 (fun k _ => k)
    (by intro k b _; simp) 100 (fun _ => 500) (fun k b _ => ⟨hadm, rfl, fun i => by norm_num⟩) 0 (by intro b; norm_num)
  have hy' : IsBackwardEuler (fun b s x =>
      (inelastic (fun _ => 100) (isoKin (fun _ => 5) (fun _ => 300) (fun _ => 10) (voce (fun _ => 100) (fun _ => 10))
        (chabocheRecovery (nback := 1) (fun _ _ => 1000) (fun _ _ => 2) (fun _ _ => 0) (fun _ _ => 1))) s x ((fun _ _ => 1 / 20) b s)
        ((fun _ _ => 300) b s)).ydot) 2 (fun k (_ : Unit) => (k : ℝ)) y := by
    intro k b hk
    refine (hy k b hk).trans ?_
    beta_reduce
    rw [chaboche_as_recovery]
  refine ⟨y, hy', ?_⟩
  have h := C72_elastic_range _ _ _ _ _ _ _ _ _ _ _ _ 2 _ (by intro k b _; simp) y hy'
    (fun k b _ => ⟨hadm, fun i => le_rfl⟩) () (by rw [hy0]; rfl) _ (fun k => rfl) 1 (by norm_num) (by
      intro j hj
      have : j = 0 ∨ j = 1 := by omega
      rcases this with rfl | rfl
      · simp
      · rw [Finset.sum_range_one]; norm_num)
  rw [h.1, Finset.sum_range_one]; norm_num

/-! ## C75: perfect viscoplasticity -/

private theorem perfect_flow (n eta : ℝ → ℝ) (s : ℝ) (h : Fin 0 → ℝ) (t T e : ℝ) (heta : 0 < eta T) :
    (perfect n eta).flow s h t T e = overflow (n T) (eta T) (s, 0) := by
  simp only [perfect, overflow, sub_zero]
  rw [macaulay_eq, max_eq_left (div_nonneg (abs_nonneg _) heta.le)]

/-- **C75.** The backward Euler equation of perfect viscoplasticity has exactly one solution from every state. -/
theorem C75_step (E n eta : ℝ → ℝ) (t dt : ℝ) (y : Fin (0 + 1) → ℝ) (e T : ℝ) (hdt : 0 ≤ dt) (hE : 0 ≤ E T) (hn : 0 < n T)
    (heta : 0 < eta T) : ∃! y', y' = y + dt • (inelastic E (perfect n eta) t y' e T).ydot := by
  have hrow : ∀ y' : Fin (0 + 1) → ℝ, y' = y + dt • (inelastic E (perfect n eta) t y' e T).ydot ↔
      y' 0 = y 0 + dt * (E T * (e - overflow (n T) (eta T) (y' 0, 0))) := by
    intro y'
    rw [← perfect_flow n eta (y' 0) (fun j => y' j.succ) t T e heta]
    constructor
    · intro h; exact congrFun h 0
    · intro h
      funext j
      obtain rfl : j = 0 := Subsingleton.elim (α := Fin 1) j 0
      exact h
  have hEdt := mul_nonneg hdt hE
  obtain ⟨p, hp, hpu⟩ := scalar_unique hn heta (u := fun p => y 0 + dt * (E T * (e - p))) (w := fun _ => 0) (fun _ => le_rfl)
    (by fun_prop) (by fun_prop)
    (by intro p q _ hpq; have := mul_nonneg hEdt (sub_nonneg.2 hpq); beta_reduce; nlinarith)
    (by intro p q _ hpq; have := mul_nonneg hEdt (sub_nonneg.2 hpq); beta_reduce; nlinarith)
  beta_reduce at hp
  refine ⟨fun _ => y 0 + dt * (E T * (e - p)), (hrow _).2 (by beta_reduce; rw [hp]), fun y' hy' => ?_⟩
  have h1 := (hrow y').1 hy'
  have h2 := hpu (overflow (n T) (eta T) (y' 0, 0)) (by beta_reduce; rw [← h1])
  funext j
  obtain rfl : j = 0 := Subsingleton.elim (α := Fin 1) j 0
  rw [h1, h2]

private theorem be_perfect {E n eta : ℝ → ℝ} {erate temp : β → ℝ → ℝ} {nt : ℕ} {t : ℕ → β → ℝ} {y : ℕ → β → Fin (0 + 1) → ℝ}
    (hy : IsBackwardEuler (fun b s x => (inelastic E (perfect n eta) s x (erate b s) (temp b s)).ydot) nt t y) (k b)
    (hk : k + 1 < nt) (heta : 0 < eta (temp b (t (k + 1) b))) :
    y (k + 1) b 0 = y k b 0 + (t (k + 1) b - t k b) * (E (temp b (t (k + 1) b)) * (erate b (t (k + 1) b) -
      overflow (n (temp b (t (k + 1) b))) (eta (temp b (t (k + 1) b))) (y (k + 1) b 0, 0))) := by
  rw [← perfect_flow n eta (y (k + 1) b 0) (fun j => y (k + 1) b j.succ) (t (k + 1) b) _ (erate b (t (k + 1) b)) heta]
  exact congrFun (hy k b hk) 0

/-- **C75.** Relaxation: while the strain is held, the stress of a perfectly viscoplastic material never grows in magnitude and never changes sign. -/
theorem C75_relaxation (E n eta : ℝ → ℝ) (erate temp : β → ℝ → ℝ) (nt : ℕ) (t : ℕ → β → ℝ)
    (ht : ∀ k b, k + 1 < nt → t k b ≤ t (k + 1) b) (y : ℕ → β → Fin (0 + 1) → ℝ)
    (hy : IsBackwardEuler (fun b s x => (inelastic E (perfect n eta) s x (erate b s) (temp b s)).ydot) nt t y)
    (hp : ∀ k b, k < nt → 0 ≤ E (temp b (t k b)) ∧ 0 < n (temp b (t k b)) ∧ 0 < eta (temp b (t k b)))
    (k b) (hk : k + 1 < nt) (hold : erate b (t (k + 1) b) = 0) :
    |y (k + 1) b 0| ≤ |y k b 0| ∧ 0 ≤ y k b 0 * y (k + 1) b 0 := by
  obtain ⟨hE, hn, heta⟩ := hp (k + 1) b hk
  have h1 := be_perfect hy k b hk heta
  rw [hold] at h1
  have hEdt := mul_nonneg (sub_nonneg.2 (ht k b hk)) hE
  generalize temp b (t (k + 1) b) = T at *
  generalize t (k + 1) b - t k b = dt at *
  generalize y (k + 1) b 0 = x at *
  generalize y k b 0 = x0 at *
  have h2 : x0 = x + dt * E T * overflow (n T) (eta T) (x, 0) := by linear_combination -h1
  rcases lt_trichotomy x 0 with hx | hx | hx
  · have h3 := overflow_lt_neg (n := n T) heta le_rfl (by simpa using hx : x < -(0 : ℝ))
    have h4 := mul_nonneg hEdt (by linarith : 0 ≤ -overflow (n T) (eta T) (x, 0))
    have h5 : x0 ≤ x := by linarith
    refine ⟨?_, mul_nonneg_of_nonpos_of_nonpos (by linarith) hx.le⟩
    rw [abs_of_neg hx, abs_of_neg (by linarith)]; linarith
  · rw [hx]; simp
  · have h3 := overflow_pos (n := n T) heta le_rfl hx
    have h4 := mul_nonneg hEdt h3.le
    have h5 : x ≤ x0 := by linarith
    refine ⟨?_, mul_nonneg (by linarith) hx.le⟩
    rw [abs_of_pos hx, abs_of_pos (by linarith)]; linarith

/-- **C75.** Tension test at constant rate and temperature: the stress rises monotonically and never passes the flow stress `η ε̇^{1/n}`. -/
theorem C75_tension (E n eta : ℝ → ℝ) (T e : ℝ) (he : 0 < e) (hE : 0 ≤ E T) (hn : 0 < n T) (heta : 0 < eta T) (nt : ℕ) (t : ℕ → β → ℝ)
    (ht : ∀ k b, k + 1 < nt → t k b ≤ t (k + 1) b) (y : ℕ → β → Fin (0 + 1) → ℝ)
    (hy : IsBackwardEuler (fun _ s x => (inelastic E (perfect n eta) s x e T).ydot) nt t y)
    (b) (h0 : 0 ≤ y 0 b 0 ∧ y 0 b 0 ≤ eta T * e ^ (1 / n T)) (k) (hk : k + 1 < nt) :
    0 ≤ y k b 0 ∧ y k b 0 ≤ y (k + 1) b 0 ∧ y (k + 1) b 0 ≤ eta T * e ^ (1 / n T) := by
  have step : ∀ k, k + 1 < nt → 0 ≤ y k b 0 → y k b 0 ≤ eta T * e ^ (1 / n T) →
      y k b 0 ≤ y (k + 1) b 0 ∧ y (k + 1) b 0 ≤ eta T * e ^ (1 / n T) := by
    intro k hk i0 i1
    have h1 := be_perfect (erate := fun _ _ => e) (temp := fun _ _ => T) hy k b hk heta
    beta_reduce at h1
    have hEdt := mul_nonneg (sub_nonneg.2 (ht k b hk)) hE
    generalize t (k + 1) b - t k b = dt at *
    generalize y (k + 1) b 0 = x at *
    generalize y k b 0 = x0 at *
    -- comparing the flow with the imposed rate
    have hfl : ∀ z, 0 < z → (overflow (n T) (eta T) (z, 0) ≤ e ↔ z ≤ eta T * e ^ (1 / n T)) := by
      intro z hz
      rw [overflow_of_gt heta le_rfl hz, sub_zero]
      have hz' : 0 ≤ z / eta T := (div_pos hz heta).le
      conv_lhs => rw [← Real.rpow_one e, ← one_div_mul_cancel hn.ne', Real.rpow_mul he.le]
      rw [Real.rpow_le_rpow_iff hz' (Real.rpow_nonneg he.le _) hn, div_le_iff₀ heta, mul_comm]
    have hup : x ≤ eta T * e ^ (1 / n T) := by
      by_contra hc
      push Not at hc
      have hx : 0 < x := lt_of_le_of_lt (mul_nonneg heta.le (Real.rpow_nonneg he.le _)) hc
      have h3 : ¬ overflow (n T) (eta T) (x, 0) ≤ e := fun h => absurd ((hfl x hx).1 h) (not_le.2 hc)
      have := mul_nonneg hEdt (by linarith : 0 ≤ overflow (n T) (eta T) (x, 0) - e)
      linarith
    refine ⟨?_, hup⟩
    have hle : overflow (n T) (eta T) (x, 0) ≤ e := by
      rcases le_or_gt x 0 with hx | hx
      · refine le_trans ?_ he.le
        rcases hx.lt_or_eq with h' | h'
        · exact (overflow_lt_neg heta le_rfl (by simpa using h')).le
        · rw [h', overflow_of_le hn heta (by simp)]
      · exact (hfl x hx).2 hup
    have := mul_nonneg hEdt (sub_nonneg.2 hle)
    linarith
  have all : ∀ k, k < nt → 0 ≤ y k b 0 ∧ y k b 0 ≤ eta T * e ^ (1 / n T) := by
    intro k
    induction k with
    | zero => intro _; exact h0
    | succ k ih =>
      intro hk
      obtain ⟨i0, i1⟩ := ih (by omega)
      obtain ⟨j0, j1⟩ := step k hk i0 i1
      exact ⟨i0.trans j0, j1⟩
  obtain ⟨i0, i1⟩ := all k (by omega)
  exact ⟨i0, step k hk i0 i1⟩

/-! ## C76: tension and compression -/

private theorem mirror_zero (y : Fin (1 + nk + 1) → ℝ) : mirror y 0 = -y 0 := by
  simp [mirror, Fin.ext_iff]

private theorem mirror_one (y : Fin (1 + nk + 1) → ℝ) : mirror y 1 = y 1 := by simp [mirror]

private theorem mirror_kin (y : Fin (1 + nk + 1) → ℝ) (i : Fin nk) :
    mirror y (Fin.natAdd 1 i).succ = -y (Fin.natAdd 1 i).succ := by
  have : ((Fin.natAdd 1 i).succ : Fin (1 + nk + 1)) ≠ 1 := by
    rw [Ne, Fin.ext_iff, Fin.val_one', Nat.mod_eq_of_lt (by omega)]
    have := i.isLt
    simp only [Fin.val_succ, Fin.val_natAdd]; omega
  simp [mirror, this]

/-- **C76.** The rates of the Voce-Chaboche model (with or without recovery) in the mirror state under the opposite strain rate are the mirrored
rates. -/
theorem C76_rates (E n eta s0 R d : ℝ → ℝ) (C g bb r : Fin nk → ℝ → ℝ) (t : ℝ) (y : Fin (1 + nk + 1) → ℝ) (e T : ℝ) :
    (inelastic E (isoKin n eta s0 (voce R d) (chabocheRecovery C g bb r)) t (mirror y) (-e) T).ydot =
      mirror (inelastic E (isoKin n eta s0 (voce R d) (chabocheRecovery C g bb r)) t y e T).ydot := by
  obtain ⟨a0, a1, a2⟩ := vc_ydot E n eta s0 R d C g bb r t (mirror y) (-e) T
  obtain ⟨b0, b1, b2⟩ := vc_ydot E n eta s0 R d C g bb r t y e T
  have hp : vcFlow n eta s0 (mirror y) T = -vcFlow n eta s0 y T := by
    unfold vcFlow
    rw [← overflow_neg, mirror_zero, mirror_one]
    simp only [mirror_kin, Finset.sum_neg_distrib]
    congr 2; ring
  funext j
  refine cases_vc ?_ ?_ (fun i => ?_) j
  · rw [mirror_zero, a0, b0, hp]; ring
  · rw [mirror_one, a1, b1, hp, mirror_one, abs_neg]
  · rw [mirror_kin, a2, b2, hp, mirror_kin, abs_neg, abs_neg]; ring

/-- **C76.** A test in compression gives the mirror image of the same test in tension, at every time. -/
theorem C76_history (E n eta s0 R d : ℝ → ℝ) (C g bb r : Fin nk → ℝ → ℝ) (erate temp : β → ℝ → ℝ) (nt : ℕ) (t : ℕ → β → ℝ)
    (y : ℕ → β → Fin (1 + nk + 1) → ℝ)
    (hy : IsBackwardEuler (fun b s x =>
      (inelastic E (isoKin n eta s0 (voce R d) (chabocheRecovery C g bb r)) s x (erate b s) (temp b s)).ydot) nt t y) :
    IsBackwardEuler (fun b s x =>
      (inelastic E (isoKin n eta s0 (voce R d) (chabocheRecovery C g bb r)) s x (-erate b s) (temp b s)).ydot) nt t
      (fun k b => mirror (y k b)) := by
  intro k b hk
  beta_reduce
  rw [C76_rates]
  have h := hy k b hk
  beta_reduce at h
  conv_lhs => rw [h]
  funext j
  simp only [mirror, Pi.add_apply, Pi.smul_apply, smul_eq_mul]
  split <;> ring

private theorem rateFn_neg (nt : ℕ) (times data : ℕ → ℝ) (s : ℝ) :
    rateFn nt times (fun k => -data k) s = -rateFn nt times data s := by
  have h0 : ∀ k, rateData times (fun k => -data k) k = -rateData times data k := by
    intro k; unfold rateData; split
    · simp
    · rw [← neg_div]; congr 1; ring
  have h1 : poss times (rateData times fun k => -data k) s = fun j => -poss times (rateData times data) s j := by
    funext j; unfold poss Interp.slope; rw [h0, h0]; ring
  unfold rateFn interpFn hits
  rw [h1]
  generalize (List.range (nt - 1)).filter _ = l
  cases l <;> simp

/-- **C76.** So `solve_strain` on the opposite strains returns opposite stresses, equal isotropic strength and opposite backstresses (exact Newton
solves, whatever the block sizes). -/
theorem C76_solve_strain (c c' : Ode.Config) (hs : c.scheme = .backwardEuler) (hs' : c'.scheme = .backwardEuler)
    (hm : 0 ≤ c.miter) (hm' : 0 ≤ c'.miter) (hr : c.rtol = 0) (ha : c.atol = 0) (hr' : c'.rtol = 0) (ha' : c'.atol = 0)
    (model : β → Model (1 + nk + 1)) (nt : ℕ) (times strains temps : ℕ → β → ℝ) (blk blk' : ℤ)
    (hb : 0 < blk) (hb' : 0 < blk') (res res' : Ode.Partial β (1 + nk + 1))
    (h : solveStrain c model nt times strains temps blk = .ok (res, false))
    (h' : solveStrain c' model nt times (fun k b => -strains k b) temps blk' = .ok (res', false))
    (b : β) (hg : StrictGrid (nt - 1) fun k => times k b) (E n eta s0 R d : ℝ → ℝ) (C g : Fin nk → ℝ → ℝ)
    (hmod : model b = inelastic E (isoKin n eta s0 (voce R d) (chaboche C g))) (R0 : ℝ) (B : Fin nk → ℝ)
    (hp : ∀ k, k < nt → VCAdmissible E n eta s0 R d C g (temps k b) ∧ R (temps k b) = R0 ∧
      ∀ i, C i (temps k b) = B i * g i (temps k b)) (hR0 : 0 ≤ R0) (hB : ∀ i, 0 ≤ B i)
    (k : ℕ) (hk : k < nt) : res'.get k b = mirror (res.get k b) := by
  obtain ⟨e, g0⟩ := strain_lane_backward c hs hm hr ha model nt times strains temps blk hb res h b _ hmod
  obtain ⟨e', g0'⟩ := strain_lane_backward c' hs' hm' hr' ha' model nt times _ temps blk' hb' res' h' b _ hmod
  have m0 : mirror (res.get 0 b) = 0 := by
    rw [g0]; funext j; simp [mirror]
  rcases Nat.lt_or_ge 1 nt with hnt | hnt
  · refine congrFun ((C74_history (β := Unit) E n eta s0 R d C g (fun _ s => -rateFn nt (fun k => times k b) (fun k => strains k b) s)
      (fun _ => dataFn nt (fun k => times k b) fun k => temps k b) nt (fun k _ => times k b) ?_ R0 B ?_ 0 ?_).2 (fun k _ => res'.get k b)
      (fun k _ => mirror (res.get k b)) (funext fun _ => g0') (funext fun _ => m0) ?_ ?_ k hk) ()
    · intro k _ hk; exact (hg k (by omega)).le
    · intro k _ hk
      beta_reduce
      rw [dataFn_grid hg (fun k => temps k b) hk hnt]
      exact hp k hk
    · intro _
      exact ⟨⟨le_rfl, hR0⟩, fun i => by simpa using hB i⟩
    · intro k u hk
      refine (e' k u hk).trans ?_
      simp only [rateFn_neg]
    · have e2 : IsBackwardEuler (fun (_ : Unit) s x => (inelastic E (isoKin n eta s0 (voce R d)
          (chabocheRecovery C g (fun _ _ => 0) fun _ _ => 1)) s x (rateFn nt (fun k => times k b) (fun k => strains k b) s)
          (dataFn nt (fun k => times k b) (fun k => temps k b) s)).ydot) nt (fun k _ => times k b) (fun k _ => res.get k b) := by
        intro k u hk
        refine (e k u hk).trans ?_
        simp only [chaboche_as_recovery]
      intro k u hk
      refine (C76_history E n eta s0 R d C g _ _ _ _ nt (fun k _ => times k b) _ e2 k u hk).trans ?_
      simp only [chaboche_as_recovery]
  · obtain rfl : k = 0 := by omega
    rw [g0', m0]

/-! ## C77: speed of loading -/

/-- **C77.** With the rate independent wrapper at `λ = 1` around a rule that ignores time and strain rate, a test run `c` times as fast goes through
exactly the same states. -/
theorem C77_speed_independent {n : ℕ} (E : ℝ → ℝ) (base : FlowRule n) (epsRef : ℝ)
    (hf : ∀ s h t t' T e e', base.flow s h t T e = base.flow s h t' T e')
    (hh : ∀ s h t t' T e e', base.hist s h t T e = base.hist s h t' T e') (erate temp : β → ℝ → ℝ) (nt : ℕ) (t : ℕ → β → ℝ)
    (y : ℕ → β → Fin (n + 1) → ℝ) (c : ℝ) (hc : 0 < c)
    (hy : IsBackwardEuler (fun b s x => (inelastic E (rateIndependent base 1 epsRef) s x (erate b s) (temp b s)).ydot) nt t y) :
    IsBackwardEuler (fun b s x =>
      (inelastic E (rateIndependent base 1 epsRef) s x (c * erate b (c * s)) (temp b (c * s))).ydot) nt (fun k b => t k b / c) y := by
  have key : ∀ s x e T, (inelastic E (rateIndependent base 1 epsRef) (s / c) x (c * e) T).ydot =
      c • (inelastic E (rateIndependent base 1 epsRef) s x e T).ydot := by
    intro s x e T
    have hs : riScale 1 epsRef (c * e) = c * riScale 1 epsRef e := by
      unfold riScale
      rw [abs_mul, abs_of_pos hc]; ring
    funext j
    refine Fin.cases ?_ (fun j => ?_) j
    · simp only [inelastic, rateIndependent, Fin.cons_zero, Pi.smul_apply, smul_eq_mul]
      rw [hs, hf _ _ (s / c) s T (c * e) e]; ring
    · simp only [inelastic, rateIndependent, Fin.cons_succ, Pi.smul_apply, smul_eq_mul]
      rw [hs, hh _ _ (s / c) s T (c * e) e]; ring
  intro k b hk
  refine (hy k b hk).trans ?_
  beta_reduce
  rw [mul_div_cancel₀ _ hc.ne', key, smul_smul]
  congr 2
  field_simp

/-- The basic rules ignore time and strain rate. -/
example (n eta s0 R d : ℝ → ℝ) (C g : Fin 2 → ℝ → ℝ) :
    (∀ s h t t' T e e', (isoKin n eta s0 (voce R d) (chaboche C g)).flow s h t T e =
      (isoKin n eta s0 (voce R d) (chaboche C g)).flow s h t' T e') ∧
    ∀ s h t t' T e e', (isoKin n eta s0 (voce R d) (chaboche C g)).hist s h t T e =
      (isoKin n eta s0 (voce R d) (chaboche C g)).hist s h t' T e' := ⟨fun _ _ _ _ _ _ _ => rfl, fun _ _ _ _ _ _ _ => rfl⟩

end Pyoptmat.Props
