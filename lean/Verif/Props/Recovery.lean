import Verif.Props.Histories

/-!
# Property C99: static recovery
-/

namespace Pyoptmat.Props

open Pyoptmat.Spec Pyoptmat.Material

variable {β : Type*} {ni nk : ℕ}

/-! ## Helpers -/

private theorem iso_row' (E n eta s0 : ℝ → ℝ) (iso : Hardening 1) (kin : Hardening nk) (t : ℝ) (y : Fin (1 + nk + 1) → ℝ) (e T : ℝ) :
    (inelastic E (isoKin n eta s0 iso kin) t y e T).ydot 1 =
      iso.rate (y 0) (isoPart fun j => y j.succ) t ((isoKin n eta s0 iso kin).flow (y 0) (fun j => y j.succ) t T e) T e 0 := by
  rw [one_eq_iso]
  simp only [inelastic, isoKin, Fin.cons_succ, Fin.append_left]

private theorem kin_row' (E n eta s0 : ℝ → ℝ) (iso : Hardening ni) (kin : Hardening nk) (t : ℝ) (y : Fin (ni + nk + 1) → ℝ) (e T : ℝ) (i : Fin nk) :
    (inelastic E (isoKin n eta s0 iso kin) t y e T).ydot (Fin.natAdd ni i).succ =
      kin.rate (y 0) (kinPart fun j => y j.succ) t ((isoKin n eta s0 iso kin).flow (y 0) (fun j => y j.succ) t T e) T e i := by
  simp only [inelastic, isoKin, Fin.cons_succ, Fin.append_right]

private theorem be_row' {m : ℕ} {rate : β → ℝ → (Fin m → ℝ) → Fin m → ℝ} {nt : ℕ} {t : ℕ → β → ℝ} {y : ℕ → β → Fin m → ℝ}
    (hy : IsBackwardEuler rate nt t y) (k b) (hk : k + 1 < nt) (i : Fin m) :
    y (k + 1) b i = y k b i + (t (k + 1) b - t k b) * rate b (t (k + 1) b) (y (k + 1) b) i :=
  congrFun (hy k b hk) i

/-- an implicit step towards two targets -/
private theorem two_targets {x x0 a c A R : ℝ} (ha : 0 ≤ a) (hc : 0 ≤ c) (h : x = x0 + a * (A - x) + c * (R - x)) (lo hi : ℝ)
    (h0 : lo ≤ x0 ∧ x0 ≤ hi) (hA : lo ≤ A ∧ A ≤ hi) (hR : lo ≤ R ∧ R ≤ hi) : lo ≤ x ∧ x ≤ hi := by
  constructor
  · by_contra hx
    push Not at hx
    have := mul_nonneg ha (by linarith : 0 ≤ A - x)
    have := mul_nonneg hc (by linarith : 0 ≤ R - x)
    linarith
  · by_contra hx
    push Not at hx
    have := mul_nonneg ha (by linarith : 0 ≤ x - A)
    have := mul_nonneg hc (by linarith : 0 ≤ x - R)
    linarith

/-- an implicit step towards one target -/
private theorem one_target {x x0 c R : ℝ} (hc : 0 ≤ c) (h : x = x0 + c * (R - x)) :
    |x - R| ≤ |x0 - R| ∧ 0 ≤ (x0 - R) * (x - R) ∧ (0 < c → x0 ≠ R → |x - R| < |x0 - R|) := by
  have e : x0 - R = (1 + c) * (x - R) := by linear_combination -h
  rw [e, abs_mul, abs_of_nonneg (by linarith : 0 ≤ 1 + c)]
  have h0 := abs_nonneg (x - R)
  refine ⟨by nlinarith, ?_, ?_⟩
  · rw [mul_assoc]; exact mul_nonneg (by linarith) (mul_self_nonneg _)
  · intro hc' hne
    have : x - R ≠ 0 := by
      intro h'
      rw [h', mul_zero] at e
      exact hne (sub_eq_zero.1 e)
    have := abs_pos.2 this
    nlinarith

/-! ## Isotropic hardening with static recovery -/

/-- **C99.** `Theta0RecoveryVoceIsotropicHardeningModel` in an inelastic model, along every backward Euler history (any kinematic model, loading and temperature history): in every step the strength stays between the least and the
greatest of its previous value, the saturation strength `tau` and the recovered strength `R0`, so it never leaves an interval `[lo, hi]` that contains its start and these strengths at all temperatures met. -/
theorem C99_isotropic_range (E n eta s0 tau theta R0 r1 r2 : ℝ → ℝ) (kin : Hardening nk) (erate temp : β → ℝ → ℝ) (nt : ℕ) (t : ℕ → β → ℝ)
    (y : ℕ → β → Fin (1 + nk + 1) → ℝ)
    (hy : IsBackwardEuler (fun b s x => (inelastic E (isoKin n eta s0 (theta0Recovery tau theta R0 r1 r2) kin) s x (erate b s) (temp b s)).ydot) nt t y) (b : β)
    (ht : ∀ k, k + 1 < nt → t k b ≤ t (k + 1) b)
    (hp : ∀ k, k < nt → 0 ≤ theta (temp b (t k b)) ∧ 0 < tau (temp b (t k b)) ∧ 0 ≤ r1 (temp b (t k b)))
    (lo hi : ℝ) (htau : ∀ k, k < nt → lo ≤ tau (temp b (t k b)) ∧ tau (temp b (t k b)) ≤ hi)
    (hR : ∀ k, k < nt → lo ≤ R0 (temp b (t k b)) ∧ R0 (temp b (t k b)) ≤ hi) (h0 : lo ≤ y 0 b 1 ∧ y 0 b 1 ≤ hi) (k : ℕ) (hk : k < nt) :
    lo ≤ y k b 1 ∧ y k b 1 ≤ hi := by
  induction k with
  | zero => exact h0
  | succ k ih =>
    have h1 := be_row' hy k b hk 1
    beta_reduce at h1
    rw [iso_row'] at h1
    obtain ⟨p1, p2, p3⟩ := hp (k + 1) hk
    have hR1 := hR (k + 1) hk
    have hA1 := htau (k + 1) hk
    have hdt := sub_nonneg.2 (ht k hk)
    generalize (isoKin n eta s0 (theta0Recovery tau theta R0 r1 r2) kin).flow (y (k + 1) b 0) (fun j => y (k + 1) b j.succ) (t (k + 1) b)
      (temp b (t (k + 1) b)) (erate b (t (k + 1) b)) = ep at h1
    generalize temp b (t (k + 1) b) = T at *
    have e1 : isoPart (fun j => y (k + 1) b j.succ) 0 = y (k + 1) b 1 := by rw [one_eq_iso]; rfl
    simp only [theta0Recovery] at h1
    rw [e1] at h1
    have hw : 0 ≤ |R0 T - y (k + 1) b 1| ^ (r2 T - 1) := Real.rpow_nonneg (abs_nonneg _) _
    generalize |R0 T - y (k + 1) b 1| ^ (r2 T - 1) = w at h1 hw
    refine two_targets (a := (t (k + 1) b - t k b) * (theta T * |ep| / tau T)) (c := (t (k + 1) b - t k b) * (r1 T * w)) (A := tau T) (R := R0 T)
      (mul_nonneg hdt (div_nonneg (mul_nonneg p1 (abs_nonneg _)) p2.le)) (mul_nonneg hdt (mul_nonneg p3 hw)) ?_ lo hi (ih (by omega)) hA1 hR1
    refine h1.trans ?_
    field_simp
    ring

/-- **C99.** In a step without inelastic flow (a hold in the elastic range) the strength moves towards `R0` and does not pass it; it moves strictly when recovery is active, the step is positive and it is not there yet. -/
theorem C99_isotropic_recovery (E n eta s0 tau theta R0 r1 r2 : ℝ → ℝ) (kin : Hardening nk) (erate temp : β → ℝ → ℝ) (nt : ℕ) (t : ℕ → β → ℝ)
    (y : ℕ → β → Fin (1 + nk + 1) → ℝ)
    (hy : IsBackwardEuler (fun b s x => (inelastic E (isoKin n eta s0 (theta0Recovery tau theta R0 r1 r2) kin) s x (erate b s) (temp b s)).ydot) nt t y) (k : ℕ) (b : β)
    (hk : k + 1 < nt) (ht : t k b ≤ t (k + 1) b) (T : ℝ) (hT : temp b (t (k + 1) b) = T) (hr : 0 ≤ r1 T)
    (hflow : (isoKin n eta s0 (theta0Recovery tau theta R0 r1 r2) kin).flow (y (k + 1) b 0) (fun j => y (k + 1) b j.succ) (t (k + 1) b) T (erate b (t (k + 1) b)) = 0) :
    |y (k + 1) b 1 - R0 T| ≤ |y k b 1 - R0 T| ∧ 0 ≤ (y k b 1 - R0 T) * (y (k + 1) b 1 - R0 T) ∧
    (0 < r1 T → t k b < t (k + 1) b → y k b 1 ≠ R0 T → |y (k + 1) b 1 - R0 T| < |y k b 1 - R0 T|) := by
  have h1 := be_row' hy k b hk 1
  beta_reduce at h1
  rw [iso_row', hT, hflow] at h1
  have e1 : isoPart (fun j => y (k + 1) b j.succ) 0 = y (k + 1) b 1 := by rw [one_eq_iso]; rfl
  simp only [theta0Recovery, abs_zero, mul_zero, zero_add] at h1
  rw [e1] at h1
  have hw : 0 ≤ |R0 T - y (k + 1) b 1| ^ (r2 T - 1) := Real.rpow_nonneg (abs_nonneg _) _
  have hw' : y (k + 1) b 1 ≠ R0 T → 0 < |R0 T - y (k + 1) b 1| ^ (r2 T - 1) := fun h =>
    Real.rpow_pos_of_pos (abs_pos.2 (sub_ne_zero.2 h.symm)) _
  generalize |R0 T - y (k + 1) b 1| ^ (r2 T - 1) = w at h1 hw hw'
  have h2 : y (k + 1) b 1 = y k b 1 + (t (k + 1) b - t k b) * (r1 T * w) * (R0 T - y (k + 1) b 1) := h1.trans (by ring)
  obtain ⟨a1, a2, a3⟩ := one_target (mul_nonneg (sub_nonneg.2 ht) (mul_nonneg hr hw)) h2
  refine ⟨a1, a2, fun q1 q2 q3 => ?_⟩
  by_cases hne : y (k + 1) b 1 = R0 T
  · rw [hne, sub_self, abs_zero]; exact abs_pos.2 (sub_ne_zero.2 q3)
  · exact a3 (mul_pos (sub_pos.2 q2) (mul_pos q1 (hw' hne))) q3

/-! ## Kinematic hardening with static recovery -/

/-- **C99.** In a step without inelastic flow every backstress of `ChabocheHardeningModelRecovery` shrinks and keeps its sign; strictly when its recovery is active and the step positive. -/
theorem C99_kinematic_recovery (E n eta s0 : ℝ → ℝ) (iso : Hardening ni) (C g bb r : Fin nk → ℝ → ℝ) (erate temp : β → ℝ → ℝ) (nt : ℕ) (t : ℕ → β → ℝ)
    (y : ℕ → β → Fin (ni + nk + 1) → ℝ)
    (hy : IsBackwardEuler (fun b s x => (inelastic E (isoKin n eta s0 iso (chabocheRecovery C g bb r)) s x (erate b s) (temp b s)).ydot) nt t y) (k : ℕ) (b : β)
    (hk : k + 1 < nt) (ht : t k b ≤ t (k + 1) b) (T : ℝ) (hT : temp b (t (k + 1) b) = T) (i : Fin nk) (hr : 0 ≤ bb i T)
    (hflow : (isoKin n eta s0 iso (chabocheRecovery C g bb r)).flow (y (k + 1) b 0) (fun j => y (k + 1) b j.succ) (t (k + 1) b) T (erate b (t (k + 1) b)) = 0) :
    let X := fun k => y k b (Fin.natAdd ni i).succ
    |X (k + 1)| ≤ |X k| ∧ 0 ≤ X k * X (k + 1) ∧ (0 < bb i T → t k b < t (k + 1) b → X k ≠ 0 → |X (k + 1)| < |X k|) := by
  intro X
  have h1 := be_row' hy k b hk (Fin.natAdd ni i).succ
  beta_reduce at h1
  rw [kin_row', hT, hflow] at h1
  have e1 : kinPart (fun j => y (k + 1) b j.succ) i = X (k + 1) := rfl
  simp only [chabocheRecovery, abs_zero, mul_zero, sub_zero, zero_sub] at h1
  rw [e1] at h1
  change X (k + 1) = X k + _ at h1
  have hw : 0 ≤ |X (k + 1)| ^ (r i T - 1) := Real.rpow_nonneg (abs_nonneg _) _
  have hw' : X (k + 1) ≠ 0 → 0 < |X (k + 1)| ^ (r i T - 1) := fun h => Real.rpow_pos_of_pos (abs_pos.2 h) _
  generalize |X (k + 1)| ^ (r i T - 1) = w at h1 hw hw'
  have h2 : X (k + 1) = X k + (t (k + 1) b - t k b) * (bb i T * w) * (0 - X (k + 1)) := h1.trans (by ring)
  obtain ⟨a1, a2, a3⟩ := one_target (mul_nonneg (sub_nonneg.2 ht) (mul_nonneg hr hw)) h2
  simp only [sub_zero] at a1 a2 a3
  refine ⟨a1, a2, fun q1 q2 q3 => ?_⟩
  by_cases hne : X (k + 1) = 0
  · rw [hne, abs_zero]; exact abs_pos.2 q3
  · exact a3 (mul_pos (sub_pos.2 q2) (mul_pos q1 (hw' hne))) q3

/-! ## The Frederick-Armstrong models are one-backstress Chaboche models -/

/-- **C99.** `FAKinematicHardeningModel(C, g, b, r)` is `ChabocheHardeningModelRecovery` with a single backstress and the same parameters, and `FAKinematicHardeningModelNoRecovery(C, g)` is `ChabocheHardeningModel` with a single one:
same value, rate and reported derivatives. -/
theorem C99_fa_is_chaboche (C g b r : ℝ → ℝ) :
    fa C g b r = chabocheRecovery (nback := 1) (fun _ => C) (fun _ => g) (fun _ => b) (fun _ => r) ∧
    faNoRecovery C g = chaboche (nback := 1) (fun _ => C) (fun _ => g) := by
  constructor
  · unfold fa chabocheRecovery
    congr
    · funext h; simp
    · funext s h t ep T e i
      obtain rfl : i = 0 := Subsingleton.elim _ _
      ring
    · funext s h t ep T e
      ext i j
      obtain rfl : i = 0 := Subsingleton.elim _ _
      obtain rfl : j = 0 := Subsingleton.elim _ _
      simp [sub_eq_add_neg]
    · funext s h t ep T e i
      obtain rfl : i = 0 := Subsingleton.elim _ _
      ring
  · unfold faNoRecovery chaboche
    congr
    · funext h; simp
    · funext s h t ep T e i
      obtain rfl : i = 0 := Subsingleton.elim _ _
      ring
    · funext s h t ep T e
      ext i j
      obtain rfl : i = 0 := Subsingleton.elim _ _
      obtain rfl : j = 0 := Subsingleton.elim _ _
      simp
    · funext s h t ep T e i
      obtain rfl : i = 0 := Subsingleton.elim _ _
      ring

/-- **C99.** `Theta0VoceIsotropicHardeningModel`, which has no recovery: along every backward Euler history the strength stays in every interval that contains its start and the saturation strengths at all temperatures met. -/
theorem C99_theta0_range (E n eta s0 tau theta : ℝ → ℝ) (kin : Hardening nk) (erate temp : β → ℝ → ℝ) (nt : ℕ) (t : ℕ → β → ℝ)
    (y : ℕ → β → Fin (1 + nk + 1) → ℝ)
    (hy : IsBackwardEuler (fun b s x => (inelastic E (isoKin n eta s0 (theta0Voce tau theta) kin) s x (erate b s) (temp b s)).ydot) nt t y) (b : β)
    (ht : ∀ k, k + 1 < nt → t k b ≤ t (k + 1) b) (hp : ∀ k, k < nt → 0 ≤ theta (temp b (t k b)) ∧ 0 < tau (temp b (t k b)))
    (lo hi : ℝ) (htau : ∀ k, k < nt → lo ≤ tau (temp b (t k b)) ∧ tau (temp b (t k b)) ≤ hi) (h0 : lo ≤ y 0 b 1 ∧ y 0 b 1 ≤ hi) (k : ℕ) (hk : k < nt) :
    lo ≤ y k b 1 ∧ y k b 1 ≤ hi := by
  refine C99_isotropic_range E n eta s0 tau theta tau (fun _ => 0) (fun _ => 1) kin erate temp nt t y ?_ b ht (fun k hk => ⟨(hp k hk).1, (hp k hk).2, le_rfl⟩) lo hi htau htau h0 k hk
  intro k b hk
  refine (hy k b hk).trans ?_
  beta_reduce
  congr 2
  generalize y (k + 1) b = x
  funext j
  refine Fin.cases rfl (fun j => ?_) j
  refine Fin.addCases (fun j => ?_) (fun j => ?_) j
  · simp only [inelastic, isoKin, Fin.cons_succ, Fin.append_left]
    simp only [theta0Voce, theta0Recovery, zero_mul, add_zero]
    rfl
  · simp only [inelastic, isoKin, Fin.cons_succ, Fin.append_right]; rfl

/-- Non-vacuity: a strength of 3 recovers towards 1 in unit steps at zero stress: 3, 2, 3/2, … -/
example : ∃ y : ℕ → Unit → Fin (1 + 0 + 1) → ℝ, IsBackwardEuler (fun _ s x => (inelastic (fun _ => 1) (isoKin (fun _ => 2) (fun _ => 1) (fun _ => 1)
      (theta0Recovery (fun _ => 2) (fun _ => 1) (fun _ => 1) (fun _ => 1) (fun _ => 1)) noKinematic) s x 0 0).ydot) 9 (fun k _ => k) y ∧
    y 0 () 1 = 3 ∧ |y 8 () 1 - 1| < |y 7 () 1 - 1| := by
  have hflow : ∀ (x : ℝ) (t : ℝ), 0 ≤ x → (isoKin (fun _ => 2) (fun _ => 1) (fun _ => 1)
      (theta0Recovery (fun _ => 2) (fun _ => 1) (fun _ => 1) (fun _ => 1) (fun _ => 1)) noKinematic).flow 0 (fun _ : Fin (1 + 0) => x) t 0 0 = 0 := by
    intro x t _
    simp [isoKin, isoKinFlow, noKinematic, sgn]
  have hbe : IsBackwardEuler (fun (_ : Unit) s x => (inelastic (fun _ => 1) (isoKin (fun _ => 2) (fun _ => 1) (fun _ => 1)
      (theta0Recovery (fun _ => 2) (fun _ => 1) (fun _ => 1) (fun _ => 1) (fun _ => 1)) noKinematic) s x 0 0).ydot) 9 (fun k _ => k)
      (fun k _ => Fin.cons 0 fun _ : Fin (1 + 0) => 1 + 2 / 2 ^ k) := by
    intro k b _
    funext j
    refine Fin.cases ?_ (fun j => ?_) j
    · simp only [Fin.cons_zero, Pi.add_apply, Pi.smul_apply, inelastic]
      simp only [Fin.cons_succ]
      rw [hflow _ _ (by positivity)]
      simp
    · obtain rfl : j = 0 := Subsingleton.elim (α := Fin 1) j 0
      have := iso_row' (fun _ => 1) (fun _ => 2) (fun _ => 1) (fun _ => 1) (theta0Recovery (fun _ => 2) (fun _ => 1) (fun _ => 1) (fun _ => 1) (fun _ => 1)) noKinematic ((k + 1 : ℕ) : ℝ)
        (Fin.cons 0 fun _ : Fin (1 + 0) => 1 + 2 / 2 ^ (k + 1)) 0 0
      simp only [Fin.cons_zero, Fin.cons_succ] at this
      rw [hflow _ _ (by positivity)] at this
      change 1 + 2 / 2 ^ (k + 1) = 1 + 2 / 2 ^ k + (((k + 1 : ℕ) : ℝ) - k) * _
      refine Eq.trans ?_ (congrArg (fun z => 1 + 2 / 2 ^ k + (((k + 1 : ℕ) : ℝ) - k) * z) this).symm
      simp only [theta0Recovery, isoPart, abs_zero, mul_zero, sub_self, Real.rpow_zero]
      push_cast
      rw [pow_succ]
      field_simp
      ring
  refine ⟨_, hbe, by change (1 : ℝ) + 2 / 2 ^ 0 = 3; norm_num, ?_⟩
  refine (C99_isotropic_recovery (fun _ => 1) (fun _ => 2) (fun _ => 1) (fun _ => 1) (fun _ => 2) (fun _ => 1) (fun _ => 1) (fun _ => 1) (fun _ => 1) noKinematic (fun _ _ => 0) (fun _ _ => 0) 9 (fun k _ => (k : ℝ)) _ hbe 7 () (by norm_num) (by norm_num) 0 rfl zero_le_one ?_).2.2 zero_lt_one (by norm_num) ?_
  · exact hflow (1 + 2 / 2 ^ 8) _ (by positivity)
  · change (1 : ℝ) + 2 / 2 ^ 7 ≠ 1; norm_num

end Pyoptmat.Props
