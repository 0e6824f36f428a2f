import Verif.Proofs.Models
import Verif.Proofs.IsoKin
import Verif.Proofs.FlowRules
import Verif.Proofs.Superimposed
import Mathlib.Analysis.SpecialFunctions.Log.Base

/-!
# Properties C24, C25, C39, C40, C43-C46: material models, damage, and what a backward Euler history of them does

`ModelExact` and `DamageExact` are in `Spec/Material.lean`, `IsBackwardEuler` in `Spec/Ode.lean`. By C16 the histories returned
by the integrator satisfy `IsBackwardEuler` (exactly, when the Newton solves are exact).
-/

namespace Pyoptmat.Props

open Pyoptmat Pyoptmat.Spec Pyoptmat.Material Filter Topology

/-! ## C24, C25: Jacobians -/

/-- **C24.** The Jacobian and strain rate derivative of `InelasticModel` are exact wherever those of its flow rule are. -/
theorem C24_exact {n : ℕ} (E : ℝ → ℝ) (f : FlowRule n) (t : ℝ) (y : Fin (n + 1) → ℝ) (e T : ℝ)
    (hf : FlowExact f (y 0) (fun j => y j.succ) t T e) : ModelExact (inelastic E f) t y e T :=
  inelastic_exact E f t y e T hf

/-- **C24.** For a full Voce-Chaboche model: exact at every state with non-negative yield stress. -/
theorem C24_voce_chaboche {nk : ℕ} (E n eta s0 R d : ℝ → ℝ) (C g : Fin nk → ℝ → ℝ) (t : ℝ)
    (y : Fin (1 + nk + 1) → ℝ) (e T : ℝ) (heta : 0 < eta T) (hn : 1 < n T) (hw : 0 ≤ s0 T + y 1) :
    ModelExact (inelastic E (isoKin n eta s0 (voce R d) (chaboche C g))) t y e T := by
  refine C24_exact _ _ _ _ _ _ (isoKin_exact _ _ _ _ _ _ _ _ _ _ heta (voce_exact ..) (chaboche_exact ..) ?_ (Or.inl hn))
  have : (Fin.castAdd nk (0 : Fin 1)).succ = (1 : Fin (1 + nk + 1)) := by
    ext; simp; exact (Nat.mod_eq_of_lt (by omega)).symm
  change 0 ≤ s0 T + y (Fin.castAdd nk (0 : Fin 1)).succ
  rw [this]; exact hw

example : ModelExact (inelastic (fun _ => 1000) (isoKin (fun _ => 3) (fun _ => 50) (fun _ => 10) (voce (fun _ => 1) (fun _ => 2))
    (chaboche (nback := 2) (fun _ _ => 5) (fun _ _ => 6)))) 0 (fun _ => 100) 1 300 :=
  C24_voce_chaboche _ _ _ _ _ _ _ _ _ _ _ _ (by norm_num) (by norm_num) (by norm_num)

/-- **C24.** The fourth output `d_y_dot_d_T` of both model classes is zero at every state. -/
theorem C24_temperature_output {n : ℕ} (E : ℝ → ℝ) (f : FlowRule n) (dm : Damage) (t : ℝ) (e T : ℝ) (y : Fin (n + 1) → ℝ)
    (z : Fin (n + 2) → ℝ) : (inelastic E f t y e T).JT = 0 ∧ (damaged E f dm t z e T).JT = 0 := ⟨rfl, rfl⟩

/-- **C24.** So it is the derivative with respect to temperature when neither the elastic modulus nor the flow rule depends on temperature. -/
theorem C24_temperature_exact_of_const {n : ℕ} (E0 : ℝ) (f : FlowRule n) (t : ℝ) (y : Fin (n + 1) → ℝ) (e T : ℝ)
    (hf : ∀ T', f.flow (y 0) (fun j => y j.succ) t T' e = f.flow (y 0) (fun j => y j.succ) t T e)
    (hh : ∀ T', f.hist (y 0) (fun j => y j.succ) t T' e = f.hist (y 0) (fun j => y j.succ) t T e) :
    HasDerivAt (fun T' => (inelastic (fun _ => E0) f t y e T').ydot) (inelastic (fun _ => E0) f t y e T).JT T := by
  have : (fun T' => (inelastic (fun _ => E0) f t y e T').ydot) = fun _ => (inelastic (fun _ => E0) f t y e T).ydot := by
    funext T'
    simp only [inelastic, hf T', hh T']
  rw [this]
  exact hasDerivAt_const T _

/-- **C24.** But it is wrong in general: with differentiable modulus and flow rate the stress entry is exact if and only if
`E' (ε̇ - ε̇ᵖ) = E ∂ε̇ᵖ/∂T` there. -/
theorem C24_temperature_exact_iff {n : ℕ} (E : ℝ → ℝ) (f : FlowRule n) (t : ℝ) (y : Fin (n + 1) → ℝ) (e T E' p' : ℝ)
    (hE : HasDerivAt E E' T) (hp : HasDerivAt (fun T' => f.flow (y 0) (fun j => y j.succ) t T' e) p' T) :
    HasDerivAt (fun T' => (inelastic E f t y e T').ydot 0) ((inelastic E f t y e T).JT 0) T ↔
      E' * (e - f.flow (y 0) (fun j => y j.succ) t T e) = E T * p' := by
  have h : HasDerivAt (fun T' => (inelastic E f t y e T').ydot 0)
      (E' * (e - f.flow (y 0) (fun j => y j.succ) t T e) + E T * (0 - p')) T :=
    hE.mul ((hasDerivAt_const T e).sub hp)
  constructor
  · intro h0
    have := h0.unique h
    have hz : (inelastic E f t y e T).JT 0 = 0 := rfl
    rw [hz] at this
    linarith
  · intro h0
    have hz : (inelastic E f t y e T).JT 0 = E' * (e - f.flow (y 0) (fun j => y j.succ) t T e) + E T * (0 - p') := by
      change (0 : ℝ) = _
      linarith
    rw [hz]; exact h

/-- Non-vacuity: elastic loading of a perfectly viscoplastic bar below yield, with a modulus falling with temperature: the reported zero is wrong. -/
example : ¬ HasDerivAt (fun T' => (inelastic (fun T => 1000 - T) (perfect (fun _ => 3) (fun _ => 50)) 0 (fun _ => 0) 1 T').ydot 0)
    ((inelastic (fun T => 1000 - T) (perfect (fun _ => 3) (fun _ => 50)) 0 (fun _ => 0) 1 300).JT 0) 300 := by
  rw [C24_temperature_exact_iff (E' := -1) (p' := 0)]
  · simp [perfect]
  · exact (hasDerivAt_id (300 : ℝ)).const_sub 1000
  · simp only [perfect]
    exact hasDerivAt_const _ _

/-- **C25.** `DamagedInelasticModel`: the derivative of the rate is the reported Jacobian plus one missing term in the
damage/damage entry, `∂ḋ/∂s · s/(1-d)²`. -/
theorem C25_derivative {n : ℕ} (E : ℝ → ℝ) (f : FlowRule n) (dm : Damage) (t : ℝ) (y : Fin (n + 2) → ℝ) (e T : ℝ)
    (hd : y (Fin.last (n + 1)) ≠ 1)
    (hf : FlowExact f (y 0 / (1 - y (Fin.last (n + 1)))) (midPart y) t T e)
    (hdm : DamageExact dm (y 0 / (1 - y (Fin.last (n + 1)))) (y (Fin.last (n + 1))) t T e) :
    HasFDerivAt (fun x : (Fin (n + 2) → ℝ) × ℝ => (damaged E f dm t x.1 x.2 T).ydot)
      ((matCLM ((damaged E f dm t y e T).J + Matrix.single (Fin.last (n + 1)) (Fin.last (n + 1))
        (dm.drate_ds (y 0 / (1 - y (Fin.last (n + 1)))) (y (Fin.last (n + 1))) t T e * y 0 /
          (1 - y (Fin.last (n + 1))) ^ 2))).coprod
        ((ContinuousLinearMap.id ℝ ℝ).smulRight (damaged E f dm t y e T).Je)) (y, e) :=
  damaged_deriv E f dm t y e T (sub_ne_zero.2 (Ne.symm hd)) hf hdm

/-- **C25.** Hence the reported Jacobian is exact if and only if the damage rate does not depend on the stress or the stress
is zero. -/
theorem C25_exact_iff {n : ℕ} (E : ℝ → ℝ) (f : FlowRule n) (dm : Damage) (t : ℝ) (y : Fin (n + 2) → ℝ) (e T : ℝ)
    (hd : y (Fin.last (n + 1)) ≠ 1)
    (hf : FlowExact f (y 0 / (1 - y (Fin.last (n + 1)))) (midPart y) t T e)
    (hdm : DamageExact dm (y 0 / (1 - y (Fin.last (n + 1)))) (y (Fin.last (n + 1))) t T e) :
    ModelExact (damaged E f dm) t y e T ↔
      dm.drate_ds (y 0 / (1 - y (Fin.last (n + 1)))) (y (Fin.last (n + 1))) t T e = 0 ∨ y 0 = 0 := by
  have hd' : (1 - y (Fin.last (n + 1))) ^ 2 ≠ 0 := pow_ne_zero _ (sub_ne_zero.2 (Ne.symm hd))
  have h1 := C25_derivative E f dm t y e T hd hf hdm
  constructor
  · intro h2
    have h3 := h2.unique h1
    have h4 := congrArg (fun L => L (Pi.single (Fin.last (n + 1)) 1, 0) (Fin.last (n + 1))) h3
    simp only [ContinuousLinearMap.coprod_apply, Ode.matCLM_apply, Matrix.add_mulVec, Pi.add_apply, map_zero] at h4
    have h5 : (Matrix.single (Fin.last (n + 1)) (Fin.last (n + 1))
        (dm.drate_ds (y 0 / (1 - y (Fin.last (n + 1)))) (y (Fin.last (n + 1))) t T e * y 0 /
          (1 - y (Fin.last (n + 1))) ^ 2)).mulVec (Pi.single (Fin.last (n + 1)) 1) (Fin.last (n + 1)) = 0 := by
      linarith
    rw [Matrix.mulVec_single_one, Matrix.col_apply, Matrix.single_apply_same, div_eq_zero_iff, mul_eq_zero] at h5
    rcases h5 with h5 | h5
    · exact h5
    · exact absurd h5 hd'
  · intro h
    have h0 : dm.drate_ds (y 0 / (1 - y (Fin.last (n + 1)))) (y (Fin.last (n + 1))) t T e * y 0 /
          (1 - y (Fin.last (n + 1))) ^ 2 = 0 := by
      rcases h with h | h <;> rw [h] <;> simp
    rw [h0, Matrix.single_zero, add_zero] at h1
    exact h1

/-! ## C43-C45: damage models -/

private theorem damaged_last {n : ℕ} (E : ℝ → ℝ) (f : FlowRule n) (dm : Damage) (t : ℝ) (y : Fin (n + 2) → ℝ) (e T : ℝ) :
    (damaged E f dm t y e T).ydot (Fin.last (n + 1)) =
      dm.rate (y 0 / (1 - y (Fin.last (n + 1)))) (y (Fin.last (n + 1))) t T e := by
  simp only [damaged]; rw [cat3_last]

private theorem be_row {β : Type*} {m : ℕ} {rate : β → ℝ → (Fin m → ℝ) → Fin m → ℝ} {nt : ℕ} {t : ℕ → β → ℝ}
    {y : ℕ → β → Fin m → ℝ} (hy : IsBackwardEuler rate nt t y) (k : ℕ) (b : β) (hk : k + 1 < nt) (i : Fin m) :
    y (k + 1) b i = y k b i + (t (k + 1) b - t k b) * rate b (t (k + 1) b) (y (k + 1) b) i := by
  have := congrFun (hy k b hk) i
  rwa [Pi.add_apply, Pi.smul_apply, smul_eq_mul] at this

/-- **C43.** `NoDamage` and `ConstantDamage` report exact derivatives. -/
theorem C43_exact (R : ℝ → ℝ) (s d t T e : ℝ) :
    DamageExact noDamage s d t T e ∧ DamageExact (constantDamage R) s d t T e := by
  constructor
  · unfold DamageExact
    simpa [noDamage] using hasFDerivAt_const (0 : ℝ) (s, d, e)
  · unfold DamageExact
    simpa [constantDamage] using hasFDerivAt_const (R T) (s, d, e)

/-- **C43.** With `NoDamage` and no initial damage, the rates and all Jacobian entries of the damaged model in the rows and
columns of stress and history are those of the undamaged model, and the damage does not grow. -/
theorem C43_no_damage_rates {n : ℕ} (E : ℝ → ℝ) (f : FlowRule n) (t : ℝ) (y : Fin (n + 2) → ℝ) (e T : ℝ)
    (h0 : y (Fin.last (n + 1)) = 0) :
    (∀ i : Fin (n + 1), (damaged E f noDamage t y e T).ydot i.castSucc =
        (inelastic E f t (fun i => y i.castSucc) e T).ydot i) ∧
      (damaged E f noDamage t y e T).ydot (Fin.last (n + 1)) = 0 ∧
      (∀ i j : Fin (n + 1), (damaged E f noDamage t y e T).J i.castSucc j.castSucc =
        (inelastic E f t (fun i => y i.castSucc) e T).J i j) ∧
      ∀ i : Fin (n + 1), (damaged E f noDamage t y e T).Je i.castSucc =
        (inelastic E f t (fun i => y i.castSucc) e T).Je i := by
  have hm : (fun j : Fin n => y j.castSucc.succ) = midPart y := rfl
  have hc : ∀ j : Fin n, (j.succ.castSucc : Fin (n + 2)) = j.castSucc.succ := fun j => rfl
  have hz : ((0 : Fin (n + 1)).castSucc : Fin (n + 2)) = 0 := rfl
  refine ⟨fun i => ?_, by rw [damaged_last]; rfl, fun i j => ?_, fun i => ?_⟩
  · refine Fin.cases ?_ (fun i => ?_) i
    · rw [hz]; simp [damaged, inelastic, cat3_zero, h0, hz, hm]
    · rw [hc]; simp [damaged, inelastic, cat3_mid, h0, hz, hm]
  · refine Fin.cases ?_ (fun i => ?_) i
    · refine Fin.cases ?_ (fun j => ?_) j
      · rw [hz]; simp [damaged, inelastic, cat3_zero, h0, hz, hm]
      · rw [hz, hc]; simp [damaged, inelastic, cat3_zero, cat3_mid, h0, hz, hm]
    · refine Fin.cases ?_ (fun j => ?_) j
      · rw [hz, hc]; simp [damaged, inelastic, cat3_zero, cat3_mid, h0, hz, hm]
      · rw [hc, hc]; simp [damaged, inelastic, cat3_mid, h0, hz, hm]
  · refine Fin.cases ?_ (fun i => ?_) i
    · rw [hz]; simp [damaged, inelastic, cat3_zero, h0, hz, hm]
    · rw [hc]; simp [damaged, inelastic, cat3_mid, h0, hz, hm]

/-- **C43.** Every backward Euler history of the damaged model with `NoDamage` that starts undamaged stays undamaged, and its
stress and history rows are a backward Euler history of the undamaged model. -/
theorem C43_no_damage_history {β : Type*} {n : ℕ} (E : ℝ → ℝ) (f : FlowRule n) (erate temp : β → ℝ → ℝ) (nt : ℕ)
    (t : ℕ → β → ℝ) (y : ℕ → β → Fin (n + 2) → ℝ) (h0 : ∀ b, y 0 b (Fin.last (n + 1)) = 0)
    (hy : IsBackwardEuler (fun b s x => (damaged E f noDamage s x (erate b s) (temp b s)).ydot) nt t y) :
    (∀ k b, k < nt → y k b (Fin.last (n + 1)) = 0) ∧
      IsBackwardEuler (fun b s x => (inelastic E f s x (erate b s) (temp b s)).ydot) nt t
        (fun k b i => y k b i.castSucc) := by
  have hd : ∀ k b, k < nt → y k b (Fin.last (n + 1)) = 0 := by
    intro k b hk
    induction k with
    | zero => exact h0 b
    | succ k ih =>
      have h1 := be_row hy k b hk (Fin.last (n + 1))
      beta_reduce at h1
      rw [damaged_last, ih (by omega), zero_add] at h1
      rw [h1]
      simp [noDamage]
  refine ⟨hd, fun k b hk => funext fun i => ?_⟩
  have h1 := be_row hy k b hk i.castSucc
  beta_reduce at h1
  rw [(C43_no_damage_rates E f _ _ _ _ (hd (k + 1) b hk)).1 i] at h1
  rw [Pi.add_apply, Pi.smul_apply, smul_eq_mul]
  exact h1

/-- **C44.** Hayhurst-Leckie: the true derivatives of the rate with respect to damage and stress are the reported ones times `ξ - φ`
and `ξ / A`. -/
theorem C44_true_derivatives (A xi phi : ℝ → ℝ) (s d t T e : ℝ) (hA : 0 < A T) (hs : s ≠ 0) (hd : d < 1) :
    HasDerivAt (fun d => (hayhurstLeckie A xi phi).rate s d t T e)
        ((xi T - phi T) * (hayhurstLeckie A xi phi).drate_dd s d t T e) d ∧
      HasDerivAt (fun s => (hayhurstLeckie A xi phi).rate s d t T e)
        (xi T / A T * (hayhurstLeckie A xi phi).drate_ds s d t T e) s := by
  have h1d : 0 < 1 - d := by linarith
  constructor
  · have h1 := (((hasDerivAt_id d).const_sub 1).rpow_const (p := xi T - phi T) (Or.inl h1d.ne')).const_mul
      ((|s| / A T) ^ xi T)
    refine h1.congr_deriv ?_
    simp only [hayhurstLeckie, id]; ring
  · have h0 : |s| / A T ≠ 0 := div_ne_zero (abs_ne_zero.2 hs) hA.ne'
    have h1 := (((hasDerivAt_abs' hs).div_const (A T)).rpow_const (p := xi T) (Or.inl h0)).mul_const
      ((1 - d) ^ (xi T - phi T))
    refine h1.congr_deriv ?_
    simp only [hayhurstLeckie]; ring

/-- **C44.** So, where the rate does not vanish, the reported damage derivative is exact iff `ξ - φ = 1` and the reported stress
derivative is exact iff `ξ = A`. -/
theorem C44_exact_iff (A xi phi : ℝ → ℝ) (s d t T e : ℝ) (hA : 0 < A T) (hs : s ≠ 0) (hd : d < 1) :
    (HasDerivAt (fun d => (hayhurstLeckie A xi phi).rate s d t T e)
        ((hayhurstLeckie A xi phi).drate_dd s d t T e) d ↔ xi T - phi T = 1) ∧
      (HasDerivAt (fun s => (hayhurstLeckie A xi phi).rate s d t T e)
        ((hayhurstLeckie A xi phi).drate_ds s d t T e) s ↔ xi T = A T) := by
  obtain ⟨h1, h2⟩ := C44_true_derivatives A xi phi s d t T e hA hs hd
  have h1d : 0 < 1 - d := by linarith
  have h0 : 0 < |s| / A T := div_pos (abs_pos.2 hs) hA
  have n1 : (hayhurstLeckie A xi phi).drate_dd s d t T e ≠ 0 :=
    mul_ne_zero (neg_ne_zero.2 (Real.rpow_pos_of_pos h0 _).ne') (Real.rpow_pos_of_pos h1d _).ne'
  have n2 : (hayhurstLeckie A xi phi).drate_ds s d t T e ≠ 0 := by
    refine mul_ne_zero (mul_ne_zero (Real.rpow_pos_of_pos h0 _).ne' (Real.rpow_pos_of_pos h1d _).ne') ?_
    rcases sgn_cases s with ⟨_, h'⟩ | ⟨h', _⟩ | ⟨_, h'⟩
    · rw [h']; norm_num
    · exact absurd h' hs
    · rw [h']; norm_num
  refine ⟨⟨fun h => ?_, fun h => ?_⟩, ⟨fun h => ?_, fun h => ?_⟩⟩
  · have := h1.unique h
    exact mul_right_cancel₀ n1 (by rw [this, one_mul])
  · rw [h, one_mul] at h1; exact h1
  · have := h2.unique h
    have h3 := mul_right_cancel₀ n2 (by rw [this, one_mul] : xi T / A T * _ = 1 * _)
    rwa [div_eq_one_iff_eq hA.ne'] at h3
  · rw [h, div_self hA.ne', one_mul] at h2; exact h2

/-- With the constants of a typical material the reported derivatives are wrong. -/
example : ¬ HasDerivAt (fun d => (hayhurstLeckie (fun _ => 800) (fun _ => 7) (fun _ => 3)).rate 100 d 0 300 0)
    ((hayhurstLeckie (fun _ => 800) (fun _ => 7) (fun _ => 3)).drate_dd 100 (1 / 2) 0 300 0) (1 / 2) := by
  rw [(C44_exact_iff _ _ _ _ _ _ _ _ (by norm_num) (by norm_num) (by norm_num)).1]; norm_num

/-- **C45.** Non-negative damage rates. -/
theorem C45_rates (A xi phi R C A' B : ℝ → ℝ) (eps s d t T e : ℝ) (hd : d ≤ 1) (hA : 0 ≤ A T) (hR : 0 ≤ R T) :
    0 ≤ noDamage.rate s d t T e ∧ 0 ≤ (hayhurstLeckie A xi phi).rate s d t T e ∧
      0 ≤ (constantDamage R).rate s d t T e ∧ 0 ≤ (larsonMiller C A' B eps).rate s d t T e := by
  have h1 : 0 ≤ 1 - d := by linarith
  refine ⟨le_rfl, mul_nonneg (Real.rpow_nonneg (div_nonneg (abs_nonneg _) hA) _) (Real.rpow_nonneg h1 _), ?_, ?_⟩
  · simpa [constantDamage] using hR
  · exact mul_nonneg (Real.rpow_nonneg (by norm_num) _) (Real.rpow_nonneg (mul_nonneg (abs_nonneg _) h1) _)

/-- **C45.** With any damage model whose rate is non-negative below `d = 1`, damage never decreases along a backward Euler history
that has not failed (`d < 1`). -/
theorem C45_damage_never_decreases {β : Type*} {n : ℕ} (E : ℝ → ℝ) (f : FlowRule n) (dm : Damage)
    (hdm : ∀ s d t T e, d < 1 → 0 ≤ dm.rate s d t T e) (erate temp : β → ℝ → ℝ) (nt : ℕ)
    (t : ℕ → β → ℝ) (ht : ∀ k b, k + 1 < nt → t k b ≤ t (k + 1) b) (y : ℕ → β → Fin (n + 2) → ℝ)
    (hy : IsBackwardEuler (fun b s x => (damaged E f dm s x (erate b s) (temp b s)).ydot) nt t y)
    (hlt : ∀ k b, k < nt → y k b (Fin.last (n + 1)) < 1) (k b) (hk : k + 1 < nt) :
    y k b (Fin.last (n + 1)) ≤ y (k + 1) b (Fin.last (n + 1)) := by
  have h1 := be_row hy k b hk (Fin.last (n + 1))
  beta_reduce at h1
  rw [damaged_last] at h1
  have h3 := hdm (y (k + 1) b 0 / (1 - y (k + 1) b (Fin.last (n + 1)))) _ (t (k + 1) b)
    (temp b (t (k + 1) b)) (erate b (t (k + 1) b)) (hlt (k + 1) b hk)
  have := mul_nonneg (sub_nonneg.2 (ht k b hk)) h3
  linarith

/-- Hayhurst-Leckie meets the hypothesis. -/
example (xi phi : ℝ → ℝ) : ∀ s d t T e, d < 1 → 0 ≤ (hayhurstLeckie (fun _ => 800) xi phi).rate s d t T e :=
  fun s d t T e hd => (C45_rates (fun _ => 800) xi phi (fun _ => 0) xi xi xi 0 s d t T e hd.le (by norm_num) le_rfl).2.1

/-! ## C46: Larson-Miller -/

/-- **C46.** A specimen of the damaged model with Larson-Miller damage, held at stress `s` and temperature `T`, collects damage linearly
in time with slope `1 / t_r`, `t_r` being the rupture time of the correlation `T (C + log₁₀ t_r) = A log₁₀|s| + B`. -/
theorem C46_rupture {β : Type*} {n : ℕ} (E : ℝ → ℝ) (f : FlowRule n) (C A B : ℝ → ℝ) (eps : ℝ) (erate : β → ℝ → ℝ)
    (nt : ℕ) (t : ℕ → β → ℝ) (y : ℕ → β → Fin (n + 2) → ℝ) (s T tr : ℝ) (hs : s ≠ 0) (hT : T ≠ 0) (htr : 0 < tr)
    (hr : T * (C T + Real.logb 10 tr) = A T * Real.logb 10 |s| + B T)
    (hy : IsBackwardEuler (fun b τ x => (damaged E f (larsonMiller C A B eps) τ x (erate b τ) T).ydot) nt t y)
    (hold : ∀ k b, k < nt → y k b 0 = s) (hlt : ∀ k b, k < nt → y k b (Fin.last (n + 1)) < 1) (k b) (hk : k < nt) :
    y k b (Fin.last (n + 1)) = y 0 b (Fin.last (n + 1)) + (t k b - t 0 b) / tr := by
  have hrate : ∀ d : ℝ, d < 1 → ∀ τ e, (larsonMiller C A B eps).rate (s / (1 - d)) d τ T e = 1 / tr := by
    intro d hd τ e
    have h1 : 0 < 1 - d := by linarith
    have hsp := abs_pos.2 hs
    have h2 : |s / (1 - d)| * (1 - d) = |s| := by
      rw [abs_div, abs_of_pos h1, div_mul_cancel₀ _ h1.ne']
    change (10 : ℝ) ^ (C T - B T / T) * (|s / (1 - d)| * (1 - d)) ^ (-A T / T) = _
    rw [h2]
    have h3 : |s| = (10 : ℝ) ^ Real.logb 10 |s| := (Real.rpow_logb (by norm_num) (by norm_num) hsp).symm
    have h4 : tr = (10 : ℝ) ^ Real.logb 10 tr := (Real.rpow_logb (by norm_num) (by norm_num) htr).symm
    have h5 : (|s| : ℝ) ^ (-A T / T) = (10 : ℝ) ^ (Real.logb 10 |s| * (-A T / T)) := by
      conv_lhs => rw [h3]
      rw [← Real.rpow_mul (by norm_num)]
    rw [h5, ← Real.rpow_add (by norm_num), one_div]
    conv_rhs => rw [h4]
    rw [← Real.rpow_neg (by norm_num)]
    congr 1
    have h6 : Real.logb 10 tr = (A T * Real.logb 10 |s| + B T) / T - C T := by
      rw [← hr]; field_simp; ring
    rw [h6]; field_simp; ring
  induction k with
  | zero => simp
  | succ k ih =>
    have h1 := be_row hy k b hk (Fin.last (n + 1))
    beta_reduce at h1
    rw [damaged_last, ih (by omega), hold (k + 1) b hk, hrate _ (hlt (k + 1) b hk)] at h1
    rw [h1]; ring

/-- **C46.** So an initially undamaged specimen has reached damage `1` exactly at `t_r`: before failure the elapsed time is below `t_r`,
and equals `t_r` times the damage. -/
theorem C46_life_fraction {β : Type*} {n : ℕ} (E : ℝ → ℝ) (f : FlowRule n) (C A B : ℝ → ℝ) (eps : ℝ)
    (erate : β → ℝ → ℝ) (nt : ℕ) (t : ℕ → β → ℝ) (y : ℕ → β → Fin (n + 2) → ℝ) (s T tr : ℝ) (hs : s ≠ 0) (hT : T ≠ 0)
    (htr : 0 < tr) (hr : T * (C T + Real.logb 10 tr) = A T * Real.logb 10 |s| + B T)
    (hy : IsBackwardEuler (fun b τ x => (damaged E f (larsonMiller C A B eps) τ x (erate b τ) T).ydot) nt t y)
    (hold : ∀ k b, k < nt → y k b 0 = s) (hlt : ∀ k b, k < nt → y k b (Fin.last (n + 1)) < 1)
    (h0 : ∀ b, y 0 b (Fin.last (n + 1)) = 0) (k b) (hk : k < nt) :
    t k b - t 0 b = tr * y k b (Fin.last (n + 1)) ∧ t k b - t 0 b < tr := by
  have h1 := C46_rupture E f C A B eps erate nt t y s T tr hs hT htr hr hy hold hlt k b hk
  rw [h0, zero_add] at h1
  have h2 : t k b - t 0 b = tr * y k b (Fin.last (n + 1)) := by rw [h1]; field_simp
  refine ⟨h2, ?_⟩
  rw [h2]
  nlinarith [hlt k b hk]

/-- Non-vacuity: stress 10, temperature 1, `A = -1`, `B = C = 1`, so `t_r = 1/10`; a two-point history that collects damage `1/2`. -/
example : ∃ (t : ℕ → Unit → ℝ) (y : ℕ → Unit → Fin 2 → ℝ),
    IsBackwardEuler (fun b τ x => (damaged (fun _ => 0) (perfect (fun _ => 1) (fun _ => 1))
      (larsonMiller (fun _ => 1) (fun _ => -1) (fun _ => 1) 0) τ x 0 1).ydot) 2 t y ∧
    (∀ k b, k < 2 → y k b 0 = 10) ∧ (∀ k b, k < 2 → y k b (Fin.last 1) < 1) ∧ y 1 () (Fin.last 1) = 1 / 2 ∧
    (1 : ℝ) * (1 + Real.logb 10 (1 / 10)) = -1 * Real.logb 10 |10| + 1 := by
  refine ⟨fun k _ => if k = 0 then 0 else 1 / 20, fun k _ => ![10, if k = 0 then 0 else 1 / 2], ?_, ?_, ?_, ?_, ?_⟩
  · intro k b hk
    obtain rfl : k = 0 := by omega
    funext i
    fin_cases i
    · simp [damaged, cat3, perfect]
    · simp [damaged, cat3, larsonMiller, Fin.snoc]
      norm_num
  · intro k b _; rfl
  · intro k b hk
    have : k = 0 ∨ k = 1 := by omega
    rcases this with rfl | rfl
    · change (if (0 : ℕ) = 0 then (0 : ℝ) else 1 / 2) < 1; norm_num
    · change (if (1 : ℕ) = 0 then (0 : ℝ) else 1 / 2) < 1; norm_num
  · change (if (1 : ℕ) = 0 then (0 : ℝ) else 1 / 2) = 1 / 2; norm_num
  · rw [one_div, Real.logb_inv]; simp

/-! ## C39, C40: internal variables stay in their range -/

/-- row of the isotropic hardening variable in a state `[stress, iso, kin]` -/
private theorem iso_row {nk : ℕ} (E n eta s0 R d : ℝ → ℝ) (kin : Hardening nk) (t : ℝ) (y : Fin (1 + nk + 1) → ℝ)
    (e T : ℝ) : ∃ ep, (inelastic E (isoKin n eta s0 (voce R d) kin) t y e T).ydot 1 =
      d T * (R T - y 1) * |ep| := by
  refine ⟨isoKinFlow n eta s0 (voce R d) kin (y 0) (fun j => y j.succ) T, ?_⟩
  have h1 : (1 : Fin (1 + nk + 1)) = (Fin.castAdd nk (0 : Fin 1)).succ := by
    ext; simp
  rw [h1]
  simp only [inelastic, isoKin, Fin.cons_succ, Fin.append_left]
  rfl

/-- **C39.** Along every backward Euler history of an inelastic model with Voce hardening (any kinematic model, any loading, any
temperature history) the isotropic strength stays in `[0, Rmax]`, `Rmax` a bound of the saturation strength at the temperatures met. -/
theorem C39_voce_range {β : Type*} {nk : ℕ} (E n eta s0 R d : ℝ → ℝ) (kin : Hardening nk) (erate temp : β → ℝ → ℝ)
    (nt : ℕ) (t : ℕ → β → ℝ) (ht : ∀ k b, k + 1 < nt → t k b ≤ t (k + 1) b) (y : ℕ → β → Fin (1 + nk + 1) → ℝ)
    (hy : IsBackwardEuler (fun b s x =>
      (inelastic E (isoKin n eta s0 (voce R d) kin) s x (erate b s) (temp b s)).ydot) nt t y)
    (Rmax : ℝ) (hd : ∀ k b, k < nt → 0 ≤ d (temp b (t k b)))
    (hR : ∀ k b, k < nt → 0 ≤ R (temp b (t k b)) ∧ R (temp b (t k b)) ≤ Rmax)
    (h0 : ∀ b, 0 ≤ y 0 b 1 ∧ y 0 b 1 ≤ Rmax) (k b) (hk : k < nt) : 0 ≤ y k b 1 ∧ y k b 1 ≤ Rmax := by
  induction k with
  | zero => exact h0 b
  | succ k ih =>
    obtain ⟨i1, i2⟩ := ih (by omega)
    obtain ⟨ep, hep⟩ := iso_row E n eta s0 R d kin (t (k + 1) b) (y (k + 1) b) (erate b (t (k + 1) b))
      (temp b (t (k + 1) b))
    have h1 := be_row hy k b hk 1
    beta_reduce at h1
    rw [hep] at h1
    obtain ⟨r1, r2⟩ := hR (k + 1) b hk
    have ha : 0 ≤ (t (k + 1) b - t k b) * (d (temp b (t (k + 1) b)) * |ep|) :=
      mul_nonneg (sub_nonneg.2 (ht k b hk)) (mul_nonneg (hd _ _ hk) (abs_nonneg _))
    have h2 : y (k + 1) b 1 * (1 + (t (k + 1) b - t k b) * (d (temp b (t (k + 1) b)) * |ep|)) =
        y k b 1 + (t (k + 1) b - t k b) * (d (temp b (t (k + 1) b)) * |ep|) * R (temp b (t (k + 1) b)) := by
      linear_combination h1
    generalize (t (k + 1) b - t k b) * (d (temp b (t (k + 1) b)) * |ep|) = a at ha h2
    constructor
    · by_contra hc
      push Not at hc
      nlinarith [mul_nonneg ha r1]
    · by_contra hc
      push Not at hc
      nlinarith [mul_nonneg ha (sub_nonneg.2 r2)]

/-- **C39.** At a constant saturation strength `R0` the strength never decreases on its way up to `R0`. -/
theorem C39_voce_monotone {β : Type*} {nk : ℕ} (E n eta s0 R d : ℝ → ℝ) (kin : Hardening nk)
    (erate temp : β → ℝ → ℝ) (nt : ℕ) (t : ℕ → β → ℝ) (ht : ∀ k b, k + 1 < nt → t k b ≤ t (k + 1) b)
    (y : ℕ → β → Fin (1 + nk + 1) → ℝ)
    (hy : IsBackwardEuler (fun b s x =>
      (inelastic E (isoKin n eta s0 (voce R d) kin) s x (erate b s) (temp b s)).ydot) nt t y)
    (R0 : ℝ) (hd : ∀ k b, k < nt → 0 ≤ d (temp b (t k b))) (hR : ∀ k b, k < nt → R (temp b (t k b)) = R0)
    (h0 : ∀ b, y 0 b 1 ≤ R0) (k b) (hk : k + 1 < nt) : y k b 1 ≤ y (k + 1) b 1 ∧ y (k + 1) b 1 ≤ R0 := by
  have step : ∀ k, k + 1 < nt → y k b 1 ≤ R0 → y k b 1 ≤ y (k + 1) b 1 ∧ y (k + 1) b 1 ≤ R0 := by
    intro k hk i2
    obtain ⟨ep, hep⟩ := iso_row E n eta s0 R d kin (t (k + 1) b) (y (k + 1) b) (erate b (t (k + 1) b))
      (temp b (t (k + 1) b))
    have h1 := be_row hy k b hk 1
    beta_reduce at h1
    rw [hep, hR (k + 1) b hk] at h1
    have ha : 0 ≤ (t (k + 1) b - t k b) * (d (temp b (t (k + 1) b)) * |ep|) :=
      mul_nonneg (sub_nonneg.2 (ht k b hk)) (mul_nonneg (hd _ _ hk) (abs_nonneg _))
    have h2 : y (k + 1) b 1 * (1 + (t (k + 1) b - t k b) * (d (temp b (t (k + 1) b)) * |ep|)) =
        y k b 1 + (t (k + 1) b - t k b) * (d (temp b (t (k + 1) b)) * |ep|) * R0 := by
      linear_combination h1
    generalize (t (k + 1) b - t k b) * (d (temp b (t (k + 1) b)) * |ep|) = a at ha h2
    have h3 : y (k + 1) b 1 ≤ R0 := by
      by_contra hc
      push Not at hc
      nlinarith
    refine ⟨?_, h3⟩
    nlinarith [mul_nonneg ha (sub_nonneg.2 h3)]
  have hle : ∀ k, k < nt → y k b 1 ≤ R0 := by
    intro k
    induction k with
    | zero => intro _; exact h0 b
    | succ k ih => intro hk; exact (step k hk (ih (by omega))).2
  exact step k hk (hle k (by omega))

/-- row of backstress `i` in a state `[stress, iso, kin]` -/
private theorem kin_row {ni nk : ℕ} (E n eta s0 : ℝ → ℝ) (iso : Hardening ni) (C g bb r : Fin nk → ℝ → ℝ) (t : ℝ)
    (y : Fin (ni + nk + 1) → ℝ) (e T : ℝ) (i : Fin nk) : ∃ ep,
      (inelastic E (isoKin n eta s0 iso (chabocheRecovery C g bb r)) t y e T).ydot (Fin.natAdd ni i).succ =
        C i T * ep - g i T * y (Fin.natAdd ni i).succ * |ep| -
          bb i T * |y (Fin.natAdd ni i).succ| ^ (r i T - 1) * y (Fin.natAdd ni i).succ := by
  refine ⟨isoKinFlow n eta s0 iso (chabocheRecovery C g bb r) (y 0) (fun j => y j.succ) T, ?_⟩
  simp only [inelastic, isoKin, Fin.cons_succ, Fin.append_right]
  rfl

/-- one implicit step of `x' = x + dt (C ep - g x' |ep| - w x')` keeps `|x| ≤ B` when `|C| ≤ B g` -/
private theorem backstress_step {x x' dt C g ep w B : ℝ} (hdt : 0 ≤ dt) (hC : |C| ≤ B * g) (hw : 0 ≤ w) (hB : 0 ≤ B)
    (hg : 0 ≤ g) (hx : |x| ≤ B) (h : x' = x + dt * (C * ep - g * x' * |ep| - w * x')) : |x'| ≤ B := by
  have h1 : x' * (1 + dt * (g * |ep| + w)) = x + dt * (C * ep) := by linear_combination h
  have ha : 0 ≤ dt * (g * |ep| + w) := mul_nonneg hdt (add_nonneg (mul_nonneg hg (abs_nonneg _)) hw)
  have h2 : |x'| * (1 + dt * (g * |ep| + w)) = |x + dt * (C * ep)| := by
    rw [← h1, abs_mul, abs_of_nonneg (by linarith : 0 ≤ 1 + dt * (g * |ep| + w))]
  have h3 : |x + dt * (C * ep)| ≤ B + dt * (B * g * |ep|) := by
    refine (abs_add_le _ _).trans (add_le_add hx ?_)
    rw [abs_mul, abs_of_nonneg hdt, abs_mul]
    exact mul_le_mul_of_nonneg_left (mul_le_mul_of_nonneg_right hC (abs_nonneg _)) hdt
  have h4 : |x'| * (1 + dt * (g * |ep| + w)) ≤ B * (1 + dt * (g * |ep| + w)) := by
    have := mul_nonneg hB (mul_nonneg hdt hw)
    rw [h2]; nlinarith
  exact le_of_mul_le_mul_right h4 (by linarith)

/-- **C40.** Along every backward Euler history, each Chaboche backstress with non-negative static recovery stays in
`[-B_i, B_i]`, `B_i` any bound of `C_i/g_i` at the temperatures met, whatever the isotropic model, loading and step sizes. -/
theorem C40_recovery {β : Type*} {ni nk : ℕ} (E n eta s0 : ℝ → ℝ) (iso : Hardening ni) (C g bb r : Fin nk → ℝ → ℝ)
    (erate temp : β → ℝ → ℝ) (nt : ℕ) (t : ℕ → β → ℝ) (ht : ∀ k b, k + 1 < nt → t k b ≤ t (k + 1) b)
    (y : ℕ → β → Fin (ni + nk + 1) → ℝ)
    (hy : IsBackwardEuler (fun b s x =>
      (inelastic E (isoKin n eta s0 iso (chabocheRecovery C g bb r)) s x (erate b s) (temp b s)).ydot) nt t y)
    (i : Fin nk) (B : ℝ) (hC : ∀ k b, k < nt → |C i (temp b (t k b))| ≤ B * g i (temp b (t k b)))
    (hg : ∀ k b, k < nt → 0 ≤ g i (temp b (t k b))) (hb : ∀ k b, k < nt → 0 ≤ bb i (temp b (t k b))) (h0 : ∀ b, |y 0 b (Fin.natAdd ni i).succ| ≤ B) (k b) (hk : k < nt) :
    |y k b (Fin.natAdd ni i).succ| ≤ B := by
  induction k with
  | zero => exact h0 b
  | succ k ih =>
    obtain ⟨ep, hep⟩ := kin_row E n eta s0 iso C g bb r (t (k + 1) b) (y (k + 1) b) (erate b (t (k + 1) b))
      (temp b (t (k + 1) b)) i
    have h1 := be_row hy k b hk (Fin.natAdd ni i).succ
    beta_reduce at h1
    rw [hep] at h1
    exact backstress_step (sub_nonneg.2 (ht k b hk)) (hC (k + 1) b hk)
      (mul_nonneg (hb (k + 1) b hk) (Real.rpow_nonneg (abs_nonneg _) _)) ((abs_nonneg _).trans (h0 b))
      (hg _ _ hk) (ih (by omega)) h1

/-- **C40.** The same without recovery (`ChabocheHardeningModel`). -/
theorem C40_chaboche {β : Type*} {ni nk : ℕ} (E n eta s0 : ℝ → ℝ) (iso : Hardening ni) (C g : Fin nk → ℝ → ℝ)
    (erate temp : β → ℝ → ℝ) (nt : ℕ) (t : ℕ → β → ℝ) (ht : ∀ k b, k + 1 < nt → t k b ≤ t (k + 1) b)
    (y : ℕ → β → Fin (ni + nk + 1) → ℝ)
    (hy : IsBackwardEuler (fun b s x =>
      (inelastic E (isoKin n eta s0 iso (chaboche C g)) s x (erate b s) (temp b s)).ydot) nt t y)
    (i : Fin nk) (B : ℝ) (hC : ∀ k b, k < nt → |C i (temp b (t k b))| ≤ B * g i (temp b (t k b)))
    (hg : ∀ k b, k < nt → 0 ≤ g i (temp b (t k b))) (h0 : ∀ b, |y 0 b (Fin.natAdd ni i).succ| ≤ B) (k b) (hk : k < nt) :
    |y k b (Fin.natAdd ni i).succ| ≤ B := by
  refine C40_recovery E n eta s0 iso C g (fun _ _ => 0) (fun _ _ => 1) erate temp nt t ht y ?_ i B hC hg
    (fun _ _ _ => le_rfl) h0 k b hk
  intro k b hk
  refine (hy k b hk).trans ?_
  beta_reduce
  congr 2
  generalize y (k + 1) b = x
  funext j
  refine Fin.cases ?_ (fun j => ?_) j
  · rfl
  · refine Fin.addCases (fun j => ?_) (fun j => ?_) j
    · simp only [inelastic, isoKin, Fin.cons_succ, Fin.append_left]; rfl
    · simp only [inelastic, isoKin, Fin.cons_succ, Fin.append_right]
      simp only [chaboche, chabocheRecovery, zero_mul, sub_zero]
      rfl

/-- The parameter hypotheses of C39 and C40 hold for ordinary temperature dependent parameters. -/
example : (∀ (b : Unit) (s : ℝ), |(fun T => 1000 + T ^ 2 : ℝ → ℝ) s| ≤ 10 * (fun T => 100 + T ^ 2 : ℝ → ℝ) s) ∧
    ∀ (b : Unit) (s : ℝ), 0 ≤ (fun T => 100 + T ^ 2 : ℝ → ℝ) s := by
  refine ⟨fun _ s => ?_, fun _ s => by positivity⟩
  rw [abs_of_nonneg (by positivity)]
  nlinarith [sq_nonneg s]

/-- A non-constant backward Euler history: perfectly plastic-like Voce model with one backstress row, time step 1, in which the
isotropic variable moves from 0 to 1 = R/2 and the backstress from 0 to `C/(1+g)`. -/
example : ∃ y : ℕ → Unit → Fin (1 + 1 + 1) → ℝ,
    IsBackwardEuler (fun _ s x => (inelastic (fun _ => 0) (isoKin (fun _ => 1) (fun _ => 1) (fun _ => 0)
      (voce (fun _ => 2) (fun _ => 1)) (chaboche (fun _ _ => 1) (fun _ _ => 1))) s x 0 0).ydot) 2 (fun k _ => k) y ∧
    y 0 () 1 = 0 ∧ y 1 () 1 = 1 ∧ y 0 () 2 = 0 ∧ y 1 () 2 = 1 / 2 := by
  refine ⟨fun k _ => if k = 0 then ![5 / 2, 0, 0] else ![5 / 2, 1, 1 / 2], ?_, rfl, rfl, rfl, rfl⟩
  intro k b hk
  obtain rfl : k = 0 := by omega
  have hflow : isoKinFlow (fun _ => (1 : ℝ)) (fun _ => 1) (fun _ => 0) (voce (fun _ => 2) (fun _ => 1))
      (chaboche (fun (_ : Fin 1) _ => 1) (fun _ _ => 1)) (5 / 2) (fun j => (![5 / 2, 1, 1 / 2] : Fin 3 → ℝ) j.succ) 0 = 1 := by
    have hi : (voce (fun _ => 2) (fun _ => 1)).value (isoPart (ni := 1) (nk := 1)
      fun j => (![5 / 2, 1, 1 / 2] : Fin 3 → ℝ) j.succ) = 1 := rfl
    have hk : (chaboche (fun (_ : Fin 1) _ => 1) (fun _ _ => 1)).value (kinPart (ni := 1) (nk := 1)
      fun j => (![5 / 2, 1, 1 / 2] : Fin 3 → ℝ) j.succ) = 1 / 2 := by
        change ∑ i : Fin 1, _ = _
        rw [Fin.sum_univ_one]; rfl
    unfold isoKinFlow
    rw [hi, hk]
    norm_num [macaulay_eq, sgn_pos]
  funext j
  refine Fin.cases ?_ (fun j => ?_) j
  · simp [inelastic]
  · refine Fin.addCases (fun j => ?_) (fun j => ?_) j
    · obtain rfl : j = 0 := Subsingleton.elim _ _
      simp only [inelastic, isoKin, Fin.cons_succ, Fin.append_left, Pi.add_apply, Pi.smul_apply]
      have : isoKinFlow (fun _ => (1 : ℝ)) (fun _ => 1) (fun _ => 0) (voce (fun _ => 2) (fun _ => 1))
        (chaboche (fun (_ : Fin 1) _ => 1) (fun _ _ => 1)) ((if 0 + 1 = 0 then ![5 / 2, 0, 0] else ![5 / 2, 1, 1 / 2] : Fin 3 → ℝ) 0)
          (fun j => (if 0 + 1 = 0 then ![5 / 2, 0, 0] else ![5 / 2, 1, 1 / 2] : Fin 3 → ℝ) j.succ) 0 = 1 := hflow
      rw [this]
      norm_num [voce, isoPart]
      change (1 : ℝ) = 0 + (2 - 1)
      norm_num
    · obtain rfl : j = 0 := Subsingleton.elim _ _
      simp only [inelastic, isoKin, Fin.cons_succ, Fin.append_right, Pi.add_apply, Pi.smul_apply]
      have : isoKinFlow (fun _ => (1 : ℝ)) (fun _ => 1) (fun _ => 0) (voce (fun _ => 2) (fun _ => 1))
        (chaboche (fun (_ : Fin 1) _ => 1) (fun _ _ => 1)) ((if 0 + 1 = 0 then ![5 / 2, 0, 0] else ![5 / 2, 1, 1 / 2] : Fin 3 → ℝ) 0)
          (fun j => (if 0 + 1 = 0 then ![5 / 2, 0, 0] else ![5 / 2, 1, 1 / 2] : Fin 3 → ℝ) j.succ) 0 = 1 := hflow
      rw [this]
      norm_num [chaboche, kinPart]
      change (1 / 2 : ℝ) = 0 + 1 / 2
      norm_num

end Pyoptmat.Props
