import Verif.Proofs.Scalar
import Verif.Proofs.AdjointDeriv
import Verif.Spec.Material

/-! Helper lemmas: exactness of the hardening models. -/

namespace Pyoptmat.Material

open Pyoptmat.Spec Pyoptmat.Ode Filter Topology Asymptotics

variable {n : ℕ}

@[simp] theorem row3_apply (a : ℝ) (v : Fin n → ℝ) (c : ℝ) (x : ℝ × (Fin n → ℝ) × ℝ) :
    row3 a v c x = a * x.1 + v ⬝ᵥ x.2.1 + c * x.2.2 := by
  simp [row3, dotCLM_apply]

@[simp] theorem row4_apply (a : ℝ) (v : Fin n → ℝ) (c b : ℝ) (x : (ℝ × (Fin n → ℝ) × ℝ) × ℝ) :
    row4 a v c b x = a * x.1.1 + v ⬝ᵥ x.1.2.1 + c * x.1.2.2 + b * x.2 := by
  simp [row4]

theorem dotCLM_single (j : Fin n) : dotCLM (Pi.single j (1 : ℝ)) = ContinuousLinearMap.proj j := by
  ext x; simp [dotCLM_apply]

/-- projection to the history -/
noncomputable def histCLM : (ℝ × (Fin n → ℝ) × ℝ) × ℝ →L[ℝ] (Fin n → ℝ) :=
  (ContinuousLinearMap.fst ℝ (Fin n → ℝ) ℝ).comp ((ContinuousLinearMap.snd ℝ ℝ ((Fin n → ℝ) × ℝ)).comp
    (ContinuousLinearMap.fst ℝ (ℝ × (Fin n → ℝ) × ℝ) ℝ))

/-- projection to the history -/
noncomputable def histCLM3 : (ℝ × (Fin n → ℝ) × ℝ) →L[ℝ] (Fin n → ℝ) :=
  (ContinuousLinearMap.fst ℝ (Fin n → ℝ) ℝ).comp (ContinuousLinearMap.snd ℝ ℝ ((Fin n → ℝ) × ℝ))

theorem rate_form {P Q S : (Fin n → ℝ) → ℝ} {P' Q' S' h : Fin n → ℝ} (s e : ℝ) {ep : ℝ} (hep : ep ≠ 0)
    (hP : HasFDerivAt P (dotCLM P') h) (hQ : HasFDerivAt Q (dotCLM Q') h) (hS : HasFDerivAt S (dotCLM S') h) :
    HasFDerivAt (fun x : (ℝ × (Fin n → ℝ) × ℝ) × ℝ => P x.1.2.1 + Q x.1.2.1 * x.2 + S x.1.2.1 * |x.2|)
      (row4 0 (P' + ep • Q' + |ep| • S') 0 (Q h + S h * sgn ep)) ((s, h, e), ep) := by
  have hh : HasFDerivAt (fun x : (ℝ × (Fin n → ℝ) × ℝ) × ℝ => x.1.2.1) histCLM ((s, h, e), ep) :=
    histCLM.hasFDerivAt
  have hp := HasFDerivAt.comp ((s, h, e), ep) (g := P) (f := fun x : (ℝ × (Fin n → ℝ) × ℝ) × ℝ => x.1.2.1) hP hh
  have hq := HasFDerivAt.comp ((s, h, e), ep) (g := Q) (f := fun x : (ℝ × (Fin n → ℝ) × ℝ) × ℝ => x.1.2.1) hQ hh
  have hs := HasFDerivAt.comp ((s, h, e), ep) (g := S) (f := fun x : (ℝ × (Fin n → ℝ) × ℝ) × ℝ => x.1.2.1) hS hh
  have he : HasFDerivAt (fun x : (ℝ × (Fin n → ℝ) × ℝ) × ℝ => x.2)
    (ContinuousLinearMap.snd ℝ (ℝ × (Fin n → ℝ) × ℝ) ℝ) ((s, h, e), ep) := hasFDerivAt_snd
  have ha := HasDerivAt.comp_hasFDerivAt ((s, h, e), ep) (h₂ := fun y : ℝ => |y|)
    (f := fun x : (ℝ × (Fin n → ℝ) × ℝ) × ℝ => x.2) (hasDerivAt_abs' hep) he
  refine ((hp.add (hq.mul he)).add (hs.mul ha)).congr_fderiv ?_
  refine ContinuousLinearMap.ext fun x => ?_
  simp only [ContinuousLinearMap.add_apply, ContinuousLinearMap.smul_apply, ContinuousLinearMap.comp_apply,
    row4_apply, dotCLM_apply, histCLM, ContinuousLinearMap.coe_fst', ContinuousLinearMap.coe_snd', smul_eq_mul,
    Function.comp_apply, add_dotProduct, smul_dotProduct]
  ring

theorem rate_form_zero {P Q S : (Fin n → ℝ) → ℝ} {P' Q' S' h : Fin n → ℝ} (s e : ℝ)
    (hP : HasFDerivAt P (dotCLM P') h) (hQ : HasFDerivAt Q (dotCLM Q') h) (hS : HasFDerivAt S (dotCLM S') h) :
    HasFDerivAt (fun x : ℝ × (Fin n → ℝ) × ℝ => P x.2.1) (row3 0 P' 0) (s, h, e) ∧
    (fun x : (ℝ × (Fin n → ℝ) × ℝ) × ℝ => Q x.1.2.1 * x.2 + S x.1.2.1 * |x.2|)
      =O[𝓝 ((s, h, e), 0)] fun x => x.2 := by
  constructor
  · have hh : HasFDerivAt (fun x : ℝ × (Fin n → ℝ) × ℝ => x.2.1) histCLM3 (s, h, e) :=
      histCLM3.hasFDerivAt
    refine (HasFDerivAt.comp (s, h, e) (g := P) (f := fun x : ℝ × (Fin n → ℝ) × ℝ => x.2.1) hP hh).congr_fderiv ?_
    refine ContinuousLinearMap.ext fun x => ?_
    simp [dotCLM_apply, histCLM3]
  · have ht : Tendsto (fun x : (ℝ × (Fin n → ℝ) × ℝ) × ℝ => x.1.2.1) (𝓝 ((s, h, e), 0)) (𝓝 h) :=
      (histCLM (n := n)).continuous.continuousAt (x := ((s, h, e), (0 : ℝ)))
    have hq : (fun x : (ℝ × (Fin n → ℝ) × ℝ) × ℝ => Q x.1.2.1) =O[𝓝 ((s, h, e), 0)] fun _ => (1 : ℝ) :=
      (hQ.continuousAt.tendsto.comp ht).isBigO_one ℝ
    have hs : (fun x : (ℝ × (Fin n → ℝ) × ℝ) × ℝ => S x.1.2.1) =O[𝓝 ((s, h, e), 0)] fun _ => (1 : ℝ) :=
      (hS.continuousAt.tendsto.comp ht).isBigO_one ℝ
    have h1 := hq.mul (isBigO_refl (fun x : (ℝ × (Fin n → ℝ) × ℝ) × ℝ => x.2) (𝓝 ((s, h, e), 0)))
    have h2 := hs.mul (isBigO_refl (fun x : (ℝ × (Fin n → ℝ) × ℝ) × ℝ => x.2) (𝓝 ((s, h, e), 0))).abs_left
    simpa using h1.add h2

theorem hardeningExact_of_form (m : Hardening n) (s : ℝ) (h : Fin n → ℝ) (t ep T e : ℝ)
    (P Q S : Fin n → (Fin n → ℝ) → ℝ) (P' Q' S' : Fin n → Fin n → ℝ)
    (hval : HasFDerivAt m.value (dotCLM (m.dvalue h)) h)
    (hP : ∀ i, HasFDerivAt (P i) (dotCLM (P' i)) h) (hQ : ∀ i, HasFDerivAt (Q i) (dotCLM (Q' i)) h)
    (hS : ∀ i, HasFDerivAt (S i) (dotCLM (S' i)) h)
    (hr : ∀ s h ep e i, m.rate s h t ep T e i = P i h + Q i h * ep + S i h * |ep|)
    (hds : ∀ i, m.drate_ds s h t ep T e i = 0) (hde : ∀ i, m.drate_de s h t ep T e i = 0)
    (hdh : ∀ i, m.drate_dh s h t ep T e i = P' i + ep • Q' i + |ep| • S' i)
    (hdep : ∀ i, m.drate_dep s h t ep T e i = Q i h + S i h * sgn ep) :
    HardeningExact m s h t ep T e := by
  refine ⟨hval, ?_, ?_⟩
  · intro hep i
    rw [hds, hde, hdh, hdep]
    simp only [hr]
    exact rate_form s e hep (hP i) (hQ i) (hS i)
  · rintro rfl i
    have h0 := rate_form_zero s e (hP i) (hQ i) (hS i)
    rw [hds, hde, hdh]
    simp only [hr]
    constructor
    · simpa using h0.1
    · refine h0.2.congr_left fun x => ?_
      simp; ring

/-- derivative of a function of one component -/
theorem comp_proj {φ : ℝ → ℝ} {φ' : ℝ} (i : Fin n) {h : Fin n → ℝ} (hφ : HasDerivAt φ φ' (h i)) :
    HasFDerivAt (fun x : Fin n → ℝ => φ (x i)) (dotCLM (Pi.single i φ')) h := by
  have hp : HasFDerivAt (fun x : Fin n → ℝ => x i) (ContinuousLinearMap.proj (R := ℝ) i) h :=
    (ContinuousLinearMap.proj (R := ℝ) (φ := fun _ : Fin n => ℝ) i).hasFDerivAt
  have := HasDerivAt.comp_hasFDerivAt (h₂ := φ) (f := fun x : Fin n → ℝ => x i) h hφ hp
  refine this.congr_fderiv ?_
  ext x; simp [dotCLM_apply, Pi.single_apply]

theorem const_form (c : ℝ) (h : Fin n → ℝ) : HasFDerivAt (fun _ : Fin n → ℝ => c) (dotCLM (0 : Fin n → ℝ)) h := by
  have : (dotCLM (0 : Fin n → ℝ)) = 0 := by ext x; simp [dotCLM_apply]
  rw [this]; exact hasFDerivAt_const c h

theorem value_first (h : Fin 1 → ℝ) : HasFDerivAt (fun h : Fin 1 → ℝ => h 0) (dotCLM fun _ => (1 : ℝ)) h := by
  refine (hasFDerivAt_apply (𝕜 := ℝ) (0 : Fin 1) h).congr_fderiv ?_
  ext x; simp [dotCLM_apply, dotProduct]

theorem value_sum (h : Fin n → ℝ) : HasFDerivAt (fun h : Fin n → ℝ => ∑ i, h i) (dotCLM fun _ => (1 : ℝ)) h := by
  refine (HasFDerivAt.fun_sum fun i (_ : i ∈ Finset.univ) => hasFDerivAt_apply (𝕜 := ℝ) i h).congr_fderiv ?_
  ext x; simp [dotCLM_apply, dotProduct]

private theorem one_single (a : ℝ) : (Pi.single 0 a : Fin 1 → ℝ) = fun _ => a := by
  funext i; simp [Subsingleton.elim i 0]

theorem voce_exact (R d : ℝ → ℝ) (s : ℝ) (h : Fin 1 → ℝ) (t ep T e : ℝ) :
    HardeningExact (voce R d) s h t ep T e := by
  refine hardeningExact_of_form _ _ _ _ _ _ _ (fun _ _ => 0) (fun _ _ => 0) (fun _ h => d T * (R T - h 0))
    (fun _ => 0) (fun _ => 0) (fun _ => Pi.single 0 (-d T)) (value_first h) (fun _ => const_form 0 h)
    (fun _ => const_form 0 h) (fun i => ?_) (fun s h ep e i => ?_) (fun i => rfl) (fun i => rfl) (fun i => ?_)
    (fun i => ?_)
  · refine comp_proj (φ := fun y => d T * (R T - y)) 0 ?_
    simpa using ((hasDerivAt_id (h 0)).const_sub (R T)).const_mul (d T)
  · simp [voce]
  · funext j; simp [voce, one_single, Subsingleton.elim j 0, Subsingleton.elim i 0]; ring
  · simp [voce]

theorem theta0Voce_exact (tau theta : ℝ → ℝ) (s : ℝ) (h : Fin 1 → ℝ) (t ep T e : ℝ) :
    HardeningExact (theta0Voce tau theta) s h t ep T e := by
  refine hardeningExact_of_form _ _ _ _ _ _ _ (fun _ _ => 0) (fun _ _ => 0)
    (fun _ h => theta T * (1 - h 0 / tau T))
    (fun _ => 0) (fun _ => 0) (fun _ => Pi.single 0 (-theta T / tau T)) (value_first h) (fun _ => const_form 0 h)
    (fun _ => const_form 0 h) (fun i => ?_) (fun s h ep e i => ?_) (fun i => rfl) (fun i => rfl) (fun i => ?_)
    (fun i => ?_)
  · refine comp_proj (φ := fun y => theta T * (1 - y / tau T)) 0 ?_
    refine ((((hasDerivAt_id (h 0)).div_const (tau T)).const_sub 1).const_mul (theta T)).congr_deriv ?_
    ring
  · simp [theta0Voce]
  · funext j; simp [theta0Voce, one_single, Subsingleton.elim j 0, Subsingleton.elim i 0]; ring
  · simp [theta0Voce]

theorem theta0Recovery_exact (tau theta R0 r1 r2 : ℝ → ℝ) (s : ℝ) (h : Fin 1 → ℝ) (t ep T e : ℝ)
    (hr : h 0 ≠ R0 T ∨ 1 ≤ r2 T) :
    HardeningExact (theta0Recovery tau theta R0 r1 r2) s h t ep T e := by
  refine hardeningExact_of_form _ _ _ _ _ _ _ (fun _ h => r1 T * (R0 T - h 0) * |R0 T - h 0| ^ (r2 T - 1))
    (fun _ _ => 0)
    (fun _ h => theta T * (1 - h 0 / tau T))
    (fun _ => Pi.single 0 (-(r2 T * r1 T * |R0 T - h 0| ^ (r2 T - 1)))) (fun _ => 0)
    (fun _ => Pi.single 0 (-theta T / tau T)) (value_first h) (fun i => ?_)
    (fun _ => const_form 0 h) (fun i => ?_) (fun s h ep e i => ?_) (fun i => rfl) (fun i => rfl) (fun i => ?_)
    (fun i => ?_)
  · refine comp_proj (φ := fun y => r1 T * (R0 T - y) * |R0 T - y| ^ (r2 T - 1)) 0 ?_
    have h1 := hasDerivAt_mul_abs_rpow (x := R0 T - h 0) (r := r2 T) (by
      rcases hr with hr | hr
      · exact Or.inl (sub_ne_zero.2 (Ne.symm hr))
      · exact Or.inr hr)
    have h2 := (h1.comp (h 0) ((hasDerivAt_id (h 0)).const_sub (R0 T))).const_mul (r1 T)
    refine (h2.congr_deriv (by ring)).congr_of_eventuallyEq (Eventually.of_forall fun y => ?_)
    simp; ring
  · refine comp_proj (φ := fun y => theta T * (1 - y / tau T)) 0 ?_
    refine ((((hasDerivAt_id (h 0)).div_const (tau T)).const_sub 1).const_mul (theta T)).congr_deriv ?_
    ring
  · simp [theta0Recovery]; ring
  · funext j; simp [theta0Recovery, one_single, Subsingleton.elim j 0, Subsingleton.elim i 0]; ring
  · simp [theta0Recovery]

theorem noKinematic_exact (s : ℝ) (h : Fin 0 → ℝ) (t ep T e : ℝ) :
    HardeningExact noKinematic s h t ep T e := by
  refine ⟨?_, fun _ i => i.elim0, fun _ i => i.elim0⟩
  exact const_form 0 h

theorem recovery_deriv (b r : ℝ) {x : ℝ} (hr : x ≠ 0 ∨ 1 ≤ r) :
    HasDerivAt (fun y : ℝ => -(b * |y| ^ (r - 1) * y)) (-(b * r * |x| ^ (r - 1))) x := by
  refine ((hasDerivAt_mul_abs_rpow hr).const_mul (-b)).congr_deriv (by ring) |>.congr_of_eventuallyEq
    (Eventually.of_forall fun y => ?_)
  simp; ring

theorem fa_exact (C g b r : ℝ → ℝ) (s : ℝ) (h : Fin 1 → ℝ) (t ep T e : ℝ) (hr : h 0 ≠ 0 ∨ 1 ≤ r T) :
    HardeningExact (fa C g b r) s h t ep T e := by
  refine hardeningExact_of_form _ _ _ _ _ _ _ (fun _ h => -(b T * |h 0| ^ (r T - 1) * h 0)) (fun _ _ => C T)
    (fun _ h => -(g T * h 0)) (fun _ => Pi.single 0 (-(b T * r T * |h 0| ^ (r T - 1)))) (fun _ => 0)
    (fun _ => Pi.single 0 (-g T)) (value_first h)
    (fun _ => comp_proj (φ := fun y => -(b T * |y| ^ (r T - 1) * y)) 0 (recovery_deriv _ _ hr))
    (fun _ => const_form _ h) (fun i => ?_) (fun s h ep e i => ?_) (fun i => rfl) (fun i => rfl) (fun i => ?_)
    (fun i => ?_)
  · refine comp_proj (φ := fun y => -(g T * y)) 0 ?_
    simpa using ((hasDerivAt_id (h 0)).const_mul (g T)).fun_neg
  · simp [fa]; ring
  · funext j; simp [fa, one_single, Subsingleton.elim j 0, Subsingleton.elim i 0]; ring
  · simp [fa]; ring

theorem faNoRecovery_exact (C g : ℝ → ℝ) (s : ℝ) (h : Fin 1 → ℝ) (t ep T e : ℝ) :
    HardeningExact (faNoRecovery C g) s h t ep T e := by
  refine hardeningExact_of_form _ _ _ _ _ _ _ (fun _ _ => 0) (fun _ _ => C T)
    (fun _ h => -(g T * h 0)) (fun _ => 0) (fun _ => 0)
    (fun _ => Pi.single 0 (-g T)) (value_first h) (fun _ => const_form _ h)
    (fun _ => const_form _ h) (fun i => ?_) (fun s h ep e i => ?_) (fun i => rfl) (fun i => rfl) (fun i => ?_)
    (fun i => ?_)
  · refine comp_proj (φ := fun y => -(g T * y)) 0 ?_
    simpa using ((hasDerivAt_id (h 0)).const_mul (g T)).fun_neg
  · simp [faNoRecovery]; ring
  · funext j; simp [faNoRecovery, one_single, Subsingleton.elim j 0, Subsingleton.elim i 0]; ring
  · simp [faNoRecovery]; ring

theorem chaboche_exact (C g : Fin n → ℝ → ℝ) (s : ℝ) (h : Fin n → ℝ) (t ep T e : ℝ) :
    HardeningExact (chaboche C g) s h t ep T e := by
  refine hardeningExact_of_form _ _ _ _ _ _ _ (fun _ _ => 0) (fun i _ => C i T)
    (fun i h => -(g i T * h i)) (fun _ => 0) (fun _ => 0)
    (fun i => Pi.single i (-g i T)) (value_sum h) (fun _ => const_form _ h)
    (fun _ => const_form _ h) (fun i => ?_) (fun s h ep e i => ?_) (fun i => rfl) (fun i => rfl) (fun i => ?_)
    (fun i => ?_)
  · refine comp_proj (φ := fun y => -(g i T * y)) i ?_
    simpa using ((hasDerivAt_id (h i)).const_mul (g i T)).fun_neg
  · simp [chaboche]; ring
  · funext j
    simp only [chaboche, Matrix.diagonal_apply, Pi.add_apply, Pi.smul_apply, Pi.single_apply, Pi.zero_apply]
    split_ifs <;> simp_all; ring
  · simp [chaboche]; ring

theorem chabocheRecovery_exact (C g b r : Fin n → ℝ → ℝ) (s : ℝ) (h : Fin n → ℝ) (t ep T e : ℝ)
    (hr : ∀ i, h i ≠ 0 ∨ 1 ≤ r i T) :
    HardeningExact (chabocheRecovery C g b r) s h t ep T e := by
  refine hardeningExact_of_form _ _ _ _ _ _ _ (fun i h => -(b i T * |h i| ^ (r i T - 1) * h i)) (fun i _ => C i T)
    (fun i h => -(g i T * h i)) (fun i => Pi.single i (-(b i T * r i T * |h i| ^ (r i T - 1)))) (fun _ => 0)
    (fun i => Pi.single i (-g i T)) (value_sum h)
    (fun i => comp_proj (φ := fun y => -(b i T * |y| ^ (r i T - 1) * y)) i (recovery_deriv _ _ (hr i)))
    (fun _ => const_form _ h) (fun i => ?_) (fun s h ep e i => ?_) (fun i => rfl) (fun i => rfl) (fun i => ?_)
    (fun i => ?_)
  · refine comp_proj (φ := fun y => -(g i T * y)) i ?_
    simpa using ((hasDerivAt_id (h i)).const_mul (g i T)).fun_neg
  · simp [chabocheRecovery]; ring
  · funext j
    simp only [chabocheRecovery, Matrix.diagonal_apply, Matrix.add_apply, Pi.add_apply, Pi.smul_apply,
      Pi.single_apply, Pi.zero_apply]
    by_cases hij : i = j
    · subst hij; simp; ring
    · simp [hij, Ne.symm hij]
  · simp [chabocheRecovery]; ring

end Pyoptmat.Material
