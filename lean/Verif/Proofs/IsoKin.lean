import Verif.Proofs.Hardening

/-! Helper lemmas: exactness of the IsoKin flow rule. -/

namespace Pyoptmat.Material

open Pyoptmat.Spec Pyoptmat.Ode Filter Topology Asymptotics

/-- the overstress function of `(s - x, yield strength)` -/
noncomputable def overflow (n eta : ℝ) (x : ℝ × ℝ) : ℝ := macaulay ((|x.1| - x.2) / eta) ^ n * sgn x.1

theorem overflow_hasFDerivAt {n eta u w : ℝ} (heta : 0 < eta) (hw : 0 ≤ w) (h : 1 < n ∨ w < |u|) :
    HasFDerivAt (overflow n eta)
      ((n * macaulay ((|u| - w) / eta) ^ (n - 1) / eta) • ContinuousLinearMap.fst ℝ ℝ ℝ +
       (-n * macaulay ((|u| - w) / eta) ^ (n - 1) / eta * sgn u) • ContinuousLinearMap.snd ℝ ℝ ℝ) (u, w) := by
  by_cases hu : u = 0
  · subst hu
    have hn : 1 < n := by
      rcases h with h | h
      · exact h
      · simp at h; linarith
    have hm : macaulay ((|(0 : ℝ)| - w) / eta) = 0 := by
      refine macaulay_of_nonpos ?_
      rw [abs_zero]
      exact div_nonpos_of_nonpos_of_nonneg (by linarith) heta.le
    rw [hm, Real.zero_rpow (by linarith)]
    have hz : ((n * 0 / eta) • ContinuousLinearMap.fst ℝ ℝ ℝ +
       (-n * 0 / eta * sgn 0) • ContinuousLinearMap.snd ℝ ℝ ℝ) = 0 := by simp
    rw [hz, hasFDerivAt_iff_isLittleO]
    have h0 : overflow n eta (0, w) = 0 := by simp [overflow]
    simp only [h0, sub_zero, ContinuousLinearMap.zero_apply]
    have ht : Tendsto (fun x : ℝ × ℝ => 2 / eta * ‖x - (0, w)‖) (𝓝 (0, w)) (𝓝 0) := by
      have : ContinuousAt (fun x : ℝ × ℝ => 2 / eta * ‖x - (0, w)‖) (0, w) :=
        (continuous_const.mul (continuous_id.sub continuous_const).norm).continuousAt
      simpa [ContinuousAt] using this
    have h1 := rpow_littleO hn ht
    have h2 : (fun x : ℝ × ℝ => 2 / eta * ‖x - (0, w)‖) =O[𝓝 (0, w)] fun x => x - (0, w) :=
      ((isBigO_refl (fun x : ℝ × ℝ => x - (0, w)) _).norm_left).const_mul_left _
    refine (IsBigO.of_bound 1 (Eventually.of_forall fun x => ?_)).trans_isLittleO (h1.trans_isBigO h2)
    have ha : ‖x - (0, w)‖ = max |x.1| |x.2 - w| := by
      rw [Prod.norm_def]; simp
    have hb : macaulay ((|x.1| - x.2) / eta) ≤ |2 / eta * ‖x - (0, w)‖| := by
      rw [abs_of_nonneg (a := 2 / eta * ‖x - (0, w)‖) (by positivity), macaulay_eq]
      refine max_le ?_ (by positivity)
      rw [div_mul_eq_mul_div, div_le_div_iff_of_pos_right heta, ha]
      have h1 := le_max_left |x.1| |x.2 - w|
      have h2 := le_max_right |x.1| |x.2 - w|
      have h3 := neg_abs_le (x.2 - w)
      linarith
    rw [one_mul, Real.norm_eq_abs, Real.norm_eq_abs]
    unfold overflow
    rw [abs_mul, abs_of_nonneg (Real.rpow_nonneg (macaulay_nonneg _) _),
      abs_of_nonneg (Real.rpow_nonneg (abs_nonneg (2 / eta * ‖x - (0, w)‖)) n)]
    calc _ ≤ macaulay ((|x.1| - x.2) / eta) ^ n * 1 :=
          mul_le_mul_of_nonneg_left (abs_sgn_le _) (Real.rpow_nonneg (macaulay_nonneg _) _)
      _ ≤ _ := by
          rw [mul_one]
          exact Real.rpow_le_rpow (macaulay_nonneg _) hb (by linarith)
  · have hx : (0 < (|u| - w) / eta ∨ 1 < n) := by
      rcases h with h | h
      · exact Or.inr h
      · exact Or.inl (div_pos (by linarith) heta)
    have h1 := hasDerivAt_macaulay_rpow hx
    have hfst : HasFDerivAt (fun x : ℝ × ℝ => x.1) (ContinuousLinearMap.fst ℝ ℝ ℝ) (u, w) := hasFDerivAt_fst
    have hsnd : HasFDerivAt (fun x : ℝ × ℝ => x.2) (ContinuousLinearMap.snd ℝ ℝ ℝ) (u, w) := hasFDerivAt_snd
    have habs : HasFDerivAt (fun x : ℝ × ℝ => |x.1|) (sgn u • ContinuousLinearMap.fst ℝ ℝ ℝ) (u, w) :=
      HasDerivAt.comp_hasFDerivAt (u, w) (h₂ := fun y : ℝ => |y|) (f := fun x : ℝ × ℝ => x.1)
        (hasDerivAt_abs' hu) hfst
    have h2 : HasFDerivAt (fun x : ℝ × ℝ => (|x.1| - x.2) * eta⁻¹) _ (u, w) := (habs.sub hsnd).mul_const eta⁻¹
    have h1' : HasDerivAt (fun y => macaulay y ^ n) (n * macaulay ((|u| - w) / eta) ^ (n - 1))
        ((|(u, w).1| - (u, w).2) * eta⁻¹) := h1
    have h3 := HasDerivAt.comp_hasFDerivAt (u, w) (h₂ := fun y : ℝ => macaulay y ^ n)
      (f := fun x : ℝ × ℝ => (|x.1| - x.2) * eta⁻¹) h1' h2
    have h4 := h3.mul_const (sgn u)
    have ht : Tendsto (fun x : ℝ × ℝ => x.1) (𝓝 (u, w)) (𝓝 u) := continuous_fst.continuousAt
    refine (h4.congr_of_eventuallyEq ?_).congr_fderiv ?_
    · filter_upwards [ht.eventually (sgn_eventually hu)] with x hx
      unfold overflow
      rw [hx]; rfl
    · refine ContinuousLinearMap.ext fun x => ?_
      simp only [ContinuousLinearMap.smul_apply, ContinuousLinearMap.add_apply, ContinuousLinearMap.sub_apply,
        ContinuousLinearMap.coe_fst', ContinuousLinearMap.coe_snd', smul_eq_mul]
      have := sgn_sq hu
      field_simp
      linear_combination (n * macaulay ((|u| - w) / eta) ^ (n - 1) * x.1) * this

variable {ni nk : ℕ}

/-- the isotropic rows -/
noncomputable def isoCLM : (Fin (ni + nk) → ℝ) →L[ℝ] (Fin ni → ℝ) :=
  ContinuousLinearMap.pi fun j => ContinuousLinearMap.proj (Fin.castAdd nk j)

/-- the kinematic rows -/
noncomputable def kinCLM : (Fin (ni + nk) → ℝ) →L[ℝ] (Fin nk → ℝ) :=
  ContinuousLinearMap.pi fun j => ContinuousLinearMap.proj (Fin.natAdd ni j)

theorem dot_append (v : Fin ni → ℝ) (w : Fin nk → ℝ) (x : Fin (ni + nk) → ℝ) :
    Fin.append v w ⬝ᵥ x = v ⬝ᵥ isoPart x + w ⬝ᵥ kinPart x := by
  simp [dotProduct, Fin.sum_univ_add, isoPart, kinPart]

theorem isoKinFlow_eq (n eta s0 : ℝ → ℝ) (iso : Hardening ni) (kin : Hardening nk) (s : ℝ) (h : Fin (ni + nk) → ℝ)
    (T : ℝ) : isoKinFlow n eta s0 iso kin s h T =
      overflow (n T) (eta T) (s - kin.value (kinPart h), s0 T + iso.value (isoPart h)) := by
  unfold isoKinFlow overflow
  simp only [sub_sub]

theorem isoKinFlow_deriv (n eta s0 : ℝ → ℝ) (iso : Hardening ni) (kin : Hardening nk) (s : ℝ)
    (h : Fin (ni + nk) → ℝ) (T e : ℝ) (heta : 0 < eta T)
    (hi : HasFDerivAt iso.value (dotCLM (iso.dvalue (isoPart h))) (isoPart h))
    (hk : HasFDerivAt kin.value (dotCLM (kin.dvalue (kinPart h))) (kinPart h))
    (hw : 0 ≤ s0 T + iso.value (isoPart h))
    (hy : 1 < n T ∨ s0 T + iso.value (isoPart h) < |s - kin.value (kinPart h)|) :
    HasFDerivAt (fun x : ℝ × (Fin (ni + nk) → ℝ) × ℝ => isoKinFlow n eta s0 iso kin x.1 x.2.1 T)
      (row3 (isoKinDs n eta s0 iso kin s h T)
        (Fin.append (fun j => isoKinDiso n eta s0 iso kin s h T * iso.dvalue (isoPart h) j)
          (fun j => isoKinDkin n eta s0 iso kin s h T * kin.dvalue (kinPart h) j)) 0) (s, h, e) := by
  have h1 := overflow_hasFDerivAt (n := n T) heta hw hy
  have hi' : HasFDerivAt (fun x : ℝ × (Fin (ni + nk) → ℝ) × ℝ => iso.value (isoPart x.2.1))
      ((dotCLM (iso.dvalue (isoPart h))).comp (isoCLM.comp histCLM3)) (s, h, e) :=
    HasFDerivAt.comp (s, h, e) (g := iso.value) (f := fun x : ℝ × (Fin (ni + nk) → ℝ) × ℝ => isoPart x.2.1) hi
      ((isoCLM (ni := ni) (nk := nk)).comp histCLM3).hasFDerivAt
  have hk' : HasFDerivAt (fun x : ℝ × (Fin (ni + nk) → ℝ) × ℝ => kin.value (kinPart x.2.1))
      ((dotCLM (kin.dvalue (kinPart h))).comp (kinCLM.comp histCLM3)) (s, h, e) :=
    HasFDerivAt.comp (s, h, e) (g := kin.value) (f := fun x : ℝ × (Fin (ni + nk) → ℝ) × ℝ => kinPart x.2.1) hk
      ((kinCLM (ni := ni) (nk := nk)).comp histCLM3).hasFDerivAt
  have hs : HasFDerivAt (fun x : ℝ × (Fin (ni + nk) → ℝ) × ℝ => x.1)
    (ContinuousLinearMap.fst ℝ ℝ ((Fin (ni + nk) → ℝ) × ℝ)) (s, h, e) := hasFDerivAt_fst
  have h2 := (hs.sub hk').prodMk (hi'.const_add (s0 T))
  have h3 := HasFDerivAt.comp (s, h, e) (g := overflow (n T) (eta T))
    (f := fun x : ℝ × (Fin (ni + nk) → ℝ) × ℝ => (x.1 - kin.value (kinPart x.2.1), s0 T + iso.value (isoPart x.2.1)))
    h1 h2
  refine (h3.congr_of_eventuallyEq (Eventually.of_forall fun x => ?_)).congr_fderiv ?_
  · exact isoKinFlow_eq n eta s0 iso kin x.1 x.2.1 T
  · refine ContinuousLinearMap.ext fun x => ?_
    have hie : isoCLM (ni := ni) (nk := nk) (histCLM3 x) = isoPart x.2.1 := rfl
    have hke : kinCLM (ni := ni) (nk := nk) (histCLM3 x) = kinPart x.2.1 := rfl
    simp only [ContinuousLinearMap.comp_apply, ContinuousLinearMap.add_apply, ContinuousLinearMap.smul_apply,
      ContinuousLinearMap.prod_apply, ContinuousLinearMap.sub_apply, ContinuousLinearMap.coe_fst',
      ContinuousLinearMap.coe_snd', smul_eq_mul, row3_apply, dot_append, dotCLM_apply, hie, hke]
    have e1 : ∀ (c : ℝ) {m : ℕ} (v w : Fin m → ℝ), (fun j => c * v j) ⬝ᵥ w = c * (v ⬝ᵥ w) := fun c _ v w => by
      rw [← smul_eq_mul, ← smul_dotProduct]; rfl
    rw [e1, e1]
    simp only [isoKinDs, isoKinDiso, isoKinDkin, ← sub_sub]
    ring

/-- when there is no flow, all derivatives of the flow vanish -/
theorem isoKin_zero (n eta s0 : ℝ → ℝ) (iso : Hardening ni) (kin : Hardening nk) (s : ℝ)
    (h : Fin (ni + nk) → ℝ) (T : ℝ) (heta : 0 < eta T)
    (hw : 0 ≤ s0 T + iso.value (isoPart h))
    (hy : 1 < n T ∨ s0 T + iso.value (isoPart h) < |s - kin.value (kinPart h)|)
    (hz : isoKinFlow n eta s0 iso kin s h T = 0) :
    isoKinDs n eta s0 iso kin s h T = 0 ∧ isoKinDiso n eta s0 iso kin s h T = 0 ∧
      isoKinDkin n eta s0 iso kin s h T = 0 := by
  rw [isoKinFlow_eq] at hz
  unfold overflow at hz
  dsimp only at hz
  have hn : 1 < n T ∧ macaulay ((|s - kin.value (kinPart h)| - (s0 T + iso.value (isoPart h))) / eta T) = 0 := by
    by_cases hlt : s0 T + iso.value (isoPart h) < |s - kin.value (kinPart h)|
    · exfalso
      have hp : 0 < (|s - kin.value (kinPart h)| - (s0 T + iso.value (isoPart h))) / eta T :=
        div_pos (by linarith) heta
      have hu : s - kin.value (kinPart h) ≠ 0 := fun h0 => by
        rw [h0, abs_zero] at hlt; linarith
      rw [macaulay_of_pos hp] at hz
      rcases mul_eq_zero.1 hz with h1 | h1
      · exact (Real.rpow_pos_of_pos hp _).ne' h1
      · have := sgn_sq hu
        rw [h1] at this; simp at this
    · refine ⟨by tauto, macaulay_of_nonpos (div_nonpos_of_nonpos_of_nonneg (by linarith) heta.le)⟩
  unfold isoKinDs isoKinDiso isoKinDkin
  simp only [sub_sub, hn.2]
  rw [Real.zero_rpow (by linarith [hn.1])]
  simp

/-- history rates of one hardening model along the flow -/
theorem rate_along {m N : ℕ} (hard : Hardening m) (L : (Fin N → ℝ) →L[ℝ] (Fin m → ℝ))
    (flow : ℝ × (Fin N → ℝ) × ℝ → ℝ) (s : ℝ) (h : Fin N → ℝ) (t T e : ℝ) (ds : ℝ) (dh : Fin N → ℝ)
    (hf : HasFDerivAt flow (row3 ds dh 0) (s, h, e))
    (hx : HardeningExact hard s (L h) t (flow (s, h, e)) T e)
    (hz : flow (s, h, e) = 0 → ds = 0 ∧ dh = 0) (i : Fin m) :
    HasFDerivAt (fun x => hard.rate x.1 (L x.2.1) t (flow x) T x.2.2 i)
      ((row4 (hard.drate_ds s (L h) t (flow (s, h, e)) T e i) (hard.drate_dh s (L h) t (flow (s, h, e)) T e i)
        (hard.drate_de s (L h) t (flow (s, h, e)) T e i) (hard.drate_dep s (L h) t (flow (s, h, e)) T e i)).comp
        (((ContinuousLinearMap.fst ℝ ℝ _).prod ((L.comp histCLM3).prod
          ((ContinuousLinearMap.snd ℝ _ ℝ).comp (ContinuousLinearMap.snd ℝ ℝ _)))).prod (row3 ds dh 0))) (s, h, e) := by
  set A : (ℝ × (Fin N → ℝ) × ℝ) →L[ℝ] (ℝ × (Fin m → ℝ) × ℝ) :=
    (ContinuousLinearMap.fst ℝ ℝ _).prod ((L.comp histCLM3).prod
          ((ContinuousLinearMap.snd ℝ _ ℝ).comp (ContinuousLinearMap.snd ℝ ℝ _))) with hA
  have hAx : ∀ x, A x = (x.1, L x.2.1, x.2.2) := fun x => rfl
  by_cases hep : flow (s, h, e) = 0
  · obtain ⟨rfl, rfl⟩ := hz hep
    rw [hep] at hx ⊢
    obtain ⟨h1, h2⟩ := hx.rate_zero rfl i
    have h3 := HasFDerivAt.comp (s, h, e) (f := A)
      (g := fun x : ℝ × (Fin m → ℝ) × ℝ => hard.rate x.1 x.2.1 t 0 T x.2.2 i) (by rw [hAx]; exact h1) A.hasFDerivAt
    have hflow : flow =o[𝓝 (s, h, e)] fun x => x - (s, h, e) := by
      have := hf.isLittleO
      refine this.congr_left fun x => ?_
      simp [hep]
    have ht : Tendsto (fun x => (A x, flow x)) (𝓝 (s, h, e)) (𝓝 ((s, L h, e), 0)) := by
      have : ContinuousAt (fun x => (A x, flow x)) (s, h, e) :=
        A.continuous.continuousAt.prodMk hf.continuousAt
      rwa [ContinuousAt, hAx, hep] at this
    have h4 := (h2.comp_tendsto ht).trans_isLittleO hflow
    have h5 : HasFDerivAt (fun x => hard.rate x.1 (L x.2.1) t (flow x) T x.2.2 i -
        hard.rate x.1 (L x.2.1) t 0 T x.2.2 i) (0 : (ℝ × (Fin N → ℝ) × ℝ) →L[ℝ] ℝ) (s, h, e) := by
      rw [hasFDerivAt_iff_isLittleO]
      refine h4.congr_left fun x => ?_
      simp [hep, hAx]
    refine ((h3.add h5).congr_of_eventuallyEq (Eventually.of_forall fun x => ?_)).congr_fderiv ?_
    · simp [hAx]
    · refine ContinuousLinearMap.ext fun x => ?_
      simp
  · have h1 := hx.rate hep i
    have h3 := HasFDerivAt.comp (s, h, e) (f := fun x => (A x, flow x))
      (g := fun x : (ℝ × (Fin m → ℝ) × ℝ) × ℝ => hard.rate x.1.1 x.1.2.1 t x.2 T x.1.2.2 i)
      (by rw [hAx]; exact h1) (A.hasFDerivAt.prodMk hf)
    exact h3

theorem isoKin_exact (n eta s0 : ℝ → ℝ) (iso : Hardening ni) (kin : Hardening nk) (s : ℝ)
    (h : Fin (ni + nk) → ℝ) (t T e : ℝ) (heta : 0 < eta T)
    (hi : HardeningExact iso s (isoPart h) t (isoKinFlow n eta s0 iso kin s h T) T e)
    (hk : HardeningExact kin s (kinPart h) t (isoKinFlow n eta s0 iso kin s h T) T e)
    (hw : 0 ≤ s0 T + iso.value (isoPart h))
    (hy : 1 < n T ∨ s0 T + iso.value (isoPart h) < |s - kin.value (kinPart h)|) :
    FlowExact (isoKin n eta s0 iso kin) s h t T e := by
  have hf := isoKinFlow_deriv n eta s0 iso kin s h T e heta hi.value hk.value hw hy
  have hz0 := isoKin_zero n eta s0 iso kin s h T heta hw hy
  have hz : (fun x : ℝ × (Fin (ni + nk) → ℝ) × ℝ => isoKinFlow n eta s0 iso kin x.1 x.2.1 T) (s, h, e) = 0 →
      isoKinDs n eta s0 iso kin s h T = 0 ∧
      (Fin.append (fun j => isoKinDiso n eta s0 iso kin s h T * iso.dvalue (isoPart h) j)
          (fun j => isoKinDkin n eta s0 iso kin s h T * kin.dvalue (kinPart h) j)) = 0 := by
    intro h0
    obtain ⟨h1, h2, h3⟩ := hz0 h0
    refine ⟨h1, ?_⟩
    funext j
    refine Fin.addCases (fun j => ?_) (fun j => ?_) j <;> simp [h2, h3]
  refine ⟨hf, fun r => ?_⟩
  have e1 : ∀ (c : ℝ) {m : ℕ} (v w : Fin m → ℝ), (fun j => c * v j) ⬝ᵥ w = c * (v ⬝ᵥ w) := fun c _ v w => by
    rw [← smul_eq_mul, ← smul_dotProduct]; rfl
  have e2 : ∀ {m : ℕ} (v w x : Fin m → ℝ), (fun j => v j + w j) ⬝ᵥ x = v ⬝ᵥ x + w ⬝ᵥ x := fun v w x =>
    add_dotProduct v w x
  refine Fin.addCases (fun i => ?_) (fun i => ?_) r
  · have h1 := rate_along iso isoCLM
      (fun x : ℝ × (Fin (ni + nk) → ℝ) × ℝ => isoKinFlow n eta s0 iso kin x.1 x.2.1 T) s h t T e _ _ hf hi hz i
    refine (h1.congr_of_eventuallyEq (Eventually.of_forall fun x => ?_)).congr_fderiv ?_
    · simp only [isoKin, Fin.append_left]; rfl
    · refine ContinuousLinearMap.ext fun x => ?_
      have hie : isoCLM (ni := ni) (nk := nk) (histCLM3 x) = isoPart x.2.1 := rfl
      have hih : isoCLM (ni := ni) (nk := nk) h = isoPart h := rfl
      simp only [ContinuousLinearMap.comp_apply, ContinuousLinearMap.prod_apply, row4_apply, row3_apply, isoKin,
        Fin.append_left, dot_append, hie, hih, ContinuousLinearMap.coe_fst', ContinuousLinearMap.coe_snd', e1, e2,
        mul_assoc]
      ring
  · have h1 := rate_along kin kinCLM
      (fun x : ℝ × (Fin (ni + nk) → ℝ) × ℝ => isoKinFlow n eta s0 iso kin x.1 x.2.1 T) s h t T e _ _ hf hk hz i
    refine (h1.congr_of_eventuallyEq (Eventually.of_forall fun x => ?_)).congr_fderiv ?_
    · simp only [isoKin, Fin.append_right]; rfl
    · refine ContinuousLinearMap.ext fun x => ?_
      have hie : kinCLM (ni := ni) (nk := nk) (histCLM3 x) = kinPart x.2.1 := rfl
      have hih : kinCLM (ni := ni) (nk := nk) h = kinPart h := rfl
      simp only [ContinuousLinearMap.comp_apply, ContinuousLinearMap.prod_apply, row4_apply, row3_apply, isoKin,
        Fin.append_right, dot_append, hie, hih, ContinuousLinearMap.coe_fst', ContinuousLinearMap.coe_snd', e1, e2,
        mul_assoc]
      ring

end Pyoptmat.Material
