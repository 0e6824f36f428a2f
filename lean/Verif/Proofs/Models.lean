import Verif.Proofs.FlowRules
import Mathlib.Data.Matrix.Basis

/-! Helper lemmas: Jacobians of the material models. -/

namespace Pyoptmat.Material

open Pyoptmat.Spec Pyoptmat.Ode Filter Topology Asymptotics

variable {n : ℕ}

theorem modelExact_iff {m : ℕ} (F : (Fin m → ℝ) × ℝ → Fin m → ℝ) (J : Matrix (Fin m) (Fin m) ℝ) (Je : Fin m → ℝ)
    (x0 : (Fin m → ℝ) × ℝ) :
    HasFDerivAt F ((matCLM J).coprod ((ContinuousLinearMap.id ℝ ℝ).smulRight Je)) x0 ↔
      ∀ i, HasFDerivAt (fun x => F x i) ((dotCLM (J i)).coprod (Je i • ContinuousLinearMap.id ℝ ℝ)) x0 := by
  rw [hasFDerivAt_pi']
  refine forall_congr' fun i => ?_
  have : (ContinuousLinearMap.proj i).comp ((matCLM J).coprod ((ContinuousLinearMap.id ℝ ℝ).smulRight Je)) =
      (dotCLM (J i)).coprod (Je i • ContinuousLinearMap.id ℝ ℝ) := by
    refine ContinuousLinearMap.ext fun x => ?_
    simp [matCLM_apply, dotCLM_apply, Matrix.mulVec, mul_comm]
  rw [this]

/-- `(y, e) ↦ (stress, history, e)` -/
noncomputable def splitCLM : (Fin (n + 1) → ℝ) × ℝ →L[ℝ] ℝ × (Fin n → ℝ) × ℝ :=
  ((ContinuousLinearMap.proj 0).comp (ContinuousLinearMap.fst ℝ (Fin (n + 1) → ℝ) ℝ)).prod
    (((ContinuousLinearMap.pi fun j : Fin n => ContinuousLinearMap.proj j.succ).comp
      (ContinuousLinearMap.fst ℝ (Fin (n + 1) → ℝ) ℝ)).prod (ContinuousLinearMap.snd ℝ (Fin (n + 1) → ℝ) ℝ))

theorem splitCLM_apply (x : (Fin (n + 1) → ℝ) × ℝ) : splitCLM x = (x.1 0, fun j => x.1 j.succ, x.2) := rfl

theorem dot_cons (a : ℝ) (v : Fin n → ℝ) (x : Fin (n + 1) → ℝ) :
    (Fin.cons a v : Fin (n + 1) → ℝ) ⬝ᵥ x = a * x 0 + v ⬝ᵥ fun j => x j.succ := by
  simp [dotProduct, Fin.sum_univ_succ]

theorem inelastic_exact (E : ℝ → ℝ) (f : FlowRule n) (t : ℝ) (y : Fin (n + 1) → ℝ) (e T : ℝ)
    (hf : FlowExact f (y 0) (fun j => y j.succ) t T e) : ModelExact (inelastic E f) t y e T := by
  unfold ModelExact
  rw [modelExact_iff]
  intro i
  refine Fin.cases ?_ (fun i => ?_) i
  · have h1 := HasFDerivAt.comp (y, e) (f := splitCLM)
      (g := fun x : ℝ × (Fin n → ℝ) × ℝ => f.flow x.1 x.2.1 t T x.2.2) hf.flow splitCLM.hasFDerivAt
    have h2 : HasFDerivAt (fun x : (Fin (n + 1) → ℝ) × ℝ => x.2) (ContinuousLinearMap.snd ℝ _ ℝ) (y, e) :=
      hasFDerivAt_snd
    refine ((h2.sub h1).const_mul (E T)).congr_fderiv ?_
    refine ContinuousLinearMap.ext fun x => ?_
    have e1 : (inelastic E f t y e T).J 0 = Fin.cons (-E T * f.dflow_ds (y 0) (fun j => y j.succ) t T e)
      (-E T • f.dflow_dh (y 0) (fun j => y j.succ) t T e) := rfl
    rw [e1]
    simp only [ContinuousLinearMap.smul_apply, ContinuousLinearMap.sub_apply, ContinuousLinearMap.comp_apply,
      splitCLM_apply, row3_apply, ContinuousLinearMap.coprod_apply, dotCLM_apply, dot_cons, smul_eq_mul,
      smul_dotProduct, ContinuousLinearMap.coe_snd', ContinuousLinearMap.id_apply]
    simp only [inelastic, Fin.cons_zero]
    ring
  · have h1 := HasFDerivAt.comp (y, e) (f := splitCLM)
      (g := fun x : ℝ × (Fin n → ℝ) × ℝ => f.hist x.1 x.2.1 t T x.2.2 i) (hf.hist i) splitCLM.hasFDerivAt
    refine h1.congr_fderiv ?_
    refine ContinuousLinearMap.ext fun x => ?_
    have e1 : (inelastic E f t y e T).J i.succ = Fin.cons (f.dhist_ds (y 0) (fun j => y j.succ) t T e i)
      (f.dhist_dh (y 0) (fun j => y j.succ) t T e i) := rfl
    rw [e1]
    simp only [ContinuousLinearMap.smul_apply, ContinuousLinearMap.comp_apply,
      splitCLM_apply, row3_apply, ContinuousLinearMap.coprod_apply, dotCLM_apply, dot_cons, smul_eq_mul,
      ContinuousLinearMap.id_apply]
    simp only [inelastic, Fin.cons_succ]

/-! ## Damage -/

theorem dot_cat3 (a : ℝ) (v : Fin n → ℝ) (c : ℝ) (x : Fin (n + 2) → ℝ) :
    cat3 a v c ⬝ᵥ x = a * x 0 + v ⬝ᵥ midPart x + c * x (Fin.last (n + 1)) := by
  unfold cat3
  rw [dot_cons]
  simp [dotProduct, Fin.sum_univ_castSucc, midPart, add_assoc]

theorem cat3_zero {α : Type*} (a : α) (v : Fin n → α) (c : α) : cat3 a v c 0 = a := rfl

theorem cat3_mid {α : Type*} (a : α) (v : Fin n → α) (c : α) (j : Fin n) : cat3 a v c j.castSucc.succ = v j := by
  simp [cat3]

theorem cat3_last {α : Type*} (a : α) (v : Fin n → α) (c : α) : cat3 a v c (Fin.last (n + 1)) = c := by
  simp [cat3, ← Fin.succ_last]

@[elab_as_elim] theorem cases3 {motive : Fin (n + 2) → Prop} (h0 : motive 0) (h1 : ∀ j : Fin n, motive j.castSucc.succ)
    (h2 : motive (Fin.last (n + 1))) (i : Fin (n + 2)) : motive i := by
  refine Fin.cases h0 (fun i => ?_) i
  refine Fin.lastCases ?_ (fun j => h1 j) i
  rw [Fin.succ_last]; exact h2

/-- evaluation of the state -/
noncomputable def evalCLM (i : Fin (n + 2)) : (Fin (n + 2) → ℝ) × ℝ →L[ℝ] ℝ :=
  (ContinuousLinearMap.proj i).comp (ContinuousLinearMap.fst ℝ (Fin (n + 2) → ℝ) ℝ)

/-- history part of the state -/
noncomputable def midCLM : (Fin (n + 2) → ℝ) × ℝ →L[ℝ] (Fin n → ℝ) :=
  (ContinuousLinearMap.pi fun j : Fin n => ContinuousLinearMap.proj j.castSucc.succ).comp
    (ContinuousLinearMap.fst ℝ (Fin (n + 2) → ℝ) ℝ)

theorem se_deriv (y : Fin (n + 2) → ℝ) (e : ℝ) (hd : 1 - y (Fin.last (n + 1)) ≠ 0) :
    HasFDerivAt (fun x : (Fin (n + 2) → ℝ) × ℝ => x.1 0 / (1 - x.1 (Fin.last (n + 1))))
      ((1 - y (Fin.last (n + 1)))⁻¹ • evalCLM 0 +
        (y 0 / (1 - y (Fin.last (n + 1))) ^ 2) • evalCLM (Fin.last (n + 1))) (y, e) := by
  have h0 : HasFDerivAt (fun x : (Fin (n + 2) → ℝ) × ℝ => x.1 0) (evalCLM 0) (y, e) := (evalCLM 0).hasFDerivAt
  have h1 : HasFDerivAt (fun x : (Fin (n + 2) → ℝ) × ℝ => x.1 (Fin.last (n + 1)))
    (evalCLM (Fin.last (n + 1))) (y, e) := (evalCLM (Fin.last (n + 1))).hasFDerivAt
  have h2 := HasDerivAt.comp_hasFDerivAt (y, e) (h₂ := fun d : ℝ => (1 - d)⁻¹)
    (f := fun x : (Fin (n + 2) → ℝ) × ℝ => x.1 (Fin.last (n + 1)))
    (((hasDerivAt_id (y (Fin.last (n + 1)))).const_sub 1).inv hd) h1
  refine (h0.mul h2).congr_fderiv ?_
  refine ContinuousLinearMap.ext fun x => ?_
  simp only [ContinuousLinearMap.add_apply, ContinuousLinearMap.smul_apply, smul_eq_mul, Function.comp_apply, id]
  field_simp
  ring

theorem damaged_deriv (E : ℝ → ℝ) (f : FlowRule n) (dm : Damage) (t : ℝ) (y : Fin (n + 2) → ℝ) (e T : ℝ)
    (hd : 1 - y (Fin.last (n + 1)) ≠ 0)
    (hf : FlowExact f (y 0 / (1 - y (Fin.last (n + 1)))) (midPart y) t T e)
    (hdm : DamageExact dm (y 0 / (1 - y (Fin.last (n + 1)))) (y (Fin.last (n + 1))) t T e) :
    HasFDerivAt (fun x : (Fin (n + 2) → ℝ) × ℝ => (damaged E f dm t x.1 x.2 T).ydot)
      ((matCLM ((damaged E f dm t y e T).J + Matrix.single (Fin.last (n + 1)) (Fin.last (n + 1))
        (dm.drate_ds (y 0 / (1 - y (Fin.last (n + 1)))) (y (Fin.last (n + 1))) t T e * y 0 /
          (1 - y (Fin.last (n + 1))) ^ 2))).coprod
        ((ContinuousLinearMap.id ℝ ℝ).smulRight (damaged E f dm t y e T).Je)) (y, e) := by
  have hse := se_deriv y e hd
  have hmid : HasFDerivAt (fun x : (Fin (n + 2) → ℝ) × ℝ => midPart x.1) midCLM (y, e) :=
    (midCLM (n := n)).hasFDerivAt
  have he : HasFDerivAt (fun x : (Fin (n + 2) → ℝ) × ℝ => x.2) (ContinuousLinearMap.snd ℝ _ ℝ) (y, e) :=
    hasFDerivAt_snd
  have hdd : HasFDerivAt (fun x : (Fin (n + 2) → ℝ) × ℝ => x.1 (Fin.last (n + 1)))
    (evalCLM (Fin.last (n + 1))) (y, e) := (evalCLM (Fin.last (n + 1))).hasFDerivAt
  have hA := hse.prodMk (hmid.prodMk he)
  have ev : ∀ (i : Fin (n + 2)) (x : (Fin (n + 2) → ℝ) × ℝ), evalCLM i x = x.1 i := fun _ _ => rfl
  have em : ∀ (x : (Fin (n + 2) → ℝ) × ℝ), midCLM x = midPart x.1 := fun _ => rfl
  rw [modelExact_iff]
  intro i
  refine cases3 ?_ (fun i => ?_) ?_ i
  · have h1 := HasFDerivAt.comp (y, e)
      (f := fun x : (Fin (n + 2) → ℝ) × ℝ => (x.1 0 / (1 - x.1 (Fin.last (n + 1))), midPart x.1, x.2))
      (g := fun x : ℝ × (Fin n → ℝ) × ℝ => f.flow x.1 x.2.1 t T x.2.2) hf.flow hA
    refine (((hdd.const_sub 1).mul_const (E T)).mul (he.sub h1)).congr_fderiv ?_
    refine ContinuousLinearMap.ext fun x => ?_
    have e1 : ∀ c : ℝ, ((damaged E f dm t y e T).J + Matrix.single (Fin.last (n + 1)) (Fin.last (n + 1)) c) 0 =
        (damaged E f dm t y e T).J 0 := by
      intro c
      funext j
      rw [Matrix.add_apply, Matrix.single_apply_of_row_ne (by simp [Fin.ext_iff])]
      simp
    rw [e1]
    have e2 : (damaged E f dm t y e T).J 0 = cat3
        (-E T * f.dflow_ds (y 0 / (1 - y (Fin.last (n + 1)))) (midPart y) t T e)
        ((-E T * (1 - y (Fin.last (n + 1)))) • f.dflow_dh (y 0 / (1 - y (Fin.last (n + 1)))) (midPart y) t T e)
        (-E T * (e - f.flow (y 0 / (1 - y (Fin.last (n + 1)))) (midPart y) t T e) -
          E T * f.dflow_ds (y 0 / (1 - y (Fin.last (n + 1)))) (midPart y) t T e * y 0 /
          (1 - y (Fin.last (n + 1)))) := by
      simp only [damaged, cat3_zero]
      congr 1
      funext j
      simp; ring
    rw [e2]
    simp only [ContinuousLinearMap.smul_apply, ContinuousLinearMap.sub_apply, ContinuousLinearMap.comp_apply,
      ContinuousLinearMap.add_apply, ContinuousLinearMap.neg_apply, ContinuousLinearMap.prod_apply,
      row3_apply, ContinuousLinearMap.coprod_apply, dotCLM_apply, dot_cat3, smul_eq_mul,
      smul_dotProduct, ContinuousLinearMap.coe_snd', ContinuousLinearMap.id_apply, ev, em, Function.comp_apply, Pi.sub_apply]
    simp only [damaged, cat3_zero]
    field_simp
    ring
  · have h1 := HasFDerivAt.comp (y, e)
      (f := fun x : (Fin (n + 2) → ℝ) × ℝ => (x.1 0 / (1 - x.1 (Fin.last (n + 1))), midPart x.1, x.2))
      (g := fun x : ℝ × (Fin n → ℝ) × ℝ => f.hist x.1 x.2.1 t T x.2.2 i) (hf.hist i) hA
    refine (h1.congr_of_eventuallyEq (Eventually.of_forall fun x => ?_)).congr_fderiv ?_
    · simp only [damaged, cat3_mid]; rfl
    refine ContinuousLinearMap.ext fun x => ?_
    have e1 : ∀ c : ℝ, ((damaged E f dm t y e T).J + Matrix.single (Fin.last (n + 1)) (Fin.last (n + 1)) c)
        i.castSucc.succ = (damaged E f dm t y e T).J i.castSucc.succ := by
      intro c
      funext j
      rw [Matrix.add_apply, Matrix.single_apply_of_row_ne (by simp [Fin.ext_iff]; have := i.isLt; omega)]
      simp
    rw [e1]
    have e2 : (damaged E f dm t y e T).J i.castSucc.succ = cat3
        (f.dhist_ds (y 0 / (1 - y (Fin.last (n + 1)))) (midPart y) t T e i / (1 - y (Fin.last (n + 1))))
        (f.dhist_dh (y 0 / (1 - y (Fin.last (n + 1)))) (midPart y) t T e i)
        (f.dhist_ds (y 0 / (1 - y (Fin.last (n + 1)))) (midPart y) t T e i * y 0 /
          (1 - y (Fin.last (n + 1))) ^ 2) := by
      simp only [damaged, cat3_mid]
    rw [e2]
    simp only [ContinuousLinearMap.smul_apply, ContinuousLinearMap.comp_apply,
      ContinuousLinearMap.add_apply, ContinuousLinearMap.prod_apply,
      row3_apply, ContinuousLinearMap.coprod_apply, dotCLM_apply, dot_cat3, smul_eq_mul,
      ContinuousLinearMap.coe_snd', ContinuousLinearMap.id_apply, ev, em]
    simp only [damaged, cat3_mid]
    ring
  · have hB := hse.prodMk (hdd.prodMk he)
    have h1 := HasFDerivAt.comp (y, e)
      (f := fun x : (Fin (n + 2) → ℝ) × ℝ =>
        (x.1 0 / (1 - x.1 (Fin.last (n + 1))), x.1 (Fin.last (n + 1)), x.2))
      (g := fun x : ℝ × ℝ × ℝ => dm.rate x.1 x.2.1 t T x.2.2) hdm hB
    refine (h1.congr_of_eventuallyEq (Eventually.of_forall fun x => ?_)).congr_fderiv ?_
    · simp only [damaged, cat3_last]; rfl
    refine ContinuousLinearMap.ext fun x => ?_
    have e2 : ∀ c : ℝ, ((damaged E f dm t y e T).J + Matrix.single (Fin.last (n + 1)) (Fin.last (n + 1)) c)
        (Fin.last (n + 1)) = cat3
        (dm.drate_ds (y 0 / (1 - y (Fin.last (n + 1)))) (y (Fin.last (n + 1))) t T e /
          (1 - y (Fin.last (n + 1)))) 0
        (dm.drate_dd (y 0 / (1 - y (Fin.last (n + 1)))) (y (Fin.last (n + 1))) t T e + c) := by
      intro c
      funext j
      rw [Matrix.add_apply]
      refine cases3 ?_ (fun j => ?_) ?_ j
      · rw [Matrix.single_apply_of_col_ne _ _ (by simp [Fin.ext_iff])]
        simp only [damaged, cat3_last, cat3_zero, add_zero]
      · rw [Matrix.single_apply_of_col_ne _ _ (by simp [Fin.ext_iff]; have := j.isLt; omega)]
        simp only [damaged, cat3_last, cat3_mid, add_zero]
      · rw [Matrix.single_apply_same]
        simp only [damaged, cat3_last]
    rw [e2]
    simp only [ContinuousLinearMap.smul_apply, ContinuousLinearMap.comp_apply,
      ContinuousLinearMap.add_apply, ContinuousLinearMap.prod_apply, ContinuousLinearMap.coe_fst',
      ContinuousLinearMap.coprod_apply, dotCLM_apply, dot_cat3, smul_eq_mul, zero_dotProduct,
      ContinuousLinearMap.coe_snd', ContinuousLinearMap.id_apply, ev]
    simp only [damaged, cat3_last]
    ring

end Pyoptmat.Material
