import Verif.Model.Control
import Verif.Proofs.AdjointDeriv
import Verif.Proofs.Interp
import Verif.Proofs.Solvers
import Verif.Spec.Material
import Verif.Props.Interp
import Mathlib.Tactic

/-! Helper lemmas: strain, stress and mixed control. -/

namespace Pyoptmat.Control

open Pyoptmat.Material Pyoptmat.Spec Pyoptmat.Newton Pyoptmat.Solvers Topology Filter

variable {β : Type*} {m : ℕ}

/-! ### interpolation at the grid -/

theorem interpFn_grid {n : ℕ} (hn : 0 < n) {times : ℕ → ℝ} (h : StrictGrid n times) (vals : ℕ → ℝ) {k : ℕ} (hk : k ≤ n) :
    Interp.interpFn n times vals (times k) = vals k := by
  obtain ⟨v, -, e, hv⟩ := Interp.hits_in_range hn h vals (t := times k) (Interp.grid_le h (by omega) hk) (Interp.grid_le h hk le_rfl)
  rw [e]
  exact (Props.C47_polyline n times vals h _ v hv).2.1 k hk rfl

theorem rateFn_grid {nt : ℕ} {times : ℕ → ℝ} (h : StrictGrid (nt - 1) times) (data : ℕ → ℝ) {k : ℕ} (hk : k + 1 < nt) :
    (times (k + 1) - times k) * rateFn nt times data (times (k + 1)) = data (k + 1) - data k := by
  unfold rateFn
  rw [interpFn_grid (by omega) h _ (by omega)]
  simp only [rateData, Nat.succ_ne_zero, if_false, Nat.add_sub_cancel]
  have := h k (by omega)
  rw [mul_div_cancel₀]
  linarith

theorem dataFn_grid {nt : ℕ} {times : ℕ → ℝ} (h : StrictGrid (nt - 1) times) (data : ℕ → ℝ) {k : ℕ} (hk : k < nt) (hn : 1 < nt) :
    dataFn nt times data (times k) = data k := by
  unfold dataFn
  rw [interpFn_grid (by omega) h _ (by omega)]

/-! ### the Jacobian under stress control -/

/-- the derivative of `imposed cs` -/
noncomputable def zeroFirst : (Fin (m + 1) → ℝ) →L[ℝ] (Fin (m + 1) → ℝ) :=
  ContinuousLinearMap.pi fun i => if i = 0 then 0 else ContinuousLinearMap.proj (R := ℝ) (φ := fun _ : Fin (m + 1) => ℝ) i

theorem imposed_hasFDerivAt (cs : ℝ) (y : Fin (m + 1) → ℝ) : HasFDerivAt (imposed (m := m) cs) zeroFirst y := by
  rw [hasFDerivAt_pi']
  intro i
  by_cases hi : i = 0
  · subst hi
    have : (fun x : Fin (m + 1) → ℝ => imposed cs x 0) = fun _ => cs := by
      funext x; simp [imposed]
    rw [this]
    have e : (ContinuousLinearMap.proj (R := ℝ) (φ := fun _ : Fin (m + 1) => ℝ) 0).comp (zeroFirst (m := m)) = 0 := by
      ext x; simp [zeroFirst]
    rw [e]
    exact hasFDerivAt_const _ _
  · have : (fun x : Fin (m + 1) → ℝ => imposed cs x i) = fun x => x i := by
      funext x; simp [imposed, hi]
    rw [this]
    have e : (ContinuousLinearMap.proj (R := ℝ) (φ := fun _ : Fin (m + 1) => ℝ) i).comp (zeroFirst (m := m)) =
        ContinuousLinearMap.proj (R := ℝ) (φ := fun _ : Fin (m + 1) => ℝ) i := by
      ext x; simp [zeroFirst, hi]
    rw [e]
    exact hasFDerivAt_apply i y

/-- the true derivative of the stress controlled rates -/
noncomputable def trueStressJac (o : ModelOut (m + 1)) : Matrix (Fin (m + 1)) (Fin (m + 1)) ℝ := fun i j =>
  if j = 0 then 0 else if i = 0 then -o.J 0 j / o.Je 0 else o.J i j - o.Je i * o.J 0 j / o.Je 0

theorem dot_zeroFirst (v y : Fin (m + 1) → ℝ) : (∑ j, v j * zeroFirst y j) = ∑ j, (if j = 0 then 0 else v j) * y j := by
  refine Finset.sum_congr rfl fun j _ => ?_
  by_cases hj : j = 0 <;> simp [zeroFirst, hj]

theorem erate_hasFDerivAt (M : Model (m + 1)) (csr cs cT t : ℝ) (y0 : Fin (m + 1) → ℝ) (e : (Fin (m + 1) → ℝ) → ℝ)
    (hc : ContinuousAt e y0) (hs : ∀ᶠ y in 𝓝 y0, (M t (imposed cs y) (e y) cT).ydot 0 = csr)
    (hM : ModelExact M t (imposed cs y0) (e y0) cT) (hJ : (M t (imposed cs y0) (e y0) cT).Je 0 ≠ 0) :
    HasFDerivAt e (dotCLM fun j => trueStressJac (M t (imposed cs y0) (e y0) cT) 0 j) y0 := by
  set o := M t (imposed cs y0) (e y0) cT with ho
  have h0 : HasFDerivAt (fun x : (Fin (m + 1) → ℝ) × ℝ => imposed cs x.1)
      (zeroFirst.comp (ContinuousLinearMap.fst ℝ _ _)) (y0, e y0) :=
    HasFDerivAt.comp (g := imposed (m := m) cs) (f := Prod.fst) (y0, e y0) (imposed_hasFDerivAt cs y0)
      (hasFDerivAt_fst (𝕜 := ℝ) (p := (y0, e y0)))
  have h1 : HasFDerivAt (fun x : (Fin (m + 1) → ℝ) × ℝ => (M t (imposed cs x.1) x.2 cT).ydot)
      (((matCLM o.J).coprod ((ContinuousLinearMap.id ℝ ℝ).smulRight o.Je)).comp
        ((zeroFirst.comp (ContinuousLinearMap.fst ℝ _ _)).prod (ContinuousLinearMap.snd ℝ _ _))) (y0, e y0) :=
    HasFDerivAt.comp (g := fun x : (Fin (m + 1) → ℝ) × ℝ => (M t x.1 x.2 cT).ydot)
      (f := fun x : (Fin (m + 1) → ℝ) × ℝ => (imposed cs x.1, x.2)) (y0, e y0) hM
      (h0.prodMk (hasFDerivAt_snd (𝕜 := ℝ) (p := (y0, e y0))))
  have h2 := (hasFDerivAt_pi'.1 h1) 0
  have h3 : HasFDerivAt (fun x : (Fin (m + 1) → ℝ) × ℝ => x.2 - ((M t (imposed cs x.1) x.2 cT).ydot 0 - csr) * (o.Je 0)⁻¹)
      ((dotCLM fun j => trueStressJac o 0 j).coprod 0) (y0, e y0) := by
    refine ((hasFDerivAt_snd (p := (y0, e y0))).sub ((h2.sub_const csr).mul_const (o.Je 0)⁻¹)).congr_fderiv ?_
    refine ContinuousLinearMap.ext fun x => ?_
    simp only [ContinuousLinearMap.sub_apply, ContinuousLinearMap.coe_snd', ContinuousLinearMap.smul_apply, smul_eq_mul,
      ContinuousLinearMap.comp_apply, ContinuousLinearMap.proj_apply, ContinuousLinearMap.prod_apply, ContinuousLinearMap.coe_fst',
      ContinuousLinearMap.coprod_apply, Pi.add_apply, Ode.matCLM_apply, ContinuousLinearMap.smulRight_apply,
      ContinuousLinearMap.id_apply, Pi.smul_apply, Ode.dotCLM_apply, ContinuousLinearMap.zero_apply, add_zero, Matrix.mulVec, dotProduct]
    rw [dot_zeroFirst, mul_add, Finset.mul_sum]
    have e2 : (o.Je 0)⁻¹ * (x.2 * o.Je 0) = x.2 := by field_simp
    rw [e2]
    have e3 : ∑ j, trueStressJac o 0 j * x.1 j = -∑ j, (o.Je 0)⁻¹ * ((if j = 0 then 0 else o.J 0 j) * x.1 j) := by
      rw [← Finset.sum_neg_distrib]
      refine Finset.sum_congr rfl fun j _ => ?_
      by_cases hj : j = 0
      · simp [trueStressJac, hj]
      · simp only [trueStressJac, hj, if_false, if_true]; ring
    rw [e3]; ring
  have h4 := Ode.implicit_hasFDerivAt (z := e) (w := fun _ => (0 : ℝ)) (W := 0) (C := ContinuousLinearMap.id ℝ ℝ)
    (R := fun x : (Fin (m + 1) → ℝ) × ℝ => x.2 - ((M t (imposed cs x.1) x.2 cT).ydot 0 - csr) * (o.Je 0)⁻¹)
    (q0 := y0) 1 hc (by
      filter_upwards [hs] with q hq
      simp [hq]) (hasFDerivAt_const _ _) h3 (by intro x; simp)
  refine h4.congr_fderiv ?_
  refine ContinuousLinearMap.ext fun x => ?_
  simp

theorem stressOut_hasFDerivAt (M : Model (m + 1)) (csr cs cT t : ℝ) (y0 : Fin (m + 1) → ℝ) (e : (Fin (m + 1) → ℝ) → ℝ)
    (hc : ContinuousAt e y0) (hs : ∀ᶠ y in 𝓝 y0, (M t (imposed cs y) (e y) cT).ydot 0 = csr)
    (hM : ModelExact M t (imposed cs y0) (e y0) cT) (hJ : (M t (imposed cs y0) (e y0) cT).Je 0 ≠ 0) :
    HasFDerivAt (fun y => (stressOut M cs cT t y (e y)).1)
      (matCLM (trueStressJac (M t (imposed cs y0) (e y0) cT))) y0 := by
  have he := erate_hasFDerivAt M csr cs cT t y0 e hc hs hM hJ
  set o := M t (imposed cs y0) (e y0) cT with ho
  have h1 : HasFDerivAt (fun y : Fin (m + 1) → ℝ => (M t (imposed cs y) (e y) cT).ydot)
      (((matCLM o.J).coprod ((ContinuousLinearMap.id ℝ ℝ).smulRight o.Je)).comp
        (zeroFirst.prod (dotCLM fun j => trueStressJac o 0 j))) y0 :=
    HasFDerivAt.comp (g := fun x : (Fin (m + 1) → ℝ) × ℝ => (M t x.1 x.2 cT).ydot)
      (f := fun y : Fin (m + 1) → ℝ => (imposed cs y, e y)) y0 hM
      ((imposed_hasFDerivAt cs y0).prodMk he)
  rw [hasFDerivAt_pi']
  intro i
  by_cases hi : i = 0
  · subst hi
    have e1 : (fun y => (stressOut M cs cT t y (e y)).1 0) = e := by
      funext y; simp [stressOut]
    rw [e1]
    refine he.congr_fderiv (ContinuousLinearMap.ext fun x => ?_)
    simp only [Ode.dotCLM_apply, ContinuousLinearMap.comp_apply, ContinuousLinearMap.proj_apply, Ode.matCLM_apply, Matrix.mulVec, dotProduct]
  · have e1 : (fun y => (stressOut M cs cT t y (e y)).1 i) = fun y => (M t (imposed cs y) (e y) cT).ydot i := by
      funext y; simp [stressOut, hi]
    rw [e1]
    refine ((hasFDerivAt_pi'.1 h1) i).congr_fderiv (ContinuousLinearMap.ext fun x => ?_)
    simp only [ContinuousLinearMap.comp_apply, ContinuousLinearMap.proj_apply, ContinuousLinearMap.prod_apply,
      ContinuousLinearMap.coprod_apply, Pi.add_apply, Ode.matCLM_apply, ContinuousLinearMap.smulRight_apply,
      ContinuousLinearMap.id_apply, Pi.smul_apply, Ode.dotCLM_apply, Matrix.mulVec, dotProduct, smul_eq_mul]
    rw [dot_zeroFirst, Finset.sum_mul, ← Finset.sum_add_distrib]
    refine Finset.sum_congr rfl fun j _ => ?_
    by_cases hj : j = 0
    · simp [trueStressJac, hj]
    · simp only [trueStressJac, hj, hi, if_false, if_true]; ring

theorem matCLM_injective {n k : ℕ} {A B : Matrix (Fin n) (Fin k) ℝ} (h : matCLM A = matCLM B) : A = B := by
  ext i j
  have := congrFun (congrArg (fun L => L (Pi.single j 1)) h) i
  simpa [Ode.matCLM_apply] using this

/-! ### the solve for the strain rate -/

theorem rowNorm_one (r : Fin 1 → ℝ) : rowNorm r = |r 0| := by
  unfold rowNorm
  rw [Fin.sum_univ_one, Real.sqrt_sq_eq_abs]

theorem flow_continuousAt {n : ℕ} (f : FlowRule n) (c cs t T : ℝ) (y0 : Fin (n + 1) → ℝ)
    (hF : FlowExact f cs (fun j => y0 j.succ) t T 0) :
    ContinuousAt (fun y : Fin (n + 1) → ℝ => c + f.flow cs (fun j => y j.succ) t T 0) y0 := by
  refine continuousAt_const.add ?_
  have hp : ContinuousAt (fun y : Fin (n + 1) → ℝ => ((cs, (fun j => y j.succ), 0) : ℝ × (Fin n → ℝ) × ℝ)) y0 :=
    (continuousAt_const.prodMk ((continuous_pi fun j => continuous_apply _).continuousAt.prodMk continuousAt_const))
  exact ContinuousAt.comp (g := fun x : ℝ × (Fin n → ℝ) × ℝ => f.flow x.1 x.2.1 t T x.2.2) (x := y0) hF.flow.continuousAt hp

end Pyoptmat.Control
