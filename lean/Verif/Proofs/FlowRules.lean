import Verif.Proofs.Superimposed
import Verif.Proofs.IsoKin
import Mathlib.Analysis.SpecialFunctions.Log.Deriv

/-! Helper lemmas: exactness of the remaining flow rules. -/

namespace Pyoptmat.Material

open Pyoptmat.Spec Pyoptmat.Ode Filter Topology Asymptotics

variable {n : ℕ}

/-- derivative of a function of the strain rate only -/
theorem of_rate {φ : ℝ → ℝ} {φ' : ℝ} (s : ℝ) (h : Fin n → ℝ) {e : ℝ} (hφ : HasDerivAt φ φ' e) :
    HasFDerivAt (fun x : ℝ × (Fin n → ℝ) × ℝ => φ x.2.2) (row3 0 0 φ') (s, h, e) := by
  have he : HasFDerivAt (fun x : ℝ × (Fin n → ℝ) × ℝ => x.2.2)
      ((ContinuousLinearMap.snd ℝ (Fin n → ℝ) ℝ).comp (ContinuousLinearMap.snd ℝ ℝ _)) (s, h, e) :=
    ((ContinuousLinearMap.snd ℝ (Fin n → ℝ) ℝ).comp (ContinuousLinearMap.snd ℝ ℝ _)).hasFDerivAt
  refine (HasDerivAt.comp_hasFDerivAt (s, h, e) (h₂ := φ) (f := fun x : ℝ × (Fin n → ℝ) × ℝ => x.2.2) hφ he
    ).congr_fderiv ?_
  refine ContinuousLinearMap.ext fun x => ?_
  simp

theorem scale_row {φ : ℝ → ℝ} {φ' : ℝ} {s : ℝ} {h : Fin n → ℝ} {e : ℝ} (hφ : HasDerivAt φ φ' e)
    {F : ℝ × (Fin n → ℝ) × ℝ → ℝ} {a : ℝ} {v : Fin n → ℝ} {c : ℝ} (hF : HasFDerivAt F (row3 a v c) (s, h, e)) :
    HasFDerivAt (fun x => φ x.2.2 * F x) (row3 (φ e * a) (φ e • v) (φ e * c + φ' * F (s, h, e))) (s, h, e) := by
  refine ((of_rate s h hφ).mul hF).congr_fderiv ?_
  refine ContinuousLinearMap.ext fun x => ?_
  simp
  ring

theorem row3_add (a b : ℝ) (v w : Fin n → ℝ) (c d : ℝ) :
    row3 a v c + row3 b w d = row3 (a + b) (v + w) (c + d) := by
  refine ContinuousLinearMap.ext fun x => ?_
  simp
  ring

theorem riScale_deriv (lmbda epsRef : ℝ) {e : ℝ} (he : e ≠ 0) :
    HasDerivAt (riScale lmbda epsRef) (riDScale lmbda epsRef e) e := by
  have := (((hasDerivAt_abs' he).const_mul lmbda).div_const epsRef).const_add (1 - lmbda)
  refine this.congr_deriv ?_
  unfold riDScale; ring

theorem rateIndependent_exact (base : FlowRule n) (lmbda epsRef s : ℝ) (h : Fin n → ℝ) (t T : ℝ) {e : ℝ}
    (he : e ≠ 0) (hb : FlowExact base s h t T e) : FlowExact (rateIndependent base lmbda epsRef) s h t T e := by
  have hs := riScale_deriv lmbda epsRef he
  constructor
  · refine (scale_row hs hb.flow).congr_fderiv ?_
    refine ContinuousLinearMap.ext fun x => ?_
    have e1 : (rateIndependent base lmbda epsRef).dflow_dh s h t T e =
      riScale lmbda epsRef e • base.dflow_dh s h t T e := by
      funext i; simp [rateIndependent, mul_comm]
    simp only [row3_apply, e1]
    simp only [rateIndependent]
    ring
  · intro i
    refine (scale_row hs (hb.hist i)).congr_fderiv ?_
    refine ContinuousLinearMap.ext fun x => ?_
    have e1 : (rateIndependent base lmbda epsRef).dhist_dh s h t T e i =
      riScale lmbda epsRef e • base.dhist_dh s h t T e i := by
      funext j; simp [rateIndependent]
    simp only [row3_apply, e1]
    simp only [rateIndependent]
    ring

theorem tanh_deriv (x : ℝ) : HasDerivAt Real.tanh (1 / Real.cosh x ^ 2) x := by
  have h := (Real.hasDerivAt_sinh x).div (Real.hasDerivAt_cosh x) (Real.cosh_pos x).ne'
  have h1 : Real.tanh = fun x => Real.sinh x / Real.cosh x := funext Real.tanh_eq_sinh_div_cosh
  rw [h1]
  refine h.congr_deriv ?_
  have := Real.cosh_sq x
  have h2 : Real.cosh x * Real.cosh x - Real.sinh x * Real.sinh x = 1 := by nlinarith
  rw [h2]

theorem g_deriv (p : KMParams) (T : ℝ) {e : ℝ} (he : e ≠ 0) (h0 : p.eps0 ≠ 0) (heps : 0 ≤ p.eps) :
    HasDerivAt (p.g T) (p.dg T e) e := by
  have hpos : 0 < |e| + p.eps := by have := abs_pos.2 he; linarith
  have h1 := (((hasDerivAt_abs' he).add_const p.eps).inv hpos.ne').const_mul p.eps0
  have h2 := h1.log (mul_ne_zero h0 (inv_ne_zero hpos.ne'))
  have h3 := h2.const_mul (p.k * T / (p.mu T * p.b ^ (3 : ℝ)))
  refine (h3.congr_of_eventuallyEq (Eventually.of_forall fun y => ?_)).congr_deriv ?_
  · simp [KMParams.g, div_eq_mul_inv]
  · unfold KMParams.dg
    simp only [Pi.inv_apply]
    field_simp

theorem softF_deriv (p : KMParams) (sf T : ℝ) {e : ℝ} (he : e ≠ 0) (h0 : p.eps0 ≠ 0) (heps : 0 ≤ p.eps) :
    HasDerivAt (softF p sf T) (softDF p sf T e) e := by
  have h1 := ((g_deriv p T he h0 heps).sub_const p.g0).const_mul sf
  have h2 := (((tanh_deriv (sf * (p.g T e - p.g0))).comp e h1).add_const 1).div_const 2
  refine h2.congr_deriv ?_
  unfold softDF
  have := (Real.cosh_pos (sf * (p.g T e - p.g0))).ne'
  rw [Real.rpow_two]
  field_simp

theorem kmSoft_exact (m1 m2 : FlowRule n) (p : KMParams) (sf s : ℝ) (h : Fin n → ℝ) (t T : ℝ) {e : ℝ}
    (he : e ≠ 0) (h0 : p.eps0 ≠ 0) (heps : 0 ≤ p.eps) (hm1 : FlowExact m1 s h t T e)
    (hm2 : FlowExact m2 s h t T e) : FlowExact (kmSoft m1 m2 p sf) s h t T e := by
  have hf := softF_deriv p sf T he h0 heps
  have hf1 : HasDerivAt (fun e => 1 - softF p sf T e) (-softDF p sf T e) e := by
    simpa using hf.const_sub 1
  constructor
  · refine ((scale_row hf1 hm1.flow).add (scale_row hf hm2.flow)).congr_fderiv ?_
    refine ContinuousLinearMap.ext fun x => ?_
    simp only [row3_add, row3_apply, kmSoft, blend, smul_eq_mul, add_dotProduct, smul_dotProduct]
    ring
  · intro i
    refine ((scale_row hf1 (hm1.hist i)).add (scale_row hf (hm2.hist i))).congr_fderiv ?_
    refine ContinuousLinearMap.ext fun x => ?_
    have e1 : (kmSoft m1 m2 p sf).dhist_dh s h t T e i =
      (1 - softF p sf T e) • m1.dhist_dh s h t T e i + softF p sf T e • m2.dhist_dh s h t T e i := rfl
    simp only [row3_add, row3_apply, e1]
    simp only [kmSoft, blend, smul_eq_mul, Pi.add_apply, Pi.smul_apply, add_dotProduct, smul_dotProduct]
    ring

theorem g_continuousAt (p : KMParams) (T e : ℝ) (h0 : p.eps0 ≠ 0) (heps : 0 < p.eps) :
    ContinuousAt (p.g T) e := by
  have hpos : 0 < |e| + p.eps := by have := abs_nonneg e; linarith
  have h1 : ContinuousAt (fun e : ℝ => p.eps0 / (|e| + p.eps)) e :=
    continuousAt_const.div (continuousAt_id.abs.add continuousAt_const) hpos.ne'
  exact continuousAt_const.mul (h1.log (div_ne_zero h0 hpos.ne'))

theorem kmSwitch_exact (m1 m2 : FlowRule n) (p : KMParams) (s : ℝ) (h : Fin n → ℝ) (t T e : ℝ)
    (h0 : p.eps0 ≠ 0) (heps : 0 < p.eps) (hg : p.g T e ≠ p.g0)
    (hm : if p.g T e < p.g0 then FlowExact m1 s h t T e else FlowExact m2 s h t T e) :
    FlowExact (kmSwitch m1 m2 p) s h t T e := by
  have hc := g_continuousAt p T e h0 heps
  have ht : Tendsto (fun x : ℝ × (Fin n → ℝ) × ℝ => x.2.2) (𝓝 (s, h, e)) (𝓝 e) :=
    (continuous_snd.comp continuous_snd).continuousAt
  rcases lt_or_gt_of_ne hg with hlt | hgt
  · rw [if_pos hlt] at hm
    have hev : ∀ᶠ x : ℝ × (Fin n → ℝ) × ℝ in 𝓝 (s, h, e), ¬ p.g T x.2.2 > p.g0 := by
      filter_upwards [(hc.tendsto.comp ht).eventually (eventually_lt_nhds hlt)] with x hx
      simp only [Function.comp_apply] at hx
      linarith
    have hn : ¬ p.g T e > p.g0 := by linarith
    constructor
    · simp only [kmSwitch, switchValues, if_neg hn]
      refine hm.flow.congr_of_eventuallyEq ?_
      filter_upwards [hev] with x hx
      rw [if_neg hx]
    · intro i
      simp only [kmSwitch, switchValues, if_neg hn]
      refine (hm.hist i).congr_of_eventuallyEq ?_
      filter_upwards [hev] with x hx
      rw [if_neg hx]
  · rw [if_neg (by linarith)] at hm
    have hev : ∀ᶠ x : ℝ × (Fin n → ℝ) × ℝ in 𝓝 (s, h, e), p.g T x.2.2 > p.g0 := by
      filter_upwards [(hc.tendsto.comp ht).eventually (eventually_gt_nhds hgt)] with x hx
      exact hx
    constructor
    · simp only [kmSwitch, switchValues, if_pos hgt]
      refine hm.flow.congr_of_eventuallyEq ?_
      filter_upwards [hev] with x hx
      rw [if_pos hx]
    · intro i
      simp only [kmSwitch, switchValues, if_pos hgt]
      refine (hm.hist i).congr_of_eventuallyEq ?_
      filter_upwards [hev] with x hx
      rw [if_pos hx]

theorem perfect_flow_eq (n eta : ℝ → ℝ) (s : ℝ) (h : Fin 0 → ℝ) (t T e : ℝ) (heta : 0 < eta T) :
    (perfect n eta).flow s h t T e = |s / eta T| ^ n T * sgn (s / eta T) := by
  have : sgn (s / eta T) = sgn s := by
    rcases sgn_cases s with ⟨h, hs⟩ | ⟨h, hs⟩ | ⟨h, hs⟩
    · rw [hs, sgn_neg (div_neg_of_neg_of_pos h heta)]
    · simp [h]
    · rw [hs, sgn_pos (div_pos h heta)]
  rw [this, abs_div, abs_of_pos heta]
  rfl

theorem perfect_exact (n eta : ℝ → ℝ) (s : ℝ) (h : Fin 0 → ℝ) (t T e : ℝ) (heta : 0 < eta T)
    (hs : s ≠ 0 ∨ 1 ≤ n T) : FlowExact (perfect n eta) s h t T e := by
  refine ⟨?_, fun i => i.elim0⟩
  simp only [perfect_flow_eq n eta _ _ t T _ heta]
  have h1 := hasDerivAt_spow (x := s / eta T) (r := n T) (by
    rcases hs with h | h
    · exact Or.inl (div_ne_zero h heta.ne')
    · exact Or.inr h)
  have h2 := h1.comp s ((hasDerivAt_id s).div_const (eta T))
  have hs : HasFDerivAt (fun x : ℝ × (Fin 0 → ℝ) × ℝ => x.1)
    (ContinuousLinearMap.fst ℝ ℝ ((Fin 0 → ℝ) × ℝ)) (s, h, e) := hasFDerivAt_fst
  refine (HasDerivAt.comp_hasFDerivAt (s, h, e) (f := fun x : ℝ × (Fin 0 → ℝ) × ℝ => x.1) h2 hs).congr_fderiv ?_
  refine ContinuousLinearMap.ext fun x => ?_
  simp only [perfect, abs_div, abs_of_pos heta, row3_apply, ContinuousLinearMap.smul_apply,
    ContinuousLinearMap.coe_fst', smul_eq_mul, Pi.zero_apply, zero_dotProduct]
  ring

end Pyoptmat.Material
