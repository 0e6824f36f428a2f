import Verif.Proofs.NewtonGrad
import Verif.Props.Control
import Verif.Props.Flow

/-!
# Property C105: parameter gradients through the strain rate solve of stress control
-/

namespace Pyoptmat.Props

open Pyoptmat Pyoptmat.Spec Pyoptmat.Control Pyoptmat.Material Pyoptmat.Newton Pyoptmat.Solvers Topology Filter

variable {β : Type*} {m : ℕ} {P : Type*}

/-- The derivative, with respect to the parameters, of `K` Newton updates from zero: `Rp k`, `Jp k` are the parameter derivatives of the residual and of its slope at update `k`, `Jx k` the second
derivative of the residual, `R k` and `J k` residual and slope themselves. -/
noncomputable def iterateGrad [NormedAddCommGroup P] [NormedSpace ℝ P] (R J Jx : ℕ → ℝ) (Rp Jp : ℕ → P →L[ℝ] ℝ) : ℕ → P →L[ℝ] ℝ
  | 0 => 0
  | k + 1 => -((J k)⁻¹ • Rp k) + (R k / J k ^ 2) • (Jp k + Jx k • iterateGrad R J Jx Rp Jp k)

/-- **C105.** What is differentiated is what was computed: at the parameters of the run, the recorded function with the run's number of updates has the value `StressBasedModel.forward` returned, in each
batch entry. -/
theorem C105_recorded (model : β → P → Model (m + 1)) (srate stress T : β → ℝ → ℝ) (t : β → ℝ) (y : β → Fin (m + 1) → ℝ) (p : P) (b : β) :
    let K := (stressSolve (fun b => model b p) (fun b => srate b (t b)) (fun b => stress b (t b)) (fun b => T b (t b)) t y).iters
    (stressForward (fun b => model b p) srate stress T t y).1 b =
      recordedRates (model b) (srate b (t b)) (stress b (t b)) (T b (t b)) (t b) (y b) K p := by
  intro K
  simp only [stressForward, recordedRates, recordedStrainRate, K]
  rw [stressSolve_lane]

section general
variable [NormedAddCommGroup P] [NormedSpace ℝ P]

/-- **C105.** The derivative autograd gets for the strain rate, for any smooth model and any number of updates: each update contributes the derivative of the exact implicit function at the current iterate, plus
a term proportional to the current residual. -/
theorem C105_recursion (model : P → Model (m + 1)) (csr cs cT t : ℝ) (y : Fin (m + 1) → ℝ) (p0 : P) (Jx : ℕ → ℝ) (Rp Jp : ℕ → P →L[ℝ] ℝ) (K : ℕ)
    (hR : ∀ k < K, HasFDerivAt (fun q : P × ℝ => (model q.1 t (imposed cs y) q.2 cT).ydot 0)
      ((Rp k).coprod ((model p0 t (imposed cs y) (recordedStrainRate model csr cs cT t y k p0) cT).Je 0 • ContinuousLinearMap.id ℝ ℝ))
      (p0, recordedStrainRate model csr cs cT t y k p0))
    (hJ : ∀ k < K, HasFDerivAt (fun q : P × ℝ => (model q.1 t (imposed cs y) q.2 cT).Je 0) ((Jp k).coprod (Jx k • ContinuousLinearMap.id ℝ ℝ))
      (p0, recordedStrainRate model csr cs cT t y k p0))
    (h0 : ∀ k < K, (model p0 t (imposed cs y) (recordedStrainRate model csr cs cT t y k p0) cT).Je 0 ≠ 0) :
    HasFDerivAt (recordedStrainRate model csr cs cT t y K)
      (iterateGrad (fun k => (model p0 t (imposed cs y) (recordedStrainRate model csr cs cT t y k p0) cT).ydot 0 - csr)
        (fun k => (model p0 t (imposed cs y) (recordedStrainRate model csr cs cT t y k p0) cT).Je 0) Jx Rp Jp K) p0 := by
  induction K with
  | zero => exact hasFDerivAt_const 0 p0
  | succ K ih =>
    have hx := ih (fun k hk => hR k (by omega)) (fun k hk => hJ k (by omega)) (fun k hk => h0 k (by omega))
    have h := step_hasFDerivAt (R := fun p e => (model p t (imposed cs y) e cT).ydot 0 - csr) (J := fun p e => (model p t (imposed cs y) e cT).Je 0)
      hx ((hR K (by omega)).sub_const csr) (hJ K (by omega)) rfl (h0 K (by omega))
    refine h.congr_of_eventuallyEq (Eventually.of_forall fun p => ?_)
    simp only [recordedStrainRate, Function.iterate_succ_apply']
    rfl

/-- **C105.** If the updates converge to a strain rate `e` solving the equation, autograd's derivative converges to the derivative of the exact strain rate; that is, of any function of the
parameters that solves the equation near `p0`. -/
theorem C105_limit (model : P → Model (m + 1)) (csr cs cT t : ℝ) (y : Fin (m + 1) → ℝ) (p0 : P) (e : ℝ) (Rp Jp : ℝ → P →L[ℝ] ℝ) (Jx : ℝ → ℝ)
    (hlim : Tendsto (fun K => recordedStrainRate model csr cs cT t y K p0) atTop (𝓝 e))
    (he : (model p0 t (imposed cs y) e cT).ydot 0 = csr) (hJe : (model p0 t (imposed cs y) e cT).Je 0 ≠ 0)
    (hR : ∀ x, HasFDerivAt (fun q : P × ℝ => (model q.1 t (imposed cs y) q.2 cT).ydot 0)
      ((Rp x).coprod ((model p0 t (imposed cs y) x cT).Je 0 • ContinuousLinearMap.id ℝ ℝ)) (p0, x))
    (hJ : ∀ x, HasFDerivAt (fun q : P × ℝ => (model q.1 t (imposed cs y) q.2 cT).Je 0) ((Jp x).coprod (Jx x • ContinuousLinearMap.id ℝ ℝ)) (p0, x))
    (h0 : ∀ K, (model p0 t (imposed cs y) (recordedStrainRate model csr cs cT t y K p0) cT).Je 0 ≠ 0)
    (cR : ContinuousAt Rp e) (cJ : ContinuousAt Jp e) (cX : ContinuousAt Jx e) :
    ∃ (g : ℕ → P →L[ℝ] ℝ) (G : P →L[ℝ] ℝ), (∀ K, HasFDerivAt (recordedStrainRate model csr cs cT t y K) (g K) p0) ∧ Tendsto g atTop (𝓝 G) ∧
      ∀ s : P → ℝ, s p0 = e → ContinuousAt s p0 → (∀ᶠ p in 𝓝 p0, (model p t (imposed cs y) (s p) cT).ydot 0 = csr) → HasFDerivAt s G p0 := by
  set x : ℕ → ℝ := fun K => recordedStrainRate model csr cs cT t y K p0 with hx
  set Rf : ℝ → ℝ := fun z => (model p0 t (imposed cs y) z cT).ydot 0 - csr with hRf
  set Jf : ℝ → ℝ := fun z => (model p0 t (imposed cs y) z cT).Je 0 with hJf
  set g := iterateGrad (fun k => Rf (x k)) (fun k => Jf (x k)) (fun k => Jx (x k)) (fun k => Rp (x k)) (fun k => Jp (x k)) with hg
  set G : P →L[ℝ] ℝ := -((Jf e)⁻¹ • Rp e) with hG
  have cJf : ContinuousAt Jf e := by
    have h1 : ContinuousAt (fun z : ℝ => (p0, z)) e := (continuous_const.prodMk continuous_id).continuousAt
    exact ContinuousAt.comp (g := fun q : P × ℝ => (model q.1 t (imposed cs y) q.2 cT).Je 0) (hJ e).continuousAt h1
  have cRf : ContinuousAt Rf e := by
    have h1 : ContinuousAt (fun z : ℝ => (p0, z)) e := (continuous_const.prodMk continuous_id).continuousAt
    exact (ContinuousAt.comp (g := fun q : P × ℝ => (model q.1 t (imposed cs y) q.2 cT).ydot 0) (hR e).continuousAt h1).sub continuousAt_const
  have hRe : Rf e = 0 := by simp [hRf, he]
  refine ⟨g, G, fun K => ?_, ?_, ?_⟩
  · exact C105_recursion model csr cs cT t y p0 (fun k => Jx (x k)) (fun k => Rp (x k)) (fun k => Jp (x k)) K (fun k _ => hR _) (fun k _ => hJ _) (fun k _ => h0 k)
  · have tJ : Tendsto (fun k => Jf (x k)) atTop (𝓝 (Jf e)) := cJf.tendsto.comp hlim
    have tR : Tendsto (fun k => Rf (x k)) atTop (𝓝 0) := by
      have := cRf.tendsto.comp hlim
      rw [hRe] at this
      exact this
    have tRp : Tendsto (fun k => Rp (x k)) atTop (𝓝 (Rp e)) := cR.tendsto.comp hlim
    have tJp : Tendsto (fun k => Jp (x k)) atTop (𝓝 (Jp e)) := cJ.tendsto.comp hlim
    have tJx : Tendsto (fun k => Jx (x k)) atTop (𝓝 (Jx e)) := cX.tendsto.comp hlim
    have tA : Tendsto (fun k => -((Jf (x k))⁻¹ • Rp (x k))) atTop (𝓝 G) := ((tJ.inv₀ hJe).smul tRp).neg
    have tq : Tendsto (fun k => Rf (x k) / Jf (x k) ^ 2) atTop (𝓝 0) := by
      have := tR.div (tJ.pow 2) (pow_ne_zero 2 hJe)
      rw [zero_div] at this
      exact this
    -- distance to the limit
    rw [tendsto_iff_norm_sub_tendsto_zero]
    refine tendsto_of_recursion (ε := fun k => ‖-((Jf (x k))⁻¹ • Rp (x k)) - G‖ + |Rf (x k) / Jf (x k) ^ 2| * (‖Jp (x k)‖ + |Jx (x k)| * ‖G‖))
      (θ := fun k => |Rf (x k) / Jf (x k) ^ 2| * |Jx (x k)|) (fun k => norm_nonneg _) (fun k => ?_) ?_ ?_
    · have e1 : g (k + 1) - G = (-((Jf (x k))⁻¹ • Rp (x k)) - G) + (Rf (x k) / Jf (x k) ^ 2) • (Jp (x k) + Jx (x k) • g k) := by
        simp only [hg, iterateGrad]
        abel
      have e2 : g k = (g k - G) + G := by abel
      have hn : ‖Jp (x k) + Jx (x k) • g k‖ ≤ ‖Jp (x k)‖ + |Jx (x k)| * (‖g k - G‖ + ‖G‖) := by
        refine (norm_add_le _ _).trans (add_le_add le_rfl ?_)
        rw [norm_smul, Real.norm_eq_abs]
        refine mul_le_mul_of_nonneg_left ?_ (abs_nonneg _)
        conv_lhs => rw [e2]
        exact norm_add_le _ _
      calc ‖g (k + 1) - G‖ ≤ ‖-((Jf (x k))⁻¹ • Rp (x k)) - G‖ + ‖(Rf (x k) / Jf (x k) ^ 2) • (Jp (x k) + Jx (x k) • g k)‖ := by
            rw [e1]; exact norm_add_le _ _
        _ ≤ ‖-((Jf (x k))⁻¹ • Rp (x k)) - G‖ + |Rf (x k) / Jf (x k) ^ 2| * (‖Jp (x k)‖ + |Jx (x k)| * (‖g k - G‖ + ‖G‖)) := by
            rw [norm_smul, Real.norm_eq_abs]
            exact add_le_add le_rfl (mul_le_mul_of_nonneg_left hn (abs_nonneg _))
        _ = _ := by ring
    · have h1 := (tA.sub_const G).norm
      rw [sub_self, norm_zero] at h1
      have h2 := (tq.abs).mul (tJp.norm.add (tJx.abs.mul_const ‖G‖))
      rw [abs_zero, zero_mul] at h2
      simpa using h1.add h2
    · have := tq.abs.mul tJx.abs
      rw [abs_zero, zero_mul] at this
      exact this
  · intro s hs cs' hroot
    have hR' : HasFDerivAt (fun q : P × ℝ => q.2 - ((model q.1 t (imposed cs y) q.2 cT).ydot 0 - csr) * (Jf e)⁻¹) (G.coprod 0) (p0, s p0) := by
      rw [hs]
      refine ((hasFDerivAt_snd (p := (p0, e))).sub (((hR e).sub_const csr).mul_const (Jf e)⁻¹)).congr_fderiv ?_
      refine ContinuousLinearMap.ext fun v => ?_
      simp only [ContinuousLinearMap.sub_apply, ContinuousLinearMap.coe_snd', ContinuousLinearMap.smul_apply, smul_eq_mul,
        ContinuousLinearMap.coprod_apply, ContinuousLinearMap.id_apply, ContinuousLinearMap.zero_apply, add_zero, hG, ContinuousLinearMap.neg_apply]
      have : (Jf e)⁻¹ * (Jf e * v.2) = v.2 := by rw [← mul_assoc, inv_mul_cancel₀ hJe, one_mul]
      change v.2 - (Jf e)⁻¹ * (Rp e v.1 + Jf e * v.2) = _
      rw [mul_add, this]
      ring
    have h4 := Ode.implicit_hasFDerivAt (z := s) (w := fun _ => (0 : ℝ)) (W := 0) (C := ContinuousLinearMap.id ℝ ℝ)
      (R := fun q : P × ℝ => q.2 - ((model q.1 t (imposed cs y) q.2 cT).ydot 0 - csr) * (Jf e)⁻¹) (q0 := p0) 1 cs' (by
        filter_upwards [hroot] with q hq
        simp [hq]) (hasFDerivAt_const _ _) hR' (by intro v; simp)
    refine h4.congr_fderiv (ContinuousLinearMap.ext fun v => ?_)
    simp

end general

/-- C105 applies to a stress rate `p ε̇` imposed to be one: the exact strain rate is `1 / p`. -/
example : ∃ (g : ℕ → ℝ →L[ℝ] ℝ) (G : ℝ →L[ℝ] ℝ), Tendsto g atTop (𝓝 G) ∧ HasFDerivAt (fun p : ℝ => 1 / p) G 2 := by
  let model : ℝ → Model 1 := fun p _ _ e _ => { ydot := fun _ => p * e, J := 0, Je := fun _ => p, JT := 0 }
  have hit : ∀ K, recordedStrainRate model 1 0 0 0 0 (K + 1) 2 = 1 / 2 := by
    intro K
    rw [recordedStrainRate, Function.iterate_succ_apply']
    generalize (recordedUpdate (model 2) 1 0 0 0 0)^[K] 0 = z
    simp only [recordedUpdate, model]
    ring
  have h1 : ∀ x : ℝ, HasFDerivAt (fun q : ℝ × ℝ => q.1 * q.2) ((x • ContinuousLinearMap.id ℝ ℝ).coprod ((2 : ℝ) • ContinuousLinearMap.id ℝ ℝ)) (2, x) := by
    intro x
    refine ((hasFDerivAt_fst (p := ((2 : ℝ), x))).mul (hasFDerivAt_snd (p := ((2 : ℝ), x)))).congr_fderiv (ContinuousLinearMap.ext fun v => ?_)
    simp
    ring
  have h2 : ∀ x : ℝ, HasFDerivAt (fun q : ℝ × ℝ => q.1) ((ContinuousLinearMap.id ℝ ℝ).coprod ((0 : ℝ) • ContinuousLinearMap.id ℝ ℝ)) (2, x) := by
    intro x
    refine (hasFDerivAt_fst (p := ((2 : ℝ), x))).congr_fderiv (ContinuousLinearMap.ext fun v => ?_)
    simp
  obtain ⟨g, G, -, h4, h5⟩ := C105_limit model 1 0 0 0 0 2 (1 / 2) (fun x => x • ContinuousLinearMap.id ℝ ℝ) (fun _ => ContinuousLinearMap.id ℝ ℝ) (fun _ => 0)
    (by
      rw [← tendsto_add_atTop_iff_nat 1]
      simp only [hit]
      exact tendsto_const_nhds) (by norm_num [model]) (by norm_num [model]) h1 h2 (fun K => by norm_num [model])
    (continuousAt_id.smul continuousAt_const) continuousAt_const continuousAt_const
  refine ⟨g, G, h4, h5 _ rfl ?_ ?_⟩
  · exact continuousAt_const.div continuousAt_id (by norm_num)
  · filter_upwards [lt_mem_nhds (show (0 : ℝ) < 2 by norm_num)] with p hp
    simp only [model]
    field_simp

/-- **C105.** `InelasticModel` with flow rules that do not look at the strain rate: after one or more updates the recorded rates are, as functions of the parameters, exactly those of the elastic plus inelastic strain rate
`σ̇ / E(T) + flow` and of the history; so all their derivatives are those of these functions. With no update (zero met the tolerance in the whole batch) the recorded strain rate is constant. -/
theorem C105_inelastic (E : P → ℝ → ℝ) {n : ℕ} (f : P → FlowRule n) (csr cs cT t : ℝ) (y : Fin (n + 1) → ℝ) (K : ℕ)
    (hf : ∀ p s h t T e, (f p).flow s h t T e = (f p).flow s h t T 0) (hh : ∀ p s h t T e, (f p).hist s h t T e = (f p).hist s h t T 0)
    (hd : ∀ p s h t T e, (f p).dflow_de s h t T e = 0) (p : P) (hE : E p cT ≠ 0) :
    recordedRates (fun p => inelastic (E p) (f p)) csr cs cT t y K p =
      Fin.cons (if K = 0 then 0 else csr / E p cT + (f p).flow cs (fun j => y j.succ) t cT 0) ((f p).hist cs (fun j => y j.succ) t cT 0) := by
  have hu : (fun j : Fin n => imposed cs y j.succ) = fun j => y j.succ := by
    funext j; rw [imposed, Function.update_of_ne (Fin.succ_ne_zero j)]
  have hstep : ∀ e, recordedUpdate (inelastic (E p) (f p)) csr cs cT t y e = csr / E p cT + (f p).flow cs (fun j => y j.succ) t cT 0 := by
    intro e
    have := hE
    simp only [recordedUpdate, inelastic, Fin.cons_zero, hu, hd, hf p _ _ _ _ e, sub_zero, mul_one]
    rw [show imposed cs y 0 = cs by simp [imposed]]
    field_simp
    ring
  have hrec : recordedStrainRate (fun p => inelastic (E p) (f p)) csr cs cT t y K p =
      if K = 0 then 0 else csr / E p cT + (f p).flow cs (fun j => y j.succ) t cT 0 := by
    cases K with
    | zero => rfl
    | succ K => rw [if_neg (Nat.succ_ne_zero K), recordedStrainRate, Function.iterate_succ_apply', hstep]
  unfold recordedRates stressOut
  rw [hrec]
  dsimp only
  funext i
  refine Fin.cases ?_ (fun j => ?_) i
  · simp
  · rw [Function.update_of_ne (Fin.succ_ne_zero j), Fin.cons_succ]
    simp only [inelastic, Fin.cons_succ, hu]
    rw [hh, show imposed cs y 0 = cs by simp [imposed]]

private theorem sgn_one : sgn 1 = 1 := by simp [sgn]

/-- The recorded derivative can be wrong when no update is made: a Newtonian creep rate `σ / η` of `1e-12`, far below the tolerance. Autograd gets zero for the derivative with respect to the viscosity. -/
example : let model : ℝ → Model 1 := fun η => inelastic (fun _ => 1) (perfect (fun _ => 1) (fun _ => η))
    (stressSolve (fun _ : Unit => model 1e12) (fun _ => 0) (fun _ => 1) (fun _ => 0) (fun _ => 0) (fun _ _ => 0)).iters = 0 ∧
    HasDerivAt (recordedStrainRate model 0 1 0 0 (fun _ => 0) 0) 0 1e12 ∧
    HasDerivAt (fun η => recordedStrainRate model 0 1 0 0 (fun _ => 0) 1 η) (-1e-24) 1e12 := by
  intro model
  refine ⟨?_, hasDerivAt_const _ _, ?_⟩
  · have h3 := (C66_returns_first_iterate (stressRJ (fun _ : Unit => model 1e12) (fun _ => 0) (fun _ => 1) (fun _ => 0) (fun _ => 0) (fun _ _ => 0))
      jacobiLinearSolve (fun x dx => x - dx) (fun r b => rowNorm (r b)) 0 1e-6 1e-10 100).2.2.1
    by_contra hne
    refine h3 0 (Nat.pos_of_ne_zero hne) (Or.inl fun b => ?_)
    simp only [newtonIterate, Function.iterate_zero, id, rowNorm_one, stressRJ, model, inelastic, perfect, imposed, Fin.cons_zero, Function.update_self, Pi.zero_apply, sgn_one]
    norm_num
  · have e : ∀ᶠ η in 𝓝 (1e12 : ℝ), recordedStrainRate model 0 1 0 0 (fun _ => 0) 1 η = 1 / η := by
      filter_upwards [lt_mem_nhds (show (0 : ℝ) < 1e12 by norm_num)] with η hη
      simp only [recordedStrainRate, Function.iterate_one, recordedUpdate, model, inelastic, perfect, imposed, Fin.cons_zero, Function.update_self, sgn_one]
      norm_num [Real.rpow_one, abs_of_pos hη]
    have h := (hasDerivAt_inv (show (1e12 : ℝ) ≠ 0 by norm_num))
    refine (h.congr_of_eventuallyEq ?_).congr_deriv (by norm_num)
    filter_upwards [e] with η hη
    rw [hη, one_div]

/-- **C105.** Backward through stress control is refused exactly if the model keeps its strain rate and two or more updates were made; so never for `InelasticModel` with flow rules that do not look at the strain rate. -/
theorem C105_backward (keeps : Bool) (K : ℕ) : backwardCheck keeps K = .ok () ↔ ¬ (keeps = true ∧ 2 ≤ K) := by
  have key : (∃ v ∈ savedVersions K, v ≠ K) ↔ 2 ≤ K := by
    unfold savedVersions
    constructor
    · rintro ⟨v, hv, hne⟩
      by_contra hlt
      split_ifs at hv with h0
      · simp at hv
      · have : K = 1 := by omega
        subst this
        simp at hv
        exact hne hv
    · intro h
      rw [if_neg (by omega)]
      refine ⟨1, List.mem_append_left _ (List.mem_range'.2 ⟨0, by omega, rfl⟩), by omega⟩
  unfold backwardCheck
  by_cases h : keeps = true ∧ 2 ≤ K
  · rw [if_pos ⟨h.1, key.2 h.2⟩]
    simp [h]
  · rw [if_neg (by rw [key]; exact h)]
    simp [h]

/-- **C105.** With `RateIndependentFlowRuleWrapper` around a flow rule that does not look at the strain rate, two or more updates are made as soon as one such entry of a batch (of any materials) flows: so its parameter gradients under stress
control are refused. -/
theorem C105_wrapper_refused {n : ℕ} (model : β → Model (n + 1)) (E : ℝ → ℝ) (f : FlowRule n) (lmbda epsRef : ℝ) (csr cs cT t : β → ℝ) (y : β → Fin (n + 1) → ℝ)
    (hf : ∀ s h t T e, f.flow s h t T e = f.flow s h t T 0) (hd : ∀ s h t T e, f.dflow_de s h t T e = 0) (b : β) (hmodel : model b = inelastic E (rateIndependent f lmbda epsRef))
    (flow first : ℝ) (hflow : flow = f.flow (cs b) (fun j => y b j.succ) (t b) (cT b) 0) (hfirst : first = csr b / E (cT b) + (1 - lmbda) * flow)
    (h1 : 1e-10 < |E (cT b) * first|) (h2 : 1e-10 < |E (cT b) * (lmbda * |first| / epsRef * flow)|) (h3 : 1e-6 < |lmbda / epsRef * flow|) :
    2 ≤ (stressSolve model csr cs cT t y).iters ∧
    backwardCheck true (stressSolve model csr cs cT t y).iters =
      .error "one of the variables needed for gradient computation has been modified by an inplace operation" := by
  have hE : E (cT b) ≠ 0 := by
    rintro h
    rw [h, zero_mul, abs_zero] at h1
    norm_num at h1
  have hu : (fun j : Fin n => imposed (cs b) (y b) j.succ) = fun j => y b j.succ := by
    funext j; rw [imposed, Function.update_of_ne (Fin.succ_ne_zero j)]
  have hu0 : imposed (cs b) (y b) 0 = cs b := by simp [imposed]
  have hR : ∀ e, (model b (t b) (imposed (cs b) (y b)) e (cT b)).ydot 0 - csr b = E (cT b) * (e - (1 - lmbda + lmbda * |e| / epsRef) * flow) - csr b := by
    intro e
    simp only [hmodel, inelastic, rateIndependent, Fin.cons_zero, riScale, hu, hu0]
    rw [hf _ _ _ _ e, hflow]
  have hJ0 : (model b (t b) (imposed (cs b) (y b)) 0 (cT b)).Je 0 = E (cT b) := by
    simp only [hmodel, inelastic, rateIndependent, Fin.cons_zero, riDScale, sgn, Real.sign_zero, zero_mul, zero_div, mul_zero, add_zero, hd, sub_zero, mul_one]
  have hx1 : recordedUpdate (model b) (csr b) (cs b) (cT b) (t b) (y b) 0 = first := by
    unfold recordedUpdate
    rw [hR, hJ0, hfirst, abs_zero, mul_zero, zero_div]
    field_simp
    ring
  obtain ⟨-, -, -, h4⟩ := loop_spec (stressRJ model csr cs cT t y) jacobiLinearSolve (fun x dx => x - dx) (fun r b => some (rowNorm (r b))) 1e-6 1e-10
    (fun b => some (rowNorm ((stressRJ model csr cs cT t y 0).1 b))) 100 0
  obtain ⟨-, hx, -, -⟩ := C66_returns_first_iterate (stressRJ model csr cs cT t y) jacobiLinearSolve (fun x dx => x - dx)
    (fun r b => rowNorm (r b)) 0 1e-6 1e-10 100
  have hR0 : |E (cT b) * (0 - (1 - lmbda + lmbda * |(0 : ℝ)| / epsRef) * flow) - csr b| = |E (cT b) * first| := by
    rw [hfirst, abs_zero, mul_zero, zero_div, ← abs_neg]
    congr 1
    field_simp
    ring
  have hR1 : |E (cT b) * (first - (1 - lmbda + lmbda * |first| / epsRef) * flow) - csr b| = |E (cT b) * (lmbda * |first| / epsRef * flow)| := by
    rw [← abs_neg]
    congr 1
    have e : csr b = E (cT b) * (first - (1 - lmbda) * flow) := by rw [hfirst]; field_simp; ring
    rw [e]
    ring
  have hge : 2 ≤ (stressSolve model csr cs cT t y).iters := by
    by_contra hlt
    have hmet := h4 (by
      have : (stressSolve model csr cs cT t y).iters = (loop (stressRJ model csr cs cT t y) jacobiLinearSolve (fun x dx => x - dx)
        (fun r b => some (rowNorm (r b))) 1e-6 1e-10 (fun b => some (rowNorm ((stressRJ model csr cs cT t y 0).1 b))) 100 0).2 := rfl
      omega)
    apply hmet
    have hxb := stressSolve_lane model csr cs cT t y b
    have hval : (stressSolve model csr cs cT t y).x b 0 = 0 ∨ (stressSolve model csr cs cT t y).x b 0 = first := by
      rw [hxb]
      rcases (by omega : (stressSolve model csr cs cT t y).iters = 0 ∨ (stressSolve model csr cs cT t y).iters = 1) with h | h
      · left; rw [h]; rfl
      · right; rw [h, Function.iterate_one, hx1]
    have hfin : ∀ v, (v = 0 ∨ v = first) → 1e-10 < |E (cT b) * (v - (1 - lmbda + lmbda * |v| / epsRef) * flow) - csr b| ∧
        1e-6 * |E (cT b) * first| < |E (cT b) * (v - (1 - lmbda + lmbda * |v| / epsRef) * flow) - csr b| := by
      have hp : 0 < |E (cT b) * first| := lt_trans (by norm_num) h1
      rintro v (rfl | rfl)
      · rw [hR0]
        exact ⟨h1, by linarith [show (1e-6 : ℝ) * |E (cT b) * first| ≤ 1e-6 * |E (cT b) * first| from le_rfl, mul_lt_mul_of_pos_right (show (1e-6 : ℝ) < 1 by norm_num) hp]⟩
      · rw [hR1]
        refine ⟨h2, ?_⟩
        have : |E (cT b) * (lmbda * |v| / epsRef * flow)| = |lmbda / epsRef * flow| * |E (cT b) * v| := by
          rw [← abs_mul, show E (cT b) * (lmbda * |v| / epsRef * flow) = (lmbda / epsRef * flow * E (cT b)) * |v| by ring, abs_mul, abs_abs, ← abs_mul]
          congr 1; ring
        rw [this]
        exact mul_lt_mul_of_pos_right h3 hp
    have hv := hfin _ hval
    refine ⟨⟨b, ?_⟩, ⟨b, ?_⟩⟩
    · change 1e-10 < rowNorm ((stressRJ model csr cs cT t y (stressSolve model csr cs cT t y).x).1 b)
      rw [rowNorm_one]
      simp only [stressRJ]
      rw [hR]
      exact hv.1
    · change 1e-6 * rowNorm ((stressRJ model csr cs cT t y 0).1 b) < rowNorm ((stressRJ model csr cs cT t y (stressSolve model csr cs cT t y).x).1 b)
      rw [rowNorm_one, rowNorm_one]
      simp only [stressRJ, Pi.zero_apply]
      rw [hR, hR, hR0]
      exact hv.2
  refine ⟨hge, ?_⟩
  unfold backwardCheck
  rw [if_pos]
  refine ⟨rfl, 1, ?_, by omega⟩
  unfold savedVersions
  rw [if_neg (by omega)]
  exact List.mem_append_left _ (List.mem_range'.2 ⟨0, by omega, rfl⟩)

/-- Non-vacuity: a creep test at unit stress of a wrapped power law. -/
example : 2 ≤ (stressSolve (fun _ : Unit => inelastic (fun _ => 1) (rateIndependent (perfect (fun _ => 1) (fun _ => 1)) (1 / 2) 1)) (fun _ => 0) (fun _ => 1)
    (fun _ => 0) (fun _ => 0) (fun _ _ => 0)).iters :=
  (C105_wrapper_refused (fun _ => inelastic (fun _ => 1) (rateIndependent (perfect (fun _ => 1) (fun _ => 1)) (1 / 2) 1)) (fun _ => 1) (perfect (fun _ => 1) (fun _ => 1)) (1 / 2) 1 (fun _ : Unit => 0) (fun _ => 1) (fun _ => 0) (fun _ => 0) (fun _ _ => 0)
    (fun _ _ _ _ _ => rfl) (fun _ _ _ _ _ => rfl) () rfl 1 (1 / 2) (by norm_num [perfect, sgn_one]) (by norm_num) (by norm_num) (by norm_num) (by norm_num)).1

end Pyoptmat.Props
