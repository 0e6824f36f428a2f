import Verif.Props.NewtonGrad
import Verif.Props.Gradient

/-!
# Property C106: adjoint gradients of stress controlled tests
-/

namespace Pyoptmat.Props

open Pyoptmat Pyoptmat.Spec Pyoptmat.Control Pyoptmat.Material Pyoptmat.Ode Pyoptmat.Newton Pyoptmat.Chunktime Topology Filter

variable {β : Type*} [Fintype β] {n p : ℕ}

/-- Strain rate and history rates of an inelastic material under the stress `cs` changing at the rate `csr`: elastic plus inelastic strain rate. -/
noncomputable def strainRates (E : ℝ → ℝ) (f : FlowRule n) (csr cs cT t : ℝ) (y : Fin (n + 1) → ℝ) : Fin (n + 1) → ℝ :=
  Fin.cons (csr / E cT + f.flow cs (fun j => y j.succ) t cT 0) (f.hist cs (fun j => y j.succ) t cT 0)

omit [Fintype β] in
/-- **C106.** `creepFunc` is `StressBasedModel.forward`, entry by entry, with the run's number of updates. -/
theorem C106_func (E : β → ℝ → ℝ) (f : β → FlowRule n) (srate stress T : β → ℝ → ℝ) (t : β → ℝ) (y : β → Fin (n + 1) → ℝ) (b : β) :
    let K := (stressSolve (fun b => inelastic (E b) (f b)) (fun b => srate b (t b)) (fun b => stress b (t b)) (fun b => T b (t b)) t y).iters
    ((stressForward (fun b => inelastic (E b) (f b)) srate stress T t y).1 b, (stressForward (fun b => inelastic (E b) (f b)) srate stress T t y).2 b) =
      creepFunc E f srate stress T (fun _ _ => K) b (t b) (y b) := by
  intro K
  simp only [stressForward, creepFunc, K]
  rw [stressSolve_lane]

/-- the Jacobian of the rates under stress control: nothing depends on the strain -/
def creepMat (a : Fin n → ℝ) (H : Matrix (Fin n) (Fin n) ℝ) : Matrix (Fin (n + 1)) (Fin (n + 1)) ℝ :=
  Matrix.of (Fin.cons (Fin.cons 0 a) fun i => Fin.cons 0 (H i))

theorem creepMat_mulVec_zero (a : Fin n → ℝ) (H : Matrix (Fin n) (Fin n) ℝ) (v : Fin (n + 1) → ℝ) :
    (creepMat a H).mulVec v 0 = ∑ j, a j * v j.succ := by
  simp [creepMat, Matrix.mulVec, dotProduct, Fin.sum_univ_succ]

theorem creepMat_mulVec_succ (a : Fin n → ℝ) (H : Matrix (Fin n) (Fin n) ℝ) (v : Fin (n + 1) → ℝ) (i : Fin n) :
    (creepMat a H).mulVec v i.succ = ∑ j, H i j * v j.succ := by
  simp [creepMat, Matrix.mulVec, dotProduct, Fin.sum_univ_succ]

omit [Fintype β] in
theorem creepJac (E : ℝ → ℝ) (f : FlowRule n) (cs cT t e : ℝ) (y : Fin (n + 1) → ℝ) (hE : E cT ≠ 0)
    (hd : ∀ s h t T e, f.dflow_de s h t T e = 0) (hdf : ∀ s h t T e, f.dflow_dh s h t T e = f.dflow_dh s h t T 0)
    (hdh : ∀ s h t T e, f.dhist_dh s h t T e = f.dhist_dh s h t T 0) :
    (stressOut (inelastic E f) cs cT t y e).2 = creepMat (f.dflow_dh cs (fun j => y j.succ) t cT 0) (f.dhist_dh cs (fun j => y j.succ) t cT 0) := by
  have hu : (fun j : Fin n => imposed cs y j.succ) = fun j => y j.succ := by
    funext j; rw [imposed, Function.update_of_ne (Fin.succ_ne_zero j)]
  have hu0 : imposed cs y 0 = cs := by simp [imposed]
  funext i j
  simp only [stressOut, stressJac]
  refine Fin.cases ?_ (fun j => ?_) j
  · rw [if_pos rfl]
    refine Fin.cases ?_ (fun i => ?_) i <;> simp [creepMat]
  · rw [if_neg (Fin.succ_ne_zero j)]
    refine Fin.cases ?_ (fun i => ?_) i
    · simp only [creepMat, Matrix.of_apply, if_pos, inelastic, Fin.cons_zero, Fin.cons_succ, hu, hu0, hd, hdf _ _ _ _ e, sub_zero, mul_one]
      field_simp
    · simp only [creepMat, Matrix.of_apply, if_neg (Fin.succ_ne_zero i), inelastic, Fin.cons_succ, hu, hu0]
      rw [hdh]

omit [Fintype β] in
theorem creep_det (c : ℝ) (a : Fin n → ℝ) (H : Matrix (Fin n) (Fin n) ℝ) :
    (1 - c • creepMat a H).det = (1 - c • H).det := by
  rw [Matrix.det_succ_column_zero, Fin.sum_univ_succ]
  rw [Finset.sum_eq_zero fun i _ => ?_]
  · simp only [Fin.val_zero, pow_zero, one_mul, add_zero]
    have h0 : (1 - c • creepMat a H) 0 0 = 1 := by
      simp [creepMat, Matrix.sub_apply, Matrix.smul_apply]
    rw [h0, one_mul]
    congr 1
    funext i j
    simp [creepMat, Matrix.submatrix_apply, Matrix.sub_apply, Matrix.smul_apply, Matrix.one_apply, Fin.succ_inj]
  · have : (1 - c • creepMat a H) i.succ 0 = 0 := by
      simp [creepMat, Matrix.sub_apply, Matrix.smul_apply, Matrix.one_apply, Fin.succ_ne_zero]
    rw [this]; ring

omit [Fintype β] in
/-- the rates depend differentiably on parameters and state -/
theorem creep_strict (E : (Fin p → ℝ) → ℝ → ℝ) (f : (Fin p → ℝ) → FlowRule n) (csr cs cT t : ℝ) (Y : Fin (n + 1) → ℝ) (p0 : Fin p → ℝ)
    (hE0 : E p0 cT ≠ 0) (E' : (Fin p → ℝ) →L[ℝ] ℝ) (hE : HasStrictFDerivAt (fun q => E q cT) E' p0)
    (F' : (Fin p → ℝ) →L[ℝ] ℝ) (hF : HasStrictFDerivAt (fun x : (Fin p → ℝ) × (Fin n → ℝ) => (f x.1).flow cs x.2 t cT 0)
      (F'.coprod (dotCLM ((f p0).dflow_dh cs (fun j => Y j.succ) t cT 0))) (p0, fun j => Y j.succ))
    (H' : (Fin p → ℝ) →L[ℝ] (Fin n → ℝ)) (hH : HasStrictFDerivAt (fun x : (Fin p → ℝ) × (Fin n → ℝ) => (f x.1).hist cs x.2 t cT 0)
      (H'.coprod (matCLM ((f p0).dhist_dh cs (fun j => Y j.succ) t cT 0))) (p0, fun j => Y j.succ)) :
    ∃ L : (Fin p → ℝ) →L[ℝ] (Fin (n + 1) → ℝ),
      HasStrictFDerivAt (fun x : (Fin p → ℝ) × (Fin (n + 1) → ℝ) => strainRates (E x.1) (f x.1) csr cs cT t x.2)
        (L.coprod (matCLM (creepMat ((f p0).dflow_dh cs (fun j => Y j.succ) t cT 0) ((f p0).dhist_dh cs (fun j => Y j.succ) t cT 0)))) (p0, Y) := by
  -- the state enters through its history part
  let S : (Fin (n + 1) → ℝ) →L[ℝ] (Fin n → ℝ) := ContinuousLinearMap.pi fun j => ContinuousLinearMap.proj j.succ
  have hS : HasStrictFDerivAt (fun x : (Fin p → ℝ) × (Fin (n + 1) → ℝ) => (x.1, fun j : Fin n => x.2 j.succ))
      ((ContinuousLinearMap.fst ℝ _ _).prod (S.comp (ContinuousLinearMap.snd ℝ (Fin p → ℝ) (Fin (n + 1) → ℝ)))) (p0, Y) :=
    ((ContinuousLinearMap.fst ℝ _ _).prod (S.comp (ContinuousLinearMap.snd ℝ (Fin p → ℝ) (Fin (n + 1) → ℝ)))).hasStrictFDerivAt
  have hF2 := HasStrictFDerivAt.comp (g := fun x : (Fin p → ℝ) × (Fin n → ℝ) => (f x.1).flow cs x.2 t cT 0) (p0, Y) hF hS
  have hH2 := HasStrictFDerivAt.comp (g := fun x : (Fin p → ℝ) × (Fin n → ℝ) => (f x.1).hist cs x.2 t cT 0) (p0, Y) hH hS
  have hE2 : HasStrictFDerivAt (fun x : (Fin p → ℝ) × (Fin (n + 1) → ℝ) => csr / E x.1 cT) ((-(csr / E p0 cT ^ 2)) • E'.comp (ContinuousLinearMap.fst ℝ _ _)) (p0, Y) := by
    have h1 : HasStrictFDerivAt (fun x : (Fin p → ℝ) × (Fin (n + 1) → ℝ) => E x.1 cT) (E'.comp (ContinuousLinearMap.fst ℝ _ _)) (p0, Y) :=
      HasStrictFDerivAt.comp (g := fun q => E q cT) (p0, Y) hE (ContinuousLinearMap.fst ℝ (Fin p → ℝ) (Fin (n + 1) → ℝ)).hasStrictFDerivAt
    have h2 : HasStrictFDerivAt (fun z : ℝ => csr / z) ((-(csr / E p0 cT ^ 2)) • ContinuousLinearMap.id ℝ ℝ) (E p0 cT) := by
      have := ((hasStrictDerivAt_inv hE0).const_mul csr).hasStrictFDerivAt
      refine (this.congr_fderiv ?_)
      ext
      simp
      ring
    refine (HasStrictFDerivAt.comp (g := fun z : ℝ => csr / z) (p0, Y) h2 h1).congr_fderiv ?_
    ext <;> simp
  refine ⟨ContinuousLinearMap.pi (Fin.cons ((-(csr / E p0 cT ^ 2)) • E' + F') fun i => (ContinuousLinearMap.proj i).comp H'), ?_⟩
  rw [hasStrictFDerivAt_pi']
  intro i
  refine Fin.cases ?_ (fun i => ?_) i
  · refine (hE2.add hF2).congr_fderiv (ContinuousLinearMap.ext fun v => ?_)
    simp [Ode.dotCLM_apply, Ode.matCLM_apply, creepMat_mulVec_zero, dotProduct, S]
    ring
  · refine ((hasStrictFDerivAt_pi'.1 hH2) i).congr_fderiv (ContinuousLinearMap.ext fun v => ?_)
    simp only [ContinuousLinearMap.comp_apply, ContinuousLinearMap.coprod_apply, ContinuousLinearMap.proj_apply, Pi.add_apply, Ode.matCLM_apply, creepMat_mulVec_succ, ContinuousLinearMap.pi_apply,
      Fin.cons_succ, ContinuousLinearMap.prod_apply, ContinuousLinearMap.coe_fst', ContinuousLinearMap.coe_snd']
    simp only [Matrix.mulVec, dotProduct, S, ContinuousLinearMap.pi_apply, ContinuousLinearMap.proj_apply]

omit [Fintype β] in
theorem adj_jac_congr (s : Scheme) {f f' : Func β n} (t : ℕ → β → ℝ) (y g : ℕ → β → Fin n → ℝ) (N : ℕ) (h : ∀ j ≤ N, ∀ b, (f b (t j b) (y j b)).2 = (f' b (t j b) (y j b)).2) :
    ∀ j ≤ N, adj s f t y g j = adj s f' t y g j := by
  intro j
  induction j with
  | zero => intro _; rfl
  | succ j ih =>
    intro hj
    cases s <;> simp only [adj, ih (by omega), h j (by omega), h (j + 1) hj]

/-- the adjoint pass looks at the right hand side only through its Jacobian at the points of the trajectory -/
theorem rewind_jac_congr (s : Scheme) (d : Direct) {f f' : Func β n} (fp : β → ℝ → (Fin n → ℝ) → Matrix (Fin n) (Fin p) ℝ) (nt : ℕ) (hnt : 0 < nt) (t : ℕ → β → ℝ) (y g : ℕ → β → Fin n → ℝ)
    (blockSize : ℤ) (hn : 0 < blockSize) (h : ∀ k < nt, ∀ b, (f b (t k b) (y k b)).2 = (f' b (t k b) (y k b)).2)
    (hA : s = .backwardEuler → ∀ k, k + 1 < nt → ∀ b, IsUnit (1 - (t (k + 1) b - t k b) • (f' b (t (k + 1) b) (y (k + 1) b)).2).det) :
    rewind s d f fp nt t y g blockSize = rewind s d f' fp nt t y g blockSize := by
  have e := adj_jac_congr s (f := f) (f' := f') (flipRows nt t) (flipRows nt y) (flipRows nt g) (nt - 1) (fun j hj b => h (nt - 1 - j) (by omega) b)
  rw [rewind_spec s d f fp nt hnt t y g blockSize hn (fun hs k hk b => by rw [h (k + 1) hk b]; exact hA hs k hk b), rewind_spec s d f' fp nt hnt t y g blockSize hn hA,
    e (nt - 1) le_rfl]
  congr 2
  refine Finset.sum_congr rfl fun j hj => ?_
  have hj' := Finset.mem_range.1 hj
  unfold contrib
  rw [e j (by omega), e (j + 1) (by omega)]

/-- **C106.** Stress controlled tests of `InelasticModel` with a flow rule that does not look at the strain rate. Let every call make at least one Newton update (`K`), let `fp` be what autograd gets for the parameters from the
recorded calls, and let flow and history rates be differentiable along the trajectory `Y`, with the derivatives the flow rule reports. Then the outputs of `rewind` are the exact gradient, with respect to parameters and
initial state, of `∑ ⟨g, y⟩` over the strain–history trajectories of the backward Euler scheme with elastic plus inelastic strain rate. Only the history part of the steps must be invertible. -/
theorem C106_gradient (d : Direct) (E : β → (Fin p → ℝ) → ℝ → ℝ) (f : β → (Fin p → ℝ) → FlowRule n) (srate stress T : β → ℝ → ℝ) (K : β → ℝ → ℕ) (hK : ∀ b t, 1 ≤ K b t)
    (fp : β → ℝ → (Fin (n + 1) → ℝ) → Matrix (Fin (n + 1)) (Fin p) ℝ) (nt : ℕ) (hnt : 0 < nt) (t : ℕ → β → ℝ) (Y : ℕ → β → Fin (n + 1) → ℝ) (p0 : Fin p → ℝ)
    (blockSize : ℤ) (hn : 0 < blockSize) (g : ℕ → β → Fin (n + 1) → ℝ)
    (hf : ∀ b q s h t T e, (f b q).flow s h t T e = (f b q).flow s h t T 0) (hh : ∀ b q s h t T e, (f b q).hist s h t T e = (f b q).hist s h t T 0)
    (hde : ∀ b q s h t T e, (f b q).dflow_de s h t T e = 0) (hdf : ∀ b s h t T e, (f b p0).dflow_dh s h t T e = (f b p0).dflow_dh s h t T 0)
    (hdh : ∀ b s h t T e, (f b p0).dhist_dh s h t T e = (f b p0).dhist_dh s h t T 0)
    (hE : ∀ k < nt, ∀ b, E b p0 (T b (t k b)) ≠ 0)
    (hE' : ∀ k < nt, ∀ b, ∃ E' : (Fin p → ℝ) →L[ℝ] ℝ, HasStrictFDerivAt (fun q => E b q (T b (t k b))) E' p0)
    (hF : ∀ k < nt, ∀ b, ∃ F' : (Fin p → ℝ) →L[ℝ] ℝ, HasStrictFDerivAt (fun x : (Fin p → ℝ) × (Fin n → ℝ) => (f b x.1).flow (stress b (t k b)) x.2 (t k b) (T b (t k b)) 0)
      (F'.coprod (dotCLM ((f b p0).dflow_dh (stress b (t k b)) (fun j => Y k b j.succ) (t k b) (T b (t k b)) 0))) (p0, fun j => Y k b j.succ))
    (hH : ∀ k < nt, ∀ b, ∃ H' : (Fin p → ℝ) →L[ℝ] (Fin n → ℝ), HasStrictFDerivAt (fun x : (Fin p → ℝ) × (Fin n → ℝ) => (f b x.1).hist (stress b (t k b)) x.2 (t k b) (T b (t k b)) 0)
      (H'.coprod (matCLM ((f b p0).dhist_dh (stress b (t k b)) (fun j => Y k b j.succ) (t k b) (T b (t k b)) 0))) (p0, fun j => Y k b j.succ))
    (hfp : ∀ k < nt, ∀ b, HasFDerivAt (recordedRates (fun q => inelastic (E b q) (f b q)) (srate b (t k b)) (stress b (t k b)) (T b (t k b)) (t k b) (Y k b) (K b (t k b)))
      (matCLM (fp b (t k b) (Y k b))) p0)
    (hY : IsBackwardEuler (fun b t y => strainRates (E b p0) (f b p0) (srate b t) (stress b t) (T b t) t y) nt t Y)
    (hA : ∀ k, k + 1 < nt → ∀ b, IsUnit (1 - (t (k + 1) b - t k b) •
      (f b p0).dhist_dh (stress b (t (k + 1) b)) (fun j => Y (k + 1) b j.succ) (t (k + 1) b) (T b (t (k + 1) b)) 0).det) :
    ∃ y : (Fin p → ℝ) → (β → Fin (n + 1) → ℝ) → ℕ → β → Fin (n + 1) → ℝ,
      y p0 (Y 0) = Y ∧ (∀ q x, y q x 0 = x) ∧
      (∀ᶠ v in 𝓝 (p0, Y 0), IsBackwardEuler (fun b t y => strainRates (E b v.1) (f b v.1) (srate b t) (stress b t) (T b t) t y) nt t (y v.1 v.2)) ∧
      (∀ y' : (Fin p → ℝ) → (β → Fin (n + 1) → ℝ) → ℕ → β → Fin (n + 1) → ℝ,
        (∀ᶠ v in 𝓝 (p0, Y 0), IsBackwardEuler (fun b t y => strainRates (E b v.1) (f b v.1) (srate b t) (stress b t) (T b t) t y) nt t (y' v.1 v.2)) →
        (∀ᶠ v in 𝓝 (p0, Y 0), y' v.1 v.2 0 = v.2) → (∀ k < nt, y' p0 (Y 0) k = Y k) →
        (∀ k < nt, ∀ b, ContinuousAt (fun v : (Fin p → ℝ) × (β → Fin (n + 1) → ℝ) => y' v.1 v.2 k b) (p0, Y 0)) →
        ∀ᶠ v in 𝓝 (p0, Y 0), ∀ k < nt, y' v.1 v.2 k = y v.1 v.2 k) ∧
      ∃ grad lam, rewind .backwardEuler d (creepFunc (fun b => E b p0) (fun b => f b p0) srate stress T K) fp nt t Y g blockSize = .ok (grad, lam) ∧
        (∀ k < nt, ∀ b, DifferentiableAt ℝ (fun v : (Fin p → ℝ) × (β → Fin (n + 1) → ℝ) => y v.1 v.2 k b) (p0, Y 0)) ∧
        HasFDerivAt (fun v : (Fin p → ℝ) × (β → Fin (n + 1) → ℝ) => ∑ k ∈ Finset.range nt, ∑ b, g k b ⬝ᵥ y v.1 v.2 k b) (totalGrad grad lam) (p0, Y 0) := by
  have hrec : ∀ b t y q, E b q (T b t) ≠ 0 → recordedRates (fun q => inelastic (E b q) (f b q)) (srate b t) (stress b t) (T b t) t y (K b t) q =
      strainRates (E b q) (f b q) (srate b t) (stress b t) (T b t) t y := by
    intro b t y q hq
    rw [C105_inelastic (E b) (f b) _ _ _ _ _ _ (hf b) (hh b) (hde b) q hq, if_neg (by have := hK b t; omega)]
    rfl
  rw [rewind_jac_congr .backwardEuler d (f' := fun b t y => (strainRates (E b p0) (f b p0) (srate b t) (stress b t) (T b t) t y,
      creepMat ((f b p0).dflow_dh (stress b t) (fun j => y j.succ) t (T b t) 0) ((f b p0).dhist_dh (stress b t) (fun j => y j.succ) t (T b t) 0))) fp nt hnt t Y g blockSize hn
    (fun k hk b => creepJac _ _ _ _ _ _ _ (hE k hk b) (hde b p0) (hdf b) (hdh b)) (fun _ k hk b => by rw [creep_det]; exact hA k hk b)]
  obtain ⟨y, h1, h2, h3, h4, h5⟩ := C83_backward d (fun q b t y => strainRates (E b q) (f b q) (srate b t) (stress b t) (T b t) t y)
    (fun b t y => creepMat ((f b p0).dflow_dh (stress b t) (fun j => y j.succ) t (T b t) 0) ((f b p0).dhist_dh (stress b t) (fun j => y j.succ) t (T b t) 0))
    fp nt hnt t Y p0 blockSize hn g hY (fun k hk b => by rw [creep_det]; exact hA k hk b) (fun k hk b => by
      obtain ⟨E', e1⟩ := hE' k hk b
      obtain ⟨F', e2⟩ := hF k hk b
      obtain ⟨H', e3⟩ := hH k hk b
      obtain ⟨L, hL⟩ := creep_strict (E b) (f b) (srate b (t k b)) (stress b (t k b)) (T b (t k b)) (t k b) (Y k b) p0 (hE k hk b) E' e1 F' e2 H' e3
      have hpart : HasFDerivAt (fun q => strainRates (E b q) (f b q) (srate b (t k b)) (stress b (t k b)) (T b (t k b)) (t k b) (Y k b)) L p0 := by
        have hin : HasFDerivAt (fun q : Fin p → ℝ => (q, Y k b)) (ContinuousLinearMap.inl ℝ (Fin p → ℝ) (Fin (n + 1) → ℝ)) p0 := hasFDerivAt_prodMk_left p0 (Y k b)
        refine (HasFDerivAt.comp (g := fun x : (Fin p → ℝ) × (Fin (n + 1) → ℝ) => strainRates (E b x.1) (f b x.1) (srate b (t k b)) (stress b (t k b)) (T b (t k b)) (t k b) x.2)
          p0 hL.hasFDerivAt hin).congr_fderiv ?_
        ext v : 1
        simp
      have hev : ∀ᶠ q in 𝓝 p0, E b q (T b (t k b)) ≠ 0 := e1.hasFDerivAt.continuousAt.eventually_ne (hE k hk b)
      have heq : matCLM (fp b (t k b) (Y k b)) = L := by
        refine (hfp k hk b).unique (hpart.congr_of_eventuallyEq ?_)
        filter_upwards [hev] with q hq
        exact hrec b (t k b) (Y k b) q hq
      rw [heq]
      exact hL)
  exact ⟨y, h1, h2, h3, h4, h5⟩

/-- Non-vacuity: a creep test at unit stress, Newtonian viscosity `q 0`; three times, the loss is the strain at the end. -/
example : ∃ grad lam, rewind .backwardEuler .thomas (creepFunc (β := Unit) (fun _ _ => 1) (fun _ => perfect (fun _ => 1) (fun _ => 1)) (fun _ _ => 0) (fun _ _ => 1) (fun _ _ => 0) (fun _ _ => 1))
    (fun _ _ _ => Matrix.of fun _ _ : Fin 1 => (-1 : ℝ)) 3 (fun k _ => k) (fun k _ _ => k) (fun k _ _ => if k = 2 then 1 else 0) 2 = .ok (grad, lam) := by
  have hsgn : sgn 1 = 1 := by simp [sgn]
  have hinv : HasStrictFDerivAt (fun q : Fin 1 → ℝ => 1 / q 0) (-(ContinuousLinearMap.proj (R := ℝ) (φ := fun _ : Fin 1 => ℝ) 0)) (fun _ => 1) := by
    have h := HasStrictFDerivAt.comp (g := fun x : ℝ => x⁻¹) (fun _ : Fin 1 => (1 : ℝ)) (hasStrictDerivAt_inv (show (1 : ℝ) ≠ 0 by norm_num)).hasStrictFDerivAt
      (ContinuousLinearMap.proj (R := ℝ) (φ := fun _ : Fin 1 => ℝ) 0).hasStrictFDerivAt
    simp only [one_div]
    refine h.congr_fderiv (ContinuousLinearMap.ext fun v => ?_)
    simp
  obtain ⟨y, -, -, -, -, grad, lam, h, -⟩ := C106_gradient (β := Unit) (n := 0) (p := 1) .thomas (fun _ _ _ => 1) (fun _ q => perfect (fun _ => 1) (fun _ => q 0)) (fun _ _ => 0) (fun _ _ => 1)
    (fun _ _ => 0) (fun _ _ => 1) (fun _ _ => le_rfl) (fun _ _ _ => Matrix.of fun _ _ : Fin 1 => (-1 : ℝ)) 3 (by norm_num) (fun k _ => k) (fun k _ _ => k) (fun _ => 1) 2 (by norm_num)
    (fun k _ _ => if k = 2 then 1 else 0) (fun _ _ _ _ _ _ _ => rfl) (fun _ _ _ _ _ _ _ => rfl) (fun _ _ _ _ _ _ _ => rfl) (fun _ _ _ _ _ _ => rfl) (fun _ _ _ _ _ _ => rfl)
    (fun _ _ _ => one_ne_zero) (fun _ _ _ => ⟨0, hasStrictFDerivAt_const _ _⟩)
    (fun k _ b => ⟨-(ContinuousLinearMap.proj (R := ℝ) (φ := fun _ : Fin 1 => ℝ) 0), by
      have h := HasStrictFDerivAt.comp (g := fun q : Fin 1 → ℝ => 1 / q 0) ((fun _ => 1 : Fin 1 → ℝ), (fun j => (k : ℝ) : Fin 0 → ℝ)) hinv
        (ContinuousLinearMap.fst ℝ (Fin 1 → ℝ) (Fin 0 → ℝ)).hasStrictFDerivAt
      have e : (fun x : (Fin 1 → ℝ) × (Fin 0 → ℝ) => (perfect (fun _ => 1) (fun _ => x.1 0)).flow 1 x.2 k 0 0) = fun x => 1 / x.1 0 := by
        funext x; simp [perfect, hsgn]
      rw [e]
      refine h.congr_fderiv (ContinuousLinearMap.ext fun v => ?_)
      simp [dotCLM]⟩)
    (fun k _ b => ⟨0, (hasStrictFDerivAt_const _ _).congr_fderiv (ContinuousLinearMap.ext fun v => funext fun i => i.elim0)⟩)
    (fun k _ b => by
      have e : recordedRates (fun q : Fin 1 → ℝ => inelastic (fun _ => 1) (perfect (fun _ => 1) (fun _ => q 0))) 0 1 0 k (fun _ => (k : ℝ)) 1 = fun q _ => 1 / q 0 := by
        funext q i
        obtain rfl : i = 0 := Subsingleton.elim (α := Fin 1) i 0
        rw [C105_inelastic (fun _ _ => 1) (fun q : Fin 1 → ℝ => perfect (fun _ => 1) (fun _ => q 0)) 0 1 0 k (fun _ => (k : ℝ)) 1 (fun _ _ _ _ _ _ => rfl) (fun _ _ _ _ _ _ => rfl)
          (fun _ _ _ _ _ _ => rfl) q one_ne_zero]
        simp [perfect, hsgn]
      rw [e]
      refine hasFDerivAt_pi'.2 fun i => hinv.hasFDerivAt.congr_fderiv (ContinuousLinearMap.ext fun v => ?_)
      simp [Ode.matCLM_apply, Matrix.mulVec, dotProduct])
    (fun k b _ => by
      funext i
      obtain rfl : i = 0 := Subsingleton.elim (α := Fin 1) i 0
      simp [strainRates, perfect, hsgn])
    (fun k _ b => by simp)
  exact ⟨grad, lam, h⟩

end Pyoptmat.Props
