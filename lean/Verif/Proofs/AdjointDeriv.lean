import Verif.Proofs.Adjoint
import Mathlib.Analysis.Calculus.FDeriv.Add
import Mathlib.Analysis.Calculus.FDeriv.Mul
import Mathlib.Analysis.Calculus.FDeriv.Comp
import Mathlib.Analysis.Calculus.FDeriv.Pi
import Mathlib.Analysis.Calculus.FDeriv.Prod
import Mathlib.Analysis.Calculus.FDeriv.Linear

/-! Helper lemmas: derivatives of the discrete trajectory. -/

namespace Pyoptmat.Ode

open Pyoptmat.Chunktime Pyoptmat.Newton Pyoptmat.Spec Filter Topology Asymptotics

variable {β : Type*} {m : ℕ}

section implicit
variable {E F : Type*} [NormedAddCommGroup E] [NormedSpace ℝ E] [NormedAddCommGroup F] [NormedSpace ℝ F]

/-- bootstrapping step of the implicit function theorem -/
theorem littleO_bootstrap {u : E → F} {L : E →L[ℝ] F} {q0 : E}
    (h : (fun q => u q - L (q - q0)) =o[𝓝 q0] fun q => (q - q0, u q)) :
    (fun q => u q - L (q - q0)) =o[𝓝 q0] fun q => q - q0 := by
  have hu : u =O[𝓝 q0] fun q => q - q0 := by
    have h1 := h.def (c := 1 / 2) (by norm_num)
    refine IsBigO.of_bound (2 * ‖L‖ + 1) ?_
    filter_upwards [h1] with q hq
    have h2 : ‖(q - q0, u q)‖ ≤ ‖q - q0‖ + ‖u q‖ := by
      rw [Prod.norm_def]
      exact max_le_add_of_nonneg (norm_nonneg _) (norm_nonneg _)
    have h3 : ‖u q‖ ≤ ‖u q - L (q - q0)‖ + ‖L (q - q0)‖ := by
      have := norm_add_le (u q - L (q - q0)) (L (q - q0))
      simpa using this
    have h4 := L.le_opNorm (q - q0)
    nlinarith
  have hp : (fun q => (q - q0, u q)) =O[𝓝 q0] fun q => q - q0 := (isBigO_refl _ _).prod_left hu
  exact h.trans_isBigO hp

/-- Differentiability of a continuous solution of `z = w + dt R(q, z)`. -/
theorem implicit_hasFDerivAt {z w : E → F} {R : E × F → F} {q0 : E} {W A : E →L[ℝ] F} {B C : F →L[ℝ] F}
    (dt : ℝ) (hz : ContinuousAt z q0) (hrec : ∀ᶠ q in 𝓝 q0, z q = w q + dt • R (q, z q))
    (hw : HasFDerivAt w W q0) (hR : HasFDerivAt R (A.coprod B) (q0, z q0))
    (hC : ∀ x, C (x - dt • B x) = x) :
    HasFDerivAt z (C.comp (W + dt • A)) q0 := by
  rw [hasFDerivAt_iff_isLittleO]
  refine littleO_bootstrap (u := fun q => z q - z q0) (L := C.comp (W + dt • A)) ?_
  have hrec0 : z q0 = w q0 + dt • R (q0, z q0) := hrec.self_of_nhds
  have h1 : (fun q => w q - w q0 - W (q - q0)) =o[𝓝 q0] fun q => (q - q0, z q - z q0) :=
    hw.isLittleO.trans_isBigO (isBigO_fst_prod' (f' := fun q => (q - q0, z q - z q0)))
  have hten : Tendsto (fun q => (q, z q)) (𝓝 q0) (𝓝 (q0, z q0)) :=
    continuousAt_id.prodMk hz
  have h2 : (fun q => R (q, z q) - R (q0, z q0) - (A.coprod B) ((q, z q) - (q0, z q0)))
      =o[𝓝 q0] fun q => (q - q0, z q - z q0) := hR.isLittleO.comp_tendsto hten
  have h3 := h1.add (h2.const_smul_left dt)
  have h4 : (fun q => C ((w q - w q0 - W (q - q0)) +
      dt • (R (q, z q) - R (q0, z q0) - (A.coprod B) ((q, z q) - (q0, z q0)))))
      =o[𝓝 q0] fun q => (q - q0, z q - z q0) := (C.isBigO_comp _ _).trans_isLittleO h3
  refine h4.congr' ?_ (Eventually.of_forall fun _ => rfl)
  filter_upwards [hrec] with q hq
  have hx := hC (z q - z q0)
  conv_rhs => rw [← hx]
  rw [ContinuousLinearMap.comp_apply, ← map_sub]
  congr 1
  have e1 : w q = z q - dt • R (q, z q) := eq_sub_of_add_eq hq.symm
  have e2 : w q0 = z q0 - dt • R (q0, z q0) := eq_sub_of_add_eq hrec0.symm
  rw [e1, e2]
  simp only [Prod.mk_sub_mk, ContinuousLinearMap.coprod_apply, ContinuousLinearMap.add_apply,
    ContinuousLinearMap.smul_apply, smul_sub, smul_add]
  abel

end implicit

theorem matCLM_apply {n k : ℕ} (M : Matrix (Fin n) (Fin k) ℝ) (v : Fin k → ℝ) : matCLM M v = M.mulVec v := rfl

theorem dotCLM_apply {n : ℕ} (v w : Fin n → ℝ) : dotCLM v w = v ⬝ᵥ w := by
  simp [dotCLM, dotProduct, ContinuousLinearMap.sum_apply]

section main
variable {E : Type*} [NormedAddCommGroup E] [NormedSpace ℝ E]

/-- Trajectory recurrence by scheme. -/
def IsTrajectory (s : Scheme) (rate : β → ℝ → (Fin m → ℝ) → Fin m → ℝ) (nt : ℕ) (t : ℕ → β → ℝ)
    (y : ℕ → β → Fin m → ℝ) : Prop :=
  match s with
  | .backwardEuler => IsBackwardEuler rate nt t y
  | .forwardEuler => IsForwardEuler rate nt t y

theorem trajectory_tangent (s : Scheme) {p : ℕ} (R : E → β → ℝ → (Fin m → ℝ) → Fin m → ℝ)
    (J : β → ℝ → (Fin m → ℝ) → Matrix (Fin m) (Fin m) ℝ)
    (fp : β → ℝ → (Fin m → ℝ) → Matrix (Fin m) (Fin p) ℝ) (P : E →L[ℝ] (Fin p → ℝ))
    (nt : ℕ) (t : ℕ → β → ℝ) (y : E → ℕ → β → Fin m → ℝ) (q0 : E)
    (hrec : ∀ᶠ q in 𝓝 q0, IsTrajectory s (R q) nt t (y q))
    (Y0 : β → E →L[ℝ] (Fin m → ℝ)) (h0 : ∀ b, HasFDerivAt (fun q => y q 0 b) (Y0 b) q0)
    (hc : s = .backwardEuler → ∀ k < nt, ∀ b, ContinuousAt (fun q => y q k b) q0)
    (hA : s = .backwardEuler → ∀ k, k + 1 < nt → ∀ b,
      IsUnit (1 - (t (k + 1) b - t k b) • J b (t (k + 1) b) (y q0 (k + 1) b)).det)
    (hR : ∀ k < nt, ∀ b, HasFDerivAt (fun x : E × (Fin m → ℝ) => R x.1 b (t k b) x.2)
      (((matCLM (fp b (t k b) (y q0 k b))).comp P).coprod (matCLM (J b (t k b) (y q0 k b)))) (q0, y q0 k b)) :
    ∃ D : ℕ → β → E →L[ℝ] (Fin m → ℝ), D 0 = Y0 ∧
      (∀ k < nt, ∀ b, HasFDerivAt (fun q => y q k b) (D k b) q0) ∧
      ∀ e, IsTangent s (fun b t y => (R q0 b t y, J b t y)) fp nt t (y q0) (P e) (fun k b => D k b e) := by
  have hstep : ∀ k, k + 1 < nt → ∀ b, ∀ D : E →L[ℝ] (Fin m → ℝ),
      HasFDerivAt (fun q => y q k b) D q0 → ∃ D' : E →L[ℝ] (Fin m → ℝ), HasFDerivAt (fun q => y q (k + 1) b) D' q0 := by
    intro k hk b D hD
    cases s with
    | backwardEuler =>
      have hu := hA rfl k hk b
      refine ⟨_, implicit_hasFDerivAt (z := fun q => y q (k + 1) b) (w := fun q => y q k b)
        (R := fun x => R x.1 b (t (k + 1) b) x.2) (t (k + 1) b - t k b) (hc rfl (k + 1) hk b) ?_ hD
        (hR (k + 1) hk b)
        (C := matCLM (1 - (t (k + 1) b - t k b) • J b (t (k + 1) b) (y q0 (k + 1) b))⁻¹) ?_⟩
      · filter_upwards [hrec] with q hq
        exact hq k b hk
      · intro x
        rw [matCLM_apply, matCLM_apply]
        have : x - (t (k + 1) b - t k b) • (J b (t (k + 1) b) (y q0 (k + 1) b)).mulVec x =
            (1 - (t (k + 1) b - t k b) • J b (t (k + 1) b) (y q0 (k + 1) b)).mulVec x := by
          rw [Matrix.sub_mulVec, Matrix.one_mulVec, Matrix.smul_mulVec]
        rw [this, Matrix.mulVec_mulVec, Matrix.nonsing_inv_mul _ hu, Matrix.one_mulVec]
    | forwardEuler =>
      have h1 := (hR k (by omega) b).comp q0 ((hasFDerivAt_id q0).prodMk hD)
      have h2 := hD.add (h1.const_smul (t (k + 1) b - t k b))
      refine ⟨_, h2.congr_of_eventuallyEq ?_⟩
      filter_upwards [hrec] with q hq
      exact hq k b hk
  have hdiff : ∀ k, k < nt → ∀ b, ∃ D : E →L[ℝ] (Fin m → ℝ), HasFDerivAt (fun q => y q k b) D q0 := by
    intro k
    induction k with
    | zero => intro _ b; exact ⟨_, h0 b⟩
    | succ k ih =>
      intro hk b
      obtain ⟨D, hD⟩ := ih (by omega) b
      exact hstep k hk b D hD
  refine ⟨fun k b => fderiv ℝ (fun q => y q k b) q0, ?_, ?_, ?_⟩
  · funext b; exact (h0 b).fderiv
  · intro k hk b
    obtain ⟨D, hD⟩ := hdiff k hk b
    exact hD.differentiableAt.hasFDerivAt
  · intro e k b hk
    obtain ⟨D, hD⟩ := hdiff k (by omega) b
    obtain ⟨D', hD'⟩ := hdiff (k + 1) hk b
    have eD := hD.fderiv
    have eD' := hD'.fderiv
    cases s with
    | backwardEuler =>
      have h1 := (hR (k + 1) hk b).comp q0 ((hasFDerivAt_id q0).prodMk hD')
      have h2 := hD.add (h1.const_smul (t (k + 1) b - t k b))
      have h3 : HasFDerivAt (fun q => y q (k + 1) b) _ q0 := h2.congr_of_eventuallyEq (by
        filter_upwards [hrec] with q hq
        exact hq k b hk)
      have h4 := hD'.unique h3
      have h5 := congrArg (fun L : E →L[ℝ] (Fin m → ℝ) => L e) h4
      simp only [ContinuousLinearMap.add_apply, ContinuousLinearMap.smul_apply, ContinuousLinearMap.comp_apply,
        ContinuousLinearMap.prod_apply, ContinuousLinearMap.coprod_apply, ContinuousLinearMap.id_apply,
        matCLM_apply] at h5
      simp only [eD, eD']
      rw [add_comm ((J b _ _).mulVec _)]
      exact h5
    | forwardEuler =>
      have h1 := (hR k (by omega) b).comp q0 ((hasFDerivAt_id q0).prodMk hD)
      have h2 := hD.add (h1.const_smul (t (k + 1) b - t k b))
      have h3 : HasFDerivAt (fun q => y q (k + 1) b) _ q0 := h2.congr_of_eventuallyEq (by
        filter_upwards [hrec] with q hq
        exact hq k b hk)
      have h4 := hD'.unique h3
      have h5 := congrArg (fun L : E →L[ℝ] (Fin m → ℝ) => L e) h4
      simp only [ContinuousLinearMap.add_apply, ContinuousLinearMap.smul_apply, ContinuousLinearMap.comp_apply,
        ContinuousLinearMap.prod_apply, ContinuousLinearMap.coprod_apply, ContinuousLinearMap.id_apply,
        matCLM_apply] at h5
      simp only [eD, eD']
      rw [add_comm ((J b _ _).mulVec _)]
      exact h5

/-- General form: the two outputs of `rewind` assemble to the derivative of the objective with respect to anything
that perturbs the parameters (by `P`) and the initial condition (by `Y0`). -/
theorem rewind_derivative [Fintype β] (s : Scheme) (d : Direct) {p : ℕ}
    (R : E → β → ℝ → (Fin m → ℝ) → Fin m → ℝ) (J : β → ℝ → (Fin m → ℝ) → Matrix (Fin m) (Fin m) ℝ)
    (fp : β → ℝ → (Fin m → ℝ) → Matrix (Fin m) (Fin p) ℝ) (P : E →L[ℝ] (Fin p → ℝ))
    (nt : ℕ) (hnt : 0 < nt) (t : ℕ → β → ℝ) (y : E → ℕ → β → Fin m → ℝ) (q0 : E) (n : ℤ) (hn : 0 < n)
    (g : ℕ → BVec β m ℝ) (hrec : ∀ᶠ q in 𝓝 q0, IsTrajectory s (R q) nt t (y q))
    (Y0 : β → E →L[ℝ] (Fin m → ℝ)) (h0 : ∀ b, HasFDerivAt (fun q => y q 0 b) (Y0 b) q0)
    (hc : s = .backwardEuler → ∀ k < nt, ∀ b, ContinuousAt (fun q => y q k b) q0)
    (hA : s = .backwardEuler → ∀ k, k + 1 < nt → ∀ b,
      IsUnit (1 - (t (k + 1) b - t k b) • J b (t (k + 1) b) (y q0 (k + 1) b)).det)
    (hR : ∀ k < nt, ∀ b, HasFDerivAt (fun x : E × (Fin m → ℝ) => R x.1 b (t k b) x.2)
      (((matCLM (fp b (t k b) (y q0 k b))).comp P).coprod (matCLM (J b (t k b) (y q0 k b)))) (q0, y q0 k b)) :
    ∃ grad lam, rewind s d (fun b t y => (R q0 b t y, J b t y)) fp nt t (y q0) g n = .ok (grad, lam) ∧
      HasFDerivAt (fun q => ∑ k ∈ Finset.range nt, ∑ b, g k b ⬝ᵥ y q k b)
        ((dotCLM grad).comp P + ∑ b, (dotCLM (lam b)).comp (Y0 b)) q0 := by
  obtain ⟨D, hD0, hD, hT⟩ := trajectory_tangent s R J fp P nt t y q0 hrec Y0 h0 hc hA hR
  refine ⟨_, _, rewind_spec s d (fun b t y => (R q0 b t y, J b t y)) fp nt hnt t (y q0) g n hn hA, ?_⟩
  have h1 : HasFDerivAt (fun q => ∑ k ∈ Finset.range nt, ∑ b, g k b ⬝ᵥ y q k b)
      (∑ k ∈ Finset.range nt, ∑ b, (dotCLM (g k b)).comp (D k b)) q0 := by
    refine HasFDerivAt.fun_sum fun k hk => HasFDerivAt.fun_sum fun b _ => ?_
    have := (dotCLM (g k b)).hasFDerivAt.comp q0 (hD k (Finset.mem_range.1 hk) b)
    refine this.congr_of_eventuallyEq (Eventually.of_forall fun q => ?_)
    simp [dotCLM_apply]
  refine h1.congr_fderiv ?_
  ext e
  have hid := adjoint_identity s (fun b t y => (R q0 b t y, J b t y)) fp nt t (y q0) g hA (P e)
    (fun k b => D k b e) (hT e) (nt - 1) (by omega)
  have hlast : flipRows nt (fun k b => D k b e) (nt - 1) = fun b => D 0 b e := by
    unfold flipRows; simp
  rw [Nat.sub_add_cancel hnt, hlast, hD0] at hid
  have hrefl := Finset.sum_range_reflect (fun k => ∑ b, g k b ⬝ᵥ D k b e) nt
  simp only [ContinuousLinearMap.sum_apply, ContinuousLinearMap.comp_apply, ContinuousLinearMap.add_apply,
    dotCLM_apply]
  rw [← hid, ← hrefl]
  rfl

end main

end Pyoptmat.Ode
