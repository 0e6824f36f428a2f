import Verif.Props.TensorGrad
import Verif.Props.Mixed
import Verif.Props.Elastic

/-!
# C113: gradients of mixed batches

`solve_both` and the adjoint pass, all as torch programs; autograd goes through the iterations for the strain rates.
-/

namespace Pyoptmat.Props

open Pyoptmat Pyoptmat.Tensor Pyoptmat.Spec Pyoptmat.Control Pyoptmat.Material Pyoptmat.Ode Pyoptmat.Newton Pyoptmat.Solvers Filter Topology

variable {β : Type*} [Fintype β] {nb m nt p nk n : ℕ}

/-- The rates a test is meant to have, by its label: stress and history rates under strain control (0), strain and history rates under stress control (1), none for other labels. `rate` and `base` are the recorded
data's rate and value. -/
noncomputable def mixedRates (E : ℝ → ℝ) (f : FlowRule n) (label rate base T t : ℝ) (y : Fin (n + 1) → ℝ) : Fin (n + 1) → ℝ :=
  open Classical in
  if label = 1 then strainRates E f rate base T t y else if label = 0 then (inelastic E f t y rate T).ydot else 0

/-- the Jacobian `BothBasedModel` reports for a test, with any number of updates of the strain rate -/
noncomputable def mixedJac (E : ℝ → ℝ) (f : FlowRule n) (label rate base T t : ℝ) (y : Fin (n + 1) → ℝ) : Matrix (Fin (n + 1)) (Fin (n + 1)) ℝ :=
  open Classical in
  if label = 1 then (stressOut (inelastic E f) base T t y 0).2 else if label = 0 then (inelastic E f t y rate T).J else 0

/-- one state of a strain controlled test, in the admissible region -/
theorem vc_strain_at (P : (Fin p → ℝ) → VCParams nk) (p0 : Fin p → ℝ) (t e T : ℝ) (y : Fin (1 + nk + 1) → ℝ) (hS : (P p0).Smooth T) (hD : VCParams.DiffAt P p0 T)
    (hst : VCState (P p0).R (P p0).C (P p0).g T y) :
    (∀ dt : ℝ, 0 ≤ dt → IsUnit (1 - dt • ((P p0).model t y e T).J).det) ∧
    ∃ A : (Fin p → ℝ) →L[ℝ] (Fin (1 + nk + 1) → ℝ), HasFDerivAt (fun q => ((P q).model t y e T).ydot) A p0 ∧
      HasStrictFDerivAt (fun x : (Fin p → ℝ) × (Fin (1 + nk + 1) → ℝ) => ((P x.1).model t x.2 e T).ydot) (A.coprod (matCLM ((P p0).model t y e T).J)) (p0, y) := by
  refine ⟨fun dt hdt => ?_, ?_⟩
  · exact vc_step_det _ _ _ _ _ _ _ _ _ _ _ _ _ _ _ hdt hS.adm hS.n hS.bb (fun i => by have := hS.r i; linarith) hst
  · have hw : 0 ≤ y 1 := hst.1.1
    have c1 : ∀ {φ : (Fin p → ℝ) → ℝ}, ContDiffAt ℝ 1 φ p0 → ContDiffAt ℝ 1 (fun x : (Fin p → ℝ) × (Fin (1 + nk + 1) → ℝ) => φ x.1) (p0, y) :=
      fun h => ContDiffAt.comp (p0, y) h contDiffAt_fst
    have hcd : ContDiffAt ℝ 1 (fun x : (Fin p → ℝ) × (Fin (1 + nk + 1) → ℝ) => ((P x.1).model t x.2 e T).ydot) (p0, y) :=
      vc_contDiffAt (fun x : (Fin p → ℝ) × (Fin (1 + nk + 1) → ℝ) => (P x.1).E) (fun x => (P x.1).n) (fun x => (P x.1).eta) (fun x => (P x.1).s0) (fun x => (P x.1).R)
        (fun x => (P x.1).d) (fun x => (P x.1).C) (fun x => (P x.1).g) (fun x => (P x.1).bb) (fun x => (P x.1).r) _ _ (fun _ => _) (fun x => x.2) (p0, y)
        (c1 hD.E) (c1 hD.n) (c1 hD.eta) (c1 hD.s0) (c1 hD.R) (c1 hD.d) (fun i => c1 (hD.C i)) (fun i => c1 (hD.g i)) (fun i => c1 (hD.bb i)) (fun i => c1 (hD.r i))
        contDiffAt_const contDiffAt_snd hS.n hS.adm.eta (add_pos_of_pos_of_nonneg hS.s0 hw) hS.r
    have hin : HasFDerivAt (fun q : Fin p → ℝ => (q, y)) (ContinuousLinearMap.inl ℝ (Fin p → ℝ) (Fin (1 + nk + 1) → ℝ)) p0 := hasFDerivAt_prodMk_left p0 y
    have hA : HasFDerivAt (fun q => ((P q).model t y e T).ydot)
        ((fderiv ℝ (fun x : (Fin p → ℝ) × (Fin (1 + nk + 1) → ℝ) => ((P x.1).model t x.2 e T).ydot) (p0, y)).comp (ContinuousLinearMap.inl ℝ _ _)) p0 :=
      HasFDerivAt.comp (g := fun x : (Fin p → ℝ) × (Fin (1 + nk + 1) → ℝ) => ((P x.1).model t x.2 e T).ydot) p0
        (hcd.differentiableAt one_ne_zero).hasFDerivAt hin
    refine ⟨_, hA, ?_⟩
    have := model_strict (M := fun q => (P q).model) hcd (C24_exact _ _ _ _ _ _ (vc_exact (P p0) _ _ _ _ hS hw)) (A := LinearMap.toMatrix' ((fderiv ℝ
      (fun x : (Fin p → ℝ) × (Fin (1 + nk + 1) → ℝ) => ((P x.1).model t x.2 e T).ydot) (p0, y)).comp (ContinuousLinearMap.inl ℝ _ _)).toLinearMap)
      (by rw [matCLM_surj]; exact hA)
    rw [matCLM_surj] at this
    exact this

/-- one state of a stress controlled test, in the admissible region -/
theorem vc_stress_at (P : (Fin p → ℝ) → VCParams nk) (p0 : Fin p → ℝ) (srate stress t T : ℝ) (y : Fin (1 + nk + 1) → ℝ) (hS : (P p0).Smooth T) (hD : VCParams.DiffAt P p0 T) (hE : (P p0).E T ≠ 0)
    (hst : VCState (P p0).R (P p0).C (P p0).g T y) :
    (∀ dt : ℝ, 0 ≤ dt → IsUnit (1 - dt • (stressOut (P p0).model stress T t y 0).2).det) ∧
    ∃ A : (Fin p → ℝ) →L[ℝ] (Fin (1 + nk + 1) → ℝ), HasFDerivAt (fun q => strainRates (P q).E (P q).flowRule srate stress T t y) A p0 ∧
      HasStrictFDerivAt (fun x : (Fin p → ℝ) × (Fin (1 + nk + 1) → ℝ) => strainRates (P x.1).E (P x.1).flowRule srate stress T t x.2)
        (A.coprod (matCLM (stressOut (P p0).model stress T t y 0).2)) (p0, y) := by
  have e1 : (1 : Fin (1 + nk + 1)) = (Fin.castAdd nk (0 : Fin 1)).succ := one_eq_iso
  have hcons : VCState (P p0).R (P p0).C (P p0).g T (Fin.cons stress fun j => y j.succ) := by
    refine ⟨?_, fun i => hst.2 i⟩
    rw [e1, Fin.cons_succ, ← e1]
    exact hst.1
  have hJ : (stressOut (P p0).model stress T t y 0).2 = creepMat ((P p0).flowRule.dflow_dh stress (fun j => y j.succ) t T 0) ((P p0).flowRule.dhist_dh stress (fun j => y j.succ) t T 0) :=
    creepJac _ _ _ _ _ _ _ hE (fun _ _ _ _ _ => rfl) (fun _ _ _ _ _ => rfl) (fun _ _ _ _ _ => rfl)
  refine ⟨fun dt hdt => ?_, ?_⟩
  · rw [hJ, creep_det]
    exact vc_hist_det _ _ _ _ _ _ _ _ _ _ _ _ _ _ _ hdt ⟨le_rfl, hS.adm.n, hS.adm.eta, hS.adm.s0, hS.adm.R, hS.adm.d, hS.adm.C, hS.adm.g⟩ hS.n hS.bb
      (fun i => by have := hS.r i; linarith) hcons
  · obtain ⟨F', e2⟩ := (flow_split P p0 stress t T (fun j => y j.succ) hS hD hcons.1.1).1
    obtain ⟨H', e3⟩ := (flow_split P p0 stress t T (fun j => y j.succ) hS hD hcons.1.1).2
    obtain ⟨L, hL⟩ := creep_strict (fun q => (P q).E) (fun q => (P q).flowRule) srate stress T t y p0 hE _ (hD.E.hasStrictFDerivAt one_ne_zero) F' e2 H' e3
    rw [hJ]
    refine ⟨L, ?_, hL⟩
    have hin : HasFDerivAt (fun q : Fin p → ℝ => (q, y)) (ContinuousLinearMap.inl ℝ (Fin p → ℝ) (Fin (1 + nk + 1) → ℝ)) p0 := hasFDerivAt_prodMk_left p0 y
    refine (HasFDerivAt.comp (g := fun x : (Fin p → ℝ) × (Fin (1 + nk + 1) → ℝ) => strainRates (P x.1).E (P x.1).flowRule srate stress T t x.2)
      p0 hL.hasFDerivAt hin).congr_fderiv ?_
    ext v : 1
    simp

/-- one state of a test of either kind, in the admissible region -/
theorem vc_mixed_at (P : (Fin p → ℝ) → VCParams nk) (p0 : Fin p → ℝ) (label rate base T t : ℝ) (y : Fin (1 + nk + 1) → ℝ) (hS : (P p0).Smooth T) (hD : VCParams.DiffAt P p0 T)
    (hE : (P p0).E T ≠ 0) (hst : VCState (P p0).R (P p0).C (P p0).g T y) :
    (∀ dt : ℝ, 0 ≤ dt → IsUnit (1 - dt • mixedJac (P p0).E (P p0).flowRule label rate base T t y).det) ∧
    ∃ A : (Fin p → ℝ) →L[ℝ] (Fin (1 + nk + 1) → ℝ), HasFDerivAt (fun q => mixedRates (P q).E (P q).flowRule label rate base T t y) A p0 ∧
      HasStrictFDerivAt (fun x : (Fin p → ℝ) × (Fin (1 + nk + 1) → ℝ) => mixedRates (P x.1).E (P x.1).flowRule label rate base T t x.2)
        (A.coprod (matCLM (mixedJac (P p0).E (P p0).flowRule label rate base T t y))) (p0, y) := by
  by_cases h1 : label = 1
  · simp only [mixedRates, mixedJac, if_pos h1]
    exact vc_stress_at P p0 rate base t T y hS hD hE hst
  · by_cases h2 : label = 0
    · simp only [mixedRates, mixedJac, if_neg h1, if_pos h2]
      exact vc_strain_at P p0 t rate T y hS hD hst
    · simp only [mixedRates, mixedJac, if_neg h1, if_neg h2]
      refine ⟨fun dt _ => by simp, 0, hasFDerivAt_const _ _, ?_⟩
      refine (hasStrictFDerivAt_const (0 : Fin (1 + nk + 1) → ℝ) (p0, y)).congr_fderiv (ContinuousLinearMap.ext fun v => ?_)
      simp [Ode.matCLM_apply]

/-- one strain controlled test -/
theorem vc_strain_lane (P : (Fin p → ℝ) → VCParams nk) (p0 : Fin p → ℝ) (erate temp : ℝ → ℝ) (nt : ℕ) (t : ℕ → ℝ) (ht : ∀ k, k + 1 < nt → t k ≤ t (k + 1)) (Y : ℕ → Fin (1 + nk + 1) → ℝ)
    (hY : ∀ k, k + 1 < nt → Y (k + 1) = Y k + (t (k + 1) - t k) • ((P p0).model (t (k + 1)) (Y (k + 1)) (erate (t (k + 1))) (temp (t (k + 1)))).ydot)
    (hP : ∀ k < nt, (P p0).Smooth (temp (t k))) (hd : ∀ k < nt, VCParams.DiffAt P p0 (temp (t k))) (R0 : ℝ) (B : Fin nk → ℝ) (hR : ∀ k < nt, (P p0).R (temp (t k)) = R0)
    (hC : ∀ k < nt, ∀ i, (P p0).C i (temp (t k)) = B i * (P p0).g i (temp (t k))) (h0 : (0 ≤ Y 0 1 ∧ Y 0 1 ≤ R0) ∧ ∀ i : Fin nk, |Y 0 (Fin.natAdd 1 i).succ| ≤ B i) :
    (∀ k, k + 1 < nt → IsUnit (1 - (t (k + 1) - t k) • ((P p0).model (t (k + 1)) (Y (k + 1)) (erate (t (k + 1))) (temp (t (k + 1)))).J).det) ∧
    ∀ k < nt, ∃ A : (Fin p → ℝ) →L[ℝ] (Fin (1 + nk + 1) → ℝ), HasFDerivAt (fun q => ((P q).model (t k) (Y k) (erate (t k)) (temp (t k))).ydot) A p0 ∧
      HasStrictFDerivAt (fun x : (Fin p → ℝ) × (Fin (1 + nk + 1) → ℝ) => ((P x.1).model (t k) x.2 (erate (t k)) (temp (t k))).ydot)
        (A.coprod (matCLM ((P p0).model (t k) (Y k) (erate (t k)) (temp (t k))).J)) (p0, Y k) := by
  have hst : ∀ k, k < nt → VCState (P p0).R (P p0).C (P p0).g (temp (t k)) (Y k) := fun k hk =>
    vc_states (β := Unit) (P p0) (fun _ => erate) (fun _ => temp) nt (fun k _ => t k) (fun k _ hk => ht k hk) (fun k _ => Y k) (fun k _ hk => hY k hk) (fun k _ hk => hP k hk) R0 B
      (fun k _ hk => hR k hk) (fun k _ hk => hC k hk) (fun _ => h0) k () hk
  refine ⟨fun k hk => ?_, fun k hk => ?_⟩
  · exact (vc_strain_at P p0 _ _ _ _ (hP _ hk) (hd _ hk) (hst _ hk)).1 _ (by have := ht k hk; linarith)
  · exact (vc_strain_at P p0 _ _ _ _ (hP k hk) (hd k hk) (hst k hk)).2

/-- one stress controlled test -/
theorem vc_stress_lane (P : (Fin p → ℝ) → VCParams nk) (p0 : Fin p → ℝ) (srate stress temp : ℝ → ℝ) (nt : ℕ) (t : ℕ → ℝ) (ht : ∀ k, k + 1 < nt → t k ≤ t (k + 1)) (Y : ℕ → Fin (1 + nk + 1) → ℝ)
    (hY : ∀ k, k + 1 < nt → Y (k + 1) = Y k + (t (k + 1) - t k) • strainRates (P p0).E (P p0).flowRule (srate (t (k + 1))) (stress (t (k + 1))) (temp (t (k + 1))) (t (k + 1)) (Y (k + 1)))
    (hP : ∀ k < nt, (P p0).Smooth (temp (t k))) (hd : ∀ k < nt, VCParams.DiffAt P p0 (temp (t k))) (hE : ∀ k < nt, (P p0).E (temp (t k)) ≠ 0) (R0 : ℝ) (B : Fin nk → ℝ)
    (hR : ∀ k < nt, (P p0).R (temp (t k)) = R0) (hC : ∀ k < nt, ∀ i, (P p0).C i (temp (t k)) = B i * (P p0).g i (temp (t k)))
    (h0 : (0 ≤ Y 0 1 ∧ Y 0 1 ≤ R0) ∧ ∀ i : Fin nk, |Y 0 (Fin.natAdd 1 i).succ| ≤ B i) :
    (∀ k, k + 1 < nt → IsUnit (1 - (t (k + 1) - t k) • (stressOut (P p0).model (stress (t (k + 1))) (temp (t (k + 1))) (t (k + 1)) (Y (k + 1)) 0).2).det) ∧
    ∀ k < nt, ∃ A : (Fin p → ℝ) →L[ℝ] (Fin (1 + nk + 1) → ℝ),
      HasFDerivAt (fun q => strainRates (P q).E (P q).flowRule (srate (t k)) (stress (t k)) (temp (t k)) (t k) (Y k)) A p0 ∧
      HasStrictFDerivAt (fun x : (Fin p → ℝ) × (Fin (1 + nk + 1) → ℝ) => strainRates (P x.1).E (P x.1).flowRule (srate (t k)) (stress (t k)) (temp (t k)) (t k) x.2)
        (A.coprod (matCLM (stressOut (P p0).model (stress (t k)) (temp (t k)) (t k) (Y k) 0).2)) (p0, Y k) := by
  have hst : ∀ k, k < nt → VCState (P p0).R (P p0).C (P p0).g (temp (t k)) (Y k) := fun k hk =>
    stress_states (β := Unit) (P p0) (fun _ => srate) (fun _ => stress) (fun _ => temp) nt (fun k _ => t k) (fun k _ hk => ht k hk) (fun k _ => Y k) (fun k _ hk => hY k hk) (fun k _ hk => hP k hk) R0 B
      (fun k _ hk => hR k hk) (fun k _ hk => hC k hk) (fun _ => h0) k () hk
  refine ⟨fun k hk => ?_, fun k hk => ?_⟩
  · exact (vc_stress_at P p0 (srate (t (k + 1))) _ _ _ _ (hP _ hk) (hd _ hk) (hE _ hk) (hst _ hk)).1 _ (by have := ht k hk; linarith)
  · exact (vc_stress_at P p0 _ _ _ _ _ (hP k hk) (hd k hk) (hE k hk) (hst k hk)).2

/-- **C113.** A batch with tests of both kinds of control, test by test. -/
theorem C113_lanes (d : Chunktime.Direct) (P : β → (Fin p → ℝ) → VCParams nk) (p0 : Fin p → ℝ) (nt : ℕ) (times data temps : ℕ → β → ℝ) (label : β → ℝ) (hnt : 1 < nt)
    (hg : ∀ b, StrictGrid (nt - 1) fun k => times k b) (hP : ∀ k b, k < nt → (P b p0).Smooth (temps k b)) (hd : ∀ k b, k < nt → VCParams.DiffAt (P b) p0 (temps k b))
    (hE : ∀ k b, k < nt → (P b p0).E (temps k b) ≠ 0) (R0 : β → ℝ) (B : β → Fin nk → ℝ) (hR : ∀ k b, k < nt → (P b p0).R (temps k b) = R0 b)
    (hC : ∀ k b, k < nt → ∀ i, (P b p0).C i (temps k b) = B b i * (P b p0).g i (temps k b)) (rate base T : β → ℝ → ℝ)
    (hrate : rate = fun b => rateFn nt (fun k => times k b) fun k => data k b) (hbase : base = fun b => dataFn nt (fun k => times k b) fun k => data k b)
    (hT : T = fun b => dataFn nt (fun k => times k b) fun k => temps k b)
    (Y : ℕ → β → Fin (1 + nk + 1) → ℝ) (h0 : ∀ b, (0 ≤ Y 0 b 1 ∧ Y 0 b 1 ≤ R0 b) ∧ ∀ i : Fin nk, |Y 0 b (Fin.natAdd 1 i).succ| ≤ B b i)
    (hY : IsBackwardEuler (fun b t y => mixedRates (P b p0).E (P b p0).flowRule (label b) (rate b t) (base b t) (T b t) t y) nt times Y)
    (fp : β → ℝ → (Fin (1 + nk + 1) → ℝ) → Matrix (Fin (1 + nk + 1)) (Fin p) ℝ)
    (hfp : fp = fun b t y => LinearMap.toMatrix' (fderiv ℝ (fun q => mixedRates (P b q).E (P b q).flowRule (label b) (rate b t) (base b t) (T b t) t y) p0).toLinearMap)
    (g : ℕ → β → Fin (1 + nk + 1) → ℝ) (blockSize : ℤ) (hn : 0 < blockSize) :
    (∀ k < nt, ∀ b, DifferentiableAt ℝ (fun q => mixedRates (P b q).E (P b q).flowRule (label b) (rate b (times k b)) (base b (times k b)) (T b (times k b)) (times k b) (Y k b)) p0) ∧
    ∃ grad lam, rewind .backwardEuler d (fun b t y => (mixedRates (P b p0).E (P b p0).flowRule (label b) (rate b t) (base b t) (T b t) t y,
        mixedJac (P b p0).E (P b p0).flowRule (label b) (rate b t) (base b t) (T b t) t y)) fp nt times Y g blockSize = .ok (grad, lam) ∧
      IsGradient (fun q b t y => mixedRates (P b q).E (P b q).flowRule (label b) (rate b t) (base b t) (T b t) t y) nt times Y p0 g grad lam := by
  have ht : ∀ k b, k + 1 < nt → times k b ≤ times (k + 1) b := fun k b hk => (hg b k (by omega)).le
  have hTT : ∀ k b, k < nt → T b (times k b) = temps k b := fun k b hk => by rw [hT]; exact dataFn_grid (hg b) (fun k => temps k b) hk hnt
  have hP' : ∀ b, ∀ k < nt, (P b p0).Smooth (T b (times k b)) := fun b k hk => by rw [hTT k b hk]; exact hP k b hk
  have hd' : ∀ b, ∀ k < nt, VCParams.DiffAt (P b) p0 (T b (times k b)) := fun b k hk => by rw [hTT k b hk]; exact hd k b hk
  have hE' : ∀ b, ∀ k < nt, (P b p0).E (T b (times k b)) ≠ 0 := fun b k hk => by rw [hTT k b hk]; exact hE k b hk
  have hR' : ∀ b, ∀ k < nt, (P b p0).R (T b (times k b)) = R0 b := fun b k hk => by rw [hTT k b hk]; exact hR k b hk
  have hC' : ∀ b, ∀ k < nt, ∀ i, (P b p0).C i (T b (times k b)) = B b i * (P b p0).g i (T b (times k b)) := fun b k hk => by rw [hTT k b hk]; exact hC k b hk
  have key : ∀ b, (∀ k, k + 1 < nt → IsUnit (1 - (times (k + 1) b - times k b) •
        mixedJac (P b p0).E (P b p0).flowRule (label b) (rate b (times (k + 1) b)) (base b (times (k + 1) b)) (T b (times (k + 1) b)) (times (k + 1) b) (Y (k + 1) b)).det) ∧
      ∀ k < nt, ∃ A : (Fin p → ℝ) →L[ℝ] (Fin (1 + nk + 1) → ℝ),
        HasFDerivAt (fun q => mixedRates (P b q).E (P b q).flowRule (label b) (rate b (times k b)) (base b (times k b)) (T b (times k b)) (times k b) (Y k b)) A p0 ∧
        HasStrictFDerivAt (fun x : (Fin p → ℝ) × (Fin (1 + nk + 1) → ℝ) =>
            mixedRates (P b x.1).E (P b x.1).flowRule (label b) (rate b (times k b)) (base b (times k b)) (T b (times k b)) (times k b) x.2)
          (A.coprod (matCLM (mixedJac (P b p0).E (P b p0).flowRule (label b) (rate b (times k b)) (base b (times k b)) (T b (times k b)) (times k b) (Y k b)))) (p0, Y k b) := by
    intro b
    by_cases h1 : label b = 1
    · simp only [mixedRates, mixedJac, if_pos h1]
      exact vc_stress_lane (P b) p0 (rate b) (base b) (T b) nt (fun k => times k b) (fun k hk => ht k b hk) (fun k => Y k b)
        (fun k hk => by have := hY k b hk; simp only [mixedRates, if_pos h1] at this; exact this) (hP' b) (hd' b) (hE' b) (R0 b) (B b) (hR' b) (hC' b) (h0 b)
    · by_cases h2 : label b = 0
      · simp only [mixedRates, mixedJac, if_neg h1, if_pos h2]
        exact vc_strain_lane (P b) p0 (rate b) (T b) nt (fun k => times k b) (fun k hk => ht k b hk) (fun k => Y k b)
          (fun k hk => by have := hY k b hk; simp only [mixedRates, if_neg h1, if_pos h2] at this; exact this) (hP' b) (hd' b) (R0 b) (B b) (hR' b) (hC' b) (h0 b)
      · simp only [mixedRates, mixedJac, if_neg h1, if_neg h2]
        refine ⟨fun k hk => by simp, fun k hk => ⟨0, hasFDerivAt_const _ _, ?_⟩⟩
        refine (hasStrictFDerivAt_const (0 : Fin (1 + nk + 1) → ℝ) (p0, Y k b)).congr_fderiv (ContinuousLinearMap.ext fun v => ?_)
        simp [Ode.matCLM_apply]
  refine ⟨fun k hk b => ?_, ?_⟩
  · obtain ⟨A, hA, -⟩ := (key b).2 k hk
    exact hA.differentiableAt
  obtain ⟨y, h1, h2, h3, h4, grad, lam, h5, h6⟩ := C83_backward d (fun q b t y => mixedRates (P b q).E (P b q).flowRule (label b) (rate b t) (base b t) (T b t) t y)
    (fun b t y => mixedJac (P b p0).E (P b p0).flowRule (label b) (rate b t) (base b t) (T b t) t y) fp nt (by omega) times Y p0 blockSize hn g hY (fun k hk b => (key b).1 k hk)
    (fun k hk b => by
      obtain ⟨A, hA, hS⟩ := (key b).2 k hk
      rw [hfp]
      beta_reduce
      rw [hA.fderiv, matCLM_surj]
      exact hS)
  exact ⟨grad, lam, h5, y, h1, h2, h3, h4, h6⟩

section updates

/-- The updates `StressBasedModel.forward` makes of the strain rates of a call with `q` times of all tests. -/
noncomputable def callUpdates {β : Type*} {m : ℕ} (model : β → Model (m + 1)) (rate base T : β → ℝ → ℝ) (q : ℕ) (t : Fin q → β → ℝ) (y : Fin q → β → Fin (m + 1) → ℝ) : ℕ :=
  (stressSolve (β := Fin q × β) (fun x => model x.2) (fun x => rate x.2 (t x.1 x.2)) (fun x => base x.2 (t x.1 x.2)) (fun x => T x.2 (t x.1 x.2)) (fun x => t x.1 x.2) (fun x => y x.1 x.2)).iters

variable {β P : Type*} {m : ℕ}

/-- One entry of the batch whose residual at zero strain rate exceeds the absolute tolerance is enough for an update. -/
theorem one_update (model : β → Model (m + 1)) (csr cs cT t : β → ℝ) (y : β → Fin (m + 1) → ℝ) (b : β) (h : 1e-10 < |(model b (t b) (imposed (cs b) (y b)) 0 (cT b)).ydot 0 - csr b|) :
    (stressSolve model csr cs cT t y).iters ≠ 0 := by
  intro h0
  obtain ⟨h1, h2, -, h4⟩ := C66_returns_first_iterate (stressRJ model csr cs cT t y) jacobiLinearSolve (fun x dx => x - dx) (fun r b => rowNorm (r b)) 0 1e-6 1e-10 100
  have hR : rowNorm ((stressRJ model csr cs cT t y 0).1 b) = |(model b (t b) (imposed (cs b) (y b)) 0 (cT b)).ydot 0 - csr b| := by
    rw [rowNorm_one]; rfl
  have h0' : (newtonRaphson (stressRJ model csr cs cT t y) jacobiLinearSolve (fun x dx => x - dx) (fun r b => some (rowNorm (r b))) 0 1e-6 1e-10 (100 : ℕ)).iters = 0 := h0
  rw [h0'] at h2
  have hnot : ¬ MetTolerance (fun b => rowNorm ((stressRJ model csr cs cT t y 0).1 b)) (fun b => rowNorm ((stressRJ model csr cs cT t y 0).1 b)) 1e-6 1e-10 := by
    rintro (hm | hm)
    · have := hm b
      beta_reduce at this
      rw [hR] at this
      linarith
    · have := hm b
      beta_reduce at this
      rw [hR] at this
      norm_num at this h
      linarith
  have hw : (newtonRaphson (stressRJ model csr cs cT t y) jacobiLinearSolve (fun x dx => x - dx) (fun r b => some (rowNorm (r b))) 0 1e-6 1e-10 (100 : ℕ)).warned = false := by
    simp only [newtonRaphson] at h0' ⊢
    rw [h0']
    norm_num
  have hmet := (C66_no_warning_meets_tolerance (stressRJ model csr cs cT t y) jacobiLinearSolve (fun x dx => x - dx) (fun r b => rowNorm (r b)) 0 1e-6 1e-10 (100 : ℕ)).2 (by norm_num) hw
  rw [h2] at hmet
  exact hnot hmet

/-- **C113.** What is differentiated is what was computed: the recorded rates, with the call's number of updates, have at the parameters of the run the values `BothBasedModel.forward` returned. -/
theorem C113_recorded (model : β → P → Model (m + 1)) (p : P) (nt : ℕ) (times data temps : ℕ → β → ℝ) (control : β → ℝ) (q : ℕ) (t : Fin q → β → ℝ) (y : Fin q → β → Fin (m + 1) → ℝ)
    (rate base T : β → ℝ → ℝ) (hrate : rate = fun b => rateFn nt (fun k => times k b) fun k => data k b) (hbase : base = fun b => dataFn nt (fun k => times k b) fun k => data k b)
    (hT : T = fun b => dataFn nt (fun k => times k b) fun k => temps k b) (k : Fin q) (b : β) :
    (bothFunc (fun b => model b p) nt times data temps control q t y).1 k b =
      recordedBoth (model b) (control b) (rate b (t k b)) (base b (t k b)) (T b (t k b)) (t k b) (y k b) (callUpdates (fun b => model b p) rate base T q t y) p := by
  subst hrate hbase hT
  obtain ⟨h0, h1, h2⟩ := C27_selection (β := Fin q × β) (fun x => model x.2 p) (fun x => rateFn nt (fun k => times k x.2) fun k => data k x.2)
    (fun x => dataFn nt (fun k => times k x.2) fun k => data k x.2) (fun x => dataFn nt (fun k => times k x.2) fun k => temps k x.2) (fun x => control x.2) (fun x => t x.1 x.2)
    (fun x => y x.1 x.2) (k, b)
  unfold recordedBoth
  by_cases e1 : control b = 1
  · rw [if_pos e1]
    exact (h1 e1).1.trans (C105_recorded (β := Fin q × β) (fun x => model x.2) _ _ _ _ _ p (k, b))
  · rw [if_neg e1]
    by_cases e0 : control b = 0
    · rw [if_pos e0]
      exact (h0 e0).1
    · rw [if_neg e0]
      exact (h2 e0 e1).1

/-- the Jacobians of a call -/
theorem both_jac (Pr : β → VCParams nk) (nt : ℕ) (times data temps : ℕ → β → ℝ) (control : β → ℝ) (q : ℕ) (t : Fin q → β → ℝ) (y : Fin q → β → Fin (1 + nk + 1) → ℝ)
    (rate base T : β → ℝ → ℝ) (hrate : rate = fun b => rateFn nt (fun k => times k b) fun k => data k b) (hbase : base = fun b => dataFn nt (fun k => times k b) fun k => data k b)
    (hT : T = fun b => dataFn nt (fun k => times k b) fun k => temps k b) (k : Fin q) (b : β) (hE : (Pr b).E (T b (t k b)) ≠ 0) :
    (bothFunc (fun b => (Pr b).model) nt times data temps control q t y).2 k b =
      mixedJac (Pr b).E (Pr b).flowRule (control b) (rate b (t k b)) (base b (t k b)) (T b (t k b)) (t k b) (y k b) := by
  subst hrate hbase hT
  obtain ⟨h0, h1, h2⟩ := C27_selection (β := Fin q × β) (fun x => (Pr x.2).model) (fun x => rateFn nt (fun k => times k x.2) fun k => data k x.2)
    (fun x => dataFn nt (fun k => times k x.2) fun k => data k x.2) (fun x => dataFn nt (fun k => times k x.2) fun k => temps k x.2) (fun x => control x.2) (fun x => t x.1 x.2)
    (fun x => y x.1 x.2) (k, b)
  unfold mixedJac
  by_cases e1 : control b = 1
  · rw [if_pos e1]
    refine (h1 e1).2.trans ?_
    refine (creepJac (Pr b).E (Pr b).flowRule _ _ _ _ _ hE (fun _ _ _ _ _ => rfl) (fun _ _ _ _ _ => rfl) (fun _ _ _ _ _ => rfl)).trans
      (creepJac (Pr b).E (Pr b).flowRule _ _ _ 0 _ hE (fun _ _ _ _ _ => rfl) (fun _ _ _ _ _ => rfl) (fun _ _ _ _ _ => rfl)).symm
  · rw [if_neg e1]
    by_cases e0 : control b = 0
    · rw [if_pos e0]
      exact (h0 e0).2
    · rw [if_neg e0]
      exact (h2 e0 e1).2

/-- the recorded rates are those meant, if there was an update or no test is stress controlled -/
theorem recordedBoth_eq (Pm : P → VCParams nk) (label rate base cT t : ℝ) (y : Fin (1 + nk + 1) → ℝ) (K : ℕ) (hK : label = 1 → K ≠ 0) (p : P) (hE : (Pm p).E cT ≠ 0) :
    recordedBoth (fun p => (Pm p).model) label rate base cT t y K p = mixedRates (Pm p).E (Pm p).flowRule label rate base cT t y := by
  unfold recordedBoth mixedRates
  by_cases e1 : label = 1
  · rw [if_pos e1, if_pos e1]
    refine (C105_inelastic (fun p => (Pm p).E) (fun p => (Pm p).flowRule) rate base cT t y K (fun _ _ _ _ _ _ => rfl) (fun _ _ _ _ _ _ => rfl) (fun _ _ _ _ _ _ => rfl) p hE).trans ?_
    rw [if_neg (hK e1)]
    rfl
  · rw [if_neg e1, if_neg e1]
    rfl

/-- In every step some test (of either control; the recorded data taken as stresses) needs a strain rate above the tolerance with which zero is accepted. -/
def Moving (E : β → ℝ → ℝ) (f : β → FlowRule n) (nt : ℕ) (times data temps : ℕ → β → ℝ) (Y : ℕ → β → Fin (n + 1) → ℝ) : Prop :=
  ∀ k, k + 1 < nt → ∃ b, 1e-10 < |E b (temps (k + 1) b) * (f b).flow (data (k + 1) b) (fun j => Y (k + 1) b j.succ) (times (k + 1) b) (temps (k + 1) b) 0 +
    (data (k + 1) b - data k b) / (times (k + 1) b - times k b)|

/-- a call with a row in which something moves updates the strain rates -/
theorem row_updates {E : β → ℝ → ℝ} {f : β → FlowRule n} {nt : ℕ} {times data temps : ℕ → β → ℝ} (hnt : 1 < nt)
    (hg : ∀ b, StrictGrid (nt - 1) fun k => times k b) (rate base T : β → ℝ → ℝ) (hrate : rate = fun b => rateFn nt (fun k => times k b) fun k => data k b)
    (hbase : base = fun b => dataFn nt (fun k => times k b) fun k => data k b) (hT : T = fun b => dataFn nt (fun k => times k b) fun k => temps k b) (q : ℕ) (t : Fin q → β → ℝ)
    (y : Fin q → β → Fin (n + 1) → ℝ) (i : Fin q) (k : ℕ) (hk : k + 1 < nt) (ht : t i = times (k + 1)) (b : β)
    (hb : 1e-10 < |E b (temps (k + 1) b) * (f b).flow (data (k + 1) b) (fun j => y i b j.succ) (times (k + 1) b) (temps (k + 1) b) 0 + (data (k + 1) b - data k b) / (times (k + 1) b - times k b)|) :
    callUpdates (fun b => inelastic (E b) (f b)) rate base T q t y ≠ 0 := by
  refine one_update (β := Fin q × β) _ _ _ _ _ _ (i, b) (lt_of_lt_of_eq hb ?_)
  subst hrate hbase hT
  dsimp only
  rw [ht, dataFn_grid (hg b) (fun k => temps k b) hk hnt, dataFn_grid (hg b) (fun k => data k b) hk hnt]
  have hr := rateFn_grid (hg b) (fun k => data k b) hk
  have hdt : 0 < times (k + 1) b - times k b := sub_pos.2 (hg b k (by omega))
  rw [← hr, mul_div_cancel_left₀ _ hdt.ne', ← abs_neg]
  congr 1
  simp only [inelastic, Fin.cons_zero]
  have hu : (fun j : Fin n => imposed (data (k + 1) b) (y i b) j.succ) = fun j => y i b j.succ := by
    funext j; rw [imposed, Function.update_of_ne (Fin.succ_ne_zero j)]
  rw [hu, show imposed (data (k + 1) b) (y i b) 0 = data (k + 1) b by simp [imposed]]
  ring

theorem moving_updates {E : β → ℝ → ℝ} {f : β → FlowRule n} {nt : ℕ} {times data temps : ℕ → β → ℝ} {Y : ℕ → β → Fin (n + 1) → ℝ} (h : Moving E f nt times data temps Y) (hnt : 1 < nt)
    (hg : ∀ b, StrictGrid (nt - 1) fun k => times k b) (rate base T : β → ℝ → ℝ) (hrate : rate = fun b => rateFn nt (fun k => times k b) fun k => data k b)
    (hbase : base = fun b => dataFn nt (fun k => times k b) fun k => data k b) (hT : T = fun b => dataFn nt (fun k => times k b) fun k => temps k b) (q : ℕ) (t : Fin q → β → ℝ)
    (y : Fin q → β → Fin (n + 1) → ℝ) (i : Fin q) (k : ℕ) (hk : k + 1 < nt) (ht : t i = times (k + 1)) (hy : y i = Y (k + 1)) :
    callUpdates (fun b => inelastic (E b) (f b)) rate base T q t y ≠ 0 := by
  obtain ⟨b, hb⟩ := h k hk
  exact row_updates hnt hg rate base T hrate hbase hT q t y i k hk ht b (by rw [hy]; exact hb)

/-- **C113.** `solve_both`, backward Euler with zero tolerances and no warning: the result is a backward Euler trajectory of the rates that are meant, exactly (there is no error from the strain rates' tolerance), as
long as something moves in every step or no test is stress controlled. -/
theorem C113_trajectory (c : Config) (hs : c.scheme = .backwardEuler) (hi : 0 ≤ c.miter) (hr : c.rtol = 0) (ha : c.atol = 0) (Pr : β → VCParams nk) (nt : ℕ) (hnt : 1 < nt) (times data temps : ℕ → β → ℝ)
    (control : β → ℝ) (hg : ∀ b, StrictGrid (nt - 1) fun k => times k b) (hE : ∀ k b, k < nt → (Pr b).E (temps k b) ≠ 0) (blk : ℤ) (hb : 0 < blk) (res : Ode.Partial β (1 + nk + 1))
    (h : solveBoth c (fun b => (Pr b).model) nt times temps data control blk = .ok (res, false))
    (hmov : (∃ b, control b = 1) → Moving (fun b => (Pr b).E) (fun b => (Pr b).flowRule) nt times data temps res.get)
    (rate base T : β → ℝ → ℝ) (hrate : rate = fun b => rateFn nt (fun k => times k b) fun k => data k b) (hbase : base = fun b => dataFn nt (fun k => times k b) fun k => data k b)
    (hT : T = fun b => dataFn nt (fun k => times k b) fun k => temps k b) :
    IsBackwardEuler (fun b t y => mixedRates (Pr b).E (Pr b).flowRule (control b) (rate b t) (base b t) (T b t) t y) nt times res.get := by
  intro k b hk
  obtain ⟨N, k0, j, rfl, hj, hN, hd⟩ := exact_defectB hi hr ha hb h k hk
  have hd := hd b
  rw [hs] at hd
  simp only [defectB, rowRate] at hd
  rw [dif_pos (by omega), C113_recorded (P := Unit) (fun b _ => (Pr b).model) () nt times data temps control _ _ _ rate base T hrate hbase hT] at hd
  have hTT : T b (times (k0 + (j + 1)) b) = temps (k0 + (j + 1)) b := by
    rw [hT]
    exact dataFn_grid (hg b) (fun k => temps k b) (by omega) hnt
  have hr := recordedBoth_eq (fun _ : Unit => Pr b) (control b) (rate b (times (k0 + (j + 1)) b)) (base b (times (k0 + (j + 1)) b)) (T b (times (k0 + (j + 1)) b)) (times (k0 + (j + 1)) b)
    (res.get (k0 + (j + 1)) b) (callUpdates (fun b => (Pr b).model) rate base T (N + 1) (fun i => times (k0 + i.val)) fun i => res.get (k0 + i.val))
    (fun e1 => moving_updates (hmov ⟨b, e1⟩) hnt hg rate base T hrate hbase hT _ _ _ ⟨j + 1, by omega⟩ (k0 + j) hk rfl rfl) ()
    (by rw [hTT]; exact hE _ b (by omega))
  have hd' := hd.symm.trans (congrArg (fun r => res.get (k0 + j + 1) b - res.get (k0 + j) b - (times (k0 + j + 1) b - times (k0 + j) b) • r) hr)
  rw [eq_comm, sub_sub, sub_eq_zero] at hd'
  exact hd'

/-- in an elastic state only the elastic strain changes, and the reported Jacobian is zero -/
theorem mixed_flat (Pr : VCParams nk) (hbb : Pr.bb = fun _ _ => 0) (label rate base T t : ℝ) (y : Fin (1 + nk + 1) → ℝ) (hn : 1 < Pr.n T) (heta : 0 < Pr.eta T) (hE : Pr.E T ≠ 0)
    (h0 : label = 0 → |y 0| ≤ Pr.s0 T) (h1 : label = 1 → |base| ≤ Pr.s0 T) (hj : ∀ j, j ≠ 0 → y j = 0) :
    mixedRates Pr.E Pr.flowRule label rate base T t y = Fin.cons (if label = 1 then rate / Pr.E T else if label = 0 then Pr.E T * rate else 0) 0 ∧
    mixedJac Pr.E Pr.flowRule label rate base T t y = 0 := by
  have hm : ∀ y : Fin (1 + nk + 1) → ℝ, |y 0| ≤ Pr.s0 T → (∀ j, j ≠ 0 → y j = 0) → ∀ e, (inelastic Pr.E Pr.flowRule t y e T).ydot = Fin.cons (Pr.E T * e) 0 ∧
      (inelastic Pr.E Pr.flowRule t y e T).J = 0 := by
    intro y hy hyj e
    have := elastic_flat Pr.E Pr.n Pr.eta Pr.s0 Pr.R Pr.d Pr.C Pr.g t e T hn heta y hy hyj
    rw [chaboche_eq_recovery _ _ Pr.r, ← hbb] at this
    exact this
  unfold mixedRates mixedJac
  by_cases e1 : label = 1
  · rw [if_pos e1, if_pos e1, if_pos e1]
    have hi : ∀ j, j ≠ 0 → imposed base y j = 0 := fun j hj' => by rw [imposed, Function.update_of_ne hj']; exact hj j hj'
    have hi0 : imposed base y 0 = base := by simp [imposed]
    have hu : (fun j : Fin (1 + nk) => imposed base y j.succ) = fun j => y j.succ := by
      funext j; rw [imposed, Function.update_of_ne (Fin.succ_ne_zero j)]
    obtain ⟨k1, k2⟩ := hm (imposed base y) (by rw [hi0]; exact h1 e1) hi 0
    have k0 := congrFun k1 0
    have kj := fun j : Fin (1 + nk) => congrFun k1 j.succ
    simp only [inelastic, Fin.cons_zero, Fin.cons_succ, hu, hi0, mul_zero] at k0 kj
    have hf : Pr.flowRule.flow base (fun j => y j.succ) t T 0 = 0 := by
      rcases mul_eq_zero.1 k0 with h | h
      · exact absurd h hE
      · linarith
    constructor
    · unfold strainRates
      rw [hf, add_zero]
      congr 1
      funext j
      exact kj j
    · unfold stressOut stressJac
      dsimp only
      rw [k2]
      funext i j
      simp
  · rw [if_neg e1, if_neg e1, if_neg e1]
    by_cases e0 : label = 0
    · rw [if_pos e0, if_pos e0, if_pos e0]
      exact hm y (h0 e0) hj rate
    · rw [if_neg e0, if_neg e0, if_neg e0]
      refine ⟨?_, rfl⟩
      funext i
      refine Fin.cases rfl (fun _ => rfl) i

/-- **C113.** Elastic tests are always solved, whatever the mixture of controls: the stress of the strain controlled tests and the strain of the stress controlled ones follow from Hooke's law; `solve_both`
(backward Euler, zero guess, at least two updates allowed) succeeds without a warning even with zero tolerances, for every block size and linear solver. -/
theorem C113_elastic_solved (c : Config) (hs : c.scheme = .backwardEuler) (hr : c.rtol = 0) (ha : c.atol = 0) (hm : 2 ≤ c.miter) (hgt : c.guessType = "zero") (Pr : β → VCParams nk)
    (hbb : ∀ b, (Pr b).bb = fun _ _ => 0) (nt : ℕ) (hnt : 1 < nt) (times data temps : ℕ → β → ℝ) (control : β → ℝ) (hg : ∀ b, StrictGrid (nt - 1) fun k => times k b)
    (hn : ∀ k b, k < nt → 1 < (Pr b).n (temps k b) ∧ 0 < (Pr b).eta (temps k b) ∧ (Pr b).E (temps k b) ≠ 0) (blk : ℤ) (hb : 0 < blk) (S : ℕ → β → ℝ)
    (hS : ∀ k b, S k b = ∑ j ∈ Finset.range k, (if control b = 1 then (data (j + 1) b - data j b) / (Pr b).E (temps (j + 1) b) else
      if control b = 0 then (Pr b).E (temps (j + 1) b) * (data (j + 1) b - data j b) else 0))
    (hel : ∀ j k b, j < nt → k < nt → (control b = 0 → |S j b| ≤ (Pr b).s0 (temps k b)) ∧ (control b = 1 → |data k b| ≤ (Pr b).s0 (temps k b)))
    (hmov : (∃ b, control b = 1) → ∀ k, k + 1 < nt → ∃ b, |data (k + 1) b| ≤ (Pr b).s0 (temps (k + 1) b) ∧ 1e-10 < |(data (k + 1) b - data k b) / (times (k + 1) b - times k b)|) :
    ∃ res, solveBoth c (fun b => (Pr b).model) nt times temps data control blk = .ok (res, false) ∧ ∀ k b, k < nt → res.get k b 0 = S k b ∧ ∀ j, j ≠ 0 → res.get k b j = 0 := by
  let rate : β → ℝ → ℝ := fun b => rateFn nt (fun k => times k b) fun k => data k b
  let base : β → ℝ → ℝ := fun b => dataFn nt (fun k => times k b) fun k => data k b
  let T : β → ℝ → ℝ := fun b => dataFn nt (fun k => times k b) fun k => temps k b
  have hTT : ∀ k b, k < nt → T b (times k b) = temps k b := fun k b hk => dataFn_grid (hg b) (fun k => temps k b) hk hnt
  have hBB : ∀ k b, k < nt → base b (times k b) = data k b := fun k b hk => dataFn_grid (hg b) (fun k => data k b) hk hnt
  obtain ⟨res, h1, h2⟩ := integrate_flatB c hs hr ha hm hgt (bothFunc (fun b => (Pr b).model) nt times data temps control) nt (by omega) blk hb times
    (fun b => {y | (control b = 0 → ∀ k, k < nt → |y 0| ≤ (Pr b).s0 (temps k b)) ∧ ∀ j, j ≠ 0 → y j = 0})
    (fun k b => Fin.cons (if control b = 1 then rate b (times k b) / (Pr b).E (temps k b) else if control b = 0 then (Pr b).E (temps k b) * rate b (times k b) else 0) 0)
    (by
      intro k N y hN hk hy
      have hflat : ∀ (i : Fin (N + 1)) (b : β), mixedRates (Pr b).E (Pr b).flowRule (control b) (rate b (times (k + i.val) b)) (base b (times (k + i.val) b)) (T b (times (k + i.val) b)) (times (k + i.val) b) (y i b) = _ ∧
          mixedJac (Pr b).E (Pr b).flowRule (control b) (rate b (times (k + i.val) b)) (base b (times (k + i.val) b)) (T b (times (k + i.val) b)) (times (k + i.val) b) (y i b) = 0 := fun i b => by
        have hki : k + i.val < nt := by have := i.2; omega
        rw [hTT _ b hki, hBB _ b hki]
        exact mixed_flat (Pr b) (hbb b) (control b) (rate b (times (k + i.val) b)) (data (k + i.val) b) (temps (k + i.val) b) (times (k + i.val) b) (y i b) (hn _ b hki).1 (hn _ b hki).2.1 (hn _ b hki).2.2
          (fun e => (hy i b).1 e _ hki) (fun e => (hel _ _ b hki hki).2 e) (hy i b).2
      refine Prod.ext ?_ ?_
      · funext i b
        have hki : k + i.val < nt := by have := i.2; omega
        refine (C113_recorded (P := Unit) (fun b _ => (Pr b).model) () nt times data temps control (N + 1) _ y rate base T rfl rfl rfl i b).trans ?_
        rw [recordedBoth_eq (fun _ => Pr b) _ _ _ _ _ _ _ _ () (by rw [hTT _ b hki]; exact (hn _ b hki).2.2)]
        · exact (hflat i b).1
        · intro e1
          obtain ⟨b', hb1, hb2⟩ := hmov ⟨b, e1⟩ (k + N - 1) (by omega)
          have hkN : k + N - 1 + 1 = k + N := by omega
          rw [hkN] at hb1 hb2
          have hflow : (Pr b').flowRule.flow (data (k + N) b') (fun j => y (Fin.last N) b' j.succ) (times (k + N) b') (temps (k + N) b') 0 = 0 := by
            have h' := congrFun (mixed_flat (Pr b') (hbb b') 1 0 (data (k + N) b') (temps (k + N) b') (times (k + N) b') (y (Fin.last N) b') (hn _ b' hk).1 (hn _ b' hk).2.1 (hn _ b' hk).2.2
              (fun e => absurd e one_ne_zero) (fun _ => hb1) (hy (Fin.last N) b').2).1 0
            simpa [mixedRates, strainRates] using h'
          refine row_updates (E := fun b => (Pr b).E) (f := fun b => (Pr b).flowRule) (temps := temps) hnt hg rate base T rfl rfl rfl _ _ _ (Fin.last N) (k + N - 1) (by omega) ?_ b' ?_
          · rw [hkN]
            rfl
          · rw [hkN, hflow, mul_zero, zero_add]
            exact hb2
      · funext i b
        have hki : k + i.val < nt := by have := i.2; omega
        refine (both_jac Pr nt times data temps control (N + 1) _ y rate base T rfl rfl rfl i b ?_).trans (hflat i b).2
        change (Pr b).E (T b (times (k + i.val) b)) ≠ 0
        rw [hTT _ b hki]
        exact (hn _ b hki).2.2)
    (fun k b => Fin.cons (S k b) 0)
    (by
      intro k b hk
      refine ⟨fun e i hi => by simpa using (hel k i b hk hi).1 e, fun j hj => ?_⟩
      obtain ⟨j, rfl⟩ := Fin.exists_succ_eq.2 hj
      simp)
    (by
      intro k b hk
      funext i
      refine Fin.cases ?_ (fun i => ?_) i
      · simp only [Fin.cons_zero, Pi.add_apply, Pi.smul_apply, smul_eq_mul]
        rw [hS, hS, Finset.sum_range_succ]
        have := rateFn_grid (hg b) (fun k => data k b) hk
        beta_reduce at this
        rw [← this]
        split_ifs <;> ring
      · simp)
  refine ⟨res, ?_, fun k b hk => ?_⟩
  · unfold solveBoth
    have h0 : (0 : β → Fin (1 + nk + 1) → ℝ) = fun b => Fin.cons (S 0 b) 0 := by
      funext b i
      refine Fin.cases ?_ (fun i => ?_) i
      · simp [hS]
      · simp
    rw [h0]; exact h1
  · rw [h2 k hk]
    refine ⟨rfl, fun j hj => ?_⟩
    obtain ⟨j, rfl⟩ := Fin.exists_succ_eq.2 hj
    rfl

end updates

section tensors

variable {D : Set ℝ} {times data temps control : Tensor} {M : Tensor → Tensor → Tensor → Tensor → Except String TOut}

/-- What `torch.autograd.grad` returns in the adjoint pass of a mixed batch: it goes backwards through the recorded operations of the call, including the updates of the strain rates that were made. Whatever the
derivatives `A` of the recorded rates are, the result is the product of `a` with them, summed over times and tests. -/
def RecordedVjp (nb nt : ℕ) (model : Fin nb → (Fin p → ℝ) → Model (m + 1)) (p0 : Fin p → ℝ) (rate base T : Fin nb → ℝ → ℝ) (label : Fin nb → ℝ) (times : ℕ → Fin nb → ℝ)
    (Y : ℕ → Fin nb → Fin (m + 1) → ℝ) (vjp : Tensor → Tensor → Tensor → Except String (Fin p → ℝ)) : Prop :=
  ∀ (q : ℕ) (t y a : Tensor), CallOn nb (m + 1) (StepRow .backwardEuler nt) times Y q t y → a.shape = [m + 1, nb, q] → ∀ A : Fin q → Fin nb → Matrix (Fin (m + 1)) (Fin p) ℝ,
    (∀ k b, HasFDerivAt (recordedBoth (model b) (label b) (rate b (timesOf nb q t k b)) (base b (timesOf nb q t k b)) (T b (timesOf nb q t k b)) (timesOf nb q t k b) (rowsOf nb (m + 1) q y k b)
      (callUpdates (fun b => model b p0) rate base T q (timesOf nb q t) (rowsOf nb (m + 1) q y))) (matCLM (A k b)) p0) →
    vjp t y a = .ok (∑ k, ∑ b, Matrix.vecMul (rowsOf nb (m + 1) q a k b) (A k b))

/-- The adjoint pass of a mixed batch on tensors returns what it returns test by test with the rates that are meant. -/
theorem both_rewind (P : ℕ → (Fin p → ℝ) → VCParams nk) (p0 : Fin p → ℝ) (hM : ∀ q, ModelIs [nb, q] D M fun i => (P (i.headD 0) p0).model) (h : Tests nb nt D times data temps)
    (hcontrol : control.shape = [nb]) (q' : ℤ) {Y G : Tensor} (h1 : Y.shape = [1 + nk + 1, nb, nt]) (hG : G.shape = [1 + nk + 1, nb, nt])
    (hd : ∀ k < nt, ∀ b < nb, VCParams.DiffAt (P b) p0 (temps.data [b, k])) (hE : ∀ k < nt, ∀ b < nb, (P b p0).E (temps.data [b, k]) ≠ 0)
    (hmov' : (∃ b : Fin nb, control.data [b.val] = 1) → Moving (fun b : Fin nb => (P b.val p0).E) (fun b => (P b.val p0).flowRule) nt (fun k (b : Fin nb) => times.data [b.val, k]) (fun k b => data.data [b.val, k])
      (fun k b => temps.data [b.val, k]) (statesOf nb (1 + nk + 1) Y))
    (d : Chunktime.Direct) {vjp : Tensor → Tensor → Tensor → Except String (Fin p → ℝ)} (rate base T : Fin nb → ℝ → ℝ)
    (hrate : rate = fun b => rateFn nt (fun k => times.data [b.val, k]) fun k => data.data [b.val, k]) (hbase : base = fun b => dataFn nt (fun k => times.data [b.val, k]) fun k => data.data [b.val, k])
    (hT : T = fun b => dataFn nt (fun k => times.data [b.val, k]) fun k => temps.data [b.val, k])
    (hV : RecordedVjp nb nt (fun b q => (P b.val q).model) p0 rate base T (fun b => control.data [b.val]) (fun k b => times.data [b.val, k]) (statesOf nb (1 + nk + 1) Y) vjp)
    (hdiff : ∀ k < nt, ∀ b : Fin nb, DifferentiableAt ℝ (fun q => mixedRates (P b.val q).E (P b.val q).flowRule (control.data [b.val]) (rate b (times.data [b.val, k])) (base b (times.data [b.val, k]))
      (T b (times.data [b.val, k])) (times.data [b.val, k]) (statesOf nb (1 + nk + 1) Y k b)) p0) (grad : Fin p → ℝ) (lam : Fin nb → Fin (1 + nk + 1) → ℝ)
    (e1 : rewind .backwardEuler d (fun b t y => (mixedRates (P b.val p0).E (P b.val p0).flowRule (control.data [b.val]) (rate b t) (base b t) (T b t) t y,
        mixedJac (P b.val p0).E (P b.val p0).flowRule (control.data [b.val]) (rate b t) (base b t) (T b t) t y)) (fun b t y =>
      LinearMap.toMatrix' (fderiv ℝ (fun q => mixedRates (P b.val q).E (P b.val q).flowRule (control.data [b.val]) (rate b t) (base b t) (T b t) t y) p0).toLinearMap) nt (fun k b => times.data [b.val, k])
      (statesOf nb (1 + nk + 1) Y) (statesOf nb (1 + nk + 1) G) q' = .ok (grad, lam)) :
    ∃ L : Tensor, tRewind .backwardEuler d (tBothFunc M times temps data control) vjp times Y G q' = .ok (grad, L) ∧ L.shape = [1 + nk + 1, nb] ∧
      (fun (b : Fin nb) (j : Fin (1 + nk + 1)) => L.data [j.val, b.val]) = lam := by
  have htwo := h.two
  have hnt : 1 < nt := by omega
  have hg : ∀ b : Fin nb, StrictGrid (nt - 1) fun k => times.data [b.val, k] := fun b => h.increasing b b.isLt
  have hTT : ∀ (k : ℕ) (b : Fin nb), k < nt → T b (times.data [b.val, k]) = temps.data [b.val, k] := fun k b hk => by
    rw [hT]; exact dataFn_grid (hg b) (fun k => temps.data [b.val, k]) hk hnt
  have hF : JacOn nb (1 + nk + 1) (· < nt) (fun k b => times.data [b.val, k]) (statesOf nb (1 + nk + 1) Y) (tBothFunc M times temps data control) fun b t y =>
      mixedJac (P b.val p0).E (P b.val p0).flowRule (control.data [b.val]) (rate b t) (base b t) (T b t) t y := by
    intro q t y hc
    obtain ⟨R, J, f1, -, f3, f4⟩ := C103_both (L := fun b => (P b p0).model) hcontrol (hM q) (h.run hc.times_shape hc.states_shape fun k b => by
      obtain ⟨j, hj, f, -⟩ := hc.rows k
      rw [f]
      exact h.grid j b hj)
    refine ⟨R, J, f1, f3, ?_⟩
    funext k b
    obtain ⟨j, hj, g1, -⟩ := hc.rows k
    have hEb : (P b.val p0).E (T b (timesOf nb q t k b)) ≠ 0 := by
      rw [g1, hTT j b hj]
      exact hE j hj b b.isLt
    refine Eq.trans ?_ (both_jac (fun b : Fin nb => P b.val p0) nt (fun k (b : Fin nb) => times.data [b.val, k]) (fun k b => data.data [b.val, k]) (fun k b => temps.data [b.val, k]) (fun b => control.data [b.val]) q (timesOf nb q t)
      (rowsOf nb (1 + nk + 1) q y) rate base T hrate hbase hT k b hEb)
    funext r c
    exact (f4 k b).2 r c
  have hVo : VjpOn nb (1 + nk + 1) (StepRow .backwardEuler nt) (fun k b => times.data [b.val, k]) (statesOf nb (1 + nk + 1) Y) vjp fun b t y =>
      LinearMap.toMatrix' (fderiv ℝ (fun q => mixedRates (P b.val q).E (P b.val q).flowRule (control.data [b.val]) (rate b t) (base b t) (T b t) t y) p0).toLinearMap := by
    intro q t y a hc hsa
    refine hV q t y a hc hsa _ fun k b => ?_
    rw [matCLM_surj]
    obtain ⟨j, hj, g1, g2⟩ := hc.rows k
    have hdj := hdiff j hj.2 b
    have hTj := hTT j b hj.2
    rw [g1, g2]
    refine hdj.hasFDerivAt.congr_of_eventuallyEq ?_
    have hEc : ContinuousAt (fun q => (P b.val q).E (temps.data [b.val, j])) p0 := (hd j hj.2 b b.isLt).E.continuousAt
    filter_upwards [hEc.eventually_ne (hE j hj.2 b b.isLt)] with q hqE
    refine recordedBoth_eq (P b.val) _ _ _ _ _ _ _ (fun e1 => ?_) q (by rw [hTj]; exact hqE)
    obtain ⟨i, rfl⟩ : ∃ i, j = i + 1 := ⟨j - 1, by have := hj.1; omega⟩
    exact moving_updates (hmov' ⟨b, e1⟩) hnt hg rate base T hrate hbase hT _ _ _ k i hj.2 g1 g2
  obtain ⟨L, f1, f2, f3⟩ := (rewind_on .backwardEuler d (by omega) h.times_shape h1 hG hF hVo q').2 grad lam e1
  refine ⟨L, f1, f2, ?_⟩
  funext b j
  exact f3 b j

/-- **C113.** A batch with any mixture of strain and stress controlled tests (and other labels) of the material with power law flow, Voce hardening, any number of Chaboche backstresses and static recovery is
simulated with `solve_both`, and `rewind` is called with the gradient `G` of the loss with respect to the results, everything as torch programs. Backward Euler with zero tolerances, meaningful parameters as in C107,
nonzero moduli; if there are stress controlled tests, something moves in every step. Then `rewind` returns, for every direct solver and block size, the exact gradient with respect to the parameters and
initial states, although autograd has gone through the iterations for the strain rates; no step of the adjoint pass is singular. -/
theorem C113_both (hnb : 0 < nb) (P : ℕ → (Fin p → ℝ) → VCParams nk) (p0 : Fin p → ℝ) (hM : ∀ q, ModelIs [nb, q] D M fun i => (P (i.headD 0) p0).model) (h : Tests nb nt D times data temps)
    (hcontrol : control.shape = [nb]) (c : Config)
    (hs : c.scheme = .backwardEuler) (hi : 0 ≤ c.miter) (hr : c.rtol = 0) (ha : c.atol = 0) (garbage : List ℕ → ℝ) (q q' : ℤ) (hq : 0 < q) (hq' : 0 < q') {Y G : Tensor}
    (hY : tSolveBoth c M (1 + nk + 1) garbage times temps data control q = .ok (Y, false)) (hG : G.shape = [1 + nk + 1, nb, nt])
    (hP : ∀ k < nt, ∀ b < nb, (P b p0).Smooth (temps.data [b, k])) (hd : ∀ k < nt, ∀ b < nb, VCParams.DiffAt (P b) p0 (temps.data [b, k])) (hE : ∀ k < nt, ∀ b < nb, (P b p0).E (temps.data [b, k]) ≠ 0)
    (R0 : ℕ → ℝ) (B : ℕ → Fin nk → ℝ) (hR0 : ∀ b < nb, 0 ≤ R0 b) (hB0 : ∀ b < nb, ∀ i, 0 ≤ B b i) (hR : ∀ k < nt, ∀ b < nb, (P b p0).R (temps.data [b, k]) = R0 b)
    (hC : ∀ k < nt, ∀ b < nb, ∀ i, (P b p0).C i (temps.data [b, k]) = B b i * (P b p0).g i (temps.data [b, k]))
    (hmov : (∃ b < nb, control.data [b] = 1) → Moving (fun b : Fin nb => (P b.val p0).E) (fun b => (P b.val p0).flowRule) nt (fun k (b : Fin nb) => times.data [b.val, k]) (fun k b => data.data [b.val, k]) (fun k b => temps.data [b.val, k])
      (statesOf nb (1 + nk + 1) Y))
    (d : Chunktime.Direct) {vjp : Tensor → Tensor → Tensor → Except String (Fin p → ℝ)} (rate base T : Fin nb → ℝ → ℝ)
    (hrate : rate = fun b => rateFn nt (fun k => times.data [b.val, k]) fun k => data.data [b.val, k]) (hbase : base = fun b => dataFn nt (fun k => times.data [b.val, k]) fun k => data.data [b.val, k])
    (hT : T = fun b => dataFn nt (fun k => times.data [b.val, k]) fun k => temps.data [b.val, k])
    (hV : RecordedVjp nb nt (fun b q => (P b.val q).model) p0 rate base T (fun b => control.data [b.val]) (fun k b => times.data [b.val, k]) (statesOf nb (1 + nk + 1) Y) vjp) :
    ∃ (grad : Fin p → ℝ) (L : Tensor), tRewind .backwardEuler d (tBothFunc M times temps data control) vjp times Y G q' = .ok (grad, L) ∧ L.shape = [1 + nk + 1, nb] ∧
      IsGradient (fun q b t y => mixedRates (P b.val q).E (P b.val q).flowRule (control.data [b.val]) (rate b t) (base b t) (T b t) t y) nt (fun k b => times.data [b.val, k]) (statesOf nb (1 + nk + 1) Y) p0
        (statesOf nb (1 + nk + 1) G) grad fun b j => L.data [j.val, b.val] := by
  have htwo := h.two
  have hnt : 1 < nt := by omega
  have hg : ∀ b : Fin nb, StrictGrid (nt - 1) fun k => times.data [b.val, k] := fun b => h.increasing b b.isLt
  have hmov' : (∃ b : Fin nb, control.data [b.val] = 1) → Moving (fun b : Fin nb => (P b.val p0).E) (fun b => (P b.val p0).flowRule) nt (fun k (b : Fin nb) => times.data [b.val, k]) (fun k b => data.data [b.val, k]) (fun k b => temps.data [b.val, k])
      (statesOf nb (1 + nk + 1) Y) := fun ⟨b, hb⟩ => hmov ⟨b.val, b.isLt, hb⟩
  obtain ⟨res, ho, h1, h2, h3⟩ := of_run hq (C109_solve_both hnb hcontrol (L := fun b => (P b p0).model) hM h c garbage q) hY
  have hmovr : (∃ b : Fin nb, control.data [b.val] = 1) → Moving (fun b : Fin nb => (P b.val p0).E) (fun b => (P b.val p0).flowRule) nt (fun k (b : Fin nb) => times.data [b.val, k]) (fun k b => data.data [b.val, k]) (fun k b => temps.data [b.val, k])
      res.get := fun hb k hk => by
    have := hmov' hb k hk
    rw [h2 (k + 1) hk] at this
    exact this
  have htr := C113_trajectory c hs hi hr ha (fun b : Fin nb => P b.val p0) nt hnt (fun k (b : Fin nb) => times.data [b.val, k]) (fun k b => data.data [b.val, k]) (fun k b => temps.data [b.val, k]) (fun b => control.data [b.val]) hg
    (fun k b hk => hE k hk b b.isLt) q hq res ho hmovr rate base T hrate hbase hT
  have htr' : IsBackwardEuler (fun (b : Fin nb) t y => mixedRates (P b.val p0).E (P b.val p0).flowRule (control.data [b.val]) (rate b t) (base b t) (T b t) t y) nt (fun k b => times.data [b.val, k])
      (statesOf nb (1 + nk + 1) Y) := fun k b hk => by
    rw [h2 k (by omega), h2 (k + 1) hk]
    exact htr k b hk
  obtain ⟨hdiff, grad, lam, e1, e2⟩ := C113_lanes (β := Fin nb) d (fun b => P b.val) p0 nt (fun k b => times.data [b.val, k]) (fun j b => data.data [b.val, j]) (fun j b => temps.data [b.val, j]) (fun b => control.data [b.val])
    hnt hg (fun k b hk => hP k hk b b.isLt) (fun k b hk => hd k hk b b.isLt) (fun k b hk => hE k hk b b.isLt) (fun b => R0 b.val) (fun b => B b.val) (fun k b hk => hR k hk b b.isLt) (fun k b hk => hC k hk b b.isLt) rate base T hrate hbase hT
    (statesOf nb (1 + nk + 1) Y)
    (fun b => by
      rw [h3 (by omega)]
      exact ⟨⟨le_rfl, hR0 b b.isLt⟩, fun i => by rw [Pi.zero_apply, Pi.zero_apply, abs_zero]; exact hB0 b b.isLt i⟩) htr' _ rfl (statesOf nb (1 + nk + 1) G) q' hq'
  obtain ⟨L, f1, f2, hl⟩ := both_rewind P p0 hM h hcontrol q' h1 hG hd hE hmov' d rate base T hrate hbase hT hV hdiff grad lam e1
  refine ⟨grad, L, f1, f2, ?_⟩
  rw [hl]
  exact e2

/-- a `torch.autograd.grad` as assumed exists -/
theorem recordedVjp_exists (nb nt : ℕ) (model : Fin nb → (Fin p → ℝ) → Model (m + 1)) (p0 : Fin p → ℝ) (rate base T : Fin nb → ℝ → ℝ) (label : Fin nb → ℝ) (times : ℕ → Fin nb → ℝ)
    (Y : ℕ → Fin nb → Fin (m + 1) → ℝ) : ∃ vjp, RecordedVjp nb nt model p0 rate base T label times Y vjp := by
  let S : Tensor → Tensor → Tensor → ℕ → Fin p → ℝ := fun t y a q => ∑ k : Fin q, ∑ b, Matrix.vecMul (rowsOf nb (m + 1) q a k b) (LinearMap.toMatrix' (fderiv ℝ
    (recordedBoth (model b) (label b) (rate b (timesOf nb q t k b)) (base b (timesOf nb q t k b)) (T b (timesOf nb q t k b)) (timesOf nb q t k b) (rowsOf nb (m + 1) q y k b)
      (callUpdates (fun b => model b p0) rate base T q (timesOf nb q t) (rowsOf nb (m + 1) q y))) p0).toLinearMap)
  refine ⟨fun t y a => .ok (S t y a (t.shape.tail.headD 0)), fun q t y a hc ha A hA => ?_⟩
  change Except.ok (S t y a _) = _
  rw [hc.times_shape]
  change Except.ok (S t y a q) = _
  simp only [S]
  congr 1
  refine Finset.sum_congr rfl fun k _ => Finset.sum_congr rfl fun b _ => ?_
  rw [(hA k b).fderiv]
  congr 1
  ext i j
  simp [LinearMap.toMatrix'_apply, Ode.matCLM_apply]

/-- The hypotheses are met by two elastic tests, the first strain controlled and the second stress controlled, with three recorded times, Voce hardening and one backstress, the modulus being the parameter: the
run succeeds even with zero tolerances and `rewind` returns the gradient. -/
example : let cst := fun v : ℝ => tConstant ⟨[], fun _ => v⟩ (fun a => a) (fun a => a)
    let vec := fun v : ℝ => tConstant ⟨[1], fun _ => v⟩ (fun a => a) (fun a => a)
    let P : (Fin 1 → ℝ) → VCParams 1 := fun q => ⟨fun _ => q 0, fun _ => 2, fun _ => 10, fun _ => 1, fun _ => 3, fun _ => 5, fun _ _ => 7, fun _ _ => 7, fun _ _ => 0, fun _ _ => 2⟩
    let M := tInelastic (cst 100) (tIsoKin ⟨cst 2, cst 10, cst 1, tVoce (cst 3) (cst 5), tChabocheRecovery (vec 7) (vec 7) (vec 0) (vec 2)⟩)
    let times : Tensor := ⟨[2, 3], fun i => i.tail.headD 0⟩
    let data : Tensor := ⟨[2, 3], fun i => (1 + i.headD 0) * i.tail.headD 0 / 1000⟩
    let temps : Tensor := ⟨[2, 3], fun _ => 300⟩
    let control : Tensor := ⟨[2], fun i => i.headD 0⟩
    let G : Tensor := ⟨[3, 2, 3], fun i => i.headD 0⟩
    let c : Config := ⟨.backwardEuler, .direct .thomas, 0, 0, 100, true, "zero"⟩
    let rate : Fin 2 → ℝ → ℝ := fun b => rateFn 3 (fun k => times.data [b.val, k]) fun k => data.data [b.val, k]
    let base : Fin 2 → ℝ → ℝ := fun b => dataFn 3 (fun k => times.data [b.val, k]) fun k => data.data [b.val, k]
    let T : Fin 2 → ℝ → ℝ := fun b => dataFn 3 (fun k => times.data [b.val, k]) fun k => temps.data [b.val, k]
    ∃ (Y : Tensor) (vjp : Tensor → Tensor → Tensor → Except String (Fin 1 → ℝ)) (grad : Fin 1 → ℝ) (L : Tensor),
      tSolveBoth c M 3 (fun _ => 17) times temps data control 2 = .ok (Y, false) ∧ Y.data [0, 0, 2] = 1 / 5 ∧ Y.data [0, 1, 2] = 1 / 25000 ∧
      RecordedVjp 2 3 (fun _ q => (P q).model) (fun _ => 100) rate base T (fun b => control.data [b.val]) (fun k b => times.data [b.val, k]) (statesOf 2 (1 + 1 + 1) Y) vjp ∧
      tRewind .backwardEuler .thomas (tBothFunc M times temps data control) vjp times Y G 2 = .ok (grad, L) ∧
      IsGradient (fun q b t y => mixedRates (P q).E (P q).flowRule (control.data [b.val]) (rate b t) (base b t) (T b t) t y) 3 (fun k b => times.data [b.val, k]) (statesOf 2 (1 + 1 + 1) Y) (fun _ => 100)
        (statesOf 2 (1 + 1 + 1) G) grad fun b j => L.data [j.val, b.val] := by
  intro cst vec P M times data temps control G c rate base T
  have kc : ∀ q (v : ℝ), ParamIs [2, q] Set.univ (cst v) fun _ _ => v := fun q v => C101_constant (fun a => a) (fun a => a) ((C101_parameter_shapes 2 [q] ⟨[], fun _ => v⟩).1 rfl)
  have kv : ∀ q (v : ℝ), VecParamIs [2, q] Set.univ (vec v) fun _ (_ : Fin 1) _ => v := fun q v => (C101_constant_vector (n := 1) (nb := 2) (S := [q]) ⟨[1], fun _ => v⟩ (fun a => a) (fun a => a)).1 rfl
  have hM : ∀ q, ModelIs [2, q] Set.univ M fun _ => (P fun _ => 100).model := fun q =>
    C101_inelastic (kc q 100) (C101_iso_kin (kc q 2) (kc q 10) (kc q 1) (C101_voce (kc q 3) (kc q 5)) (C101_chaboche_recovery (kv q 7) (kv q 7) (kv q 0) (kv q 2)))
  have hT : Tests 2 3 Set.univ times data temps :=
    { two := by norm_num
      times_shape := rfl
      data_shape := rfl
      temps_shape := rfl
      increasing := fun b hb j hj => by
        change ((j : ℕ) : ℝ) < ((j + 1 : ℕ) : ℝ)
        push_cast
        linarith
      interval := Set.ordConnected_univ
      inside := fun _ _ _ _ => trivial }
  have hadm : ∀ T, VCAdmissible (nk := 1) (fun _ => 100) (fun _ => 2) (fun _ => 10) (fun _ => 1) (fun _ => 3) (fun _ => 5) (fun _ _ => 7) (fun _ _ => 7) T := fun T => by
    constructor <;> norm_num
  have hS : ∀ T, (P fun _ => 100).Smooth T := fun T => ⟨hadm T, by norm_num [P], by norm_num [P], fun _ => le_rfl, fun _ => by norm_num [P]⟩
  have hD : ∀ T, VCParams.DiffAt P (fun _ => 100) T := fun T => by
    constructor <;> simp only [P] <;> first | exact contDiffAt_const | exact fun _ => contDiffAt_const | exact (contDiffAt_pi.1 contDiffAt_id) 0
  have hdat : ∀ (k : ℕ) (b : Fin 2), data.data [b.val, k] = (1 + (b.val : ℝ)) * k / 1000 := fun _ _ => rfl
  have hle : ∀ (k : ℕ) (b : Fin 2), k < 3 → |data.data [b.val, k]| ≤ 1 := fun k b hk => by
    have h1 : (b.val : ℝ) ≤ 1 := by have := b.isLt; exact_mod_cast (by omega : b.val ≤ 1)
    have h2 : (k : ℝ) ≤ 2 := by exact_mod_cast (by omega : k ≤ 2)
    have h3 : (0 : ℝ) ≤ b.val := Nat.cast_nonneg _
    have h4 : (0 : ℝ) ≤ k := Nat.cast_nonneg _
    rw [hdat, abs_of_nonneg (by positivity)]
    nlinarith
  have hrt : ∀ k : ℕ, (1e-10 : ℝ) < |(data.data [(0 : Fin 2).val, k + 1] - data.data [(0 : Fin 2).val, k]) / (times.data [(0 : Fin 2).val, k + 1] - times.data [(0 : Fin 2).val, k])| := fun k => by
    rw [hdat, hdat]
    change (1e-10 : ℝ) < |_ / (((k + 1 : ℕ) : ℝ) - (k : ℝ))|
    have : ((1 + ((0 : Fin 2).val : ℝ)) * ((k + 1 : ℕ) : ℝ) / 1000 - (1 + ((0 : Fin 2).val : ℝ)) * (k : ℝ) / 1000) / (((k + 1 : ℕ) : ℝ) - (k : ℝ)) = 1 / 1000 := by
      push_cast
      simp
      ring
    rw [this]
    norm_num
  have hc : ∀ b : Fin 2, control.data [b.val] = (b.val : ℝ) := fun _ => rfl
  -- the forward run
  obtain ⟨res, r1, r2⟩ := C113_elastic_solved (β := Fin 2) c rfl rfl rfl (by norm_num [c]) rfl (fun _ => P fun _ => 100) (fun _ => rfl) 3 (by norm_num) (fun j b => times.data [b.val, j]) (fun j b => data.data [b.val, j])
    (fun j b => temps.data [b.val, j]) (fun b => control.data [b.val]) (fun b => hT.increasing b b.isLt) (fun _ _ _ => by norm_num [P]) 2 (by norm_num)
    (fun k b => if b.val = 1 then (2 * (k : ℝ)) / 100000 else k / 10)
    (fun k b => by
      have e : ∀ j : ℕ, (data.data [b.val, j + 1] - data.data [b.val, j]) = (1 + (b.val : ℝ)) / 1000 := fun j => by
        rw [hdat, hdat]
        push_cast; ring
      simp only [e, hc, P, Finset.sum_const, Finset.card_range, nsmul_eq_mul]
      fin_cases b
      · norm_num
        ring
      · norm_num
        ring)
    (fun j k b hj hk => ⟨fun e => by
      have h2 : (j : ℝ) ≤ 2 := by exact_mod_cast (by omega : j ≤ 2)
      rw [hc] at e
      have e' : b.val = 0 := by exact_mod_cast e
      rw [if_neg (by omega), abs_of_nonneg (by positivity)]
      change (j : ℝ) / 10 ≤ 1
      linarith, fun _ => hle k b hk⟩)
    (fun _ k hk => ⟨0, hle (k + 1) 0 hk, hrt k⟩)
  have hrun := C109_solve_both (nb := 2) (m := 2) (by norm_num) (control := control) rfl (L := fun _ => (P fun _ => 100).model) hM hT c (fun _ => 17) 2
  rw [r1] at hrun
  obtain ⟨Y, e, hF⟩ := hrun
  have hYv : ∀ (k : ℕ) (b : Fin 2) (j : Fin 3), k < 3 → Y.data [j.val, b.val, k] = res.get k b j := by
    intro k b j hk
    obtain ⟨v, hv⟩ := ((C14_every_time_filled c _ _ 3 _ 2 (by norm_num) res false r1).1 k).2 hk
    rw [hF.row k v hk hv b j]
    unfold Partial.get
    rw [hv]
    rfl
  obtain ⟨vjp, hV⟩ := recordedVjp_exists 2 3 (fun _ q => (P q).model) (fun _ => 100) rate base T (fun b => control.data [b.val]) (fun k b => times.data [b.val, k]) (statesOf 2 (1 + 1 + 1) Y)
  obtain ⟨grad, L, h1, h2, h3⟩ := C113_both (nb := 2) (nk := 1) (by norm_num) (fun _ => P) (fun _ => 100) hM hT (control := control) rfl c rfl (by norm_num [c]) rfl rfl (fun _ => 17) 2 2 (by norm_num) (by norm_num) (G := G) e rfl
    (fun _ _ _ _ => hS _) (fun _ _ _ _ => hD _) (fun _ _ _ _ => by norm_num [P]) (fun _ => 3) (fun _ _ => 1) (fun _ _ => by norm_num) (fun _ _ _ => by norm_num) (fun _ _ _ _ => rfl) (fun _ _ _ _ _ => by norm_num [P])
    (fun _ k hk => ⟨0, by
      have hj : ∀ j, j ≠ 0 → statesOf 2 (1 + 1 + 1) Y (k + 1) 0 j = 0 := fun j hj => (hYv (k + 1) 0 j hk).trans ((r2 (k + 1) 0 hk).2 j hj)
      have hflow : (P fun _ => 100).flowRule.flow (data.data [(0 : Fin 2).val, k + 1]) (fun j => statesOf 2 (1 + 1 + 1) Y (k + 1) 0 j.succ) (times.data [(0 : Fin 2).val, k + 1])
          (temps.data [(0 : Fin 2).val, k + 1]) 0 = 0 := by
        have h' := congrFun (mixed_flat (P fun _ => 100) rfl 1 0 (data.data [(0 : Fin 2).val, k + 1]) (temps.data [(0 : Fin 2).val, k + 1]) (times.data [(0 : Fin 2).val, k + 1])
          (statesOf 2 (1 + 1 + 1) Y (k + 1) 0) (by norm_num [P]) (by norm_num [P]) (by norm_num [P]) (fun e => absurd e one_ne_zero) (fun _ => hle (k + 1) 0 hk) hj).1 0
        simpa [mixedRates, strainRates] using h'
      rw [hflow, mul_zero, zero_add]
      exact hrt k⟩)
    .thomas (vjp := vjp) rate base T rfl rfl rfl hV
  refine ⟨Y, vjp, grad, L, e, ?_, ?_, hV, h1, h3⟩
  · refine Eq.trans (hYv 2 0 0 (by norm_num)) ?_
    rw [(r2 2 0 (by norm_num)).1]
    norm_num
  · refine Eq.trans (hYv 2 1 0 (by norm_num)) ?_
    rw [(r2 2 1 (by norm_num)).1]
    norm_num

end tensors

end Pyoptmat.Props
