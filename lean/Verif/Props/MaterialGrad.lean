import Verif.Proofs.SmoothFlow
import Verif.Props.CreepGrad
import Mathlib.Analysis.Calculus.ContDiff.RCLike

/-!
# Property C107: exact gradients for the material models, without side conditions
-/

namespace Pyoptmat.Props

open Pyoptmat Pyoptmat.Spec Pyoptmat.Control Pyoptmat.Material Pyoptmat.Ode Pyoptmat.Newton Pyoptmat.Chunktime Topology Filter

variable {β : Type*} [Fintype β] {m n nk p : ℕ}

/-- `grad`, `lam` are the exact gradient, with respect to parameters and initial state, of `∑ ⟨g, y⟩` where `y` is the backward Euler trajectory with the given rates: near `(p0, Y 0)` there is one trajectory `y q x`
for each parameter `q` and initial state `x`, it is `Y` at `(p0, Y 0)`, no other one depends continuously on `(q, x)`, it is differentiable, and the derivative is `grad · dq + ∑ b, lam b · dx b`. -/
def IsGradient (rate : (Fin p → ℝ) → β → ℝ → (Fin m → ℝ) → Fin m → ℝ) (nt : ℕ) (t : ℕ → β → ℝ) (Y : ℕ → β → Fin m → ℝ) (p0 : Fin p → ℝ) (g : ℕ → β → Fin m → ℝ)
    (grad : Fin p → ℝ) (lam : β → Fin m → ℝ) : Prop :=
  ∃ y : (Fin p → ℝ) → (β → Fin m → ℝ) → ℕ → β → Fin m → ℝ,
    y p0 (Y 0) = Y ∧ (∀ q x, y q x 0 = x) ∧
    (∀ᶠ v in 𝓝 (p0, Y 0), IsBackwardEuler (rate v.1) nt t (y v.1 v.2)) ∧
    (∀ y' : (Fin p → ℝ) → (β → Fin m → ℝ) → ℕ → β → Fin m → ℝ,
      (∀ᶠ v in 𝓝 (p0, Y 0), IsBackwardEuler (rate v.1) nt t (y' v.1 v.2)) →
      (∀ᶠ v in 𝓝 (p0, Y 0), y' v.1 v.2 0 = v.2) → (∀ k < nt, y' p0 (Y 0) k = Y k) →
      (∀ k < nt, ∀ b, ContinuousAt (fun v : (Fin p → ℝ) × (β → Fin m → ℝ) => y' v.1 v.2 k b) (p0, Y 0)) →
      ∀ᶠ v in 𝓝 (p0, Y 0), ∀ k < nt, y' v.1 v.2 k = y v.1 v.2 k) ∧
    (∀ k < nt, ∀ b, DifferentiableAt ℝ (fun v : (Fin p → ℝ) × (β → Fin m → ℝ) => y v.1 v.2 k b) (p0, Y 0)) ∧
    HasFDerivAt (fun v : (Fin p → ℝ) × (β → Fin m → ℝ) => ∑ k ∈ Finset.range nt, ∑ b, g k b ⬝ᵥ y v.1 v.2 k b) (totalGrad grad lam) (p0, Y 0)

theorem fderiv_split {F G H : Type*} [NormedAddCommGroup F] [NormedSpace ℝ F] [NormedAddCommGroup G] [NormedSpace ℝ G] [NormedAddCommGroup H] [NormedSpace ℝ H]
    {φ : F × G → H} {a : F} {b : G} (h : ContDiffAt ℝ 1 φ (a, b)) {B : G →L[ℝ] H} (hB : HasFDerivAt (fun y => φ (a, y)) B b) :
    ∃ A : F →L[ℝ] H, HasStrictFDerivAt φ (A.coprod B) (a, b) ∧ HasFDerivAt (fun x => φ (x, b)) A a := by
  have hs := h.hasStrictFDerivAt one_ne_zero
  set L := fderiv ℝ φ (a, b)
  have hA : HasFDerivAt (fun x => φ (x, b)) (L.comp (ContinuousLinearMap.inl ℝ F G)) a :=
    HasFDerivAt.comp (g := φ) a hs.hasFDerivAt (hasFDerivAt_prodMk_left a b)
  have hB' : HasFDerivAt (fun y => φ (a, y)) (L.comp (ContinuousLinearMap.inr ℝ F G)) b :=
    HasFDerivAt.comp (g := φ) b hs.hasFDerivAt (hasFDerivAt_prodMk_right a b)
  refine ⟨L.comp (ContinuousLinearMap.inl ℝ F G), hs.congr_fderiv ?_, hA⟩
  rw [hB.unique hB']
  refine ContinuousLinearMap.ext fun v => ?_
  simp only [ContinuousLinearMap.coprod_apply, ContinuousLinearMap.comp_apply, ContinuousLinearMap.inl_apply, ContinuousLinearMap.inr_apply]
  rw [← map_add]
  simp

theorem model_strict {M : (Fin p → ℝ) → Model m} {t e T : ℝ} {y : Fin m → ℝ} {p0 : Fin p → ℝ} {A : Matrix (Fin m) (Fin p) ℝ}
    (h : ContDiffAt ℝ 1 (fun x : (Fin p → ℝ) × (Fin m → ℝ) => (M x.1 t x.2 e T).ydot) (p0, y)) (hex : ModelExact (M p0) t y e T)
    (hA : HasFDerivAt (fun q => (M q t y e T).ydot) (matCLM A) p0) :
    HasStrictFDerivAt (fun x : (Fin p → ℝ) × (Fin m → ℝ) => (M x.1 t x.2 e T).ydot) ((matCLM A).coprod (matCLM (M p0 t y e T).J)) (p0, y) := by
  have hB : HasFDerivAt (fun z => (M p0 t z e T).ydot) (matCLM (M p0 t y e T).J) y := by
    have hex' : HasFDerivAt (fun x : (Fin m → ℝ) × ℝ => (M p0 t x.1 x.2 T).ydot) _ ((fun z => (z, e)) y) := hex
    have hin : HasFDerivAt (fun z : Fin m → ℝ => (z, e)) (ContinuousLinearMap.inl ℝ (Fin m → ℝ) ℝ) y := hasFDerivAt_prodMk_left y e
    refine (HasFDerivAt.comp (g := fun x : (Fin m → ℝ) × ℝ => (M p0 t x.1 x.2 T).ydot) y hex' hin).congr_fderiv ?_
    refine ContinuousLinearMap.ext fun v => ?_
    simp
  obtain ⟨A', h1, h2⟩ := fderiv_split h hB
  rw [hA.unique h2]
  exact h1

omit [Fintype β] in
theorem vc_exact (P : VCParams nk) (t : ℝ) (y : Fin (1 + nk + 1) → ℝ) (e T : ℝ) (hP : P.Smooth T) (hy : 0 ≤ y 1) :
    FlowExact P.flowRule (y 0) (fun j => y j.succ) t T e := by
  refine isoKin_exact _ _ _ _ _ _ _ _ _ _ hP.adm.eta (voce_exact ..) (chabocheRecovery_exact _ _ _ _ _ _ _ _ _ _ fun i => Or.inr (hP.r i).le) ?_ (Or.inl hP.n)
  change 0 ≤ P.s0 T + y (Fin.castAdd nk (0 : Fin 1)).succ
  rw [← one_eq_iso]
  exact add_nonneg hP.adm.s0 hy

omit [Fintype β] in
/-- states stay admissible -/
theorem vc_states (P : VCParams nk) (erate temp : β → ℝ → ℝ) (nt : ℕ) (t : ℕ → β → ℝ) (ht : ∀ k b, k + 1 < nt → t k b ≤ t (k + 1) b)
    (Y : ℕ → β → Fin (1 + nk + 1) → ℝ) (hY : IsBackwardEuler (fun b s x => (P.model s x (erate b s) (temp b s)).ydot) nt t Y)
    (hP : ∀ k b, k < nt → P.Smooth (temp b (t k b))) (R0 : ℝ) (B : Fin nk → ℝ) (hR : ∀ k b, k < nt → P.R (temp b (t k b)) = R0)
    (hC : ∀ k b, k < nt → ∀ i, P.C i (temp b (t k b)) = B i * P.g i (temp b (t k b)))
    (h0 : ∀ b, (0 ≤ Y 0 b 1 ∧ Y 0 b 1 ≤ R0) ∧ ∀ i : Fin nk, |Y 0 b (Fin.natAdd 1 i).succ| ≤ B i) (k b) (hk : k < nt) :
    VCState P.R P.C P.g (temp b (t k b)) (Y k b) := by
  refine ⟨?_, fun i => ?_⟩
  · rw [hR k b hk]
    exact C39_voce_range P.E P.n P.eta P.s0 P.R P.d (chabocheRecovery P.C P.g P.bb P.r) erate temp nt t ht Y hY R0 (fun k b hk => (hP k b hk).adm.d)
      (fun k b hk => ⟨(hP k b hk).adm.R, (hR k b hk).le⟩) (fun b => (h0 b).1) k b hk
  · have := C40_recovery P.E P.n P.eta P.s0 (voce P.R P.d) P.C P.g P.bb P.r erate temp nt t ht Y hY i (B i)
      (fun k b hk => by rw [abs_of_nonneg ((hP k b hk).adm.C i)]; exact (hC k b hk i).le) (fun k b hk => (hP k b hk).adm.g i) (fun k b hk => (hP k b hk).bb i)
      (fun b => (h0 b).2 i) k b hk
    rw [hC k b hk i]
    exact mul_le_mul_of_nonneg_right this ((hP k b hk).adm.g i)

/-- **C107.** Strain control. The material with power law flow, Voce hardening, any number of Chaboche backstresses and static recovery, run by `solve_strain` on any strain histories: for parameters with meaningful values
(exponents above one, positive threshold stress and viscosity) the adjoint pass returns the exact gradient of the backward Euler trajectory, whatever the strain histories, temperatures, step sizes and block size. No step
is ever singular, and the rates are differentiable also where the material starts to yield. `fp` is the derivative autograd gets for the parameters; `Y 0` is an admissible initial state, e.g. zero; the saturation values `R` and
`C_i / g_i` must not depend on temperature (always true in an isothermal test). -/
theorem C107_strain (d : Direct) (P : β → (Fin p → ℝ) → VCParams nk) (p0 : Fin p → ℝ) (nt : ℕ) (times strains temps : ℕ → β → ℝ) (hnt : 1 < nt)
    (hg : ∀ b, StrictGrid (nt - 1) fun k => times k b) (hP : ∀ k b, k < nt → (P b p0).Smooth (temps k b)) (hd : ∀ k b, k < nt → VCParams.DiffAt (P b) p0 (temps k b))
    (R0 : β → ℝ) (B : β → Fin nk → ℝ) (hR : ∀ k b, k < nt → (P b p0).R (temps k b) = R0 b) (hC : ∀ k b, k < nt → ∀ i, (P b p0).C i (temps k b) = B b i * (P b p0).g i (temps k b))
    (Y : ℕ → β → Fin (1 + nk + 1) → ℝ) (h0 : ∀ b, (0 ≤ Y 0 b 1 ∧ Y 0 b 1 ≤ R0 b) ∧ ∀ i : Fin nk, |Y 0 b (Fin.natAdd 1 i).succ| ≤ B b i)
    (hY : IsBackwardEuler (fun b t y => (strainFunc (fun b => (P b p0).model) nt times strains temps b t y).1) nt times Y)
    (fp : β → ℝ → (Fin (1 + nk + 1) → ℝ) → Matrix (Fin (1 + nk + 1)) (Fin p) ℝ)
    (hfp : ∀ k < nt, ∀ b, HasFDerivAt (fun q => (strainFunc (fun b => (P b q).model) nt times strains temps b (times k b) (Y k b)).1) (matCLM (fp b (times k b) (Y k b))) p0)
    (g : ℕ → β → Fin (1 + nk + 1) → ℝ) (blockSize : ℤ) (hn : 0 < blockSize) :
    ∃ grad lam, rewind .backwardEuler d (strainFunc (fun b => (P b p0).model) nt times strains temps) fp nt times Y g blockSize = .ok (grad, lam) ∧
      IsGradient (fun q b t y => (strainFunc (fun b => (P b q).model) nt times strains temps b t y).1) nt times Y p0 g grad lam := by
  have ht : ∀ k b, k + 1 < nt → times k b ≤ times (k + 1) b := fun k b hk => (hg b k (by omega)).le
  have hT : ∀ k b, k < nt → dataFn nt (fun k => times k b) (fun k => temps k b) (times k b) = temps k b :=
    fun k b hk => dataFn_grid (hg b) (fun k => temps k b) hk hnt
  have hst : ∀ k b, k < nt → VCState (P b p0).R (P b p0).C (P b p0).g (temps k b) (Y k b) := by
    intro k b hk
    have := vc_states (β := Unit) (P b p0) (fun _ => rateFn nt (fun k => times k b) (fun k => strains k b)) (fun _ => dataFn nt (fun k => times k b) (fun k => temps k b)) nt (fun k _ => times k b)
      (fun k _ => ht k b) (fun k _ => Y k b) (fun k _ hk => hY k b hk) (fun k _ hk => by rw [hT k b hk]; exact hP k b hk) (R0 b) (B b) (fun k _ hk => by rw [hT k b hk]; exact hR k b hk)
      (fun k _ hk => by rw [hT k b hk]; exact hC k b hk) (fun _ => h0 b) k () hk
    rw [hT k b hk] at this
    exact this
  obtain ⟨y, h1, h2, h3, h4, grad, lam, h5, h6⟩ := C83_backward d (fun q b t y => (strainFunc (fun b => (P b q).model) nt times strains temps b t y).1)
    (fun b t y => (strainFunc (fun b => (P b p0).model) nt times strains temps b t y).2) fp nt (by omega) times Y p0 blockSize hn g hY
    (fun k hk b => by
      simp only [strainFunc]
      rw [hT (k + 1) b hk]
      exact vc_step_det _ _ _ _ _ _ _ _ _ _ _ _ _ _ _ (by have := ht k b hk; linarith) (hP _ b hk).adm (hP _ b hk).n (hP _ b hk).bb
        (fun i => by have := (hP _ b hk).r i; linarith) (hst _ b hk))
    (fun k hk b => by
      have hf := hfp k hk b
      simp only [strainFunc] at hf ⊢
      rw [hT k b hk] at hf ⊢
      have hD := hd k b hk
      have hS := hP k b hk
      have hw : 0 ≤ Y k b 1 := (hst k b hk).1.1
      refine model_strict ?_ (C24_exact _ _ _ _ _ _ (vc_exact (P b p0) _ _ _ _ hS hw)) hf
      have c1 : ∀ {φ : (Fin p → ℝ) → ℝ}, ContDiffAt ℝ 1 φ p0 → ContDiffAt ℝ 1 (fun x : (Fin p → ℝ) × (Fin (1 + nk + 1) → ℝ) => φ x.1) (p0, Y k b) :=
        fun h => ContDiffAt.comp (p0, Y k b) h contDiffAt_fst
      exact vc_contDiffAt (fun x : (Fin p → ℝ) × (Fin (1 + nk + 1) → ℝ) => (P b x.1).E) (fun x => (P b x.1).n) (fun x => (P b x.1).eta) (fun x => (P b x.1).s0) (fun x => (P b x.1).R)
        (fun x => (P b x.1).d) (fun x => (P b x.1).C) (fun x => (P b x.1).g) (fun x => (P b x.1).bb) (fun x => (P b x.1).r) _ _ (fun _ => _) (fun x => x.2) (p0, Y k b)
        (c1 hD.E) (c1 hD.n) (c1 hD.eta) (c1 hD.s0) (c1 hD.R) (c1 hD.d) (fun i => c1 (hD.C i)) (fun i => c1 (hD.g i)) (fun i => c1 (hD.bb i)) (fun i => c1 (hD.r i))
        contDiffAt_const contDiffAt_snd hS.n hS.adm.eta (add_pos_of_pos_of_nonneg hS.s0 hw) hS.r)
  exact ⟨grad, lam, h5, y, h1, h2, h3, h4, h6⟩

omit [Fintype β] in
theorem stress_states (P : VCParams nk) (srate stress temp : β → ℝ → ℝ) (nt : ℕ) (t : ℕ → β → ℝ) (ht : ∀ k b, k + 1 < nt → t k b ≤ t (k + 1) b)
    (Y : ℕ → β → Fin (1 + nk + 1) → ℝ) (hY : IsBackwardEuler (fun b s x => strainRates P.E P.flowRule (srate b s) (stress b s) (temp b s) s x) nt t Y)
    (hP : ∀ k b, k < nt → P.Smooth (temp b (t k b))) (R0 : ℝ) (B : Fin nk → ℝ) (hR : ∀ k b, k < nt → P.R (temp b (t k b)) = R0)
    (hC : ∀ k b, k < nt → ∀ i, P.C i (temp b (t k b)) = B i * P.g i (temp b (t k b)))
    (h0 : ∀ b, (0 ≤ Y 0 b 1 ∧ Y 0 b 1 ≤ R0) ∧ ∀ i : Fin nk, |Y 0 b (Fin.natAdd 1 i).succ| ≤ B i) (k b) (hk : k < nt) :
    VCState P.R P.C P.g (temp b (t k b)) (Y k b) := by
  -- one step, seen as a step of a material without elastic stiffness at the imposed stress
  have key : ∀ k, k < nt → (0 ≤ Y k b 1 ∧ Y k b 1 ≤ R0) ∧ ∀ i : Fin nk, |Y k b (Fin.natAdd 1 i).succ| ≤ B i := by
    intro k
    induction k with
    | zero => intro _; exact h0 b
    | succ k ih =>
      intro hk
      have hk' : k < nt := by omega
      have ih := ih hk'
      set T := temp b (t (k + 1) b) with hT
      set cs := stress b (t (k + 1) b) with hcs
      set dt := t (k + 1) b - t k b with hdt
      have hdt0 : 0 ≤ dt := by have := ht k b hk; rw [hdt]; linarith
      let Z : ℕ → Unit → Fin (1 + nk + 1) → ℝ := fun j _ => if j = 0 then Fin.cons cs (fun i => Y k b i.succ) else Fin.cons cs (fun i => Y (k + 1) b i.succ)
      let τ : ℕ → Unit → ℝ := fun j _ => if j = 0 then t (k + 1) b - dt else t (k + 1) b
      let Q : VCParams nk := { P with E := fun _ => 0 }
      have hstep := hY k b hk
      have hbe : IsBackwardEuler (fun _ s x => (Q.model s x ((fun _ _ => (0 : ℝ)) () s) ((fun _ _ => T) () s)).ydot) 2 τ Z := by
        intro j u hj
        obtain rfl : j = 0 := by omega
        funext i
        refine Fin.cases ?_ (fun i => ?_) i
        · change cs = cs + (t (k + 1) b - (t (k + 1) b - dt)) * (0 * _)
          ring
        · change Y (k + 1) b i.succ = Y k b i.succ + (t (k + 1) b - (t (k + 1) b - dt)) * P.flowRule.hist cs (fun i => Y (k + 1) b i.succ) (t (k + 1) b) T 0 i
          rw [sub_sub_cancel]
          exact congrFun hstep i.succ
      have hτ : ∀ j u, j + 1 < 2 → τ j u ≤ τ (j + 1) u := by
        intro j u hj
        obtain rfl : j = 0 := by omega
        change t (k + 1) b - dt ≤ t (k + 1) b
        linarith
      have hS := hP (k + 1) b hk
      have hQ : ∀ j (u : Unit), j < 2 → Q.Smooth T := fun _ _ _ =>
        ⟨⟨le_rfl, hS.adm.n, hS.adm.eta, hS.adm.s0, hS.adm.R, hS.adm.d, hS.adm.C, hS.adm.g⟩, hS.n, hS.s0, hS.bb, hS.r⟩
      have e1 : (1 : Fin (1 + nk + 1)) = (Fin.castAdd nk (0 : Fin 1)).succ := one_eq_iso
      refine ⟨?_, fun i => ?_⟩
      · have := C39_voce_range Q.E Q.n Q.eta Q.s0 Q.R Q.d (chabocheRecovery Q.C Q.g Q.bb Q.r) (fun _ _ => 0) (fun _ _ => T) 2 τ hτ Z hbe R0 (fun _ _ _ => hS.adm.d)
          (fun _ _ _ => ⟨hS.adm.R, (hR (k + 1) b hk).le⟩) (fun _ => by
            change 0 ≤ (Fin.cons cs (fun i => Y k b i.succ) : Fin (1 + nk + 1) → ℝ) 1 ∧ (Fin.cons cs (fun i => Y k b i.succ) : Fin (1 + nk + 1) → ℝ) 1 ≤ R0
            rw [e1, Fin.cons_succ, ← e1]
            exact ih.1) 1 () (by norm_num)
        change 0 ≤ (Fin.cons cs (fun i => Y (k + 1) b i.succ) : Fin (1 + nk + 1) → ℝ) 1 ∧ (Fin.cons cs (fun i => Y (k + 1) b i.succ) : Fin (1 + nk + 1) → ℝ) 1 ≤ R0 at this
        rw [e1, Fin.cons_succ, ← e1] at this
        exact this
      · exact C40_recovery Q.E Q.n Q.eta Q.s0 (voce Q.R Q.d) Q.C Q.g Q.bb Q.r (fun _ _ => 0) (fun _ _ => T) 2 τ hτ Z hbe i (B i)
          (fun _ _ _ => by
            change |P.C i T| ≤ B i * P.g i T
            rw [abs_of_nonneg (hS.adm.C i)]; exact (hC (k + 1) b hk i).le) (fun _ _ _ => hS.adm.g i) (fun _ _ _ => hS.bb i) (fun _ => ih.2 i) 1 () (by norm_num)
  refine ⟨?_, fun i => ?_⟩
  · rw [hR k b hk]
    exact (key k hk).1
  · rw [hC k b hk i]
    exact mul_le_mul_of_nonneg_right ((key k hk).2 i) ((hP k b hk).adm.g i)

omit [Fintype β] in
theorem flow_split (P : (Fin p → ℝ) → VCParams nk) (p0 : Fin p → ℝ) (cs t T : ℝ) (h : Fin (1 + nk) → ℝ) (hS : (P p0).Smooth T) (hD : VCParams.DiffAt P p0 T)
    (hw : 0 ≤ (Fin.cons cs h : Fin (1 + nk + 1) → ℝ) 1) :
    (∃ F' : (Fin p → ℝ) →L[ℝ] ℝ, HasStrictFDerivAt (fun x : (Fin p → ℝ) × (Fin (1 + nk) → ℝ) => (P x.1).flowRule.flow cs x.2 t T 0)
      (F'.coprod (dotCLM ((P p0).flowRule.dflow_dh cs h t T 0))) (p0, h)) ∧
    ∃ H' : (Fin p → ℝ) →L[ℝ] (Fin (1 + nk) → ℝ), HasStrictFDerivAt (fun x : (Fin p → ℝ) × (Fin (1 + nk) → ℝ) => (P x.1).flowRule.hist cs x.2 t T 0)
      (H'.coprod (matCLM ((P p0).flowRule.dhist_dh cs h t T 0))) (p0, h) := by
  have c1 : ∀ {φ : (Fin p → ℝ) → ℝ}, ContDiffAt ℝ 1 φ p0 → ContDiffAt ℝ 1 (fun x : (Fin p → ℝ) × (Fin (1 + nk) → ℝ) => φ x.1) (p0, h) :=
    fun hφ => ContDiffAt.comp (p0, h) hφ contDiffAt_fst
  have hcons : ContDiffAt ℝ 1 (fun x : (Fin p → ℝ) × (Fin (1 + nk) → ℝ) => (Fin.cons cs x.2 : Fin (1 + nk + 1) → ℝ)) (p0, h) := by
    rw [contDiffAt_pi]
    intro i
    refine Fin.cases ?_ (fun i => ?_) i
    · simp only [Fin.cons_zero]; exact contDiffAt_const
    · simp only [Fin.cons_succ]; exact (contDiffAt_pi.1 contDiffAt_snd) i
  have hall := vc_contDiffAt (fun _ : (Fin p → ℝ) × (Fin (1 + nk) → ℝ) => fun _ => (1 : ℝ)) (fun x => (P x.1).n) (fun x => (P x.1).eta) (fun x => (P x.1).s0) (fun x => (P x.1).R)
    (fun x => (P x.1).d) (fun x => (P x.1).C) (fun x => (P x.1).g) (fun x => (P x.1).bb) (fun x => (P x.1).r) t T (fun _ => 0) (fun x => Fin.cons cs x.2) (p0, h)
    contDiffAt_const (c1 hD.n) (c1 hD.eta) (c1 hD.s0) (c1 hD.R) (c1 hD.d) (fun i => c1 (hD.C i)) (fun i => c1 (hD.g i)) (fun i => c1 (hD.bb i)) (fun i => c1 (hD.r i))
    contDiffAt_const hcons hS.n hS.adm.eta (add_pos_of_pos_of_nonneg hS.s0 hw) hS.r
  have hcomp := contDiffAt_pi.1 hall
  have hex := vc_exact (P p0) t (Fin.cons cs h) 0 T hS hw
  have hin : HasFDerivAt (fun z : Fin (1 + nk) → ℝ => ((cs, z, 0) : ℝ × (Fin (1 + nk) → ℝ) × ℝ))
      ((ContinuousLinearMap.inr ℝ ℝ ((Fin (1 + nk) → ℝ) × ℝ)).comp (ContinuousLinearMap.inl ℝ (Fin (1 + nk) → ℝ) ℝ)) h :=
    HasFDerivAt.comp (g := fun w : (Fin (1 + nk) → ℝ) × ℝ => (cs, w)) h (hasFDerivAt_prodMk_right cs (h, (0 : ℝ))) (hasFDerivAt_prodMk_left h (0 : ℝ))
  constructor
  · have hflow : ContDiffAt ℝ 1 (fun x : (Fin p → ℝ) × (Fin (1 + nk) → ℝ) => (P x.1).flowRule.flow cs x.2 t T 0) (p0, h) := by
      refine (hcomp 0).neg.congr_of_eventuallyEq (Eventually.of_forall fun x => ?_)
      change _ = -(1 * (0 - (P x.1).flowRule.flow cs x.2 t T 0))
      ring
    have hB : HasFDerivAt (fun z => (P p0).flowRule.flow cs z t T 0) (dotCLM ((P p0).flowRule.dflow_dh cs h t T 0)) h := by
      refine (HasFDerivAt.comp (g := fun x : ℝ × (Fin (1 + nk) → ℝ) × ℝ => (P p0).flowRule.flow x.1 x.2.1 t T x.2.2) h hex.flow hin).congr_fderiv (ContinuousLinearMap.ext fun v => ?_)
      simp [row3]
    obtain ⟨A, h1, -⟩ := fderiv_split hflow hB
    exact ⟨A, h1⟩
  · have hhist : ContDiffAt ℝ 1 (fun x : (Fin p → ℝ) × (Fin (1 + nk) → ℝ) => (P x.1).flowRule.hist cs x.2 t T 0) (p0, h) := by
      rw [contDiffAt_pi]
      intro i
      exact (hcomp i.succ).congr_of_eventuallyEq (Eventually.of_forall fun x => rfl)
    have hB : HasFDerivAt (fun z => (P p0).flowRule.hist cs z t T 0) (matCLM ((P p0).flowRule.dhist_dh cs h t T 0)) h := by
      rw [hasFDerivAt_pi']
      intro i
      refine (HasFDerivAt.comp (g := fun x : ℝ × (Fin (1 + nk) → ℝ) × ℝ => (P p0).flowRule.hist x.1 x.2.1 t T x.2.2 i) h (hex.hist i) hin).congr_fderiv (ContinuousLinearMap.ext fun v => ?_)
      simp [row3, Ode.dotCLM_apply, Ode.matCLM_apply, Matrix.mulVec]
    obtain ⟨A, h1, -⟩ := fderiv_split hhist hB
    exact ⟨A, h1⟩

/-- **C107.** Stress control: the same for `solve_stress`, for calls with at least one Newton update each. The trajectory is that of the scheme with elastic plus inelastic strain rate. -/
theorem C107_stress (d : Direct) (P : β → (Fin p → ℝ) → VCParams nk) (p0 : Fin p → ℝ) (nt : ℕ) (times stresses temps : ℕ → β → ℝ) (hnt : 1 < nt)
    (hg : ∀ b, StrictGrid (nt - 1) fun k => times k b) (hP : ∀ k b, k < nt → (P b p0).Smooth (temps k b)) (hd : ∀ k b, k < nt → VCParams.DiffAt (P b) p0 (temps k b))
    (hE : ∀ k b, k < nt → (P b p0).E (temps k b) ≠ 0)
    (R0 : β → ℝ) (B : β → Fin nk → ℝ) (hR : ∀ k b, k < nt → (P b p0).R (temps k b) = R0 b) (hC : ∀ k b, k < nt → ∀ i, (P b p0).C i (temps k b) = B b i * (P b p0).g i (temps k b))
    (srate stress T : β → ℝ → ℝ) (hsr : srate = fun b => rateFn nt (fun k => times k b) fun k => stresses k b) (hss : stress = fun b => dataFn nt (fun k => times k b) fun k => stresses k b)
    (hTT : T = fun b => dataFn nt (fun k => times k b) fun k => temps k b) (K : β → ℝ → ℕ) (hK : ∀ b t, 1 ≤ K b t)
    (Y : ℕ → β → Fin (1 + nk + 1) → ℝ) (h0 : ∀ b, (0 ≤ Y 0 b 1 ∧ Y 0 b 1 ≤ R0 b) ∧ ∀ i : Fin nk, |Y 0 b (Fin.natAdd 1 i).succ| ≤ B b i)
    (hY : IsBackwardEuler (fun b t y => strainRates (P b p0).E (P b p0).flowRule (srate b t) (stress b t) (T b t) t y) nt times Y)
    (fp : β → ℝ → (Fin (1 + nk + 1) → ℝ) → Matrix (Fin (1 + nk + 1)) (Fin p) ℝ)
    (hfp : ∀ k < nt, ∀ b, HasFDerivAt (recordedRates (fun q => (P b q).model) (srate b (times k b)) (stress b (times k b)) (T b (times k b)) (times k b) (Y k b) (K b (times k b)))
      (matCLM (fp b (times k b) (Y k b))) p0)
    (g : ℕ → β → Fin (1 + nk + 1) → ℝ) (blockSize : ℤ) (hn : 0 < blockSize) :
    ∃ grad lam, rewind .backwardEuler d (creepFunc (fun b => (P b p0).E) (fun b => (P b p0).flowRule) srate stress T K) fp nt times Y g blockSize = .ok (grad, lam) ∧
      IsGradient (fun q b t y => strainRates (P b q).E (P b q).flowRule (srate b t) (stress b t) (T b t) t y) nt times Y p0 g grad lam := by
  have ht : ∀ k b, k + 1 < nt → times k b ≤ times (k + 1) b := fun k b hk => (hg b k (by omega)).le
  have hT : ∀ k b, k < nt → T b (times k b) = temps k b := fun k b hk => by rw [hTT]; exact dataFn_grid (hg b) (fun k => temps k b) hk hnt
  have hP' : ∀ k < nt, ∀ b, (P b p0).Smooth (T b (times k b)) := fun k hk b => by rw [hT k b hk]; exact hP k b hk
  have hd' : ∀ k < nt, ∀ b, VCParams.DiffAt (P b) p0 (T b (times k b)) := fun k hk b => by rw [hT k b hk]; exact hd k b hk
  have hst : ∀ k b, k < nt → VCState (P b p0).R (P b p0).C (P b p0).g (T b (times k b)) (Y k b) := fun k b hk =>
    stress_states (β := Unit) (P b p0) (fun _ => srate b) (fun _ => stress b) (fun _ => T b) nt (fun k _ => times k b) (fun k _ => ht k b) (fun k _ => Y k b) (fun k _ hk => hY k b hk)
      (fun k _ hk => hP' k hk b) (R0 b) (B b) (fun k _ hk => by rw [hT k b hk]; exact hR k b hk) (fun k _ hk => by rw [hT k b hk]; exact hC k b hk) (fun _ => h0 b) k () hk
  have e1 : (1 : Fin (1 + nk + 1)) = (Fin.castAdd nk (0 : Fin 1)).succ := one_eq_iso
  have hcons : ∀ k b, k < nt → VCState (P b p0).R (P b p0).C (P b p0).g (T b (times k b)) (Fin.cons (stress b (times k b)) fun j => Y k b j.succ) := by
    intro k b hk
    have := hst k b hk
    refine ⟨?_, fun i => this.2 i⟩
    rw [e1, Fin.cons_succ, ← e1]
    exact this.1
  obtain ⟨y, h1, h2, h3, h4, grad, lam, h5, h6⟩ := C106_gradient d (fun b q => (P b q).E) (fun b q => (P b q).flowRule) srate stress T K hK fp nt (by omega) times Y p0 blockSize hn g
    (fun _ _ _ _ _ _ _ => rfl) (fun _ _ _ _ _ _ _ => rfl) (fun _ _ _ _ _ _ _ => rfl) (fun _ _ _ _ _ _ => rfl) (fun _ _ _ _ _ _ => rfl)
    (fun k hk b => by rw [hT k b hk]; exact hE k b hk) (fun k hk b => ⟨_, (hd' k hk b).E.hasStrictFDerivAt one_ne_zero⟩)
    (fun k hk b => (flow_split (P b) p0 _ _ _ _ (hP' k hk b) (hd' k hk b) (hcons k b hk).1.1).1) (fun k hk b => (flow_split (P b) p0 _ _ _ _ (hP' k hk b) (hd' k hk b) (hcons k b hk).1.1).2)
    hfp hY (fun k hk b => by
      have hS := hP' (k + 1) hk b
      exact vc_hist_det _ _ _ _ _ _ _ _ _ _ _ _ _ _ _ (by have := ht k b hk; linarith) ⟨le_rfl, hS.adm.n, hS.adm.eta, hS.adm.s0, hS.adm.R, hS.adm.d, hS.adm.C, hS.adm.g⟩ hS.n hS.bb
        (fun i => by have := hS.r i; linarith) (hcons (k + 1) b hk))
  exact ⟨grad, lam, h5, y, h1, h2, h3, h4, h6⟩

theorem matCLM_surj {n k : ℕ} (L : (Fin k → ℝ) →L[ℝ] (Fin n → ℝ)) : matCLM (LinearMap.toMatrix' L.toLinearMap) = L := by
  refine ContinuousLinearMap.ext fun v => ?_
  rw [Ode.matCLM_apply, LinearMap.toMatrix'_mulVec]
  rfl

/-- Non-vacuity: Voce and one backstress, the viscosity is the parameter, stretched at a constant rate; the trajectory exists by C74. -/
example : let P : (Fin 1 → ℝ) → VCParams 1 := fun q => ⟨fun _ => 100, fun _ => 2, fun _ => q 0, fun _ => 1, fun _ => 3, fun _ => 5, fun _ _ => 7, fun _ _ => 7, fun _ _ => 0, fun _ _ => 2⟩
    ∃ (Y : ℕ → Unit → Fin (1 + 1 + 1) → ℝ) (fp : Unit → ℝ → (Fin (1 + 1 + 1) → ℝ) → Matrix (Fin (1 + 1 + 1)) (Fin 1) ℝ) (grad : Fin 1 → ℝ) (lam : Unit → Fin (1 + 1 + 1) → ℝ), Y 0 = 0 ∧
      rewind .backwardEuler .thomas (strainFunc (fun _ => (P fun _ => 10).model) 20 (fun k _ => k) (fun k _ => k) (fun _ _ => 300)) fp 20 (fun k _ => k) Y (fun _ _ _ => 1) 4 = .ok (grad, lam) ∧
      IsGradient (fun q b t y => (strainFunc (fun _ => (P q).model) 20 (fun k _ => k) (fun k _ => k) (fun _ _ => 300) b t y).1) 20 (fun k _ => k) Y (fun _ => 10) (fun _ _ _ => 1) grad lam := by
  intro P
  have hgrid : ∀ b : Unit, StrictGrid (20 - 1) fun k => (k : ℝ) := fun _ j _ => by push_cast; linarith
  have hadm : ∀ T, VCAdmissible (nk := 1) (fun _ => 100) (fun _ => 2) (fun _ => 10) (fun _ => 1) (fun _ => 3) (fun _ => 5) (fun _ _ => 7) (fun _ _ => 7) T := fun T => by
    constructor <;> norm_num
  have hS : ∀ T, (P fun _ => 10).Smooth T := fun T => ⟨hadm T, by norm_num [P], by norm_num [P], fun _ => le_rfl, fun _ => by norm_num [P]⟩
  have hD : ∀ T, VCParams.DiffAt P (fun _ => 10) T := fun T => by
    constructor <;> simp only [P] <;> first | exact contDiffAt_const | exact fun _ => contDiffAt_const | exact (contDiffAt_pi.1 contDiffAt_id) 0
  obtain ⟨⟨Y, hY0, hY⟩, -⟩ := C74_history (nk := 1) (β := Unit) (fun _ => 100) (fun _ => 2) (fun _ => 10) (fun _ => 1) (fun _ => 3) (fun _ => 5) (fun _ _ => 7) (fun _ _ => 7)
    (fun _ => rateFn 20 (fun k => (k : ℝ)) (fun k => (k : ℝ))) (fun _ => dataFn 20 (fun k => (k : ℝ)) (fun _ => 300)) 20 (fun k _ => (k : ℝ)) (fun k _ _ => by push_cast; linarith) 3 (fun _ => 1)
    (fun k b _ => ⟨hadm _, rfl, fun _ => by norm_num⟩) 0 (fun _ => ⟨⟨le_rfl, by norm_num⟩, fun _ => by norm_num⟩)
  have hY' : IsBackwardEuler (fun b t y => (strainFunc (fun _ => (P fun _ => 10).model) 20 (fun k _ => k) (fun k _ => k) (fun _ _ => 300) b t y).1) 20 (fun k (_ : Unit) => (k : ℝ)) Y := by
    rw [chaboche_eq_recovery _ _ (fun _ _ => 2)] at hY
    exact hY
  have hst : ∀ k, k < 20 → 0 ≤ Y k () 1 := fun k hk =>
    (C39_voce_range (fun _ => 100) (fun _ => 2) (fun _ => 10) (fun _ => 1) (fun _ => 3) (fun _ => 5) (chaboche (nback := 1) (fun _ _ => 7) (fun _ _ => 7))
      (fun _ => rateFn 20 (fun k => (k : ℝ)) (fun k => (k : ℝ))) (fun _ => dataFn 20 (fun k => (k : ℝ)) (fun _ => 300)) 20 (fun k _ => (k : ℝ)) (fun k _ _ => by push_cast; linarith) Y hY 3
      (fun _ _ _ => by norm_num) (fun _ _ _ => by norm_num) (fun _ => by rw [hY0]; norm_num) k () hk).1
  obtain ⟨grad, lam, h1, h2⟩ := C107_strain (β := Unit) .thomas (fun _ => P) (fun _ => 10) 20 (fun k _ => (k : ℝ)) (fun k _ => (k : ℝ)) (fun _ _ => 300) (by norm_num) hgrid (fun _ _ _ => hS _) (fun _ _ _ => hD _)
    (fun _ => 3) (fun _ _ => 1) (fun _ _ _ => rfl) (fun _ _ _ _ => by norm_num [P]) Y (fun _ => by rw [hY0]; exact ⟨⟨le_rfl, by norm_num⟩, fun _ => by norm_num⟩) hY'
    (fun b t y => LinearMap.toMatrix' (fderiv ℝ (fun q => (strainFunc (fun _ => (P q).model) 20 (fun k _ => k) (fun k _ => k) (fun _ _ => 300) b t y).1) (fun _ => 10)).toLinearMap)
    (fun k hk b => by
      rw [matCLM_surj]
      refine DifferentiableAt.hasFDerivAt (ContDiffAt.differentiableAt ?_ one_ne_zero)
      simp only [strainFunc]
      have hc : ∀ φ : (Fin 1 → ℝ) → ℝ, ContDiffAt ℝ 1 φ (fun _ => 10) → ContDiffAt ℝ 1 φ (fun _ => 10) := fun _ h => h
      have hDT := hD (dataFn 20 (fun k => (k : ℝ)) (fun _ => 300) k)
      have hST := hS (dataFn 20 (fun k => (k : ℝ)) (fun _ => 300) k)
      exact vc_contDiffAt (fun q => (P q).E) (fun q => (P q).n) (fun q => (P q).eta) (fun q => (P q).s0) (fun q => (P q).R) (fun q => (P q).d) (fun q => (P q).C) (fun q => (P q).g)
        (fun q => (P q).bb) (fun q => (P q).r) _ _ (fun _ => _) (fun _ => Y k b) (fun _ => 10) hDT.E hDT.n hDT.eta hDT.s0 hDT.R hDT.d hDT.C hDT.g hDT.bb hDT.r contDiffAt_const contDiffAt_const
        hST.n hST.adm.eta (add_pos_of_pos_of_nonneg hST.s0 (hst k hk)) hST.r)
    (fun _ _ _ => 1) 4 (by norm_num)
  exact ⟨Y, _, grad, lam, hY0, h1, h2⟩

/-- Non-vacuity: a creep test beyond yield of a Voce material whose hardening has saturated, the viscosity is the parameter; the strain is `k` at step `k`. -/
example : let P : (Fin 1 → ℝ) → VCParams 0 := fun q => ⟨fun _ => 100, fun _ => 2, fun _ => q 0, fun _ => 1, fun _ => 3, fun _ => 5, fun _ _ => 0, fun _ _ => 0, fun _ _ => 0, fun _ _ => 2⟩
    let Y : ℕ → Unit → Fin (1 + 0 + 1) → ℝ := fun k _ => Fin.cons (k : ℝ) fun _ => 3
    ∃ (fp : Unit → ℝ → (Fin (1 + 0 + 1) → ℝ) → Matrix (Fin (1 + 0 + 1)) (Fin 1) ℝ) (grad : Fin 1 → ℝ) (lam : Unit → Fin (1 + 0 + 1) → ℝ),
      rewind .backwardEuler .thomas (creepFunc (fun _ => (P fun _ => 1).E) (fun _ => (P fun _ => 1).flowRule) (fun _ => rateFn 20 (fun k => (k : ℝ)) fun _ => 5) (fun _ => dataFn 20 (fun k => (k : ℝ)) fun _ => 5)
        (fun _ => dataFn 20 (fun k => (k : ℝ)) fun _ => 300) (fun _ _ => 2)) fp 20 (fun k _ => k) Y (fun _ _ _ => 1) 4 = .ok (grad, lam) ∧
      IsGradient (fun q b t y => strainRates (P q).E (P q).flowRule (rateFn 20 (fun k => (k : ℝ)) (fun _ => 5) t) (dataFn 20 (fun k => (k : ℝ)) (fun _ => 5) t) (dataFn 20 (fun k => (k : ℝ)) (fun _ => 300) t) t y)
        20 (fun k _ => k) Y (fun _ => 1) (fun _ _ _ => 1) grad lam := by
  intro P Y
  have hgrid : ∀ b : Unit, StrictGrid (20 - 1) fun k => (k : ℝ) := fun _ j _ => by push_cast; linarith
  have hadm : ∀ T, VCAdmissible (nk := 0) (fun _ => 100) (fun _ => 2) (fun _ => 1) (fun _ => 1) (fun _ => 3) (fun _ => 5) (fun _ _ => 0) (fun _ _ => 0) T := fun T => by
    constructor <;> norm_num
  have hS : ∀ T, (P fun _ => 1).Smooth T := fun T => ⟨hadm T, by norm_num [P], by norm_num [P], fun _ => le_rfl, fun _ => by norm_num [P]⟩
  have hD : ∀ T, VCParams.DiffAt P (fun _ => 1) T := fun T => by
    constructor <;> simp only [P] <;> first | exact contDiffAt_const | exact fun _ => contDiffAt_const | exact (contDiffAt_pi.1 contDiffAt_id) 0
  have hY1 : ∀ k b, Y k b 1 = 3 := fun k b => rfl
  have hdata : ∀ k : ℕ, k < 20 → ∀ c : ℝ, dataFn 20 (fun k => (k : ℝ)) (fun _ => c) (k : ℝ) = c := fun k hk c => dataFn_grid (hgrid ()) (fun _ => c) hk (by norm_num)
  have hrate : ∀ k : ℕ, k + 1 < 20 → rateFn 20 (fun k => (k : ℝ)) (fun _ => (5 : ℝ)) ((k + 1 : ℕ) : ℝ) = 0 := fun k hk => by
    have := rateFn_grid (hgrid ()) (fun _ => (5 : ℝ)) (k := k) (by omega)
    push_cast at this ⊢
    simpa using this
  obtain ⟨grad, lam, h1, h2⟩ := C107_stress (β := Unit) .thomas (fun _ => P) (fun _ => 1) 20 (fun k _ => (k : ℝ)) (fun _ _ => 5) (fun _ _ => 300) (by norm_num) hgrid (fun _ _ _ => hS _) (fun _ _ _ => hD _)
    (fun _ _ _ => by norm_num [P]) (fun _ => 3) (fun _ i => i.elim0) (fun _ _ _ => rfl) (fun _ _ _ i => i.elim0) (fun _ => rateFn 20 (fun k => (k : ℝ)) fun _ => 5) (fun _ => dataFn 20 (fun k => (k : ℝ)) fun _ => 5)
    (fun _ => dataFn 20 (fun k => (k : ℝ)) fun _ => 300) rfl rfl rfl (fun _ _ => 2) (fun _ _ => by norm_num) Y (fun b => ⟨by rw [hY1 0 b]; norm_num, fun i => i.elim0⟩)
    (fun k b hk => by
      have hfl : (P fun _ => 1).flowRule.flow 5 (fun _ => 3) ((k + 1 : ℕ) : ℝ) 300 0 = 1 := by
        simp [VCParams.flowRule, P, isoKin, isoKinFlow, macaulay, isoPart, kinPart, voce, chabocheRecovery, sgn, heaviside, Real.sign_of_pos]
        norm_num [Real.sign_of_pos]
      funext i
      simp only
      rw [hrate k hk, hdata (k + 1) hk, hdata (k + 1) hk]
      refine Fin.cases ?_ (fun i => ?_) i
      · have := hfl
        simp [strainRates, Y] at this ⊢
        rw [this]
      · obtain rfl : i = 0 := Subsingleton.elim (α := Fin 1) i 0
        simp [strainRates, Y, VCParams.flowRule, P, isoKin, voce, isoPart]
        rfl)
    (fun b t y => LinearMap.toMatrix' (fderiv ℝ (recordedRates (fun q => (P q).model) (rateFn 20 (fun k => (k : ℝ)) (fun _ => 5) t) (dataFn 20 (fun k => (k : ℝ)) (fun _ => 5) t)
      (dataFn 20 (fun k => (k : ℝ)) (fun _ => 300) t) t y 2) (fun _ => 1)).toLinearMap)
    (fun k hk b => by
      rw [matCLM_surj]
      refine DifferentiableAt.hasFDerivAt ?_
      have hw : ∀ cs : ℝ, 0 ≤ (Fin.cons cs (fun j => Y k b j.succ) : Fin (1 + 0 + 1) → ℝ) 1 := fun cs => by
        change (0 : ℝ) ≤ 3; norm_num
      obtain ⟨⟨F', hF⟩, H', hH⟩ := flow_split P (fun _ => 1) (dataFn 20 (fun k => (k : ℝ)) (fun _ => 5) k) k (dataFn 20 (fun k => (k : ℝ)) (fun _ => 300) k) (fun j => Y k b j.succ) (hS _) (hD _) (hw _)
      have hin : DifferentiableAt ℝ (fun q : Fin 1 → ℝ => (q, fun j : Fin (1 + 0) => Y k b j.succ)) (fun _ => 1) := (hasFDerivAt_prodMk_left _ _).differentiableAt
      have hrec := fun q => C105_inelastic (fun q => (P q).E) (fun q => (P q).flowRule) (rateFn 20 (fun k => (k : ℝ)) (fun _ => 5) k) (dataFn 20 (fun k => (k : ℝ)) (fun _ => 5) k)
        (dataFn 20 (fun k => (k : ℝ)) (fun _ => 300) k) k (Y k b) 2 (fun _ _ _ _ _ _ => rfl) (fun _ _ _ _ _ _ => rfl) (fun _ _ _ _ _ _ => rfl) q (by norm_num [P])
      rw [differentiableAt_pi]
      intro i
      refine DifferentiableAt.congr_of_eventuallyEq ?_ (Eventually.of_forall fun q => congrFun (hrec q) i)
      refine Fin.cases ?_ (fun i => ?_) i
      · simp only [Fin.cons_zero, if_neg (show ¬(2 : ℕ) = 0 by norm_num)]
        have hc := DifferentiableAt.comp (fun _ => (1 : ℝ)) hF.hasFDerivAt.differentiableAt hin
        exact DifferentiableAt.const_add (rateFn 20 (fun k => (k : ℝ)) (fun _ => 5) k / 100) hc
      · simp only [Fin.cons_succ]
        exact (differentiableAt_pi.1 (DifferentiableAt.comp (fun _ => (1 : ℝ)) hH.hasFDerivAt.differentiableAt hin)) i)
    (fun _ _ _ => 1) 4 (by norm_num)
  exact ⟨_, grad, lam, h1, h2⟩

/-- **C107.** `PerfectViscoplasticity` under strain control: exact gradients for all strain histories, also where the stress passes zero, for exponents above one. -/
theorem C107_norton_strain (d : Direct) (E n eta : β → (Fin p → ℝ) → ℝ → ℝ) (p0 : Fin p → ℝ) (nt : ℕ) (times strains temps : ℕ → β → ℝ) (hnt : 1 < nt)
    (hg : ∀ b, StrictGrid (nt - 1) fun k => times k b)
    (hp : ∀ k b, k < nt → 0 ≤ E b p0 (temps k b) ∧ 1 < n b p0 (temps k b) ∧ 0 < eta b p0 (temps k b))
    (hd : ∀ k b, k < nt → ContDiffAt ℝ 1 (fun q => E b q (temps k b)) p0 ∧ ContDiffAt ℝ 1 (fun q => n b q (temps k b)) p0 ∧ ContDiffAt ℝ 1 (fun q => eta b q (temps k b)) p0)
    (Y : ℕ → β → Fin 1 → ℝ)
    (hY : IsBackwardEuler (fun b t y => (strainFunc (fun b => inelastic (E b p0) (perfect (n b p0) (eta b p0))) nt times strains temps b t y).1) nt times Y)
    (fp : β → ℝ → (Fin 1 → ℝ) → Matrix (Fin 1) (Fin p) ℝ)
    (hfp : ∀ k < nt, ∀ b, HasFDerivAt (fun q => (strainFunc (fun b => inelastic (E b q) (perfect (n b q) (eta b q))) nt times strains temps b (times k b) (Y k b)).1) (matCLM (fp b (times k b) (Y k b))) p0)
    (g : ℕ → β → Fin 1 → ℝ) (blockSize : ℤ) (hn : 0 < blockSize) :
    ∃ grad lam, rewind .backwardEuler d (strainFunc (fun b => inelastic (E b p0) (perfect (n b p0) (eta b p0))) nt times strains temps) fp nt times Y g blockSize = .ok (grad, lam) ∧
      IsGradient (fun q b t y => (strainFunc (fun b => inelastic (E b q) (perfect (n b q) (eta b q))) nt times strains temps b t y).1) nt times Y p0 g grad lam := by
  have ht : ∀ k b, k + 1 < nt → times k b ≤ times (k + 1) b := fun k b hk => (hg b k (by omega)).le
  have hT : ∀ k b, k < nt → dataFn nt (fun k => times k b) (fun k => temps k b) (times k b) = temps k b :=
    fun k b hk => dataFn_grid (hg b) (fun k => temps k b) hk hnt
  obtain ⟨y, h1, h2, h3, h4, grad, lam, h5, h6⟩ := C83_backward d (fun q b t y => (strainFunc (fun b => inelastic (E b q) (perfect (n b q) (eta b q))) nt times strains temps b t y).1)
    (fun b t y => (strainFunc (fun b => inelastic (E b p0) (perfect (n b p0) (eta b p0))) nt times strains temps b t y).2) fp nt (by omega) times Y p0 blockSize hn g hY
    (fun k hk b => by
      simp only [strainFunc]
      rw [hT (k + 1) b hk, isUnit_iff_ne_zero, Matrix.det_fin_one]
      obtain ⟨e0, n1, e1⟩ := hp (k + 1) b hk
      have hdt : 0 ≤ times (k + 1) b - times k b := by have := ht k b hk; linarith
      have h : 0 ≤ (times (k + 1) b - times k b) * (E b p0 (temps (k + 1) b) *
          (n b p0 (temps (k + 1) b) * (|Y (k + 1) b 0| / eta b p0 (temps (k + 1) b)) ^ (n b p0 (temps (k + 1) b) - 1) / eta b p0 (temps (k + 1) b))) :=
        mul_nonneg hdt (mul_nonneg e0 (div_nonneg (mul_nonneg (by linarith) (Real.rpow_nonneg (div_nonneg (abs_nonneg _) e1.le) _)) e1.le))
      rw [Matrix.sub_apply, Matrix.one_apply_eq, Matrix.smul_apply, smul_eq_mul]
      change 1 - (times (k + 1) b - times k b) * (-E b p0 (temps (k + 1) b) *
          (n b p0 (temps (k + 1) b) * (|Y (k + 1) b 0| / eta b p0 (temps (k + 1) b)) ^ (n b p0 (temps (k + 1) b) - 1) / eta b p0 (temps (k + 1) b))) ≠ 0
      intro h'
      linarith)
    (fun k hk b => by
      have hf := hfp k hk b
      simp only [strainFunc] at hf ⊢
      rw [hT k b hk] at hf ⊢
      obtain ⟨e0, n1, e1⟩ := hp k b hk
      obtain ⟨dE, dn, de⟩ := hd k b hk
      refine model_strict ?_ (C24_exact _ _ _ _ _ _ (C30_exact _ _ _ _ _ _ _ e1 (Or.inr n1.le))) hf
      have c1 : ∀ {φ : (Fin p → ℝ) → ℝ}, ContDiffAt ℝ 1 φ p0 → ContDiffAt ℝ 1 (fun x : (Fin p → ℝ) × (Fin 1 → ℝ) => φ x.1) (p0, Y k b) :=
        fun h => ContDiffAt.comp (p0, Y k b) h contDiffAt_fst
      have hs : ContDiffAt ℝ 1 (fun x : (Fin p → ℝ) × (Fin 1 → ℝ) => x.2 0) (p0, Y k b) := (contDiffAt_pi.1 contDiffAt_snd) 0
      have ho := overflow_contDiffAt (x := (p0, Y k b)) (c1 dn) (c1 de) hs (contDiffAt_const (c := (0 : ℝ))) n1 e1 (Eventually.of_forall fun _ => le_rfl)
      rw [contDiffAt_pi]
      intro i
      obtain rfl : i = 0 := Subsingleton.elim (α := Fin 1) i 0
      refine ((c1 dE).mul ((contDiffAt_const (c := rateFn nt (fun k => times k b) (fun k => strains k b) (times k b))).sub ho)).congr_of_eventuallyEq ?_
      have hev : ∀ᶠ x : (Fin p → ℝ) × (Fin 1 → ℝ) in 𝓝 (p0, Y k b), 0 < eta b x.1 (temps k b) := (c1 de).continuousAt.eventually (lt_mem_nhds e1)
      filter_upwards [hev] with x hx
      simp only [inelastic, perfect, Fin.cons_zero, overflow, sub_zero]
      rcases (div_nonneg (abs_nonneg (x.2 0)) hx.le).eq_or_lt with h | h
      · rw [← h, macaulay_of_nonpos le_rfl]
      · rw [macaulay_of_pos h])
  exact ⟨grad, lam, h5, y, h1, h2, h3, h4, h6⟩

/-- Non-vacuity: steady flow at the strain rate one under the stress one, exponent two; the exponent and the viscosity are the parameters. -/
example : ∃ (fp : Unit → ℝ → (Fin 1 → ℝ) → Matrix (Fin 1) (Fin 2) ℝ) (grad : Fin 2 → ℝ) (lam : Unit → Fin 1 → ℝ),
    rewind .backwardEuler .thomas (strainFunc (fun _ => inelastic (fun _ => 100) (perfect (fun _ => 2) (fun _ => 1))) 20 (fun k _ => k) (fun k _ => k) (fun _ _ => 300)) fp 20 (fun k (_ : Unit) => k)
      (fun _ _ _ => 1) (fun _ _ _ => 1) 4 = .ok (grad, lam) ∧
    IsGradient (fun q b t y => (strainFunc (fun _ => inelastic (fun _ => 100) (perfect (fun _ => q 0) (fun _ => q 1))) 20 (fun k _ => k) (fun k _ => k) (fun _ _ => 300) b t y).1)
      20 (fun k (_ : Unit) => k) (fun _ _ _ => 1) ![2, 1] (fun _ _ _ => 1) grad lam := by
  have hgrid : ∀ b : Unit, StrictGrid (20 - 1) fun k => (k : ℝ) := fun _ j _ => by push_cast; linarith
  obtain ⟨grad, lam, h1, h2⟩ := C107_norton_strain (β := Unit) (p := 2) .thomas (fun _ _ _ => 100) (fun _ q _ => q 0) (fun _ q _ => q 1) ![2, 1] 20 (fun k _ => (k : ℝ)) (fun k _ => (k : ℝ)) (fun _ _ => 300)
    (by norm_num) hgrid (fun _ _ _ => by norm_num) (fun _ _ _ => ⟨contDiffAt_const, (contDiffAt_pi.1 contDiffAt_id) 0, (contDiffAt_pi.1 contDiffAt_id) 1⟩) (fun _ _ _ => 1)
    (fun k b hk => by
      have hr := rateFn_grid (hgrid ()) (fun k => (k : ℝ)) (k := k) (by omega)
      push_cast at hr
      funext i
      obtain rfl : i = 0 := Subsingleton.elim (α := Fin 1) i 0
      simp [strainFunc, inelastic, perfect, sgn]
      simp at hr
      rw [hr]; norm_num)
    (fun b t y => LinearMap.toMatrix' (fderiv ℝ (fun q : Fin 2 → ℝ => (strainFunc (fun _ => inelastic (fun _ => 100) (perfect (fun _ => q 0) (fun _ => q 1))) 20 (fun k _ => k) (fun k _ => k) (fun _ _ => 300) b t y).1)
      ![2, 1]).toLinearMap)
    (fun k hk b => by
      rw [matCLM_surj]
      refine DifferentiableAt.hasFDerivAt ?_
      rw [differentiableAt_pi]
      intro i
      obtain rfl : i = 0 := Subsingleton.elim (α := Fin 1) i 0
      simp only [strainFunc, inelastic, perfect, Fin.cons_zero]
      have h0 : DifferentiableAt ℝ (fun q : Fin 2 → ℝ => q 0) ![2, 1] := differentiableAt_apply 0 _
      have h1 : DifferentiableAt ℝ (fun q : Fin 2 → ℝ => q 1) ![2, 1] := differentiableAt_apply 1 _
      have hne : (![2, 1] : Fin 2 → ℝ) 1 ≠ 0 := by norm_num
      have hq : DifferentiableAt ℝ (fun q : Fin 2 → ℝ => |(1 : ℝ)| / q 1) ![2, 1] := by
        simp only [div_eq_mul_inv]
        exact (h1.fun_inv hne).const_mul _
      have hp : DifferentiableAt ℝ (fun q : Fin 2 → ℝ => (|(1 : ℝ)| / q 1) ^ q 0) ![2, 1] :=
        hq.rpow h0 (by norm_num)
      exact ((differentiableAt_const _).fun_sub (hp.mul_const _)).const_mul _)
    (fun _ _ _ => 1) 4 (by norm_num)
  exact ⟨_, grad, lam, h1, h2⟩

end Pyoptmat.Props
