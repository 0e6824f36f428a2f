import Verif.Proofs.Backprop
import Verif.Proofs.NewtonLimit
import Verif.Proofs.Kantorovich
import Verif.Proofs.Ift

/-! Helper lemmas: the Newton update of a backward Euler block as a function of parameters, start state and iterate. -/

namespace Pyoptmat.Ode

open Pyoptmat.Chunktime Pyoptmat.Newton Pyoptmat.Spec Filter Topology

variable {β : Type*} [Fintype β] {m : ℕ} {Q : Type*} [NormedAddCommGroup Q] [NormedSpace ℝ Q]
  (rate : Q → β → ℝ → (Fin m → ℝ) → Fin m → ℝ) (J : Q → β → ℝ → (Fin m → ℝ) → Matrix (Fin m) (Fin m) ℝ) {n : ℕ} (T : Fin n → β → ℝ) (tS : β → ℝ) (meth : SolveMethod)

/-- the program's update, on the rows of the block -/
noncomputable def progPhi (w : (Q × (β → Fin m → ℝ)) × (Fin n → β → Fin m → ℝ)) : Fin n → β → Fin m → ℝ :=
  let d : β → Fin (n * m) → ℝ := flatten fun k b => w.2 k b - w.1.2 b
  let RJ := blockRJ .backwardEuler (Func.lift fun b t y => (rate w.1.1 b t y, J w.1.1 b t y)) T tS w.1.2 d
  fun k b => unflatten (d - solve meth RJ.2 RJ.1) k b + w.1.2 b

/-- the same update, row by row -/
noncomputable def idealRow (w : (Q × (β → Fin m → ℝ)) × (Fin n → β → Fin m → ℝ)) : ℕ → β → Fin m → ℝ
  | 0 => w.1.2
  | k + 1 => fun b => if h : k < n then
      w.2 ⟨k, h⟩ b + (ContinuousLinearMap.id ℝ (Fin m → ℝ) - diff (stack tS T) ⟨k, h⟩ b • matCLM (J w.1.1 b (T ⟨k, h⟩ b) (w.2 ⟨k, h⟩ b))).inverse
        (idealRow w k b + diff (stack tS T) ⟨k, h⟩ b • rate w.1.1 b (T ⟨k, h⟩ b) (w.2 ⟨k, h⟩ b) - w.2 ⟨k, h⟩ b)
      else 0

noncomputable def idealPhi (w : (Q × (β → Fin m → ℝ)) × (Fin n → β → Fin m → ℝ)) : Fin n → β → Fin m → ℝ := fun k b => idealRow rate J T tS w (k.val + 1) b

omit [Fintype β] [NormedAddCommGroup Q] [NormedSpace ℝ Q] in
theorem iter_prog (K : ℕ) (z : Q × (β → Fin m → ℝ)) :
    paramIter (progPhi rate J T tS meth) (fun z _ b => z.2 b) K z = recordedBlock .backwardEuler meth (Func.lift fun b t y => (rate z.1 b t y, J z.1 b t y)) T tS z.2 K := by
  induction K with
  | zero =>
    funext k b
    unfold recordedBlock paramIter
    simp only [Function.iterate_zero, id_eq]
    have : unflatten (0 : β → Fin (n * m) → ℝ) k b = 0 := rfl
    rw [Pi.add_apply, this, zero_add]
  | succ K ih =>
    rw [paramIter, ih]
    unfold progPhi
    funext k b
    have e : (flatten fun (k : Fin n) b => recordedBlock .backwardEuler meth (Func.lift fun b t y => (rate z.1 b t y, J z.1 b t y)) T tS z.2 K k b - z.2 b) =
        (fun x => x - solve meth (blockRJ .backwardEuler (Func.lift fun b t y => (rate z.1 b t y, J z.1 b t y)) T tS z.2 x).2
          (blockRJ .backwardEuler (Func.lift fun b t y => (rate z.1 b t y, J z.1 b t y)) T tS z.2 x).1)^[K] 0 := by
      rw [← flatten_unflatten ((fun x => x - solve meth (blockRJ .backwardEuler (Func.lift fun b t y => (rate z.1 b t y, J z.1 b t y)) T tS z.2 x).2
          (blockRJ .backwardEuler (Func.lift fun b t y => (rate z.1 b t y, J z.1 b t y)) T tS z.2 x).1)^[K] 0)]
      congr 1
      funext k b
      unfold recordedBlock
      rw [Pi.add_apply, add_sub_cancel_right]
    simp only [e]
    unfold recordedBlock
    rw [Function.iterate_succ_apply']
    rfl

/-- all step matrices of the block are invertible -/
def Regular (w : (Q × (β → Fin m → ℝ)) × (Fin n → β → Fin m → ℝ)) : Prop :=
  ∀ k b, IsUnit (1 - diff (stack tS T) k b • J w.1.1 b (T k b) (w.2 k b)).det

omit [Fintype β] [NormedAddCommGroup Q] [NormedSpace ℝ Q] in
theorem prog_eq_ideal (w : (Q × (β → Fin m → ℝ)) × (Fin n → β → Fin m → ℝ)) (hw : Regular J T tS w) : progPhi rate J T tS meth w = idealPhi rate J T tS w := by
  have key : ∀ k (hk : k < n) b, progPhi rate J T tS meth w ⟨k, hk⟩ b = idealRow rate J T tS w (k + 1) b := by
    intro k
    induction k with
    | zero => ?_
    | succ k ih => ?_
    all_goals
      intro hk b
      have hn : 0 < n := by omega
      set d : β → Fin (n * m) → ℝ := flatten fun k b => w.2 k b - w.1.2 b with hd
      have hu : ∀ (k : Fin n) b, unflatten d k b = w.2 k b - w.1.2 b := by
        intro k b
        rw [hd, unflatten_flatten]
      have hs : ∀ (k : Fin n) b, (stack tS T : Fin (n + 1) → β → ℝ) k.succ b = T k b := fun k b => by simp [stack]
      have main := be_newton_update (fun b t y => (rate w.1.1 b t y, J w.1.1 b t y)) hn T tS w.1.2 meth d (by
        intro k b
        rw [hs, hu, sub_add_cancel]
        exact hw k b)
    · have main := main ⟨0, hk⟩ b
      simp only [hs, hu, sub_add_cancel] at main
      set x' := d - solve meth (blockRJ .backwardEuler (Func.lift fun b t y => (rate w.1.1 b t y, J w.1.1 b t y)) T tS w.1.2 d).2
        (blockRJ .backwardEuler (Func.lift fun b t y => (rate w.1.1 b t y, J w.1.1 b t y)) T tS w.1.2 d).1 with hx'
      have e1 : progPhi rate J T tS meth w ⟨0, hk⟩ b = unflatten x' ⟨0, hk⟩ b + w.1.2 b := rfl
      have e2 : (stack 0 (unflatten x') : Fin (n + 1) → BVec β m ℝ) (Fin.castSucc ⟨0, hk⟩) b = 0 := by simp [stack]
      rw [e1, idealRow]
      beta_reduce
      rw [dif_pos hk, ← sub_eq_iff_eq_add', eq_comm, (matCLM_isInvertible _ _ (hw ⟨0, hk⟩ b)).inverse_apply_eq]
      rw [e2, sub_zero] at main
      simp only [idealRow, ContinuousLinearMap.sub_apply, ContinuousLinearMap.smul_apply, ContinuousLinearMap.id_apply, matCLM_apply]
      have e3 : unflatten x' ⟨0, hk⟩ b - (w.2 ⟨0, hk⟩ b - w.1.2 b) = unflatten x' ⟨0, hk⟩ b + w.1.2 b - w.2 ⟨0, hk⟩ b := by abel
      rw [e3, smul_add] at main
      rw [eq_sub_iff_add_eq, add_sub_right_comm, add_assoc, ← main]
      abel
    · have main := main ⟨k + 1, hk⟩ b
      simp only [hs, hu, sub_add_cancel] at main
      set x' := d - solve meth (blockRJ .backwardEuler (Func.lift fun b t y => (rate w.1.1 b t y, J w.1.1 b t y)) T tS w.1.2 d).2
        (blockRJ .backwardEuler (Func.lift fun b t y => (rate w.1.1 b t y, J w.1.1 b t y)) T tS w.1.2 d).1 with hx'
      have e1 : progPhi rate J T tS meth w ⟨k + 1, hk⟩ b = unflatten x' ⟨k + 1, hk⟩ b + w.1.2 b := rfl
      have e2 : (stack 0 (unflatten x') : Fin (n + 1) → BVec β m ℝ) (Fin.castSucc ⟨k + 1, hk⟩) b = idealRow rate J T tS w (k + 1) b - w.1.2 b := by
        rw [← ih (by omega) b, eq_sub_iff_add_eq]
        rfl
      rw [e1, idealRow]
      beta_reduce
      rw [dif_pos hk, ← sub_eq_iff_eq_add', eq_comm, (matCLM_isInvertible _ _ (hw ⟨k + 1, hk⟩ b)).inverse_apply_eq]
      rw [e2] at main
      simp only [ContinuousLinearMap.sub_apply, ContinuousLinearMap.smul_apply, ContinuousLinearMap.id_apply, matCLM_apply]
      have e3 : unflatten x' ⟨k + 1, hk⟩ b - (w.2 ⟨k + 1, hk⟩ b - w.1.2 b) = unflatten x' ⟨k + 1, hk⟩ b + w.1.2 b - w.2 ⟨k + 1, hk⟩ b := by abel
      rw [e3, smul_add] at main
      have e4 : unflatten x' ⟨k + 1, hk⟩ b + w.1.2 b - w.2 ⟨k + 1, hk⟩ b = (unflatten x' ⟨k + 1, hk⟩ b - (idealRow rate J T tS w (k + 1) b - w.1.2 b)) + (idealRow rate J T tS w (k + 1) b - w.2 ⟨k + 1, hk⟩ b) := by abel
      rw [eq_sub_iff_add_eq]
      conv_rhs => rw [e4, main]
      abel
  funext k b
  exact key k.val k.2 b

/-- smoothness of rates and Jacobians at the rows -/
def SmoothAt (w : (Q × (β → Fin m → ℝ)) × (Fin n → β → Fin m → ℝ)) : Prop :=
  ∀ k b, ContDiffAt ℝ 1 (fun x : Q × (Fin m → ℝ) => rate x.1 b (T k b) x.2) (w.1.1, w.2 k b) ∧ ContDiffAt ℝ 1 (fun x : Q × (Fin m → ℝ) => matCLM (J x.1 b (T k b) x.2)) (w.1.1, w.2 k b)

variable {rate J T tS}

theorem idealRow_contDiffAt {w : (Q × (β → Fin m → ℝ)) × (Fin n → β → Fin m → ℝ)} (hw : Regular J T tS w) (hs : SmoothAt rate J T w) (k : ℕ) (b : β) :
    ContDiffAt ℝ 1 (fun w => idealRow rate J T tS w k b) w := by
  induction k with
  | zero =>
    simp only [idealRow]
    fun_prop
  | succ k ih =>
    simp only [idealRow]
    by_cases h : k < n
    · simp only [dif_pos h]
      have hx : ContDiffAt ℝ 1 (fun w : (Q × (β → Fin m → ℝ)) × (Fin n → β → Fin m → ℝ) => w.2 ⟨k, h⟩ b) w := by fun_prop
      have hp : ContDiffAt ℝ 1 (fun w : (Q × (β → Fin m → ℝ)) × (Fin n → β → Fin m → ℝ) => (w.1.1, w.2 ⟨k, h⟩ b)) w := by fun_prop
      have h1 : ContDiffAt ℝ 1 (fun w : (Q × (β → Fin m → ℝ)) × (Fin n → β → Fin m → ℝ) => rate w.1.1 b (T ⟨k, h⟩ b) (w.2 ⟨k, h⟩ b)) w :=
        ContDiffAt.comp (g := fun x : Q × (Fin m → ℝ) => rate x.1 b (T ⟨k, h⟩ b) x.2) w (hs ⟨k, h⟩ b).1 hp
      have h2 : ContDiffAt ℝ 1 (fun w : (Q × (β → Fin m → ℝ)) × (Fin n → β → Fin m → ℝ) => matCLM (J w.1.1 b (T ⟨k, h⟩ b) (w.2 ⟨k, h⟩ b))) w :=
        ContDiffAt.comp (g := fun x : Q × (Fin m → ℝ) => matCLM (J x.1 b (T ⟨k, h⟩ b) x.2)) w (hs ⟨k, h⟩ b).2 hp
      have h3 := contDiffAt_const (c := ContinuousLinearMap.id ℝ (Fin m → ℝ)) |>.sub (h2.const_smul (diff (stack tS T) ⟨k, h⟩ b))
      have h4 := ContDiffAt.comp (g := ContinuousLinearMap.inverse) w ((matCLM_isInvertible _ _ (hw ⟨k, h⟩ b)).contDiffAt_map_inverse (n := 1)) h3
      exact hx.add (h4.clm_apply ((ih.add (h1.const_smul (diff (stack tS T) ⟨k, h⟩ b))).sub hx))
    · simp only [dif_neg h]
      exact contDiffAt_const

theorem ideal_contDiffAt {w : (Q × (β → Fin m → ℝ)) × (Fin n → β → Fin m → ℝ)} (hw : Regular J T tS w) (hs : SmoothAt rate J T w) : ContDiffAt ℝ 1 (idealPhi rate J T tS) w := by
  rw [contDiffAt_pi]
  intro k
  rw [contDiffAt_pi]
  intro b
  exact idealRow_contDiffAt hw hs _ _

theorem regular_eventually {w : (Q × (β → Fin m → ℝ)) × (Fin n → β → Fin m → ℝ)} (hw : Regular J T tS w) (hs : SmoothAt rate J T w) : ∀ᶠ v in 𝓝 w, Regular J T tS v := by
  refine eventually_all.2 fun k => eventually_all.2 fun b => ?_
  have hp : ContinuousAt (fun w : (Q × (β → Fin m → ℝ)) × (Fin n → β → Fin m → ℝ) => (w.1.1, w.2 k b)) w := by fun_prop
  have h2 : ContinuousAt (fun w : (Q × (β → Fin m → ℝ)) × (Fin n → β → Fin m → ℝ) => matCLM (J w.1.1 b (T k b) (w.2 k b))) w :=
    ContinuousAt.comp (g := fun x : Q × (Fin m → ℝ) => matCLM (J x.1 b (T k b) x.2)) (f := fun w : (Q × (β → Fin m → ℝ)) × (Fin n → β → Fin m → ℝ) => (w.1.1, w.2 k b)) (hs k b).2.continuousAt hp
  have h3 : ContinuousAt (fun w : (Q × (β → Fin m → ℝ)) × (Fin n → β → Fin m → ℝ) => J w.1.1 b (T k b) (w.2 k b)) w := by
    refine continuousAt_pi.2 fun i => continuousAt_pi.2 fun j => ?_
    have := (continuousAt_pi.1 (h2.clm_apply (continuousAt_const (y := (Pi.single j 1 : Fin m → ℝ))))) i
    simpa [matCLM_apply] using this
  have hc : Continuous fun M : Matrix (Fin m) (Fin m) ℝ => (1 - diff (stack tS T) k b • M).det :=
    Continuous.matrix_det (continuous_const.sub (continuous_id.fun_const_smul _))
  have h4 := ((hc.tendsto _).comp h3).eventually_ne (hw k b).ne_zero
  exact h4.mono fun i hi => isUnit_iff_ne_zero.2 hi

theorem prog_eventuallyEq (meth : SolveMethod) {w : (Q × (β → Fin m → ℝ)) × (Fin n → β → Fin m → ℝ)} (hw : Regular J T tS w) (hs : SmoothAt rate J T w) :
    progPhi rate J T tS meth =ᶠ[𝓝 w] idealPhi rate J T tS :=
  (regular_eventually hw hs).mono fun v hv => prog_eq_ideal rate J T tS meth v hv

theorem prog_contDiffAt (meth : SolveMethod) {w : (Q × (β → Fin m → ℝ)) × (Fin n → β → Fin m → ℝ)} (hw : Regular J T tS w) (hs : SmoothAt rate J T w) :
    ContDiffAt ℝ 1 (progPhi rate J T tS meth) w :=
  (ideal_contDiffAt hw hs).congr_of_eventuallyEq (prog_eventuallyEq meth hw hs)

/-- the rows are an exact backward Euler block -/
def ExactBlock (rate : Q → β → ℝ → (Fin m → ℝ) → Fin m → ℝ) (T : Fin n → β → ℝ) (tS : β → ℝ) (w : (Q × (β → Fin m → ℝ)) × (Fin n → β → Fin m → ℝ)) : Prop :=
  ∀ (k : Fin n) b, w.2 k b = (stack w.1.2 w.2 : Fin (n + 1) → β → Fin m → ℝ) k.castSucc b + diff (stack tS T) k b • rate w.1.1 b (T k b) (w.2 k b)

omit [Fintype β] [NormedAddCommGroup Q] [NormedSpace ℝ Q] in
theorem ideal_fixed {w : (Q × (β → Fin m → ℝ)) × (Fin n → β → Fin m → ℝ)} (he : ExactBlock rate T tS w) (k : ℕ) (hk : k < n + 1) (b : β) :
    idealRow rate J T tS w k b = (stack w.1.2 w.2 : Fin (n + 1) → β → Fin m → ℝ) ⟨k, hk⟩ b := by
  induction k with
  | zero => simp [idealRow, stack]
  | succ k ih =>
    have h : k < n := by omega
    simp only [idealRow, dif_pos h]
    rw [ih (by omega)]
    have e := he ⟨k, h⟩ b
    have e2 : (Fin.castSucc ⟨k, h⟩ : Fin (n + 1)) = ⟨k, by omega⟩ := rfl
    rw [e2] at e
    rw [← e, sub_self, map_zero, add_zero]
    rfl

omit [Fintype β] [NormedAddCommGroup Q] [NormedSpace ℝ Q] in
theorem idealPhi_fixed {w : (Q × (β → Fin m → ℝ)) × (Fin n → β → Fin m → ℝ)} (he : ExactBlock rate T tS w) : idealPhi rate J T tS w = w.2 := by
  funext k b
  unfold idealPhi
  rw [ideal_fixed he (k.val + 1) (by omega) b]
  rfl

/-- at an exact block the update does not depend on the iterate, to first order -/
theorem idealRow_deriv {zs : Q × (β → Fin m → ℝ)} {xs : Fin n → β → Fin m → ℝ} (hw : Regular J T tS (zs, xs)) (hs : SmoothAt rate J T (zs, xs)) (he : ExactBlock rate T tS (zs, xs))
    (hJ : ∀ k b, HasFDerivAt (fun y => rate zs.1 b (T k b) y) (matCLM (J zs.1 b (T k b) (xs k b))) (xs k b)) (k : ℕ) (b : β) :
    HasFDerivAt (fun x => idealRow rate J T tS (zs, x) k b) (0 : (Fin n → β → Fin m → ℝ) →L[ℝ] (Fin m → ℝ)) xs := by
  induction k with
  | zero =>
    simp only [idealRow]
    exact hasFDerivAt_const _ _
  | succ k ih =>
    by_cases h : k < n
    · have ir := ideal_fixed (J := J) he k (by omega) b
      have ex := he ⟨k, h⟩ b
      have e2 : (Fin.castSucc ⟨k, h⟩ : Fin (n + 1)) = ⟨k, by omega⟩ := rfl
      rw [e2, ← ir] at ex
      simp only [idealRow, dif_pos h]
      set dt := diff (stack tS T) ⟨k, h⟩ b with hdt
      set P : (Fin n → β → Fin m → ℝ) →L[ℝ] (Fin m → ℝ) :=
        (ContinuousLinearMap.proj (R := ℝ) (φ := fun _ : β => Fin m → ℝ) b).comp (ContinuousLinearMap.proj (R := ℝ) (φ := fun _ : Fin n => β → Fin m → ℝ) ⟨k, h⟩) with hP
      have hx : HasFDerivAt (fun x : Fin n → β → Fin m → ℝ => x ⟨k, h⟩ b) P xs := P.hasFDerivAt
      have h1 : HasFDerivAt (fun x : Fin n → β → Fin m → ℝ => rate zs.1 b (T ⟨k, h⟩ b) (x ⟨k, h⟩ b)) ((matCLM (J zs.1 b (T ⟨k, h⟩ b) (xs ⟨k, h⟩ b))).comp P) xs :=
        HasFDerivAt.comp (g := fun y => rate zs.1 b (T ⟨k, h⟩ b) y) xs (hJ ⟨k, h⟩ b) hx
      have hin : ContDiffAt ℝ 1 (fun x : Fin n → β → Fin m → ℝ => (zs.1, x ⟨k, h⟩ b)) xs := by fun_prop
      have h2 : ContDiffAt ℝ 1 (fun x : Fin n → β → Fin m → ℝ => matCLM (J zs.1 b (T ⟨k, h⟩ b) (x ⟨k, h⟩ b))) xs :=
        ContDiffAt.comp (g := fun x : Q × (Fin m → ℝ) => matCLM (J x.1 b (T ⟨k, h⟩ b) x.2)) xs (hs ⟨k, h⟩ b).2 hin
      have h3 := contDiffAt_const (c := ContinuousLinearMap.id ℝ (Fin m → ℝ)) |>.sub (h2.const_smul dt)
      have hinv := matCLM_isInvertible _ _ (hw ⟨k, h⟩ b)
      have h4 := (ContDiffAt.comp (g := ContinuousLinearMap.inverse) xs (hinv.contDiffAt_map_inverse (n := 1)) h3).differentiableAt (by simp)
      have h5 := (ih.add (h1.const_smul dt)).sub hx
      have h6 := hx.add (h4.hasFDerivAt.clm_apply h5)
      refine h6.congr_fderiv ?_
      ext v i
      have hz : idealRow rate J T tS (zs, xs) k b + dt • rate zs.1 b (T ⟨k, h⟩ b) (xs ⟨k, h⟩ b) - xs ⟨k, h⟩ b = 0 := sub_eq_zero.2 ex.symm
      have e5 : (ContinuousLinearMap.id ℝ (Fin m → ℝ) - dt • matCLM (J zs.1 b (T ⟨k, h⟩ b) (xs ⟨k, h⟩ b))).inverse
          (dt • matCLM (J zs.1 b (T ⟨k, h⟩ b) (xs ⟨k, h⟩ b)) (P v) - P v) = -P v := by
        rw [hinv.inverse_apply_eq]
        simp
        abel
      simp only [Pi.add_apply, Pi.sub_apply, Pi.smul_apply, Function.comp_apply, ContinuousLinearMap.add_apply, ContinuousLinearMap.comp_apply, ContinuousLinearMap.sub_apply, ContinuousLinearMap.smul_apply,
        ContinuousLinearMap.flip_apply, ContinuousLinearMap.zero_apply, zero_add, hz, map_zero, add_zero]
      have e6 := congrFun e5 i
      simp only [Pi.neg_apply] at e6
      rw [e6, add_neg_cancel]
      rfl
    · simp only [idealRow, dif_neg h]
      exact hasFDerivAt_const _ _

/-- derivative of the update at an exact block -/
theorem prog_deriv (meth : SolveMethod) {zs : Q × (β → Fin m → ℝ)} {xs : Fin n → β → Fin m → ℝ} (hw : Regular J T tS (zs, xs)) (hs : SmoothAt rate J T (zs, xs)) (he : ExactBlock rate T tS (zs, xs))
    (hJ : ∀ k b, HasFDerivAt (fun y => rate zs.1 b (T k b) y) (matCLM (J zs.1 b (T k b) (xs k b))) (xs k b)) :
    ∃ D : (Q × (β → Fin m → ℝ)) →L[ℝ] (Fin n → β → Fin m → ℝ), HasFDerivAt (idealPhi rate J T tS) (D.coprod (0 : (Fin n → β → Fin m → ℝ) →L[ℝ] (Fin n → β → Fin m → ℝ))) (zs, xs) ∧
      HasFDerivAt (progPhi rate J T tS meth) (D.coprod (0 : (Fin n → β → Fin m → ℝ) →L[ℝ] (Fin n → β → Fin m → ℝ))) (zs, xs) := by
  have hc := ((ideal_contDiffAt hw hs).differentiableAt (by simp)).hasFDerivAt
  set F := fderiv ℝ (idealPhi rate J T tS) (zs, xs) with hF
  have hzero : F.comp (ContinuousLinearMap.inr ℝ (Q × (β → Fin m → ℝ)) (Fin n → β → Fin m → ℝ)) = 0 := by
    have hin : HasFDerivAt (fun x : Fin n → β → Fin m → ℝ => (zs, x)) (ContinuousLinearMap.inr ℝ (Q × (β → Fin m → ℝ)) (Fin n → β → Fin m → ℝ)) xs := hasFDerivAt_prodMk_right _ _
    have a := HasFDerivAt.comp (g := idealPhi rate J T tS) xs hc hin
    have b : HasFDerivAt (fun x => idealPhi rate J T tS (zs, x)) (0 : (Fin n → β → Fin m → ℝ) →L[ℝ] (Fin n → β → Fin m → ℝ)) xs := by
      refine hasFDerivAt_pi'.2 fun k => hasFDerivAt_pi'.2 fun b => ?_
      exact (idealRow_deriv hw hs he hJ (k.val + 1) b).congr_fderiv (by ext; rfl)
    exact a.unique b
  refine ⟨F.comp (ContinuousLinearMap.inl ℝ _ _), ?_⟩
  have e : (F.comp (ContinuousLinearMap.inl ℝ (Q × (β → Fin m → ℝ)) (Fin n → β → Fin m → ℝ))).coprod (0 : (Fin n → β → Fin m → ℝ) →L[ℝ] (Fin n → β → Fin m → ℝ)) = F := by
    rw [← hzero]
    ext v <;> simp
  rw [e]
  exact ⟨hc, hc.congr_of_eventuallyEq (prog_eventuallyEq meth hw hs)⟩

end Pyoptmat.Ode
