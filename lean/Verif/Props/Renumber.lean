import Verif.Spec.Renumber
import Verif.Props.Mirror

/-!
# C125: the numbering of the backstresses does not matter
-/

namespace Pyoptmat.Props

open Pyoptmat.Chunktime Pyoptmat.Ode Pyoptmat.Spec Pyoptmat.Material Pyoptmat.Control Pyoptmat.Mirror

variable {β : Type*} {nk : ℕ}

/-- **C125.** Chaboche hardening, with or without static recovery, with renumbered parameters is the same law in renumbered backstresses. -/
theorem C125_chaboche (π : Equiv.Perm (Fin nk)) (C g b r : Fin nk → ℝ → ℝ) :
    HardeningRenumbered π (chaboche C g) (chaboche (fun i => C (π i)) fun i => g (π i)) ∧
    HardeningRenumbered π (chabocheRecovery C g b r) (chabocheRecovery (fun i => C (π i)) (fun i => g (π i)) (fun i => b (π i)) fun i => r (π i)) := by
  have hd : ∀ (v : Fin nk → ℝ) i j, Matrix.diagonal (fun i => v (π i)) i j = Matrix.diagonal v (π i) (π j) := fun v i j => by
    by_cases h : i = j
    · subst h; simp
    · rw [Matrix.diagonal_apply_ne _ h, Matrix.diagonal_apply_ne _ fun e => h (π.injective e)]
  refine ⟨⟨fun h => ?_, fun h => rfl, fun _ _ _ _ _ _ => rfl, fun _ _ _ _ _ _ => rfl, fun s h t ep T e i j => ?_, fun _ _ _ _ _ _ => rfl,
    fun _ _ _ _ _ _ => rfl⟩, ⟨fun h => ?_, fun h => rfl, fun _ _ _ _ _ _ => rfl, fun _ _ _ _ _ _ => rfl, fun s h t ep T e i j => ?_,
    fun _ _ _ _ _ _ => rfl, fun _ _ _ _ _ _ => rfl⟩⟩
  · exact Equiv.sum_comp π h
  · exact hd (fun i => -g i T * |ep|) i j
  · exact Equiv.sum_comp π h
  · unfold chabocheRecovery
    dsimp only
    rw [Matrix.add_apply, Matrix.add_apply, ← hd, ← hd]
    rfl

/-! ## The material -/

/-- The permutation of the whole state. -/
private def permFn (π : Fin nk → Fin nk) : Fin (1 + nk + 1) → Fin (1 + nk + 1) :=
  Fin.cons 0 fun j => (Fin.addCases (motive := fun _ => Fin (1 + nk)) (fun i => Fin.castAdd nk i) (fun i => Fin.natAdd 1 (π i)) j).succ

private theorem permFn_zero (π : Fin nk → Fin nk) : permFn π 0 = 0 := rfl
private theorem permFn_iso (π : Fin nk → Fin nk) (i : Fin 1) : permFn π (Fin.castAdd nk i).succ = (Fin.castAdd nk i).succ := by simp [permFn]
private theorem permFn_kin (π : Fin nk → Fin nk) (i : Fin nk) : permFn π (Fin.natAdd 1 i).succ = (Fin.natAdd 1 (π i)).succ := by simp [permFn]

private theorem permFn_comp {π ρ : Fin nk → Fin nk} (h : ∀ i, π (ρ i) = i) (i : Fin (1 + nk + 1)) : permFn π (permFn ρ i) = i := by
  refine Fin.cases rfl (fun i => ?_) i
  refine Fin.addCases (fun j => ?_) (fun j => ?_) i
  · rw [permFn_iso, permFn_iso]
  · rw [permFn_kin, permFn_kin, h]

/-- The relabelling that renumbers the backstresses. -/
private def label (π : Equiv.Perm (Fin nk)) : Relabel (1 + nk + 1) where
  sign _ := 1
  perm := ⟨permFn π, permFn π.symm, permFn_comp (by simp), permFn_comp (by simp)⟩
  unit _ := Or.inl rfl

private theorem label_state (π : Equiv.Perm (Fin nk)) (y : Fin (1 + nk + 1) → ℝ) : (label π).state y = renumbered π y := by
  funext i
  change 1 * y (permFn π i) = _
  rw [one_mul]
  refine Fin.cases rfl (fun i => ?_) i
  refine Fin.addCases (fun j => ?_) (fun j => ?_) i
  · rw [permFn_iso]
    obtain rfl : j = 0 := Subsingleton.elim _ _
    simp only [renumbered, Fin.cons_succ, Fin.append_left]
    congr 1
    rw [Fin.ext_iff, Fin.val_one', Nat.mod_eq_of_lt (by omega)]; rfl
  · rw [permFn_kin]
    simp only [renumbered, Fin.cons_succ, Fin.append_right]

private theorem state_part (π : Equiv.Perm (Fin nk)) (y : Fin (1 + nk + 1) → ℝ) :
    isoPart (fun j => (label π).state y (Fin.succ j)) = isoPart (fun j => y j.succ) ∧
      kinPart (fun j => (label π).state y (Fin.succ j)) = kinPart (fun j => y j.succ) ∘ π := by
  constructor
  · funext j
    change 1 * y (permFn π (Fin.castAdd nk j).succ) = y (Fin.castAdd nk j).succ
    rw [one_mul, permFn_iso]
  · funext j
    change 1 * y (permFn π (Fin.natAdd 1 j).succ) = y (Fin.natAdd 1 (π j)).succ
    rw [one_mul, permFn_kin]

private theorem isoKin_same (π : Equiv.Perm (Fin nk)) (E n eta s0 : ℝ → ℝ) (iso : Hardening 1) (kin kin' : Hardening nk)
    (hk : HardeningRenumbered π kin kin') : SameModel (label π) (inelastic E (isoKin n eta s0 iso kin)) (inelastic E (isoKin n eta s0 iso kin')) := by
  intro t y e T
  obtain ⟨h1, h2⟩ := state_part π y
  have hs : (label π).sign 0 * e = e := one_mul e
  have h0 : (label π).state y 0 = y 0 := one_mul _
  have hflow : isoKinFlow n eta s0 iso kin' (y 0) (fun j => (label π).state y (Fin.succ j)) T = isoKinFlow n eta s0 iso kin (y 0) (fun j => y j.succ) T := by
    unfold isoKinFlow; dsimp only; rw [h1, h2, hk.value]
  have hds : isoKinDs n eta s0 iso kin' (y 0) (fun j => (label π).state y (Fin.succ j)) T = isoKinDs n eta s0 iso kin (y 0) (fun j => y j.succ) T := by
    unfold isoKinDs; dsimp only; rw [h1, h2, hk.value]
  have hdi : isoKinDiso n eta s0 iso kin' (y 0) (fun j => (label π).state y (Fin.succ j)) T = isoKinDiso n eta s0 iso kin (y 0) (fun j => y j.succ) T := by
    unfold isoKinDiso; dsimp only; rw [h1, h2, hk.value]
  have hdk : isoKinDkin n eta s0 iso kin' (y 0) (fun j => (label π).state y (Fin.succ j)) T = isoKinDkin n eta s0 iso kin (y 0) (fun j => y j.succ) T := by
    unfold isoKinDkin; dsimp only; rw [h1, h2, hk.value]
  have st : ∀ (x : Fin (1 + nk + 1) → ℝ) i, (label π).state x i = x (permFn π i) := fun x i => one_mul _
  have jt : ∀ (x : Matrix (Fin (1 + nk + 1)) (Fin (1 + nk + 1)) ℝ) i j, (label π).jac x i j = x (permFn π i) (permFn π j) := fun x i j => by
    change 1 * 1 * x _ _ = _; rw [one_mul, one_mul]; rfl
  rw [hs]
  refine ⟨?_, ?_, ?_⟩
  · unfold inelastic isoKin
    dsimp only
    rw [h0, h1, h2, hflow, hk.rate]
    funext i
    rw [st]
    refine Fin.cases rfl (fun i => ?_) i
    refine Fin.addCases (fun j => ?_) (fun j => ?_) i
    · rw [permFn_iso]; simp only [Fin.cons_succ, Fin.append_left]
    · rw [permFn_kin]; simp only [Fin.cons_succ, Fin.append_right, Function.comp_apply]
  · unfold inelastic isoKin
    dsimp only
    rw [h0, h1, h2, hflow, hds, hdi, hdk, hk.dvalue, hk.drate_ds, hk.drate_dep]
    funext i j
    refine Eq.trans ?_ (jt _ i j).symm
    refine Fin.cases ?_ (fun i => ?_) i <;> [skip; refine Fin.addCases (fun i' => ?_) (fun i' => ?_) i] <;> refine Fin.cases ?_ (fun j => ?_) j <;>
      [skip; refine Fin.addCases (fun j' => ?_) (fun j' => ?_) j; skip; refine Fin.addCases (fun j' => ?_) (fun j' => ?_) j; skip;
       refine Fin.addCases (fun j' => ?_) (fun j' => ?_) j] <;>
      simp only [permFn_zero, permFn_iso, permFn_kin, Fin.cons_zero, Fin.cons_succ, Fin.append_left, Fin.append_right, Function.comp_apply, hk.drate_dh]
  · unfold inelastic isoKin
    dsimp only
    rw [h0, h1, h2, hflow, hk.drate_de]
    funext i
    rw [st]
    change _ = 1 * _
    rw [one_mul]
    refine Fin.cases rfl (fun i => ?_) i
    refine Fin.addCases (fun j => ?_) (fun j => ?_) i
    · rw [permFn_iso]; simp only [Fin.cons_succ, Fin.append_left]
    · rw [permFn_kin]; simp only [Fin.cons_succ, Fin.append_right, Function.comp_apply]

/-- **C125.** Renumbering the backstresses of the Voce-Chaboche material (with or without recovery), possibly differently in every test, renumbers the
backstresses in the results and does nothing else: under strain, stress or mixed control, for every `ModelIntegrator`, tolerance and block size, with
the same warnings and errors. -/
theorem C125_model_integrator (π : β → Equiv.Perm (Fin nk)) (P : β → VCParams nk) (i : Integrator) (nt : ℕ) (times data temps : ℕ → β → ℝ)
    (control : β → ℝ) :
    i.strain (fun b => ((P b).renumber (π b)).model) nt times data temps =
      (i.strain (fun b => (P b).model) nt times data temps).map (fun r => (fun k => (r.1 k).map fun y b => renumbered (π b) (y b), r.2)) ∧
    i.stress (fun b => ((P b).renumber (π b)).model) nt times data temps =
      (i.stress (fun b => (P b).model) nt times data temps).map (fun r => (fun k => (r.1 k).map fun y b => renumbered (π b) (y b), r.2)) ∧
    i.both (fun b => ((P b).renumber (π b)).model) nt times temps data control =
      (i.both (fun b => (P b).model) nt times temps data control).map (fun r => (fun k => (r.1 k).map fun y b => renumbered (π b) (y b), r.2)) := by
  have hM : ∀ b, SameModel (label (π b)) (P b).model ((P b).renumber (π b)).model := fun b =>
    isoKin_same (π b) _ _ _ _ _ _ _ (C125_chaboche (π b) (P b).C (P b).g (P b).bb (P b).r).2
  have hr : relRun (fun b => label (π b)) = fun r : Partial β (1 + nk + 1) × Bool => (fun k => (r.1 k).map fun y b => renumbered (π b) (y b), r.2) := by
    funext r
    unfold relRun
    simp only [label_state]
  have hd : (fun k b => (label (π b)).sign 0 * data k b) = data := by funext k b; exact one_mul _
  have h1 := run_rel _ (strainFunc_rel (fun b => label (π b)) hM nt times data temps) i nt times
  have h2 := run_rel _ (stressFunc_rel (fun b => label (π b)) (fun _ => rfl) hM nt times data temps) i nt times
  have h3 := run_rel _ (bothFunc_rel (fun b => label (π b)) (fun _ => rfl) hM nt times data temps control) i nt times
  rw [hd, hr] at h1 h2 h3
  exact ⟨h1, h2, h3⟩

/-- **C125.** In particular the predicted stresses (strain control), strains (stress control) and isotropic strengths do not depend on the numbering. -/
theorem C125_predictions (π : β → Equiv.Perm (Fin nk)) (P : β → VCParams nk) (i : Integrator) (nt : ℕ) (times data temps : ℕ → β → ℝ)
    (control : β → ℝ) (res : Partial β (1 + nk + 1)) (w : Bool)
    (h : i.both (fun b => (P b).model) nt times temps data control = .ok (res, w)) :
    ∃ res', i.both (fun b => ((P b).renumber (π b)).model) nt times temps data control = .ok (res', w) ∧
      ∀ k b, res'.get k b 0 = res.get k b 0 ∧ res'.get k b 1 = res.get k b 1 ∧
        ∀ j, res'.get k b (Fin.natAdd 1 j).succ = res.get k b (Fin.natAdd 1 (π b j)).succ := by
  refine ⟨_, ((C125_model_integrator π P i nt times data temps control).2.2).trans (by rw [h]; rfl), fun k b => ?_⟩
  have h1 : (1 : Fin (1 + nk + 1)) = (Fin.castAdd nk (0 : Fin 1)).succ := by
    rw [Fin.ext_iff, Fin.val_one', Nat.mod_eq_of_lt (by omega)]; rfl
  have e : Partial.get (fun k => (res k).map fun y b => renumbered (π b) (y b)) k b = renumbered (π b) (res.get k b) := by
    unfold Partial.get
    cases hk : res k with
    | none =>
      simp only [hk, Option.map_none, Option.getD_none]
      funext i
      refine Fin.cases rfl (fun i => ?_) i
      refine Fin.addCases (fun j => ?_) (fun j => ?_) i <;> simp [renumbered]
    | some y => simp only [hk, Option.map_some, Option.getD_some]
  dsimp only
  rw [e]
  refine ⟨rfl, ?_, fun j => ?_⟩
  · conv_lhs => rw [h1]
    simp only [renumbered, Fin.cons_succ, Fin.append_left]
  · simp only [renumbered, Fin.cons_succ, Fin.append_right]

/-- Exchanging two backstresses with different parameters does change the material as stored, and the state. -/
example : ∃ (P : VCParams 2) (π : Equiv.Perm (Fin 2)) (y : Fin (1 + 2 + 1) → ℝ), P.renumber π ≠ P ∧ renumbered π y ≠ y := by
  refine ⟨⟨fun _ => 1, fun _ => 2, fun _ => 1, fun _ => 1, fun _ => 1, fun _ => 1, fun i _ => i.val, fun _ _ => 1, fun _ _ => 0, fun _ _ => 1⟩,
    Equiv.swap 0 1, fun i => i.val, fun h => ?_, fun h => ?_⟩
  · have := congrFun (congrFun (congrArg VCParams.C h) 0) 0
    simp [VCParams.renumber] at this
  · have := congrFun h (Fin.natAdd 1 (0 : Fin 2)).succ
    simp only [renumbered, Fin.cons_succ, Fin.append_right] at this
    simp at this

end Pyoptmat.Props
