import Verif.Proofs.BlockNewton
import Mathlib.Analysis.Calculus.FDeriv.Add
import Mathlib.Analysis.Calculus.FDeriv.Mul
import Mathlib.Analysis.Calculus.FDeriv.Comp
import Mathlib.Analysis.Calculus.FDeriv.Pi
import Mathlib.Analysis.Calculus.FDeriv.Linear
import Mathlib.Analysis.Calculus.Deriv.Pow
import Mathlib.Analysis.Calculus.Deriv.Basic

/-!
# Property C17: the block operator is the derivative of the block residual
-/

namespace Pyoptmat.Props

open Pyoptmat.Chunktime Pyoptmat.Newton Pyoptmat.Spec Pyoptmat.Ode

variable {β : Type*} {m : ℕ}

/-- rows of a flat vector -/
noncomputable def rowCLM {n : ℕ} (k : Fin n) : (Fin (n * m) → ℝ) →L[ℝ] (Fin m → ℝ) :=
  ContinuousLinearMap.pi fun r => ContinuousLinearMap.proj (finProdFinEquiv (k, r))

/-- the row before row `k`, zero for `k = 0` -/
noncomputable def prevCLM {n : ℕ} (k : Fin n) : (Fin (n * m) → ℝ) →L[ℝ] (Fin m → ℝ) :=
  if h : 0 < k.val then rowCLM ⟨k.val - 1, by omega⟩ else 0

theorem stack_prev {n : ℕ} (dy : β → Fin (n * m) → ℝ) (k : Fin n) (b : β) :
    (stack 0 (unflatten dy) : Fin (n + 1) → BVec β m ℝ) k.castSucc b = prevCLM k (dy b) := by
  obtain ⟨k, hk⟩ := k
  cases k with
  | zero => simp [prevCLM, stack]
  | succ k =>
    have : (Fin.castSucc ⟨k + 1, hk⟩ : Fin (n + 1)) = Fin.succ ⟨k, by omega⟩ := by ext; simp
    rw [this]
    simp only [stack, Fin.cons_succ, prevCLM]
    rw [dif_pos (Nat.succ_pos k)]
    rfl

theorem unflatten_row {n : ℕ} (dy : β → Fin (n * m) → ℝ) (k : Fin n) (b : β) :
    unflatten dy k b = rowCLM k (dy b) := rfl

/-- **C17.** The residual of a batch entry depends on the increments of that entry only, and its derivative with
respect to them is the dense matrix of the bidiagonal operator, whenever the right hand side returns its own
derivative at the states of the block. Both schemes. -/
theorem C17_block_jacobian [DecidableEq β] (s : Scheme) (f : Func β m) {n : ℕ} (T : Fin n → β → ℝ)
    (tStart : β → ℝ) (yStart : BVec β m ℝ) (dy : β → Fin (n * m) → ℝ) (b : β)
    (hf : ∀ (t : ℝ) (k : Fin n), HasFDerivAt (fun y => (f b t y).1)
      (matCLM (f b t (unflatten dy k b + yStart b)).2) (unflatten dy k b + yStart b)) :
    (∀ dy' : β → Fin (n * m) → ℝ, dy' b = dy b →
      (blockRJ s f T tStart yStart dy').1 b = (blockRJ s f T tStart yStart dy).1 b) ∧
    HasFDerivAt (fun x => (blockRJ s f T tStart yStart (Function.update dy b x)).1 b)
      (matCLM (bidiagonalMatrix (fun k => (blockRJ s f T tStart yStart dy).2.A k b)
        (fun k => (blockRJ s f T tStart yStart dy).2.B k b))) (dy b) := by
  have hrow : ∀ (dy : β → Fin (n * m) → ℝ) (k : Fin n) (r : Fin m),
      (blockRJ s f T tStart yStart dy).1 b (finProdFinEquiv (k, r)) =
        unflatten (blockRJ s f T tStart yStart dy).1 k b r := fun _ _ _ => rfl
  constructor
  · intro dy' h
    funext i
    obtain ⟨⟨k, r⟩, rfl⟩ := finProdFinEquiv.surjective i
    rw [hrow, hrow]
    cases s with
    | backwardEuler => rw [be_residual, be_residual]; simp only [unflatten_row, stack_prev, h]
    | forwardEuler => rw [fe_residual, fe_residual]; simp only [unflatten_row, stack_prev, h]
  · rw [hasFDerivAt_pi']
    intro i
    obtain ⟨⟨k, r⟩, rfl⟩ := finProdFinEquiv.surjective i
    simp only [hrow]
    have hfk : ∀ t, HasFDerivAt (fun x => (f b t (rowCLM k x + yStart b)).1)
        ((matCLM (f b t (rowCLM k (dy b) + yStart b)).2).comp (rowCLM k)) (dy b) := by
      intro t
      have h1 : HasFDerivAt (fun x => rowCLM k x + yStart b) (rowCLM (m := m) k) (dy b) :=
        (rowCLM (m := m) k).hasFDerivAt.add_const _
      exact (hf t k).comp (dy b) h1
    cases s with
    | backwardEuler =>
      have hfun : (fun x => unflatten (blockRJ .backwardEuler f T tStart yStart (Function.update dy b x)).1 k b r) =
          fun x => (rowCLM k x - prevCLM k x - diff (stack tStart T) k b •
            (f b (stack tStart T k.succ b) (rowCLM k x + yStart b)).1) r := by
        funext x
        rw [be_residual]
        simp only [unflatten_row, stack_prev, Function.update_self]
      rw [hfun]
      have hd := (((rowCLM (m := m) k).hasFDerivAt (x := dy b)).sub
        ((prevCLM (m := m) k).hasFDerivAt (x := dy b))).sub
        ((hfk (stack tStart T k.succ b)).const_smul (diff (stack tStart T) k b))
      have hd' := ((ContinuousLinearMap.proj (R := ℝ) (φ := fun _ : Fin m => ℝ) r).hasFDerivAt).comp (dy b) hd
      refine hd'.congr_fderiv ?_
      ext x
      simp only [ContinuousLinearMap.comp_apply, ContinuousLinearMap.sub_apply, ContinuousLinearMap.smul_apply,
        ContinuousLinearMap.proj_apply, matCLM, LinearMap.coe_toContinuousLinearMap', Matrix.mulVecLin_apply]
      rw [bidiagonalMatrix_mulVec]
      have hA : (blockRJ .backwardEuler f T tStart yStart dy).2.A k b =
          1 - diff (stack tStart T) k b • (f b (stack tStart T k.succ b) (rowCLM k (dy b) + yStart b)).2 := rfl
      rw [hA, Matrix.sub_mulVec, Matrix.one_mulVec, Matrix.smul_mulVec]
      have hp : (if h : 0 < k.val then ((blockRJ .backwardEuler f T tStart yStart dy).2.B ⟨k.val - 1, by omega⟩ b).mulVec
          (fun c => x (finProdFinEquiv (⟨k.val - 1, by omega⟩, c))) r else 0) = -prevCLM k x r := by
        unfold prevCLM
        split_ifs with h
        · show ((-1 : Matrix (Fin m) (Fin m) ℝ).mulVec _) r = _
          rw [Matrix.neg_mulVec, Matrix.one_mulVec]
          rfl
        · simp
      rw [hp]
      simp only [Pi.sub_apply, Pi.smul_apply]
      have hr : (fun c => x (finProdFinEquiv (k, c))) = rowCLM k x := rfl
      have hr' : x (finProdFinEquiv (k, r)) = rowCLM k x r := rfl
      rw [hr, hr']
      ring
    | forwardEuler =>
      have hfun : (fun x => unflatten (blockRJ .forwardEuler f T tStart yStart (Function.update dy b x)).1 k b r) =
          fun x => (rowCLM k x - prevCLM k x - diff (stack tStart T) k b •
            (f b (stack tStart T k.castSucc b) (prevCLM k x + yStart b)).1) r := by
        funext x
        rw [fe_residual]
        simp only [unflatten_row, stack_prev, Function.update_self]
      rw [hfun]
      have hfp : HasFDerivAt (fun x => (f b (stack tStart T k.castSucc b) (prevCLM k x + yStart b)).1)
          ((matCLM (f b (stack tStart T k.castSucc b) (prevCLM k (dy b) + yStart b)).2).comp (prevCLM k)) (dy b) := by
        by_cases h : 0 < k.val
        · have h1 : HasFDerivAt (fun x => prevCLM k x + yStart b) (prevCLM (m := m) k) (dy b) :=
            (prevCLM (m := m) k).hasFDerivAt.add_const _
          have h2 : prevCLM k (dy b) = unflatten dy ⟨k.val - 1, by omega⟩ b := by
            unfold prevCLM; rw [dif_pos h]; rfl
          have h3 := hf (stack tStart T k.castSucc b) ⟨k.val - 1, by omega⟩
          rw [← h2] at h3
          exact h3.comp (dy b) h1
        · have h0 : prevCLM (m := m) k = 0 := by unfold prevCLM; rw [dif_neg h]
          rw [h0]
          simp only [ContinuousLinearMap.zero_apply, ContinuousLinearMap.comp_zero]
          exact hasFDerivAt_const _ _
      have hd := (((rowCLM (m := m) k).hasFDerivAt (x := dy b)).sub
        ((prevCLM (m := m) k).hasFDerivAt (x := dy b))).sub
        (hfp.const_smul (diff (stack tStart T) k b))
      have hd' := ((ContinuousLinearMap.proj (R := ℝ) (φ := fun _ : Fin m => ℝ) r).hasFDerivAt).comp (dy b) hd
      refine hd'.congr_fderiv ?_
      ext x
      simp only [ContinuousLinearMap.comp_apply, ContinuousLinearMap.sub_apply, ContinuousLinearMap.smul_apply,
        ContinuousLinearMap.proj_apply, matCLM, LinearMap.coe_toContinuousLinearMap', Matrix.mulVecLin_apply]
      rw [bidiagonalMatrix_mulVec]
      have hA : (blockRJ .forwardEuler f T tStart yStart dy).2.A k b = 1 := rfl
      rw [hA, Matrix.one_mulVec]
      have hp : (if h : 0 < k.val then ((blockRJ .forwardEuler f T tStart yStart dy).2.B ⟨k.val - 1, by omega⟩ b).mulVec
          (fun c => x (finProdFinEquiv (⟨k.val - 1, by omega⟩, c))) r else 0) = -prevCLM k x r -
          diff (stack tStart T) k b * (f b (stack tStart T k.castSucc b)
            (prevCLM k (dy b) + yStart b)).2.mulVec (prevCLM k x) r := by
        by_cases h : 0 < k.val
        · rw [dif_pos h]
          have hB := rowB_eq .forwardEuler (stack 0 (unflatten dy))
            (fun k b => (f b (stack tStart T k b)
              ((stack 0 (unflatten dy) : Fin (n + 1) → BVec β m ℝ) k b + yStart b)).1)
            (fun k b => (f b (stack tStart T k b)
              ((stack 0 (unflatten dy) : Fin (n + 1) → BVec β m ℝ) k b + yStart b)).2)
            (diff (stack tStart T)) (k.val - 1) (by omega)
          have hk : (⟨k.val - 1 + 1, by omega⟩ : Fin n) = k := by ext; simp; omega
          rw [hk] at hB
          have hB2 : (blockRJ .forwardEuler f T tStart yStart dy).2.B ⟨k.val - 1, by omega⟩ b =
              -1 - diff (stack tStart T) k b • (f b (stack tStart T k.castSucc b)
                (prevCLM k (dy b) + yStart b)).2 := by
            rw [← stack_prev]
            exact (congrFun hB b).symm
          rw [hB2]
          have hx : (fun c => x (finProdFinEquiv (⟨k.val - 1, by omega⟩, c))) = prevCLM k x := by
            unfold prevCLM; rw [dif_pos h]; rfl
          rw [hx, Matrix.sub_mulVec, Matrix.neg_mulVec, Matrix.one_mulVec, Matrix.smul_mulVec]
          rfl
        · rw [dif_neg h]
          have h0 : prevCLM (m := m) k = 0 := by unfold prevCLM; rw [dif_neg h]
          simp [h0]
      rw [hp]
      simp only [Pi.sub_apply, Pi.smul_apply, smul_eq_mul]
      have hr' : x (finProdFinEquiv (k, r)) = rowCLM k x r := rfl
      rw [hr']
      ring

/-- Non-vacuity: `y' = y²` with Jacobian `2y`, satisfies the hypothesis everywhere. -/
example (t : ℝ) (y : Fin 1 → ℝ) : HasFDerivAt (fun y : Fin 1 → ℝ => fun _ : Fin 1 => y 0 ^ 2)
    (matCLM (Matrix.of fun _ _ => 2 * y 0)) y := by
  rw [hasFDerivAt_pi']
  intro i
  have h1 : HasFDerivAt (fun y : Fin 1 → ℝ => y 0) (ContinuousLinearMap.proj (R := ℝ) (φ := fun _ : Fin 1 => ℝ) 0) y :=
    (ContinuousLinearMap.proj (R := ℝ) (φ := fun _ : Fin 1 => ℝ) 0).hasFDerivAt
  refine (h1.pow 2).congr_fderiv ?_
  ext x
  simp [matCLM, Matrix.mulVec, dotProduct]

end Pyoptmat.Props
