import Verif.Proofs.Mirror
import Verif.Proofs.MirrorMaterial
import Mathlib.LinearAlgebra.Matrix.Permutation

/-!
# Relabelled states in the three control modes (for C124 and C125)
-/

namespace Pyoptmat.Mirror

open Pyoptmat.Chunktime Pyoptmat.Newton Pyoptmat.Ode Pyoptmat.Spec Pyoptmat.Material Pyoptmat.Control Pyoptmat.Solvers

variable {β : Type*} {m : ℕ}

/-- The matrix of a relabelling. -/
def relMat (r : Relabel m) : Matrix (Fin m) (Fin m) ℝ := fun i j => if j = r.perm i then r.sign i else 0

theorem sign_sq (r : Relabel m) (i : Fin m) : r.sign i * r.sign i = 1 := by
  rcases r.unit i with h | h <;> rw [h] <;> norm_num

theorem relMat_mulVec (r : Relabel m) (y : Fin m → ℝ) : (relMat r).mulVec y = r.state y := by
  funext i
  simp [relMat, Matrix.mulVec, dotProduct, Relabel.state, ite_mul]

theorem relMat_mul (r : Relabel m) (X : Matrix (Fin m) (Fin m) ℝ) (i j : Fin m) : (relMat r * X) i j = r.sign i * X (r.perm i) j := by
  simp [relMat, Matrix.mul_apply, ite_mul]

theorem mul_relMat (r : Relabel m) (X : Matrix (Fin m) (Fin m) ℝ) (i j : Fin m) : (X * (relMat r).transpose) i j = X i (r.perm j) * r.sign j := by
  simp [relMat, Matrix.mul_apply]

theorem relMat_conj (r : Relabel m) (J : Matrix (Fin m) (Fin m) ℝ) : relMat r * J * (relMat r).transpose = r.jac J := by
  funext i j
  rw [mul_relMat, relMat_mul]
  unfold Relabel.jac
  ring

theorem relMat_one (r : Relabel m) : relMat r * (relMat r).transpose = 1 := by
  ext i j
  rw [relMat_mul, Matrix.transpose_apply]
  unfold relMat
  by_cases h : i = j
  · subst h
    rw [if_pos rfl, sign_sq, Matrix.one_apply_eq]
  · rw [if_neg fun e => h (r.perm.injective e), mul_zero, Matrix.one_apply_ne h]

theorem rel_orthogonal (r : β → Relabel m) : Orthogonal fun b => relMat (r b) := fun b =>
  ⟨relMat_one (r b), mul_eq_one_comm.1 (relMat_one (r b))⟩

/-! ## The interpolated data -/

theorem interpFn_scale (n : ℕ) (times vals : ℕ → ℝ) (c s : ℝ) :
    Interp.interpFn n times (fun k => c * vals k) s = c * Interp.interpFn n times vals s := by
  have h1 : Interp.poss times (fun k => c * vals k) s = fun j => c * Interp.poss times vals s j := by
    funext j; unfold Interp.poss Interp.slope; ring
  unfold Interp.interpFn Interp.hits
  rw [h1]
  generalize (List.range n).filter _ = l
  cases l <;> simp

theorem dataFn_scale (nt : ℕ) (times data : ℕ → ℝ) (c s : ℝ) : dataFn nt times (fun k => c * data k) s = c * dataFn nt times data s :=
  interpFn_scale _ _ _ _ _

theorem rateFn_scale (nt : ℕ) (times data : ℕ → ℝ) (c s : ℝ) : rateFn nt times (fun k => c * data k) s = c * rateFn nt times data s := by
  have h : rateData times (fun k => c * data k) = fun k => c * rateData times data k := by
    funext k; unfold rateData; split
    · simp
    · rw [← mul_sub, mul_div_assoc]
  unfold rateFn
  rw [h]
  exact interpFn_scale _ _ _ _ _

/-! ## The control modes -/

section Control

variable (r : β → Relabel (m + 1)) (h0 : ∀ b, (r b).perm 0 = 0) {model model' : β → Model (m + 1)}
  (hM : ∀ b, SameModel (r b) (model b) (model' b))

include h0 in
theorem imposed_rel (b : β) (cs : ℝ) (y : Fin (m + 1) → ℝ) :
    imposed ((r b).sign 0 * cs) ((r b).state y) = (r b).state (imposed cs y) := by
  funext i
  unfold imposed Relabel.state
  by_cases hi : i = 0
  · subst hi
    rw [Function.update_self, h0, Function.update_self]
  · have : (r b).perm i ≠ 0 := fun h => hi ((r b).perm.injective (h.trans (h0 b).symm))
    rw [Function.update_of_ne hi, Function.update_of_ne this]

/-- A scaled strain rate. -/
def scale1 (σ : β → ℝ) (x : β → Fin 1 → ℝ) : β → Fin 1 → ℝ := fun b i => σ b * x b i

include h0 hM in
theorem stressSolve_rel (csr cs cT t : β → ℝ) (y : β → Fin (m + 1) → ℝ) :
    (stressSolve model' (fun b => (r b).sign 0 * csr b) (fun b => (r b).sign 0 * cs b) cT t fun b => (r b).state (y b)).x =
      fun b i => (r b).sign 0 * (stressSolve model csr cs cT t y).x b i := by
  have hfn : ∀ x, stressRJ model' (fun b => (r b).sign 0 * csr b) (fun b => (r b).sign 0 * cs b) cT t (fun b => (r b).state (y b))
      (scale1 (fun b => (r b).sign 0) x) = (scale1 (fun b => (r b).sign 0) (stressRJ model csr cs cT t y x).1, id (stressRJ model csr cs cT t y x).2) := by
    intro x
    unfold stressRJ scale1
    dsimp only [id]
    refine Prod.ext ?_ ?_
    · funext b i
      dsimp only
      rw [imposed_rel r h0, ((hM b) _ _ _ _).1]
      unfold Relabel.state
      rw [h0]
      ring
    · funext b i j
      dsimp only
      rw [imposed_rel r h0, ((hM b) _ _ _ _).2.2]
      unfold Relabel.state
      rw [h0, ← mul_assoc, sign_sq, one_mul]
  have hnorm : ∀ (x : β → Fin 1 → ℝ) b, rowNorm (scale1 (fun b => (r b).sign 0) x b) = rowNorm (x b) := by
    intro x b
    unfold rowNorm scale1
    congr 1
    refine Finset.sum_congr rfl fun i _ => ?_
    rw [mul_pow, pow_two ((r b).sign 0), sign_sq, one_mul]
  have h := loop_t id (scale1 fun b => (r b).sign 0) (stressRJ model csr cs cT t y)
    (stressRJ model' (fun b => (r b).sign 0 * csr b) (fun b => (r b).sign 0 * cs b) cT t fun b => (r b).state (y b))
    jacobiLinearSolve jacobiLinearSolve (fun x y => by funext b i; simp [scale1, mul_sub]) hnorm hfn
    (fun J R => by funext b i; simp [jacobiLinearSolve, scale1, mul_div_assoc]) 1e-6 1e-10
    (fun b => some (rowNorm ((stressRJ model csr cs cT t y 0).1 b))) (100 : ℤ).toNat 0
  have hz : scale1 (fun b => (r b).sign 0) (0 : β → Fin 1 → ℝ) = 0 := by funext b i; simp [scale1]
  have hn : (fun b => some (rowNorm ((stressRJ model' (fun b => (r b).sign 0 * csr b) (fun b => (r b).sign 0 * cs b) cT t
      (fun b => (r b).state (y b)) 0).1 b))) = fun b => some (rowNorm ((stressRJ model csr cs cT t y 0).1 b)) := by
    funext b
    have := hfn 0
    rw [hz] at this
    rw [this]
    dsimp only
    rw [hnorm]
  rw [hz] at h
  unfold stressSolve newtonRaphson
  dsimp only
  rw [hn]
  exact congrArg Prod.fst h

include h0 hM in
theorem stressOut_rel (b : β) (cs cT t : ℝ) (y : Fin (m + 1) → ℝ) (e : ℝ) :
    stressOut (model' b) ((r b).sign 0 * cs) cT t ((r b).state y) ((r b).sign 0 * e) =
      ((r b).state (stressOut (model b) cs cT t y e).1, (r b).jac (stressOut (model b) cs cT t y e).2) := by
  obtain ⟨h1, h2, h3⟩ := (hM b) t (imposed cs y) e cT
  have hp : ∀ i, i ≠ 0 → (r b).perm i ≠ 0 := fun i hi h => hi ((r b).perm.injective (h.trans (h0 b).symm))
  unfold stressOut
  dsimp only
  rw [imposed_rel r h0]
  refine Prod.ext ?_ ?_
  · dsimp only
    rw [h1]
    exact imposed_rel r h0 b e _
  · dsimp only
    funext i j
    change (if j = 0 then (0 : ℝ) else if i = 0 then -(model' b t ((r b).state (imposed cs y)) ((r b).sign 0 * e) cT).J 0 j /
        (model' b t ((r b).state (imposed cs y)) ((r b).sign 0 * e) cT).Je 0
        else (model' b t ((r b).state (imposed cs y)) ((r b).sign 0 * e) cT).J i j) =
      (r b).sign i * (r b).sign j * (if (r b).perm j = 0 then (0 : ℝ) else if (r b).perm i = 0 then
        -(model b t (imposed cs y) e cT).J 0 ((r b).perm j) / (model b t (imposed cs y) e cT).Je 0
        else (model b t (imposed cs y) e cT).J ((r b).perm i) ((r b).perm j))
    rw [h2, h3]
    by_cases hj : j = 0
    · subst hj
      rw [if_pos rfl, if_pos (h0 b), mul_zero]
    · rw [if_neg hj, if_neg (hp j hj)]
      by_cases hi : i = 0
      · subst hi
        rw [if_pos rfl, if_pos (h0 b)]
        unfold Relabel.jac Relabel.state
        dsimp only
        rw [h0, ← mul_assoc ((r b).sign 0) ((r b).sign 0), sign_sq, one_mul]
        ring
      · rw [if_neg hi, if_neg (hp i hi)]
        rfl

include h0 hM in
theorem stressForward_rel (srate stress srate' stress' T : β → ℝ → ℝ) (t : β → ℝ)
    (hr : ∀ b, srate' b (t b) = (r b).sign 0 * srate b (t b)) (hs : ∀ b, stress' b (t b) = (r b).sign 0 * stress b (t b)) (y : β → Fin (m + 1) → ℝ) :
    stressForward model' srate' stress' T t (fun b => (r b).state (y b)) =
      (fun b => (r b).state ((stressForward model srate stress T t y).1 b), fun b => (r b).jac ((stressForward model srate stress T t y).2 b)) := by
  have h := stressSolve_rel r h0 hM (fun b => srate b (t b)) (fun b => stress b (t b)) (fun b => T b (t b)) t y
  unfold stressForward
  dsimp only
  simp only [hr, hs]
  rw [h]
  refine Prod.ext ?_ ?_
  · funext b
    dsimp only
    rw [stressOut_rel r h0 hM]
  · funext b
    dsimp only
    rw [stressOut_rel r h0 hM]

include h0 hM in
theorem bothForward_rel (rate base rate' base' T : β → ℝ → ℝ) (control t : β → ℝ)
    (hr : ∀ b, rate' b (t b) = (r b).sign 0 * rate b (t b)) (hs : ∀ b, base' b (t b) = (r b).sign 0 * base b (t b)) (y : β → Fin (m + 1) → ℝ) :
    bothForward model' rate' base' T control t (fun b => (r b).state (y b)) =
      (fun b => (r b).state ((bothForward model rate base T control t y).1 b), fun b => (r b).jac ((bothForward model rate base T control t y).2 b)) := by
  have h := stressForward_rel r h0 hM rate base rate' base' T t hr hs y
  have e : strainForward model' rate' T t (fun b => (r b).state (y b)) =
      (fun b => (r b).state ((strainForward model rate T t y).1 b), fun b => (r b).jac ((strainForward model rate T t y).2 b)) := by
    unfold strainForward
    refine Prod.ext ?_ ?_
    · funext b
      dsimp only
      rw [hr, ((hM b) _ _ _ _).1]
    · funext b
      dsimp only
      rw [hr, ((hM b) _ _ _ _).2.1]
  have z1 : ∀ b, (r b).state 0 = 0 := fun b => by funext i; simp [Relabel.state]
  have z2 : ∀ b, (r b).jac 0 = 0 := fun b => by funext i j; simp [Relabel.jac]
  unfold bothForward
  dsimp only
  rw [h, e]
  refine Prod.ext ?_ ?_
  · funext b
    dsimp only
    split_ifs <;> simp only [z1]
  · funext b
    dsimp only
    split_ifs <;> simp only [z2]

theorem sameInCoordinates_iff (F F' : BFunc β (m + 1))
    (h : ∀ (n : ℕ) (t : Fin n → β → ℝ) (y : Fin n → BVec β (m + 1) ℝ), F' n t (fun k b => (r b).state (y k b)) =
      (fun k b => (r b).state ((F n t y).1 k b), fun k b => (r b).jac ((F n t y).2 k b))) :
    SameInCoordinates (fun b => relMat (r b)) F F' := fun n t y => by
  simp only [relMat_mulVec, relMat_conj]
  exact h n t y

include hM in
theorem strainFunc_rel (nt : ℕ) (times strains temps : ℕ → β → ℝ) :
    SameInCoordinates (fun b => relMat (r b)) (Func.lift (strainFunc model nt times strains temps))
      (Func.lift (strainFunc model' nt times (fun k b => (r b).sign 0 * strains k b) temps)) := by
  refine sameInCoordinates_iff r _ _ fun n t y => ?_
  unfold Func.lift strainFunc
  refine Prod.ext ?_ ?_
  · funext k b
    dsimp only
    rw [rateFn_scale, ((hM b) _ _ _ _).1]
  · funext k b
    dsimp only
    rw [rateFn_scale, ((hM b) _ _ _ _).2.1]

include h0 hM in
theorem stressFunc_rel (nt : ℕ) (times stresses temps : ℕ → β → ℝ) :
    SameInCoordinates (fun b => relMat (r b)) (stressFunc model nt times stresses temps)
      (stressFunc model' nt times (fun k b => (r b).sign 0 * stresses k b) temps) := by
  refine sameInCoordinates_iff r _ _ fun n t y => ?_
  have h := stressForward_rel (β := Fin n × β) (fun p => r p.2) (fun p => h0 p.2) (model := fun p => model p.2) (model' := fun p => model' p.2)
    (fun p => hM p.2) (fun p => rateFn nt (fun k => times k p.2) fun k => stresses k p.2)
    (fun p => dataFn nt (fun k => times k p.2) fun k => stresses k p.2)
    (fun p => rateFn nt (fun k => times k p.2) fun k => (r p.2).sign 0 * stresses k p.2)
    (fun p => dataFn nt (fun k => times k p.2) fun k => (r p.2).sign 0 * stresses k p.2)
    (fun p => dataFn nt (fun k => times k p.2) fun k => temps k p.2) (fun p => t p.1 p.2)
    (fun p => rateFn_scale _ _ _ _ _) (fun p => dataFn_scale _ _ _ _ _) (fun p => y p.1 p.2)
  unfold stressFunc
  dsimp only at h ⊢
  rw [h]

include h0 hM in
theorem bothFunc_rel (nt : ℕ) (times idata temps : ℕ → β → ℝ) (control : β → ℝ) :
    SameInCoordinates (fun b => relMat (r b)) (bothFunc model nt times idata temps control)
      (bothFunc model' nt times (fun k b => (r b).sign 0 * idata k b) temps control) := by
  refine sameInCoordinates_iff r _ _ fun n t y => ?_
  have h := bothForward_rel (β := Fin n × β) (fun p => r p.2) (fun p => h0 p.2) (model := fun p => model p.2) (model' := fun p => model' p.2)
    (fun p => hM p.2) (fun p => rateFn nt (fun k => times k p.2) fun k => idata k p.2)
    (fun p => dataFn nt (fun k => times k p.2) fun k => idata k p.2)
    (fun p => rateFn nt (fun k => times k p.2) fun k => (r p.2).sign 0 * idata k p.2)
    (fun p => dataFn nt (fun k => times k p.2) fun k => (r p.2).sign 0 * idata k p.2)
    (fun p => dataFn nt (fun k => times k p.2) fun k => temps k p.2) (fun p => control p.2) (fun p => t p.1 p.2)
    (fun p => rateFn_scale _ _ _ _ _) (fun p => dataFn_scale _ _ _ _ _) (fun p => y p.1 p.2)
  unfold bothFunc
  dsimp only at h ⊢
  rw [h]

/-- The relabelled results. -/
def relRun (r : β → Relabel (m + 1)) (res : Partial β (m + 1) × Bool) : Partial β (m + 1) × Bool :=
  (fun k => (res.1 k).map fun y b => (r b).state (y b), res.2)

theorem integrate_rel {F F' : BFunc β (m + 1)} (hF : SameInCoordinates (fun b => relMat (r b)) F F') (c : Config) (nt : ℕ) (t : ℕ → β → ℝ) (q : ℤ) :
    integrate c F' 0 nt t q = (integrate c F 0 nt t q).map (relRun r) := by
  have h := integrate_t (rel_orthogonal r) hF c 0 nt t q
  simp only [relMat_mulVec] at h
  have z : (fun b => (r b).state ((0 : BVec β (m + 1) ℝ) b)) = 0 := by
    funext b i; simp [Relabel.state]
  rw [z] at h
  exact h

end Control

end Pyoptmat.Mirror
