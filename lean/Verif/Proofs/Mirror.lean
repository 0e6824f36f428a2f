import Verif.Model.Control
import Verif.Spec.Mirror
import Verif.Proofs.Reindex
import Verif.Proofs.Dense
import Verif.Proofs.Layout
import Mathlib.LinearAlgebra.Matrix.NonsingularInverse

/-!
# Orthogonal changes of state coordinates commute with the block solver (for C124)
-/

namespace Pyoptmat.Mirror

open Pyoptmat.Chunktime Pyoptmat.Newton Pyoptmat.Ode Pyoptmat.Spec

variable {β : Type*} {m : ℕ}

section Linear

variable {K : Type*} [Field K] (U V : β → Matrix (Fin m) (Fin m) K)

/-- The change of coordinates of a state. -/
def tv (x : BVec β m K) : BVec β m K := fun b => (U b).mulVec (x b)

/-- The change of coordinates of a block. -/
def tM (X : Blk β m K) : Blk β m K := fun b => U b * X b * V b

/-- A storage with every entry transformed. -/
def mp {α : Type*} (f : α → α) (v : Mem α) : Mem α := fun k => f (v k)

theorem update_mp {α : Type*} (f : α → α) (v : Mem α) (i : ℕ) (x : α) :
    Function.update (mp f v) i (f x) = mp f (Function.update v i x) := by
  funext j
  by_cases h : j = i
  · subst h; simp [mp]
  · simp [mp, Function.update_of_ne h]

theorem assign_mp {α : Type*} (f : α → α) (cells : List (ℕ × α)) : ∀ v : Mem α,
    assign (mp f v) (cells.map fun p => (p.1, f p.2)) = mp f (assign v cells) := by
  induction cells with
  | nil => intro v; rfl
  | cons p ps ih =>
    intro v
    have h := ih (Function.update v p.1 p.2)
    rw [← update_mp] at h
    exact h

variable {U V} (hVU : ∀ b, V b * U b = 1) (hUV : ∀ b, U b * V b = 1)

include hVU hUV in
theorem inv_conj (A : Blk β m K) (b : β) : (tM U V A b)⁻¹ = U b * (A b)⁻¹ * V b := by
  have h1 : (U b)⁻¹ = V b := Matrix.inv_eq_right_inv (hUV b)
  have h2 : (V b)⁻¹ = U b := Matrix.inv_eq_right_inv (hVU b)
  unfold tM
  rw [Matrix.mul_inv_rev, Matrix.mul_inv_rev, h1, h2, Matrix.mul_assoc]

include hVU hUV in
theorem luSolve_t (A : Blk β m K) (v : BVec β m K) : luSolve (tM U V A) (tv U v) = tv U (luSolve A v) := by
  funext b
  unfold luSolve tv
  rw [inv_conj hVU hUV, Matrix.mulVec_mulVec, Matrix.mul_assoc, hVU, Matrix.mul_one, Matrix.mulVec_mulVec]

include hVU hUV in
theorem luSolveM_t (A X : Blk β m K) : luSolveM (tM U V A) (tM U V X) = tM U V (luSolveM A X) := by
  funext b
  unfold luSolveM
  rw [inv_conj hVU hUV]
  unfold tM
  simp only [Matrix.mul_assoc]
  rw [← Matrix.mul_assoc (V b) (U b), hVU, Matrix.one_mul]

include hVU in
theorem bmv_t (X : Blk β m K) (v : BVec β m K) : bmv (tM U V X) (tv U v) = tv U (bmv X v) := by
  funext b
  unfold bmv tM tv
  rw [Matrix.mulVec_mulVec, Matrix.mul_assoc, hVU, Matrix.mul_one, Matrix.mulVec_mulVec]

include hVU in
theorem bmm_t (X Y : Blk β m K) : bmm (tM U V X) (tM U V Y) = tM U V (bmm X Y) := by
  funext b
  unfold bmm tM
  simp only [Matrix.mul_assoc]
  rw [← Matrix.mul_assoc (V b) (U b), hVU, Matrix.one_mul]

theorem tv_sub (x y : BVec β m K) : tv U x - tv U y = tv U (x - y) := by
  funext b
  exact (Matrix.mulVec_sub _ _ _).symm

theorem tv_add (x y : BVec β m K) : tv U x + tv U y = tv U (x + y) := by
  funext b
  exact (Matrix.mulVec_add _ _ _).symm

theorem tv_zero : tv U (0 : BVec β m K) = 0 := by
  funext b
  exact Matrix.mulVec_zero _

theorem tM_zero : tM U V (0 : Blk β m K) = 0 := by
  funext b
  simp [tM]

theorem tM_neg (X : Blk β m K) : -tM U V X = tM U V (-X) := by
  funext b
  simp [tM]

include hVU hUV in
theorem thomasStep_t (lu B : Mem (Blk β m K)) (v : Mem (BVec β m K)) (i : ℕ) :
    thomasStep (mp (tM U V) lu) (mp (tM U V) B) (mp (tv U) v) i = mp (tv U) (thomasStep lu B v i) := by
  unfold thomasStep
  rw [← update_mp]
  unfold mp
  rw [bmv_t hVU, tv_sub, luSolve_t hVU hUV]

include hVU hUV in
theorem thomas_fold (lu B : Mem (Blk β m K)) (l : List ℕ) : ∀ v : Mem (BVec β m K),
    l.foldl (thomasStep (mp (tM U V) lu) (mp (tM U V) B)) (mp (tv U) v) = mp (tv U) (l.foldl (thomasStep lu B) v) := by
  induction l with
  | nil => intro v; rfl
  | cons i is ih =>
    intro v
    simp only [List.foldl_cons]
    rw [thomasStep_t hVU hUV, ih]

include hVU hUV in
theorem reduceRhs_t (vw Bw lw : View) (lu B : Mem (Blk β m K)) (v : Mem (BVec β m K)) :
    reduceRhs vw Bw lw (mp (tM U V) lu) (mp (tM U V) B) (mp (tv U) v) = mp (tv U) (reduceRhs vw Bw lw lu B v) := by
  unfold reduceRhs
  rw [← assign_mp, List.map_map]
  congr 1
  refine List.map_congr_left fun pq _ => ?_
  simp only [Function.comp_apply, mp]
  rw [luSolve_t hVU hUV, bmv_t hVU, tv_sub]

include hVU hUV in
theorem reduceOff_t (Bw lw : View) (lu B : Mem (Blk β m K)) :
    reduceOff Bw lw (mp (tM U V) lu) (mp (tM U V) B) = mp (tM U V) (reduceOff Bw lw lu B) := by
  unfold reduceOff
  rw [← assign_mp, List.map_map]
  congr 1
  refine List.map_congr_left fun pq _ => ?_
  simp only [Function.comp_apply, mp]
  rw [luSolveM_t hVU hUV, bmm_t hVU, tM_neg]

variable (U V) in
/-- The state of the reduction in the new coordinates. -/
def tState (st : PcrState β m K) : PcrState β m K := { st with B := mp (tM U V) st.B, v := mp (tv U) st.v }

include hVU hUV in
theorem pcrStep_t (lu : Mem (Blk β m K)) (st : PcrState β m K) (i : ℕ) :
    pcrStep (mp (tM U V) lu) (tState U V st) i = tState U V (pcrStep lu st i) := by
  unfold pcrStep tState
  simp only [reduceRhs_t hVU hUV, reduceOff_t hVU hUV]

include hVU hUV in
theorem pcr_fold (lu : Mem (Blk β m K)) (l : List ℕ) : ∀ st : PcrState β m K,
    l.foldl (pcrStep (mp (tM U V) lu)) (tState U V st) = tState U V (l.foldl (pcrStep lu) st) := by
  induction l with
  | nil => intro v; rfl
  | cons i is ih =>
    intro v
    simp only [List.foldl_cons]
    rw [pcrStep_t hVU hUV, ih]

include hVU hUV in
theorem pcrChunk_t (lu B : Mem (Blk β m K)) (v : Mem (BVec β m K)) (se : ℕ × ℕ) :
    pcrChunk (mp (tM U V) lu) (mp (tM U V) B, mp (tv U) v) se =
      (mp (tM U V) (pcrChunk lu (B, v) se).1, mp (tv U) (pcrChunk lu (B, v) se).2) := by
  have h : solveBlock (mp (tM U V) lu) se.1 se.2 (mp (tM U V) B) (mp (tv U) v) = tState U V (solveBlock lu se.1 se.2 B v) :=
    pcr_fold hVU hUV lu _ ⟨B, v, sliceView se.1 se.2, sliceView se.1 se.2, sliceView se.1 se.2⟩
  unfold pcrChunk
  simp only [h]
  refine Prod.ext ?_ ?_
  · dsimp only
    rw [← assign_mp, List.map_map]
    rfl
  · dsimp only
    rw [← assign_mp, List.map_map]
    rfl

include hVU hUV in
theorem chunk_fold (lu : Mem (Blk β m K)) (l : List (ℕ × ℕ)) : ∀ (B : Mem (Blk β m K)) (v : Mem (BVec β m K)),
    l.foldl (pcrChunk (mp (tM U V) lu)) (mp (tM U V) B, mp (tv U) v) =
      (mp (tM U V) (l.foldl (pcrChunk lu) (B, v)).1, mp (tv U) (l.foldl (pcrChunk lu) (B, v)).2) := by
  induction l with
  | nil => intro B v; rfl
  | cons i is ih =>
    intro B v
    simp only [List.foldl_cons]
    rw [pcrChunk_t hVU hUV, ih]

theorem padFront_t (B : Mem (Blk β m K)) : padFront (mp (tM U V) B) = mp (tM U V) (padFront B) := by
  funext k
  cases k with
  | zero => exact tM_zero.symm
  | succ k => rfl

include hVU hUV in
/-- Everything `matvec` returns, in the new coordinates. -/
theorem matvec_t (d : Direct) (n : ℕ) (lu B : Mem (Blk β m K)) (v : Mem (BVec β m K)) :
    (d.matvec n (mp (tM U V) lu) (mp (tM U V) B) (mp (tv U) v)).ret = mp (tv U) (d.matvec n lu B v).ret := by
  cases d with
  | thomas =>
    change (List.range' 1 (n - 1)).foldl (thomasStep (mp (tM U V) lu) (mp (tM U V) B))
      (Function.update (mp (tv U) v) 0 (luSolve (tM U V (lu 0)) (tv U (v 0)))) = _
    rw [luSolve_t hVU hUV, update_mp, thomas_fold hVU hUV]
    rfl
  | pcr =>
    funext k
    change luSolve (tM U V (lu k)) (((pow2 n).foldl (pcrChunk (mp (tM U V) lu)) (padFront (mp (tM U V) B), mp (tv U) v)).2 k) = _
    rw [padFront_t, chunk_fold hVU hUV]
    exact luSolve_t hVU hUV _ _
  | hybrid ms =>
    simp only [Direct.matvec, hybridMatvec]
    rw [padFront_t, chunk_fold hVU hUV]
    have h := thomas_fold hVU hUV lu (fun k => (List.foldl (pcrChunk lu) (padFront B, v) (pcrBlocks n (ms + 1)).1).1 (k + 1))
      (List.range' (pcrBlocks n (ms + 1)).2 (n - (pcrBlocks n (ms + 1)).2))
      (assign (List.foldl (pcrChunk lu) (padFront B, v) (pcrBlocks n (ms + 1)).1).2
        ((List.range (pcrBlocks n (ms + 1)).2).map fun k =>
          (k, luSolve (lu k) ((List.foldl (pcrChunk lu) (padFront B, v) (pcrBlocks n (ms + 1)).1).2 k))))
    rw [← assign_mp, List.map_map] at h
    rw [← h]
    congr 2
    refine List.map_congr_left fun k _ => ?_
    exact congrArg (Prod.mk k) (luSolve_t hVU hUV _ _)

theorem memOf_mp {n : ℕ} {α : Type*} [Zero α] (f : α → α) (h0 : f 0 = 0) (x : Fin n → α) : memOf (fun k => f (x k)) = mp f (memOf x) := by
  funext k
  by_cases h : k < n
  · simp [memOf, h, mp]
  · simp [memOf, h, mp, h0]

variable (U V) in
/-- An operator in the new coordinates. -/
def tOp {n : ℕ} (J : BidiagOp β n m K) : BidiagOp β n m K := ⟨fun k => tM U V (J.A k), fun k => tM U V (J.B k)⟩

variable (U) in
/-- The change of coordinates of a flattened block of states. -/
def tF {n : ℕ} (R : β → Fin (n * m) → K) : β → Fin (n * m) → K := flatten fun k => tv U (unflatten (nblk := n) R k)

/-- The block diagonal matrix with every block equal to `X`. -/
def blockConst (n : ℕ) (X : Matrix (Fin m) (Fin m) K) : Matrix (Fin (n * m)) (Fin (n * m)) K := fun r c =>
  if r.divNat = c.divNat then X r.modNat c.modNat else 0

theorem sum_pairs {n : ℕ} (f : Fin (n * m) → K) : ∑ i, f i = ∑ k : Fin n, ∑ r : Fin m, f (finProdFinEquiv (k, r)) := by
  rw [← Equiv.sum_comp finProdFinEquiv f, Fintype.sum_prod_type]

theorem divNat_pair {n : ℕ} (k : Fin n) (r : Fin m) : (finProdFinEquiv (k, r) : Fin (n * m)).divNat = k :=
  congrArg Prod.fst (finProdFinEquiv.symm_apply_apply (k, r))

theorem modNat_pair {n : ℕ} (k : Fin n) (r : Fin m) : (finProdFinEquiv (k, r) : Fin (n * m)).modNat = r :=
  congrArg Prod.snd (finProdFinEquiv.symm_apply_apply (k, r))

theorem blockConst_mul {n : ℕ} (X : Matrix (Fin m) (Fin m) K) (D : Matrix (Fin (n * m)) (Fin (n * m)) K) (r c : Fin (n * m)) :
    (blockConst n X * D) r c = ∑ i, X r.modNat i * D (finProdFinEquiv (r.divNat, i)) c := by
  rw [Matrix.mul_apply, sum_pairs, Finset.sum_eq_single r.divNat]
  · refine Finset.sum_congr rfl fun i _ => ?_
    simp [blockConst, divNat_pair, modNat_pair, -Fin.coe_divNat, -finProdFinEquiv_apply_val]
  · intro k _ hk
    refine Finset.sum_eq_zero fun i _ => ?_
    unfold blockConst
    rw [divNat_pair, if_neg (Ne.symm hk), zero_mul]
  · intro h; exact absurd (Finset.mem_univ _) h

theorem mul_blockConst {n : ℕ} (X : Matrix (Fin m) (Fin m) K) (D : Matrix (Fin (n * m)) (Fin (n * m)) K) (r c : Fin (n * m)) :
    (D * blockConst n X) r c = ∑ i, D r (finProdFinEquiv (c.divNat, i)) * X i c.modNat := by
  rw [Matrix.mul_apply, sum_pairs, Finset.sum_eq_single c.divNat]
  · refine Finset.sum_congr rfl fun i _ => ?_
    unfold blockConst
    rw [divNat_pair, modNat_pair, if_pos rfl]
  · intro k _ hk
    refine Finset.sum_eq_zero fun i _ => ?_
    unfold blockConst
    rw [divNat_pair, if_neg hk, mul_zero]
  · intro h; exact absurd (Finset.mem_univ _) h

theorem blockConst_one {n : ℕ} {X Y : Matrix (Fin m) (Fin m) K} (h : X * Y = 1) : blockConst n X * blockConst n Y = 1 := by
  ext r c
  rw [blockConst_mul]
  unfold blockConst
  simp only [divNat_pair, modNat_pair]
  by_cases hd : r.divNat = c.divNat
  · simp only [hd, if_true]
    have := congrFun (congrFun h r.modNat) c.modNat
    rw [Matrix.mul_apply] at this
    rw [this, Matrix.one_apply, Matrix.one_apply]
    congr 1
    refine propext ⟨fun hm => ?_, fun hm => by rw [hm]⟩
    exact finProdFinEquiv.symm.injective (Prod.ext hd hm)
  · simp only [hd, if_false, mul_zero, Finset.sum_const_zero]
    rw [Matrix.one_apply, if_neg fun h => hd (by rw [h])]

theorem dense_t {n : ℕ} (J : BidiagOp β n m K) (b : β) :
    (tOp U V J).dense b = blockConst n (U b) * J.dense b * blockConst n (V b) := by
  rw [dense_eq_bidiagonal, dense_eq_bidiagonal]
  ext r c
  rw [mul_blockConst]
  simp only [blockConst_mul]
  unfold Spec.bidiagonalMatrix tOp tM
  simp only [divNat_pair, modNat_pair]
  by_cases h1 : r.divNat = c.divNat
  · simp only [h1, if_true, Matrix.mul_apply]
  · simp only [h1, if_false]
    split_ifs with h2
    · simp only [Matrix.mul_apply]
    · simp

include hVU hUV in
theorem solve_t {n : ℕ} (meth : SolveMethod) (J : BidiagOp β n m K) (R : β → Fin (n * m) → K) :
    solve meth (tOp U V J) (tF U R) = tF U (solve meth J R) := by
  have hF : ∀ (R : β → Fin (n * m) → K) b, tF U R b = (blockConst n (U b)).mulVec (R b) := by
    intro R b
    funext i
    unfold tF flatten tv unflatten blockConst Matrix.mulVec dotProduct
    dsimp only
    rw [sum_pairs, Finset.sum_eq_single i.divNat]
    · simp only [divNat_pair, modNat_pair, if_true]
    · intro k _ hk
      refine Finset.sum_eq_zero fun j _ => ?_
      rw [divNat_pair, if_neg (Ne.symm hk), zero_mul]
    · intro h; exact absurd (Finset.mem_univ _) h
  cases meth with
  | dense =>
    funext b
    change ((tOp U V J).dense b)⁻¹.mulVec (tF U R b) = tF U (fun b => (J.dense b)⁻¹.mulVec (R b)) b
    have h1 : (blockConst n (U b))⁻¹ = blockConst n (V b) := Matrix.inv_eq_right_inv (blockConst_one (hUV b))
    have h2 : (blockConst n (V b))⁻¹ = blockConst n (U b) := Matrix.inv_eq_right_inv (blockConst_one (hVU b))
    rw [dense_t, hF, hF, Matrix.mul_inv_rev, Matrix.mul_inv_rev, h1, h2, Matrix.mulVec_mulVec, Matrix.mulVec_mulVec, Matrix.mul_assoc,
      Matrix.mul_assoc, blockConst_one (hVU b), Matrix.mul_one]
  | direct d =>
    unfold solve
    dsimp only
    unfold forward
    have h1 : memOf (tOp U V J).A = mp (tM U V) (memOf J.A) := memOf_mp _ tM_zero J.A
    have h2 : memOf (tOp U V J).B = mp (tM U V) (memOf J.B) := memOf_mp _ tM_zero J.B
    have h3 : memOf (unflatten (nblk := n) (m := m) (tF U R)) = mp (tv U) (memOf (unflatten R)) := by
      unfold tF
      rw [unflatten_flatten]
      exact memOf_mp _ tv_zero (unflatten R)
    rw [h1, h2, h3, matvec_t hVU hUV]
    unfold tF
    rw [unflatten_flatten]
    rfl

end Linear

/-! ## The Newton loop -/

/-- A Newton solve in other coordinates `T` that leave the norm of the residual unchanged. -/
theorem loop_t {N : ℕ} {Jac Jac' : Type*} (pJ : Jac → Jac') (T : (β → Fin N → ℝ) → (β → Fin N → ℝ))
    (fn : (β → Fin N → ℝ) → (β → Fin N → ℝ) × Jac) (fn' : (β → Fin N → ℝ) → (β → Fin N → ℝ) × Jac')
    (sol : Jac → (β → Fin N → ℝ) → (β → Fin N → ℝ)) (sol' : Jac' → (β → Fin N → ℝ) → (β → Fin N → ℝ))
    (hsub : ∀ x y, T x - T y = T (x - y)) (hnorm : ∀ x b, rowNorm (T x b) = rowNorm (x b))
    (hfn : ∀ x, fn' (T x) = (T (fn x).1, pJ (fn x).2)) (hsol : ∀ J R, sol' (pJ J) (T R) = T (sol J R))
    (rtol atol : ℝ) (n0 : β → Option ℝ) : ∀ (fuel : ℕ) (x : β → Fin N → ℝ),
    loop fn' sol' (fun x dx => x - dx) (fun R b => some (rowNorm (R b))) rtol atol n0 fuel (T x) =
      (T (loop fn sol (fun x dx => x - dx) (fun R b => some (rowNorm (R b))) rtol atol n0 fuel x).1,
       (loop fn sol (fun x dx => x - dx) (fun R b => some (rowNorm (R b))) rtol atol n0 fuel x).2) := by
  intro fuel
  induction fuel with
  | zero => intro x; rfl
  | succ fuel ih =>
    intro x
    unfold loop
    have hn : (fun b => some (rowNorm ((fn' (T x)).1 b))) = fun b => some (rowNorm ((fn x).1 b)) := by
      rw [hfn]; funext b; dsimp only; rw [hnorm]
    rw [hn]
    by_cases h : notConverged (fun b => some (rowNorm ((fn x).1 b))) n0 rtol atol
    · rw [if_pos h, if_pos h, hfn]
      dsimp only
      rw [hsol, hsub, ih]
    · rw [if_neg h, if_neg h]

theorem newton_t {N : ℕ} {Jac Jac' : Type*} (pJ : Jac → Jac') (T : (β → Fin N → ℝ) → (β → Fin N → ℝ))
    (fn : (β → Fin N → ℝ) → (β → Fin N → ℝ) × Jac) (fn' : (β → Fin N → ℝ) → (β → Fin N → ℝ) × Jac')
    (sol : Jac → (β → Fin N → ℝ) → (β → Fin N → ℝ)) (sol' : Jac' → (β → Fin N → ℝ) → (β → Fin N → ℝ))
    (hsub : ∀ x y, T x - T y = T (x - y)) (hnorm : ∀ x b, rowNorm (T x b) = rowNorm (x b))
    (hfn : ∀ x, fn' (T x) = (T (fn x).1, pJ (fn x).2)) (hsol : ∀ J R, sol' (pJ J) (T R) = T (sol J R))
    (rtol atol : ℝ) (x0 : β → Fin N → ℝ) (miter : ℤ) (tf : Bool) :
    (newtonChunk fn' sol' (fun x dx => x - dx) (fun R b => some (rowNorm (R b))) (T x0) rtol atol miter tf).result =
        (newtonChunk fn sol (fun x dx => x - dx) (fun R b => some (rowNorm (R b))) x0 rtol atol miter tf).result.map T ∧
      (newtonChunk fn' sol' (fun x dx => x - dx) (fun R b => some (rowNorm (R b))) (T x0) rtol atol miter tf).warned =
        (newtonChunk fn sol (fun x dx => x - dx) (fun R b => some (rowNorm (R b))) x0 rtol atol miter tf).warned := by
  unfold newtonChunk
  dsimp only
  have hn : (fun b => some (rowNorm ((fn' (T x0)).1 b))) = fun b => some (rowNorm ((fn x0).1 b)) := by
    rw [hfn]; funext b; dsimp only; rw [hnorm]
  rw [hn, loop_t pJ T fn fn' sol sol' hsub hnorm hfn hsol rtol atol]
  dsimp only
  generalize loop fn sol _ _ _ _ _ _ _ = r
  by_cases h : (r.2 : ℤ) = miter <;> cases tf <;> simp [h, Except.map]

/-! ## The block solver -/

section Block

variable {U : β → Matrix (Fin m) (Fin m) ℝ} (hU : Orthogonal U) {F F' : BFunc β m}

include hU in
theorem sq_sum_t (x : Fin m → ℝ) (b : β) : ∑ i, (U b).mulVec x i ^ 2 = ∑ i, x i ^ 2 := by
  have h : ∀ z : Fin m → ℝ, ∑ i, z i ^ 2 = z ⬝ᵥ z := fun z => by
    unfold dotProduct
    exact Finset.sum_congr rfl fun i _ => pow_two _
  rw [h, h, Matrix.dotProduct_mulVec, Matrix.vecMul_mulVec, (hU b).2, Matrix.vecMul_one]

include hU in
theorem rowNorm_tF {n : ℕ} (R : β → Fin (n * m) → ℝ) (b : β) : rowNorm (tF U R b) = rowNorm (R b) := by
  unfold rowNorm
  rw [sum_pairs, sum_pairs]
  congr 1
  refine Finset.sum_congr rfl fun k _ => ?_
  have h := sq_sum_t hU (unflatten (nblk := n) R k b) b
  rw [← show ∑ r, unflatten (nblk := n) R k b r ^ 2 = ∑ r, R b (finProdFinEquiv (k, r)) ^ 2 from rfl, ← h]
  refine Finset.sum_congr rfl fun r _ => ?_
  have := congrFun (congrFun (congrFun (unflatten_flatten fun k => tv U (unflatten (nblk := n) R k)) k) b) r
  exact congrArg (· ^ 2) this

theorem tF_sub {n : ℕ} (x y : β → Fin (n * m) → ℝ) : tF U x - tF U y = tF U (x - y) := by
  unfold tF
  have h : ∀ k, tv U (unflatten (nblk := n) (x - y) k) = tv U (unflatten x k) - tv U (unflatten y k) := fun k => (tv_sub _ _).symm
  simp only [h]
  rfl

/-- The transposed matrices. -/
abbrev tr (U : β → Matrix (Fin m) (Fin m) ℝ) : β → Matrix (Fin m) (Fin m) ℝ := fun b => (U b).transpose

theorem tv_smul (c : β → ℝ) (x : BVec β m ℝ) : (fun b => c b • tv U x b) = tv U fun b => c b • x b := by
  funext b
  exact (Matrix.mulVec_smul _ _ _).symm

theorem tM_smul {V : β → Matrix (Fin m) (Fin m) ℝ} (c : β → ℝ) (X : Blk β m ℝ) : (fun b => c b • tM U V X b) = tM U V fun b => c b • X b := by
  funext b
  simp [tM]

include hU in
theorem tM_one : tM U (tr U) (fun _ => 1) = fun _ => 1 := by
  funext b
  simp [tM, (hU b).1]

theorem tM_sub {V : β → Matrix (Fin m) (Fin m) ℝ} (X Y : Blk β m ℝ) : tM U V X - tM U V Y = tM U V (X - Y) := by
  funext b
  simp [tM, Matrix.mul_sub, Matrix.sub_mul]

include hU in
theorem formOperators_t (s : Scheme) {n : ℕ} (dy yd : Fin (n + 1) → BVec β m ℝ) (J : Fin (n + 1) → Blk β m ℝ) (dt : Fin n → β → ℝ) :
    formOperators s (fun k => tv U (dy k)) (fun k => tv U (yd k)) (fun k => tM U (tr U) (J k)) dt =
      (tF U (formOperators s dy yd J dt).1, tOp U (tr U) (formOperators s dy yd J dt).2) := by
  have hF : ∀ z : Fin n → BVec β m ℝ, tF U (flatten z) = flatten fun k => tv U (z k) := fun z => by
    unfold tF
    rw [unflatten_flatten]
  cases s with
  | backwardEuler =>
    unfold formOperators
    dsimp only
    rw [hF]
    refine Prod.ext ?_ ?_
    · dsimp only
      congr 1
      funext k b
      simp only [tv, Matrix.mulVec_sub, Matrix.mulVec_smul]
    · dsimp only
      unfold tOp
      congr 1
      · funext k b
        simp only [tM, Matrix.mul_sub, Matrix.sub_mul, Matrix.mul_one, (hU b).1, Matrix.mul_smul, Matrix.smul_mul]
      · funext k b
        simp only [tM, Matrix.mul_neg, Matrix.neg_mul, Matrix.mul_one, (hU b).1]
  | forwardEuler =>
    unfold formOperators
    dsimp only
    rw [hF]
    refine Prod.ext ?_ ?_
    · dsimp only
      congr 1
      funext k b
      simp only [tv, Matrix.mulVec_sub, Matrix.mulVec_smul]
    · dsimp only
      unfold tOp
      congr 1
      · funext k b
        simp only [tM, Matrix.mul_one, (hU b).1]
      · funext k b
        simp only [tM, Matrix.mul_sub, Matrix.sub_mul, Matrix.mul_neg, Matrix.neg_mul, Matrix.mul_one, (hU b).1, Matrix.mul_smul, Matrix.smul_mul]

include hU in
theorem blockRJ_t (hF : SameInCoordinates U F F') (s : Scheme) {n : ℕ} (t : Fin n → β → ℝ) (tStart : β → ℝ) (yStart : BVec β m ℝ)
    (dy : β → Fin (n * m) → ℝ) :
    blockRJ s F' t tStart (tv U yStart) (tF U dy) =
      (tF U (blockRJ s F t tStart yStart dy).1, tOp U (tr U) (blockRJ s F t tStart yStart dy).2) := by
  have hdy : (stack 0 (unflatten (tF U dy)) : Fin (n + 1) → BVec β m ℝ) =
      fun k => tv U ((stack 0 (unflatten dy) : Fin (n + 1) → BVec β m ℝ) k) := by
    funext k
    refine Fin.cases ?_ (fun i => ?_) k
    · exact tv_zero.symm
    · change unflatten (tF U dy) i = tv U (unflatten dy i)
      unfold tF
      rw [unflatten_flatten]
  have h := hF (n + 1) (stack tStart t) (fun k => (stack 0 (unflatten dy) : Fin (n + 1) → BVec β m ℝ) k + yStart)
  have hy : (fun k => tv U ((stack 0 (unflatten dy) : Fin (n + 1) → BVec β m ℝ) k) + tv U yStart) =
      fun (k : Fin (n + 1)) b => (U b).mulVec (((stack 0 (unflatten dy) : Fin (n + 1) → BVec β m ℝ) k + yStart) b) := by
    funext k
    exact tv_add _ _
  unfold blockRJ
  dsimp only
  simp only [hdy, hy, h]
  exact formOperators_t hU s _ _ _ _

include hU in
theorem blockUpdate_t (hF : SameInCoordinates U F F') (cfg : Config) {n : ℕ}
    (t : Fin n → β → ℝ) (tStart : β → ℝ) (yStart : BVec β m ℝ) (guess : β → Fin (n * m) → ℝ) :
    blockUpdate cfg F' t tStart (tv U yStart) (tF U guess) =
      (blockUpdate cfg F t tStart yStart guess).map fun r => (fun k => tv U (r.1 k), r.2) := by
  obtain ⟨h1, h2⟩ := newton_t (tOp U (tr U)) (tF U) (blockRJ cfg.scheme F t tStart yStart)
    (blockRJ cfg.scheme F' t tStart (tv U yStart)) (fun J R => solve cfg.method J R) (fun J R => solve cfg.method J R)
    tF_sub (rowNorm_tF hU) (blockRJ_t hU hF cfg.scheme t tStart yStart)
    (fun J R => solve_t (fun b => (hU b).2) (fun b => (hU b).1) cfg.method J R) cfg.rtol cfg.atol guess cfg.miter cfg.throwOnFail
  unfold blockUpdate blockNewton
  simp only [h1, h2]
  cases (newtonChunk (blockRJ cfg.scheme F t tStart yStart) (fun J R => solve cfg.method J R) (fun x dx => x - dx)
    (fun R b => some (rowNorm (R b))) guess cfg.rtol cfg.atol cfg.miter cfg.throwOnFail).result with
  | error e => rfl
  | ok x =>
    simp only [Except.map]
    congr 2
    funext k
    unfold tF
    rw [unflatten_flatten, tv_add]

theorem get_t (r : Partial β m) (k : ℕ) : Partial.get (fun j => (r j).map (tv U)) k = tv U (r.get k) := by
  unfold Partial.get
  cases h : r k with
  | none => simp [h, tv_zero]
  | some x => simp [h]

theorem initialGuess_t (g : String) (nt n : ℕ) (r : Partial β m) (k : ℕ) :
    initialGuess g nt n (fun j => (r j).map (tv U)) k = (initialGuess g nt n r k).map fun l => l.map (tv U) := by
  unfold initialGuess
  by_cases h0 : g = "zero"
  · simp only [h0, Except.map, if_true, List.map_replicate, tv_zero]
  · by_cases h1 : g = "previous"
    · simp only [h1, if_true]
      rw [if_neg (by decide), if_neg (show ¬("previous" = "zero") by decide)]
      simp only [Except.map, List.map_drop]
      congr 2
      by_cases h2 : (k : ℤ) - n - 1 < 0
      · rw [if_pos h2, if_pos h2, List.map_replicate, tv_zero]
      · rw [if_neg h2, if_neg h2, List.map_map]
        refine List.map_congr_left fun j _ => ?_
        simp only [get_t, Function.comp_apply, tv_sub]
    · simp [h0, h1, Except.map]

/-- The state of the time loop in the new coordinates. -/
noncomputable def tRun (U : β → Matrix (Fin m) (Fin m) ℝ) (r : Partial β m × Bool) : Partial β m × Bool := (fun j => (r.1 j).map (tv U), r.2)

include hU in
theorem step_t (hF : SameInCoordinates U F F') (cfg : Config) (nt n : ℕ) (t : ℕ → β → ℝ) (st : Partial β m × Bool) (k : ℕ) :
    integrateStep cfg F' nt n t (tRun U st) k = (integrateStep cfg F nt n t st k).map (tRun U) := by
  unfold integrateStep
  simp only [tRun, initialGuess_t]
  cases hg : initialGuess cfg.guessType nt n st.1 k with
  | error e => rfl
  | ok g =>
    simp only [Except.map, List.length_map]
    by_cases hl : g.length = sliceLen nt k n
    · simp only [hl, if_true, get_t]
      have hgf : (flatten fun j : Fin (sliceLen nt k n) => (g.map (tv U)).getD j.val 0) =
          tF U (flatten fun j : Fin (sliceLen nt k n) => g.getD j.val 0 : β → Fin (sliceLen nt k n * m) → ℝ) := by
        unfold tF
        rw [unflatten_flatten]
        congr 1
        funext j
        simp only [List.getD_eq_getElem?_getD, List.getElem?_map]
        cases g[j.val]? with
        | none => exact tv_zero.symm
        | some x => rfl
      rw [hgf, blockUpdate_t hU hF cfg (fun j : Fin (sliceLen nt k n) => t (k + j.val))]
      cases blockUpdate cfg F (fun j : Fin (sliceLen nt k n) => t (k + j.val)) (t (k - 1)) (st.1.get (k - 1))
        (flatten fun j : Fin (sliceLen nt k n) => g.getD j.val 0) with
      | error e => rfl
      | ok r =>
        simp only [Except.map]
        congr 2
        funext j
        by_cases hj : k ≤ j ∧ j - k < sliceLen nt k n
        · simp only [hj]; rfl
        · simp only [hj]; rfl
    · simp only [hl, if_false]

include hU in
theorem loop_run_t (hF : SameInCoordinates U F F') (cfg : Config) (nt n : ℕ)
    (t : ℕ → β → ℝ) (ks : List ℕ) : ∀ st : Partial β m × Bool,
    integrateLoop cfg F' nt n t ks (tRun U st) = (integrateLoop cfg F nt n t ks st).map (tRun U) := by
  induction ks with
  | nil => intro st; rfl
  | cons k ks ih =>
    intro st
    unfold integrateLoop
    rw [step_t hU hF cfg nt n t st k]
    cases integrateStep cfg F nt n t st k with
    | error e => rfl
    | ok st' => exact ih st'

include hU in
theorem integrate_t (hF : SameInCoordinates U F F') (cfg : Config) (y0 : BVec β m ℝ) (nt : ℕ) (t : ℕ → β → ℝ) (q : ℤ) :
    integrate cfg F' (fun b => (U b).mulVec (y0 b)) nt t q =
      (integrate cfg F y0 nt t q).map fun r => (fun j => (r.1 j).map fun x b => (U b).mulVec (x b), r.2) := by
  unfold integrate
  by_cases h : nt = 0
  · simp [h, Except.map]
  · simp only [h, if_false]
    cases hb : blockStarts nt q with
    | error e => rfl
    | ok starts =>
      have hi : (fun j => if j = 0 then some (fun b => (U b).mulVec (y0 b)) else none, false) =
          tRun U ((fun j => if j = 0 then some y0 else none, false) : Partial β m × Bool) := by
        refine Prod.ext ?_ rfl
        funext j
        by_cases hj : j = 0
        · simp [tRun, hj]; rfl
        · simp [tRun, hj]
      dsimp only
      rw [hi]
      exact loop_run_t hU hF cfg nt q.toNat t starts _

/-! ## The adjoint pass -/

include hU in
theorem updateAdjoint_t (s : Scheme) (d : Direct) {n : ℕ} (dt : Fin n → β → ℝ) (J : Fin (n + 1) → Blk β m ℝ) (a : BVec β m ℝ)
    (g : Fin (n + 1) → BVec β m ℝ) :
    updateAdjoint s d dt (fun k => tM U (tr U) (J k)) (tv U a) (fun k => tv U (g k)) = fun k => tv U (updateAdjoint s d dt J a g k) := by
  have ht : ∀ (X : Blk β m ℝ) b, (tM U (tr U) X b).transpose = U b * (X b).transpose * (U b).transpose := fun X b => by
    simp only [tM, Matrix.transpose_mul, Matrix.transpose_transpose, Matrix.mul_assoc]
  have hv : ∀ (X : Matrix (Fin m) (Fin m) ℝ) (x : Fin m → ℝ) b, (U b * X * (U b).transpose).mulVec ((U b).mulVec x) = (U b).mulVec (X.mulVec x) := by
    intro X x b
    rw [Matrix.mulVec_mulVec, Matrix.mul_assoc, (hU b).2, Matrix.mul_one, Matrix.mulVec_mulVec]
  have m0 : tM U (tr U) (0 : Blk β m ℝ) = 0 := tM_zero
  cases s with
  | backwardEuler =>
    unfold updateAdjoint
    dsimp only
    have h1 : (fun (k : Fin n) b => (1 : Matrix (Fin m) (Fin m) ℝ) + dt k b • (tM U (tr U) (J k.castSucc) b).transpose) =
        fun k => tM U (tr U) fun b => 1 + dt k b • (J k.castSucc b).transpose := by
      funext k b
      rw [ht]
      simp only [tM, Matrix.mul_add, Matrix.add_mul, Matrix.mul_one, (hU b).1, Matrix.mul_smul, Matrix.smul_mul]
    have h2 : (fun (_ : Fin (n - 1)) (_ : β) => (-1 : Matrix (Fin m) (Fin m) ℝ)) = fun _ => tM U (tr U) fun _ => -1 := by
      funext k b
      simp only [tM, Matrix.mul_neg, Matrix.neg_mul, Matrix.mul_one, (hU b).1]
    have h3 : (fun (k : Fin n) b => tv U (g k.succ) b + (dt k b • (tM U (tr U) (J k.castSucc) b).transpose).mulVec (tv U (g k.succ) b - tv U a b)) =
        fun k => tv U fun b => g k.succ b + (dt k b • (J k.castSucc b).transpose).mulVec (g k.succ b - a b) := by
      funext k b
      rw [ht]
      unfold tv
      rw [← Matrix.mulVec_sub, Matrix.smul_mulVec, hv, Matrix.mulVec_add, Matrix.smul_mulVec, Matrix.mulVec_smul]
    have e1 := (congrArg memOf h1).trans (memOf_mp (tM U (tr U)) m0 _)
    have e2 := (congrArg memOf h2).trans (memOf_mp (tM U (tr U)) m0 _)
    have e3 := (congrArg memOf h3).trans (memOf_mp (tv U) tv_zero _)
    have key := matvec_t (U := U) (V := tr U) (fun b => (hU b).2) (fun b => (hU b).1) d n (memOf fun (k : Fin n) b => (1 : Matrix (Fin m) (Fin m) ℝ) + dt k b • (J k.castSucc b).transpose) (memOf fun (_ : Fin (n - 1)) (_ : β) => (-1 : Matrix (Fin m) (Fin m) ℝ)) (memOf fun (k : Fin n) b => g k.succ b + (dt k b • (J k.castSucc b).transpose).mulVec (g k.succ b - a b))
    rw [← e1, ← e2, ← e3] at key
    funext k
    refine Fin.cases ?_ (fun i => ?_) k
    · change (0 : BVec β m ℝ) + tv U a = tv U (0 + a)
      rw [zero_add, zero_add]
    · refine Eq.trans ?_ (tv_add _ _)
      exact congrArg (· + tv U a) (congrFun key i)
  | forwardEuler =>
    unfold updateAdjoint
    dsimp only
    have h1 : (fun (_ : Fin n) (_ : β) => (1 : Matrix (Fin m) (Fin m) ℝ)) = fun _ => tM U (tr U) fun _ => 1 := by
      funext k b
      simp only [tM, Matrix.mul_one, (hU b).1]
    have h2 : (fun (k : Fin (n - 1)) b => dt ⟨k.val + 1, by omega⟩ b • (tM U (tr U) (J (Fin.succ ⟨k.val + 1, by omega⟩)) b).transpose - 1) =
        fun k => tM U (tr U) fun b => dt ⟨k.val + 1, by omega⟩ b • (J (Fin.succ ⟨k.val + 1, by omega⟩) b).transpose - 1 := by
      funext k b
      rw [ht]
      simp only [tM, Matrix.mul_sub, Matrix.sub_mul, Matrix.mul_one, (hU b).1, Matrix.mul_smul, Matrix.smul_mul]
    have h3 : (fun (k : Fin n) b => tv U (g k.succ) b + (dt k b • (tM U (tr U) (J k.succ) b).transpose).mulVec (-tv U a b)) =
        fun k => tv U fun b => g k.succ b + (dt k b • (J k.succ b).transpose).mulVec (-a b) := by
      funext k b
      rw [ht]
      unfold tv
      rw [← Matrix.mulVec_neg, Matrix.smul_mulVec, hv, Matrix.mulVec_add, Matrix.smul_mulVec, Matrix.mulVec_smul]
    have e1 := (congrArg memOf h1).trans (memOf_mp (tM U (tr U)) m0 _)
    have e2 := (congrArg memOf h2).trans (memOf_mp (tM U (tr U)) m0 _)
    have e3 := (congrArg memOf h3).trans (memOf_mp (tv U) tv_zero _)
    have key := matvec_t (U := U) (V := tr U) (fun b => (hU b).2) (fun b => (hU b).1) d n (memOf fun (_ : Fin n) (_ : β) => (1 : Matrix (Fin m) (Fin m) ℝ)) (memOf fun (k : Fin (n - 1)) b => dt ⟨k.val + 1, by omega⟩ b • (J (Fin.succ ⟨k.val + 1, by omega⟩) b).transpose - 1) (memOf fun (k : Fin n) b => g k.succ b + (dt k b • (J k.succ b).transpose).mulVec (-a b))
    rw [← e1, ← e2, ← e3] at key
    funext k
    refine Fin.cases ?_ (fun i => ?_) k
    · change (0 : BVec β m ℝ) + tv U a = tv U (0 + a)
      rw [zero_add, zero_add]
    · refine Eq.trans ?_ (tv_add _ _)
      exact congrArg (· + tv U a) (congrFun key i)

variable [Fintype β] {f f' : Func β m} {p : ℕ} {fp fp' : β → ℝ → (Fin m → ℝ) → Matrix (Fin m) (Fin p) ℝ}
  (hf : ∀ b t y, (f' b t ((U b).mulVec y)).2 = U b * (f b t y).2 * (U b).transpose)
  (hp : ∀ b t y, fp' b t ((U b).mulVec y) = U b * fp b t y)

include hU hp in
theorem paramPartial_t {n : ℕ} (t : Fin n → β → ℝ) (y w : Fin n → BVec β m ℝ) :
    paramPartial fp' t (fun k => tv U (y k)) (fun k => tv U (w k)) = paramPartial fp t y w := by
  unfold paramPartial
  refine Finset.sum_congr rfl fun k _ => Finset.sum_congr rfl fun b _ => ?_
  unfold tv
  rw [hp, ← Matrix.vecMul_vecMul, Matrix.vecMul_mulVec, (hU b).2, Matrix.vecMul_one]

include hU hf hp in
theorem rewindStep_t (s : Scheme) (d : Direct) (nt n : ℕ) (t : ℕ → β → ℝ) (y g : ℕ → BVec β m ℝ) (st : (Fin p → ℝ) × BVec β m ℝ) (k : ℕ) :
    rewindStep s d f' fp' nt n t (fun j => tv U (y j)) (fun j => tv U (g j)) (st.1, tv U st.2) k =
      ((rewindStep s d f fp nt n t y g st k).1, tv U (rewindStep s d f fp nt n t y g st k).2) := by
  have hJ : (fun (j : Fin (sliceLen nt k n + 1)) b => (f' b (t (k - 1 + j.val) b) (tv U (y (k - 1 + j.val)) b)).2) =
      fun j => tM U (tr U) fun b => (f b (t (k - 1 + j.val) b) (y (k - 1 + j.val) b)).2 := by
    funext j b
    exact hf b _ _
  have hu := updateAdjoint_t hU s d (diff fun j : Fin (sliceLen nt k n + 1) => t (k - 1 + j.val))
    (fun j b => (f b (t (k - 1 + j.val) b) (y (k - 1 + j.val) b)).2) st.2 (fun j => g (k - 1 + j.val))
  unfold rewindStep
  dsimp only
  rw [hJ, hu]
  refine Prod.ext ?_ rfl
  dsimp only
  generalize updateAdjoint s d _ _ _ _ = a
  cases s with
  | backwardEuler =>
    unfold accumulate
    dsimp only
    congr 1
    refine Eq.trans ?_ (paramPartial_t hU hp _ _ _)
    congr 1
    funext k b
    unfold tv
    rw [Matrix.mulVec_smul, Matrix.mulVec_sub]
  | forwardEuler =>
    unfold accumulate
    dsimp only
    congr 1
    refine Eq.trans ?_ (paramPartial_t hU hp _ _ _)
    congr 1
    funext k b
    unfold tv
    rw [Matrix.mulVec_smul]

include hU hf hp in
theorem rewind_t (s : Scheme) (d : Direct) (nt : ℕ) (t : ℕ → β → ℝ) (y g : ℕ → BVec β m ℝ) (q : ℤ) :
    rewind s d f' fp' nt t (fun k b => (U b).mulVec (y k b)) (fun k b => (U b).mulVec (g k b)) q =
      (rewind s d f fp nt t y g q).map fun r => (r.1, fun b => (U b).mulVec (r.2 b)) := by
  unfold rewind
  cases blockStarts nt q with
  | error e => rfl
  | ok starts =>
    have h : ∀ (l : List ℕ) (st : (Fin p → ℝ) × BVec β m ℝ), l.foldl (rewindStep s d f' fp' nt q.toNat (flipRows nt t)
        (fun j => tv U (flipRows nt y j)) (fun j => tv U (flipRows nt g j))) (st.1, tv U st.2) =
        ((l.foldl (rewindStep s d f fp nt q.toNat (flipRows nt t) (flipRows nt y) (flipRows nt g)) st).1,
          tv U (l.foldl (rewindStep s d f fp nt q.toNat (flipRows nt t) (flipRows nt y) (flipRows nt g)) st).2) := by
      intro l
      induction l with
      | nil => intro st; rfl
      | cons k ks ih =>
        intro st
        simp only [List.foldl_cons]
        rw [rewindStep_t hU hf hp, ih]
    exact congrArg Except.ok (h starts (0, flipRows nt g 0))

end Block

end Pyoptmat.Mirror
