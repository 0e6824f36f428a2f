import Verif.Proofs.Pcr
import Verif.Spec.Chunktime

/-! Helper lemmas: from storages to tensors of a definite shape, flat layout. -/

namespace Pyoptmat.Chunktime

variable {β : Type*} {m : ℕ} {K : Type*} [Field K]

open Pyoptmat.Spec

theorem memOf_apply {α : Type*} [Zero α] {n : ℕ} (x : Fin n → α) (k : ℕ) (h : k < n) :
    memOf x k = x ⟨k, h⟩ := by simp [memOf, h]

theorem sol_iff {n : ℕ} (A : Fin n → Blk β m K) (B : Fin (n - 1) → Blk β m K)
    (v : Fin n → BVec β m K) (x : Mem (BVec β m K)) :
    Sol n (memOf A) (memOf B) (memOf v) x ↔ SolvesBidiagonal A B v (fun k => x k) := by
  constructor
  · rintro ⟨h1, h2⟩
    refine ⟨fun h b => ?_, fun k h b => ?_⟩
    · have := congrFun (h1 h) b
      simpa [bmv, memOf_apply _ _ h] using this
    · have := congrFun (h2 k h) b
      rw [memOf_apply _ _ h, memOf_apply _ k (by omega), memOf_apply _ _ h] at this
      rw [← this, add_comm]; rfl
  · rintro ⟨h1, h2⟩
    refine ⟨fun h => ?_, fun k h => ?_⟩
    · funext b
      rw [memOf_apply _ _ h, memOf_apply _ _ h]; exact h1 h b
    · funext b
      rw [memOf_apply _ _ h, memOf_apply _ k (by omega), memOf_apply _ _ h]
      rw [← h2 k h b, add_comm]; rfl

/-- the solution by forward substitution -/
noncomputable def subst (A B : Mem (Blk β m K)) (v : Mem (BVec β m K)) : Mem (BVec β m K)
  | 0 => luSolve (A 0) (v 0)
  | k + 1 => luSolve (A (k + 1)) (v (k + 1) - bmv (B k) (subst A B v k))

theorem sol_subst {n : ℕ} {A B : Mem (Blk β m K)} (hA : ∀ j, j < n → Inv (A j))
    (v : Mem (BVec β m K)) : Sol n A B v (subst A B v) := by
  refine ⟨fun h => bmv_luSolve (hA 0 h) _, fun k h => ?_⟩
  rw [subst, bmv_luSolve (hA _ h)]; abel

theorem sol_unique {n : ℕ} {A B : Mem (Blk β m K)} {v x y : Mem (BVec β m K)}
    (hA : ∀ j, j < n → Inv (A j)) (hx : Sol n A B v x) (hy : Sol n A B v y) :
    ∀ j, j < n → x j = y j := by
  intro j
  induction j with
  | zero =>
    intro h
    rw [← luSolve_eq (hA 0 h) (hx.1 h), ← luSolve_eq (hA 0 h) (hy.1 h)]
  | succ j ih =>
    intro h
    have h1 : bmv (A (j + 1)) (x (j + 1)) = v (j + 1) - bmv (B j) (x j) := by
      rw [← hx.2 j h]; abel
    have h2 : bmv (A (j + 1)) (y (j + 1)) = v (j + 1) - bmv (B j) (y j) := by
      rw [← hy.2 j h]; abel
    rw [← luSolve_eq (hA _ h) h1, ← luSolve_eq (hA _ h) h2, ih (by omega)]

theorem Sol.congr {n : ℕ} {A B : Mem (Blk β m K)} {v x y : Mem (BVec β m K)}
    (hx : Sol n A B v x) (h : ∀ j, j < n → y j = x j) : Sol n A B v y := by
  refine ⟨fun h0 => ?_, fun k hk => ?_⟩
  · rw [h 0 h0]; exact hx.1 h0
  · rw [h _ hk, h k (by omega)]; exact hx.2 k hk

theorem direct_ret (d : Direct) {n : ℕ} (hn : 0 < n) {lu B : Mem (Blk β m K)}
    {v x : Mem (BVec β m K)} (hA : ∀ j, j < n → Inv (lu j)) (hsol : Sol n lu B v x) (j : ℕ)
    (hj : j < n) : (d.matvec n lu B v).ret j = x j := by
  cases d with
  | thomas => exact (thomasSolve_eq hn hA hsol).1 j hj
  | pcr => exact pcrMatvec_ret hn hA hsol j hj
  | hybrid ms => exact hybridMatvec_ret ms hn hA hsol j hj

theorem direct_sol (d : Direct) {n : ℕ} (hn : 0 < n) {lu B : Mem (Blk β m K)}
    {v : Mem (BVec β m K)} (hA : ∀ j, j < n → Inv (lu j)) :
    Sol n lu B v (d.matvec n lu B v).ret :=
  (sol_subst hA v).congr fun j hj => direct_ret d hn hA (sol_subst hA v) j hj

theorem inv_memOf {n : ℕ} {A : Fin n → Blk β m K} (hA : ∀ k b, IsUnit (A k b).det) :
    ∀ j, j < n → Inv (memOf A j) := by
  intro j hj b
  rw [memOf_apply _ _ hj]; exact hA _ b

/-- All direct methods return the unique solution (tensor form). -/
theorem direct_solves (d : Direct) {n : ℕ} (hn : 0 < n) (A : Fin n → Blk β m K)
    (B : Fin (n - 1) → Blk β m K) (v : Fin n → BVec β m K) (hA : ∀ k b, IsUnit (A k b).det) :
    SolvesBidiagonal A B v (fun k => (d.matvec n (memOf A) (memOf B) (memOf v)).ret k) ∧
    ∀ x, SolvesBidiagonal A B v x →
      x = fun k : Fin n => (d.matvec n (memOf A) (memOf B) (memOf v)).ret k := by
  have hinv := inv_memOf hA
  have hs := direct_sol d hn (B := memOf B) (v := memOf v) hinv
  refine ⟨(sol_iff _ _ _ _).1 hs, fun x hx => ?_⟩
  have hx' : Sol n (memOf A) (memOf B) (memOf v) (memOf x) := by
    rw [sol_iff]
    have : (fun k : Fin n => memOf x k) = x := by
      funext k; exact memOf_apply x k k.2
    rw [this]; exact hx
  funext k
  have := sol_unique hinv hx' hs k k.2
  rw [← this, memOf_apply _ _ k.2]

/-! ### flat layout -/

theorem flatten_unflatten {nblk : ℕ} (v : β → Fin (nblk * m) → K) :
    flatten (unflatten v) = v := by
  funext b i
  simp only [flatten, unflatten]
  congr 1
  exact finProdFinEquiv.apply_symm_apply i

theorem unflatten_flatten {nblk : ℕ} (x : Fin nblk → BVec β m K) :
    unflatten (flatten x) = x := by
  funext k b r
  simp only [flatten, unflatten]
  have := finProdFinEquiv.symm_apply_apply (k, r)
  have h1 : (finProdFinEquiv (k, r)).divNat = k := congrArg Prod.fst this
  have h2 : (finProdFinEquiv (k, r)).modNat = r := congrArg Prod.snd this
  rw [h1, h2]

theorem divNat_pair {n : ℕ} (k : Fin n) (r : Fin m) : (finProdFinEquiv (k, r)).divNat = k :=
  congrArg Prod.fst (finProdFinEquiv.symm_apply_apply (k, r))
theorem modNat_pair {n : ℕ} (k : Fin n) (r : Fin m) : (finProdFinEquiv (k, r)).modNat = r :=
  congrArg Prod.snd (finProdFinEquiv.symm_apply_apply (k, r))

theorem sum_flat {n : ℕ} (f : Fin (n * m) → K) :
    ∑ i, f i = ∑ k : Fin n, ∑ r : Fin m, f (finProdFinEquiv (k, r)) := by
  rw [← Fintype.sum_prod_type']
  exact (Equiv.sum_comp finProdFinEquiv f).symm

/-- rows of the dense matrix-vector product -/
theorem bidiagonalMatrix_mulVec {n : ℕ} (A : Fin n → Matrix (Fin m) (Fin m) K)
    (B : Fin (n - 1) → Matrix (Fin m) (Fin m) K) (y : Fin (n * m) → K) (k : Fin n) (r : Fin m) :
    (bidiagonalMatrix A B).mulVec y (finProdFinEquiv (k, r)) =
      (A k).mulVec (fun c => y (finProdFinEquiv (k, c))) r +
      (if h : 0 < k.val then (B ⟨k.val - 1, by omega⟩).mulVec
        (fun c => y (finProdFinEquiv (⟨k.val - 1, by omega⟩, c))) r else 0) := by
  unfold Matrix.mulVec dotProduct
  rw [sum_flat]
  have hterm : ∀ J : Fin n, (∑ c : Fin m, bidiagonalMatrix A B (finProdFinEquiv (k, r))
      (finProdFinEquiv (J, c)) * y (finProdFinEquiv (J, c))) =
      if k = J then ∑ c, A k r c * y (finProdFinEquiv (k, c))
      else if h : k.val = J.val + 1 then
        ∑ c, B ⟨J.val, by omega⟩ r c * y (finProdFinEquiv (J, c)) else 0 := by
    intro J
    unfold bidiagonalMatrix
    simp only [divNat_pair, modNat_pair]
    split_ifs with h1 h2
    · subst h1; rfl
    · rfl
    · simp
  rw [Finset.sum_congr rfl (fun J _ => hterm J)]
  rw [← Finset.add_sum_erase _ _ (Finset.mem_univ k)]
  rw [if_pos rfl]
  congr 1
  split_ifs with hk
  · rw [Finset.sum_eq_single (⟨k.val - 1, by omega⟩ : Fin n)]
    · rw [if_neg (by intro h; have := congrArg Fin.val h; simp at this; omega), dif_pos (by simp; omega)]
    · intro J hJ hJk
      rw [if_neg (by intro h; exact (Finset.mem_erase.1 hJ).1 h.symm), dif_neg]
      intro h
      apply hJk
      apply Fin.ext; simp; omega
    · intro h
      exfalso; apply h
      rw [Finset.mem_erase]
      refine ⟨?_, Finset.mem_univ _⟩
      intro h; have := congrArg Fin.val h; simp at this; omega
  · apply Finset.sum_eq_zero
    intro J hJ
    rw [if_neg (by intro h; exact (Finset.mem_erase.1 hJ).1 h.symm), dif_neg]
    omega

/-- the dense equation is the blockwise system -/
theorem bidiagonal_mulVec_iff {n : ℕ} (A : Fin n → Blk β m K) (B : Fin (n - 1) → Blk β m K)
    (R x : β → Fin (n * m) → K) :
    (∀ b, (bidiagonalMatrix (fun k => A k b) (fun k => B k b)).mulVec (x b) = R b) ↔
      SolvesBidiagonal A B (unflatten R) (unflatten x) := by
  constructor
  · intro h
    refine ⟨fun h0 b => ?_, fun k hk b => ?_⟩
    · funext r
      have := congrFun (h b) (finProdFinEquiv (⟨0, h0⟩, r))
      rw [bidiagonalMatrix_mulVec] at this
      simp at this
      exact this
    · funext r
      have := congrFun (h b) (finProdFinEquiv (⟨k + 1, hk⟩, r))
      rw [bidiagonalMatrix_mulVec, dif_pos (by simp)] at this
      rw [add_comm]
      simp at this
      exact this
  · rintro ⟨h1, h2⟩ b
    funext i
    obtain ⟨⟨k, r⟩, rfl⟩ := finProdFinEquiv.surjective i
    rw [bidiagonalMatrix_mulVec]
    obtain ⟨k, hk⟩ := k
    rcases k with _ | k
    · have := congrFun (h1 hk b) r
      simp only [Nat.lt_irrefl, dite_false, add_zero]
      exact this
    · have := congrFun (h2 k hk b) r
      rw [add_comm] at this
      rw [dif_pos (by simp)]
      exact this

theorem forward_solves (d : Direct) {n : ℕ} (hn : 0 < n) (op : BidiagOp β n m K)
    (hA : ∀ k b, IsUnit (op.A k b).det) (R : β → Fin (n * m) → K) (b : β) :
    (bidiagonalMatrix (fun k => op.A k b) (fun k => op.B k b)).mulVec (forward d op R b) = R b := by
  refine (bidiagonal_mulVec_iff op.A op.B R (forward d op R)).2 ?_ b
  unfold forward
  rw [unflatten_flatten]
  exact (direct_solves d hn op.A op.B (unflatten R) hA).1

theorem bidiagonal_injective {n : ℕ} (hn : 0 < n) (A : Fin n → Matrix (Fin m) (Fin m) K)
    (B : Fin (n - 1) → Matrix (Fin m) (Fin m) K) (hA : ∀ k, IsUnit (A k).det) :
    Function.Injective (bidiagonalMatrix A B).mulVec := by
  intro x y hxy
  have h1 := (bidiagonal_mulVec_iff (β := Unit) (fun k _ => A k) (fun k _ => B k)
    (fun _ => (bidiagonalMatrix A B).mulVec y) (fun _ => x)).1 (fun _ => hxy)
  have h2 := (bidiagonal_mulVec_iff (β := Unit) (fun k _ => A k) (fun k _ => B k)
    (fun _ => (bidiagonalMatrix A B).mulVec y) (fun _ => y)).1 (fun _ => rfl)
  have hu := (direct_solves .thomas hn (fun k (_ : Unit) => A k) (fun k _ => B k)
    (unflatten fun _ => (bidiagonalMatrix A B).mulVec y) (fun k _ => hA k)).2
  have := (hu _ h1).trans (hu _ h2).symm
  have := congrArg flatten this
  rw [flatten_unflatten, flatten_unflatten] at this
  exact congrFun this ()

theorem bidiagonal_isUnit {n : ℕ} (hn : 0 < n) (A : Fin n → Matrix (Fin m) (Fin m) K)
    (B : Fin (n - 1) → Matrix (Fin m) (Fin m) K) (hA : ∀ k, IsUnit (A k).det) :
    IsUnit (bidiagonalMatrix A B).det := by
  rw [← Matrix.isUnit_iff_isUnit_det]
  exact Matrix.mulVec_injective_iff_isUnit.1 (bidiagonal_injective hn A B hA)

end Pyoptmat.Chunktime
