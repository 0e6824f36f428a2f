import Verif.Proofs.BlockNewton

/-! Helper lemmas: the adjoint recursion. -/

namespace Pyoptmat.Ode

open Pyoptmat.Chunktime Pyoptmat.Newton Pyoptmat.Spec

variable {β : Type*} {m : ℕ}

theorem updateAdjoint_zero (s : Scheme) (d : Direct) {n : ℕ} (dt : Fin n → β → ℝ)
    (J : Fin (n + 1) → Blk β m ℝ) (aPrev : BVec β m ℝ) (grads : Fin (n + 1) → BVec β m ℝ) :
    updateAdjoint s d dt J aPrev grads 0 = aPrev := by
  simp [updateAdjoint, stack]

theorem updateAdjoint_be (d : Direct) {n : ℕ} (hn : 0 < n) (dt : Fin n → β → ℝ)
    (J : Fin (n + 1) → Blk β m ℝ) (aPrev : BVec β m ℝ) (grads : Fin (n + 1) → BVec β m ℝ)
    (hA : ∀ k b, IsUnit (1 + dt k b • (J k.castSucc b).transpose).det) (k : Fin n) (b : β) :
    (1 + dt k b • (J k.castSucc b).transpose).mulVec
      (updateAdjoint .backwardEuler d dt J aPrev grads k.succ b - grads k.succ b) =
      updateAdjoint .backwardEuler d dt J aPrev grads k.castSucc b := by
  have h := (direct_solves d hn (fun k b => (1 : Matrix (Fin m) (Fin m) ℝ) + dt k b • (J k.castSucc b).transpose)
    (fun _ _ => -1) (fun k b => grads k.succ b +
      (dt k b • (J k.castSucc b).transpose).mulVec (grads k.succ b - aPrev b)) hA).1
  unfold updateAdjoint
  simp only [Pi.add_apply]
  set z : Fin n → BVec β m ℝ := fun k => (d.matvec n
    (memOf fun (k : Fin n) b => (1 : Matrix (Fin m) (Fin m) ℝ) + dt k b • (J k.castSucc b).transpose)
    (memOf fun (_ : Fin (n - 1)) (_ : β) => (-1 : Matrix (Fin m) (Fin m) ℝ))
    (memOf fun k b => grads k.succ b +
      (dt k b • (J k.castSucc b).transpose).mulVec (grads k.succ b - aPrev b))).ret k with hz
  clear_value z
  have h2 := solves_stack h (fun _ _ => -1) (fun _ _ => rfl) k b
  have hs : (stack 0 z : Fin (n + 1) → BVec β m ℝ) k.succ = z k := by simp [stack]
  rw [hs]
  simp only [Matrix.neg_mulVec, Matrix.one_mulVec, Matrix.add_mulVec, Matrix.smul_mulVec,
    Matrix.mulVec_sub, Matrix.mulVec_add, smul_sub, smul_add] at h2 ⊢
  have e := sub_eq_zero.2 h2
  rw [← sub_eq_zero, ← e]
  abel

theorem updateAdjoint_fe (d : Direct) {n : ℕ} (hn : 0 < n) (dt : Fin n → β → ℝ)
    (J : Fin (n + 1) → Blk β m ℝ) (aPrev : BVec β m ℝ) (grads : Fin (n + 1) → BVec β m ℝ)
    (k : Fin n) (b : β) :
    updateAdjoint .forwardEuler d dt J aPrev grads k.succ b =
      grads k.succ b + (1 - dt k b • (J k.succ b).transpose).mulVec
      (updateAdjoint .forwardEuler d dt J aPrev grads k.castSucc b) := by
  have h := (direct_solves d hn (fun _ _ => (1 : Matrix (Fin m) (Fin m) ℝ))
    (fun (k : Fin (n - 1)) b => dt ⟨k.val + 1, by omega⟩ b • (J (Fin.succ ⟨k.val + 1, by omega⟩) b).transpose - 1)
    (fun k b => grads k.succ b + (dt k b • (J k.succ b).transpose).mulVec (-aPrev b)) (by simp)).1
  unfold updateAdjoint
  simp only [Pi.add_apply]
  set z : Fin n → BVec β m ℝ := fun k => (d.matvec n
    (memOf fun (_ : Fin n) (_ : β) => (1 : Matrix (Fin m) (Fin m) ℝ))
    (memOf fun (k : Fin (n - 1)) b => dt ⟨k.val + 1, by omega⟩ b •
      (J (Fin.succ ⟨k.val + 1, by omega⟩) b).transpose - 1)
    (memOf fun k b => grads k.succ b + (dt k b • (J k.succ b).transpose).mulVec (-aPrev b))).ret k with hz
  clear_value z
  have h2 := solves_stack h (fun k b => dt k b • (J k.succ b).transpose - 1) (fun _ _ => rfl) k b
  have hs : (stack 0 z : Fin (n + 1) → BVec β m ℝ) k.succ = z k := by simp [stack]
  rw [hs]
  simp only [Matrix.sub_mulVec, Matrix.one_mulVec, Matrix.add_mulVec, Matrix.smul_mulVec,
    Matrix.mulVec_sub, Matrix.mulVec_add, smul_sub, smul_add, Matrix.mulVec_neg, smul_neg] at h2 ⊢
  have e := sub_eq_zero.2 h2
  rw [← sub_eq_zero, ← e]
  abel

/-- The adjoint sequence on flipped tensors, defined step by step. -/
noncomputable def adj (s : Scheme) (f : Func β m) (t : ℕ → β → ℝ) (y g : ℕ → BVec β m ℝ) : ℕ → BVec β m ℝ
  | 0 => g 0
  | j + 1 => fun b => g (j + 1) b +
    match s with
    | .backwardEuler =>
      (1 + (t (j + 1) b - t j b) • (f b (t j b) (y j b)).2.transpose)⁻¹.mulVec (adj s f t y g j b)
    | .forwardEuler =>
      (1 - (t (j + 1) b - t j b) • (f b (t (j + 1) b) (y (j + 1) b)).2.transpose).mulVec (adj s f t y g j b)

/-- Contribution of step `j` to the parameter gradient. -/
noncomputable def contrib [Fintype β] {p : ℕ} (s : Scheme) (f : Func β m)
    (fp : β → ℝ → (Fin m → ℝ) → Matrix (Fin m) (Fin p) ℝ) (t : ℕ → β → ℝ) (y g : ℕ → BVec β m ℝ)
    (j : ℕ) : Fin p → ℝ :=
  ∑ b, match s with
    | .backwardEuler => Matrix.vecMul ((-(t (j + 1) b - t j b)) • (adj s f t y g (j + 1) b - g (j + 1) b))
        (fp b (t j b) (y j b))
    | .forwardEuler => Matrix.vecMul ((-(t (j + 1) b - t j b)) • adj s f t y g j b)
        (fp b (t (j + 1) b) (y (j + 1) b))

/-- One block continues the step-by-step sequence. -/
theorem block_adj (s : Scheme) (d : Direct) (f : Func β m) {n : ℕ} (hn : 0 < n) (t : ℕ → β → ℝ)
    (y g : ℕ → BVec β m ℝ) (k : ℕ)
    (hA : s = .backwardEuler → ∀ j < n, ∀ b,
      IsUnit (1 + (t (k + j + 1) b - t (k + j) b) • (f b (t (k + j) b) (y (k + j) b)).2.transpose).det) (j : ℕ) :
    ∀ (hj : j < n + 1), updateAdjoint s d (diff fun j : Fin (n + 1) => t (k + j.val))
      (fun j b => (f b (t (k + j.val) b) (y (k + j.val) b)).2) (adj s f t y g k) (fun j => g (k + j.val))
      ⟨j, hj⟩ = adj s f t y g (k + j) := by
  induction j with
  | zero =>
    intro hj
    have := updateAdjoint_zero s d (diff fun j : Fin (n + 1) => t (k + j.val))
      (fun j b => (f b (t (k + j.val) b) (y (k + j.val) b)).2) (adj s f t y g k) (fun j => g (k + j.val))
    exact this
  | succ j ih =>
    intro hj
    have ih := ih (by omega)
    funext b
    have hjn : j < n := by omega
    rw [← Nat.add_assoc, adj]
    cases s with
    | backwardEuler =>
      simp only
      have h := updateAdjoint_be d hn (diff fun j : Fin (n + 1) => t (k + j.val))
        (fun j b => (f b (t (k + j.val) b) (y (k + j.val) b)).2) (adj .backwardEuler f t y g k)
        (fun j => g (k + j.val)) (fun j b => hA rfl j.val j.2 b) ⟨j, hjn⟩ b
      have hc : (Fin.castSucc ⟨j, hjn⟩ : Fin (n + 1)) = ⟨j, by omega⟩ := rfl
      have hs : (Fin.succ ⟨j, hjn⟩ : Fin (n + 1)) = ⟨j + 1, hj⟩ := rfl
      rw [hc, hs, ih] at h
      simp only [diff, hs, hc] at h ⊢
      have h3 := congrArg ((1 + (t (k + j + 1) b - t (k + j) b) •
        (f b (t (k + j) b) (y (k + j) b)).2.transpose)⁻¹.mulVec) h
      rw [Matrix.mulVec_mulVec] at h3
      have hu := Matrix.nonsing_inv_mul _ (hA rfl j hjn b)
      rw [← Nat.add_assoc, hu, Matrix.one_mulVec] at h3
      rw [← h3]
      simp only [Nat.add_assoc]
      abel
    | forwardEuler =>
      simp only
      have h := updateAdjoint_fe d hn (diff fun j : Fin (n + 1) => t (k + j.val))
        (fun j b => (f b (t (k + j.val) b) (y (k + j.val) b)).2) (adj .forwardEuler f t y g k)
        (fun j => g (k + j.val)) ⟨j, hjn⟩ b
      have hc : (Fin.castSucc ⟨j, hjn⟩ : Fin (n + 1)) = ⟨j, by omega⟩ := rfl
      have hs : (Fin.succ ⟨j, hjn⟩ : Fin (n + 1)) = ⟨j + 1, hj⟩ := rfl
      rw [hc, hs, ih] at h
      rw [h]
      rfl

/-- One step of the rewind loop from the right state. -/
theorem rewindStep_spec [Fintype β] (s : Scheme) (d : Direct) (f : Func β m) {p : ℕ}
    (fp : β → ℝ → (Fin m → ℝ) → Matrix (Fin m) (Fin p) ℝ) (nt n : ℕ) (t : ℕ → β → ℝ)
    (y g : ℕ → BVec β m ℝ) (acc : Fin p → ℝ) (k : ℕ) (hk : k + 1 < nt) (hn : 0 < n)
    (hA : s = .backwardEuler → ∀ j, j + 1 < nt → ∀ b,
      IsUnit (1 + (t (j + 1) b - t j b) • (f b (t j b) (y j b)).2.transpose).det) :
    rewindStep s d f fp nt n t y g (acc, adj s f t y g k) (k + 1) =
      (acc + ∑ j ∈ Finset.range (sliceLen nt (k + 1) n), contrib s f fp t y g (k + j),
        adj s f t y g (k + sliceLen nt (k + 1) n)) := by
  have hlen : 0 < sliceLen nt (k + 1) n := by unfold sliceLen; omega
  have hb := block_adj s d f hlen t y g k (fun hs j hj b => hA hs (k + j) (by unfold sliceLen at hj; omega) b)
  unfold rewindStep
  simp only [Nat.add_sub_cancel]
  have hfull : (updateAdjoint s d (diff fun j : Fin (sliceLen nt (k + 1) n + 1) => t (k + j.val))
      (fun j b => (f b (t (k + j.val) b) (y (k + j.val) b)).2) (adj s f t y g k) (fun j => g (k + j.val)))
      = fun j => adj s f t y g (k + j.val) := by
    funext j
    exact hb j.val j.2
  rw [hfull]
  refine Prod.ext ?_ ?_
  · simp only
    unfold accumulate
    cases s with
    | backwardEuler =>
      simp only
      congr 1
      unfold paramPartial
      rw [Finset.sum_range]
      refine Finset.sum_congr rfl fun j _ => ?_
      unfold contrib
      simp only [diff, Fin.val_succ, Fin.val_castSucc, ← Nat.add_assoc]
    | forwardEuler =>
      simp only
      congr 1
      unfold paramPartial
      rw [Finset.sum_range]
      refine Finset.sum_congr rfl fun j _ => ?_
      unfold contrib
      simp only [diff, Fin.val_succ, Fin.val_castSucc, ← Nat.add_assoc]
  · simp [Fin.val_last]

theorem rewind_fold [Fintype β] (s : Scheme) (d : Direct) (f : Func β m) {p : ℕ}
    (fp : β → ℝ → (Fin m → ℝ) → Matrix (Fin m) (Fin p) ℝ) (nt n : ℕ) (t : ℕ → β → ℝ)
    (y g : ℕ → BVec β m ℝ) (hn : 0 < n)
    (hA : s = .backwardEuler → ∀ j, j + 1 < nt → ∀ b,
      IsUnit (1 + (t (j + 1) b - t j b) • (f b (t j b) (y j b)).2.transpose).det) (cnt : ℕ) :
    ∀ (k : ℕ) (acc : Fin p → ℝ), (∀ i < cnt, k + 1 + i * n < nt) →
    (List.range' (k + 1) cnt n).foldl (rewindStep s d f fp nt n t y g) (acc, adj s f t y g k) =
      (acc + ∑ j ∈ Finset.Ico k (if cnt = 0 then k else min (k + cnt * n) (nt - 1)), contrib s f fp t y g j,
        adj s f t y g (if cnt = 0 then k else min (k + cnt * n) (nt - 1))) := by
  induction cnt with
  | zero => intro k acc _; simp
  | succ cnt ih =>
    intro k acc hcov
    rw [List.range'_succ, List.foldl_cons]
    have h0 := hcov 0 (by omega)
    rw [Nat.zero_mul, Nat.add_zero] at h0
    rw [rewindStep_spec s d f fp nt n t y g acc k h0 hn hA]
    rw [if_neg (by omega)]
    rcases Nat.eq_zero_or_pos cnt with hc | hc
    · subst hc
      simp only [List.range'_zero, List.foldl_nil, Nat.zero_add, Nat.one_mul]
      have hs : k + sliceLen nt (k + 1) n = min (k + n) (nt - 1) := by unfold sliceLen; omega
      rw [← hs, Finset.sum_Ico_eq_sum_range]
      simp
    · have h1 := hcov 1 (by omega)
      have hs : sliceLen nt (k + 1) n = n := by unfold sliceLen; omega
      rw [hs, show k + 1 + n = (k + n) + 1 by omega, ih (k + n) _ ?_]
      · rw [if_neg (by omega)]
        have he : k + n + cnt * n = k + (cnt + 1) * n := by ring
        rw [he]
        have hle : k + n ≤ min (k + (cnt + 1) * n) (nt - 1) := by
          have : n ≤ (cnt + 1) * n := Nat.le_mul_of_pos_left n (by omega)
          omega
        refine Prod.ext ?_ rfl
        simp only
        rw [add_assoc, ← Finset.sum_Ico_consecutive _ (Nat.le_add_right k n) hle,
          Finset.sum_Ico_eq_sum_range _ k (k + n), Nat.add_sub_cancel_left]
      · intro i hi
        have := hcov (i + 1) (by omega)
        have he : k + n + 1 + i * n = k + 1 + (i + 1) * n := by ring
        omega

/-- What `rewind` returns, for every block size. -/
theorem rewind_spec [Fintype β] (s : Scheme) (d : Direct) (f : Func β m) {p : ℕ}
    (fp : β → ℝ → (Fin m → ℝ) → Matrix (Fin m) (Fin p) ℝ) (nt : ℕ) (hnt : 0 < nt) (t : ℕ → β → ℝ)
    (y g : ℕ → BVec β m ℝ) (n : ℤ) (hn : 0 < n)
    (hA : s = .backwardEuler → ∀ k, k + 1 < nt → ∀ b,
      IsUnit (1 - (t (k + 1) b - t k b) • (f b (t (k + 1) b) (y (k + 1) b)).2).det) :
    rewind s d f fp nt t y g n =
      .ok (∑ j ∈ Finset.range (nt - 1),
        contrib s f fp (flipRows nt t) (flipRows nt y) (flipRows nt g) j,
        adj s f (flipRows nt t) (flipRows nt y) (flipRows nt g) (nt - 1)) := by
  unfold rewind
  rw [blockStarts_pos nt hn]
  simp only
  congr 1
  have hA' : s = .backwardEuler → ∀ j, j + 1 < nt → ∀ b,
      IsUnit (1 + (flipRows nt t (j + 1) b - flipRows nt t j b) •
        (f b (flipRows nt t j b) (flipRows nt y j b)).2.transpose).det := by
    intro hs j hj b
    have := hA hs (nt - 1 - (j + 1)) (by omega) b
    have e : nt - 1 - (j + 1) + 1 = nt - 1 - j := by omega
    rw [e] at this
    unfold flipRows
    rw [← Matrix.det_transpose] at this
    convert this using 2
    rw [Matrix.transpose_sub, Matrix.transpose_smul, Matrix.transpose_one, sub_eq_add_neg (1 : Matrix _ _ ℝ), ← neg_smul]
    congr 2
    ring
  have h := rewind_fold s d f fp nt n.toNat (flipRows nt t) (flipRows nt y) (flipRows nt g) (by omega) hA'
    (nblocks nt n.toNat) 0 0 (fun i hi => by
      have := nblocks_lt (by omega) hi
      omega)
  rw [show (0 : ℕ) + 1 = 1 from rfl] at h
  have h0 : adj s f (flipRows nt t) (flipRows nt y) (flipRows nt g) 0 = flipRows nt g 0 := rfl
  rw [h0] at h
  rw [h]
  have hend : (if nblocks nt n.toNat = 0 then 0 else min (0 + nblocks nt n.toNat * n.toNat) (nt - 1)) = nt - 1 := by
    have := nblocks_cover (nt := nt) (N := n.toNat) (by omega)
    split_ifs with h0
    · rw [h0] at this; omega
    · omega
  rw [hend, zero_add, Finset.range_eq_Ico]

/-- Tangents of the discrete flow at forward times. -/
def IsTangent (s : Scheme) (f : Func β m) {p : ℕ} (fp : β → ℝ → (Fin m → ℝ) → Matrix (Fin m) (Fin p) ℝ)
    (nt : ℕ) (t : ℕ → β → ℝ) (y : ℕ → BVec β m ℝ) (v : Fin p → ℝ) (S : ℕ → BVec β m ℝ) : Prop :=
  ∀ k b, k + 1 < nt →
    match s with
    | .backwardEuler => S (k + 1) b = S k b + (t (k + 1) b - t k b) •
        ((f b (t (k + 1) b) (y (k + 1) b)).2.mulVec (S (k + 1) b) + (fp b (t (k + 1) b) (y (k + 1) b)).mulVec v)
    | .forwardEuler => S (k + 1) b = S k b + (t (k + 1) b - t k b) •
        ((f b (t k b) (y k b)).2.mulVec (S k b) + (fp b (t k b) (y k b)).mulVec v)

/-- The discrete adjoint identity. -/
theorem adjoint_identity [Fintype β] (s : Scheme) (f : Func β m) {p : ℕ}
    (fp : β → ℝ → (Fin m → ℝ) → Matrix (Fin m) (Fin p) ℝ) (nt : ℕ) (t : ℕ → β → ℝ)
    (y g : ℕ → BVec β m ℝ)
    (hA : s = .backwardEuler → ∀ k, k + 1 < nt → ∀ b,
      IsUnit (1 - (t (k + 1) b - t k b) • (f b (t (k + 1) b) (y (k + 1) b)).2).det)
    (v : Fin p → ℝ) (S : ℕ → BVec β m ℝ) (hS : IsTangent s f fp nt t y v S) (j : ℕ) (hj : j < nt) :
    ∑ i ∈ Finset.range (j + 1), ∑ b, flipRows nt g i b ⬝ᵥ flipRows nt S i b =
      (∑ i ∈ Finset.range j, contrib s f fp (flipRows nt t) (flipRows nt y) (flipRows nt g) i) ⬝ᵥ v +
      ∑ b, adj s f (flipRows nt t) (flipRows nt y) (flipRows nt g) j b ⬝ᵥ flipRows nt S j b := by
  induction j with
  | zero => simp [adj]
  | succ j ih =>
    rw [Finset.sum_range_succ, ih (by omega), Finset.sum_range_succ _ j, add_dotProduct, add_assoc, add_assoc]
    congr 1
    unfold contrib
    rw [sum_dotProduct, ← Finset.sum_add_distrib, ← Finset.sum_add_distrib]
    refine Finset.sum_congr rfl fun b _ => ?_
    have hk : nt - 1 - (j + 1) + 1 = nt - 1 - j := by omega
    have hT := hS (nt - 1 - (j + 1)) b (by omega)
    rw [hk] at hT
    have hrec := congrFun (adj.eq_2 s f (flipRows nt t) (flipRows nt y) (flipRows nt g) j) b
    cases s with
    | backwardEuler =>
      have hA := hA rfl (nt - 1 - (j + 1)) (by omega) b
      rw [hk] at hA
      set μ := adj .backwardEuler f (flipRows nt t) (flipRows nt y) (flipRows nt g) (j + 1) b -
        flipRows nt g (j + 1) b with hμ
      set dt := t (nt - 1 - j) b - t (nt - 1 - (j + 1)) b with hdt
      set J := (f b (t (nt - 1 - j) b) (y (nt - 1 - j) b)).2 with hJ
      have hmat : (1 + (flipRows nt t (j + 1) b - flipRows nt t j b) •
          (f b (flipRows nt t j b) (flipRows nt y j b)).2.transpose) = (1 - dt • J).transpose := by
        unfold flipRows
        rw [Matrix.transpose_sub, Matrix.transpose_smul, Matrix.transpose_one, sub_eq_add_neg (1 : Matrix _ _ ℝ), ← neg_smul]
        congr 2
        rw [hdt]; ring
      simp only at hrec hT
      rw [hmat] at hrec
      have hμe : μ = ((1 - dt • J).transpose)⁻¹.mulVec
          (adj .backwardEuler f (flipRows nt t) (flipRows nt y) (flipRows nt g) j b) := by
        rw [hμ, hrec]; abel
      have ha : adj .backwardEuler f (flipRows nt t) (flipRows nt y) (flipRows nt g) j b =
          (1 - dt • J).transpose.mulVec μ := by
        rw [hμe, Matrix.mulVec_mulVec, Matrix.mul_nonsing_inv _ (by rw [Matrix.det_transpose]; exact hA),
          Matrix.one_mulVec]
      have hadj : adj .backwardEuler f (flipRows nt t) (flipRows nt y) (flipRows nt g) (j + 1) b =
          flipRows nt g (j + 1) b + μ := by rw [hμ]; abel
      rw [hadj, ha, add_dotProduct]
      have hS1 : flipRows nt S j b = S (nt - 1 - j) b := rfl
      have hS2 : flipRows nt S (j + 1) b = S (nt - 1 - (j + 1)) b := rfl
      have hflip : -(flipRows nt t (j + 1) b - flipRows nt t j b) = dt := by
        rw [hdt]; unfold flipRows; ring
      simp only
      rw [hflip, Matrix.mulVec_transpose, ← Matrix.dotProduct_mulVec, Matrix.smul_vecMul, smul_dotProduct,
        ← Matrix.dotProduct_mulVec]
      have hfpe : fp b (flipRows nt t j b) (flipRows nt y j b) = fp b (t (nt - 1 - j) b) (y (nt - 1 - j) b) := rfl
      rw [hfpe, hS1, hS2]
      set F := fp b (t (nt - 1 - j) b) (y (nt - 1 - j) b)
      have hlin : (1 - dt • J).mulVec (S (nt - 1 - j) b) = S (nt - 1 - (j + 1)) b + dt • F.mulVec v := by
        rw [Matrix.sub_mulVec, Matrix.one_mulVec, Matrix.smul_mulVec]
        have h5 : S (nt - 1 - j) b = S (nt - 1 - (j + 1)) b +
            (dt • J.mulVec (S (nt - 1 - j) b) + dt • F.mulVec v) := by rw [← smul_add]; exact hT
        rw [sub_eq_iff_eq_add]
        exact h5.trans (by abel)
      rw [hlin, dotProduct_add, dotProduct_smul]
      ring
    | forwardEuler =>
      set a := adj .forwardEuler f (flipRows nt t) (flipRows nt y) (flipRows nt g) j b with ha
      set dt := t (nt - 1 - j) b - t (nt - 1 - (j + 1)) b with hdt
      set J := (f b (t (nt - 1 - (j + 1)) b) (y (nt - 1 - (j + 1)) b)).2 with hJ
      have hmat : (1 - (flipRows nt t (j + 1) b - flipRows nt t j b) •
          (f b (flipRows nt t (j + 1) b) (flipRows nt y (j + 1) b)).2.transpose) = (1 + dt • J).transpose := by
        unfold flipRows
        rw [Matrix.transpose_add, Matrix.transpose_smul, Matrix.transpose_one, sub_eq_add_neg (1 : Matrix _ _ ℝ), ← neg_smul]
        congr 2
        rw [hdt]; ring
      simp only at hrec hT
      rw [hmat] at hrec
      have hS1 : flipRows nt S j b = S (nt - 1 - j) b := rfl
      have hS2 : flipRows nt S (j + 1) b = S (nt - 1 - (j + 1)) b := rfl
      have hflip : -(flipRows nt t (j + 1) b - flipRows nt t j b) = dt := by
        rw [hdt]; unfold flipRows; ring
      simp only
      have e1 : ∀ FP : Matrix (Fin m) (Fin p) ℝ, Matrix.vecMul (dt • a) FP ⬝ᵥ v = dt * (a ⬝ᵥ FP.mulVec v) := by
        intro FP
        rw [Matrix.smul_vecMul, smul_dotProduct, Matrix.dotProduct_mulVec]; rfl
      have e2 : ∀ u : Fin m → ℝ, (1 + dt • J).transpose.mulVec a ⬝ᵥ u = a ⬝ᵥ (1 + dt • J).mulVec u := by
        intro u
        rw [Matrix.mulVec_transpose, Matrix.dotProduct_mulVec]
      rw [hrec, hflip, add_dotProduct, ← ha, e1, e2]
      have hfpe : fp b (flipRows nt t (j + 1) b) (flipRows nt y (j + 1) b) =
        fp b (t (nt - 1 - (j + 1)) b) (y (nt - 1 - (j + 1)) b) := rfl
      rw [hfpe, hS1, hS2, hT, Matrix.add_mulVec, Matrix.one_mulVec, Matrix.smul_mulVec, smul_add]
      simp only [dotProduct_add, dotProduct_smul, smul_eq_mul]
      ring

end Pyoptmat.Ode
