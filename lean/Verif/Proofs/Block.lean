import Verif.Proofs.Integrate
import Verif.Spec.Ode
import Verif.Props.Newton

/-! Helper lemmas: the block residual. -/

namespace Pyoptmat.Ode

open Pyoptmat.Chunktime Pyoptmat.Newton Pyoptmat.Spec

variable {β : Type*} {m : ℕ}

/-- the rate part of a `Func` -/
def rate (f : Func β m) : β → ℝ → (Fin m → ℝ) → Fin m → ℝ := fun b t y => (f b t y).1

/-- defect of one step, by scheme -/
def defect (s : Scheme) (f : Func β m) (t : ℕ → β → ℝ) (y : ℕ → BVec β m ℝ) (k : ℕ) (b : β) : Fin m → ℝ :=
  match s with
  | .backwardEuler => backwardDefect (rate f) t y k b
  | .forwardEuler => forwardDefect (rate f) t y k b

/-- Row `j` of the rates returned by the call of the right hand side on the rows `k0 … k0+n`. -/
def rowRate (f : BFunc β m) (n : ℕ) (t : ℕ → β → ℝ) (y : ℕ → BVec β m ℝ) (k0 j : ℕ) (b : β) : Fin m → ℝ :=
  if h : j < n + 1 then (f (n + 1) (fun i => t (k0 + i.val)) (fun i => y (k0 + i.val))).1 ⟨j, h⟩ b else 0

/-- defect of step `k0 + j`, the rates being those of the call on the rows `k0 … k0+n` -/
def defectB (s : Scheme) (f : BFunc β m) (n : ℕ) (t : ℕ → β → ℝ) (y : ℕ → BVec β m ℝ) (k0 j : ℕ) (b : β) :
    Fin m → ℝ :=
  match s with
  | .backwardEuler => y (k0 + j + 1) b - y (k0 + j) b - (t (k0 + j + 1) b - t (k0 + j) b) • rowRate f n t y k0 (j + 1) b
  | .forwardEuler => y (k0 + j + 1) b - y (k0 + j) b - (t (k0 + j + 1) b - t (k0 + j) b) • rowRate f n t y k0 j b

theorem rowRate_lift (f : Func β m) {n : ℕ} (t : ℕ → β → ℝ) (y : ℕ → BVec β m ℝ) (k0 : ℕ) {j : ℕ} (hj : j < n + 1)
    (b : β) : rowRate f.lift n t y k0 j b = rate f b (t (k0 + j) b) (y (k0 + j) b) := by
  unfold rowRate; rw [dif_pos hj]; rfl

theorem defectB_lift (s : Scheme) (f : Func β m) {n : ℕ} (t : ℕ → β → ℝ) (y : ℕ → BVec β m ℝ) (k0 : ℕ) {j : ℕ}
    (hj : j < n) {b : β} : defectB s f.lift n t y k0 j b = defect s f t y (k0 + j) b := by
  cases s <;> simp only [defectB, defect] <;> rw [rowRate_lift _ _ _ _ (by omega)] <;> rfl

/-- If the sequences `t`, `y` restricted to `k0 .. k0+n` are the times and states of a block, the block
residual is the defect. -/
theorem blockRJ_residualB (s : Scheme) (f : BFunc β m) {n : ℕ} (T : Fin n → β → ℝ) (tStart : β → ℝ)
    (yStart : BVec β m ℝ) (dy : β → Fin (n * m) → ℝ) (t : ℕ → β → ℝ) (y : ℕ → BVec β m ℝ) (k0 : ℕ)
    (ht0 : t k0 = tStart) (hy0 : y k0 = yStart) (ht : ∀ j : Fin n, t (k0 + 1 + j.val) = T j)
    (hy : ∀ j : Fin n, y (k0 + 1 + j.val) = unflatten dy j + yStart) (j : Fin n) (b : β) :
    unflatten (blockRJ s f T tStart yStart dy).1 j b = defectB s f n t y k0 j.val b := by
  have htS : ∀ k : Fin (n + 1), stack tStart T k = t (k0 + k.val) := by
    intro k
    refine Fin.cases ?_ (fun k => ?_) k
    · simp [stack, ht0]
    · simp only [stack, Fin.cons_succ, Fin.val_succ]
      rw [← ht k]; congr 1; omega
  have hyS : ∀ k : Fin (n + 1), (stack 0 (unflatten dy) : Fin (n + 1) → BVec β m ℝ) k + yStart
      = y (k0 + k.val) := by
    intro k
    refine Fin.cases ?_ (fun k => ?_) k
    · simp [stack, hy0]
    · simp only [stack, Fin.cons_succ, Fin.val_succ]
      rw [← hy k]; congr 1; omega
  have hd : ∀ k : Fin n, (stack 0 (unflatten dy) : Fin (n + 1) → BVec β m ℝ) k.succ b -
      (stack 0 (unflatten dy) : Fin (n + 1) → BVec β m ℝ) k.castSucc b =
      y (k0 + k.val + 1) b - y (k0 + k.val) b := by
    intro k
    have h1 := congrFun (hyS k.succ) b
    have h2 := congrFun (hyS k.castSucc) b
    simp only [Fin.val_succ, Fin.val_castSucc, Pi.add_apply] at h1 h2
    rw [show k0 + k.val + 1 = k0 + (k.val + 1) by omega, ← h1, ← h2]
    abel
  have hT : (stack tStart T : Fin (n + 1) → β → ℝ) = fun k => t (k0 + k.val) := funext htS
  have hY : (fun k => (stack 0 (unflatten dy) : Fin (n + 1) → BVec β m ℝ) k + yStart) =
      fun k => y (k0 + k.val) := funext hyS
  unfold blockRJ formOperators
  cases s with
  | backwardEuler =>
    simp only [unflatten_flatten]
    rw [hd, hY, hT]
    simp only [diff, Fin.val_succ, Fin.val_castSucc, defectB, rowRate]
    rw [dif_pos (by omega)]
    rfl
  | forwardEuler =>
    simp only [unflatten_flatten]
    rw [hd, hY, hT]
    simp only [diff, Fin.val_succ, Fin.val_castSucc, defectB, rowRate]
    rw [dif_pos (by omega)]
    rfl

theorem blockRJ_residual (s : Scheme) (f : Func β m) {n : ℕ} (T : Fin n → β → ℝ) (tStart : β → ℝ)
    (yStart : BVec β m ℝ) (dy : β → Fin (n * m) → ℝ) (t : ℕ → β → ℝ) (y : ℕ → BVec β m ℝ) (k0 : ℕ)
    (ht0 : t k0 = tStart) (hy0 : y k0 = yStart) (ht : ∀ j : Fin n, t (k0 + 1 + j.val) = T j)
    (hy : ∀ j : Fin n, y (k0 + 1 + j.val) = unflatten dy j + yStart) (j : Fin n) (b : β) :
    unflatten (blockRJ s f T tStart yStart dy).1 j b = defect s f t y (k0 + j.val) b := by
  rw [blockRJ_residualB s f.lift T tStart yStart dy t y k0 ht0 hy0 ht hy j b, defectB_lift _ _ _ _ _ j.2]

theorem unflatten_eq_zero_iff {n : ℕ} {R : β → Fin (n * m) → ℝ} : R = 0 ↔ ∀ j b, unflatten R j b = 0 := by
  constructor
  · rintro rfl j b; rfl
  · intro h
    rw [← flatten_unflatten R]
    funext b i
    simp [flatten, h]

theorem rowNorm_unflatten {n : ℕ} (R : Fin (n * m) → ℝ) :
    rowNorm R = Real.sqrt (∑ j : Fin n, ∑ r : Fin m, R (finProdFinEquiv (j, r)) ^ 2) := by
  unfold rowNorm
  rw [sum_flat (fun i => R i ^ 2)]

theorem rowNorm_eq_rowsNorm {n : ℕ} (R : β → Fin (n * m) → ℝ) (b : β) (d : ℕ → Fin m → ℝ)
    (h : ∀ j : Fin n, unflatten R j b = d j.val) : rowNorm (R b) = rowsNorm n d := by
  rw [rowNorm_unflatten, rowsNorm, Finset.sum_range]
  congr 1
  refine Finset.sum_congr rfl fun j _ => Finset.sum_congr rfl fun r _ => ?_
  rw [← h j]; rfl

/-- Everything known about a block in the final result, in terms of defects. -/
theorem block_factsB {c : Config} {f : BFunc β m} {nt N : ℕ} {t : ℕ → β → ℝ} {res : Partial β m} {w : Bool}
    {k : ℕ} (h : BlockOK c f nt N t res w (k + 1)) :
    ∃ (guess dy : β → Fin (sliceLen nt (k + 1) N * m) → ℝ),
      (blockNewton c f (fun j : Fin (sliceLen nt (k + 1) N) => t (k + 1 + j.val)) (t k) (res.get k) guess).result
        = .ok dy ∧
      (w = false → (blockNewton c f (fun j : Fin (sliceLen nt (k + 1) N) => t (k + 1 + j.val)) (t k)
        (res.get k) guess).warned = false) ∧
      (c.guessType = "zero" → guess = 0) ∧
      (∀ j : Fin (sliceLen nt (k + 1) N), res.get (k + 1 + j.val) = unflatten dy j + res.get k) ∧
      ∀ (j : Fin (sliceLen nt (k + 1) N)) (b : β),
        unflatten (blockRJ c.scheme f (fun j : Fin (sliceLen nt (k + 1) N) => t (k + 1 + j.val)) (t k)
          (res.get k) dy).1 j b = defectB c.scheme f (sliceLen nt (k + 1) N) t res.get k j.val b := by
  obtain ⟨guess, rows, wk, h1, h2, h3, h4⟩ := h
  simp only [Nat.add_sub_cancel] at h1
  unfold blockUpdate at h1
  split at h1
  · exact absurd h1 (by simp)
  · next dy hdy =>
    simp only [Except.ok.injEq, Prod.mk.injEq] at h1
    have hrow : ∀ j : Fin (sliceLen nt (k + 1) N), res.get (k + 1 + j.val) = unflatten dy j + res.get k := by
      intro j
      unfold Partial.get
      rw [h3 j, ← h1.1]
      rfl
    refine ⟨guess, dy, hdy, ?_, h4, hrow, ?_⟩
    · intro hw; rw [h1.2]; exact h2 hw
    · intro j b
      exact blockRJ_residualB c.scheme f _ _ _ dy t res.get k rfl rfl (fun _ => rfl) hrow j b

/-- The defect of every step of an unwarned block meets the tolerance. -/
theorem block_toleranceB {c : Config} (hm : 0 ≤ c.miter) {f : BFunc β m} {nt N : ℕ} {t : ℕ → β → ℝ}
    {res : Partial β m} {k : ℕ} (h : BlockOK c f nt N t res false (k + 1)) :
    ∃ guess : β → Fin (sliceLen nt (k + 1) N * m) → ℝ, (c.guessType = "zero" → guess = 0) ∧
      MetTolerance (fun b => rowsNorm (sliceLen nt (k + 1) N) (fun j => defectB c.scheme f (sliceLen nt (k + 1) N) t res.get k j b))
        (fun b => rowNorm ((blockRJ c.scheme f (fun j : Fin (sliceLen nt (k + 1) N) => t (k + 1 + j.val)) (t k)
          (res.get k) guess).1 b)) c.rtol c.atol := by
  obtain ⟨guess, dy, h1, h2, h3, h4, h5⟩ := block_factsB h
  refine ⟨guess, h3, ?_⟩
  have := Props.C10_no_warning_meets_tolerance
    (blockRJ c.scheme f (fun j : Fin (sliceLen nt (k + 1) N) => t (k + 1 + j.val)) (t k) (res.get k))
    (fun J R => solve c.method J R) (fun x dx => x - dx) (fun R b => rowNorm (R b)) guess dy c.rtol c.atol
    c.miter hm c.throwOnFail h1 (h2 rfl)
  have he : (fun b => rowsNorm (sliceLen nt (k + 1) N) (fun j => defectB c.scheme f (sliceLen nt (k + 1) N) t res.get k j b))
      = fun b => rowNorm ((blockRJ c.scheme f (fun j : Fin (sliceLen nt (k + 1) N) => t (k + 1 + j.val))
        (t k) (res.get k) dy).1 b) := by
    funext b
    exact (rowNorm_eq_rowsNorm _ b _ fun j => h5 j b).symm
  rw [he]
  exact this

/-- The same for a right hand side acting entry by entry. -/
theorem block_tolerance {c : Config} (hm : 0 ≤ c.miter) {f : Func β m} {nt N : ℕ} {t : ℕ → β → ℝ}
    {res : Partial β m} {k : ℕ} (h : BlockOK c f nt N t res false (k + 1)) :
    ∃ guess : β → Fin (sliceLen nt (k + 1) N * m) → ℝ, (c.guessType = "zero" → guess = 0) ∧
      MetTolerance (fun b => rowsNorm (sliceLen nt (k + 1) N) (fun j => defect c.scheme f t res.get (k + j) b))
        (fun b => rowNorm ((blockRJ c.scheme f (fun j : Fin (sliceLen nt (k + 1) N) => t (k + 1 + j.val)) (t k)
          (res.get k) guess).1 b)) c.rtol c.atol := by
  obtain ⟨guess, h1, h2⟩ := block_toleranceB hm h
  refine ⟨guess, h1, ?_⟩
  convert h2 using 2 with b
  unfold rowsNorm
  congr 1
  refine Finset.sum_congr rfl fun j hj => ?_
  beta_reduce
  rw [defectB_lift _ _ _ _ _ (Finset.mem_range.1 hj)]

theorem rowsNorm_nonneg (n : ℕ) (d : ℕ → Fin m → ℝ) : 0 ≤ rowsNorm n d := Real.sqrt_nonneg _

theorem le_rowsNorm {n : ℕ} {d : ℕ → Fin m → ℝ} {j : ℕ} (hj : j < n) (i : Fin m) : |d j i| ≤ rowsNorm n d := by
  unfold rowsNorm
  apply Real.le_sqrt_of_sq_le
  rw [sq_abs]
  calc d j i ^ 2 ≤ ∑ i, d j i ^ 2 :=
        Finset.single_le_sum (f := fun i => d j i ^ 2) (fun i _ => sq_nonneg _) (Finset.mem_univ i)
    _ ≤ _ := Finset.single_le_sum (f := fun j => ∑ i, d j i ^ 2)
        (fun j _ => Finset.sum_nonneg fun i _ => sq_nonneg _) (Finset.mem_range.2 hj)

theorem rowsNorm_eq_zero {n : ℕ} {d : ℕ → Fin m → ℝ} (h : rowsNorm n d ≤ 0) {j : ℕ} (hj : j < n) :
    d j = 0 := by
  funext i
  have := (le_rowsNorm (d := d) hj i).trans h
  simpa using this

/-- From the rows of blocks to all rows. -/
theorem all_rows {nt N : ℕ} (hN : 0 < N) {P : ℕ → Prop}
    (h : ∀ i < nblocks nt N, ∀ j < sliceLen nt (i * N + 1) N, P (i * N + j)) :
    ∀ k, k + 1 < nt → P k := by
  intro k hk
  obtain ⟨i, hi, h1, h2⟩ := block_of_row hN (Nat.succ_le_succ (Nat.zero_le k)) hk
  have := h i hi (k - i * N) (by rw [Nat.add_comm]; omega)
  rwa [show i * N + (k - i * N) = k by omega] at this

end Pyoptmat.Ode
