import Verif.Proofs.Dense
import Verif.Proofs.Reuse

/-!
# Properties C01-C09 (and the right-hand-side part of C13): batched blocked bidiagonal systems
-/

namespace Pyoptmat.Props

open Pyoptmat.Chunktime Pyoptmat.Spec

variable {β : Type*} {m : ℕ} {K : Type*} [Field K]

/-! ## C01-C03 -/

/-- **C01.** The Thomas factorization returns the unique solution of the block bidiagonal system. -/
theorem C01_thomas_solves {n : ℕ} (hn : 0 < n) (A : Fin n → Blk β m K)
    (B : Fin (n - 1) → Blk β m K) (v : Fin n → BVec β m K) (hA : ∀ k b, IsUnit (A k b).det) :
    SolvesBidiagonal A B v
      (fun k : Fin n => (thomasMatvec n (memOf A) (memOf B) (memOf v)).ret k) ∧
    ∀ x, SolvesBidiagonal A B v x →
      x = fun k : Fin n => (thomasMatvec n (memOf A) (memOf B) (memOf v)).ret k :=
  direct_solves .thomas hn A B v hA

/-- **C02.** Parallel cyclic reduction (in-place, strided, chained over power-of-two chunks) returns the
unique solution, for every number of blocks. -/
theorem C02_pcr_solves {n : ℕ} (hn : 0 < n) (A : Fin n → Blk β m K)
    (B : Fin (n - 1) → Blk β m K) (v : Fin n → BVec β m K) (hA : ∀ k b, IsUnit (A k b).det) :
    SolvesBidiagonal A B v
      (fun k : Fin n => (pcrMatvec n (memOf A) (memOf B) (memOf v)).ret k) ∧
    ∀ x, SolvesBidiagonal A B v x →
      x = fun k : Fin n => (pcrMatvec n (memOf A) (memOf B) (memOf v)).ret k :=
  direct_solves .pcr hn A B v hA

/-- **C03.** The hybrid factorization returns the unique solution, for every number of blocks and every
`min_size` (any integer). -/
theorem C03_hybrid_solves {n : ℕ} (hn : 0 < n) (minSize : ℤ) (A : Fin n → Blk β m K)
    (B : Fin (n - 1) → Blk β m K) (v : Fin n → BVec β m K) (hA : ∀ k b, IsUnit (A k b).det) :
    SolvesBidiagonal A B v
      (fun k : Fin n => (hybridMatvec minSize n (memOf A) (memOf B) (memOf v)).ret k) ∧
    ∀ x, SolvesBidiagonal A B v x →
      x = fun k : Fin n => (hybridMatvec minSize n (memOf A) (memOf B) (memOf v)).ret k :=
  direct_solves (.hybrid minSize) hn A B v hA

/-- The hypotheses are met, e.g., by seven 2x2 blocks `A = diag(2,3)` (a non power of two) with dense
off-diagonal blocks, and the solution is not trivial. -/
example : ∃ (A : Fin 7 → Blk Bool 2 ℚ) (B : Fin 6 → Blk Bool 2 ℚ) (v : Fin 7 → BVec Bool 2 ℚ),
    (∀ k b, IsUnit (A k b).det) ∧ B ≠ 0 ∧ ∃ x, SolvesBidiagonal A B v x ∧ x ≠ 0 := by
  have hA : ∀ (k : Fin 7) (b : Bool), IsUnit
      ((fun (_ : Fin 7) (_ : Bool) => (Matrix.of ![![2, 0], ![0, 3]] : Matrix (Fin 2) (Fin 2) ℚ)) k b).det := by
    intro k b
    simp [Matrix.det_fin_two]
  refine ⟨_, fun _ _ => Matrix.of ![![1, 1], ![1, 1]], fun _ _ => ![1, 1], hA, ?_,
    _, (C02_pcr_solves (by norm_num) _ _ _ hA).1, ?_⟩
  · intro h
    have := congrFun (congrFun (congrFun (congrFun h 0) true) 0) 0
    simp at this
  · intro h
    have h1 := (C02_pcr_solves (by norm_num) _ (fun _ _ => Matrix.of ![![1, 1], ![1, 1]])
      (fun _ _ => ![1, 1]) hA).1.1 (by norm_num) true
    rw [h] at h1
    have := congrFun h1 0
    simp at this

/-! ## C04 -/

/-- **C04.** Every solve option of the solver context returns, in the flat layout, the solution of the
dense system. -/
theorem C04_solve_correct {n : ℕ} (hn : 0 < n) (meth : SolveMethod) (J : BidiagOp β n m K)
    (hJ : ∀ k b, IsUnit (J.A k b).det) (R : β → Fin (n * m) → K) (b : β) :
    (bidiagonalMatrix (fun k => J.A k b) (fun k => J.B k b)).mulVec (solve meth J R b) = R b := by
  cases meth with
  | dense =>
    have hu := bidiagonal_isUnit hn (fun k => J.A k b) (fun k => J.B k b) (fun k => hJ k b)
    simp only [solve, dense_eq_bidiagonal, Matrix.mulVec_mulVec, Matrix.mul_nonsing_inv _ hu,
      Matrix.one_mulVec]
  | direct d => exact forward_solves d hn J hJ R b

/-- **C04.** All solve options agree exactly. -/
theorem C04_methods_agree {n : ℕ} (hn : 0 < n) (meth meth' : SolveMethod) (J : BidiagOp β n m K)
    (hJ : ∀ k b, IsUnit (J.A k b).det) (R : β → Fin (n * m) → K) :
    solve meth J R = solve meth' J R := by
  funext b
  exact bidiagonal_injective hn _ _ (fun k => hJ k b)
    ((C04_solve_correct hn meth J hJ R b).trans (C04_solve_correct hn meth' J hJ R b).symm)

/-- C04 is not vacuous: an operator with five blocks, compared across all methods. -/
example (R : Fin 3 → Fin (5 * 2) → ℚ) :
    let J : BidiagOp (Fin 3) 5 2 ℚ := ⟨fun _ _ => 1, fun k _ => (k.val : ℚ) • 1⟩
    solve (.direct .pcr) J R = solve .dense J R ∧
    solve (.direct (.hybrid 2)) J R = solve (.direct .thomas) J R := by
  intro J
  have hJ : ∀ k b, IsUnit (J.A k b).det := by intro k b; simp [J]
  exact ⟨C04_methods_agree (by norm_num) _ _ J hJ R, C04_methods_agree (by norm_num) _ _ J hJ R⟩

/-! ## C05 -/

theorem sz_mono {a b : ℕ} (h : a ≤ b) : sz a ≤ sz b :=
  Nat.pow_le_pow_right (by norm_num) (Nat.log_mono_right h)

/-- relation between consecutive chunks: overlap of one row, lengths do not increase -/
def ChunkRel (a b : ℕ × ℕ) : Prop := b.1 + 1 = a.2 ∧ b.2 - b.1 ≤ a.2 - a.1

theorem pow2Loop_chain (n : ℕ) : ∀ (s e : ℕ), s < e → n + 1 ≤ 2 * (e - s) →
    sz (n + 1) ≤ e - s →
    List.IsChain ChunkRel ((s, e) :: pow2Loop n e) ∧
    (((s, e) :: pow2Loop n e).getLast (by simp)).2 = e + n ∧
    (∀ c ∈ pow2Loop n e, ∃ N, c.2 = c.1 + 2 ^ N) ∧
    (∀ i, e ≤ i → i < e + n → ∃ c ∈ pow2Loop n e, c.1 ≤ i ∧ i < c.2) := by
  induction n using Nat.strong_induction_on with
  | _ n ih =>
    intro s e hse hn hsz
    rcases Nat.eq_zero_or_pos n with h | h
    · subst h; rw [pow2Loop_zero]
      refine ⟨List.isChain_singleton _, by simp, by simp, ?_⟩
      intro i h1 h2; omega
    · rw [pow2Loop_pos e h]
      have h2 := two_le_sz (n := n + 1) (by omega)
      have h3 := sz_le (n := n + 1) (by omega)
      have h4 := lt_two_sz (n + 1)
      have := ih (n - (sz (n + 1) - 1)) (by omega) (e - 1) (e - 1 + sz (n + 1)) (by omega) (by omega)
        (by
          have : sz (n - (sz (n + 1) - 1) + 1) ≤ sz (n + 1) := sz_mono (by omega)
          omega)
      obtain ⟨c1, c2, c3, c4⟩ := this
      refine ⟨?_, ?_, ?_, ?_⟩
      · rw [List.isChain_cons_cons]
        refine ⟨⟨by simp; omega, by simp; omega⟩, c1⟩
      · rw [List.getLast_cons (by simp), c2]; omega
      · intro c hc
        rcases List.mem_cons.1 hc with rfl | hc
        · exact ⟨Nat.log 2 (n + 1), rfl⟩
        · exact c3 c hc
      · intro i hi1 hi2
        by_cases hlt : i < e - 1 + sz (n + 1)
        · exact ⟨_, List.mem_cons_self, by simp; omega, by simpa using hlt⟩
        · obtain ⟨c, hc, hc'⟩ := c4 i (by omega) (by omega)
          exact ⟨c, List.mem_cons_of_mem _ hc, hc'⟩

/-- **C05.** The chunks of `_pow2(n)`: first starts at row 0, last ends at row `n`, each has a
power-of-two length, consecutive ones overlap in exactly one row and do not get longer, and every row is
in some chunk. -/
theorem C05_chunks {n : ℕ} (hn : 0 < n) :
    (∃ h : pow2 n ≠ [], ((pow2 n).head h).1 = 0 ∧ ((pow2 n).getLast h).2 = n) ∧
    (∀ c ∈ pow2 n, ∃ N, c.2 = c.1 + 2 ^ N) ∧
    List.IsChain (fun a b : ℕ × ℕ => b.1 + 1 = a.2 ∧ b.2 - b.1 ≤ a.2 - a.1) (pow2 n) ∧
    (∀ i, i < n → ∃ c ∈ pow2 n, c.1 ≤ i ∧ i < c.2) := by
  have hp := sz_pos n
  have hle := sz_le hn
  have hlt := lt_two_sz n
  obtain ⟨c1, c2, c3, c4⟩ := pow2Loop_chain (n - sz n) 0 (sz n) hp (by omega) (by
    have : sz (n - sz n + 1) ≤ sz n := sz_mono (by omega)
    omega)
  refine ⟨⟨by simp [pow2], by simp [pow2], ?_⟩, ?_, c1, ?_⟩
  · show (((0, sz n) :: pow2Loop (n - sz n) (sz n)).getLast _).2 = n
    rw [c2]; omega
  · intro c hc
    rcases List.mem_cons.1 hc with rfl | hc
    · exact ⟨Nat.log 2 n, by simp [sz]⟩
    · exact c3 c hc
  · intro i hi
    by_cases h : i < sz n
    · exact ⟨(0, sz n), by simp [pow2], by simp, h⟩
    · obtain ⟨c, hc, hc'⟩ := c4 i (by omega) (by omega)
      exact ⟨c, by simp [pow2, hc], hc'⟩

/-- The decomposition of 7 rows: three chunks `[0,4) [3,7)`… -/
example : pow2 7 = [(0, 4), (3, 7)] := by
  have h7 : sz 7 = 4 := by
    have : Nat.log 2 7 = 2 := by rw [Nat.log_eq_iff (by norm_num)]; norm_num
    simp [sz, this]
  have h4 : sz 4 = 4 := by
    have : Nat.log 2 4 = 2 := by rw [Nat.log_eq_iff (by norm_num)]; norm_num
    simp [sz, this]
  simp [pow2, h7, pow2Loop_pos, h4, pow2Loop_zero]

/-! ## C06 -/

/-- **C06 (positive part).** A Thomas object can be applied to any history of right hand sides; each
result solves the original system. -/
theorem C06_thomas_reusable {n : ℕ} (hn : 0 < n) (A : Fin n → Blk β m K)
    (B : Fin (n - 1) → Blk β m K) (hA : ∀ k b, IsUnit (A k b).det)
    (vs : List (Fin n → BVec β m K)) :
    List.Forall₂ (fun v x => SolvesBidiagonal A B v (fun k : Fin n => x k)) vs
      (Direct.thomas.applyAll n (memOf A) (memOf B) (vs.map memOf)) := by
  induction vs with
  | nil => exact List.Forall₂.nil
  | cons v vs ih => exact List.Forall₂.cons (C01_thomas_solves hn A B v hA).1 ih

/-- **C06 (positive part, PCR).** With at most three blocks a PCR object can be re-used. -/
theorem C06_pcr_reusable_le3 {n : ℕ} (hn : 0 < n) (hn3 : n ≤ 3) (A : Fin n → Blk β m K)
    (B : Fin (n - 1) → Blk β m K) (hA : ∀ k b, IsUnit (A k b).det)
    (vs : List (Fin n → BVec β m K)) :
    List.Forall₂ (fun v x => SolvesBidiagonal A B v (fun k : Fin n => x k)) vs
      (Direct.pcr.applyAll n (memOf A) (memOf B) (vs.map memOf)) := by
  induction vs with
  | nil => exact List.Forall₂.nil
  | cons v vs ih =>
    refine List.Forall₂.cons (C02_pcr_solves hn A B v hA).1 ?_
    have : (Direct.pcr.matvec n (memOf A) (memOf B) (memOf v)).B = memOf B :=
      pcr_B_small hn hn3 _ _ _
    rw [this]
    exact ih

theorem reuse_fails_aux {n : ℕ} (hn : 4 ≤ n) (d : Direct)
    (hB : ∀ (lu B : Mem (Blk Unit 1 ℚ)) (v : Mem (BVec Unit 1 ℚ)), (∀ j, j < n → Inv (lu j)) →
      (d.matvec n lu B v).B 0 = B 0 ∧
      (d.matvec n lu B v).B 1 = -bmm (B 1) (luSolveM (lu 1) (B 0))) :
    ∃ (A : Fin n → Blk Unit 1 ℚ) (B : Fin (n - 1) → Blk Unit 1 ℚ) (v : Fin n → BVec Unit 1 ℚ)
      (x₁ x₂ : Mem (BVec Unit 1 ℚ)),
      (∀ k b, IsUnit (A k b).det) ∧
      d.applyAll n (memOf A) (memOf B) [memOf v, memOf v] = [x₁, x₂] ∧
      SolvesBidiagonal A B v (fun k : Fin n => x₁ k) ∧
      ¬ SolvesBidiagonal A B v (fun k : Fin n => x₂ k) := by
  have hA : ∀ (k : Fin n) (b : Unit), IsUnit ((fun (_ : Fin n) (_ : Unit) =>
      (1 : Matrix (Fin 1) (Fin 1) ℚ)) k b).det := by intro k b; simp
  refine ⟨fun _ _ => 1, fun _ _ => 1, fun k _ _ => if k.val = 0 then 1 else 0, _, _, hA, rfl,
    (direct_solves d (by omega) _ _ _ hA).1, ?_⟩
  intro hbad
  have hinv := inv_memOf hA
  set A' : Mem (Blk Unit 1 ℚ) := memOf (fun (_ : Fin n) (_ : Unit) => 1) with hA'
  set B0 : Mem (Blk Unit 1 ℚ) := memOf (fun (_ : Fin (n - 1)) (_ : Unit) => 1) with hB0
  set v' : Mem (BVec Unit 1 ℚ) := memOf (fun (k : Fin n) _ _ => if k.val = 0 then 1 else 0) with hv'
  set B1 := (d.matvec n A' B0 v').B with hB1
  have hs := direct_sol d (by omega) (B := B1) (v := v') hinv
  set y := (d.matvec n A' B1 v').ret with hy
  obtain ⟨b0, b1⟩ := hB A' B0 v' hinv
  rw [← hB1] at b0 b1
  have e0 : B0 0 = 1 := by rw [hB0, memOf_apply _ _ (by omega)]; rfl
  have e1 : B0 1 = 1 := by rw [hB0, memOf_apply _ _ (by omega)]; rfl
  have a0 : A' 0 = 1 := by rw [hA', memOf_apply _ _ (by omega)]; rfl
  have a1 : A' 1 = 1 := by rw [hA', memOf_apply _ _ (by omega)]; rfl
  have a2 : A' 2 = 1 := by rw [hA', memOf_apply _ _ (by omega)]; rfl
  have v0 : v' 0 = fun _ _ => 1 := by rw [hv', memOf_apply _ _ (by omega)]; rfl
  have v1 : v' 1 = 0 := by
    rw [hv', memOf_apply _ _ (by omega)]; rfl
  have v2 : v' 2 = 0 := by
    rw [hv', memOf_apply _ _ (by omega)]; rfl
  rw [e0] at b0 b1
  rw [e1, a1] at b1
  have r0 := hs.1 (by omega)
  have r1 := hs.2 0 (by omega)
  have r2 := hs.2 1 (by omega)
  rw [a0, v0] at r0
  rw [a1, b0, v1] at r1
  rw [a2, b1, v2] at r2
  have q2 := hbad.2 1 (by omega) ()
  have hone : ∀ x : BVec Unit 1 ℚ, bmv 1 x = x := by
    intro x; funext b; simp [bmv]
  have hm1 : ∀ x : BVec Unit 1 ℚ, bmv (-bmm 1 (luSolveM 1 1)) x = -x := by
    intro x; rw [bmv_neg, bmv_bmm, bmv_luSolveM, hone, hone]
    funext b; simp [luSolve]
  rw [hone] at r0 r1 r2
  rw [hone] at r1
  rw [hm1] at r2
  have f0 := congrFun (congrFun r0 ()) 0
  have f1 := congrFun (congrFun r1 ()) 0
  have f2 := congrFun (congrFun r2 ()) 0
  have g2 := congrFun q2 0
  simp at f0 f1 f2 g2
  linarith

/-- **C06 (negative part).** For every number of blocks from four on there is a system for which the
second application of the *same* PCR object does not solve the system (the first one does). -/
theorem C06_pcr_not_reusable {n : ℕ} (hn : 4 ≤ n) :
    ∃ (A : Fin n → Blk Unit 1 ℚ) (B : Fin (n - 1) → Blk Unit 1 ℚ) (v : Fin n → BVec Unit 1 ℚ)
      (x₁ x₂ : Mem (BVec Unit 1 ℚ)),
      (∀ k b, IsUnit (A k b).det) ∧
      Direct.pcr.applyAll n (memOf A) (memOf B) [memOf v, memOf v] = [x₁, x₂] ∧
      SolvesBidiagonal A B v (fun k : Fin n => x₁ k) ∧
      ¬ SolvesBidiagonal A B v (fun k : Fin n => x₂ k) :=
  reuse_fails_aux hn .pcr fun _ _ _ h => pcr_leaves hn h

/-- **C06 (negative part, hybrid).** The same for the hybrid object with its default `min_size = 0`, and
with any `min_size` that leaves the first chunk to PCR. -/
theorem C06_hybrid_not_reusable {n : ℕ} (hn : 4 ≤ n) (minSize : ℤ) (hms : minSize < 4) :
    ∃ (A : Fin n → Blk Unit 1 ℚ) (B : Fin (n - 1) → Blk Unit 1 ℚ) (v : Fin n → BVec Unit 1 ℚ)
      (x₁ x₂ : Mem (BVec Unit 1 ℚ)),
      (∀ k b, IsUnit (A k b).det) ∧
      (Direct.hybrid minSize).applyAll n (memOf A) (memOf B) [memOf v, memOf v] = [x₁, x₂] ∧
      SolvesBidiagonal A B v (fun k : Fin n => x₁ k) ∧
      ¬ SolvesBidiagonal A B v (fun k : Fin n => x₂ k) := by
  refine reuse_fails_aux hn (.hybrid minSize) fun _ _ _ h => hybrid_leaves hn minSize ?_ h
  have hlog : 2 ≤ Nat.log 2 n := Nat.le_log_of_pow_le (by norm_num) (by simpa using hn)
  have h4 : 4 ≤ sz n := by
    calc 4 = 2 ^ 2 := by norm_num
      _ ≤ _ := Nat.pow_le_pow_right (by norm_num) hlog
  omega

/-! ## C07 -/

theorem mergeBatch_apply {α : Type*} [Zero α] {sbat : ℕ} (X : Mem (Fin sbat → α)) (q : ℕ)
    (b : Fin sbat) : mergeBatch X (q * sbat + b.val) = X q b := by
  have hs : 0 < sbat := by have := b.2; omega
  have hdiv : (q * sbat + b.val) / sbat = q := by
    rw [Nat.mul_comm, Nat.mul_add_div hs, Nat.div_eq_of_lt b.2]; simp
  have hmod : (q * sbat + b.val) % sbat = b.val := by
    rw [Nat.mul_comm, Nat.mul_add_mod, Nat.mod_eq_of_lt b.2]
  unfold mergeBatch
  simp only [hdiv, hmod, b.2, dite_true]

/-- **C07.** The forward operator applied to a flat vector is the dense matrix times that vector. -/
theorem C07_forward_is_dense_product {n sbat : ℕ} (op : BidiagOp (Fin sbat) n m K)
    (v : Fin sbat → Fin (n * m) → K) (b : Fin sbat) :
    op.apply v b = (bidiagonalMatrix (fun k => op.A k b) (fun k => op.B k b)).mulVec (v b) := by
  have hs : 0 < sbat := by have := b.2; omega
  funext i
  obtain ⟨⟨k, r⟩, rfl⟩ := finProdFinEquiv.surjective i
  rw [bidiagonalMatrix_mulVec]
  unfold BidiagOp.apply
  simp only [flatten, divNat_pair, modNat_pair]
  have hA : mergeBatch (memOf op.A) (k.val * sbat + b.val) = op.A k b := by
    rw [mergeBatch_apply, memOf_apply _ _ k.2]
  have hV : mergeBatch (memOf (unflatten v)) (k.val * sbat + b.val) =
      fun c => v b (finProdFinEquiv (k, c)) := by
    rw [mergeBatch_apply, memOf_apply _ _ k.2]; rfl
  rcases Nat.eq_zero_or_pos k.val with hk | hk
  · rw [if_neg (by rw [hk]; simp), dif_neg (by omega), add_zero, hA, hV]
  · have hge : sbat ≤ k.val * sbat + b.val := by
      have : 1 * sbat ≤ k.val * sbat := Nat.mul_le_mul_right _ hk
      omega
    have hsub : k.val * sbat + b.val - sbat = (k.val - 1) * sbat + b.val := by
      have : k.val * sbat = (k.val - 1) * sbat + sbat := by
        conv_lhs => rw [show k.val = (k.val - 1) + 1 by omega]
        ring
      omega
    rw [if_pos hge, dif_pos hk, hsub, hA, hV, mergeBatch_apply, mergeBatch_apply,
      memOf_apply _ _ (show k.val - 1 < n - 1 by omega),
      memOf_apply _ _ (show k.val - 1 < n by omega)]
    rfl

/-- **C07.** Any inverse undoes the forward operator. -/
theorem C07_inverse_forward {n sbat : ℕ} (hn : 0 < n) (meth : SolveMethod)
    (op : BidiagOp (Fin sbat) n m K) (hA : ∀ k b, IsUnit (op.A k b).det)
    (v : Fin sbat → Fin (n * m) → K) : solve meth op (op.apply v) = v := by
  funext b
  apply bidiagonal_injective hn (fun k => op.A k b) (fun k => op.B k b) (fun k => hA k b)
  rw [C04_solve_correct hn meth op hA, C07_forward_is_dense_product]

example (v : Fin 2 → Fin (3 * 1) → ℚ) :
    solve (.direct .pcr) (⟨fun _ _ => 1, fun _ _ => 1⟩ : BidiagOp (Fin 2) 3 1 ℚ)
      (BidiagOp.apply ⟨fun _ _ => 1, fun _ _ => 1⟩ v) = v :=
  C07_inverse_forward (by norm_num) _ _ (by intro k b; simp) v

/-! ## C08, C09 -/

/-- **C08.** Block `(i, j)` of `to_dense()` is the block numbered `min i j` of the diagonal `j - i` if that
diagonal was supplied, whatever the order of the supplied diagonals. -/
theorem C08_dense_block (data : List (ℤ × List (Blk β m K)))
    (hd : (data.map Prod.fst).Nodup)
    (e : ℤ × List (Blk β m K)) (he : e ∈ data) (b : β)
    (r c : Fin ((BlockDiag.mk' data).nblk * m))
    (h : (c.divNat.val : ℤ) - r.divNat.val = e.1) :
    (BlockDiag.mk' data).toDense b r c
      = e.2.getD (min r.divNat.val c.divNat.val) 0 b r.modNat c.modNat :=
  foldl_writeDiag_some _ (mk'_nodup hd) _ b r c e ((mk'_perm data).mem_iff.2 he) h

/-- **C08.** Everything off the supplied diagonals is zero. -/
theorem C08_dense_zero (data : List (ℤ × List (Blk β m K))) (b : β)
    (r c : Fin ((BlockDiag.mk' data).nblk * m))
    (h : ∀ e ∈ data, (c.divNat.val : ℤ) - r.divNat.val ≠ e.1) :
    (BlockDiag.mk' data).toDense b r c = 0 := by
  unfold BlockDiag.toDense
  rw [foldl_writeDiag_none]
  · rfl
  · intro e he
    exact h e ((mk'_perm data).mem_iff.1 he)

/-- **C08.** The matrix has the size implied by any of its diagonals. -/
theorem C08_size (data : List (ℤ × List (Blk β m K))) (n : ℕ) (hne : data ≠ [])
    (hlen : ∀ e ∈ data, e.2.length + e.1.natAbs = n) : (BlockDiag.mk' data).nblk = n :=
  nblk_eq hne hlen

/-- A tridiagonal example in scrambled order: the hypotheses hold. -/
example : let data : List (ℤ × List (Blk Unit 1 ℚ)) :=
      [(1, [fun _ => 5, fun _ => 6]), (-1, [fun _ => 7, fun _ => 8]),
        (0, [fun _ => 1, fun _ => 2, fun _ => 3])]
    (data.map Prod.fst).Nodup ∧ (BlockDiag.mk' data).nblk = 3 := by
  intro data
  exact ⟨by simp [data], C08_size data 3 (by simp [data]) (by simp [data])⟩

/-- **C09.** For distinct diagonals the COO tensor denotes the dense matrix, entry by entry. -/
theorem C09_coo_eq_dense (data : List (ℤ × List (Blk β m K)))
    (hd : (data.map Prod.fst).Nodup) (b : β) (r c : Fin ((BlockDiag.mk' data).nblk * m)) :
    cooDenote (BlockDiag.mk' data).cooEntries r.val c.val b = (BlockDiag.mk' data).toDense b r c :=
  coo_eq_dense _ (mk'_nodup hd) r c b

/-- **C09.** The number of stored entries is `nnz`. -/
theorem C09_nnz (M : BlockDiag β m K) : M.cooEntries.length = M.nnz := by
  unfold BlockDiag.cooEntries BlockDiag.nnz
  rw [List.length_flatMap]
  congr 1
  apply List.map_congr_left
  intro e _
  rw [List.length_flatMap]
  have : (e.2.zipIdx.map fun bi => (cooBlock e.1 bi.2 bi.1).length) =
      List.replicate e.2.length (m * m) := by
    rw [List.eq_replicate_iff]
    refine ⟨by simp, ?_⟩
    intro x hx
    rw [List.mem_map] at hx
    obtain ⟨bi, _, rfl⟩ := hx
    simp [cooBlock]
  rw [this, List.sum_replicate]
  simp [Nat.mul_assoc]

/-- **C09 (negative part).** With a repeated diagonal the two conversions differ: COO adds, dense keeps one
of the two. -/
theorem C09_repeated_diagonal_differs :
    ∃ (data : List (ℤ × List (Blk Unit 1 ℚ))) (h : (BlockDiag.mk' data).nblk * 1 = 1),
      cooDenote (BlockDiag.mk' data).cooEntries 0 0 () ≠
        (BlockDiag.mk' data).toDense () ⟨0, by omega⟩ ⟨0, by omega⟩ := by
  refine ⟨[(0, [fun _ => 1]), (0, [fun _ => 1])], ?_, ?_⟩
  · rw [nblk_eq (n := 1) (by simp) (by simp)]
  · have hent : (BlockDiag.mk' [((0 : ℤ), [fun (_ : Unit) => (1 : Matrix (Fin 1) (Fin 1) ℚ)]),
        (0, [fun _ => 1])]).entries = [(0, [fun _ => 1]), (0, [fun _ => 1])] := by
      have hp := mk'_perm [((0 : ℤ), [fun (_ : Unit) => (1 : Matrix (Fin 1) (Fin 1) ℚ)]),
        (0, [fun _ => 1])]
      have : [((0 : ℤ), [fun (_ : Unit) => (1 : Matrix (Fin 1) (Fin 1) ℚ)]),
        (0, [fun _ => 1])] = List.replicate 2 (0, [fun _ => 1]) := rfl
      rw [this] at hp ⊢
      exact List.perm_replicate.1 hp
    have hn := nblk_eq (m := 1) (K := ℚ) (β := Unit) (n := 1)
      (data := [((0 : ℤ), [fun (_ : Unit) => (1 : Matrix (Fin 1) (Fin 1) ℚ)]), (0, [fun _ => 1])])
      (by simp) (by simp)
    unfold BlockDiag.cooEntries BlockDiag.toDense
    rw [hent]
    have hc : cooDenote (List.flatMap (fun e : ℤ × List (Blk Unit 1 ℚ) =>
        List.flatMap (fun bi => cooBlock e.1 bi.2 bi.1) e.2.zipIdx)
        [(0, [fun _ => 1]), (0, [fun _ => 1])]) 0 0 () = 2 := by
      rw [cooDenote_flatMap]
      have h1 := cooDiag_denote (n := 1) ((0 : ℤ), [fun (_ : Unit) => (1 : Matrix (Fin 1) (Fin 1) ℚ)])
        0 0 ()
      simp at h1
      simp [h1]
      norm_num
    rw [hc]
    simp only [List.foldl_cons, List.foldl_nil]
    rw [writeDiag_apply]
    simp [Fin.divNat, Fin.modNat]

/-! ## C13, right hand side -/

theorem contiguous_iff {sbat nblk sblk : ℕ} (h1 : 0 < sbat) (h2 : 0 < nblk) (h3 : 0 < sblk) :
    isContiguous (rhsViewDims sbat nblk sblk) = true ↔ sbat = 1 ∨ nblk = 1 := by
  unfold isContiguous rhsViewDims
  have hany : (List.any [(nblk, sblk), (sbat, nblk * sblk), (sblk, 1), (1, 1)]
      (fun d : ℕ × ℕ => decide (d.1 = 0))) = false := by
    simp; omega
  rw [hany]
  simp only [Bool.false_eq_true, if_false, List.reverse_cons, List.reverse_nil, List.nil_append,
    List.cons_append, List.foldl_cons, List.foldl_nil, if_true]
  by_cases a : sbat = 1
  · subst a
    by_cases c : sblk = 1
    · subst c; by_cases b : nblk = 1 <;> simp [b]
    · by_cases b : nblk = 1 <;> simp [b, c]
  · by_cases b : nblk = 1
    · subst b
      by_cases c : sblk = 1 <;> simp [a, c]
    · by_cases c : sblk = 1
      · subst c; simp [a, b]
      · simp only [a, b, c, if_false, or_self, iff_false]
        simp
        intro h
        exfalso
        exact b (by
          have := Nat.eq_of_mul_eq_mul_right h3 (h.trans (Nat.one_mul sblk).symm)
          exact this)

/-- **C13.** A Thomas or hybrid `forward(v)` leaves the caller's `v` untouched when there are at least two
batches and two blocks, and overwrites it with the solution otherwise. -/
theorem C13_forward_caller_rhs {n sbat : ℕ} (hn : 0 < n) (hs : 0 < sbat) (hm : 0 < m) (d : Direct)
    (hd : d ≠ .pcr) (op : BidiagOp (Fin sbat) n m K) (v : Fin sbat → Fin (n * m) → K) :
    forwardCallerRhs d op v = if sbat = 1 ∨ n = 1 then forward d op v else v := by
  unfold forwardCallerRhs forward
  by_cases h : sbat = 1 ∨ n = 1
  · rw [if_pos h, if_pos ((contiguous_iff hs hn hm).2 h)]
    cases d with
    | thomas => rfl
    | pcr => exact absurd rfl hd
    | hybrid ms => rfl
  · rw [if_neg h, if_neg]
    rw [contiguous_iff hs hn hm]; exact h

/-- **C13.** PCR overwrites it (in the same situations) with `A_k x_k`, row by row, where `x` is the
returned solution: not with the solution itself. -/
theorem C13_pcr_caller_rhs {n sbat : ℕ} (hn : 0 < n) (hs : 0 < sbat) (hm : 0 < m)
    (op : BidiagOp (Fin sbat) n m K) (hA : ∀ k b, IsUnit (op.A k b).det)
    (v : Fin sbat → Fin (n * m) → K) :
    forwardCallerRhs .pcr op v = if sbat = 1 ∨ n = 1 then
      flatten (fun k b => (op.A k b).mulVec (unflatten (forward .pcr op v) k b)) else v := by
  unfold forwardCallerRhs forward
  by_cases h : sbat = 1 ∨ n = 1
  · rw [if_pos h, if_pos ((contiguous_iff hs hn hm).2 h)]
    congr 1
    funext k b
    rw [unflatten_flatten]
    show _ = (op.A k b).mulVec (luSolve (memOf op.A k) _ b)
    have hinv := inv_memOf hA k k.2
    have := congrFun (bmv_luSolve hinv
      ((Direct.pcr.matvec n (memOf op.A) (memOf op.B) (memOf (unflatten v))).v k)) b
    rw [memOf_apply _ _ k.2] at this ⊢
    exact this.symm
  · rw [if_neg h, if_neg]
    rw [contiguous_iff hs hn hm]; exact h

example : ∃ (op : BidiagOp (Fin 1) 2 1 ℚ) (v : Fin 1 → Fin (2 * 1) → ℚ),
    forwardCallerRhs .thomas op v ≠ v := by
  have hA : ∀ (k : Fin 2) (b : Fin 1), IsUnit ((⟨fun _ _ => 1, fun _ _ => 1⟩ :
    BidiagOp (Fin 1) 2 1 ℚ).A k b).det := by intro k b; simp
  refine ⟨⟨fun _ _ => 1, fun _ _ => 1⟩, fun _ _ => 1, ?_⟩
  rw [C13_forward_caller_rhs (by norm_num) (by norm_num) (by norm_num) _ (by simp), if_pos (Or.inl rfl)]
  intro h
  have h1 := C04_solve_correct (by norm_num) (.direct .thomas) _ hA (fun _ _ => (1 : ℚ)) 0
  simp only [solve] at h1
  rw [h] at h1
  have := congrFun h1 (finProdFinEquiv (1, 0))
  rw [bidiagonalMatrix_mulVec] at this
  simp [Matrix.mulVec, dotProduct] at this

/-! ## C69, solver context -/

/-- **C69 (linear solver).** The solver context accepts exactly the two documented strings. -/
theorem C69_context_strings (s : String) :
    (∃ r, contextOfString s = .ok r) ↔ s = "dense" ∨ s = "direct" := by
  unfold contextOfString
  split_ifs with h
  · simp [h]
  · simp [h]

end Pyoptmat.Props
