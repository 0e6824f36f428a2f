import Verif.Model.Sparse
import Verif.Props.Linear
import Verif.Props.Solvers

/-!
# Property C95: CSR conversion, preconditioned GMRES front ends
-/

namespace Pyoptmat.Props

open Pyoptmat.Chunktime Pyoptmat.Spec

section csr
variable {m : ℕ} {K : Type*} [Field K] {sbat : ℕ}

theorem inferredSize_eq {is : List ℕ} {N : ℕ} (hle : ∀ i ∈ is, i < N) (hmem : 0 < N → N - 1 ∈ is) : inferredSize is = N := by
  unfold inferredSize
  have key : ∀ (l : List ℕ) (a : ℕ), a ≤ N → (∀ i ∈ l, i < N) →
      l.foldl (fun a i => max a (i + 1)) a ≤ N ∧ a ≤ l.foldl (fun a i => max a (i + 1)) a ∧
      ∀ i ∈ l, i + 1 ≤ l.foldl (fun a i => max a (i + 1)) a := by
    intro l
    induction l with
    | nil => intro a ha _; simp [ha]
    | cons x xs ih =>
      intro a ha hl
      have hx := hl x (by simp)
      obtain ⟨h1, h2, h3⟩ := ih (max a (x + 1)) (by omega) (fun i hi => hl i (by simp [hi]))
      simp only [List.foldl_cons, List.mem_cons, forall_eq_or_imp]
      refine ⟨h1, le_trans (le_max_left _ _) h2, le_trans (le_max_right _ _) h2, h3⟩
  rw [List.foldl_map]
  obtain ⟨h1, -, h3⟩ := key is 0 (Nat.zero_le _) hle
  rcases Nat.eq_zero_or_pos N with h0 | hp
  · omega
  · have := h3 _ (hmem hp)
    omega

/-- Members of the COO lists: entry `(p, q)` of block `i` of the diagonal `d`. -/
theorem mem_cooEntries {data : List (ℤ × List (Blk (Fin sbat) m K))} {x : ℕ × ℕ × (Fin sbat → K)} :
    x ∈ (BlockDiag.mk' data).cooEntries ↔ ∃ e ∈ data, ∃ (i : ℕ) (hi : i < e.2.length) (q : Fin (m * m)),
      x = (q.divNat.val + (if e.1 < 0 then (i + e.1.natAbs) * m else i * m),
        q.modNat.val + (if e.1 < 0 then i * m else (i + e.1.natAbs) * m), fun b => e.2[i] b q.divNat q.modNat) := by
  unfold BlockDiag.cooEntries
  simp only [List.mem_flatMap, (mk'_perm data).mem_iff, cooBlock, List.mem_map]
  constructor
  · rintro ⟨e, he, ⟨blk, i⟩, hbi, q, -, rfl⟩
    rw [List.mk_mem_zipIdx_iff_getElem?, List.getElem?_eq_some_iff] at hbi
    obtain ⟨hi, rfl⟩ := hbi
    exact ⟨e, he, i, hi, q, rfl⟩
  · rintro ⟨e, he, i, hi, q, rfl⟩
    refine ⟨e, he, (e.2[i], i), ?_, q, List.mem_finRange q, rfl⟩
    rw [List.mk_mem_zipIdx_iff_getElem?, List.getElem?_eq_some_iff]
    exact ⟨hi, rfl⟩

/-- **C95.** `to_unrolled_csr` returns one matrix per batch entry, and the entries of the matrix of batch entry `i` are those of
`to_dense()` for that batch entry. -/
theorem C95_csr_entries (data : List (ℤ × List (Blk (Fin sbat) m K))) (hd : (data.map Prod.fst).Nodup) :
    (BlockDiag.mk' data).unrolledCsr.length = sbat ∧
    ∀ (i : ℕ) (hi : i < sbat) (M : Csr K), (BlockDiag.mk' data).unrolledCsr[i]? = some M →
      ∀ r c : Fin ((BlockDiag.mk' data).nblk * m), M.entry r c = (BlockDiag.mk' data).toDense ⟨i, hi⟩ r c := by
  refine ⟨by simp [BlockDiag.unrolledCsr], ?_⟩
  intro i hi M hM r c
  simp only [BlockDiag.unrolledCsr, List.getElem?_ofFn, hi, dite_true, Option.some.injEq] at hM
  subst hM
  exact C09_coo_eq_dense data hd ⟨i, hi⟩ r c

/-- **C95.** The number of rows of every CSR matrix: the full size `n · sblk` as soon as one of the supplied diagonals is the main one or
below it; otherwise, when all supplied diagonals are above the main one, `d · sblk` less, `d` being the first of them. -/
theorem C95_csr_rows (data : List (ℤ × List (Blk (Fin sbat) m K))) (n : ℕ) (hm : 0 < m)
    (hlen : ∀ e ∈ data, e.2.length + e.1.natAbs = n) (M : Csr K)
    (hM : M ∈ (BlockDiag.mk' data).unrolledCsr) :
    ((∃ e ∈ data, e.1 ≤ 0 ∧ e.2 ≠ []) → M.rows = n * m) ∧
    (∀ d : ℕ, 0 < d → (∀ e ∈ data, (d : ℤ) ≤ e.1) → (∃ e ∈ data, e.1 = (d : ℤ) ∧ e.2 ≠ []) → M.rows = (n - d) * m) := by
  rw [BlockDiag.unrolledCsr, List.mem_ofFn] at hM
  obtain ⟨b, rfl⟩ := hM
  have corner : ∃ q : Fin (m * m), q.divNat.val = m - 1 :=
    ⟨⟨(m - 1) * m, Nat.mul_lt_mul_of_pos_right (by omega) hm⟩, by simp [Fin.divNat, Nat.mul_div_cancel _ hm]⟩
  have lt_of : ∀ (q : Fin m) (i N : ℕ), i < N → q.val + i * m < N * m := by
    intro q i N h
    have := q.isLt
    calc q.val + i * m < m + i * m := by omega
      _ = (i + 1) * m := by ring
      _ ≤ N * m := Nat.mul_le_mul_right _ h
  have last_of : ∀ N, 0 < N → N * m - 1 = (m - 1) + (N - 1) * m := by
    intro N hN
    obtain ⟨N, rfl⟩ := Nat.exists_eq_succ_of_ne_zero hN.ne'
    rw [Nat.succ_eq_add_one, Nat.add_mul, Nat.add_sub_cancel, Nat.one_mul]; omega
  constructor
  · rintro ⟨e, he, hd, hne⟩
    refine inferredSize_eq ?_ ?_
    · intro r hr
      obtain ⟨x, hx, rfl⟩ := List.mem_map.1 hr
      obtain ⟨f, hf, i, hi, q, rfl⟩ := mem_cooEntries.1 hx
      have := hlen f hf
      dsimp only
      split_ifs
      · exact lt_of _ _ _ (by omega)
      · exact lt_of _ _ _ (by omega)
    · intro hN
      have hl := hlen e he
      have hpos := List.length_pos_of_ne_nil hne
      obtain ⟨q, hq⟩ := corner
      refine List.mem_map.2 ⟨_, mem_cooEntries.2 ⟨e, he, e.2.length - 1, by omega, q, rfl⟩, ?_⟩
      dsimp only
      rw [hq, last_of n (by omega)]
      split_ifs with h
      · rw [show e.2.length - 1 + e.1.natAbs = n - 1 by omega]
      · rw [show e.2.length - 1 = n - 1 by omega]
  · rintro d hd hmin ⟨e, he, hed, hne⟩
    refine inferredSize_eq ?_ ?_
    · intro r hr
      obtain ⟨x, hx, rfl⟩ := List.mem_map.1 hr
      obtain ⟨f, hf, i, hi, q, rfl⟩ := mem_cooEntries.1 hx
      have := hlen f hf
      have := hmin f hf
      dsimp only
      rw [if_neg (by omega)]
      exact lt_of _ _ _ (by omega)
    · intro hN
      have hl := hlen e he
      have hpos := List.length_pos_of_ne_nil hne
      obtain ⟨q, hq⟩ := corner
      refine List.mem_map.2 ⟨_, mem_cooEntries.2 ⟨e, he, e.2.length - 1, by omega, q, rfl⟩, ?_⟩
      dsimp only
      rw [hq, if_neg (by omega), last_of (n - d) (by omega)]
      rw [show e.2.length - 1 = n - d - 1 by omega]

/-- **C95.** The number of columns of every CSR matrix: the full size as soon as one of the supplied diagonals is the main one or above
it; otherwise, when all supplied diagonals are below the main one, `d · sblk` less, `-d` being the first of them below the main one. -/
theorem C95_csr_cols (data : List (ℤ × List (Blk (Fin sbat) m K))) (n : ℕ) (hm : 0 < m)
    (hlen : ∀ e ∈ data, e.2.length + e.1.natAbs = n) (M : Csr K)
    (hM : M ∈ (BlockDiag.mk' data).unrolledCsr) :
    ((∃ e ∈ data, 0 ≤ e.1 ∧ e.2 ≠ []) → M.cols = n * m) ∧
    (∀ d : ℕ, 0 < d → (∀ e ∈ data, e.1 ≤ -(d : ℤ)) → (∃ e ∈ data, e.1 = -(d : ℤ) ∧ e.2 ≠ []) → M.cols = (n - d) * m) := by
  rw [BlockDiag.unrolledCsr, List.mem_ofFn] at hM
  obtain ⟨b, rfl⟩ := hM
  have corner : ∃ q : Fin (m * m), q.modNat.val = m - 1 := by
    refine ⟨⟨m - 1, ?_⟩, ?_⟩
    · calc m - 1 < m := by omega
        _ ≤ m * m := Nat.le_mul_self m
    · simp only [Fin.modNat]
      exact Nat.mod_eq_of_lt (by omega)
  have lt_of : ∀ (q : Fin m) (i N : ℕ), i < N → q.val + i * m < N * m := by
    intro q i N h
    have := q.isLt
    calc q.val + i * m < m + i * m := by omega
      _ = (i + 1) * m := by ring
      _ ≤ N * m := Nat.mul_le_mul_right _ h
  have last_of : ∀ N, 0 < N → N * m - 1 = (m - 1) + (N - 1) * m := by
    intro N hN
    obtain ⟨N, rfl⟩ := Nat.exists_eq_succ_of_ne_zero hN.ne'
    rw [Nat.succ_eq_add_one, Nat.add_mul, Nat.add_sub_cancel, Nat.one_mul]; omega
  constructor
  · rintro ⟨e, he, hd, hne⟩
    refine inferredSize_eq ?_ ?_
    · intro r hr
      obtain ⟨x, hx, rfl⟩ := List.mem_map.1 hr
      obtain ⟨f, hf, i, hi, q, rfl⟩ := mem_cooEntries.1 hx
      have := hlen f hf
      dsimp only
      split_ifs
      · exact lt_of _ _ _ (by omega)
      · exact lt_of _ _ _ (by omega)
    · intro hN
      have hl := hlen e he
      have hpos := List.length_pos_of_ne_nil hne
      obtain ⟨q, hq⟩ := corner
      refine List.mem_map.2 ⟨_, mem_cooEntries.2 ⟨e, he, e.2.length - 1, by omega, q, rfl⟩, ?_⟩
      dsimp only
      rw [hq, last_of n (by omega), if_neg (by omega)]
      rw [show e.2.length - 1 + e.1.natAbs = n - 1 by omega]
  · rintro d hd hmin ⟨e, he, hed, hne⟩
    refine inferredSize_eq ?_ ?_
    · intro r hr
      obtain ⟨x, hx, rfl⟩ := List.mem_map.1 hr
      obtain ⟨f, hf, i, hi, q, rfl⟩ := mem_cooEntries.1 hx
      have := hlen f hf
      have := hmin f hf
      dsimp only
      rw [if_pos (by omega)]
      exact lt_of _ _ _ (by omega)
    · intro hN
      have hl := hlen e he
      have hpos := List.length_pos_of_ne_nil hne
      obtain ⟨q, hq⟩ := corner
      refine List.mem_map.2 ⟨_, mem_cooEntries.2 ⟨e, he, e.2.length - 1, by omega, q, rfl⟩, ?_⟩
      dsimp only
      rw [hq, if_pos (by omega), last_of (n - d) (by omega)]
      rw [show e.2.length - 1 = n - d - 1 by omega]

/-- **C95.** The CSR form of the operator of a blocked step, `to_diag().to_unrolled_csr()`: square of the full size, and entry for entry
the dense block bidiagonal matrix. -/
theorem C95_csr_operator {nblk : ℕ} (hn : 0 < nblk) (hm : 0 < m) (op : BidiagOp (Fin sbat) nblk m K) (i : Fin sbat) (M : Csr K)
    (hM : op.toDiag.unrolledCsr[i.val]? = some M) :
    M.rows = nblk * m ∧ M.cols = nblk * m ∧
    ∀ r c : Fin (nblk * m), M.entry r c = bidiagonalMatrix (fun k => op.A k i) (fun k => op.B k i) r c := by
  have hlen : ∀ e ∈ [((0 : ℤ), List.ofFn op.A), (-1, List.ofFn op.B)], e.2.length + e.1.natAbs = nblk := by
    intro e he
    simp only [List.mem_cons, List.not_mem_nil, or_false] at he
    rcases he with rfl | rfl
    · simp
    · simp; omega
  have hne : (List.ofFn op.A) ≠ [] := by
    intro h0
    have := congrArg List.length h0
    simp at this; omega
  have hmem := List.mem_of_getElem? hM
  refine ⟨(C95_csr_rows _ nblk hm hlen M hmem).1 ⟨_, List.mem_cons_self, le_rfl, hne⟩,
    (C95_csr_cols _ nblk hm hlen M hmem).1 ⟨_, List.mem_cons_self, le_rfl, hne⟩, ?_⟩
  intro r c
  have hnb : op.toDiag.nblk = nblk := C08_size _ nblk (by simp) hlen
  have hd : ([((0 : ℤ), List.ofFn op.A), (-1, List.ofFn op.B)].map Prod.fst).Nodup := by simp
  have h := (C95_csr_entries _ hd).2 i.val i.isLt M hM ⟨r.val, by rw [show (BlockDiag.mk' _).nblk = nblk from hnb]; exact r.isLt⟩
    ⟨c.val, by rw [show (BlockDiag.mk' _).nblk = nblk from hnb]; exact c.isLt⟩
  refine h.trans ?_
  rw [← dense_eq_bidiagonal op i]
  have hgen : ∀ (N : ℕ) (hN : N = nblk) (h1 : r.val < N * m) (h2 : c.val < N * m),
      (op.toDiag.entries.foldl (writeDiag N) (0 : Fin sbat → Matrix (Fin (N * m)) (Fin (N * m)) K)) i ⟨r.val, h1⟩ ⟨c.val, h2⟩ = op.dense i r c := by
    intro N hN h1 h2
    subst hN
    rfl
  exact hgen _ hnb _ _

/-- Non-vacuity: the sizes for the operator of three one by one blocks. -/
example (i : Fin 2) (M : Csr ℚ)
    (hM : (BidiagOp.toDiag (m := 1) (nblk := 3) (β := Fin 2) ⟨fun k _ => fun _ _ => (k.val : ℚ) + 1, fun _ _ => fun _ _ => 7⟩).unrolledCsr[i.val]? = some M) :
    M.rows = 3 ∧ M.cols = 3 ∧ M.entry 1 0 = 7 := by
  obtain ⟨h1, h2, h3⟩ := C95_csr_operator (by norm_num) (by norm_num) _ i M hM
  refine ⟨h1, h2, (h3 1 0).trans ?_⟩
  simp [bidiagonalMatrix, Fin.divNat]

/-- **C95 (negative part).** A matrix with only its sub-diagonal supplied comes out with fewer columns than `to_dense()` has: the CSR
matrices are not square. -/
theorem C95_csr_not_square : ∃ (data : List (ℤ × List (Blk (Fin 1) 1 ℚ))) (M : Csr ℚ),
    (BlockDiag.mk' data).unrolledCsr = [M] ∧ (BlockDiag.mk' data).nblk * 1 = 2 ∧ M.rows = 2 ∧ M.cols = 1 := by
  have hl : (BlockDiag.mk' [((-1 : ℤ), [fun (_ : Fin 1) => (1 : Matrix (Fin 1) (Fin 1) ℚ)])]).unrolledCsr.length = 1 := by
    simp [BlockDiag.unrolledCsr]
  obtain ⟨M, hM⟩ := List.length_eq_one_iff.1 hl
  refine ⟨_, M, hM, ?_, ?_, ?_⟩
  · rw [C08_size _ 2 (by simp) (by simp)]
  · exact (C95_csr_rows (m := 1) [((-1 : ℤ), [fun (_ : Fin 1) => (1 : Matrix (Fin 1) (Fin 1) ℚ)])] 2 (by norm_num) (by simp) M
      (by rw [hM]; simp)).1 ⟨_, List.mem_cons_self, by norm_num, by simp⟩
  · exact (C95_csr_cols (m := 1) [((-1 : ℤ), [fun (_ : Fin 1) => (1 : Matrix (Fin 1) (Fin 1) ℚ)])] 2 (by norm_num) (by simp) M
      (by rw [hM]; simp)).2 1 (by norm_num) (by simp) ⟨_, List.mem_cons_self, by norm_num, by simp⟩

end csr

open Pyoptmat.Solvers Pyoptmat.Newton

section gmr
variable {β : Type*} {n : ℕ}

/-- **C95.** `lu_gmres` and `jacobi_gmres` refuse the keyword `M` that their documentation offers, whatever the other arguments. -/
theorem C95_M_refused (A : β → Matrix (Fin n) (Fin n) ℝ) (b : β → Fin n → ℝ) (lstsq : Lstsq β) (kw : GmresKw β n) (M : Precond β n)
    (h : kw.M = some M) : (∃ e, luGmres A b lstsq kw = .error e) ∧ ∃ e, jacobiGmres A b lstsq kw = .error e := by
  unfold luGmres jacobiGmres
  simp [h]

/-- **C95.** The keyword `check` has no effect on `lu_gmres`: it always checks after every pass. -/
theorem C95_lu_check_ignored (A : β → Matrix (Fin n) (Fin n) ℝ) (b : β → Fin n → ℝ) (lstsq : Lstsq β) (kw : GmresKw β n) (c : Option ℕ) :
    luGmres A b lstsq { kw with check := c } = luGmres A b lstsq kw := rfl

/-- **C95.** `lu_gmres(A, b)` with default arguments, for every batch of invertible matrices and every right hand side, no lane of which is
zero: when the least squares routine satisfies the normal equations of a one-column system and the residuals are above the tolerance and below `10^19`, it returns after the second pass, with
`A x = (1 - ε²/(1 + ε²)) b`, `ε = 10⁻¹⁵`, for every batch entry. -/
theorem C95_lu_gmres_solves (A : β → Matrix (Fin n) (Fin n) ℝ) (hA : ∀ i, IsUnit (A i).det) (b : β → Fin n → ℝ) (lstsq : Lstsq β)
    (hl : ∀ h e i, (h 0 0 i) * (h 0 0 i * lstsq 1 h e 0 i - e 0 i) + (h 1 0 i) * (h 1 0 i * lstsq 1 h e 0 i - e 1 i) = 0)
    (hb : ∀ i, b i ≠ 0) (hbig : ∃ i, (1e-10 : ℝ) ≤ rowNorm (b i)) (hsmall : ∀ i, rowNorm (b i) < 1e19) :
    ∃ x, luGmres A b lstsq {} = .ok (x, 1) ∧ ∀ i, (A i).mulVec (x i) = (1 / (1 + (1e-15 : ℝ) ^ 2)) • b i := by
  have h := C68_exact_preconditioner_converges A b 0 (luPrecond A) (C68_lu_preconditioner_exact A hA) lstsq 1e-10 1e-15
    (by norm_num) 100 (by norm_num) hl (by simpa using hb) (by simpa using hbig) (by
      intro i
      have h1 := hsmall i
      have h0 : 0 ≤ rowNorm (b i) := Real.sqrt_nonneg _
      simp only [Pi.zero_apply, Matrix.mulVec_zero, sub_zero]
      have : (1e-15 : ℝ) ^ 2 / (1 + 1e-15 ^ 2) ≤ 1e-30 := by norm_num
      calc _ ≤ (1e-30 : ℝ) * rowNorm (b i) := mul_le_mul_of_nonneg_right this h0
        _ < 1e-10 := by norm_num at h1 ⊢; linarith)
  obtain ⟨h1, h2⟩ := h
  refine ⟨(gmres A b 0 (luPrecond A) lstsq 1e-10 1e-15 100 1).1, ?_, ?_⟩
  · change Except.ok (gmres A b 0 (luPrecond A) lstsq 1e-10 1e-15 100 1) = _
    congr 1
    exact Prod.ext rfl h1
  · intro i
    have := h2 i
    simp only [Pi.zero_apply, Matrix.mulVec_zero, sub_zero] at this
    rw [sub_eq_iff_eq_add] at this
    have hc : (1 / (1 + (1e-15 : ℝ) ^ 2)) = 1 - (1e-15 : ℝ) ^ 2 / (1 + 1e-15 ^ 2) := by norm_num
    rw [hc, sub_smul, one_smul]
    exact eq_sub_of_add_eq' this.symm

/-- **C95.** `gmres(A, b, check=1)` without a preconditioner is preconditioned by the identity: for identity matrices it returns after the second pass with `x = b / (1 + ε²)`. -/
theorem C95_gmres_identity (b : β → Fin n → ℝ) (lstsq : Lstsq β)
    (hl : ∀ h e i, (h 0 0 i) * (h 0 0 i * lstsq 1 h e 0 i - e 0 i) + (h 1 0 i) * (h 1 0 i * lstsq 1 h e 0 i - e 1 i) = 0)
    (hb : ∀ i, b i ≠ 0) (hbig : ∃ i, (1e-10 : ℝ) ≤ rowNorm (b i)) (hsmall : ∀ i, rowNorm (b i) < 1e19) :
    gmresKw (fun _ => 1) b lstsq { check := some 1 } = (fun i => (1 / (1 + (1e-15 : ℝ) ^ 2)) • b i, 1) := by
  obtain ⟨h1, h2⟩ := C68_exact_preconditioner_converges (fun _ => (1 : Matrix (Fin n) (Fin n) ℝ)) b 0 noOp (fun v i => by simp [noOp]) lstsq 1e-10 1e-15
    (by norm_num) 100 (by norm_num) hl (by simpa using hb) (by simpa using hbig) (by
      intro i
      have h1 := hsmall i
      have h0 : 0 ≤ rowNorm (b i) := Real.sqrt_nonneg _
      simp only [Pi.zero_apply, Matrix.mulVec_zero, sub_zero]
      have : (1e-15 : ℝ) ^ 2 / (1 + 1e-15 ^ 2) ≤ 1e-30 := by norm_num
      calc _ ≤ (1e-30 : ℝ) * rowNorm (b i) := mul_le_mul_of_nonneg_right this h0
        _ < 1e-10 := by norm_num at h1 ⊢; linarith)
  refine Prod.ext (funext fun i => ?_) h1
  have := h2 i
  simp only [Pi.zero_apply, Matrix.mulVec_zero, sub_zero, Matrix.one_mulVec] at this
  rw [sub_eq_iff_eq_add] at this
  have hc : (1 / (1 + (1e-15 : ℝ) ^ 2)) = 1 - (1e-15 : ℝ) ^ 2 / (1 + 1e-15 ^ 2) := by norm_num
  change _ = (1 / (1 + (1e-15 : ℝ) ^ 2)) • b i
  rw [hc, sub_smul, one_smul]
  exact eq_sub_of_add_eq' this.symm

/-- **C95.** For diagonal matrices without zeros on the diagonal `jacobi_gmres(A, b, check=1)` does the same. -/
theorem C95_jacobi_gmres_solves_diagonal (a : β → Fin n → ℝ) (ha : ∀ i j, a i j ≠ 0) (b : β → Fin n → ℝ) (lstsq : Lstsq β)
    (hl : ∀ h e i, (h 0 0 i) * (h 0 0 i * lstsq 1 h e 0 i - e 0 i) + (h 1 0 i) * (h 1 0 i * lstsq 1 h e 0 i - e 1 i) = 0)
    (hb : ∀ i, b i ≠ 0) (hbig : ∃ i, (1e-10 : ℝ) ≤ rowNorm (b i)) (hsmall : ∀ i, rowNorm (b i) < 1e19) :
    ∃ x, jacobiGmres (fun i => Matrix.diagonal (a i)) b lstsq { check := some 1 } = .ok (x, 1) ∧
      ∀ i j, a i j * x i j = (1 / (1 + (1e-15 : ℝ) ^ 2)) * b i j := by
  have hex : ∀ (v : β → Fin n → ℝ) i, (Matrix.diagonal (a i)).mulVec (jacobiPrecond (fun i => Matrix.diagonal (a i)) v i) = v i := by
    intro v i
    ext j
    simp only [jacobiPrecond, Matrix.mulVec_diagonal, Matrix.diagonal_apply_eq]
    field_simp [ha i j]
  have hlu : luPrecond (fun i => Matrix.diagonal (a i)) = jacobiPrecond fun i => Matrix.diagonal (a i) := by
    funext v i
    have hdet : IsUnit (Matrix.diagonal (a i)).det := by
      rw [Matrix.det_diagonal]; exact (Finset.prod_ne_zero_iff.2 fun j _ => ha i j).isUnit
    have := C68_lu_preconditioner_exact (fun i => Matrix.diagonal (a i)) (fun i => by
      rw [Matrix.det_diagonal]; exact (Finset.prod_ne_zero_iff.2 fun j _ => ha i j).isUnit) v i
    have h2 := hex v i
    rw [← this] at h2
    exact (Matrix.mulVec_injective_of_isUnit ((Matrix.isUnit_iff_isUnit_det _).2 hdet) (this.trans (hex v i).symm))
  obtain ⟨x, hx, hs⟩ := C95_lu_gmres_solves (fun i => Matrix.diagonal (a i)) (fun i => by
      rw [Matrix.det_diagonal]; exact (Finset.prod_ne_zero_iff.2 fun j _ => ha i j).isUnit) b lstsq hl hb hbig hsmall
  refine ⟨x, ?_, ?_⟩
  · rw [← hx]
    unfold luGmres jacobiGmres
    simp only [hlu]
  · intro i j
    have := congrFun (hs i) j
    rwa [Matrix.mulVec_diagonal] at this

/-- Non-vacuity: `2 x = 3` with a true least squares routine. -/
example : ∃ (lstsq : Lstsq Unit) (x : Unit → Fin 1 → ℝ),
    luGmres (fun _ : Unit => (!![2] : Matrix (Fin 1) (Fin 1) ℝ)) (fun _ _ => 3) lstsq {} = .ok (x, 1) := by
  have hn : rowNorm (fun _ : Fin 1 => (3 : ℝ)) = 3 := by
    unfold rowNorm
    rw [Fin.sum_univ_one, Real.sqrt_sq (by norm_num)]
  let lstsq : Lstsq Unit := fun _ h e _ i => (h 0 0 i * e 0 i + h 1 0 i * e 1 i) / (h 0 0 i ^ 2 + h 1 0 i ^ 2)
  obtain ⟨x, hx, -⟩ := C95_lu_gmres_solves (fun _ : Unit => (!![2] : Matrix (Fin 1) (Fin 1) ℝ)) (by simp) (fun _ _ => 3) lstsq (by
    intro h e i
    by_cases hz : h 0 0 i ^ 2 + h 1 0 i ^ 2 = 0
    · have h0 : h 0 0 i = 0 := by nlinarith [sq_nonneg (h 0 0 i), sq_nonneg (h 1 0 i)]
      have h1 : h 1 0 i = 0 := by nlinarith [sq_nonneg (h 0 0 i), sq_nonneg (h 1 0 i)]
      simp [h0, h1]
    · simp only [lstsq]; field_simp; ring) (fun _ h => by simpa using congrFun h 0) ⟨(), by rw [hn]; norm_num⟩ (fun _ => by rw [hn]; norm_num)
  exact ⟨lstsq, x, hx⟩

/-- when the loop of `gmres` stops -/
private theorem gmresLoop_stop (A : β → Matrix (Fin n) (Fin n) ℝ) (b x0 : β → Fin n → ℝ) (M : Precond β n)
    (lstsq : Lstsq β) (tol eps : ℝ) (check maxiter : ℕ) (nR : β → ℝ) (fuel k : ℕ) (s : Krylov β n)
    (x : β → Fin n → ℝ) (hk : k + fuel = maxiter) (hf : 0 < fuel) (y : β → Fin n → ℝ) (j : ℕ)
    (h : gmresLoop A b x0 M lstsq tol eps check maxiter nR fuel k s x = (y, j)) :
    j + 1 = maxiter ∨ ((j + 1) % check = 0 ∧ j < maxiter ∧ ∀ i, rowNorm (residual A b y i) < tol) := by
  induction fuel generalizing k s x with
  | zero => omega
  | succ fuel ih =>
    rw [gmresLoop] at h
    simp only at h
    by_cases hfuel : fuel = 0
    · subst hfuel
      left
      rw [if_pos (Or.inr (by omega))] at h
      split_ifs at h with h2
      · have := congrArg Prod.snd h
        simp only at this; omega
      · rw [gmresLoop] at h
        have := congrArg Prod.snd h
        simp only at this; omega
    · split_ifs at h with h1 h2
      · obtain ⟨rfl, rfl⟩ := Prod.mk.inj h
        rcases h1 with h1 | h1
        · exact Or.inr ⟨h1, by omega, h2⟩
        · exact Or.inl h1
      · exact ih (k + 1) _ _ (by omega) (by omega) h
      · exact ih (k + 1) _ _ (by omega) (by omega) h

/-- **C95.** What the two front ends return, for every choice of keywords but `M`: the initial guess (the argument `x0`, zero by default) with count 0 when it meets the tolerance (`tol`, by default
`10⁻¹⁰`) in every batch entry; otherwise they stop at the iteration limit (`maxiter`, by default 100), or after a pass whose number is a multiple of the checking interval (1 for `lu_gmres`; `check`, by default 5,
for `jacobi_gmres`) with residuals below the tolerance in every batch entry. -/
theorem C95_stopping (A : β → Matrix (Fin n) (Fin n) ℝ) (b : β → Fin n → ℝ) (lstsq : Lstsq β) (kw : GmresKw β n) (hM : kw.M = none)
    (hmax : kw.maxiter ≠ some 0) :
    let x0 := kw.x0.getD 0
    let tol := kw.tol.getD 1e-10
    let maxiter := kw.maxiter.getD 100
    let close := fun x : β → Fin n → ℝ => ∀ i, rowNorm (b i - (A i).mulVec (x i)) < tol
    (close x0 → luGmres A b lstsq kw = .ok (x0, 0) ∧ jacobiGmres A b lstsq kw = .ok (x0, 0)) ∧
    (¬ close x0 → ∀ x k,
      (luGmres A b lstsq kw = .ok (x, k) → k + 1 = maxiter ∨ (k < maxiter ∧ close x)) ∧
      (jacobiGmres A b lstsq kw = .ok (x, k) → k + 1 = maxiter ∨ (k < maxiter ∧ (k + 1) % kw.check.getD 5 = 0 ∧ close x))) := by
  intro x0 tol maxiter close
  have hpos : 0 < maxiter := by
    change 0 < kw.maxiter.getD 100
    cases hq : kw.maxiter with
    | none => simp
    | some q =>
      rw [Option.getD_some]
      refine Nat.pos_of_ne_zero fun h => hmax ?_
      rw [hq, h]
  have hlu : luGmres A b lstsq kw = .ok (gmres A b x0 (luPrecond A) lstsq tol (kw.eps.getD 1e-15) maxiter 1) := by
    unfold luGmres gmresKw
    simp only [hM]
    rfl
  have hja : jacobiGmres A b lstsq kw = .ok (gmres A b x0 (jacobiPrecond A) lstsq tol (kw.eps.getD 1e-15) maxiter (kw.check.getD 5)) := by
    unfold jacobiGmres gmresKw
    simp only [hM]
    rfl
  constructor
  · intro h
    rw [hlu, hja]
    have hc : ∀ i, rowNorm (residual A b x0 i) < tol := h
    unfold gmres
    simp only [if_pos hc, and_self]
  · intro h x k
    have hc : ¬ ∀ i, rowNorm (residual A b x0 i) < tol := h
    rw [hlu, hja]
    unfold gmres
    simp only [if_neg hc]
    constructor
    · intro q
      have q := Except.ok.inj q
      rcases gmresLoop_stop _ _ _ _ _ _ _ _ _ _ _ _ _ _ (by omega) hpos _ _ q with r | ⟨-, r1, r2⟩
      · exact Or.inl r
      · exact Or.inr ⟨r1, r2⟩
    · intro q
      have q := Except.ok.inj q
      rcases gmresLoop_stop _ _ _ _ _ _ _ _ _ _ _ _ _ _ (by omega) hpos _ _ q with r | ⟨r0, r1, r2⟩
      · exact Or.inl r
      · exact Or.inr ⟨r1, r0, r2⟩

/-- Non-vacuity: a guess that is the solution comes back. -/
example (lstsq : Lstsq Unit) : luGmres (fun _ : Unit => (!![2] : Matrix (Fin 1) (Fin 1) ℝ)) (fun _ _ => 3) lstsq { x0 := some fun _ _ => 3 / 2 } =
    .ok (fun _ _ => 3 / 2, 0) := by
  refine ((C95_stopping _ _ lstsq _ rfl (by simp)).1 ?_).1
  intro i
  have : (fun _ : Fin 1 => (3 : ℝ)) - (!![2] : Matrix (Fin 1) (Fin 1) ℝ).mulVec (fun _ => 3 / 2) = 0 := by
    funext j; fin_cases j; simp [Matrix.mulVec, dotProduct]; norm_num
  simp only [Option.getD_some, Option.getD_none]
  rw [this]
  simp only [rowNorm, Pi.zero_apply]
  norm_num

end gmr

end Pyoptmat.Props
