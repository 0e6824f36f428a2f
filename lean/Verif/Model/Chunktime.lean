import Mathlib.Data.Matrix.Mul
import Mathlib.LinearAlgebra.Matrix.NonsingularInverse
import Mathlib.Logic.Equiv.Fin.Basic
import Mathlib.Data.Nat.Log

/-!
# Model of `pyoptmat/chunktime.py`: batched blocked bidiagonal systems

Simplifications common to the whole file: exact field arithmetic instead of floating point;
`lu_factor`/`lu_solve` is multiplication by the inverse of the factored block; device/dtype ignored.
A tensor with a leading block dimension is an addressable memory `Mem α := ℕ → α` together with its
length, so that slices and strided views which alias the same storage can be modelled faithfully.
-/

namespace Pyoptmat.Chunktime

/-- A batched matrix block: one entry `[k]` of a `(nblk, sbat, sblk, sblk)` tensor
(chunktime.py:88-91); `β` indexes the batch. -/
abbrev Blk (β : Type*) (m : ℕ) (K : Type*) := β → Matrix (Fin m) (Fin m) K

/-- A batched vector block: one entry `[k]` of a `(nblk, sbat, sblk, 1)` tensor (chunktime.py:210).
The trailing unit dimension is dropped. -/
abbrev BVec (β : Type*) (m : ℕ) (K : Type*) := β → Fin m → K

/-- Storage of a tensor, addressed by its leading (block) index. (chunktime.py:224-243, the tensors `self.B` and `v`) -/
abbrev Mem (α : Type*) := ℕ → α

variable {β : Type*} {m : ℕ} {K : Type*} [Field K]

/-- `torch.bmm`/`mbmm` of a block with a vector block (chunktime.py:189, 266; utility.py:60-64). -/
def bmv (M : Blk β m K) (v : BVec β m K) : BVec β m K := fun b => (M b).mulVec (v b)

/-- `mbmm` of two matrix blocks (chunktime.py:271; utility.py:60-64). -/
def bmm (M N : Blk β m K) : Blk β m K := fun b => M b * N b

/-- `torch.linalg.lu_solve(lu[i], pivots[i], v)` on a vector block (chunktime.py:186, 243):
exact solve with the factored block `A`. -/
noncomputable def luSolve (A : Blk β m K) (v : BVec β m K) : BVec β m K :=
  fun b => (A b)⁻¹.mulVec (v b)

/-- `torch.linalg.lu_solve` with a matrix right hand side (chunktime.py:273). -/
noncomputable def luSolveM (A M : Blk β m K) : Blk β m K := fun b => (A b)⁻¹ * M b

/-- Write a list of (address, value) cells into a storage: a slice assignment whose right hand side
has already been evaluated. (chunktime.py:236, 266, 271) -/
def assign {α : Type*} (mem : Mem α) (cells : List (ℕ × α)) : Mem α :=
  cells.foldl (fun s c => Function.update s c.1 c.2) mem

/-! ## Thomas -/

/-- The assignment `v[i] = lu_solve(lu[i], pivots[i], v[i] - bmm(B[i-1], v[i-1].clone()))`
(chunktime.py:188-190 and 382-386). -/
noncomputable def thomasStep (lu B : Mem (Blk β m K)) (v : Mem (BVec β m K)) (i : ℕ) :
    Mem (BVec β m K) :=
  Function.update v i (luSolve (lu i) (v i - bmv (B (i - 1)) (v (i - 1))))

/-- `thomas_solve` (chunktime.py:174-192): in place of `v`, `nblk = lu.shape[0]`. -/
noncomputable def thomasSolve (nblk : ℕ) (lu B : Mem (Blk β m K)) (v : Mem (BVec β m K)) :
    Mem (BVec β m K) :=
  (List.range' 1 (nblk - 1)).foldl (thomasStep lu B)
    (Function.update v 0 (luSolve (lu 0) (v 0)))

/-! ## Parallel cyclic reduction -/

/-- `sz(n) = 2 ** floor(log2(n))` (chunktime.py:300-301); the floating point `log2` is taken exact. -/
def sz (n : ℕ) : ℕ := 2 ^ Nat.log 2 n

theorem two_le_sz {n : ℕ} (h : 2 ≤ n) : 2 ≤ sz n := by
  have : 1 ≤ Nat.log 2 n := Nat.log_pos (by norm_num) h
  calc 2 = 2 ^ 1 := rfl
    _ ≤ 2 ^ Nat.log 2 n := Nat.pow_le_pow_right (by norm_num) this

/-- The `while n > 0` loop of `_pow2` (chunktime.py:307-311): `n` is the number of rows left, `e` is
`end[-1]`. The two result lists `start`, `end` are returned zipped, as they are always used zipped
(chunktime.py:235, 364, 395). -/
def pow2Loop (n e : ℕ) : List (ℕ × ℕ) :=
  if h : 0 < n then
    (e - 1, e - 1 + sz (n + 1)) :: pow2Loop (n - (sz (n + 1) - 1)) (e - 1 + sz (n + 1))
  else []
termination_by n
decreasing_by
  have := two_le_sz (n := n + 1) (by omega)
  omega

/-- `_pow2` (chunktime.py:285-313). -/
def pow2 (n : ℕ) : List (ℕ × ℕ) := (0, sz n) :: pow2Loop (n - sz n) (sz n)

/-- The leading two dimensions of a strided view of a storage: offset, sizes and strides, in units of
whole blocks (`prod(A.shape[2:])` elements, chunktime.py:325). -/
structure View where
  off : ℕ
  n0 : ℕ
  n1 : ℕ
  s0 : ℕ
  s1 : ℕ

/-- Storage address of entry `[p, q]` of a view. (chunktime.py:323-326) -/
def View.addr (w : View) (p q : ℕ) : ℕ := w.off + p * w.s0 + q * w.s1

/-- The view `X[s:e].unsqueeze(0)` (chunktime.py:236, 258-261). -/
def sliceView (s e : ℕ) : View := { off := s, n0 := 1, n1 := e - s, s0 := e - s, s1 := 1 }

/-- `_cyclic_shift` (chunktime.py:316-326): `as_strided` keeps the storage offset, and *sets* the
leading strides. -/
def cyclicShift (w : View) (n : ℕ) : View :=
  { off := w.off, n0 := w.n0 * 2, n1 := w.n1 / 2, s0 := 1, s1 := 2 ^ (n + 1) }

/-- All index pairs `[p, q]` with `p < n0`, `q < n`. (chunktime.py:266-274) -/
def pairs (n0 n : ℕ) : List (ℕ × ℕ) :=
  (List.range n0).flatMap fun p => (List.range n).map fun q => (p, q)

/-- `v[:, 1:] -= mbmm(B[:, 1:], lu_solve(lu[:, :-1], pivots[:, :-1], v[:, :-1]))`
(chunktime.py:266-268). The right hand side is evaluated before the in-place subtraction. -/
noncomputable def reduceRhs (vw Bw lw : View) (lu B : Mem (Blk β m K)) (v : Mem (BVec β m K)) :
    Mem (BVec β m K) :=
  assign v ((pairs vw.n0 (vw.n1 - 1)).map fun pq =>
    (vw.addr pq.1 (pq.2 + 1),
      v (vw.addr pq.1 (pq.2 + 1)) -
        bmv (B (Bw.addr pq.1 (pq.2 + 1))) (luSolve (lu (lw.addr pq.1 pq.2)) (v (vw.addr pq.1 pq.2)))))

/-- `B[:, 2:] = -mbmm(B[:, 2:], lu_solve(lu[:, 1:-1], pivots[:, 1:-1], B[:, 1:-1]))`
(chunktime.py:271-274). -/
noncomputable def reduceOff (Bw lw : View) (lu B : Mem (Blk β m K)) : Mem (Blk β m K) :=
  assign B ((pairs Bw.n0 (Bw.n1 - 2)).map fun pq =>
    (Bw.addr pq.1 (pq.2 + 2),
      -bmm (B (Bw.addr pq.1 (pq.2 + 2)))
        (luSolveM (lu (lw.addr pq.1 (pq.2 + 1))) (B (Bw.addr pq.1 (pq.2 + 1))))))

/-- State of the reduction loop: storages of `B` and `v`, and the three current views
(`pivots` always has the view of `lu`). (chunktime.py:257-280) -/
structure PcrState (β : Type*) (m : ℕ) (K : Type*) where
  B : Mem (Blk β m K)
  v : Mem (BVec β m K)
  Bw : View
  vw : View
  lw : View

/-- Body of `for i in range(niter)` (chunktime.py:264-280). -/
noncomputable def pcrStep (lu : Mem (Blk β m K)) (st : PcrState β m K) (i : ℕ) : PcrState β m K :=
  let v := reduceRhs st.vw st.Bw st.lw lu st.B st.v
  let B := reduceOff st.Bw st.lw lu st.B
  { B := B, v := v, vw := cyclicShift st.vw i, Bw := cyclicShift st.Bw i,
    lw := cyclicShift st.lw i }

/-- `_solve_block` on the slices `[s:e]` (chunktime.py:245-282), up to the final slices;
`niter = bit_length(e - s) - 1`. -/
noncomputable def solveBlock (lu : Mem (Blk β m K)) (s e : ℕ) (B : Mem (Blk β m K))
    (v : Mem (BVec β m K)) : PcrState β m K :=
  (List.range (Nat.log 2 (e - s))).foldl (pcrStep lu)
    { B := B, v := v, Bw := sliceView s e, vw := sliceView s e, lw := sliceView s e }

/-- `self.B[s+1:e], v[s+1:e] = self._solve_block(...)` (chunktime.py:236-238, 365-367): the right hand
sides are `B.squeeze(1)[1:]`, `v.squeeze(1)[1:]` of the final views (chunktime.py:282). -/
noncomputable def pcrChunk (lu : Mem (Blk β m K)) (Bv : Mem (Blk β m K) × Mem (BVec β m K))
    (se : ℕ × ℕ) : Mem (Blk β m K) × Mem (BVec β m K) :=
  let st := solveBlock lu se.1 se.2 Bv.1 Bv.2
  (assign st.B ((List.range (se.2 - (se.1 + 1))).map fun q =>
      (se.1 + 1 + q, st.B (st.Bw.addr (q + 1) 0))),
   assign st.v ((List.range (se.2 - (se.1 + 1))).map fun q =>
      (se.1 + 1 + q, st.v (st.vw.addr (q + 1) 0))))

/-- `pad(self.B, (0,0,0,0,0,0,1,0))`: one zero block in front (chunktime.py:232, 358). -/
def padFront (B : Mem (Blk β m K)) : Mem (Blk β m K)
  | 0 => 0
  | k + 1 => B k

/-- Result of a `matvec`: the new attribute `self.B`, the storage of the argument `v` after the call
(it is updated in place) and the returned tensor. (chunktime.py:205-212, 224-243) -/
structure MatvecOut (β : Type*) (m : ℕ) (K : Type*) where
  B : Mem (Blk β m K)
  v : Mem (BVec β m K)
  ret : Mem (BVec β m K)

/-- `BidiagonalThomasFactorization.matvec` (chunktime.py:205-212). -/
noncomputable def thomasMatvec (nblk : ℕ) (lu B : Mem (Blk β m K)) (v : Mem (BVec β m K)) :
    MatvecOut β m K :=
  let r := thomasSolve nblk lu B v
  { B := B, v := r, ret := r }

/-- `BidiagonalPCRFactorization.matvec` (chunktime.py:224-243). -/
noncomputable def pcrMatvec (nblk : ℕ) (lu B : Mem (Blk β m K)) (v : Mem (BVec β m K)) :
    MatvecOut β m K :=
  let r := (pow2 nblk).foldl (pcrChunk lu) (padFront B, v)
  { B := fun k => r.1 (k + 1), v := r.2, ret := fun k => luSolve (lu k) (r.2 k) }

/-- `_pcr_blocks` (chunktime.py:390-408). `minSize` is `self.min_size`, i.e. the user's value plus one
(chunktime.py:348). Returns the chunks and `last`. -/
def pcrBlocks (nblk : ℕ) (minSize : ℤ) : List (ℕ × ℕ) × ℕ :=
  let blks := pow2 nblk
  let blkSize : List ℤ := blks.map fun se => (se.2 : ℤ) - (se.1 : ℤ)
  if blkSize.headD 0 < minSize then ([], 1)
  else
    let ilast := blkSize.findIdx fun j => decide (j < minSize)
    (blks.take ilast, ((blks.take ilast).getLastD (0, 0)).2)

/-- `BidiagonalHybridFactorization.matvec` (chunktime.py:350-388) with the constructor argument
`min_size = userMin`. -/
noncomputable def hybridMatvec (userMin : ℤ) (nblk : ℕ) (lu B : Mem (Blk β m K))
    (v : Mem (BVec β m K)) : MatvecOut β m K :=
  let bl := pcrBlocks nblk (userMin + 1)
  let r := bl.1.foldl (pcrChunk lu) (padFront B, v)
  let B' : Mem (Blk β m K) := fun k => r.1 (k + 1)
  let v1 := assign r.2 ((List.range bl.2).map fun k => (k, luSolve (lu k) (r.2 k)))
  let v2 := (List.range' bl.2 (nblk - bl.2)).foldl (thomasStep lu B') v1
  { B := B', v := v2, ret := v2 }

/-- The direct factorizations selectable through `direct_solve_method` (ode.py:331-342). -/
inductive Direct where
  | thomas
  | pcr
  | hybrid (minSize : ℤ)

/-- `matvec` of the selected factorization class. (chunktime.py:205-212, 224-243, 350-388) -/
noncomputable def Direct.matvec (d : Direct) (nblk : ℕ) (lu B : Mem (Blk β m K))
    (v : Mem (BVec β m K)) : MatvecOut β m K :=
  match d with
  | .thomas => thomasMatvec nblk lu B v
  | .pcr => pcrMatvec nblk lu B v
  | .hybrid ms => hybridMatvec ms nblk lu B v

/-- A factorization object applied to several right hand sides in turn: each call starts from the
`self.B` left behind by the previous one (chunktime.py:232, 241, 358, 370). Returns the results. -/
noncomputable def Direct.applyAll (d : Direct) (nblk : ℕ) (lu : Mem (Blk β m K)) :
    Mem (Blk β m K) → List (Mem (BVec β m K)) → List (Mem (BVec β m K))
  | _, [] => []
  | B, v :: vs =>
    (d.matvec nblk lu B v).ret :: Direct.applyAll d nblk lu (d.matvec nblk lu B v).B vs

/-! ## Tensors of a definite shape and the flat layout -/

/-- Storage holding a tensor with leading dimension `n` (nothing beyond it is ever read). (chunktime.py:94-100) -/
def memOf {α : Type*} [Zero α] {n : ℕ} (x : Fin n → α) : Mem α :=
  fun k => if h : k < n then x ⟨k, h⟩ else 0

/-- `BidiagonalOperator` (chunktime.py:94-100): diagonal and sub-diagonal blocks. -/
structure BidiagOp (β : Type*) (nblk m : ℕ) (K : Type*) where
  A : Fin nblk → Blk β m K
  B : Fin (nblk - 1) → Blk β m K

/-- `v.reshape((sbat, nblk, sblk)).transpose(0, 1)` (chunktime.py:163-164): row `k`, batch `b`, entry `r`
is the flat entry `k * sblk + r`. -/
def unflatten {nblk : ℕ} (v : β → Fin (nblk * m) → K) : Fin nblk → BVec β m K :=
  fun k b r => v b (finProdFinEquiv (k, r))

/-- `.transpose(0, 1).flatten(start_dim=1)` (chunktime.py:169-170). -/
def flatten {nblk : ℕ} (x : Fin nblk → BVec β m K) : β → Fin (nblk * m) → K :=
  fun b i => x i.divNat b i.modNat

/-- `LUFactorization.forward` (chunktime.py:153-171) on a fresh factorization object: the value
returned. (The effect on the caller's `v` is in `forwardCallerRhs`.) -/
noncomputable def forward {nblk : ℕ} (d : Direct) (op : BidiagOp β nblk m K)
    (v : β → Fin (nblk * m) → K) : β → Fin (nblk * m) → K :=
  flatten fun k : Fin nblk =>
    (d.matvec nblk (memOf op.A) (memOf op.B) (memOf (unflatten v))).ret k

/-- torch's contiguity test for a list of (size, stride) pairs: dimensions of size one are skipped, a
tensor without elements is contiguous. (chunktime.py:163-166, `.contiguous()`) -/
def isContiguous (dims : List (ℕ × ℕ)) : Bool :=
  if dims.any (fun d => d.1 = 0) then true
  else (dims.reverse.foldl (fun (acc : Bool × ℕ) d =>
    if d.1 = 1 then acc else (acc.1 && decide (d.2 = acc.2), acc.2 * d.1)) (true, 1)).1

/-- Sizes and strides of `v.reshape((sbat, nblk, sblk)).transpose(0, 1).unsqueeze(-1)` for a contiguous
`v` of shape `(sbat, nblk * sblk)` (chunktime.py:163-165). -/
def rhsViewDims (sbat nblk sblk : ℕ) : List (ℕ × ℕ) :=
  [(nblk, sblk), (sbat, nblk * sblk), (sblk, 1), (1, 1)]

/-- Contents of the caller's `v` after `LUFactorization.forward(v)` (chunktime.py:153-171): `.contiguous()`
copies only if the view is not already contiguous, and `matvec` works in place. The caller's `v` is
assumed contiguous, so that `reshape` is a view. -/
noncomputable def forwardCallerRhs {nblk sbat : ℕ} (d : Direct) (op : BidiagOp (Fin sbat) nblk m K)
    (v : Fin sbat → Fin (nblk * m) → K) : Fin sbat → Fin (nblk * m) → K :=
  if isContiguous (rhsViewDims sbat nblk m) then
    flatten fun k : Fin nblk =>
      (d.matvec nblk (memOf op.A) (memOf op.B) (memOf (unflatten v))).v k
  else v

/-! ## `SquareBatchedBlockDiagonalMatrix` -/

/-- `SquareBatchedBlockDiagonalMatrix` (chunktime.py:573-582): the (diagonal, data) pairs after the
constructor. A data tensor is the list of its blocks. -/
structure BlockDiag (β : Type*) (m : ℕ) (K : Type*) where
  entries : List (ℤ × List (Blk β m K))

/-- The constructor sorts by diagonal number (chunktime.py:575-578). numpy's sort is not stable; the
model uses a stable one, which only matters for repeated diagonals. -/
def BlockDiag.mk' (data : List (ℤ × List (Blk β m K))) : BlockDiag β m K :=
  ⟨data.mergeSort fun a b => decide (a.1 ≤ b.1)⟩

/-- `self.nblk = self.data[0].shape[0] + abs(self.diags[0])` (chunktime.py:580). -/
def BlockDiag.nblk (M : BlockDiag β m K) : ℕ :=
  match M.entries with
  | [] => 0
  | (d, data) :: _ => data.length + d.natAbs

/-- One slice write `A[:, i*sblk:(i+1)*sblk, j*sblk:(j+1)*sblk] = blk` (chunktime.py:637-641) into a
dense batch of matrices. -/
def writeBlock {n : ℕ} (A : β → Matrix (Fin n) (Fin n) K) (i j : ℕ) (blk : Blk β m K) :
    β → Matrix (Fin n) (Fin n) K :=
  fun b r c =>
    if h : (i * m ≤ r.val ∧ r.val < (i + 1) * m) ∧ (j * m ≤ c.val ∧ c.val < (j + 1) * m) then
      blk b ⟨r.val - i * m, by have := h.1.2; rw [Nat.add_mul, Nat.one_mul] at this; omega⟩
        ⟨c.val - j * m, by have := h.2.2; rw [Nat.add_mul, Nat.one_mul] at this; omega⟩
    else A b r c

/-- Block position `(i, j)` of the `k`-th block of diagonal `d` (chunktime.py:631-636). -/
def denseRow (d : ℤ) (k : ℕ) : ℕ := if d ≤ 0 then k + d.natAbs else k
/-- See `denseRow` (chunktime.py:631-636). -/
def denseCol (d : ℤ) (k : ℕ) : ℕ := if d ≤ 0 then k else k + d.natAbs

/-- Inner loop of `to_dense` for one diagonal (chunktime.py:630-641). -/
def writeDiag {n : ℕ} (nblk : ℕ) (A : β → Matrix (Fin n) (Fin n) K) (e : ℤ × List (Blk β m K)) :
    β → Matrix (Fin n) (Fin n) K :=
  (List.range (nblk - e.1.natAbs)).foldl
    (fun A k => writeBlock A (denseRow e.1 k) (denseCol e.1 k) (e.2.getD k 0)) A

/-- `to_dense` (chunktime.py:622-643). -/
def BlockDiag.toDense (M : BlockDiag β m K) :
    β → Matrix (Fin (M.nblk * m)) (Fin (M.nblk * m)) K :=
  M.entries.foldl (writeDiag M.nblk) 0

/-- The (row, column, values) triples written for block `i` of diagonal `d` by `to_batched_coo`
(chunktime.py:664-697): the flattened block position `q` has row `q / sblk` and column `q % sblk`. -/
def cooBlock (d : ℤ) (i : ℕ) (blk : Blk β m K) : List (ℕ × ℕ × (β → K)) :=
  let offset := (i + d.natAbs) * m
  let roffset := if d < 0 then offset else i * m
  let coffset := if d < 0 then i * m else offset
  (List.finRange (m * m)).map fun q =>
    (q.divNat.val + roffset, q.modNat.val + coffset, fun b => blk b q.divNat q.modNat)

/-- All COO entries, before `coalesce` (chunktime.py:663-697). -/
def BlockDiag.cooEntries (M : BlockDiag β m K) : List (ℕ × ℕ × (β → K)) :=
  M.entries.flatMap fun e => e.2.zipIdx.flatMap fun bi => cooBlock e.1 bi.2 bi.1

/-- `nnz` (chunktime.py:613-620). -/
def BlockDiag.nnz (M : BlockDiag β m K) : ℕ :=
  (M.entries.map fun e => e.2.length * m * m).sum

/-- Denotation of a coalesced COO tensor: entries at equal indices are summed
(chunktime.py:699-705). -/
def cooDenote (es : List (ℕ × ℕ × (β → K))) (r c : ℕ) (b : β) : K :=
  ((es.filter fun e => e.1 = r ∧ e.2.1 = c).map fun e => e.2.2 b).sum

/-! ## Operators and the solver context -/

/-- `BidiagonalForwardOperator.to_diag` (chunktime.py:445-450). -/
def BidiagOp.toDiag {nblk : ℕ} (op : BidiagOp β nblk m K) : BlockDiag β m K :=
  BlockDiag.mk' [(0, List.ofFn op.A), (-1, List.ofFn op.B)]

/-- `to_diag().to_dense()` (chunktime.py:523) for an operator with `nblk ≥ 1` blocks; the size equation
`nblk = toDiag.nblk` holds for `nblk ≥ 1` (`Proofs`), the model writes it out directly. -/
def BidiagOp.dense {nblk : ℕ} (op : BidiagOp β nblk m K) :
    β → Matrix (Fin (nblk * m)) (Fin (nblk * m)) K :=
  op.toDiag.entries.foldl (writeDiag nblk) 0

/-- `X.view(-1, …)` / `.reshape(sbat * nblk, …)` of a tensor with leading dimensions `(nblk, sbat)`
(chunktime.py:463, 468, 470): flat row `j` is block `j / sbat`, batch `j % sbat`. -/
def mergeBatch {α : Type*} [Zero α] {sbat : ℕ} (X : Mem (Fin sbat → α)) (j : ℕ) : α :=
  if h : j % sbat < sbat then X (j / sbat) ⟨j % sbat, h⟩ else 0

/-- `BidiagonalForwardOperator.forward` (chunktime.py:452-478) with the batch as an integer dimension
`sbat`. `b[sbat:] += …` changes rows `j ≥ sbat`, reading `B.view(-1, …)[j - sbat]` and
`vp[: -sbat][j - sbat]`. -/
def BidiagOp.apply {nblk sbat : ℕ} (op : BidiagOp (Fin sbat) nblk m K)
    (v : Fin sbat → Fin (nblk * m) → K) : Fin sbat → Fin (nblk * m) → K :=
  let vp : ℕ → Fin m → K := mergeBatch (memOf (unflatten v))
  let b0 : ℕ → Fin m → K := fun j => (mergeBatch (memOf op.A) j).mulVec (vp j)
  let b1 : ℕ → Fin m → K := fun j =>
    if sbat ≤ j then b0 j + (mergeBatch (memOf op.B) (j - sbat)).mulVec (vp (j - sbat)) else b0 j
  flatten fun k b => b1 (k.val * sbat + b.val)

/-- `solve_method` of the context: `"dense"` or `"direct"` (chunktime.py:495-499). -/
inductive SolveMethod where
  | dense
  | direct (d : Direct)

/-- `ChunkTimeOperatorSolverContext.__init__` (chunktime.py:495-499): the accepted strings. -/
def contextOfString (s : String) : Except String Bool :=
  if s = "dense" ∨ s = "direct" then .ok (s = "dense")
  else .error "Solve method must be one of dense or direct"

/-- `ChunkTimeOperatorSolverContext.solve` (chunktime.py:501-534). -/
noncomputable def solve {nblk : ℕ} (meth : SolveMethod) (J : BidiagOp β nblk m K)
    (R : β → Fin (nblk * m) → K) : β → Fin (nblk * m) → K :=
  match meth with
  | .dense => fun b => (J.dense b)⁻¹.mulVec (R b)
  | .direct d => forward d J R

end Pyoptmat.Chunktime
