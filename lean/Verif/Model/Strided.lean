import Verif.Model.Chunktime

/-!
# `matvec` of the direct solvers, element by element in memory (chunktime.py:174-408)

`Model/Chunktime.lean` treats the right hand side `v` of shape `(nblk, sbat, sblk, 1)` as a memory of whole blocks. Torch tensors have strides:
element `v[k, b, r, 0]` lies at `k * st + b * sb + r * sr` of a storage of single numbers. `LUFactorization.forward` calls `.contiguous()` before
`matvec` (chunktime.py:162-167), the adjoint pass does not (ode.py:130, 239), so there `v` has whatever layout torch gave the sum it is the result of.
Here only `v` is strided: `lu`, `pivots` and the padded `B` are freshly allocated by `lu_factor_ex` and `pad` with the block index outermost.
-/

namespace Pyoptmat.Chunktime

variable {nb m : ℕ} {K : Type*} [Field K]

/-- Strides, in elements, of the first three dimensions of `v` (`v.stride()`, chunktime.py:325). The storage offset is zero: the tensor is the fresh result of an addition (ode.py:122-127, 232-236). -/
structure Strides where
  st : ℕ
  sb : ℕ
  sr : ℕ

/-- Position in the storage of the element `v[k, b, r, 0]`. (chunktime.py:224-243, reads and writes of `v`) -/
def Strides.pos (l : Strides) (k : ℕ) (b : Fin nb) (r : Fin m) : ℕ := k * l.st + b.val * l.sb + r.val * l.sr

/-- `v[k]` (chunktime.py:186-190): the block of row `k` read from the storage. -/
def Strides.get (l : Strides) (v : Mem K) (k : ℕ) : BVec (Fin nb) m K := fun b r => v (l.pos k b r)

/-- All pairs of a batch and a component index. (chunktime.py:236, element order of an assignment) -/
def elems (nb m : ℕ) : List (Fin nb × Fin m) := (List.finRange nb).flatMap fun b => (List.finRange m).map fun r => (b, r)

/-- The cells written by assigning the block `x` where the block lies at `a b r`. (chunktime.py:186, 236, 266) -/
def blockCells (a : Fin nb → Fin m → ℕ) (x : BVec (Fin nb) m K) : List (ℕ × K) := (elems nb m).map fun br => (a br.1 br.2, x br.1 br.2)

/-- `v[k] = x` (chunktime.py:186, 188, 382). -/
def Strides.set (l : Strides) (v : Mem K) (k : ℕ) (x : BVec (Fin nb) m K) : Mem K := assign v (blockCells (l.pos k) x)

/-- The assignment in the Thomas loop (chunktime.py:188-190, 382-386). -/
noncomputable def eThomasStep (l : Strides) (lu B : Mem (Blk (Fin nb) m K)) (v : Mem K) (i : ℕ) : Mem K :=
  l.set v i (luSolve (lu i) (l.get v i - bmv (B (i - 1)) (l.get v (i - 1))))

/-- `thomas_solve` (chunktime.py:174-192). -/
noncomputable def eThomasSolve (l : Strides) (nblk : ℕ) (lu B : Mem (Blk (Fin nb) m K)) (v : Mem K) : Mem K :=
  (List.range' 1 (nblk - 1)).foldl (eThomasStep l lu B) (l.set v 0 (luSolve (lu 0) (l.get v 0)))

/-- Offset, sizes and strides in elements of the first two dimensions of a view of `v` (chunktime.py:257-280). The strides of the other dimensions are kept (chunktime.py:325). -/
structure EView where
  off : ℕ
  n0 : ℕ
  n1 : ℕ
  s0 : ℕ
  s1 : ℕ

/-- Position in the storage of the element `[p, q, b, r, 0]` of a view. (chunktime.py:323-326) -/
def EView.pos (w : EView) (l : Strides) (p q : ℕ) (b : Fin nb) (r : Fin m) : ℕ := w.off + p * w.s0 + q * w.s1 + b.val * l.sb + r.val * l.sr

/-- The block `[p, q]` of a view. (chunktime.py:266-268) -/
def EView.get (w : EView) (l : Strides) (v : Mem K) (p q : ℕ) : BVec (Fin nb) m K := fun b r => v (w.pos l p q b r)

/-- The view `v[s:e].unsqueeze(0)` (chunktime.py:236, 261). -/
def eSlice (l : Strides) (s e : ℕ) : EView := { off := s * l.st, n0 := 1, n1 := e - s, s0 := (e - s) * l.st, s1 := l.st }

/-- `_cyclic_shift` of `v` (chunktime.py:316-326): the new leading strides are multiples of `prod(A.shape[2:]) = sbat * sblk`, whatever the old ones were.
`as_strided` raises if the view reaches beyond the storage, which has `len` elements. -/
def eShift (nb m len : ℕ) (l : Strides) (w : EView) (n : ℕ) : Except String EView :=
  let w' : EView := { off := w.off, n0 := w.n0 * 2, n1 := w.n1 / 2, s0 := nb * m, s1 := 2 ^ (n + 1) * (nb * m) }
  if 0 < w'.n0 ∧ 0 < w'.n1 ∧ 0 < nb ∧ 0 < m ∧ len ≤ w'.off + (w'.n0 - 1) * w'.s0 + (w'.n1 - 1) * w'.s1 + (nb - 1) * l.sb + (m - 1) * l.sr then
    .error "setStorage: out of bounds for storage"
  else .ok w'

/-- `v[:, 1:] -= mbmm(B[:, 1:], lu_solve(lu[:, :-1], pivots[:, :-1], v[:, :-1]))` (chunktime.py:266-268). -/
noncomputable def eReduceRhs (l : Strides) (vw : EView) (Bw lw : View) (lu B : Mem (Blk (Fin nb) m K)) (v : Mem K) : Mem K :=
  assign v ((pairs vw.n0 (vw.n1 - 1)).flatMap fun pq => blockCells (vw.pos l pq.1 (pq.2 + 1))
    (vw.get l v pq.1 (pq.2 + 1) - bmv (B (Bw.addr pq.1 (pq.2 + 1))) (luSolve (lu (lw.addr pq.1 pq.2)) (vw.get l v pq.1 pq.2))))

/-- State of the reduction loop (chunktime.py:257-280). -/
structure EState (nb m : ℕ) (K : Type*) where
  B : Mem (Blk (Fin nb) m K)
  v : Mem K
  Bw : View
  vw : EView
  lw : View

/-- Body of `for i in range(niter)` (chunktime.py:264-280). Of the four shifts only that of `v` can reach beyond its storage. -/
noncomputable def ePcrStep (len : ℕ) (l : Strides) (lu : Mem (Blk (Fin nb) m K)) (st : EState nb m K) (i : ℕ) : Except String (EState nb m K) :=
  match eShift nb m len l st.vw i with
  | .error e => .error e
  | .ok vw => .ok { B := reduceOff st.Bw st.lw lu st.B, v := eReduceRhs l st.vw st.Bw st.lw lu st.B st.v, vw := vw, Bw := cyclicShift st.Bw i, lw := cyclicShift st.lw i }

/-- A loop that stops at the first exception. (chunktime.py:235, 264) -/
def eLoop {σ ι : Type*} (f : σ → ι → Except String σ) : List ι → σ → Except String σ
  | [], s => .ok s
  | i :: is, s =>
    match f s i with
    | .error e => .error e
    | .ok s' => eLoop f is s'

/-- One chunk: `self.B[s+1:e], v[s+1:e] = self._solve_block(...)` (chunktime.py:236-238, 245-282, 365-367). -/
noncomputable def ePcrChunk (len : ℕ) (l : Strides) (lu : Mem (Blk (Fin nb) m K)) (Bv : Mem (Blk (Fin nb) m K) × Mem K) (se : ℕ × ℕ) :
    Except String (Mem (Blk (Fin nb) m K) × Mem K) :=
  match eLoop (ePcrStep len l lu) (List.range (Nat.log 2 (se.2 - se.1)))
    { B := Bv.1, v := Bv.2, Bw := sliceView se.1 se.2, vw := eSlice l se.1 se.2, lw := sliceView se.1 se.2 } with
  | .error e => .error e
  | .ok st => .ok
    (assign st.B ((List.range (se.2 - (se.1 + 1))).map fun q => (se.1 + 1 + q, st.B (st.Bw.addr (q + 1) 0))),
     assign st.v ((List.range (se.2 - (se.1 + 1))).flatMap fun q => blockCells (nb := nb) (m := m) (l.pos (se.1 + 1 + q)) (st.vw.get l st.v (q + 1) 0)))

/-- `matvec` of the three factorizations (chunktime.py:205-212, 224-243, 350-388) for a right hand side with the strides `l` in a storage `v` of `len` elements. Returns the blocks of the returned tensor. -/
noncomputable def eMatvec (d : Direct) (len : ℕ) (l : Strides) (nblk : ℕ) (lu B : Mem (Blk (Fin nb) m K)) (v : Mem K) : Except String (Mem (BVec (Fin nb) m K)) :=
  match d with
  | .thomas => .ok (l.get (eThomasSolve l nblk lu B v))
  | .pcr =>
    match eLoop (ePcrChunk len l lu) (pow2 nblk) (padFront B, v) with
    | .error e => .error e
    | .ok r => .ok fun k => luSolve (lu k) (l.get r.2 k)
  | .hybrid userMin =>
    let bl := pcrBlocks nblk (userMin + 1)
    match eLoop (ePcrChunk len l lu) bl.1 (padFront B, v) with
    | .error e => .error e
    | .ok r =>
      let v1 := assign r.2 ((List.range bl.2).flatMap fun k => blockCells (l.pos k) (luSolve (lu k) (l.get r.2 k)))
      .ok (l.get ((List.range' bl.2 (nblk - bl.2)).foldl (eThomasStep l lu fun k => r.1 (k + 1)) v1))

end Pyoptmat.Chunktime
