import Verif.Model.TensorControl
import Verif.Model.Ode

/-!
# Time integration as a torch program

The forward pass of `ode.py` with the parts of `chunktime.py` it calls, on whole tensors, as in `Model/TensorMaterial.lean`: the layout of blocks of time steps, which `Model/Ode.lean` takes as
given, is computed here by `reshape`, `transpose`, `flatten`, `vstack` and slices. Shapes are written last dimension first: times of shape `(ntime, nbatch)` are `[nbatch, ntime]`, states of shape
`(ntime, nbatch, size)` are `[size, nbatch, ntime]`.

Tensors are values: no two names share storage. In this part of the code that is so, except that the direct factorizations may overwrite the residual (`forwardCallerRhs` in
`Model/Chunktime.lean`), which is not read again.
-/

namespace Pyoptmat.Tensor

open Pyoptmat.Chunktime Pyoptmat.Ode

/-! ## torch operations -/

/-- `x.transpose(0, 1)` (ode.py:83, 191, 410, 492, 517; chunktime.py:164, 169). -/
def swapFirst (x : TE) : TE := TE.bind x fun t =>
  match t.shape.reverse with
  | a :: b :: S => ((⟨S.reverse ++ [a, b], fun i =>
      match i.reverse with
      | p :: q :: j => t.data (j.reverse ++ [p, q])
      | _ => 0⟩ : Tensor) : TE)
  | _ => (Except.error "IndexError: Dimension out of range" : TE)

/-- `x.flatten(start_dim=1)` (ode.py:84, 192, 410; chunktime.py:170). -/
def flattenFrom1 (x : TE) : TE := TE.bind x fun t =>
  match t.shape.getLast? with
  | none => (Except.error "IndexError: Dimension out of range" : TE)
  | some n => reshape [t.shape.dropLast.prod, n] (t : TE)

/-- `torch.vstack((x, y))` for two dimensional and larger tensors (ode.py:494, 499). -/
def vstack (x y : TE) : TE := TE.bind x fun a => TE.bind y fun b =>
  match a.shape.getLast?, b.shape.getLast? with
  | some n, some m => if a.shape.dropLast = b.shape.dropLast then
      ((⟨a.shape.dropLast ++ [n + m], fun i => if i.getLastD 0 < n then a.data i else b.data (i.dropLast ++ [i.getLastD 0 - n])⟩ : Tensor) : TE)
    else (Except.error "RuntimeError: Sizes of tensors must match except in dimension 0" : TE)
  | _, _ => (Except.error "RuntimeError: number of dimensions" : TE)

/-- `x.diff(dim=0)` (ode.py:500). -/
def diffFirst (x : TE) : TE := firstFrom x - firstInit x

/-- `x[o:e]` (ode.py:375-376, 399, 402, 404, 406). Python cuts the bounds off at the size. -/
def firstSlice (o e : ℕ) (x : TE) : TE := TE.bind x fun t =>
  match t.shape.getLast? with
  | none => (Except.error "IndexError: slice() cannot be applied to a 0-dim tensor" : TE)
  | some n => ((⟨t.shape.dropLast ++ [min e n - o], fun i => t.data (i.dropLast ++ [o + i.getLastD 0])⟩ : Tensor) : TE)

/-- `x.expand(n, -1, ...)` of a tensor with first dimension 1 (ode.py:496, 519). -/
def expandFirst (n : ℕ) (x : TE) : TE := TE.bind x fun t =>
  match t.shape.getLast? with
  | some 1 => ((⟨t.shape.dropLast ++ [n], fun i => t.data (i.dropLast ++ [0])⟩ : Tensor) : TE)
  | some k => if k = n then (t : TE) else (Except.error "RuntimeError: The expanded size of the tensor must match the existing size" : TE)
  | none => (Except.error "RuntimeError: the number of sizes provided" : TE)

/-- `torch.eye(m).expand(n, b, -1, -1)` (ode.py:89, 197). -/
def eyes (m b n : ℕ) : TE := ((⟨[m, m, b, n], fun i => if i.headD 0 = i.tail.headD 0 then 1 else 0⟩ : Tensor) : TE)

/-- `x[k] = y` (ode.py:372; chunktime.py:186-190): `y` is broadcast. -/
def setFirst (k : ℕ) (x y : TE) : TE := TE.bind x fun a => TE.bind y fun b =>
  match a.shape.getLast? with
  | none => (Except.error "IndexError: too many indices" : TE)
  | some n => if k < n then
      if bshape b.shape a.shape.dropLast = some a.shape.dropLast then
        ((⟨a.shape, fun i => if i.getLastD 0 = k then b.data (bidx b.shape i.dropLast) else a.data i⟩ : Tensor) : TE)
      else (Except.error "RuntimeError: shape mismatch" : TE)
    else (Except.error "IndexError: index is out of bounds" : TE)

/-- `x[o:e] = y` (ode.py:375): `y` is broadcast to the slice. -/
def setFirstSlice (o e : ℕ) (x y : TE) : TE := TE.bind x fun a => TE.bind y fun b =>
  match a.shape.getLast? with
  | none => (Except.error "IndexError: too many indices" : TE)
  | some n => if bshape b.shape (a.shape.dropLast ++ [min e n - o]) = some (a.shape.dropLast ++ [min e n - o]) then
      ((⟨a.shape, fun i => if o ≤ i.getLastD 0 ∧ i.getLastD 0 < e then b.data (bidx b.shape (i.dropLast ++ [i.getLastD 0 - o])) else a.data i⟩ : Tensor) : TE)
    else (Except.error "RuntimeError: shape mismatch" : TE)

/-- `torch.zeros_like(x)` (ode.py:399, 402, 494). -/
def zerosLike (x : TE) : TE := TE.bind x fun t => full t.shape 0

/-- `torch.bmm(x, y)` (chunktime.py:189). -/
def bmmT (x y : TE) : TE := TE.bind x fun a => TE.bind y fun b =>
  match a.shape, b.shape with
  | [k, r, n], [c, k', n'] => if k = k' ∧ n = n' then
      ((⟨[c, r, n], fun i => ∑ q : Fin k, a.data [q.val, i.tail.headD 0, i.tail.tail.headD 0] * b.data [i.headD 0, q.val, i.tail.tail.headD 0]⟩ : Tensor) : TE)
    else (Except.error "RuntimeError: Expected size for the first two dimensions of batch2 tensor" : TE)
  | _, _ => (Except.error "RuntimeError: batch1 and batch2 must be 3D tensors" : TE)

/-- The matrix at a batch entry of a tensor of shape `(nbatch, m, m)`. (chunktime.py:151, 523) -/
def squareAt (m : ℕ) (a : Tensor) (b : ℕ) : Matrix (Fin m) (Fin m) ℝ := fun r c => a.data [c.val, r.val, b]

open Classical in
/-- `torch.linalg.lu_solve(lu, pivots, y)` with the factors of `x`, shape `(nbatch, m, m)`, and `y` of shape `(nbatch, m, k)` (chunktime.py:151, 186-190): the exact solution. Singular blocks: see
`Model/Chunktime.lean`. -/
noncomputable def luSolveT (x y : TE) : TE := TE.bind x fun a => TE.bind y fun b =>
  match a.shape, b.shape with
  | [m, m', n], [c, k, n'] => if m = m' ∧ m = k ∧ n = n' then
      ((⟨[c, k, n], fun i => if h : i.tail.headD 0 < m then
        ∑ q : Fin m, (squareAt m a (i.tail.tail.headD 0))⁻¹ ⟨i.tail.headD 0, h⟩ q * b.data [i.headD 0, q.val, i.tail.tail.headD 0] else 0⟩ : Tensor) : TE)
    else (Except.error "RuntimeError: Incompatible shapes" : TE)
  | _, _ => (Except.error "RuntimeError: not modelled: other numbers of dimensions" : TE)

open Classical in
/-- `torch.linalg.solve_ex(x, y)[0]` with `x` of shape `(nbatch, m, m)` and `y` of shape `(nbatch, m)` (chunktime.py:523). -/
noncomputable def solveExT (x y : TE) : TE := TE.bind x fun a => TE.bind y fun b =>
  match a.shape, b.shape with
  | [m, m', n], [k, n'] => if m = m' ∧ m = k ∧ n = n' then
      ((⟨[k, n], fun i => if h : i.headD 0 < m then
        ∑ q : Fin m, (squareAt m a (i.tail.headD 0))⁻¹ ⟨i.headD 0, h⟩ q * b.data [q.val, i.tail.headD 0] else 0⟩ : Tensor) : TE)
    else (Except.error "RuntimeError: Incompatible shapes" : TE)
  | _, _ => (Except.error "RuntimeError: not modelled: other numbers of dimensions" : TE)

/-- `x[:, r0:r1, c0:c1] = y` for a three dimensional `x` (chunktime.py:637-641). -/
def setSquare (r0 r1 c0 c1 : ℕ) (x y : TE) : TE := TE.bind x fun a => TE.bind y fun b =>
  match a.shape with
  | [C, R, n] => if bshape b.shape [min c1 C - c0, min r1 R - r0, n] = some [min c1 C - c0, min r1 R - r0, n] then
      ((⟨[C, R, n], fun i => if (r0 ≤ i.tail.headD 0 ∧ i.tail.headD 0 < r1) ∧ (c0 ≤ i.headD 0 ∧ i.headD 0 < c1) then
        b.data (bidx b.shape [i.headD 0 - c0, i.tail.headD 0 - r0, i.tail.tail.headD 0]) else a.data i⟩ : Tensor) : TE)
    else (Except.error "RuntimeError: shape mismatch" : TE)
  | _ => (Except.error "IndexError: too many indices" : TE)

/-! ## chunktime.py -/

/-- `BidiagonalOperator` (chunktime.py:94-100): `A` of shape `(nblk, sbat, sblk, sblk)`, `B` with one block less. -/
structure TBidiag where
  A : Tensor
  B : Tensor

/-- `self.nblk`, `self.sbat`, `self.sblk` (chunktime.py:98-100); fewer dimensions do not occur. -/
def TBidiag.sizes (J : TBidiag) : ℕ × ℕ × ℕ :=
  match J.A.shape with
  | [_, r, b, n] => (n, b, r)
  | _ => (0, 0, 0)

/-- The loop of `thomas_solve` (chunktime.py:187-190). -/
noncomputable def tThomasLoop (A B : TE) : List ℕ → TE → TE
  | [], v => v
  | i :: is, v => tThomasLoop A B is (setFirst i v (luSolveT (first i A) (first i v - bmmT (first (i - 1) B) (first (i - 1) v))))

/-- `thomas_solve` (chunktime.py:174-192). -/
noncomputable def tThomas (nblk : ℕ) (A B v : TE) : TE :=
  tThomasLoop A B (List.range' 1 (nblk - 1)) (setFirst 0 v (luSolveT (first 0 A) (first 0 v)))

/-- Blocks of a tensor of shape `(nblk, sbat, sblk, sblk)` by their position. (chunktime.py:224-282) -/
def blocksAt (sbat sblk : ℕ) (x : Tensor) : Mem (Blk (Fin sbat) sblk ℝ) := fun k b r c => x.data [c.val, r.val, b.val, k]

/-- Blocks of a tensor of shape `(nblk, sbat, sblk, 1)` by their position. (chunktime.py:224-282) -/
def rhsAt (sbat sblk : ℕ) (x : Tensor) : Mem (BVec (Fin sbat) sblk ℝ) := fun k b r => x.data [0, r.val, b.val, k]

/-- `matvec` of the factorizations (chunktime.py:205-212, 224-243, 350-388). Parallel cyclic reduction works on strided views of the storage; for it the model of `Model/Chunktime.lean` is used, which
has addresses. -/
noncomputable def tMatvec (d : Direct) (J : TBidiag) (v : TE) : TE :=
  match d with
  | .thomas => tThomas J.sizes.1 (J.A : TE) (J.B : TE) v
  | d => TE.bind v fun w =>
    if w.shape = [1, J.sizes.2.2, J.sizes.2.1, J.sizes.1] then
      ((⟨w.shape, fun i =>
        if h : i.tail.headD 0 < J.sizes.2.2 ∧ i.tail.tail.headD 0 < J.sizes.2.1 then
          (d.matvec J.sizes.1 (fun k => if k < J.sizes.1 then blocksAt J.sizes.2.1 J.sizes.2.2 J.A k else 0)
            (fun k => if k < J.sizes.1 - 1 then blocksAt J.sizes.2.1 J.sizes.2.2 J.B k else 0)
            (fun k => if k < J.sizes.1 then rhsAt J.sizes.2.1 J.sizes.2.2 w k else 0)).ret (i.getLastD 0) ⟨i.tail.tail.headD 0, h.2⟩ ⟨i.tail.headD 0, h.1⟩
        else 0⟩ : Tensor) : TE)
    else (Except.error "RuntimeError: not modelled: other shapes" : TE)

/-- `LUFactorization.forward` (chunktime.py:153-171). -/
noncomputable def tForward (d : Direct) (J : TBidiag) (v : TE) : TE :=
  flattenFrom1 (swapFirst (squeezeLast (tMatvec d J (unsq (swapFirst (reshape [J.sizes.2.2, J.sizes.1, J.sizes.2.1] v))))))

/-- The inner loop of `to_dense` for the diagonal `-d` (chunktime.py:630-641). -/
def tDenseDiag (m d : ℕ) (data : TE) : List ℕ → TE → TE
  | [], A => A
  | k :: ks, A => tDenseDiag m d data ks (setSquare ((k + d) * m) ((k + d + 1) * m) (k * m) ((k + 1) * m) A (first k data))

/-- `to_diag().to_dense()` (chunktime.py:445-450, 573-582, 622-643): the constructor sorts the diagonals, `-1` comes first. -/
def tDense (J : TBidiag) : TE :=
  let n := J.sizes.1
  let N := n * J.sizes.2.2
  tDenseDiag J.sizes.2.2 0 (J.A : TE) (List.range n) (tDenseDiag J.sizes.2.2 1 (J.B : TE) (List.range (n - 1)) (full [N, N, J.sizes.2.1] 0))

/-- `ChunkTimeOperatorSolverContext.solve` (chunktime.py:501-534). -/
noncomputable def tSolve (meth : SolveMethod) (J : TBidiag) (R : TE) : TE :=
  match meth with
  | .dense => solveExT (tDense J) R
  | .direct d => tForward d J R

/-- using a residual and an operator (chunktime.py:44, 52) -/
def withRJ {α : Type} (x : Except String (Tensor × TBidiag)) (f : Tensor → TBidiag → Except String α) : Except String α :=
  match x with
  | .error e => .error e
  | .ok p => f p.1 p.2

open Classical in
/-- The loop of `newton_raphson_chunk` (chunktime.py:50-54); `fuel` is `miter - i`. Returns the iterate and the number of updates. `nR / nR0 > rtol` is written as in `Model/Newton.lean`. -/
noncomputable def tChunkLoop (fn : Tensor → Except String (Tensor × TBidiag)) (meth : SolveMethod) (rtol atol : ℝ) (nR0 : Tensor) :
    ℕ → Tensor → Tensor → TBidiag → Except String (Tensor × ℕ)
  | 0, x, _, _ => .ok (x, 0)
  | fuel + 1, x, R, J => TE.bind (normLast R) fun nR =>
    Mask.bind (cmp (· > ·) nR (num atol)) fun m1 => Mask.bind (cmp (fun a b => rtol * b < a) nR nR0) fun m2 =>
    if anyM m1 ∧ anyM m2 then TE.bind (inplace (· - ·) x (tSolve meth J R)) fun x' =>
      withRJ (fn x') fun R' J' =>
        match tChunkLoop fn meth rtol atol nR0 fuel x' R' J' with
        | .error e => .error e
        | .ok r => .ok (r.1, r.2 + 1)
    else .ok (x, 0)

/-- `newton_raphson_chunk` (chunktime.py:22-61): the result and whether a warning was issued. -/
noncomputable def tNewtonChunk (fn : Tensor → Except String (Tensor × TBidiag)) (meth : SolveMethod) (x0 : Tensor) (rtol atol : ℝ) (miter : ℤ) (throwOnFail : Bool) :
    Except String (Tensor × Bool) :=
  withRJ (fn x0) fun R J => TE.bind (normLast R) fun nR0 =>
    match tChunkLoop fn meth rtol atol nR0 miter.toNat x0 R J with
    | .error e => .error e
    | .ok r => if (r.2 : ℤ) = miter then (if throwOnFail then .error "Implicit solve did not succeed." else .ok (r.1, true)) else .ok (r.1, false)

/-! ## ode.py -/

/-- building the operator (ode.py:91-93, 199-203) -/
def operator (R A B : TE) : Except String (Tensor × TBidiag) := TE.bind R fun r => TE.bind A fun a => TE.bind B fun b => .ok (r, ⟨a, b⟩)

/-- `form_operators` of the two schemes (ode.py:51-93, 159-203). -/
def tFormOperators (s : Scheme) (dy yd yJ dt : Tensor) : Except String (Tensor × TBidiag) :=
  match dy.shape with
  | [m, b, n1] =>
    match s with
    | .backwardEuler => operator
        (flattenFrom1 (swapFirst (firstFrom (dy : TE) - firstInit (dy : TE) - firstFrom (yd : TE) * unsq (dt : TE))))
        (eyes m b (n1 - 1) - firstFrom (yJ : TE) * unsq (unsq (dt : TE)))
        (-firstFrom (eyes m b (n1 - 1)))
    | .forwardEuler => operator
        (flattenFrom1 (swapFirst (firstFrom (dy : TE) - firstInit (dy : TE) - firstInit (yd : TE) * unsq (dt : TE))))
        (eyes m b (n1 - 1))
        (-firstFrom (eyes m b (n1 - 1)) - firstFrom (firstInit (yJ : TE)) * unsq (unsq (firstFrom (dt : TE))))
  | _ => .error "IndexError: tuple index out of range"

/-- `RJ` of `block_update` (ode.py:490-505); `bs` and `ps` are `self.batch_size` and `self.prob_size`, `n` is `t.shape[0]`. -/
def tBlockRJ (s : Scheme) (func : Tensor → Tensor → Except String (Tensor × Tensor)) (bs ps n : ℕ) (t tStart yStart dy : Tensor) : Except String (Tensor × TBidiag) :=
  TE.bind (swapFirst (reshape [ps, n, bs] (dy : TE))) fun dy1 =>
  TE.bind (vstack (lead (zerosLike (yStart : TE))) (dy1 : TE)) fun dy2 =>
  TE.bind ((dy2 : TE) + expandFirst (n + 1) (lead (yStart : TE))) fun y =>
  TE.bind (vstack (lead (tStart : TE)) (t : TE)) fun times =>
  TE.bind (diffFirst (times : TE)) fun dt =>
  withPair (func times y) fun yd yJ => tFormOperators s dy2 yd yJ dt

/-- `block_update` (ode.py:477-519). -/
noncomputable def tBlockUpdate (c : Config) (func : Tensor → Tensor → Except String (Tensor × Tensor)) (bs ps : ℕ) (t tStart yStart guess : Tensor) : Except String (Tensor × Bool) :=
  match t.shape.getLast? with
  | none => .error "IndexError: tuple index out of range"
  | some n =>
    match tNewtonChunk (tBlockRJ c.scheme func bs ps n t tStart yStart) c.method guess c.rtol c.atol c.miter c.throwOnFail with
    | .error e => .error e
    | .ok r => TE.bind (swapFirst (reshape [ps, n, bs] (r.1 : TE)) + expandFirst n (lead (yStart : TE))) fun y => .ok (y, r.2)

/-- `_initial_guess` (ode.py:390-410). -/
def tGuess (guessType : String) (n : ℕ) (result : Tensor) (k : ℕ) : TE :=
  if guessType = "zero" then flattenFrom1 (swapFirst (zerosLike (firstSlice k (k + n) (result : TE))))
  else if guessType = "previous" then
    TE.bind (if (k : ℤ) - n - 1 < 0 then zerosLike (firstSlice k (k + n) (result : TE))
      else firstSlice (k - n) k (result : TE) - lead (first (k - n - 1) (result : TE))) fun g =>
    TE.bind (firstSlice k (k + n) (result : TE)) fun s =>
    flattenFrom1 (swapFirst (firstSlice (n - s.shape.getLastD 0) (g.shape.getLastD 0) (g : TE)))
  else (Except.error "Unknown initial guess strategy" : TE)

/-- The body of the loop of `integrate` (ode.py:375-381). -/
noncomputable def tIntegrateStep (c : Config) (func : Tensor → Tensor → Except String (Tensor × Tensor)) (bs ps n : ℕ) (t : Tensor) (st : Tensor × Bool) (k : ℕ) :
    Except String (Tensor × Bool) :=
  TE.bind (firstSlice k (k + n) (t : TE)) fun tb => TE.bind (first (k - 1) (t : TE)) fun ts => TE.bind (first (k - 1) (st.1 : TE)) fun ys =>
  TE.bind (tGuess c.guessType n st.1 k) fun g =>
  match tBlockUpdate c func bs ps tb ts ys g with
  | .error e => .error e
  | .ok r => TE.bind (setFirstSlice k (k + n) (st.1 : TE) (r.1 : TE)) fun x => .ok (x, st.2 || r.2)

/-- The loop of `integrate` (ode.py:374-381). -/
noncomputable def tIntegrateLoop (c : Config) (func : Tensor → Tensor → Except String (Tensor × Tensor)) (bs ps n : ℕ) (t : Tensor) :
    List ℕ → Tensor × Bool → Except String (Tensor × Bool)
  | [], st => .ok st
  | k :: ks, st =>
    match tIntegrateStep c func bs ps n t st k with
    | .error e => .error e
    | .ok st' => tIntegrateLoop c func bs ps n t ks st'

/-- `FixedGridBlockSolver.integrate` (ode.py:313-315, 354-388): the result and whether a warning was issued. `garbage` are the contents of `torch.empty`. -/
noncomputable def tIntegrate (c : Config) (func : Tensor → Tensor → Except String (Tensor × Tensor)) (garbage : List ℕ → ℝ) (y0 t : Tensor) (blockSize : ℤ) :
    Except String (Tensor × Bool) :=
  match y0.shape, t.shape.getLast? with
  | [ps, bs], some nt =>
    TE.bind (setFirst 0 ((⟨[ps, bs, nt], garbage⟩ : Tensor) : TE) (y0 : TE)) fun r =>
    match blockStarts nt blockSize with
    | .error e => .error e
    | .ok starts => tIntegrateLoop c func bs ps blockSize.toNat t starts (r, false)
  | _, _ => .error "IndexError: tuple index out of range"

/-! ## models.py -/

/-- `ModelIntegrator.solve_strain` up to the keyword arguments (models.py:334-369). -/
noncomputable def tSolveStrain (c : Config) (model : Tensor → Tensor → Tensor → Tensor → Except String TOut) (nstate : ℕ) (garbage : List ℕ → ℝ) (times strains temps : Tensor) (n : ℤ) :
    Except String (Tensor × Bool) :=
  match times.shape with
  | [b, _] => tIntegrate c (tStrainFunc model times strains temps) garbage ⟨[nstate, b], fun _ => 0⟩ times n
  | _ => .error "not modelled: other numbers of dimensions"

/-- `ModelIntegrator.solve_stress` up to the keyword arguments (models.py:371-412). -/
noncomputable def tSolveStress (c : Config) (model : Tensor → Tensor → Tensor → Tensor → Except String TOut) (nstate : ℕ) (garbage : List ℕ → ℝ) (times stresses temps : Tensor) (n : ℤ) :
    Except String (Tensor × Bool) :=
  match times.shape with
  | [b, _] => tIntegrate c (tStressFunc model times stresses temps) garbage ⟨[nstate, b], fun _ => 0⟩ times n
  | _ => .error "not modelled: other numbers of dimensions"

/-- `ModelIntegrator.solve_both` up to the keyword arguments (models.py:297-332). -/
noncomputable def tSolveBoth (c : Config) (model : Tensor → Tensor → Tensor → Tensor → Except String TOut) (nstate : ℕ) (garbage : List ℕ → ℝ) (times temps idata control : Tensor) (n : ℤ) :
    Except String (Tensor × Bool) :=
  match times.shape with
  | [b, _] => tIntegrate c (tBothFunc model times temps idata control) garbage ⟨[nstate, b], fun _ => 0⟩ times n
  | _ => .error "not modelled: other numbers of dimensions"

end Pyoptmat.Tensor
