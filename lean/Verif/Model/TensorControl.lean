import Verif.Model.TensorMaterial
import Verif.Model.Newton

/-!
# Interpolation and control modes as torch programs

`ArbitraryBatchTimeSeriesInterpolator`, `StrainBasedModel`, `StressBasedModel`, `BothBasedModel` and the way `ModelIntegrator` puts them together, with whole
tensors, as in `Model/TensorMaterial.lean`. Shapes are written last dimension first: times, strains, ... of shape `(ntime, nbatch)` are `[nbatch, ntime]`.
-/

namespace Pyoptmat.Tensor

/-! ## torch operations -/

/-- `x.t()` (utility.py:298-299, 315, 342): fails for more than two dimensions. -/
def transpose (x : TE) : TE := TE.bind x fun t =>
  match t.shape with
  | [] => (t : TE)
  | [_] => (t : TE)
  | [a, b] => ((⟨[b, a], fun i => t.data [i.tail.headD 0, i.headD 0]⟩ : Tensor) : TE)
  | _ => (Except.error "RuntimeError: t() expects a tensor with <= 2 dimensions" : TE)

/-- `m[..., 0] = torch.logical_or(m[..., 0], y)` (utility.py:335-337). -/
def orHead (m y : Except String Mask) : Except String Mask := Mask.bind m fun a =>
  match a.shape with
  | [] => .error "IndexError: too many indices"
  | 0 :: _ => .error "IndexError: index 0 is out of bounds"
  | (_ + 1) :: S => Mask.bind (logical Or (.ok ⟨S, fun i => a.data (0 :: i)⟩) y) fun r =>
    if bshape r.shape S = some S then
      .ok ⟨a.shape, fun i => (i.headD 0 = 0 ∧ r.data (bidx r.shape i.tail)) ∨ (i.headD 0 ≠ 0 ∧ a.data i)⟩
    else .error "RuntimeError: shape mismatch"

/-- `x.squeeze(-1)` (utility.py:340). -/
def squeezeLast (x : TE) : TE := TE.bind x fun t =>
  match t.shape with
  | 1 :: S => ((⟨S, fun i => t.data (0 :: i)⟩ : Tensor) : TE)
  | _ => (t : TE)

/-- `torch.cat((torch.zeros(1, x.shape[1]), y))` for a two dimensional `x` (models.py:307-312, 347-352, 384-389). -/
def catZeroFirst (x y : TE) : TE := TE.bind x fun a => TE.bind y fun b =>
  match a.shape, b.shape with
  | c :: _ :: _, [c', n] => if c = c' then
      ((⟨[c, 1 + n], fun i => if i.tail.headD 0 = 0 then 0 else b.data [i.headD 0, i.tail.headD 0 - 1]⟩ : Tensor) : TE)
    else (Except.error "RuntimeError: Sizes of tensors must match except in dimension 0" : TE)
  | _, _ => (Except.error "IndexError or RuntimeError: number of dimensions" : TE)

/-- `torch.diagonal(x, dim1=-2, dim2=-1)` (solvers.py:149). -/
def diagonal (x : TE) : TE := TE.bind x fun t =>
  match t.shape with
  | c :: r :: S => ((⟨min c r :: S, fun i => t.data (i.headD 0 :: i)⟩ : Tensor) : TE)
  | _ => (Except.error "IndexError: Dimension out of range" : TE)

/-- `torch.norm(x, dim=-1)` (solvers.py:112, 119). -/
noncomputable def normLast (x : TE) : TE := map Real.sqrt (sumLast (map (fun a => a ^ 2) x))

/-- `torch.any(m)` (solvers.py:116). -/
def anyM (m : Mask) : Prop := ∃ p < m.shape.prod, m.data (unflat m.shape p)

/-- `x[..., 0] = y` (models.py:540, 550, 558): `y` is broadcast. -/
def setHead (x y : TE) : TE := TE.bind x fun a => TE.bind y fun b =>
  match a.shape with
  | [] => (Except.error "IndexError: too many indices" : TE)
  | 0 :: _ => (Except.error "IndexError: index 0 is out of bounds" : TE)
  | (n + 1) :: S => if bshape b.shape S = some S then
      ((⟨(n + 1) :: S, fun i => if i.headD 0 = 0 then b.data (bidx b.shape i.tail) else a.data i⟩ : Tensor) : TE)
    else (Except.error "RuntimeError: shape mismatch" : TE)

/-- `x[..., 0, :] = y` (models.py:554). -/
def setFirstRow (x y : TE) : TE := TE.bind x fun a => TE.bind y fun b =>
  match a.shape with
  | c :: (r + 1) :: S => if bshape b.shape (c :: S) = some (c :: S) then
      ((⟨c :: (r + 1) :: S, fun i => if i.tail.headD 0 = 0 then b.data (bidx b.shape (i.headD 0 :: i.tail.tail)) else a.data i⟩ : Tensor) : TE)
    else (Except.error "RuntimeError: shape mismatch" : TE)
  | _ => (Except.error "IndexError: too many indices, or index 0 is out of bounds" : TE)

/-- `x[..., 0, :]` (models.py:554). -/
def firstRow (x : TE) : TE := TE.bind x fun a =>
  match a.shape with
  | c :: (_ + 1) :: S => ((⟨c :: S, fun i => a.data (i.headD 0 :: 0 :: i.tail)⟩ : Tensor) : TE)
  | _ => (Except.error "IndexError: too many indices, or index 0 is out of bounds" : TE)

/-- `x[..., :, 0] = 0` (models.py:555). -/
def zeroFirstColumn (x : TE) : TE := TE.bind x fun a =>
  match a.shape with
  | (c + 1) :: r :: S => ((⟨(c + 1) :: r :: S, fun i => if i.headD 0 = 0 then 0 else a.data i⟩ : Tensor) : TE)
  | _ => (Except.error "IndexError: too many indices, or index 0 is out of bounds" : TE)

open Classical in
/-- `x[..., m, :] = z[..., m, :]` (`k = 1`) and `x[..., m, :, :] = z[..., m, :, :]` (`k = 2`) for a vector `m` of booleans (models.py:468-473): `m` has to have the size of that
dimension; then the number of values is right if `x` and `z` have the same shape. (Different shapes are taken to fail.) -/
noncomputable def copyWhere (k : ℕ) (m : Mask) (x z : TE) : TE := TE.bind x fun a => TE.bind z fun c =>
  match m.shape, a.shape[k]? with
  | [n], some n' => if n = n' ∧ a.shape = c.shape then ((⟨a.shape, fun i => if m.data [i.getD k 0] then c.data i else a.data i⟩ : Tensor) : TE)
    else (Except.error "IndexError or RuntimeError: shape mismatch" : TE)
  | _, _ => (Except.error "IndexError: too many indices" : TE)

/-! ## utility.py -/

/-- The attributes of an `ArbitraryBatchTimeSeriesInterpolator` (utility.py:295-301). -/
structure TInterp where
  times : Tensor
  values : Tensor
  slopes : Tensor

/-- The constructor (utility.py:295-301). -/
noncomputable def tInterp (times data : Tensor) : Except String TInterp :=
  TE.bind (transpose times) fun tt => TE.bind (transpose data) fun v =>
  TE.bind ((sliceFrom 1 v - sliceInit v) / (sliceFrom 1 tt - sliceInit tt)) fun s => .ok ⟨tt, v, s⟩

/-- `forward` (utility.py:303-342). -/
noncomputable def TInterp.forward (f : TInterp) (t : Tensor) : TE :=
  TE.bind (transpose t) fun t0 => TE.bind (if t.shape.length = 1 then unsq t0 else (t0 : TE)) fun tt =>
  let locs := orHead (logical And (cmp (· ≤ ·) (unsq tt) (unsqRow (sliceFrom 1 f.times))) (cmp (· > ·) (unsq tt) (unsqRow (sliceInit f.times))))
    (cmp (· = ·) tt (unsq (sel 0 f.times)))
  TE.bind (unsq tt - unsqRow (sliceInit f.times)) fun offsets =>
  let poss := unsqRow f.slopes * (offsets : TE) + unsqRow (sliceInit f.values)
  if t.shape.length = 1 then transpose (squeezeLast (maskSelect poss locs)) else transpose (reshape tt.shape (maskSelect poss locs))

/-! ## solvers.py -/

/-- `jacobi_iteration_linear_solve` (solvers.py:140-149). -/
noncomputable def tJacobi (A b : Tensor) : TE := (b : TE) / diagonal A

open Classical in
/-- The loop of `newton_raphson` (solvers.py:116-120); `fuel` is `miter - i`. -/
noncomputable def tNewtonLoop (fn : Tensor → Except String (Tensor × Tensor)) (rtol atol : ℝ) (nR0 : Tensor) : ℕ → Tensor → Tensor → Tensor → Except String (Tensor × Tensor)
  | 0, x, _, J => .ok (x, J)
  | fuel + 1, x, R, J => TE.bind (normLast R) fun nR =>
    Mask.bind (cmp (· > ·) nR (num atol)) fun m1 => Mask.bind (cmp (fun a b => rtol * b < a) nR nR0) fun m2 =>
    if anyM m1 ∧ anyM m2 then TE.bind (inplace (· - ·) x (tJacobi J R)) fun x' =>
      withPair (fn x') fun R' J' => tNewtonLoop fn rtol atol nR0 fuel x' R' J'
    else .ok (x, J)

/-- `newton_raphson` with one unknown (solvers.py:78-125), without the warning. `nR / nR0 > rtol` is written as in `Model/Newton.lean`. -/
noncomputable def tNewton (fn : Tensor → Except String (Tensor × Tensor)) (x0 : Tensor) (rtol atol : ℝ) (miter : ℕ) : Except String (Tensor × Tensor) :=
  withPair (fn x0) fun R J => TE.bind (normLast R) fun nR0 => tNewtonLoop fn rtol atol nR0 miter x0 R J

/-! ## models.py -/

/-- using the outputs of a model (models.py:502, 541) -/
def withOut {α : Type} (x : Except String TOut) (f : TOut → Except String α) : Except String α :=
  match x with
  | .error e => .error e
  | .ok o => f o

/-- `StrainBasedModel.forward` (models.py:494-504). -/
def tStrainBased (model : Tensor → Tensor → Tensor → Tensor → Except String TOut) (erateFn TFn : Tensor → TE) (t y : Tensor) : Except String (Tensor × Tensor) :=
  TE.bind (erateFn t) fun er => TE.bind (TFn t) fun T => withOut (model t y er T) fun o => .ok (o.ydot, o.J)

/-- `RJ` (models.py:538-546) -/
def tStressRJ (model : Tensor → Tensor → Tensor → Tensor → Except String TOut) (csr cs cT t y : Tensor) (erate : Tensor) : Except String (Tensor × Tensor) :=
  TE.bind (setHead y cs) fun yp => TE.bind (sel 0 erate) fun er => withOut (model t yp er cT) fun o =>
    pair (unsq (sel 0 o.ydot - (csr : TE))) (unsq (unsq (sel 0 o.Je)))

/-- `StressBasedModel.forward` (models.py:524-560). -/
noncomputable def tStressBased (model : Tensor → Tensor → Tensor → Tensor → Except String TOut) (srateFn stressFn TFn : Tensor → TE) (t y : Tensor) : Except String (Tensor × Tensor) :=
  TE.bind (srateFn t) fun csr => TE.bind (stressFn t) fun cs => TE.bind (TFn t) fun cT =>
  TE.bind (TE.bind (sel 0 y) fun y0 => unsq (full y0.shape 0)) fun guess =>
  withPair (tNewton (tStressRJ model csr cs cT t y) guess 1e-6 1e-10 100) fun erate _ =>
  TE.bind (setHead y cs) fun yp => TE.bind (sel 0 erate) fun er => withOut (model t yp er cT) fun o =>
    pair (setHead o.ydot er) (zeroFirstColumn (setFirstRow o.J (-firstRow o.J / unsq (sel 0 o.Je))))

/-- `control == c` (models.py:465-466) -/
def controlIs (control : Tensor) (c : ℝ) : Mask := ⟨control.shape, fun i => control.data i = c⟩

/-- `BothBasedModel.forward` (models.py:451-475). -/
noncomputable def tBothBased (model : Tensor → Tensor → Tensor → Tensor → Except String TOut) (rateFn baseFn TFn : Tensor → TE) (control : Tensor) (t y : Tensor) :
    Except String (Tensor × Tensor) :=
  withPair (tStrainBased model rateFn TFn t y) fun er ej => withPair (tStressBased model rateFn baseFn TFn t y) fun sr sj =>
    pair (copyWhere 1 (controlIs control 1) (copyWhere 1 (controlIs control 0) (full er.shape 0) er) sr)
      (copyWhere 2 (controlIs control 1) (copyWhere 2 (controlIs control 0) (full ej.shape 0) ej) sj)

/-- The rates formed by `ModelIntegrator` (models.py:307-314, 347-354, 384-391). A quotient `0 / 0` becomes zero, as it is in Lean; `x / 0` stays infinite in torch, so that case needs
distinct times. -/
noncomputable def tRates (times data : Tensor) : TE :=
  catZeroFirst data ((firstFrom data - firstInit data) / (firstFrom times - firstInit times))

/-- an interpolator of recorded data (models.py:317-320, 359-361, 396-401) -/
noncomputable def tDataFn (times data t : Tensor) : TE := (tInterp times data).bind fun f => f.forward t

/-- the interpolator of the rates (models.py:316, 356-358, 393-395) -/
noncomputable def tRateFn (times data t : Tensor) : TE := TE.bind (tRates times data) fun r => tDataFn times r t

/-- The right hand side integrated by `solve_strain` (models.py:334-369). The interpolators are built once in the code, here in every call. -/
noncomputable def tStrainFunc (model : Tensor → Tensor → Tensor → Tensor → Except String TOut) (times strains temps : Tensor) : Tensor → Tensor → Except String (Tensor × Tensor) :=
  tStrainBased model (tRateFn times strains) (tDataFn times temps)

/-- The right hand side integrated by `solve_stress` (models.py:371-412). -/
noncomputable def tStressFunc (model : Tensor → Tensor → Tensor → Tensor → Except String TOut) (times stresses temps : Tensor) : Tensor → Tensor → Except String (Tensor × Tensor) :=
  tStressBased model (tRateFn times stresses) (tDataFn times stresses) (tDataFn times temps)

/-- The right hand side integrated by `solve_both` (models.py:297-332). -/
noncomputable def tBothFunc (model : Tensor → Tensor → Tensor → Tensor → Except String TOut) (times temps idata control : Tensor) : Tensor → Tensor → Except String (Tensor × Tensor) :=
  tBothBased model (tRateFn times idata) (tDataFn times idata) (tDataFn times temps) control

end Pyoptmat.Tensor
