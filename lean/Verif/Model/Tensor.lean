import Mathlib.Data.Real.Basic
import Mathlib.Analysis.SpecialFunctions.Pow.Real
import Mathlib.Algebra.BigOperators.Group.List.Basic
import Mathlib.Algebra.BigOperators.Fin

/-!
# Tensors with shapes, and the torch operations the material models use

The other files model the material laws one batch entry at a time. Here are tensors as torch has them: a shape and entries, with
torch's broadcasting rules, so that the shape handling of `temperature.py`, `hardening.py`, `flowrules.py`, `damage.py` and
`models.py` can be modelled as written (`Model/TensorMaterial.lean`).

Shapes and indices are lists with the **last** dimension first: torch's shape `(ntime, nbatch, n)` is `[n, nbatch, ntime]`. Then
`x[..., None]` puts a `1` in front of the list and broadcasting aligns the lists at their heads. Entries are exact reals; the values of
`data` at lists that are not indices of the shape are meaningless. Devices and number types are not modelled.
-/

namespace Pyoptmat.Tensor

/-- A tensor: its shape (last dimension first) and its entries. (the tensors of hardening.py, flowrules.py, damage.py, models.py:75-137) -/
structure Tensor where
  shape : List ℕ
  data : List ℕ → ℝ

/-- The value of a torch expression: a tensor or an exception. (a failing expression, e.g. temperature.py:159) -/
abbrev TE := Except String Tensor

/-- a computed tensor as an expression (hardening.py:132) -/
instance : Coe Tensor TE := ⟨Except.ok⟩

/-- sequencing: the exception of the first expression wins (hardening.py:132) -/
def TE.bind {α : Type} (x : TE) (f : Tensor → Except String α) : Except String α := Except.bind x f

/-- The shape of the result of broadcasting; `none` is a `RuntimeError`. (every `*`, `+`, ..., e.g. hardening.py:132) -/
def bshape : List ℕ → List ℕ → Option (List ℕ)
  | [], ys => some ys
  | x :: xs, [] => some (x :: xs)
  | x :: xs, y :: ys =>
    match bshape xs ys with
    | none => none
    | some r => if x = y then some (x :: r) else if x = 1 then some (y :: r) else if y = 1 then some (x :: r) else none

/-- The index of the entry of an operand of the given shape that a broadcast result has at an index: dimensions of size one
are repeated, missing leading dimensions are dropped. (hardening.py:132) -/
def bidx : List ℕ → List ℕ → List ℕ
  | [], _ => []
  | _ :: _, [] => []
  | s :: ss, i :: is => (if s = 1 then 0 else i) :: bidx ss is

/-- A Python number in an expression. (`1.0` in hardening.py:261) -/
def num (c : ℝ) : TE := ((⟨[], fun _ => c⟩ : Tensor) : TE)

/-- An elementwise function (`torch.abs`, `torch.exp`, ..., hardening.py:132). -/
def map (f : ℝ → ℝ) (x : TE) : TE := TE.bind x fun t => ((⟨t.shape, fun i => f (t.data i)⟩ : Tensor) : TE)

/-- An elementwise operation of two tensors, with broadcasting (hardening.py:132). -/
def map2 (f : ℝ → ℝ → ℝ) (x y : TE) : TE := TE.bind x fun a => TE.bind y fun b =>
  match bshape a.shape b.shape with
  | none => (Except.error "RuntimeError: sizes of the tensors must match" : TE)
  | some S => ((⟨S, fun i => f (a.data (bidx a.shape i)) (b.data (bidx b.shape i))⟩ : Tensor) : TE)

/-- `x + y` (models.py:99) -/
instance : Add TE := ⟨map2 (· + ·)⟩
/-- `x - y` (hardening.py:132) -/
instance : Sub TE := ⟨map2 (· - ·)⟩
/-- `x * y` (hardening.py:132) -/
instance : Mul TE := ⟨map2 (· * ·)⟩
/-- `x / y` (hardening.py:261) -/
noncomputable instance : Div TE := ⟨map2 (· / ·)⟩
/-- `-x` (hardening.py:166) -/
instance : Neg TE := ⟨map fun a => -a⟩

/-- `x ** y` (flowrules.py:1097); see `Model/Hardening.lean` for `0` to a negative power. -/
noncomputable def pow (x y : TE) : TE := map2 (fun a b => a ^ b) x y

/-- `x[..., None]`, `x.unsqueeze(-1)` (hardening.py:132, 166). -/
def unsq (x : TE) : TE := TE.bind x fun t => ((⟨1 :: t.shape, fun i => t.data i.tail⟩ : Tensor) : TE)

/-- `x[..., None, :]`, `x.unsqueeze(-2)` (flowrules.py:1303, 1365). A tensor without dimensions has no last one. -/
def unsqRow (x : TE) : TE := TE.bind x fun t =>
  match t.shape with
  | [] => (Except.error "IndexError: too many indices" : TE)
  | n :: S => ((⟨n :: 1 :: S, fun i => t.data (i.headD 0 :: i.tail.tail)⟩ : Tensor) : TE)

/-- `x[None, ...]` (hardening.py:918). -/
def lead (x : TE) : TE := TE.bind x fun t => ((⟨t.shape ++ [1], fun i => t.data (i.take t.shape.length)⟩ : Tensor) : TE)

/-- `x[..., k]` for `k ≥ 0` (hardening.py:95, models.py:91). -/
def sel (k : ℕ) (x : TE) : TE := TE.bind x fun t =>
  match t.shape with
  | [] => (Except.error "IndexError: too many indices" : TE)
  | n :: S => if k < n then ((⟨S, fun i => t.data (k :: i)⟩ : Tensor) : TE)
    else (Except.error "IndexError: index is out of bounds" : TE)

/-- `x[..., -1]` (models.py:187). -/
def selLast (x : TE) : TE := TE.bind x fun t =>
  match t.shape with
  | [] => (Except.error "IndexError: too many indices" : TE)
  | n :: S => if 0 < n then ((⟨S, fun i => t.data ((n - 1) :: i)⟩ : Tensor) : TE)
    else (Except.error "IndexError: index is out of bounds" : TE)

/-- `x[..., o : e]` (flowrules.py:936, 1182; models.py:186). Python cuts the bounds off at the size. -/
def slice (o e : ℕ) (x : TE) : TE := TE.bind x fun t =>
  match t.shape with
  | [] => (Except.error "IndexError: too many indices" : TE)
  | n :: S => ((⟨(min e n - o) :: S, fun i => t.data ((o + i.headD 0) :: i.tail)⟩ : Tensor) : TE)

/-- `x[..., o :]` (flowrules.py:1183; models.py:92). -/
def sliceFrom (o : ℕ) (x : TE) : TE := TE.bind x fun t =>
  match t.shape with
  | [] => (Except.error "IndexError: too many indices" : TE)
  | n :: S => ((⟨(n - o) :: S, fun i => t.data ((o + i.headD 0) :: i.tail)⟩ : Tensor) : TE)

/-- `torch.cat([x, y], dim=-1)` (flowrules.py:1283; models.py:98). Longer lists are nested: the sizes are checked in the same way. (A one dimensional
empty tensor, which torch would skip, does not occur.) -/
def cat (x y : TE) : TE := TE.bind x fun a => TE.bind y fun b =>
  match a.shape, b.shape with
  | n :: S, m :: S' => if S = S' then
      ((⟨(n + m) :: S, fun i => if i.headD 0 < n then a.data i else b.data ((i.headD 0 - n) :: i.tail)⟩ : Tensor) : TE)
    else (Except.error "RuntimeError: Sizes of tensors must match except in dimension" : TE)
  | _, _ => (Except.error "RuntimeError: zero-dimensional tensor cannot be concatenated" : TE)

/-- `torch.cat([x, y], dim=-2)` (flowrules.py:1292, 1337; models.py:119). -/
def catRow (x y : TE) : TE := TE.bind x fun a => TE.bind y fun b =>
  match a.shape, b.shape with
  | c :: n :: S, c' :: m :: S' => if c = c' ∧ S = S' then
      ((⟨c :: (n + m) :: S, fun i => if i.tail.headD 0 < n then a.data i
        else b.data (i.headD 0 :: (i.tail.headD 0 - n) :: i.tail.tail)⟩ : Tensor) : TE)
    else (Except.error "RuntimeError: Sizes of tensors must match except in dimension" : TE)
  | _, _ => (Except.error "IndexError: Dimension out of range" : TE)

/-- `torch.sum(x, -1)` (hardening.py:880). -/
def sumLast (x : TE) : TE := TE.bind x fun t =>
  match t.shape with
  | [] => (Except.error "IndexError: Dimension out of range" : TE)
  | n :: S => ((⟨S, fun i => ∑ j : Fin n, t.data (j.val :: i)⟩ : Tensor) : TE)

/-- `utility.mbmm`, i.e. `torch.einsum("...ik,...kj->...ij", x, y)` (utility.py:60-64): the leading dimensions are broadcast; so is the
summed one if one of its two sizes is 1. -/
def mbmm (x y : TE) : TE := TE.bind x fun a => TE.bind y fun b =>
  match a.shape, b.shape with
  | k :: r :: S, c :: k' :: S' =>
    if k = k' ∨ k = 1 ∨ k' = 1 then
      match bshape S S' with
      | none => (Except.error "RuntimeError: operands do not broadcast" : TE)
      | some R => ((⟨c :: r :: R, fun i => ∑ q : Fin (if k = 1 then k' else k),
          a.data ((if k = 1 then 0 else q.val) :: i.tail.headD 0 :: bidx S i.tail.tail) *
            b.data (i.headD 0 :: (if k' = 1 then 0 else q.val) :: bidx S' i.tail.tail)⟩ : Tensor) : TE)
    else (Except.error "RuntimeError: operands do not broadcast" : TE)
  | _, _ => (Except.error "RuntimeError: einsum(): the number of subscripts does not match" : TE)

/-- `torch.diag_embed(x)` (hardening.py:954). -/
def diagEmbed (x : TE) : TE := TE.bind x fun t =>
  match t.shape with
  | [] => (Except.error "IndexError: Dimension out of range" : TE)
  | n :: S => ((⟨n :: n :: S, fun i => if i.headD 0 = i.tail.headD 0 then t.data i.tail else 0⟩ : Tensor) : TE)

/-- The position of an entry in row major order. (hardening.py:920) -/
def flat : List ℕ → List ℕ → ℕ
  | s :: ss, i :: is => i + s * flat ss is
  | _, _ => 0

/-- The index of the entry at a position in row major order. (hardening.py:920) -/
def unflat : List ℕ → ℕ → List ℕ
  | [], _ => []
  | s :: ss, p => p % s :: unflat ss (p / s)

/-- `x.reshape(S)` (hardening.py:920, temperature.py:558): the same entries in row major order. -/
def reshape (S : List ℕ) (x : TE) : TE := TE.bind x fun t =>
  if S.prod = t.shape.prod then ((⟨S, fun i => t.data (unflat t.shape (flat S i))⟩ : Tensor) : TE)
  else (Except.error "RuntimeError: shape is invalid for input" : TE)

/-- `torch.zeros(S)`, `torch.ones(S)`, also with the shape of another tensor (hardening.py:51, 108, 149). -/
def full (S : List ℕ) (c : ℝ) : TE := ((⟨S, fun _ => c⟩ : Tensor) : TE)

/-- `x += y` and the like (flowrules.py:937, temperature.py:498): the result has to have the shape of `x`. -/
def inplace (f : ℝ → ℝ → ℝ) (x y : TE) : TE := TE.bind x fun a => TE.bind y fun b =>
  if bshape a.shape b.shape = some a.shape then map2 f a b
  else (Except.error "RuntimeError: output shape does not match the broadcast shape" : TE)

/-- `x[..., o : o + n] = y` (flowrules.py:1009, hardening.py:1187): `y` is broadcast to the slice. -/
def setSlice (o n : ℕ) (x y : TE) : TE := TE.bind x fun a => TE.bind y fun b =>
  match a.shape with
  | [] => (Except.error "IndexError: too many indices" : TE)
  | N :: S => if bshape b.shape ((min (o + n) N - o) :: S) = some ((min (o + n) N - o) :: S) then
      ((⟨N :: S, fun i => if o ≤ i.headD 0 ∧ i.headD 0 < o + n then b.data (bidx b.shape ((i.headD 0 - o) :: i.tail)) else a.data i⟩ : Tensor) : TE)
    else (Except.error "RuntimeError: shape mismatch" : TE)

/-- `x[..., o : o + n, o : o + n] = y` (flowrules.py:1010, hardening.py:1259). -/
def setBlock (o n : ℕ) (x y : TE) : TE := TE.bind x fun a => TE.bind y fun b =>
  match a.shape with
  | C :: R :: S => if bshape b.shape ((min (o + n) C - o) :: (min (o + n) R - o) :: S) = some ((min (o + n) C - o) :: (min (o + n) R - o) :: S) then
      ((⟨C :: R :: S, fun i => if (o ≤ i.headD 0 ∧ i.headD 0 < o + n) ∧ (o ≤ i.tail.headD 0 ∧ i.tail.headD 0 < o + n) then
        b.data (bidx b.shape ((i.headD 0 - o) :: (i.tail.headD 0 - o) :: i.tail.tail)) else a.data i⟩ : Tensor) : TE)
    else (Except.error "RuntimeError: shape mismatch" : TE)
  | _ => (Except.error "IndexError: too many indices" : TE)

/-- `x[..., o : o + n, 0:1] = y` for a tensor with one column (hardening.py:1283). -/
def setRows (o n : ℕ) (x y : TE) : TE := TE.bind x fun a => TE.bind y fun b =>
  match a.shape with
  | C :: R :: S => if bshape b.shape (min 1 C :: (min (o + n) R - o) :: S) = some (min 1 C :: (min (o + n) R - o) :: S) then
      ((⟨C :: R :: S, fun i => if i.headD 0 < 1 ∧ (o ≤ i.tail.headD 0 ∧ i.tail.headD 0 < o + n) then
        b.data (bidx b.shape (i.headD 0 :: (i.tail.headD 0 - o) :: i.tail.tail)) else a.data i⟩ : Tensor) : TE)
    else (Except.error "RuntimeError: shape mismatch" : TE)
  | _ => (Except.error "IndexError: too many indices" : TE)

/-- `y = clone(x); y[m] = z[m]` for a mask `m = (u > v)` (flowrules.py:226-228). The shape of the mask has to be that of the leading dimensions
of `x` and `z`. `x` and `z` are taken to have the same shape (they do in all uses). -/
noncomputable def maskedCopy (x z : TE) (u v : TE) : TE := TE.bind x fun a => TE.bind z fun c => TE.bind u fun p => TE.bind v fun q =>
  match bshape p.shape q.shape with
  | none => (Except.error "RuntimeError: sizes of the tensors must match" : TE)
  | some M => if a.shape = c.shape ∧ a.shape.drop (a.shape.length - M.length) = M ∧ M.length ≤ a.shape.length then
      ((⟨a.shape, fun i =>
        let j := i.drop (a.shape.length - M.length)
        if p.data (bidx p.shape j) > q.data (bidx q.shape j) then c.data i else a.data i⟩ : Tensor) : TE)
    else (Except.error "IndexError: The shape of the mask does not match" : TE)

/-- `x[..., :-1]` (temperature.py:552-556). -/
def sliceInit (x : TE) : TE := TE.bind x fun t =>
  match t.shape with
  | [] => (Except.error "IndexError: too many indices" : TE)
  | n :: S => ((⟨(n - 1) :: S, t.data⟩ : Tensor) : TE)

/-- `x[j]` for `j ≥ 0`: the first dimension is the last of the list. (temperature.py:494, 498, 569) -/
def first (j : ℕ) (x : TE) : TE := TE.bind x fun t =>
  match t.shape.getLast? with
  | none => (Except.error "IndexError: invalid index of a 0-dim tensor" : TE)
  | some n => if j < n then ((⟨t.shape.dropLast, fun i => t.data (i ++ [j])⟩ : Tensor) : TE)
    else (Except.error "IndexError: index is out of bounds" : TE)

/-- `x[1:]` (temperature.py:563). -/
def firstFrom (x : TE) : TE := TE.bind x fun t =>
  match t.shape.getLast? with
  | none => (Except.error "IndexError: slice() cannot be applied to a 0-dim tensor" : TE)
  | some n => ((⟨t.shape.dropLast ++ [n - 1], fun i => t.data (i.dropLast ++ [i.getLastD 0 + 1])⟩ : Tensor) : TE)

/-- `x[:-1]` (temperature.py:564). -/
def firstInit (x : TE) : TE := TE.bind x fun t =>
  match t.shape.getLast? with
  | none => (Except.error "IndexError: slice() cannot be applied to a 0-dim tensor" : TE)
  | some n => ((⟨t.shape.dropLast ++ [n - 1], t.data⟩ : Tensor) : TE)

/-! ## Masks -/

/-- A tensor of booleans. (temperature.py:562) -/
structure Mask where
  shape : List ℕ
  data : List ℕ → Prop

/-- sequencing (temperature.py:562) -/
def Mask.bind {α : Type} (x : Except String Mask) (f : Mask → Except String α) : Except String α := Except.bind x f

/-- `x <= y`, `x > y`, `x == y` (temperature.py:563-569; utility.py:330). -/
def cmp (r : ℝ → ℝ → Prop) (x y : TE) : Except String Mask := TE.bind x fun a => TE.bind y fun b =>
  match bshape a.shape b.shape with
  | none => .error "RuntimeError: sizes of the tensors must match"
  | some S => .ok ⟨S, fun i => r (a.data (bidx a.shape i)) (b.data (bidx b.shape i))⟩

/-- `torch.logical_and`, `torch.logical_or` (temperature.py:562, 568). -/
def logical (o : Prop → Prop → Prop) (x y : Except String Mask) : Except String Mask := Mask.bind x fun a => Mask.bind y fun b =>
  match bshape a.shape b.shape with
  | none => .error "RuntimeError: sizes of the tensors must match"
  | some S => .ok ⟨S, fun i => o (a.data (bidx a.shape i)) (b.data (bidx b.shape i))⟩

/-- `m[0] = torch.logical_or(m[0], y)` (temperature.py:568-570). -/
def orFirst (m y : Except String Mask) : Except String Mask := Mask.bind m fun a =>
  match a.shape.getLast? with
  | none => .error "IndexError: invalid index of a 0-dim tensor"
  | some 0 => .error "IndexError: index 0 is out of bounds"
  | some (_ + 1) => Mask.bind (logical Or (.ok ⟨a.shape.dropLast, fun i => a.data (i ++ [0])⟩) y) fun r =>
    if bshape r.shape a.shape.dropLast = some a.shape.dropLast then
      .ok ⟨a.shape, fun i => (i.getLastD 0 = 0 ∧ r.data (bidx r.shape i.dropLast)) ∨ (i.getLastD 0 ≠ 0 ∧ a.data i)⟩
    else .error "RuntimeError: shape mismatch"

/-- `m.movedim(0, -1)` (temperature.py:572). -/
def movedim (m : Except String Mask) : Except String Mask := Mask.bind m fun a =>
  match a.shape.getLast? with
  | none => .error "IndexError: Dimension specified as 0 but tensor has no dimensions"
  | some n => .ok ⟨n :: a.shape.dropLast, fun i => a.data (i.tail ++ [i.headD 0])⟩

open Classical in
/-- `x[m]` for a mask of the shape of `x` (temperature.py:572; utility.py:342): the selected entries in row major order. (A mask with fewer dimensions does
not occur.) -/
noncomputable def maskSelect (x : TE) (m : Except String Mask) : TE := TE.bind x fun t => Mask.bind m fun a =>
  if a.shape = t.shape then
    let l := ((List.range t.shape.prod).filter fun p => decide (a.data (unflat t.shape p))).map fun p => t.data (unflat t.shape p)
    ((⟨[l.length], fun i => l.getD (i.headD 0) 0⟩ : Tensor) : TE)
  else (Except.error "IndexError: The shape of the mask does not match" : TE)

end Pyoptmat.Tensor
