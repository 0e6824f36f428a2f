import Mathlib.Data.Real.Basic
import Mathlib.Data.List.OfFn

/-!
# Model of the time series interpolators of `pyoptmat/utility.py`

A grid of `n + 1` times is a function on `0 … n` (values beyond `n` are never looked at). Batched arrays are `times j b`, values
`vals j b`: index, then batch entry. Exact arithmetic.
-/

namespace Pyoptmat.Interp

/-- `torch.diff(values) / torch.diff(times)` (utility.py:301, 367, 412). -/
noncomputable def slope (times vals : ℕ → ℝ) (j : ℕ) : ℝ := (vals (j + 1) - vals j) / (times (j + 1) - times j)

/-- `poss` (utility.py:325-327): the line through the interval number `j`, at `t`. -/
noncomputable def poss (times vals : ℕ → ℝ) (t : ℝ) (j : ℕ) : ℝ := slope times vals j * (t - times j) + vals j

/-- `locs` (utility.py:329-337): is the interval number `j` selected for `t`? -/
def loc (times : ℕ → ℝ) (t : ℝ) (j : ℕ) : Prop := (t ≤ times (j + 1) ∧ times j < t) ∨ (j = 0 ∧ t = times 0)

open Classical in
/-- The part of `poss[locs]` belonging to one batch entry and one query time: boolean indexing keeps the order of the
intervals. (utility.py:340-343) -/
noncomputable def hits (n : ℕ) (times vals : ℕ → ℝ) (t : ℝ) : List ℝ :=
  ((List.range n).filter fun j => decide (loc times t j)).map (poss times vals t)

/-- `poss[locs]` (utility.py:340, 342) for `nb` batch entries and `q` query times each; `t k b` is query `k` of entry `b`. The arrays
are transposed, so the order is: batch entry, query, interval. -/
noncomputable def flat (nb q n : ℕ) (times vals t : ℕ → ℕ → ℝ) : List ℝ :=
  (List.range nb).flatMap fun b => (List.range q).flatMap fun k =>
    hits n (fun j => times j b) (fun j => vals j b) (t k b)

/-- `ArbitraryBatchTimeSeriesInterpolator.forward` on a two dimensional `t` (utility.py:303-342): `reshape` fails unless the number of
elements is right. -/
noncomputable def arbitrary2d (nb q n : ℕ) (times vals t : ℕ → ℕ → ℝ) : Except String (ℕ → ℕ → ℝ) :=
  let l := flat nb q n times vals t
  if l.length = nb * q then .ok fun k b => l.getD (b * q + k) 0
  else .error "shape is invalid for input"

/-- `ArbitraryBatchTimeSeriesInterpolator.forward` on a one dimensional `t` (utility.py:303-340): the vector `poss[locs]`, of whatever
length. (For a batch of one, `squeeze` makes it zero dimensional.) -/
noncomputable def arbitrary1d (nb n : ℕ) (times vals : ℕ → ℕ → ℝ) (t : ℕ → ℝ) : List ℝ :=
  flat nb 1 n times vals fun _ b => t b

/-- What the interpolator returns for one query of one batch entry when it selects an interval. (utility.py:340-343) -/
noncomputable def interpFn (n : ℕ) (times vals : ℕ → ℝ) (t : ℝ) : ℝ := (hits n times vals t).headD 0

/-- `x[gi - 1]` in Python: index `-1` is the last of `len` rows. (utility.py:450, 474-475) -/
def wrapPred (gi len : ℕ) : ℕ := if gi = 0 then len - 1 else gi - 1

open Classical in
/-- `gi` (utility.py:379-381, 448, 473): the number of times `≤ t`, modulo the number of times. -/
noncomputable def countIdx (n : ℕ) (times : ℕ → ℝ) (t : ℝ) : ℕ :=
  ((List.range (n + 1)).countP fun j => decide (times j - t ≤ 0)) % (n + 1)

/-- `BatchTimeSeriesInterpolator.forward` (utility.py:369-384), one batch entry (`torch.diagonal` pairs entry `b` with its own index). -/
noncomputable def batchInterp (n : ℕ) (times vals : ℕ → ℝ) (t : ℝ) : ℝ :=
  let gi := countIdx n times t
  vals (wrapPred gi (n + 1)) + slope times vals (wrapPred gi n) * (t - times (wrapPred gi (n + 1)))

/-- `torch.argmax` of a 0/1 vector of length `len`: the first one, or `0` if there is none. (utility.py:425) -/
def argmaxFirst (p : ℕ → Bool) (len : ℕ) : ℕ := ((List.range len).find? p).getD 0

open Classical in
/-- `CheaterBatchTimeSeriesInterpolator.forward` (utility.py:414-429), entry `b`: entry `0` decides the interval for all. -/
noncomputable def cheaterInterp (n : ℕ) (times vals : ℕ → ℕ → ℝ) (t : ℕ → ℝ) (b : ℕ) : ℝ :=
  let gi := max (argmaxFirst (fun j => decide (t 0 ≤ times j 0)) (n + 1)) 1
  vals (gi - 1) b + slope (fun j => times j b) (fun j => vals j b) (gi - 1) * (t b - times (gi - 1) b)

/-- `timeseries_interpolate_batch_times` (utility.py:432-455), one batch entry; `timeseries_interpolate_single_times` (utility.py:458-475) is the same with
the times shared by the batch entries. -/
noncomputable def fnInterp (n : ℕ) (times vals : ℕ → ℝ) (t : ℝ) : ℝ :=
  let gi := countIdx n times t
  let y2 := vals gi
  let y1 := vals (wrapPred gi (n + 1))
  let t2 := times gi
  let t1 := times (wrapPred gi (n + 1))
  y1 + (y2 - y1) / (t2 - t1) * (t - t1)

end Pyoptmat.Interp
