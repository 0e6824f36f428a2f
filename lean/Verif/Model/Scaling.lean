import Mathlib.Analysis.SpecialFunctions.Log.Basic
import Mathlib.Analysis.SpecialFunctions.Pow.Real

/-!
# Model of `pyoptmat/scaling.py` and of the scale functions of `pyoptmat/optimize.py`

One entry of the tensors; exact arithmetic. `scale_stat` returns a text: the model keeps the numbers that are printed in it.
-/

namespace Pyoptmat.Scaling

/-- `torch.clamp` (scaling.py:164, 249; optimize.py:77-112): the upper bound wins when the bounds are in the wrong order. -/
noncomputable def clamp (x lo hi : ℝ) : ℝ := min (max x lo) hi

/-- `SimpleScalingFunction.scale` (scaling.py:80-88). -/
def simpleScale (s x : ℝ) : ℝ := s * x

/-- `SimpleScalingFunction.unscale` (scaling.py:90-98). -/
noncomputable def simpleUnscale (s x : ℝ) : ℝ := x / s

/-- `SimpleScalingFunction.scale_stat` (scaling.py:100-119): location and scale of the printed normal distribution. -/
def simpleStat (s loc scale : ℝ) : ℝ × ℝ := (simpleScale s loc, scale * s)

/-- `SimpleScalingFunction.scale_mean` (scaling.py:121-129). -/
def simpleMean (s loc _scale : ℝ) : ℝ := simpleScale s loc

/-- `BoundedScalingFunction.scale` (scaling.py:155-168); `cl` is the option `clamp`. -/
noncomputable def boundedScale (l u : ℝ) (cl : Bool) (x : ℝ) : ℝ :=
  let xp := if cl then clamp x 0 1 else x
  xp * (u - l) + l

/-- `BoundedScalingFunction.unscale` (scaling.py:170-178). -/
noncomputable def boundedUnscale (l u x : ℝ) : ℝ := (x - l) / (u - l)

/-- `BoundedScalingFunction.scale_stat` (scaling.py:180-199): location and scale of the printed normal distribution. -/
noncomputable def boundedStat (l u : ℝ) (cl : Bool) (loc scale : ℝ) : ℝ × ℝ := (boundedScale l u cl loc, scale * (u - l))

/-- `BoundedScalingFunction.scale_mean` (scaling.py:201-209). -/
noncomputable def boundedMean (l u : ℝ) (cl : Bool) (loc _scale : ℝ) : ℝ := boundedScale l u cl loc

/-- `LogBoundedScalingFunction.scale` (scaling.py:240-253). -/
noncomputable def logScale (l u : ℝ) (cl : Bool) (x : ℝ) : ℝ :=
  let xp := if cl then clamp x 0 1 else x
  l ^ (1 - xp) * u ^ xp

/-- `LogBoundedScalingFunction.unscale` (scaling.py:255-265). -/
noncomputable def logUnscale (l u x : ℝ) : ℝ := (Real.log x - Real.log l) / (Real.log u - Real.log l)

/-- `LogBoundedScalingFunction.scale_stat` (scaling.py:267-293): the printed location, scale and mean. -/
noncomputable def logStat (l u loc scale : ℝ) : ℝ × ℝ × ℝ :=
  let A := Real.log u - Real.log l
  let B := Real.log l
  let mean := A * loc + B
  let sp := A * scale
  (mean, sp, Real.exp (mean + sp ^ 2 / 2))

/-- `LogBoundedScalingFunction.scale_mean` (scaling.py:295-306). -/
noncomputable def logMean (l u loc _scale : ℝ) : ℝ :=
  let A := Real.log u - Real.log l
  let B := Real.log l
  A * loc + B

/-! ### optimize.py -/

/-- `bounded_scale_function` (optimize.py:65-80). -/
noncomputable def boundedScaleFunction (bounds : ℝ × ℝ) (minBound : Option ℝ) (x : ℝ) : ℝ :=
  match minBound with
  | none => clamp x 0 1 * (bounds.2 - bounds.1) + bounds.1
  | some mb => max (clamp x 0 1 * (bounds.2 - bounds.1) + bounds.1) mb

/-- `bound_factor` (optimize.py:48-62). -/
noncomputable def boundFactor (mean factor : ℝ) (minBound : Option ℝ) (x : ℝ) : ℝ :=
  boundedScaleFunction (mean * (1 - factor), mean * (1 + factor)) minBound x

/-- `clamp_scale_function` (optimize.py:83-90). -/
noncomputable def clampScaleFunction (bounds : ℝ × ℝ) (x : ℝ) : ℝ := clamp x bounds.1 bounds.2

/-- `bound_and_scale` (optimize.py:93-101). -/
noncomputable def boundAndScale (scale : ℝ) (bounds : ℝ × ℝ) (x : ℝ) : ℝ := clamp (x / scale) bounds.1 bounds.2

/-- `log_bound_and_scale` (optimize.py:104-112). -/
noncomputable def logBoundAndScale (scale : ℝ) (bounds : ℝ × ℝ) (x : ℝ) : ℝ := clamp (Real.exp (x / scale)) bounds.1 bounds.2

end Pyoptmat.Scaling
