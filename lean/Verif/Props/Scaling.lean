import Verif.Model.Scaling
import Mathlib.Probability.Distributions.Gaussian.Real
import Mathlib.Tactic

/-!
# Properties C55–C57: parameter scalings
-/

namespace Pyoptmat.Props

open Pyoptmat.Scaling

private lemma clamp_of_mem {x lo hi : ℝ} (h1 : lo ≤ x) (h2 : x ≤ hi) : clamp x lo hi = x := by
  rw [clamp, max_eq_left h1, min_eq_left h2]

private lemma clamp_mem {x lo hi : ℝ} (h : lo ≤ hi) : lo ≤ clamp x lo hi ∧ clamp x lo hi ≤ hi :=
  ⟨le_min (le_max_right _ _) h, min_le_right _ _⟩

private lemma clamp_low {x lo hi : ℝ} (h : lo ≤ hi) (hx : x ≤ lo) : clamp x lo hi = lo := by
  rw [clamp, max_eq_right hx, min_eq_left h]

private lemma clamp_high {x lo hi : ℝ} (hx : hi ≤ x) : clamp x lo hi = hi := by
  rw [clamp, min_eq_right (hx.trans (le_max_left _ _))]

private lemma clamp_mono {lo hi : ℝ} : Monotone fun x => clamp x lo hi := fun _ _ h =>
  min_le_min_right _ (max_le_max_right _ h)

/-! ### C55 -/

/-- **C55** (bounded scaling). For `l < u`: with clamping every real goes into `[l, u]`, values below 0 to `l`, above 1 to `u`; `scale` is
non-decreasing, and strictly increasing on `[0, 1]`; `unscale` inverts it on `[0, 1]`, and `scale` inverts `unscale` on `[l, u]` (so
`scale` is a bijection of `[0, 1]` onto `[l, u]`). Without clamping they are inverse to each other everywhere and strictly increasing. -/
theorem C55_bounded (l u : ℝ) (h : l < u) :
    (∀ x, l ≤ boundedScale l u true x ∧ boundedScale l u true x ≤ u) ∧
    (∀ x, (x ≤ 0 → boundedScale l u true x = l) ∧ (1 ≤ x → boundedScale l u true x = u)) ∧
    Monotone (boundedScale l u true) ∧ StrictMonoOn (boundedScale l u true) (Set.Icc 0 1) ∧
    (∀ x ∈ Set.Icc (0 : ℝ) 1, boundedUnscale l u (boundedScale l u true x) = x) ∧
    (∀ y ∈ Set.Icc l u, boundedUnscale l u y ∈ Set.Icc (0 : ℝ) 1 ∧ boundedScale l u true (boundedUnscale l u y) = y) ∧
    (∀ x, boundedUnscale l u (boundedScale l u false x) = x) ∧ (∀ y, boundedScale l u false (boundedUnscale l u y) = y) ∧
    StrictMono (boundedScale l u false) := by
  have hd : 0 < u - l := by linarith
  have e : ∀ x, boundedScale l u true x = clamp x 0 1 * (u - l) + l := fun x => by simp [boundedScale]
  have e' : ∀ x, boundedScale l u false x = x * (u - l) + l := fun x => by simp [boundedScale]
  refine ⟨fun x => ?_, fun x => ⟨fun hx => ?_, fun hx => ?_⟩, fun x y hxy => ?_, fun x hx y hy hxy => ?_, fun x hx => ?_, fun y hy => ?_,
    fun x => ?_, fun y => ?_, fun x y hxy => ?_⟩
  · rw [e]
    have := clamp_mem (x := x) (zero_le_one (α := ℝ))
    constructor <;> nlinarith
  · rw [e, clamp_low zero_le_one hx]; ring
  · rw [e, clamp_high hx]; ring
  · rw [e, e]
    have := clamp_mono (lo := 0) (hi := 1) hxy
    simp only at this
    nlinarith
  · rw [e, e, clamp_of_mem hx.1 hx.2, clamp_of_mem hy.1 hy.2]; nlinarith
  · rw [e, clamp_of_mem hx.1 hx.2, boundedUnscale]; field_simp; ring
  · have h01 : boundedUnscale l u y ∈ Set.Icc (0 : ℝ) 1 := by
      constructor
      · exact div_nonneg (by linarith [hy.1]) hd.le
      · exact (div_le_one hd).2 (by linarith [hy.2])
    refine ⟨h01, ?_⟩
    rw [e, clamp_of_mem h01.1 h01.2, boundedUnscale]; field_simp; ring
  · rw [e', boundedUnscale]; field_simp; ring
  · rw [e', boundedUnscale]; field_simp; ring
  · rw [e', e']; nlinarith

private lemma logScale_eq {l u : ℝ} (hl : 0 < l) (hu : 0 < u) (x : ℝ) :
    l ^ (1 - x) * u ^ x = Real.exp (Real.log l + x * (Real.log u - Real.log l)) := by
  rw [Real.rpow_def_of_pos hl, Real.rpow_def_of_pos hu, ← Real.exp_add]
  congr 1
  ring

/-- **C55** (logarithmic scaling). For `0 < l < u`: the same as `C55_bounded`, for the scaling `l^(1-x) u^x`; its values are positive, and at 1/2 it is the
geometric mean of the bounds. -/
theorem C55_log_bounded (l u : ℝ) (hl : 0 < l) (h : l < u) :
    (∀ x, l ≤ logScale l u true x ∧ logScale l u true x ≤ u) ∧
    (∀ x, (x ≤ 0 → logScale l u true x = l) ∧ (1 ≤ x → logScale l u true x = u)) ∧
    Monotone (logScale l u true) ∧ StrictMonoOn (logScale l u true) (Set.Icc 0 1) ∧
    (∀ x ∈ Set.Icc (0 : ℝ) 1, logUnscale l u (logScale l u true x) = x) ∧
    (∀ y ∈ Set.Icc l u, logUnscale l u y ∈ Set.Icc (0 : ℝ) 1 ∧ logScale l u true (logUnscale l u y) = y) ∧
    (∀ x, logUnscale l u (logScale l u false x) = x) ∧ (∀ y, 0 < y → logScale l u false (logUnscale l u y) = y) ∧
    StrictMono (logScale l u false) ∧ logScale l u true (1 / 2) ^ 2 = l * u := by
  have hu : 0 < u := hl.trans h
  have hlog : Real.log l < Real.log u := Real.log_lt_log hl h
  have hd : 0 < Real.log u - Real.log l := by linarith
  have e : ∀ x, logScale l u true x = Real.exp (Real.log l + clamp x 0 1 * (Real.log u - Real.log l)) := fun x => by
    rw [← logScale_eq hl hu]; simp [logScale]
  have e' : ∀ x, logScale l u false x = Real.exp (Real.log l + x * (Real.log u - Real.log l)) := fun x => by
    rw [← logScale_eq hl hu]; simp [logScale]
  have e0 : Real.exp (Real.log l + 0 * (Real.log u - Real.log l)) = l := by rw [zero_mul, add_zero, Real.exp_log hl]
  have e1 : Real.exp (Real.log l + 1 * (Real.log u - Real.log l)) = u := by rw [one_mul, add_sub_cancel, Real.exp_log hu]
  refine ⟨fun x => ?_, fun x => ⟨fun hx => ?_, fun hx => ?_⟩, fun x y hxy => ?_, fun x hx y hy hxy => ?_, fun x hx => ?_, fun y hy => ?_,
    fun x => ?_, fun y hy => ?_, fun x y hxy => ?_, ?_⟩
  · have := clamp_mem (x := x) (zero_le_one (α := ℝ))
    rw [e]
    constructor
    · conv_lhs => rw [← e0]
      exact Real.exp_le_exp.2 (by nlinarith)
    · conv_rhs => rw [← e1]
      exact Real.exp_le_exp.2 (by nlinarith)
  · rw [e, clamp_low zero_le_one hx, e0]
  · rw [e, clamp_high hx, e1]
  · rw [e, e]
    have := clamp_mono (lo := 0) (hi := 1) hxy
    simp only at this
    exact Real.exp_le_exp.2 (by nlinarith)
  · rw [e, e, clamp_of_mem hx.1 hx.2, clamp_of_mem hy.1 hy.2]
    exact Real.exp_lt_exp.2 (by nlinarith)
  · rw [e, clamp_of_mem hx.1 hx.2, logUnscale, Real.log_exp]; field_simp; ring
  · have hy0 : 0 < y := hl.trans_le hy.1
    have h01 : logUnscale l u y ∈ Set.Icc (0 : ℝ) 1 := by
      constructor
      · exact div_nonneg (by linarith [Real.log_le_log hl hy.1]) hd.le
      · exact (div_le_one hd).2 (by linarith [Real.log_le_log hy0 hy.2])
    refine ⟨h01, ?_⟩
    rw [e, clamp_of_mem h01.1 h01.2, logUnscale, div_mul_cancel₀ _ hd.ne', add_sub_cancel, Real.exp_log hy0]
  · rw [e', logUnscale, Real.log_exp]; field_simp; ring
  · rw [e', logUnscale, div_mul_cancel₀ _ hd.ne', add_sub_cancel, Real.exp_log hy]
  · rw [e', e']
    exact Real.exp_lt_exp.2 (by nlinarith)
  · rw [e, clamp_of_mem (by norm_num) (by norm_num), ← Real.exp_nat_mul]
    have : ((2 : ℕ) : ℝ) * (Real.log l + 1 / 2 * (Real.log u - Real.log l)) = Real.log l + Real.log u := by push_cast; ring
    rw [this, Real.exp_add, Real.exp_log hl, Real.exp_log hu]

/-- **C55** (clamping loses information). With clamping, `unscale (scale x)` is `x` clamped to `[0, 1]`: outside `[0, 1]` the argument is not recovered. -/
theorem C55_clamp_not_injective (l u x : ℝ) (hl : 0 < l) (h : l < u) (hx : x ∉ Set.Icc (0 : ℝ) 1) :
    boundedUnscale l u (boundedScale l u true x) ≠ x ∧ logUnscale l u (logScale l u true x) ≠ x := by
  have b := C55_bounded l u h
  have g := C55_log_bounded l u hl h
  have hx' : x < 0 ∨ 1 < x := by
    by_contra hc
    push Not at hc
    exact hx ⟨hc.1, hc.2⟩
  have z : (0 : ℝ) ∈ Set.Icc (0 : ℝ) 1 := by norm_num
  have o : (1 : ℝ) ∈ Set.Icc (0 : ℝ) 1 := by norm_num
  rcases hx' with hx | hx
  · have b0 := b.2.2.2.2.1 0 z
    have g0 := g.2.2.2.2.1 0 z
    rw [(b.2.1 0).1 le_rfl] at b0
    rw [(g.2.1 0).1 le_rfl] at g0
    rw [(b.2.1 x).1 hx.le, (g.2.1 x).1 hx.le, b0, g0]
    exact ⟨hx.ne', hx.ne'⟩
  · have b0 := b.2.2.2.2.1 1 o
    have g0 := g.2.2.2.2.1 1 o
    rw [(b.2.1 1).2 le_rfl] at b0
    rw [(g.2.1 1).2 le_rfl] at g0
    rw [(b.2.1 x).2 hx.le, (g.2.1 x).2 hx.le, b0, g0]
    exact ⟨hx.ne, hx.ne⟩

open MeasureTheory ProbabilityTheory in
/-- **C55** (statistics of the scaled parameter). If the unscaled parameter is normal with location `loc` and scale `scale`, then
the parameter scaled without clamping is normal with the location and scale that `scale_stat` of the bounded and the simple scaling
print; for the logarithmic scaling the logarithm is normal with the printed location and scale, and the printed mean is the mean. -/
theorem C55_scale_stat (l u s loc scale : ℝ) (hl : 0 < l) (h : l < u) :
    let law := gaussianReal loc (Real.toNNReal (scale ^ 2))
    (law.map (boundedScale l u false) =
      gaussianReal (boundedStat l u false loc scale).1 (Real.toNNReal ((boundedStat l u false loc scale).2 ^ 2))) ∧
    (law.map (simpleScale s) = gaussianReal (simpleStat s loc scale).1 (Real.toNNReal ((simpleStat s loc scale).2 ^ 2))) ∧
    (law.map (fun x => Real.log (logScale l u false x)) =
      gaussianReal (logStat l u loc scale).1 (Real.toNNReal ((logStat l u loc scale).2.1 ^ 2))) ∧
    ∫ x, logScale l u false x ∂law = (logStat l u loc scale).2.2 := by
  intro law
  have hu : 0 < u := hl.trans h
  have affine : ∀ a b : ℝ, law.map (fun x => a * x + b) = gaussianReal (a * loc + b) (Real.toNNReal ((a * scale) ^ 2)) := by
    intro a b
    have h1 := gaussianReal_map_const_mul (μ := loc) (v := Real.toNNReal (scale ^ 2)) a
    have h2 := gaussianReal_map_add_const (μ := a * loc) (v := NNReal.mk (a ^ 2) (sq_nonneg _) * Real.toNNReal (scale ^ 2)) b
    have hv : NNReal.mk (a ^ 2) (sq_nonneg _) * Real.toNNReal (scale ^ 2) = Real.toNNReal ((a * scale) ^ 2) := by
      apply NNReal.coe_injective
      rw [NNReal.coe_mul, Real.coe_toNNReal _ (sq_nonneg _), Real.coe_toNNReal _ (sq_nonneg _), mul_pow]
      rfl
    rw [hv] at h1 h2
    rw [← h2, ← h1, Measure.map_map (by fun_prop) (by fun_prop)]
    rfl
  refine ⟨?_, ?_, ?_, ?_⟩
  · have e : boundedScale l u false = fun x => (u - l) * x + l := by
      funext x; simp [boundedScale]; ring
    rw [e, affine]
    simp only [boundedStat, boundedScale]
    congr 2
    · simp; ring
    · ring
  · have e : simpleScale s = fun x => s * x + 0 := by
      funext x; simp [simpleScale]
    rw [e, affine]
    simp only [simpleStat, simpleScale]
    congr 2
    · ring
    · ring
  · have e : (fun x => Real.log (logScale l u false x)) = fun x => (Real.log u - Real.log l) * x + Real.log l := by
      funext x
      simp only [logScale, Bool.false_eq_true, if_false]
      rw [logScale_eq hl hu, Real.log_exp]
      ring
    rw [e, affine]
    rfl
  · have e : ∀ x, logScale l u false x = Real.exp (Real.log l) * Real.exp ((Real.log u - Real.log l) * x) := by
      intro x
      simp only [logScale, Bool.false_eq_true, if_false]
      rw [logScale_eq hl hu, ← Real.exp_add]
      congr 1
      ring
    simp only [e]
    rw [integral_const_mul]
    have hm := congrFun (mgf_id_gaussianReal (μ := loc) (v := Real.toNNReal (scale ^ 2))) (Real.log u - Real.log l)
    simp only [mgf, id] at hm
    rw [hm, ← Real.exp_add, Real.coe_toNNReal _ (sq_nonneg _)]
    simp only [logStat]
    congr 1
    ring

/-- **C55** (`scale_mean`). For the simple and the bounded scaling `scale_mean` is the scaled location. For the logarithmic scaling it is the
*logarithm* of the scaled location, hence never the scaled location itself. -/
theorem C55_scale_mean (l u s loc scale : ℝ) (cl : Bool) (hl : 0 < l) (h : l < u) :
    simpleMean s loc scale = simpleScale s loc ∧ boundedMean l u cl loc scale = boundedScale l u cl loc ∧
    logMean l u loc scale = Real.log (logScale l u false loc) ∧ logMean l u loc scale ≠ logScale l u false loc := by
  have hu : 0 < u := hl.trans h
  have e : logScale l u false loc = Real.exp (Real.log l + loc * (Real.log u - Real.log l)) := by
    rw [← logScale_eq hl hu]; simp [logScale]
  have hm : logMean l u loc scale = Real.log (logScale l u false loc) := by
    rw [e, Real.log_exp]; simp only [logMean]; ring
  refine ⟨rfl, rfl, hm, ?_⟩
  have hp : 0 < logScale l u false loc := by rw [e]; exact Real.exp_pos _
  have := Real.add_one_le_exp (logMean l u loc scale)
  rw [hm, Real.exp_log hp, ← hm] at this
  linarith

example : boundedScale 2 10 true (1 / 4) = 4 ∧ boundedUnscale 2 10 4 = 1 / 4 ∧ boundedScale 2 10 true 7 = 10 := by
  refine ⟨?_, ?_, ?_⟩ <;> norm_num [boundedScale, boundedUnscale, clamp]

/-! ### C56 -/

/-- **C56** (simple scaling). For `s ≠ 0` `scale` and `unscale` are inverse to each other on all reals. For `s = 0` everything is scaled to zero. -/
theorem C56_simple (s : ℝ) :
    (s ≠ 0 → (∀ x, simpleUnscale s (simpleScale s x) = x) ∧ ∀ x, simpleScale s (simpleUnscale s x) = x) ∧
    (s = 0 → ∀ x, simpleScale s x = 0) := by
  refine ⟨fun h => ⟨fun x => ?_, fun x => ?_⟩, fun h x => ?_⟩
  · rw [simpleUnscale, simpleScale]; field_simp
  · rw [simpleUnscale, simpleScale]; field_simp
  · rw [simpleScale, h, zero_mul]

example : simpleUnscale 4 (simpleScale 4 3) = 3 := (C56_simple 4).1 (by norm_num) |>.1 3

/-! ### C57 -/

/-- **C57** (`bounded_scale_function`). For `lo ≤ hi` and no `min_bound`: every real goes into `[lo, hi]`, `x ≤ 0` to `lo`, `x ≥ 1` to `hi`, and on
`[0, 1]` the map is the affine one; it is the map of `BoundedScalingFunction`. With a `min_bound` the result is the larger of the two, so never below
it. -/
theorem C57_bounded_scale_function (lo hi : ℝ) (h : lo ≤ hi) :
    (∀ x, lo ≤ boundedScaleFunction (lo, hi) none x ∧ boundedScaleFunction (lo, hi) none x ≤ hi) ∧
    (∀ x, x ≤ 0 → boundedScaleFunction (lo, hi) none x = lo) ∧ (∀ x, 1 ≤ x → boundedScaleFunction (lo, hi) none x = hi) ∧
    (∀ x, 0 ≤ x → x ≤ 1 → boundedScaleFunction (lo, hi) none x = (1 - x) * lo + x * hi) ∧
    (∀ x, boundedScaleFunction (lo, hi) none x = boundedScale lo hi true x) ∧
    (∀ x mb, mb ≤ boundedScaleFunction (lo, hi) (some mb) x ∧
      boundedScaleFunction (lo, hi) (some mb) x = max (boundedScaleFunction (lo, hi) none x) mb) := by
  refine ⟨fun x => ?_, fun x hx => ?_, fun x hx => ?_, fun x h0 h1 => ?_, fun x => ?_, fun x mb => ⟨le_max_right _ _, rfl⟩⟩
  · have := clamp_mem (x := x) (zero_le_one (α := ℝ))
    simp only [boundedScaleFunction]
    constructor <;> nlinarith
  · simp only [boundedScaleFunction]; rw [clamp_low zero_le_one hx]; ring
  · simp only [boundedScaleFunction]; rw [clamp_high hx]; ring
  · simp only [boundedScaleFunction]; rw [clamp_of_mem h0 h1]; ring
  · simp [boundedScaleFunction, boundedScale]

/-- **C57** (`bound_factor`). Without `min_bound`: 1/2 goes to the mean; 0 and 1 to `mean (1 ∓ factor)`; every real goes within `|mean factor|` of the mean, whatever
the signs of the mean and the factor. -/
theorem C57_bound_factor (mean factor x : ℝ) :
    boundFactor mean factor none (1 / 2) = mean ∧ boundFactor mean factor none 0 = mean * (1 - factor) ∧
    boundFactor mean factor none 1 = mean * (1 + factor) ∧ |boundFactor mean factor none x - mean| ≤ |mean * factor| := by
  refine ⟨?_, ?_, ?_, ?_⟩
  · simp only [boundFactor, boundedScaleFunction]; rw [clamp_of_mem (by norm_num) (by norm_num)]; ring
  · simp only [boundFactor, boundedScaleFunction]; rw [clamp_of_mem (by norm_num) (by norm_num)]; ring
  · simp only [boundFactor, boundedScaleFunction]; rw [clamp_of_mem (by norm_num) (by norm_num)]; ring
  · simp only [boundFactor, boundedScaleFunction]
    have hc := clamp_mem (x := x) (zero_le_one (α := ℝ))
    have e : clamp x 0 1 * (mean * (1 + factor) - mean * (1 - factor)) + mean * (1 - factor) - mean =
        (2 * clamp x 0 1 - 1) * (mean * factor) := by ring
    rw [e, abs_mul]
    exact mul_le_of_le_one_left (abs_nonneg _) (abs_le.2 ⟨by linarith, by linarith⟩)

/-- **C57** (clamping functions). For `lo ≤ hi` the three clamping functions return values in `[lo, hi]` for every real, equal to `x`, `x / scale` and
`exp (x / scale)` whenever these lie in `[lo, hi]`; on that range the logarithmic one is undone by `scale · log`. With the bounds in the
wrong order they return the constant `hi`. -/
theorem C57_clamping (scale lo hi x : ℝ) :
    (lo ≤ hi → (clampScaleFunction (lo, hi) x ∈ Set.Icc lo hi ∧ boundAndScale scale (lo, hi) x ∈ Set.Icc lo hi ∧
        logBoundAndScale scale (lo, hi) x ∈ Set.Icc lo hi) ∧
      (x ∈ Set.Icc lo hi → clampScaleFunction (lo, hi) x = x) ∧
      (x / scale ∈ Set.Icc lo hi → boundAndScale scale (lo, hi) x = x / scale) ∧
      (Real.exp (x / scale) ∈ Set.Icc lo hi → logBoundAndScale scale (lo, hi) x = Real.exp (x / scale) ∧
        (scale ≠ 0 → scale * Real.log (logBoundAndScale scale (lo, hi) x) = x))) ∧
    (hi < lo → clampScaleFunction (lo, hi) x = hi ∧ boundAndScale scale (lo, hi) x = hi ∧ logBoundAndScale scale (lo, hi) x = hi) := by
  refine ⟨fun h => ⟨⟨clamp_mem h, clamp_mem h, clamp_mem h⟩, fun hx => clamp_of_mem hx.1 hx.2, fun hx => clamp_of_mem hx.1 hx.2, fun hx => ?_⟩,
    fun h => ?_⟩
  · have e : logBoundAndScale scale (lo, hi) x = Real.exp (x / scale) := clamp_of_mem hx.1 hx.2
    refine ⟨e, fun hs => ?_⟩
    rw [e, Real.log_exp]
    field_simp
  · have : ∀ y, clamp y lo hi = hi := fun y => min_eq_right (h.le.trans (le_max_right _ _))
    exact ⟨this _, this _, this _⟩

example : boundFactor (-10) (1 / 2) none (3 / 4) = -25 / 2 ∧ boundedScaleFunction (-1, 3) (some 0) 0 = 0 := by
  constructor <;> norm_num [boundFactor, boundedScaleFunction, clamp]

end Pyoptmat.Props
