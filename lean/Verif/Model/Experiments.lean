import Mathlib.Data.Real.Basic
import Mathlib.Data.Int.Basic
import Mathlib.Analysis.SpecialFunctions.Pow.Real
import Mathlib.Analysis.SpecialFunctions.Log.Base
import Mathlib.Algebra.Order.Floor.Ring

/-!
# Model of `pyoptmat/experiments.py` and of the noise and weight tensors of `pyoptmat/optimize.py`

Arrays are functions of the row (time) and of the column (test), together with their sizes; only entries inside the sizes mean anything. Exact
arithmetic. Failing torch calls are `Except.error`.
-/

namespace Pyoptmat.Experiments

/-! ### Codes -/

/-- `exp_map` (experiments.py:525-533). -/
def expMap : List (String × ℤ) :=
  [("tensile", 0), ("relaxation", 1), ("strain_cyclic", 2), ("creep", 3), ("stress_cyclic", 4), ("abstract_tensile", 5), ("direct_data", 6)]

/-- `control_map` (experiments.py:548). -/
def controlMap : List (String × ℤ) := [("strain", 0), ("stress", 1)]

/-- A Python dictionary lookup. (experiments.py:117-119) -/
def lookup {α : Type} (d : List (String × α)) (k : String) : Except String α :=
  match d.find? fun p => p.1 == k with
  | some p => .ok p.2
  | none => .error "KeyError"

/-! ### Boolean masks -/

/-- The columns (or rows) that a boolean mask of length `n` selects, in order. (experiments.py:150-153) -/
def select (n : ℕ) (mask : ℕ → Bool) : List ℕ := (List.range n).filter mask

/-- `a[:, mask]` (experiments.py:126-131, 153): the selected columns. -/
def takeCols {α : Type} (idx : List ℕ) (a : ℕ → ℕ → α) : ℕ → ℕ → α := fun t c => a t (idx.getD c 0)

/-- `dst[:, mask] = src` (experiments.py:126-131, 153): column `c` of `src` goes to the `c`-th selected column. -/
def putCols {α : Type} (idx : List ℕ) (dst src : ℕ → ℕ → α) : ℕ → ℕ → α := fun t b =>
  if b ∈ idx then src t (idx.idxOf b) else dst t b

/-- `a[mask]` (experiments.py:258, 287): the selected rows. -/
def takeRows {α : Type} (idx : List ℕ) (a : ℕ → ℕ → α) : ℕ → ℕ → α := fun r b => a (idx.getD r 0) b

/-- `dst[mask] = src` (experiments.py:261, 288): row `r` of `src` goes to the `r`-th selected row. -/
def putRows {α : Type} (idx : List ℕ) (dst src : ℕ → ℕ → α) : ℕ → ℕ → α := fun t b =>
  if t ∈ idx then src (idx.idxOf t) b else dst t b

/-- `torch.max(a, 0)` of a column with `n ≥ 1` rows. (experiments.py:210, 287) -/
noncomputable def colMax (n : ℕ) (col : ℕ → ℝ) : ℝ := ((List.range n).tail.map col).foldl max (col 0)

/-! ### Loading -/

/-- The fields of the `xarray.Dataset` that `load_results` reads (experiments.py:111-120): `nt` times and `nb` tests. -/
structure Dataset where
  nt : ℕ
  nb : ℕ
  time : ℕ → ℕ → ℝ
  temperature : ℕ → ℕ → ℝ
  strain : ℕ → ℕ → ℝ
  stress : ℕ → ℕ → ℝ
  cycle : ℕ → ℕ → ℤ
  type : ℕ → String
  control : ℕ → String

/-- What `load_results` returns (experiments.py:133); `data0`, `data1`, `data2` are the three slices of `data`. -/
structure Loaded where
  data0 : ℕ → ℕ → ℝ
  data1 : ℕ → ℕ → ℝ
  data2 : ℕ → ℕ → ℝ
  results : ℕ → ℕ → ℝ
  cycle : ℕ → ℕ → ℤ
  types : ℕ → ℤ
  control : ℕ → ℤ

/-- `[m[t] for t in values]` (experiments.py:117-119) for `n` values: fails on the first unknown name. -/
def mapCodes (m : List (String × ℤ)) (n : ℕ) (names : ℕ → String) : Except String (ℕ → ℤ) :=
  if (List.range n).all fun b => (lookup m (names b)).toOption.isSome then
    .ok fun b => ((lookup m (names b)).toOption).getD 0
  else .error "KeyError"

/-- `load_results` (experiments.py:72-133). `g2`, `gr` are the contents of the uninitialised arrays (`torch.empty`, lines 122, 129). -/
def loadResults (g2 gr : ℕ → ℕ → ℝ) (x : Dataset) : Except String Loaded :=
  match mapCodes expMap x.nb x.type with
  | .error e => .error e
  | .ok types =>
    match mapCodes controlMap x.nb x.control with
    | .error e => .error e
    | .ok control =>
      let i0 := select x.nb fun b => control b == 0
      let i1 := select x.nb fun b => control b == 1
      let data2 := putCols i1 (putCols i0 g2 (takeCols i0 x.strain)) (takeCols i1 x.stress)
      let results := putCols i1 (putCols i0 gr (takeCols i0 x.stress)) (takeCols i1 x.strain)
      .ok { data0 := x.time, data1 := x.temperature, data2 := data2, results := results, cycle := x.cycle, types := types,
            control := control }

/-! ### Formatting -/

/-- A formatting function: sizes `nt`, `nb`, cycle labels and predictions. (experiments.py:158, 535-545) -/
abbrev Formatter := ℕ → ℕ → (ℕ → ℕ → ℤ) → (ℕ → ℕ → ℝ) → Except String (ℕ → ℕ → ℝ)

/-- `format_direct_data` (experiments.py:158-174). -/
def formatDirectData : Formatter := fun _ _ _ predictions => .ok predictions

/-- `format_tensile` (experiments.py:216-233). -/
def formatTensile : Formatter := fun _ _ _ predictions => .ok predictions

/-- The row of the first maximum of a boolean column (`torch.max` with indices, experiments.py:206): the first `true`, or row 0. -/
def firstTrue (n : ℕ) (p : ℕ → Bool) : ℕ := ((List.range n).find? p).getD 0

/-- `format_abstract_tensile` (experiments.py:177-213). `torch.max` over no rows fails. -/
noncomputable def formatAbstractTensile : Formatter := fun nt _ cycles predictions =>
  if nt = 0 then .error "max(): Expected reduction dim 0 to have non-zero size"
  else
    .ok fun t b =>
      let r0 := 0 + (if cycles t b = 0 then 0 else 0)
      let index := firstTrue nt fun s => cycles s b == 1
      let r1 := r0 + (if cycles t b = 1 then predictions index b else 0)
      r1 + (if cycles t b = 2 then colMax nt fun s => predictions s b else 0)

/-- `format_relaxation` (experiments.py:236-263): the mask comes from the labels of the *first* column (line 256); `curve[0]` fails on an empty
selection. -/
def formatRelaxation : Formatter := fun nt _ cycles predictions =>
  let rows := select nt fun t => cycles t 0 == 1
  if rows.length = 0 then .error "index 0 is out of bounds for dimension 0 with size 0"
  else
    let curve := takeRows rows predictions
    let curve' := fun r b => curve r b - curve 0 b
    .ok (putRows rows (fun _ _ => 0) curve')

/-- One pass of the loop of `format_cyclic` (experiments.py:286-288): `torch.max` over no rows fails. -/
noncomputable def cyclicStep (nt : ℕ) (uc : ℕ → ℤ) (predictions : ℕ → ℕ → ℝ) (acc : Except String (ℕ → ℕ → ℝ)) (i : ℕ) :
    Except String (ℕ → ℕ → ℝ) :=
  match acc with
  | .error e => .error e
  | .ok result =>
    let rows := select nt fun t => uc t == (i : ℤ)
    if rows.length = 0 then .error "max(): Expected reduction dim 0 to have non-zero size"
    else
      let vals := fun b => colMax rows.length fun r => takeRows rows predictions r b
      .ok (putRows rows result fun _ b => vals b)

/-- `format_cyclic` (experiments.py:266-290): the labels are those of the *first* column (line 284); `uc[-1]` fails without rows; `range` of a
negative number is empty. -/
noncomputable def formatCyclic : Formatter := fun nt _ cycles predictions =>
  if nt = 0 then .error "index -1 is out of bounds for dimension 0 with size 0"
  else
    let uc := fun t => cycles t 0
    (List.range (uc (nt - 1) + 1).toNat).foldl (cyclicStep nt uc predictions) (.ok fun _ _ => 0)

/-- `exp_fns_num` (experiments.py:535-545), in the order of the dictionary. -/
noncomputable def expFnsNum : List (ℤ × Formatter) :=
  [(0, formatTensile), (1, formatRelaxation), (2, formatCyclic), (3, formatRelaxation), (4, formatCyclic), (5, formatAbstractTensile),
   (6, formatDirectData)]

/-- One pass of the loop of `convert_results` (experiments.py:150-153). -/
def convertStep (nt nb : ℕ) (results : ℕ → ℕ → ℝ) (cycles : ℕ → ℕ → ℤ) (types : ℕ → ℤ) (acc : Except String (ℕ → ℕ → ℝ)) (p : ℤ × Formatter) :
    Except String (ℕ → ℕ → ℝ) :=
  match acc with
  | .error e => .error e
  | .ok processed =>
    let current := select nb fun b => types b == p.1
    if current.length > 0 then
      match p.2 nt current.length (takeCols current cycles) (takeCols current results) with
      | .error e => .error e
      | .ok r => .ok (putCols current processed r)
    else .ok processed

/-- `convert_results` (experiments.py:136-155). `garbage` is the content of the uninitialised array (line 148). -/
noncomputable def convertResults (nt nb : ℕ) (garbage results : ℕ → ℕ → ℝ) (cycles : ℕ → ℕ → ℤ) (types : ℕ → ℤ) :
    Except String (ℕ → ℕ → ℝ) :=
  expFnsNum.foldl (convertStep nt nb results cycles types) (.ok garbage)

/-! ### Making tests -/

/-- `torch.linspace` / `np.linspace`, entry `i` of `n` (experiments.py:315-316, 352-364, 405, 497): one entry is the start. -/
noncomputable def linspace (a b : ℝ) (n i : ℕ) : ℝ := if n = 1 then a else a + i * ((b - a) / ((n : ℝ) - 1))

/-- `torch.logspace`, base ten (experiments.py:358). -/
noncomputable def logspace (a b : ℝ) (n i : ℕ) : ℝ := (10 : ℝ) ^ linspace a b n i

/-- The arrays that the `make_…` functions return. (experiments.py:319, 369) -/
structure Tests where
  times : ℕ → ℕ → ℝ
  loads : ℕ → ℕ → ℝ
  temps : ℕ → ℕ → ℝ
  cycles : ℕ → ℕ → ℤ

/-- `make_tension_tests` (experiments.py:293-319). -/
noncomputable def makeTensionTests (rates temperatures elimits : ℕ → ℝ) (nsteps : ℕ) : Tests where
  times := fun t i => linspace 0 (elimits i / rates i) nsteps t
  loads := fun t i => linspace 0 (elimits i) nsteps t
  temps := fun _ i => temperatures i
  cycles := fun _ _ => 0

/-- `make_creep_tests` (experiments.py:322-369), for arguments of equal lengths; one column of each array per test. -/
noncomputable def makeCreepTests (stress temperature rate holdTimes : ℕ → ℝ) (nload nhold : ℕ) (logsp : Bool) : Tests where
  loads := fun t i => if t < nload then linspace 0 (stress i) nload t else stress i
  times := fun t i =>
    let load := fun t => linspace 0 (stress i / rate i) nload t
    if t < nload then load t
    else if logsp then logspace (Real.logb 10 (load (nload - 1))) (Real.logb 10 (holdTimes i)) (nhold + 1) (1 + (t - nload))
    else linspace (load (nload - 1)) (holdTimes i) (nhold + 1) (1 + (t - nload))
  temps := fun _ i => temperature i
  cycles := fun t _ => if t < nload then 0 else 1

/-- `ra.uniform(a, b)` for a draw `u` of the standard uniform distribution (experiments.py:387, 438-443). -/
def uniform (u a b : ℝ) : ℝ := a + (b - a) * u

/-- The `strain_rate` of `generate_random_tension` and `generate_random_cycle` (experiments.py:386-387, 440-441). -/
noncomputable def randomRate (u a b : ℝ) : ℝ := (10 : ℝ) ^ uniform u (Real.logb 10 a) (Real.logb 10 b)

/-- `sample_tension` (experiments.py:391-408): times and strains. -/
noncomputable def sampleTension (maxStrain strainRate : ℝ) (nsteps : ℕ) : (ℕ → ℝ) × (ℕ → ℝ) :=
  let tmax := maxStrain / strainRate
  let times := fun i => linspace 0 tmax nsteps i
  (times, fun i => times i * strainRate)

/-- The dictionary that describes a cycle (experiments.py:437-444). -/
structure Cycle where
  maxStrain : ℝ
  R : ℝ
  strainRate : ℝ
  tensionHold : ℝ
  compressionHold : ℝ

namespace Cycle
variable (c : Cycle)

/-- `emax`, `emin` (experiments.py:473-474). -/
def emax : ℝ := c.maxStrain
/-- (experiments.py:474) -/
def emin : ℝ := c.R * c.maxStrain

/-- `t1` (experiments.py:478). -/
noncomputable def t1 : ℝ := |c.emax| / c.strainRate
/-- `t2` (experiments.py:479). -/
def t2 : ℝ := c.tensionHold
/-- `t3` (experiments.py:480). -/
noncomputable def t3 : ℝ := |c.emax - c.emin| / c.strainRate
/-- `t4` (experiments.py:481). -/
def t4 : ℝ := c.compressionHold
/-- `t5` (experiments.py:482). -/
noncomputable def t5 : ℝ := |c.emin| / c.strainRate

/-- `zip(divisions, timesteps)` (experiments.py:483-484, 496). -/
noncomputable def segments (nload nhold : ℕ) : List (ℝ × ℕ) :=
  [(c.t1, nload), (c.t2, nhold), (c.t3, 2 * nload), (c.t4, nhold), (c.t5, nload)]

/-- `cdivisions` (experiments.py:485). -/
noncomputable def cdiv0 : ℝ := c.t1
/-- (experiments.py:485) -/
noncomputable def cdiv1 : ℝ := c.t1 + c.t2
/-- (experiments.py:485) -/
noncomputable def cdiv2 : ℝ := c.t1 + c.t2 + c.t3
/-- (experiments.py:485) -/
noncomputable def cdiv3 : ℝ := c.t1 + c.t2 + c.t3 + c.t4
/-- `period` (experiments.py:485-486). -/
noncomputable def period : ℝ := c.t1 + c.t2 + c.t3 + c.t4 + c.t5

end Cycle

/-- The state of the loop (experiments.py:493-500): the filled part of `times` and `cycles`, and `tc`. The slices `n : n + ni` follow each
other without gap, so the arrays, filled from the left, are lists; that they are filled to the end is `C58_length`. -/
structure LoopState where
  times : List ℝ
  cycles : List ℕ
  tc : ℝ

/-- The inner loop body (experiments.py:497-500). -/
noncomputable def segStep (k : ℕ) (s : LoopState) (seg : ℝ × ℕ) : LoopState where
  times := s.times ++ (List.range seg.2).map fun j => linspace s.tc (s.tc + seg.1) (seg.2 + 1) (j + 1)
  cycles := s.cycles ++ List.replicate seg.2 k
  tc := s.tc + seg.1

/-- The two loops (experiments.py:490-500); entry 0 of both arrays is zero. -/
noncomputable def cycleLoop (c : Cycle) (N nload nhold : ℕ) : LoopState :=
  (List.range N).foldl (fun s k => (c.segments nload nhold).foldl (segStep k) s) { times := [0], cycles := [0], tc := 0 }

/-- `times % period` (experiments.py:502), for `period > 0`. -/
noncomputable def fmod (t period : ℝ) : ℝ := t - ⌊t / period⌋ * period

/-- The `np.piecewise` call (experiments.py:503-519): the last condition that holds decides, zero if none does. -/
noncomputable def pieces (c : Cycle) (tp : ℝ) : ℝ :=
  let y := 0
  let y := if 0 ≤ tp ∧ tp < c.cdiv0 then tp / c.t1 * c.emax else y
  let y := if c.cdiv0 ≤ tp ∧ tp < c.cdiv1 then tp * 0 + c.emax else y
  let y := if c.cdiv1 ≤ tp ∧ tp < c.cdiv2 then c.emax - (tp - c.cdiv1) / c.t3 * (c.emax - c.emin) else y
  let y := if c.cdiv2 ≤ tp ∧ tp < c.cdiv3 then tp * 0 + c.emin else y
  if c.cdiv3 ≤ tp ∧ tp < c.period then c.emin - (tp - c.cdiv3) / c.t5 * c.emin else y

/-- `sample_cycle_normalized_times` (experiments.py:447-521), for a positive period: times, strains, cycles. -/
noncomputable def sampleCycle (c : Cycle) (N nload nhold : ℕ) : List ℝ × List ℝ × List ℕ :=
  let s := cycleLoop c N nload nhold
  (s.times, s.times.map fun t => pieces c (fmod t c.period), s.cycles)

/-! ### Noise and weights -/

/-- One pass of the loop over `exp_map.values()` (optimize.py:246-247, 525-526): `eps[i]` fails when `eps` is too short, whether or not a test
has this type. -/
def noiseStep (eps : List ℝ) (types : ℕ → ℤ) (acc : Except String (ℕ → ℝ)) (i : ℕ) : Except String (ℕ → ℝ) :=
  match acc with
  | .error e => .error e
  | .ok full =>
    match eps[i]? with
    | none => .error "index is out of bounds for dimension 0"
    | some v => .ok fun b => if types b = (i : ℤ) then v else full b

/-- `full_noise` (optimize.py:243-249, 522-528): `eps` is a scalar (`.inl`) or has one dimension (`.inr`). `garbage` is the content of the
uninitialised array. -/
def fullNoise (garbage : ℕ → ℝ) (eps : ℝ ⊕ List ℝ) (types : ℕ → ℤ) : Except String (ℕ → ℝ) :=
  match eps with
  | .inl v => .ok fun _ => v
  | .inr l => (expMap.map fun p => p.2.toNat).foldl (noiseStep l types) (.ok garbage)

/-- `self.weights` (optimize.py:333-337): by default one for every type; else the names are looked up. -/
def weightTable (weights : Option (List (String × ℝ))) : Except String (List (ℤ × ℝ)) :=
  match weights with
  | none => .ok (expMap.map fun p => (p.2, 1))
  | some w => w.mapM fun p => match lookup expMap p.1 with
    | .ok i => .ok (i, p.2)
    | .error e => .error e

/-- `_make_weight_tensor` (optimize.py:552-561). -/
def weightTensor (table : List (ℤ × ℝ)) (types : ℕ → ℤ) : ℕ → ℝ :=
  table.foldl (fun w p => fun b => if types b = p.1 then p.2 else w b) fun _ => 0

end Pyoptmat.Experiments
