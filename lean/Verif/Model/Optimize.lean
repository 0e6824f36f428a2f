import Verif.Model.Experiments
import Verif.Model.Control
import Mathlib.Analysis.SpecialFunctions.Sqrt
import Mathlib.Analysis.SpecialFunctions.Trigonometric.Basic

/-!
# Model of the deterministic and statistical wrappers of `pyoptmat/optimize.py`

The Pyro library is modelled as far as these classes use it: a trace of named nodes (sample, parameter and plate statements), the parameter store, the replay of a guide trace, the
cache of sampled attributes of a `PyroModule` during one call, plates, and `poutine.scale`. Pyro's argument checks are on, as they are by default: non-positive scales of
distributions and of `poutine.scale`, values outside the support, and two nodes of the same name are errors. Random draws are an argument (`draw`). A tensor is a function of the batch
index and of the index of its component (all event dimensions flattened); the priors of one variable are assumed to have the same shape. Parameter names are assumed different from
the other attributes of the objects.

The material model made by `maker` is arbitrary: a function of the parameters.
-/

namespace Pyoptmat.Optimize

open Pyoptmat.Experiments

/-- The arguments of `forward` (optimize.py:147-160): `exp_data` is `times, temps, idata`. -/
structure Data where
  nt : ℕ
  nb : ℕ
  times : ℕ → ℕ → ℝ
  temps : ℕ → ℕ → ℝ
  idata : ℕ → ℕ → ℝ
  cycles : ℕ → ℕ → ℤ
  types : ℕ → ℤ
  control : ℕ → ℤ

/-- `model.solve_both(times, temps, idata, control)` of the model made (optimize.py:163-165): the states by time, test and component. -/
abbrev Solver := Data → Except String (ℕ → ℕ → ℕ → ℝ)

/-- Run the model made and convert the first component of its states (optimize.py:163-167, 233-238, 537-543). -/
noncomputable def simulate (garbage : ℕ → ℕ → ℝ) (s : Solver) (x : Data) : Except String (ℕ → ℕ → ℝ) :=
  match s x with
  | .error e => .error e
  | .ok predictions => convertResults x.nt x.nb garbage (fun t b => predictions t b 0) x.cycles x.types

/-- `ModelIntegrator.solve_both` as the solver of the model made (models.py:297-332, called at optimize.py:163-165): one material model per test, `cfg` and `blk` are the options of the
integrator. Warnings are dropped. -/
noncomputable def integratorSolver {m : ℕ} (cfg : Ode.Config) (blk : ℤ) (model : ℕ → Material.Model (m + 1)) : Solver := fun x =>
  match Control.solveBoth (β := Fin x.nb) cfg (fun b => model b) x.nt (fun k b => x.times k b) (fun k b => x.temps k b) (fun k b => x.idata k b)
      (fun b => (x.control b : ℝ)) blk with
  | .error e => .error e
  | .ok (res, _) => .ok fun t b i => if h : b < x.nb ∧ i < m + 1 then res.get t ⟨b, h.1⟩ ⟨i, h.2⟩ else 0

/-! ### Attributes -/

/-- `getattr` on attributes set by `setattr`: the last one set counts (optimize.py:141, 145). -/
def getattr {α : Type} (attrs : List (String × α)) (name : String) : Except String α :=
  match attrs.reverse.find? fun p => p.1 == name with
  | some p => .ok p.2
  | none => .error "AttributeError"

/-! ### DeterministicModel -/

/-- `DeterministicModel.get_params` (optimize.py:128-145) of a model constructed with `names` and `ics`. -/
def detParams {α : Type} (names : List String) (ics : List α) : Except String (List α) :=
  names.mapM (getattr (names.zip ics))

/-- `DeterministicModel.forward` (optimize.py:147-167). -/
noncomputable def detForward {α : Type} (maker : List α → Solver) (garbage : ℕ → ℕ → ℝ) (names : List String) (ics : List α) (x : Data) :
    Except String (ℕ → ℕ → ℝ) :=
  match detParams names ics with
  | .error e => .error e
  | .ok ps => simulate garbage (maker ps) x

/-! ### Tensors and distributions -/

/-- A tensor with `batch` batch entries (`none`: no batch dimension) and `k` components each. (optimize.py:353-357) -/
structure Val where
  batch : Option ℕ
  k : ℕ
  get : ℕ → ℕ → ℝ

/-- The entry of a broadcast tensor. (optimize.py:353-357) -/
def Val.at (v : Val) (b i : ℕ) : ℝ :=
  match v.batch with
  | none => v.get 0 i
  | some n => if n = 1 then v.get 0 i else v.get b i

/-- A tensor without batch dimension. (optimize.py:353-357) -/
def Val.const (k : ℕ) (x : ℕ → ℝ) : Val := ⟨none, k, fun _ i => x i⟩

/-- A tensor is positive. (optimize.py:353-357) -/
def Val.Pos (v : Val) : Prop :=
  match v.batch with
  | none => ∀ i < v.k, 0 < v.get 0 i
  | some n => ∀ b < n, ∀ i < v.k, 0 < v.get b i

/-- `torch.distributions.Normal.log_prob`, used at optimize.py:207, 253, 379, 390, 546. -/
noncomputable def logNormal (x loc scale : ℝ) : ℝ := -(x - loc) ^ 2 / (2 * scale ^ 2) - Real.log scale - Real.log (√(2 * Real.pi))

/-- `torch.distributions.HalfNormal.log_prob` for values in the support, used at optimize.py:385, 400, 402. -/
noncomputable def logHalfNormal (x scale : ℝ) : ℝ := logNormal x 0 scale + Real.log 2

/-- The distributions used, made independent over the components by `to_event` (optimize.py:207, 379-402, 449-484). -/
inductive Dist
  | normal (loc scale : Val)
  | halfNormal (scale : Val)
  | delta (v : Val)

/-- The number of components of an event. (optimize.py:379-402) -/
def Dist.k : Dist → ℕ
  | .normal loc _ => loc.k
  | .halfNormal scale => scale.k
  | .delta v => v.k

/-- The batch dimension of a distribution (optimize.py:379-402); `none` if the batch shapes cannot be broadcast. -/
def Dist.batch : Dist → Option (Option ℕ)
  | .normal loc scale =>
    match loc.batch, scale.batch with
    | none, s => some s
    | l, none => some l
    | some l, some s => if l = s then some (some l) else if l = 1 then some (some s) else if s = 1 then some (some l) else none
  | .halfNormal scale => some scale.batch
  | .delta v => some v.batch

/-- The log density of component `i` of batch entry `b` (optimize.py:379-402); for `Delta` it is zero at its point. -/
noncomputable def Dist.logProb (d : Dist) (v : Val) (b i : ℕ) : ℝ :=
  match d with
  | .normal loc scale => logNormal (v.at b i) (loc.at b i) (scale.at b i)
  | .halfNormal scale => logHalfNormal (v.at b i) (scale.at b i)
  | .delta _ => 0

/-- The arguments of the distribution are valid: scales are positive (optimize.py:379-402). -/
def Dist.Valid : Dist → Prop
  | .normal _ scale => scale.Pos
  | .halfNormal scale => scale.Pos
  | .delta _ => True

/-- The first `n` batch entries of the value are in the support of the distribution (optimize.py:379-402); a `Delta` is only ever evaluated at its own point. -/
def Dist.Supports (d : Dist) (n : ℕ) (v : Val) : Prop :=
  match d with
  | .halfNormal _ => ∀ b < n, ∀ i < v.k, 0 ≤ v.at b i
  | _ => True

/-! ### Traces -/

/-- What a node of a trace is. (optimize.py:251-255, 443-484, 530-548) -/
inductive Kind
  | sample | param | plate
deriving DecidableEq

/-- A node of a trace (optimize.py:251-255, 443-484, 530-548) with its scaled log density summed over all entries. -/
structure Node where
  name : String
  kind : Kind
  observed : Bool
  value : Val
  logp : ℝ

/-- The trace being recorded, the values cached by the `PyroModule` in this call, and the parameter store. (optimize.py:415, 421, 443, 500) -/
structure St where
  trace : List Node
  cache : List (String × Val)
  store : List (String × Val)

/-- What surrounds a statement: the "trials" plate, the scale, the trace replayed, and the random draws. (optimize.py:251-252, 474, 530-532) -/
structure Env where
  plate : Option ℕ
  scale : ℕ → ℝ
  replay : List Node
  draw : String → ℕ → ℕ → ℝ

/-- Record a node: a name may be repeated only by parameter statements (Pyro's trace, at every statement of optimize.py:251-255, 443-484, 530-548). -/
def addNode (n : Node) (s : St) : Except String St :=
  match s.trace.find? fun q => q.name == n.name with
  | none => .ok { s with trace := s.trace ++ [n] }
  | some q =>
    if n.kind = .param ∧ q.kind = .param then .ok s
    else .error "RuntimeError: multiple sites of the same name"

open Classical in
/-- `pyro.sample` without observation (optimize.py:415, 421, 455-484): expand to the plate, take the value replayed or draw one, record it. -/
noncomputable def sample (e : Env) (name : String) (d : Dist) (s : St) : Except String (Val × St) :=
  if ¬ d.Valid then .error "ValueError: invalid distribution"
  else
    match d.batch with
    | none => .error "RuntimeError: shapes"
    | some db =>
      let batch := e.plate.or db
      if ∃ n m, e.plate = some n ∧ db = some m ∧ m ≠ 1 ∧ m ≠ n then .error "RuntimeError: shape does not match the plate"
      else
        let v : Except String Val :=
          match e.replay.find? fun q => q.name == name with
          | some q => if q.kind = .sample ∧ q.observed = false then .ok q.value else .error "RuntimeError: must be sampled in trace"
          | none => .ok <| match d with
            | .delta v => if v.batch = batch then v else ⟨batch, v.k, v.at⟩
            | d => ⟨batch, d.k, e.draw name⟩
        match v with
        | .error err => .error err
        | .ok v =>
          if v.batch ≠ batch ∨ v.k ≠ d.k then .error "ValueError: shape of the value"
          else if ¬ d.Supports (batch.getD 1) v then .error "ValueError: value outside the support"
          else
            let logp := ∑ b ∈ Finset.range (batch.getD 1), e.scale b * ∑ i ∈ Finset.range d.k, d.logProb v b i
            match addNode ⟨name, .sample, false, v, logp⟩ s with
            | .error err => .error err
            | .ok s => .ok (v, s)

/-- `with pyro.plate(name, size)` (optimize.py:251-252, 474, 530, 545): a plate is a node of the trace without density. -/
def plate (name : String) (s : St) : Except String St := addNode ⟨name, .plate, false, Val.const 0 0, 0⟩ s

open Classical in
/-- The observation `pyro.sample("obs", Normal(results, noise), obs=...)` in the plates "trials" and "time" (optimize.py:251-255, 545-546). Its value is returned. -/
noncomputable def sampleObs (e : Env) (nt nb : ℕ) (results : ℕ → ℕ → ℝ) (noise : ℕ → ℝ) (obs : Option (ℕ → ℕ → ℝ)) (s : St) :
    Except String ((ℕ → ℕ → ℝ) × St) :=
  if ¬ ∀ b < nb, 0 < noise b then .error "ValueError: invalid distribution"
  else
    let y := obs.getD (e.draw "obs")
    let logp := ∑ t ∈ Finset.range nt, ∑ b ∈ Finset.range nb, e.scale b * logNormal (y t b) (results t b) (noise b)
    match addNode ⟨"obs", .sample, obs.isSome, ⟨some nt, nb, y⟩, logp⟩ s with
    | .error err => .error err
    | .ok s => .ok (y, s)

/-- `pyro.param(name, init)` (optimize.py:443-451, 465-469, 477-483): the value in the store, or `init` which is stored. `init = none`: only read (optimize.py:504). -/
def param (name : String) (init : Option Val) (s : St) : Except String (Val × St) :=
  match s.store.find? fun p => p.1 == name with
  | some p =>
    match addNode ⟨name, .param, false, p.2, 0⟩ s with
    | .error err => .error err
    | .ok s => .ok (p.2, s)
  | none =>
    match init with
    | none => .error "KeyError"
    | some v =>
      match addNode ⟨name, .param, false, v, 0⟩ { s with store := s.store ++ [(name, v)] } with
      | .error err => .error err
      | .ok s => .ok (v, s)

/-! ### HierarchicalStatisticalModel -/

/-- The prior of one variable: `loc_loc`, `loc_scale`, `scale_scale`, with `k` components (optimize.py:362-368). -/
structure Prior where
  k : ℕ
  locLoc : ℕ → ℝ
  locScale : ℕ → ℝ
  scaleScale : ℕ → ℝ

/-- The arguments of the constructor (optimize.py:309-322). `priors` is the three lists zipped. `noise` is a scalar or has one dimension. -/
structure Config where
  names : List String
  priors : List Prior
  noise : ℝ ⊕ List ℝ
  locSuffix : String
  scaleSuffix : String
  paramSuffix : String
  includeNoise : Bool
  weights : Option (List (String × ℝ))

/-- The noise as a tensor (optimize.py:396-405). -/
def noiseVal : ℝ ⊕ List ℝ → Val
  | .inl v => Val.const 1 fun _ => v
  | .inr l => Val.const l.length fun i => l.getD i 0

/-- The noise as it is indexed by the type (optimize.py:522-528): back from the tensor. -/
def noiseOf (typed : Bool) (v : Val) : ℝ ⊕ List ℝ := if typed then .inr ((List.range v.k).map (v.at 0)) else .inl (v.at 0 0)

/-- An attribute of the object (optimize.py:376-405): a distribution to sample, the distribution of a bottom level variable, or a plain value. -/
inductive Attr
  | prior (d : Dist)
  | bottom (var : String)
  | plain (v : Val)

/-- The attributes set for one variable (optimize.py:362-394). -/
def varAttrs (c : Config) (p : String × Prior) : List (String × Attr) :=
  [(p.1 ++ c.locSuffix, .prior (.normal (Val.const p.2.k p.2.locLoc) (Val.const p.2.k p.2.locScale))),
   (p.1 ++ c.scaleSuffix, .prior (.halfNormal (Val.const p.2.k p.2.scaleScale))),
   (p.1, .bottom p.1)]

/-- The attributes of the object (optimize.py:362-405). -/
def attrs (c : Config) : List (String × Attr) :=
  (c.names.zip c.priors).flatMap (varAttrs c) ++
    [("eps", if c.includeNoise then .prior (.halfNormal (noiseVal c.noise)) else .plain (noiseVal c.noise))]

/-- `top_vars` (optimize.py:359, 374, 380). -/
def topVars (c : Config) : List String :=
  (c.names.zip c.priors).flatMap fun p => [p.1 ++ c.locSuffix, p.1 ++ c.scaleSuffix]

/-- Pyro checks the distributions when they are built (optimize.py:379, 385, 400, 402). -/
def PriorsValid (c : Config) : Prop :=
  (∀ p ∈ c.names.zip c.priors, (∀ i < p.2.k, 0 < p.2.locScale i) ∧ ∀ i < p.2.k, 0 < p.2.scaleScale i) ∧
    (c.includeNoise = true → (noiseVal c.noise).Pos)

open Classical in
/-- The constructor (optimize.py:309-408); of the object only the table of weights is not a plain copy of the arguments. -/
noncomputable def mk (c : Config) : Except String (List (ℤ × ℝ)) :=
  match weightTable c.weights with
  | .error e => .error e
  | .ok w => if PriorsValid c then .ok w else .error "ValueError: invalid distribution"

/-- `getattr(self, name)` on the `PyroModule` during a call (optimize.py:390-392, 421, 427, 519): sampled once, then cached. `fuel` is Python's recursion limit. -/
noncomputable def get (c : Config) (e : Env) : ℕ → String → St → Except String (Val × St)
  | 0, _, _ => .error "RecursionError"
  | fuel + 1, name, s =>
    match getattr (attrs c) name with
    | .error err => .error err
    | .ok (.plain v) => .ok (v, s)
    | .ok (.prior d) =>
      match s.cache.find? fun p => p.1 == name with
      | some p => .ok (p.2, s)
      | none =>
        match sample e name d s with
        | .error err => .error err
        | .ok (v, s) => .ok (v, { s with cache := s.cache ++ [(name, v)] })
    | .ok (.bottom var) =>
      match s.cache.find? fun p => p.1 == name with
      | some p => .ok (p.2, s)
      | none =>
        match get c e fuel (var ++ c.locSuffix) s with
        | .error err => .error err
        | .ok (loc, s) =>
          match get c e fuel (var ++ c.scaleSuffix) s with
          | .error err => .error err
          | .ok (scale, s) =>
            match sample e name (.normal loc scale) s with
            | .error err => .error err
            | .ok (v, s) => .ok (v, { s with cache := s.cache ++ [(name, v)] })

/-- `sample_top`, `sample_bot` (optimize.py:417-427): the attributes of the list, in order. -/
noncomputable def getAll (c : Config) (e : Env) (fuel : ℕ) : List String → St → Except String (List Val × St)
  | [], s => .ok ([], s)
  | n :: ns, s =>
    match get c e fuel n s with
    | .error err => .error err
    | .ok (v, s) =>
      match getAll c e fuel ns s with
      | .error err => .error err
      | .ok (vs, s) => .ok (v :: vs, s)

/-- `get_extra_params` (optimize.py:490-504): all names must be in the store; then the parameters are read, in order. -/
def extraParams (names : List String) (s : St) : Except String (List Val × St) :=
  if ∃ n ∈ names, (s.store.find? fun p => p.1 == n) = none then .error "ValueError: Internal error, parameter not in store!"
  else
    names.foldl (fun acc n =>
      match acc with
      | .error err => .error err
      | .ok (vs, s) =>
        match param n none s with
        | .error err => .error err
        | .ok (v, s) => .ok (vs ++ [v], s)) (.ok ([], s))

/-- `extra_param_names` (optimize.py:408, 486): empty until `make_guide` has been called. -/
def extraParamNames (c : Config) (guideMade : Bool) : List String := if guideMade then c.names.map (· ++ c.paramSuffix) else []

/-- The arguments of the object's methods that do not change: the constructor's arguments, the table of weights, the factory of models and Python's recursion limit. (optimize.py:309-345) -/
structure Obj where
  c : Config
  w : List (ℤ × ℝ)
  maker : List Val → List Val → Solver
  fuel : ℕ

open Classical in
/-- `HierarchicalStatisticalModel.forward` (optimize.py:506-550). `g1`, `g2` are the contents of uninitialised arrays, `guideMade` says whether `make_guide` has been called. -/
noncomputable def forward (o : Obj) (g1 : ℕ → ℝ) (g2 : ℕ → ℕ → ℝ) (guideMade : Bool) (replay : List Node) (draw : String → ℕ → ℕ → ℝ) (x : Data)
    (obs : Option (ℕ → ℕ → ℝ)) (store : List (String × Val)) : Except String ((ℕ → ℕ → ℝ) × St) :=
  let e : Env := ⟨none, fun _ => 1, replay, draw⟩
  match getAll o.c e o.fuel (topVars o.c) ⟨[], [], store⟩ with
  | .error err => .error err
  | .ok (_, s) =>
    match get o.c e o.fuel "eps" s with
    | .error err => .error err
    | .ok (eps, s) =>
      match fullNoise g1 (noiseOf o.c.noise.isRight eps) x.types with
      | .error err => .error err
      | .ok noise =>
        match plate "trials" s with
        | .error err => .error err
        | .ok s =>
          let scale := weightTensor o.w x.types
          if ¬ ∀ b < x.nb, 0 < scale b then .error "ValueError: Expected scale > 0"
          else
            let e : Env := ⟨some x.nb, scale, replay, draw⟩
            match getAll o.c e o.fuel o.c.names s with
            | .error err => .error err
            | .ok (params, s) =>
              match extraParams (extraParamNames o.c guideMade) s with
              | .error err => .error err
              | .ok (extra, s) =>
                match simulate g2 (o.maker params extra) x with
                | .error err => .error err
                | .ok results =>
                  match plate "time" s with
                  | .error err => .error err
                  | .ok s =>
                    match sampleObs e x.nt x.nb results noise obs s with
                    | .error err => .error err
                    | .ok (_, s) => .ok (results, s)

/-- The top level part of the guide for one variable (optimize.py:436-462). -/
noncomputable def guideTop (c : Config) (e : Env) (acc : Except String St) (p : String × Prior) : Except String St :=
  match acc with
  | .error err => .error err
  | .ok s =>
    match param (p.1 ++ c.locSuffix ++ c.paramSuffix) (some (Val.const p.2.k p.2.locLoc)) s with
    | .error err => .error err
    | .ok (loc, s) =>
      match param (p.1 ++ c.scaleSuffix ++ c.paramSuffix) (some (Val.const p.2.k p.2.scaleScale)) s with
      | .error err => .error err
      | .ok (scale, s) =>
        match sample e (p.1 ++ c.locSuffix) (.delta loc) s with
        | .error err => .error err
        | .ok (_, s) =>
          match sample e (p.1 ++ c.scaleSuffix) (.delta scale) s with
          | .error err => .error err
          | .ok (_, s) => .ok s

/-- The bottom level part of the guide for one variable (optimize.py:475-484): by default every test starts from the location prior. -/
noncomputable def guideBot (c : Config) (e : Env) (nb : ℕ) (acc : Except String St) (p : String × Prior) : Except String St :=
  match acc with
  | .error err => .error err
  | .ok s =>
    match param (p.1 ++ c.paramSuffix) (some ⟨some nb, p.2.k, fun _ i => p.2.locLoc i⟩) s with
    | .error err => .error err
    | .ok (v, s) =>
      match sample e p.1 (.delta v) s with
      | .error err => .error err
      | .ok (_, s) => .ok s

/-- The noise part of the guide (optimize.py:464-472). -/
noncomputable def guideNoise (c : Config) (e : Env) (s : St) : Except String St :=
  if c.includeNoise then
    match param ("eps" ++ c.paramSuffix) (some (noiseVal c.noise)) s with
    | .error err => .error err
    | .ok (v, s) =>
      match sample e "eps" (.delta v) s with
      | .error err => .error err
      | .ok (_, s) => .ok s
  else .ok s

/-- The guide returned by `make_guide` (optimize.py:429-488), run on a batch of `nb` tests. -/
noncomputable def guide (c : Config) (nb : ℕ) (draw : String → ℕ → ℕ → ℝ) (store : List (String × Val)) : Except String St :=
  let e : Env := ⟨none, fun _ => 1, [], draw⟩
  match (c.names.zip c.priors).foldl (guideTop c e) (.ok ⟨[], [], store⟩) with
  | .error err => .error err
  | .ok s =>
    match guideNoise c e s with
    | .error err => .error err
    | .ok s =>
      match plate "trials" s with
      | .error err => .error err
      | .ok s => (c.names.zip c.priors).foldl (guideBot c ⟨some nb, fun _ => 1, [], draw⟩ nb) (.ok s)

/-- `log_prob_sum` of a trace. (used with optimize.py:429-550 by Pyro's `Trace_ELBO`) -/
noncomputable def logProbSum (t : List Node) : ℝ := (t.map Node.logp).sum

/-- Pyro's `Trace_ELBO` estimate for the model and its guide (optimize.py:429-550): run the guide, replay the model, subtract the log densities. The store is returned too. -/
noncomputable def elbo (o : Obj) (g1 : ℕ → ℝ) (g2 : ℕ → ℕ → ℝ) (draw draw' : String → ℕ → ℕ → ℝ) (x : Data) (obs : Option (ℕ → ℕ → ℝ))
    (store : List (String × Val)) : Except String (ℝ × List (String × Val)) :=
  match guide o.c x.nb draw store with
  | .error err => .error err
  | .ok s =>
    match forward o g1 g2 true s.trace draw' x obs s.store with
    | .error err => .error err
    | .ok (_, s') => .ok (logProbSum s'.trace - logProbSum s.trace, s'.store)

/-! ### StatisticalModel -/

/-- The attributes of a `StatisticalModel` (optimize.py:202-207) sampled one after the other, each name once (optimize.py:215-219). -/
noncomputable def statParams (locs scales : List Val) (names : List String) (e : Env) : List String → St → Except String (List Val × St)
  | [], s => .ok ([], s)
  | n :: ns, s =>
    match getattr (names.zip (locs.zip scales)) n with
    | .error err => .error err
    | .ok d =>
      let r : Except String (Val × St) := match s.cache.find? fun p => p.1 == n with
        | some p => .ok (p.2, s)
        | none =>
          match sample e n (.normal d.1 d.2) s with
          | .error err => .error err
          | .ok (v, s) => .ok (v, { s with cache := s.cache ++ [(n, v)] })
      match r with
      | .error err => .error err
      | .ok (v, s) =>
        match statParams locs scales names e ns s with
        | .error err => .error err
        | .ok (vs, s) => .ok (v :: vs, s)

/-- `StatisticalModel.forward` (optimize.py:215-255), without `nan_to_num` (there are no NaN in the reals). Here the value of the observation statement is returned. -/
noncomputable def statForward (maker : List Val → Solver) (names : List String) (locs scales : List Val) (eps : ℝ ⊕ List ℝ) (g1 : ℕ → ℝ)
    (g2 : ℕ → ℕ → ℝ) (draw : String → ℕ → ℕ → ℝ) (x : Data) (obs : Option (ℕ → ℕ → ℝ)) : Except String ((ℕ → ℕ → ℝ) × St) :=
  let e : Env := ⟨none, fun _ => 1, [], draw⟩
  match statParams locs scales names e names ⟨[], [], []⟩ with
  | .error err => .error err
  | .ok (params, s) =>
    match simulate g2 (maker params) x with
    | .error err => .error err
    | .ok results =>
      match fullNoise g1 eps x.types with
      | .error err => .error err
      | .ok noise =>
        match plate "trials" s with
        | .error err => .error err
        | .ok s =>
          match plate "time" s with
          | .error err => .error err
          | .ok s => sampleObs ⟨some x.nb, fun _ => 1, [], draw⟩ x.nt x.nb results noise obs s

end Pyoptmat.Optimize
