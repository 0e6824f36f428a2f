import Verif.Model.Tensor
import Verif.Model.Material
import Verif.Model.Temperature

/-!
# The material models as torch programs

The same code as `Model/Temperature.lean`, `Model/Hardening.lean`, `Model/Flow.lean`, `Model/Damage.lean` and `Model/Material.lean`, but with whole
tensors: every indexing, `unsqueeze`, `reshape`, `cat` and broadcast of the code appears here, and anything torch refuses is an
exception. Methods receive tensors (Python evaluates arguments first) and return an expression of type `TE`.
-/

namespace Pyoptmat.Tensor

open Pyoptmat.Material (sgn heaviside macaulay offset)

/-! ## temperature.py -/

/-- A `TemperatureParameter`: its `value` method, the `scaling` of its base class and its `shape` property
(temperature.py:49-70). Scale functions are taken to act on each entry. -/
structure TParam where
  value : Tensor → TE
  scaling : ℝ → ℝ := fun x => x
  pshape : List ℕ

/-- `forward` (temperature.py:63-70) -/
def TParam.call (p : TParam) (T : Tensor) : TE := map p.scaling (p.value T)

/-- `ConstantParameter` (temperature.py:73-114). -/
def tConstant (pvalue : Tensor) (pScale scaling : ℝ → ℝ) : TParam where
  value _ := map pScale pvalue
  scaling := scaling
  pshape := pvalue.shape

/-- `ShearModulusScaling` (temperature.py:117-166). -/
def tShear (A : Tensor) (mu : TParam) (AScale scaling : ℝ → ℝ) : TParam where
  value T := map AScale A * mu.call T
  scaling := scaling
  pshape := A.shape

/-- `ShearModulusScalingExp` (temperature.py:169-218). -/
noncomputable def tShearExp (A : Tensor) (mu : TParam) (AScale scaling : ℝ → ℝ) : TParam where
  value T := map Real.exp (map AScale A) * mu.call T
  scaling := scaling
  pshape := A.shape

/-- `MTSScaling` (temperature.py:221-307). `k` and `b` are tensors or numbers. -/
noncomputable def tMts (tau0 g0 q p k b : Tensor) (mu : TParam) (tau0Scale g0Scale qScale pScale scaling : ℝ → ℝ) : TParam where
  value T := map tau0Scale tau0 *
    pow (num 1 - pow ((k : TE) * (T : TE) / (mu.call T * pow b (num 3) * map g0Scale g0)) (num 1 / map qScale q)) (num 1 / map pScale p)
  scaling := scaling
  pshape := tau0.shape

/-- `KMRateSensitivityScaling` (temperature.py:310-370). -/
noncomputable def tKmRate (A : Tensor) (mu : TParam) (b k : Tensor) (AScale : ℝ → ℝ) (cutoff : ℝ) (scaling : ℝ → ℝ) : TParam where
  value T := map (fun x => Temperature.clip x 1 cutoff) (-mu.call T * pow b (num 3) / ((k : TE) * (T : TE) * map AScale A))
  scaling := scaling
  pshape := A.shape

/-- `KMViscosityScaling` (temperature.py:373-456). -/
noncomputable def tKmViscosity (A B : Tensor) (mu : TParam) (eps0 b k : Tensor) (AScale BScale scaling : ℝ → ℝ) : TParam where
  value T := map Real.exp (map BScale B) * mu.call T * pow eps0 (-num 1 / (tKmRate A mu b k AScale 1000 fun x => x).call T)
  scaling := scaling
  pshape := B.shape

/-- `ArrheniusScaling` (temperature.py:582-630). -/
noncomputable def tArrhenius (A Q : Tensor) (AScale QScale scaling : ℝ → ℝ) : TParam where
  value T := map AScale A * map Real.exp (-map QScale Q / (T : TE))
  scaling := scaling
  pshape := A.shape

/-- `InverseArrheniusScaling` (temperature.py:633-681). -/
noncomputable def tInverseArrhenius (A Q : Tensor) (AScale QScale scaling : ℝ → ℝ) : TParam where
  value T := map AScale A * (num 1 - map Real.exp (-map QScale Q / (T : TE)))
  scaling := scaling
  pshape := A.shape

/-- `x[j]`: the first dimension is the last of the list. (temperature.py:496) -/
def firstIndex (j : ℕ) (x : Tensor) : Tensor := ⟨x.shape.dropLast, fun i => x.data (i ++ [j])⟩

/-- `PolynomialScaling` (temperature.py:459-508): `acoefs[0]` fails without any coefficient; the loop runs over the first dimension and
works in place. (The shape property indexes `coefs[0]`; it is not used when that fails.) -/
def tPolynomial (coefs : Tensor) (scaleFn scaling : ℝ → ℝ) : TParam where
  value T := TE.bind (map scaleFn coefs) fun a =>
    match a.shape.getLast? with
    | none => (Except.error "IndexError: invalid index of a 0-dim tensor" : TE)
    | some 0 => (Except.error "IndexError: index 0 is out of bounds" : TE)
    | some (n + 1) => (List.range n).foldl (fun res j => inplace (· + ·) (inplace (· * ·) res T) (firstIndex (j + 1) a))
        (full T.shape 0 + (firstIndex 0 a : TE))
  scaling := scaling
  pshape := coefs.shape.dropLast

/-- `PiecewiseScaling` (temperature.py:511-579); `x[(...,) + (None,) * T.dim()]` appends dimensions of size one. The `shape` property drops the
first dimension of `values`. -/
noncomputable def tPiecewise (control values : Tensor) (scaleFn scaling : ℝ → ℝ) : TParam where
  value T := TE.bind (map scaleFn values) fun vcurr =>
    TE.bind ((sliceFrom 1 vcurr - sliceInit vcurr) / (sliceFrom 1 control - sliceInit control)) fun slopes =>
    TE.bind (unsq T - sliceInit control) fun offsets =>
    TE.bind (reshape offsets.shape (lead slopes * (offsets : TE) + lead (sliceInit vcurr))) fun poss =>
    reshape T.shape (maskSelect poss (movedim (orFirst
      (logical And (cmp (· ≤ ·) T (unsq^[T.shape.length] (firstFrom control))) (cmp (· > ·) T (unsq^[T.shape.length] (firstInit control))))
      (cmp (· = ·) T (unsq^[T.shape.length] (first 0 control))))))
  scaling := scaling
  pshape := values.shape.dropLast

/-! ## hardening.py -/

/-- The methods of a hardening model (hardening.py:24-61), argument order `s h t ep T e`. -/
structure THardening where
  nhist : ℕ
  value : Tensor → TE
  dvalue : Tensor → TE
  rate : Tensor → Tensor → Tensor → Tensor → Tensor → Tensor → TE
  drate_ds : Tensor → Tensor → Tensor → Tensor → Tensor → Tensor → TE
  drate_dh : Tensor → Tensor → Tensor → Tensor → Tensor → Tensor → TE
  drate_dep : Tensor → Tensor → Tensor → Tensor → Tensor → Tensor → TE
  /-- the base class (hardening.py:33-51) -/
  drate_de : Tensor → Tensor → Tensor → Tensor → Tensor → Tensor → TE := fun _ h _ _ _ _ => full h.shape 0

/-- `h[..., 0]` of the history (hardening.py:95) -/
def h0 (h : Tensor) : TE := sel 0 h

/-- `torch.ones_like(x)` of an expression (hardening.py:166) -/
def onesLike (x : TE) : TE := TE.bind x fun t => full t.shape 1

/-- `VoceIsotropicHardeningModel` (hardening.py:64-186). -/
noncomputable def tVoce (R d : TParam) : THardening where
  nhist := 1
  value h := h0 h
  dvalue h := full (1 :: h.shape.tail) 1
  rate _ h _ ep T _ := unsq (d.call T * (R.call T - h0 h) * map abs ep)
  drate_ds _ h _ _ _ _ := full h.shape 0
  drate_dh _ h _ ep T _ := unsq (unsq (-d.call T * onesLike (h0 h) * map abs ep))
  drate_dep _ h _ ep T _ := unsq (unsq (d.call T * (R.call T - h0 h) * map sgn ep))

/-- `Theta0VoceIsotropicHardeningModel` (hardening.py:189-318). -/
noncomputable def tTheta0Voce (tau theta : TParam) : THardening where
  nhist := 1
  value h := h0 h
  dvalue h := full (1 :: h.shape.tail) 1
  rate _ h _ ep T _ := unsq (theta.call T * (num 1 - h0 h / tau.call T) * map abs ep)
  drate_ds _ h _ _ _ _ := full h.shape 0
  drate_dh _ h _ ep T _ := unsq (unsq (-theta.call T / tau.call T * onesLike (h0 h) * map abs ep))
  drate_dep _ h _ ep T _ := unsq (unsq (theta.call T * (num 1 - h0 h / tau.call T) * map sgn ep))

/-- `Theta0RecoveryVoceIsotropicHardeningModel` (hardening.py:321-444). -/
noncomputable def tTheta0Recovery (tau theta R0 r1 r2 : TParam) : THardening where
  nhist := 1
  value h := h0 h
  dvalue h := full (1 :: h.shape.tail) 1
  rate _ h _ ep T _ := unsq (theta.call T * (num 1 - h0 h / tau.call T) * map abs ep +
    r1.call T * (R0.call T - h0 h) * pow (map abs (R0.call T - h0 h)) (r2.call T - num 1))
  drate_ds _ h _ _ _ _ := full h.shape 0
  drate_dh _ h _ ep T _ := unsq (unsq (-theta.call T / tau.call T * onesLike (h0 h) * map abs ep)) -
    unsq (unsq (r2.call T * r1.call T * pow (map abs (R0.call T - h0 h)) (r2.call T - num 1)))
  drate_dep _ h _ ep T _ := unsq (unsq (theta.call T * (num 1 - h0 h / tau.call T) * map sgn ep))

/-- `NoKinematicHardeningModel` (hardening.py:458-554). `torch.empty` tensors hold anything; they have no entries when `h` has none, here zeros. -/
def tNoKinematic : THardening where
  nhist := 0
  value h := full h.shape.tail 0
  dvalue h := full (0 :: h.shape.tail) 0
  rate _ h _ _ _ _ := full h.shape 0
  drate_ds _ h _ _ _ _ := full h.shape 0
  drate_dh _ h _ _ _ _ := full (0 :: 0 :: h.shape.tail) 0
  drate_dep _ h _ _ _ _ := full (1 :: 0 :: h.shape.tail) 0

/-- `FAKinematicHardeningModel` (hardening.py:557-702). -/
noncomputable def tFa (C g b r : TParam) : THardening where
  nhist := 1
  value h := h0 h
  dvalue h := full (1 :: h.shape.tail) 1
  rate _ h _ ep T _ := unsq (C.call T * onesLike (h0 h) * (ep : TE) - g.call T * h0 h * map abs ep -
    b.call T * pow (map abs (h0 h)) (r.call T - num 1) * h0 h)
  drate_ds _ h _ _ _ _ := full h.shape 0
  drate_dh _ h _ ep T _ := unsq (unsq (-g.call T * onesLike (h0 h) * map abs ep -
    b.call T * r.call T * pow (map abs (h0 h)) (r.call T - num 1)))
  drate_dep _ h _ ep T _ := unsq (unsq (C.call T - g.call T * h0 h * map sgn ep))

/-- The defaults of the constructor (hardening.py:584-589): constants with the shape of `C`. -/
noncomputable def tFaDefault (C g : TParam) : THardening :=
  tFa C g (tConstant ⟨C.pshape, fun _ => 0⟩ (fun x => x) fun x => x) (tConstant ⟨C.pshape, fun _ => 1⟩ (fun x => x) fun x => x)

/-- `FAKinematicHardeningModelNoRecovery` (hardening.py:705-834). -/
noncomputable def tFaNoRecovery (C g : TParam) : THardening where
  nhist := 1
  value h := h0 h
  dvalue h := full (1 :: h.shape.tail) 1
  rate _ h _ ep T _ := unsq (C.call T * onesLike (h0 h) * (ep : TE) - g.call T * h0 h * map abs ep)
  drate_ds _ h _ _ _ _ := full h.shape 0
  drate_dh _ h _ ep T _ := unsq (unsq (-g.call T * onesLike (h0 h) * map abs ep))
  drate_dep _ h _ ep T _ := unsq (unsq (C.call T - g.call T * h0 h * map sgn ep))

/-- `ChabocheHardeningModel` (hardening.py:837-978). `self.C.shape[-1]` needs a dimension; without one the constructor fails, here `nback` is 0. -/
noncomputable def tChaboche (C g : TParam) : THardening where
  nhist := C.pshape.headD 0
  value h := sumLast h
  dvalue h := full (C.pshape.headD 0 :: h.shape.tail) 1
  rate _ h _ ep T _ := reshape h.shape (lead (C.call T) * unsq ep - lead (g.call T) * (h : TE) * unsq (map abs ep))
  drate_ds _ h _ _ _ _ := full h.shape 0
  drate_dh _ h _ ep T _ := reshape (C.pshape.headD 0 :: h.shape) (diagEmbed (-lead (g.call T) * unsq (map abs ep)))
  drate_dep _ h _ ep T _ := reshape (1 :: h.shape)
    (unsq (lead (C.call T) * unsq (onesLike ep) - lead (g.call T) * (h : TE) * unsq (map sgn ep)))

/-- `ChabocheHardeningModelRecovery` (hardening.py:981-1137). -/
noncomputable def tChabocheRecovery (C g b r : TParam) : THardening where
  nhist := C.pshape.headD 0
  value h := sumLast h
  dvalue h := full (C.pshape.headD 0 :: h.shape.tail) 1
  rate _ h _ ep T _ := reshape h.shape (lead (C.call T) * unsq ep - lead (g.call T) * (h : TE) * unsq (map abs ep) -
    lead (b.call T) * pow (map abs h) (lead (r.call T) - num 1) * (h : TE))
  drate_ds _ h _ _ _ _ := full h.shape 0
  drate_dh _ h _ ep T _ := reshape (C.pshape.headD 0 :: h.shape) (diagEmbed (-lead (g.call T) * unsq (map abs ep))) +
    reshape (C.pshape.headD 0 :: h.shape) (diagEmbed (-lead (b.call T) * lead (r.call T) * pow (map abs h) (lead (r.call T) - num 1)))
  drate_dep _ h _ ep T _ := reshape (1 :: h.shape)
    (unsq (lead (C.call T) * unsq (onesLike ep) - lead (g.call T) * (h : TE) * unsq (map sgn ep)))

/-- The loops of `SuperimposedKinematicHardening` over `zip(offsets, nhist_per, models)` (hardening.py:1157-1311). `hs o n h` is `h[..., o : o + n]`. -/
def hs {k : ℕ} (nh : Fin k → ℕ) (i : Fin k) (h : Tensor) : TE := slice (offset nh i) (offset nh i + nh i) h

/-- `SuperimposedKinematicHardening` (hardening.py:1140-1311). -/
def tSuperimposedKinematic {k : ℕ} (models : Fin k → THardening) : THardening :=
  let nh : Fin k → ℕ := fun i => (models i).nhist
  { nhist := ∑ i, nh i
    value := fun h => (List.finRange k).foldl
      (fun v i => inplace (· + ·) v (TE.bind (hs nh i h) fun hi => (models i).value hi)) (full h.shape.tail 0)
    dvalue := fun h => (List.finRange k).foldl
      (fun v i => setSlice (offset nh i) (nh i) v (TE.bind (hs nh i h) fun hi => (models i).dvalue hi)) (full ((∑ i, nh i) :: h.shape.tail) 0)
    rate := fun s h t ep T e => (List.finRange k).foldl
      (fun v i => setSlice (offset nh i) (nh i) v (TE.bind (hs nh i h) fun hi => (models i).rate s hi t ep T e)) (full h.shape 0)
    drate_ds := fun s h t ep T e => (List.finRange k).foldl
      (fun v i => setSlice (offset nh i) (nh i) v (TE.bind (hs nh i h) fun hi => (models i).drate_ds s hi t ep T e)) (full h.shape 0)
    drate_dh := fun s h t ep T e => (List.finRange k).foldl
      (fun v i => setBlock (offset nh i) (nh i) v (TE.bind (hs nh i h) fun hi => (models i).drate_dh s hi t ep T e))
      (full ((∑ i, nh i) :: (∑ i, nh i) :: h.shape.tail) 0)
    drate_dep := fun s h t ep T e => (List.finRange k).foldl
      (fun v i => setRows (offset nh i) (nh i) v (TE.bind (hs nh i h) fun hi => (models i).drate_dep s hi t ep T e)) (full (1 :: h.shape) 0)
    drate_de := fun s h t ep T e => (List.finRange k).foldl
      (fun v i => setSlice (offset nh i) (nh i) v (TE.bind (hs nh i h) fun hi => (models i).drate_de s hi t ep T e)) (full h.shape 0) }

/-! ## flowrules.py -/

/-- The methods of a flow rule (flowrules.py:33-119), argument order `s h t T e`. `flow_rate` and `history_rate` return pairs. -/
structure TFlowRule where
  nhist : ℕ
  flow_rate : Tensor → Tensor → Tensor → Tensor → Tensor → Except String (Tensor × Tensor)
  /-- base class: flowrules.py:43-61 -/
  dflow_dhist : Tensor → Tensor → Tensor → Tensor → Tensor → TE := fun s h _ _ _ => full (h.shape.headD 0 :: 1 :: s.shape) 0
  /-- base class: flowrules.py:63-81 -/
  dflow_derate : Tensor → Tensor → Tensor → Tensor → Tensor → TE := fun s _ _ _ _ => full s.shape 0
  history_rate : Tensor → Tensor → Tensor → Tensor → Tensor → Except String (Tensor × Tensor)
  /-- base class: flowrules.py:83-100 -/
  dhist_dstress : Tensor → Tensor → Tensor → Tensor → Tensor → TE := fun _ h _ _ _ => full h.shape 0
  /-- base class: flowrules.py:102-119 -/
  dhist_derate : Tensor → Tensor → Tensor → Tensor → Tensor → TE := fun _ h _ _ _ => full h.shape 0

/-- a pair of results (flowrules.py:252) -/
def pair (x y : TE) : Except String (Tensor × Tensor) := TE.bind x fun a => TE.bind y fun b => .ok (a, b)

/-- using a pair of results (flowrules.py:249) -/
def withPair {α : Type} (x : Except String (Tensor × Tensor)) (f : Tensor → Tensor → Except String α) : Except String α :=
  match x with
  | .error e => .error e
  | .ok p => f p.1 p.2

/-- `PerfectViscoplasticity` (flowrules.py:1059-1126). -/
noncomputable def tPerfect (n eta : TParam) : TFlowRule where
  nhist := 0
  flow_rate s _ _ T _ := pair (pow (map abs s / eta.call T) (n.call T) * map sgn s)
    (n.call T * pow (map abs s / eta.call T) (n.call T - num 1) / eta.call T)
  history_rate _ h _ _ _ := pair (full h.shape 0) (full (h.shape.headD 0 :: h.shape) 0)

/-- Parameters of `IsoKinViscoplasticity` (flowrules.py:1159-1165). -/
structure TIsoKin where
  n : TParam
  eta : TParam
  s0 : TParam
  iso : THardening
  kin : THardening

/-- `(|s - kh| - s0(T) - ih) / eta(T)` (flowrules.py:1186, 1214) -/
noncomputable def TIsoKin.over (p : TIsoKin) (s ih kh T : Tensor) : TE := (map abs ((s : TE) - (kh : TE)) - p.s0.call T - (ih : TE)) / p.eta.call T

/-- `flow_rate` (flowrules.py:1167-1193). -/
noncomputable def TIsoKin.flow (p : TIsoKin) (s h T : Tensor) : Except String (Tensor × Tensor) :=
  TE.bind (slice 0 p.iso.nhist h) fun hi => TE.bind (p.iso.value hi) fun ih => TE.bind (sliceFrom p.iso.nhist h) fun hk => TE.bind (p.kin.value hk) fun kh =>
    pair (pow (map macaulay (p.over s ih kh T)) (p.n.call T) * map sgn ((s : TE) - (kh : TE)))
      (p.n.call T * pow (map macaulay (p.over s ih kh T)) (p.n.call T - num 1) / p.eta.call T)

/-- `dflow_diso` (flowrules.py:1195-1221). -/
noncomputable def TIsoKin.diso (p : TIsoKin) (s h T : Tensor) : TE :=
  TE.bind (slice 0 p.iso.nhist h) fun hi => TE.bind (p.iso.value hi) fun ih =>
    TE.bind (slice p.iso.nhist (p.iso.nhist + p.kin.nhist) h) fun hk => TE.bind (p.kin.value hk) fun kh =>
      -p.n.call T * pow (map macaulay (p.over s ih kh T)) (p.n.call T - num 1) / p.eta.call T * map sgn ((s : TE) - (kh : TE))

/-- `dflow_dkin` (flowrules.py:1223-1247). -/
noncomputable def TIsoKin.dkin (p : TIsoKin) (s h T : Tensor) : TE :=
  TE.bind (slice 0 p.iso.nhist h) fun hi => TE.bind (p.iso.value hi) fun ih =>
    TE.bind (slice p.iso.nhist (p.iso.nhist + p.kin.nhist) h) fun hk => TE.bind (p.kin.value hk) fun kh =>
      -p.n.call T * pow (map macaulay (p.over s ih kh T)) (p.n.call T - num 1) / p.eta.call T

/-- `IsoKinViscoplasticity` (flowrules.py:1129-1427). -/
noncomputable def tIsoKin (p : TIsoKin) : TFlowRule where
  nhist := p.iso.nhist + p.kin.nhist
  flow_rate s h _ T _ := p.flow s h T
  dflow_dhist s h _ T _ := TE.bind (slice 0 p.iso.nhist h) fun hi => TE.bind (sliceFrom p.iso.nhist h) fun hk =>
    unsqRow (cat (unsq (p.diso s h T) * p.iso.dvalue hi) (unsq (p.dkin s h T) * p.kin.dvalue hk))
  history_rate s h t T e := withPair (p.flow s h T) fun ep _ =>
    TE.bind (slice 0 p.iso.nhist h) fun hi => TE.bind (sliceFrom p.iso.nhist h) fun hk =>
      pair (cat (p.iso.rate s hi t ep T e) (p.kin.rate s hk t ep T e))
        (catRow
          (cat (p.iso.drate_dh s hi t ep T e +
              mbmm (p.iso.drate_dep s hi t ep T e) (mbmm (unsq (unsq (p.diso s h T))) (unsqRow (p.iso.dvalue hi))))
            (p.iso.drate_dep s hi t ep T e * unsq (unsq (p.dkin s h T)) * unsqRow (p.kin.dvalue hk)))
          (cat (mbmm (p.kin.drate_dep s hk t ep T e) (mbmm (unsq (unsq (p.diso s h T))) (unsqRow (p.iso.dvalue hi))))
            (p.kin.drate_dh s hk t ep T e +
              mbmm (p.kin.drate_dep s hk t ep T e) (mbmm (unsq (unsq (p.dkin s h T))) (unsqRow (p.kin.dvalue hk))))))
  dhist_dstress s h t T e := withPair (p.flow s h T) fun ep dep =>
    TE.bind (slice 0 p.iso.nhist h) fun hi => TE.bind (sliceFrom p.iso.nhist h) fun hk =>
      cat (p.iso.drate_ds s hi t ep T e + sel 0 (mbmm (p.iso.drate_dep s hi t ep T e) (unsq (unsq dep))))
        (p.kin.drate_ds s hk t ep T e + sel 0 (mbmm (p.kin.drate_dep s hk t ep T e) (unsq (unsq dep))))
  dhist_derate s h t T e := withPair (p.flow s h T) fun ep _ =>
    TE.bind (slice 0 p.iso.nhist h) fun hi => TE.bind (sliceFrom p.iso.nhist h) fun hk =>
      cat (p.iso.drate_de s hi t ep T e) (p.kin.drate_de s hk t ep T e)

/-- `RateIndependentFlowRuleWrapper.scale` (flowrules.py:743-753); `lmbda` and `eps_ref` are numbers or tensors. -/
noncomputable def tScale (lmbda epsRef e : Tensor) : TE := num 1 - (lmbda : TE) + (lmbda : TE) * map abs e / (epsRef : TE)

/-- `dscale` (flowrules.py:755-768). -/
noncomputable def tDScale (lmbda epsRef e : Tensor) : TE := map sgn e * (lmbda : TE) / (epsRef : TE)

/-- `RateIndependentFlowRuleWrapper` (flowrules.py:697-882). -/
noncomputable def tRateIndependent (base : TFlowRule) (lmbda epsRef : Tensor) : TFlowRule where
  nhist := base.nhist
  flow_rate s h t T e := withPair (base.flow_rate s h t T e) fun f df =>
    pair (tScale lmbda epsRef e * (f : TE)) (tScale lmbda epsRef e * (df : TE))
  dflow_dhist s h t T e := base.dflow_dhist s h t T e * unsq (unsq (tScale lmbda epsRef e))
  dflow_derate s h t T e := base.dflow_derate s h t T e * tScale lmbda epsRef e +
    withPair (base.flow_rate s h t T e) (fun f _ => (f : TE)) * tDScale lmbda epsRef e
  history_rate s h t T e := withPair (base.history_rate s h t T e) fun r dr =>
    pair (unsq (tScale lmbda epsRef e) * (r : TE)) (unsq (unsq (tScale lmbda epsRef e)) * (dr : TE))
  dhist_dstress s h t T e := unsq (tScale lmbda epsRef e) * base.dhist_dstress s h t T e
  dhist_derate s h t T e := base.dhist_derate s h t T e * unsq (tScale lmbda epsRef e) +
    withPair (base.history_rate s h t T e) (fun r _ => (r : TE)) * unsq (tDScale lmbda epsRef e)

/-- `SuperimposedFlowRule` (flowrules.py:885-1056). The two accumulators of a loop are independent, so the loop over the pair is written as two. -/
def tSuperimposed {k : ℕ} (models : Fin k → TFlowRule) : TFlowRule :=
  let nh : Fin k → ℕ := fun i => (models i).nhist
  { nhist := ∑ i, nh i
    flow_rate := fun s h t T e => pair
      ((List.finRange k).foldl (fun v i => inplace (· + ·) v
        (TE.bind (hs nh i h) fun hi => withPair ((models i).flow_rate s hi t T e) fun r _ => (r : TE))) (full s.shape 0))
      ((List.finRange k).foldl (fun v i => inplace (· + ·) v
        (TE.bind (hs nh i h) fun hi => withPair ((models i).flow_rate s hi t T e) fun _ dr => (dr : TE))) (full s.shape 0))
    dflow_dhist := fun s h t T e => (List.finRange k).foldl
      (fun v i => setSlice (offset nh i) (nh i) v (TE.bind (hs nh i h) fun hi => (models i).dflow_dhist s hi t T e)) (full (h.shape.headD 0 :: 1 :: s.shape) 0)
    dflow_derate := fun s h t T e => (List.finRange k).foldl
      (fun v i => inplace (· + ·) v (TE.bind (hs nh i h) fun hi => (models i).dflow_derate s hi t T e)) (full e.shape 0)
    history_rate := fun s h t T e => pair
      ((List.finRange k).foldl (fun v i => setSlice (offset nh i) (nh i) v
        (TE.bind (hs nh i h) fun hi => withPair ((models i).history_rate s hi t T e) fun r _ => (r : TE))) (full h.shape 0))
      ((List.finRange k).foldl (fun v i => setBlock (offset nh i) (nh i) v
        (TE.bind (hs nh i h) fun hi => withPair ((models i).history_rate s hi t T e) fun _ dr => (dr : TE))) (full (h.shape.headD 0 :: h.shape) 0))
    dhist_dstress := fun s h t T e => (List.finRange k).foldl
      (fun v i => setSlice (offset nh i) (nh i) v (TE.bind (hs nh i h) fun hi => (models i).dhist_dstress s hi t T e)) (full h.shape 0)
    dhist_derate := fun s h t T e => (List.finRange k).foldl
      (fun v i => setSlice (offset nh i) (nh i) v (TE.bind (hs nh i h) fun hi => (models i).dhist_derate s hi t T e)) (full h.shape 0) }

/-- Parameters of the two Kocks-Mecking rules (flowrules.py:157-181, 419-446); `g0` after `g0_scale`. -/
structure TKM where
  g0 : Tensor
  mu : TParam
  b : Tensor
  eps0 : Tensor
  k : Tensor
  eps : Tensor

/-- `g(T, e)` (flowrules.py:197-213, 462-478): uses `mu.value`, without `mu`'s scaling. -/
noncomputable def TKM.g (p : TKM) (T e : Tensor) : TE :=
  (p.k : TE) * (T : TE) / (p.mu.value T * pow p.b (num 3)) * map Real.log ((p.eps0 : TE) / (map abs e + (p.eps : TE)))

/-- `switch_values` (flowrules.py:215-230). -/
noncomputable def TKM.switch (p : TKM) (x y : TE) (T e : Tensor) : TE := maskedCopy x y (p.g T e) p.g0

/-- `KocksMeckingRegimeFlowRule` (flowrules.py:122-365) after the size check. -/
noncomputable def tKmSwitch (m1 m2 : TFlowRule) (p : TKM) : TFlowRule where
  nhist := m1.nhist
  flow_rate s h t T e := withPair (m1.flow_rate s h t T e) fun f1 d1 => withPair (m2.flow_rate s h t T e) fun f2 d2 =>
    pair (p.switch f1 f2 T e) (p.switch d1 d2 T e)
  dflow_dhist s h t T e := p.switch (m1.dflow_dhist s h t T e) (m2.dflow_dhist s h t T e) T e
  dflow_derate s h t T e := p.switch (m1.dflow_derate s h t T e) (m2.dflow_derate s h t T e) T e
  history_rate s h t T e := withPair (m1.history_rate s h t T e) fun f1 d1 => withPair (m2.history_rate s h t T e) fun f2 d2 =>
    pair (p.switch f1 f2 T e) (p.switch d1 d2 T e)
  dhist_dstress s h t T e := p.switch (m1.dhist_dstress s h t T e) (m2.dhist_dstress s h t T e) T e
  dhist_derate s h t T e := p.switch (m1.dhist_derate s h t T e) (m2.dhist_derate s h t T e) T e

/-- `dg_e` (flowrules.py:480-494). -/
noncomputable def TKM.dg (p : TKM) (T e : Tensor) : TE :=
  -((p.k : TE) * (T : TE) / (p.mu.value T * pow p.b (num 3)) / (map abs e + (p.eps : TE))) * map sgn e

/-- `f` (flowrules.py:496-509). -/
noncomputable def TKM.f (p : TKM) (sf : Tensor) (T e : Tensor) : TE :=
  (map Real.tanh ((sf : TE) * (p.g T e - (p.g0 : TE))) + num 1) / num 2

/-- `df_e` (flowrules.py:511-530). -/
noncomputable def TKM.df (p : TKM) (sf : Tensor) (T e : Tensor) : TE :=
  (sf : TE) / (num 2 * pow (map Real.cosh ((sf : TE) * (p.g T e - (p.g0 : TE)))) (num 2)) * p.dg T e

/-- `blend_values` (flowrules.py:532-547): `f` gets as many trailing dimensions of size one as `vals1` has more dimensions. -/
noncomputable def TKM.blend (p : TKM) (sf : Tensor) (x y : TE) (T e : Tensor) : TE := TE.bind x fun v1 => TE.bind (p.f sf T e) fun f =>
  let f' := unsq^[v1.shape.length - f.shape.length] f
  (num 1 - f') * (v1 : TE) + f' * y

/-- `SoftKocksMeckingRegimeFlowRule` (flowrules.py:368-694) after the size check. -/
noncomputable def tKmSoft (m1 m2 : TFlowRule) (p : TKM) (sf : Tensor) : TFlowRule where
  nhist := m1.nhist
  flow_rate s h t T e := withPair (m1.flow_rate s h t T e) fun f1 d1 => withPair (m2.flow_rate s h t T e) fun f2 d2 =>
    pair (p.blend sf f1 f2 T e) (p.blend sf d1 d2 T e)
  dflow_dhist s h t T e := p.blend sf (m1.dflow_dhist s h t T e) (m2.dflow_dhist s h t T e) T e
  dflow_derate s h t T e := withPair (m1.flow_rate s h t T e) fun f1 _ => withPair (m2.flow_rate s h t T e) fun f2 _ =>
    p.blend sf (m1.dflow_derate s h t T e) (m2.dflow_derate s h t T e) T e + p.df sf T e * ((f2 : TE) - (f1 : TE))
  history_rate s h t T e := withPair (m1.history_rate s h t T e) fun f1 d1 => withPair (m2.history_rate s h t T e) fun f2 d2 =>
    pair (p.blend sf f1 f2 T e) (p.blend sf d1 d2 T e)
  dhist_dstress s h t T e := p.blend sf (m1.dhist_dstress s h t T e) (m2.dhist_dstress s h t T e) T e
  dhist_derate s h t T e := withPair (m1.history_rate s h t T e) fun r1 _ => withPair (m2.history_rate s h t T e) fun r2 _ =>
    p.blend sf (m1.dhist_derate s h t T e) (m2.dhist_derate s h t T e) T e + ((r2 : TE) - (r1 : TE)) * unsq (p.df sf T e)

/-! ## damage.py -/

/-- The methods of a damage model (damage.py:13-19), argument order `s d t T e`. -/
structure TDamage where
  rate : Tensor → Tensor → Tensor → Tensor → Tensor → Except String (Tensor × Tensor)
  drate_ds : Tensor → Tensor → Tensor → Tensor → Tensor → TE
  drate_de : Tensor → Tensor → Tensor → Tensor → Tensor → TE

/-- `NoDamage` (damage.py:22-73). -/
def tNoDamage : TDamage where
  rate s _ _ _ _ := pair (full s.shape 0) (full s.shape 0)
  drate_ds s _ _ _ _ := full s.shape 0
  drate_de _ _ _ _ e := full e.shape 0

/-- `HayhurstLeckie` (damage.py:76-147). -/
noncomputable def tHayhurstLeckie (A xi phi : TParam) : TDamage where
  rate s d _ T _ := pair
    (pow (map abs s / A.call T) (xi.call T) * pow (num 1 - (d : TE)) (xi.call T - phi.call T))
    (-pow (map abs s / A.call T) (xi.call T) * pow (num 1 - (d : TE)) (xi.call T - phi.call T - num 1))
  drate_ds s d _ T _ := pow (map abs s / A.call T) (xi.call T - num 1) * pow (num 1 - (d : TE)) (xi.call T - phi.call T) * map sgn s
  drate_de _ _ _ _ e := full e.shape 0

/-- `ConstantDamage` (damage.py:150-206). -/
def tConstantDamage (R : TParam) : TDamage where
  rate s d _ T _ := pair (full s.shape 1 * R.call T) (full d.shape 0)
  drate_ds s _ _ _ _ := full s.shape 0
  drate_de _ _ _ _ e := full e.shape 0

/-- `LarsonMillerDamage` (damage.py:209-285). -/
noncomputable def tLarsonMiller (C A B : TParam) (eps : ℝ) : TDamage where
  rate s d _ T _ := pair
    (pow (num 10) (C.call T - B.call T / (T : TE)) * pow (map abs s * (num 1 - (d : TE))) (-A.call T / (T : TE)))
    (pow (num 10) (C.call T - B.call T / (T : TE)) * A.call T * map abs s *
      pow (map abs s * (num 1 - (d : TE))) (-(A.call T + (T : TE)) / (T : TE)) / (T : TE))
  drate_ds s d _ T _ := -pow (num 10) (C.call T - B.call T / (T : TE)) * A.call T *
    pow (map abs s * (num 1 - (d : TE))) (-A.call T / (T : TE)) / ((map abs s + num eps) * (T : TE)) * map sgn s
  drate_de _ _ _ _ e := full e.shape 0

/-! ## models.py -/

/-- The four outputs of `forward` (models.py:137, 269). -/
structure TOut where
  ydot : Tensor
  J : Tensor
  Je : Tensor
  JT : Tensor

/-- collecting the four outputs (models.py:137) -/
def outputs (ydot J Je JT : TE) : Except String TOut :=
  TE.bind ydot fun a => TE.bind J fun b => TE.bind Je fun c => TE.bind JT fun d => .ok ⟨a, b, c, d⟩

/-- `InelasticModel.forward` (models.py:75-137). -/
def tInelastic (E : TParam) (f : TFlowRule) (t y erate T : Tensor) : Except String TOut :=
  TE.bind (sel 0 y) fun stress => TE.bind (sliceFrom 1 y) fun h =>
  withPair (f.flow_rate stress h t T erate) fun frate dfrate => withPair (f.history_rate stress h t T erate) fun hrate dhrate =>
  let result := cat (unsq (E.call T * ((erate : TE) - (frate : TE)))) hrate
  let row1 := cat (unsq (unsq (-E.call T * (dfrate : TE)))) (-unsq (unsq (E.call T)) * f.dflow_dhist stress h t T erate)
  let row2 := cat (unsq (f.dhist_dstress stress h t T erate)) dhrate
  let drate := cat (unsq (E.call T * (num 1 - f.dflow_derate stress h t T erate))) (f.dhist_derate stress h t T erate)
  outputs result (catRow row1 row2) drate (full y.shape 0)

/-- `DamagedInelasticModel.forward` (models.py:169-269). -/
noncomputable def tDamaged (E : TParam) (f : TFlowRule) (dm : TDamage) (t y erate T : Tensor) : Except String TOut :=
  TE.bind (sel 0 y) fun stress => TE.bind (slice 1 (1 + f.nhist) y) fun h => TE.bind (selLast y) fun d =>
  TE.bind ((stress : TE) / (num 1 - (d : TE))) fun se =>
  withPair (f.flow_rate se h t T erate) fun frate dfrate => withPair (f.history_rate se h t T erate) fun hrate dhrate =>
  withPair (dm.rate se d t T erate) fun drate ddrate =>
  let result := cat (unsq ((num 1 - (d : TE)) * E.call T * ((erate : TE) - (frate : TE)))) (cat hrate (unsq drate))
  let row1 := cat (unsq (unsq (-E.call T * (dfrate : TE))))
    (cat (-unsq (unsq (E.call T)) * f.dflow_dhist se h t T erate * unsq (unsq (num 1 - (d : TE))))
      (unsq (unsq (-E.call T * ((erate : TE) - (frate : TE)) - E.call T * (dfrate : TE) * (stress : TE) / (num 1 - (d : TE))))))
  let row2 := cat (unsq (f.dhist_dstress se h t T erate / unsq (num 1 - (d : TE))))
    (cat dhrate (unsq (f.dhist_dstress se h t T erate * unsq stress / pow (num 1 - unsq d) (num 2))))
  let row3 := cat (unsq (unsq (dm.drate_ds se d t T erate / (num 1 - (d : TE)))))
    (cat (unsqRow (full h.shape 0)) (unsq (unsq ddrate)))
  let dr := cat (unsq (E.call T * (num 1 - (d : TE)) * (num 1 - f.dflow_derate se h t T erate)))
    (cat (f.dhist_derate se h t T erate) (unsq (dm.drate_de se d t T erate)))
  outputs result (catRow row1 (catRow row2 row3)) dr (full y.shape 0)

end Pyoptmat.Tensor
