import Verif.Model.Hardening
import Mathlib.Analysis.SpecialFunctions.Log.Basic
import Mathlib.Analysis.SpecialFunctions.Trigonometric.DerivHyp
import Mathlib.Data.Fin.Tuple.Basic

/-! # Model of `pyoptmat/flowrules.py`, one batch entry at a time -/

namespace Pyoptmat.Material

/-- The interface of a flow rule with `n` internal variables (flowrules.py:33-119); argument order
`s h t T e` as in the code. `flow_rate` returns `(flow, dflow_ds)`, `history_rate` returns `(hist, dhist_dh)`. -/
structure FlowRule (n : ℕ) where
  /-- first output of `flow_rate` -/
  flow : ℝ → (Fin n → ℝ) → ℝ → ℝ → ℝ → ℝ
  /-- second output of `flow_rate` -/
  dflow_ds : ℝ → (Fin n → ℝ) → ℝ → ℝ → ℝ → ℝ
  /-- `dflow_dhist`, zero in the base class (flowrules.py:43-61) -/
  dflow_dh : ℝ → (Fin n → ℝ) → ℝ → ℝ → ℝ → Fin n → ℝ := fun _ _ _ _ _ => 0
  /-- `dflow_derate`, zero in the base class (flowrules.py:63-81) -/
  dflow_de : ℝ → (Fin n → ℝ) → ℝ → ℝ → ℝ → ℝ := fun _ _ _ _ _ => 0
  /-- first output of `history_rate` -/
  hist : ℝ → (Fin n → ℝ) → ℝ → ℝ → ℝ → Fin n → ℝ
  /-- second output of `history_rate` -/
  dhist_dh : ℝ → (Fin n → ℝ) → ℝ → ℝ → ℝ → Matrix (Fin n) (Fin n) ℝ
  /-- `dhist_dstress`, zero in the base class (flowrules.py:83-100) -/
  dhist_ds : ℝ → (Fin n → ℝ) → ℝ → ℝ → ℝ → Fin n → ℝ := fun _ _ _ _ _ => 0
  /-- `dhist_derate`, zero in the base class (flowrules.py:102-119) -/
  dhist_de : ℝ → (Fin n → ℝ) → ℝ → ℝ → ℝ → Fin n → ℝ := fun _ _ _ _ _ => 0

/-! ## Kocks–Mecking switches -/

/-- Parameters shared by the two Kocks–Mecking rules (flowrules.py:157-181, 419-446): `mu` is the shear modulus
`mu.value(T)`; `g0` is `g0_scale(g0)`. -/
structure KMParams where
  /-- threshold -/
  g0 : ℝ
  /-- shear modulus -/
  mu : ℝ → ℝ
  /-- Burgers vector -/
  b : ℝ
  /-- reference rate -/
  eps0 : ℝ
  /-- Boltzmann constant -/
  k : ℝ
  /-- small offset of the rate -/
  eps : ℝ

/-- `g(T, e)` (flowrules.py:197-213, 462-478). -/
noncomputable def KMParams.g (p : KMParams) (T e : ℝ) : ℝ :=
  p.k * T / (p.mu T * p.b ^ (3 : ℝ)) * Real.log (p.eps0 / (|e| + p.eps))

/-- `switch_values` (flowrules.py:215-230). -/
noncomputable def switchValues {α : Type*} (p : KMParams) (v1 v2 : α) (T e : ℝ) : α :=
  if p.g T e > p.g0 then v2 else v1

/-- `KocksMeckingRegimeFlowRule` (flowrules.py:122-365) after the constructor's size check. -/
noncomputable def kmSwitch {n : ℕ} (m1 m2 : FlowRule n) (p : KMParams) : FlowRule n where
  flow s h t T e := switchValues p (m1.flow s h t T e) (m2.flow s h t T e) T e
  dflow_ds s h t T e := switchValues p (m1.dflow_ds s h t T e) (m2.dflow_ds s h t T e) T e
  dflow_dh s h t T e := switchValues p (m1.dflow_dh s h t T e) (m2.dflow_dh s h t T e) T e
  dflow_de s h t T e := switchValues p (m1.dflow_de s h t T e) (m2.dflow_de s h t T e) T e
  hist s h t T e := switchValues p (m1.hist s h t T e) (m2.hist s h t T e) T e
  dhist_dh s h t T e := switchValues p (m1.dhist_dh s h t T e) (m2.dhist_dh s h t T e) T e
  dhist_ds s h t T e := switchValues p (m1.dhist_ds s h t T e) (m2.dhist_ds s h t T e) T e
  dhist_de s h t T e := switchValues p (m1.dhist_de s h t T e) (m2.dhist_de s h t T e) T e

/-- The size check of both constructors (flowrules.py:183-188, 448-453) in front of `build`. -/
def checkSizes (build : {n : ℕ} → FlowRule n → FlowRule n → FlowRule n)
    (m1 m2 : (n : ℕ) × FlowRule n) : Except String ((n : ℕ) × FlowRule n) :=
  if h : m2.1 = m1.1 then .ok ⟨m1.1, build m1.2 (h ▸ m2.2)⟩
  else .error "ValueError: must have the same number of internal variables"

/-- `dg_e` (flowrules.py:480-494). -/
noncomputable def KMParams.dg (p : KMParams) (T e : ℝ) : ℝ :=
  -(p.k * T / (p.mu T * p.b ^ (3 : ℝ)) / (|e| + p.eps)) * sgn e

/-- `f` (flowrules.py:496-509). -/
noncomputable def softF (p : KMParams) (sf : ℝ) (T e : ℝ) : ℝ :=
  (Real.tanh (sf * (p.g T e - p.g0)) + 1) / 2

/-- `df_e` (flowrules.py:511-530). -/
noncomputable def softDF (p : KMParams) (sf : ℝ) (T e : ℝ) : ℝ :=
  sf / (2 * Real.cosh (sf * (p.g T e - p.g0)) ^ (2 : ℝ)) * p.dg T e

/-- `blend_values` (flowrules.py:532-547) for any vector or matrix of values. -/
noncomputable def blend {α : Type*} [AddCommGroup α] [Module ℝ α] (p : KMParams) (sf : ℝ) (v1 v2 : α)
    (T e : ℝ) : α :=
  (1 - softF p sf T e) • v1 + softF p sf T e • v2

/-- `SoftKocksMeckingRegimeFlowRule` (flowrules.py:368-694) after the constructor's size check. -/
noncomputable def kmSoft {n : ℕ} (m1 m2 : FlowRule n) (p : KMParams) (sf : ℝ) : FlowRule n where
  flow s h t T e := blend p sf (m1.flow s h t T e) (m2.flow s h t T e) T e
  dflow_ds s h t T e := blend p sf (m1.dflow_ds s h t T e) (m2.dflow_ds s h t T e) T e
  dflow_dh s h t T e := blend p sf (m1.dflow_dh s h t T e) (m2.dflow_dh s h t T e) T e
  dflow_de s h t T e := blend p sf (m1.dflow_de s h t T e) (m2.dflow_de s h t T e) T e +
    softDF p sf T e * (m2.flow s h t T e - m1.flow s h t T e)
  hist s h t T e := blend p sf (m1.hist s h t T e) (m2.hist s h t T e) T e
  dhist_dh s h t T e := blend p sf (m1.dhist_dh s h t T e) (m2.dhist_dh s h t T e) T e
  dhist_ds s h t T e := blend p sf (m1.dhist_ds s h t T e) (m2.dhist_ds s h t T e) T e
  dhist_de s h t T e := fun i => blend p sf (m1.dhist_de s h t T e) (m2.dhist_de s h t T e) T e i +
    (m2.hist s h t T e i - m1.hist s h t T e i) * softDF p sf T e

/-! ## Rate independent wrapper -/

/-- `scale` (flowrules.py:743-753). -/
noncomputable def riScale (lmbda epsRef e : ℝ) : ℝ := 1 - lmbda + lmbda * |e| / epsRef

/-- `dscale` (flowrules.py:755-768). -/
noncomputable def riDScale (lmbda epsRef e : ℝ) : ℝ := sgn e * lmbda / epsRef

/-- `RateIndependentFlowRuleWrapper` (flowrules.py:697-882). -/
noncomputable def rateIndependent {n : ℕ} (base : FlowRule n) (lmbda epsRef : ℝ) : FlowRule n where
  flow s h t T e := riScale lmbda epsRef e * base.flow s h t T e
  dflow_ds s h t T e := riScale lmbda epsRef e * base.dflow_ds s h t T e
  dflow_dh s h t T e := fun i => base.dflow_dh s h t T e i * riScale lmbda epsRef e
  dflow_de s h t T e := base.dflow_de s h t T e * riScale lmbda epsRef e +
    base.flow s h t T e * riDScale lmbda epsRef e
  hist s h t T e := fun i => riScale lmbda epsRef e * base.hist s h t T e i
  dhist_dh s h t T e := riScale lmbda epsRef e • base.dhist_dh s h t T e
  dhist_ds s h t T e := fun i => riScale lmbda epsRef e * base.dhist_ds s h t T e i
  dhist_de s h t T e := fun i => base.dhist_de s h t T e i * riScale lmbda epsRef e +
    base.hist s h t T e i * riDScale lmbda epsRef e

/-! ## Superposition -/

/-- `SuperimposedFlowRule` (flowrules.py:885-1056): loops over `zip(offsets, nhist_per, models)`. -/
noncomputable def superimposed {k : ℕ} (nh : Fin k → ℕ) (models : (i : Fin k) → FlowRule (nh i)) :
    FlowRule (∑ i, nh i) where
  flow s h t T e := (List.finRange k).foldl
    (fun v i => v + (models i).flow s (slice h (offset nh i) (nh i)) t T e) 0
  dflow_ds s h t T e := (List.finRange k).foldl
    (fun v i => v + (models i).dflow_ds s (slice h (offset nh i) (nh i)) t T e) 0
  dflow_dh s h t T e := (List.finRange k).foldl
    (fun v i => writeSlice v (offset nh i) ((models i).dflow_dh s (slice h (offset nh i) (nh i)) t T e)) 0
  dflow_de s h t T e := (List.finRange k).foldl
    (fun v i => v + (models i).dflow_de s (slice h (offset nh i) (nh i)) t T e) 0
  hist s h t T e := (List.finRange k).foldl
    (fun v i => writeSlice v (offset nh i) ((models i).hist s (slice h (offset nh i) (nh i)) t T e)) 0
  dhist_dh s h t T e := (List.finRange k).foldl
    (fun v i => writeBlock v (offset nh i) ((models i).dhist_dh s (slice h (offset nh i) (nh i)) t T e)) 0
  dhist_ds s h t T e := (List.finRange k).foldl
    (fun v i => writeSlice v (offset nh i) ((models i).dhist_ds s (slice h (offset nh i) (nh i)) t T e)) 0
  dhist_de s h t T e := (List.finRange k).foldl
    (fun v i => writeSlice v (offset nh i) ((models i).dhist_de s (slice h (offset nh i) (nh i)) t T e)) 0

/-! ## The two basic rules -/

/-- `PerfectViscoplasticity` (flowrules.py:1059-1126). -/
noncomputable def perfect (n eta : ℝ → ℝ) : FlowRule 0 where
  flow s _ _ T _ := (|s| / eta T) ^ n T * sgn s
  dflow_ds s _ _ T _ := n T * (|s| / eta T) ^ (n T - 1) / eta T
  hist _ _ _ _ _ := 0
  dhist_dh _ _ _ _ _ := 0

/-- `h[..., : nhist_iso]` (flowrules.py:1182, 1279) -/
def isoPart {ni nk : ℕ} (h : Fin (ni + nk) → ℝ) : Fin ni → ℝ := fun j => h (Fin.castAdd nk j)

/-- `h[..., nhist_iso :]` (flowrules.py:1183, 1280) -/
def kinPart {ni nk : ℕ} (h : Fin (ni + nk) → ℝ) : Fin nk → ℝ := fun j => h (Fin.natAdd ni j)

/-- `flow_rate` of `IsoKinViscoplasticity`, first output (flowrules.py:1167-1188). -/
noncomputable def isoKinFlow {ni nk : ℕ} (n eta s0 : ℝ → ℝ) (iso : Hardening ni) (kin : Hardening nk)
    (s : ℝ) (h : Fin (ni + nk) → ℝ) (T : ℝ) : ℝ :=
  let ih := iso.value (isoPart h)
  let kh := kin.value (kinPart h)
  macaulay ((|s - kh| - s0 T - ih) / eta T) ^ n T * sgn (s - kh)

/-- second output (flowrules.py:1189-1192). -/
noncomputable def isoKinDs {ni nk : ℕ} (n eta s0 : ℝ → ℝ) (iso : Hardening ni) (kin : Hardening nk)
    (s : ℝ) (h : Fin (ni + nk) → ℝ) (T : ℝ) : ℝ :=
  let ih := iso.value (isoPart h)
  let kh := kin.value (kinPart h)
  n T * macaulay ((|s - kh| - s0 T - ih) / eta T) ^ (n T - 1) / eta T

/-- `dflow_diso` (flowrules.py:1195-1221). -/
noncomputable def isoKinDiso {ni nk : ℕ} (n eta s0 : ℝ → ℝ) (iso : Hardening ni) (kin : Hardening nk)
    (s : ℝ) (h : Fin (ni + nk) → ℝ) (T : ℝ) : ℝ :=
  let ih := iso.value (isoPart h)
  let kh := kin.value (kinPart h)
  let iv := (|s - kh| - s0 T - ih) / eta T
  (-n T) * macaulay iv ^ (n T - 1) / eta T * sgn (s - kh)

/-- `dflow_dkin` (flowrules.py:1223-1247). -/
noncomputable def isoKinDkin {ni nk : ℕ} (n eta s0 : ℝ → ℝ) (iso : Hardening ni) (kin : Hardening nk)
    (s : ℝ) (h : Fin (ni + nk) → ℝ) (T : ℝ) : ℝ :=
  let ih := iso.value (isoPart h)
  let kh := kin.value (kinPart h)
  (-n T) * macaulay ((|s - kh| - s0 T - ih) / eta T) ^ (n T - 1) / eta T

/-- `IsoKinViscoplasticity` (flowrules.py:1129-1427); `torch.cat` is `Fin.append`. -/
noncomputable def isoKin {ni nk : ℕ} (n eta s0 : ℝ → ℝ) (iso : Hardening ni) (kin : Hardening nk) :
    FlowRule (ni + nk) where
  flow s h _ T _ := isoKinFlow n eta s0 iso kin s h T
  dflow_ds s h _ T _ := isoKinDs n eta s0 iso kin s h T
  dflow_dh s h _ T _ := Fin.append
    (fun j => isoKinDiso n eta s0 iso kin s h T * iso.dvalue (isoPart h) j)
    (fun j => isoKinDkin n eta s0 iso kin s h T * kin.dvalue (kinPart h) j)
  hist s h t T e :=
    let ep := isoKinFlow n eta s0 iso kin s h T
    Fin.append (iso.rate s (isoPart h) t ep T e) (kin.rate s (kinPart h) t ep T e)
  dhist_dh s h t T e :=
    let ep := isoKinFlow n eta s0 iso kin s h T
    Fin.append
      (fun i => Fin.append
        (fun j => iso.drate_dh s (isoPart h) t ep T e i j + iso.drate_dep s (isoPart h) t ep T e i *
          (isoKinDiso n eta s0 iso kin s h T * iso.dvalue (isoPart h) j))
        (fun j => iso.drate_dep s (isoPart h) t ep T e i * isoKinDkin n eta s0 iso kin s h T *
          kin.dvalue (kinPart h) j))
      (fun i => Fin.append
        (fun j => kin.drate_dep s (kinPart h) t ep T e i *
          (isoKinDiso n eta s0 iso kin s h T * iso.dvalue (isoPart h) j))
        (fun j => kin.drate_dh s (kinPart h) t ep T e i j + kin.drate_dep s (kinPart h) t ep T e i *
          (isoKinDkin n eta s0 iso kin s h T * kin.dvalue (kinPart h) j)))
  dhist_ds s h t T e :=
    let ep := isoKinFlow n eta s0 iso kin s h T
    Fin.append
      (fun i => iso.drate_ds s (isoPart h) t ep T e i + iso.drate_dep s (isoPart h) t ep T e i *
        isoKinDs n eta s0 iso kin s h T)
      (fun i => kin.drate_ds s (kinPart h) t ep T e i + kin.drate_dep s (kinPart h) t ep T e i *
        isoKinDs n eta s0 iso kin s h T)
  dhist_de s h t T e :=
    let ep := isoKinFlow n eta s0 iso kin s h T
    Fin.append (iso.drate_de s (isoPart h) t ep T e) (kin.drate_de s (kinPart h) t ep T e)

end Pyoptmat.Material
