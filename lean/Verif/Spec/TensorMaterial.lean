import Verif.Spec.Tensor
import Verif.Model.TensorMaterial

/-!
# Acting test by test and time by time

Stress, temperature, strain rate, ... come in tensors of one shape `S` (in the integration `(ntime, nbatch)`, here last dimension first); an index of
`S` is a point. History comes in tensors of shape `(..., n)`, matrices in shape `(..., rows, columns)`. The definitions below say that a torch
program does, at every point, what a given model of the other files does with the numbers at that point. The model may depend on the point:
that is how parameters that differ from test to test enter.
-/

namespace Pyoptmat.Spec

open Pyoptmat.Tensor Pyoptmat.Material

/-- the tensor `t` has shape `(..., n)` and the vector `v i` at point `i` -/
def VecT (S : List ℕ) {n : ℕ} (t : Tensor) (v : List ℕ → Fin n → ℝ) : Prop :=
  t.shape = n :: S ∧ ∀ i, Valid S i → ∀ j : Fin n, t.data (j.val :: i) = v i j

/-- the tensor `t` has shape `(..., rows, columns)` and the matrix `M i` at point `i` -/
def MatT (S : List ℕ) {n m : ℕ} (t : Tensor) (M : List ℕ → Fin n → Fin m → ℝ) : Prop :=
  t.shape = m :: n :: S ∧ ∀ i, Valid S i → ∀ (r : Fin n) (c : Fin m), t.data (c.val :: r.val :: i) = M i r c

/-- the expression `x` evaluates to vectors `v` -/
def Vec (S : List ℕ) {n : ℕ} (x : TE) (v : List ℕ → Fin n → ℝ) : Prop := ∃ t : Tensor, x = (t : TE) ∧ VecT S t v

/-- the expression `x` evaluates to matrices `M` -/
def Mat (S : List ℕ) {n m : ℕ} (x : TE) (M : List ℕ → Fin n → Fin m → ℝ) : Prop := ∃ t : Tensor, x = (t : TE) ∧ MatT S t M

/-- the tensor `T` has shape `S` and holds temperatures `τ` from the range `D` -/
def TempT (S : List ℕ) (D : Set ℝ) (T : Tensor) (τ : List ℕ → ℝ) : Prop := IsT S T τ ∧ ∀ i, Valid S i → τ i ∈ D

/-- The parameter `p`, called with a tensor of temperatures from the range `D`, is at every point what `P` gives for the temperature of that point (after
broadcasting). -/
def ParamIs (S : List ℕ) (D : Set ℝ) (p : TParam) (P : List ℕ → ℝ → ℝ) : Prop :=
  ∀ T τ, TempT S D T τ → Rep S (p.call T) fun i => P i (τ i)

/-- The same for a parameter with one value for each of `n` backstresses: a tensor of shape `(..., n)` that has at most the dimensions of
the points and can be broadcast to them. -/
def VecParamIs (S : List ℕ) (D : Set ℝ) {n : ℕ} (p : TParam) (P : List ℕ → Fin n → ℝ → ℝ) : Prop :=
  p.pshape.headD 0 = n ∧ ∀ T τ, TempT S D T τ → ∃ (t : Tensor) (B : List ℕ), p.call T = (t : TE) ∧ t.shape = n :: B ∧ B.length < S.length ∧
    bshape B S = some S ∧ ∀ i, Valid S i → ∀ j : Fin n, t.data (j.val :: bidx B i) = P i j (τ i)

/-- The arguments of the methods of a flow rule and the numbers in them. -/
structure FlowArgs (S : List ℕ) (D : Set ℝ) (n : ℕ) where
  s : Tensor
  h : Tensor
  t : Tensor
  T : Tensor
  e : Tensor
  σ : List ℕ → ℝ
  η : List ℕ → Fin n → ℝ
  θ : List ℕ → ℝ
  τ : List ℕ → ℝ
  ε : List ℕ → ℝ
  hs : IsT S s σ
  hh : VecT S h η
  ht : IsT S t θ
  hT : TempT S D T τ
  he : IsT S e ε

/-- The torch program `H` is at every point `i` the hardening model `L i`. -/
structure HardeningIs (S : List ℕ) (D : Set ℝ) {n : ℕ} (H : THardening) (L : List ℕ → Hardening n) : Prop where
  nhist : H.nhist = n
  value : ∀ h η, VecT S h η → Is S (H.value h) fun i => (L i).value (η i)
  dvalue : ∀ h η, VecT S h η → Vec S (H.dvalue h) fun i => (L i).dvalue (η i)
  rate : ∀ (a : FlowArgs S D n) ep π, IsT S ep π →
    Vec S (H.rate a.s a.h a.t ep a.T a.e) fun i => (L i).rate (a.σ i) (a.η i) (a.θ i) (π i) (a.τ i) (a.ε i)
  drate_ds : ∀ (a : FlowArgs S D n) ep π, IsT S ep π →
    Vec S (H.drate_ds a.s a.h a.t ep a.T a.e) fun i => (L i).drate_ds (a.σ i) (a.η i) (a.θ i) (π i) (a.τ i) (a.ε i)
  drate_dh : ∀ (a : FlowArgs S D n) ep π, IsT S ep π →
    Mat S (H.drate_dh a.s a.h a.t ep a.T a.e) fun i => (L i).drate_dh (a.σ i) (a.η i) (a.θ i) (π i) (a.τ i) (a.ε i)
  drate_dep : ∀ (a : FlowArgs S D n) ep π, IsT S ep π →
    Mat S (m := 1) (H.drate_dep a.s a.h a.t ep a.T a.e) fun i r _ => (L i).drate_dep (a.σ i) (a.η i) (a.θ i) (π i) (a.τ i) (a.ε i) r
  drate_de : ∀ (a : FlowArgs S D n) ep π, IsT S ep π →
    Vec S (H.drate_de a.s a.h a.t ep a.T a.e) fun i => (L i).drate_de (a.σ i) (a.η i) (a.θ i) (π i) (a.τ i) (a.ε i)

/-- The torch program `F` is at every point `i` the flow rule `L i`. -/
structure FlowIs (S : List ℕ) (D : Set ℝ) {n : ℕ} (F : TFlowRule) (L : List ℕ → FlowRule n) : Prop where
  nhist : F.nhist = n
  flow : ∀ a : FlowArgs S D n, ∃ f df, F.flow_rate a.s a.h a.t a.T a.e = .ok (f, df) ∧
    IsT S f (fun i => (L i).flow (a.σ i) (a.η i) (a.θ i) (a.τ i) (a.ε i)) ∧
    IsT S df (fun i => (L i).dflow_ds (a.σ i) (a.η i) (a.θ i) (a.τ i) (a.ε i))
  dflow_dh : ∀ a : FlowArgs S D n,
    Mat S (n := 1) (F.dflow_dhist a.s a.h a.t a.T a.e) fun i _ c => (L i).dflow_dh (a.σ i) (a.η i) (a.θ i) (a.τ i) (a.ε i) c
  dflow_de : ∀ a : FlowArgs S D n,
    Is S (F.dflow_derate a.s a.h a.t a.T a.e) fun i => (L i).dflow_de (a.σ i) (a.η i) (a.θ i) (a.τ i) (a.ε i)
  hist : ∀ a : FlowArgs S D n, ∃ r dr, F.history_rate a.s a.h a.t a.T a.e = .ok (r, dr) ∧
    VecT S r (fun i => (L i).hist (a.σ i) (a.η i) (a.θ i) (a.τ i) (a.ε i)) ∧
    MatT S dr (fun i => (L i).dhist_dh (a.σ i) (a.η i) (a.θ i) (a.τ i) (a.ε i))
  dhist_ds : ∀ a : FlowArgs S D n,
    Vec S (F.dhist_dstress a.s a.h a.t a.T a.e) fun i => (L i).dhist_ds (a.σ i) (a.η i) (a.θ i) (a.τ i) (a.ε i)
  dhist_de : ∀ a : FlowArgs S D n,
    Vec S (F.dhist_derate a.s a.h a.t a.T a.e) fun i => (L i).dhist_de (a.σ i) (a.η i) (a.θ i) (a.τ i) (a.ε i)

/-- The parameters of a Kocks–Mecking rule at every point; the shear modulus enters through `mu.value`, without its scaling. -/
structure KMIs (S : List ℕ) (D : Set ℝ) (p : TKM) (P : List ℕ → KMParams) : Prop where
  g0 : Rep S p.g0 fun i => (P i).g0
  mu : ∀ T τ, TempT S D T τ → Rep S (p.mu.value T) fun i => (P i).mu (τ i)
  b : Rep S p.b fun i => (P i).b
  eps0 : Rep S p.eps0 fun i => (P i).eps0
  k : Rep S p.k fun i => (P i).k
  eps : Rep S p.eps fun i => (P i).eps

/-- The torch program `X` is at every point `i` the damage model `L i`. -/
structure DamageIs (S : List ℕ) (D : Set ℝ) (X : TDamage) (L : List ℕ → Damage) : Prop where
  rate : ∀ s σ d δ t θ T τ e ε, IsT S s σ → IsT S d δ → IsT S t θ → TempT S D T τ → IsT S e ε → ∃ r dr, X.rate s d t T e = .ok (r, dr) ∧
    IsT S r (fun i => (L i).rate (σ i) (δ i) (θ i) (τ i) (ε i)) ∧ IsT S dr (fun i => (L i).drate_dd (σ i) (δ i) (θ i) (τ i) (ε i))
  drate_ds : ∀ s σ d δ t θ T τ e ε, IsT S s σ → IsT S d δ → IsT S t θ → TempT S D T τ → IsT S e ε →
    Is S (X.drate_ds s d t T e) fun i => (L i).drate_ds (σ i) (δ i) (θ i) (τ i) (ε i)
  drate_de : ∀ s σ d δ t θ T τ e ε, IsT S s σ → IsT S d δ → IsT S t θ → TempT S D T τ → IsT S e ε →
    Is S (X.drate_de s d t T e) fun i => (L i).drate_de (σ i) (δ i) (θ i) (τ i) (ε i)

/-- The torch program `M`, a function `forward(t, y, erate, T)`, is at every point `i` the model `L i`. -/
def ModelIs (S : List ℕ) (D : Set ℝ) {m : ℕ} (M : Tensor → Tensor → Tensor → Tensor → Except String TOut) (L : List ℕ → Model m) : Prop :=
  ∀ t θ y v e ε T τ, IsT S t θ → VecT (n := m) S y v → IsT S e ε → TempT S D T τ → ∃ o : TOut, M t y e T = .ok o ∧
    VecT S o.ydot (fun i => (L i (θ i) (v i) (ε i) (τ i)).ydot) ∧ MatT S o.J (fun i => (L i (θ i) (v i) (ε i) (τ i)).J) ∧
    VecT S o.Je (fun i => (L i (θ i) (v i) (ε i) (τ i)).Je) ∧ VecT S o.JT (fun i => (L i (θ i) (v i) (ε i) (τ i)).JT)

end Pyoptmat.Spec
