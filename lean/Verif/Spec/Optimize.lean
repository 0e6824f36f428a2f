import Verif.Model.Optimize
import Mathlib.Probability.Distributions.Gaussian.Real

/-!
# Specification for the statistical models: densities and the posterior of a two level model

Independent of the model of Pyro: `gaussianPDFReal` is Mathlib's density of the normal distribution.
-/

namespace Pyoptmat.Optimize

open ProbabilityTheory

/-- The density at `x` of the normal distribution with mean `loc` and standard deviation `scale`. -/
noncomputable def normalPDF (x loc scale : ℝ) : ℝ := gaussianPDFReal loc (Real.toNNReal (scale ^ 2)) x

/-- The density at `x` of the absolute value of a centred normal variable of standard deviation `scale`. -/
noncomputable def halfNormalPDF (x scale : ℝ) : ℝ := if 0 ≤ x then normalPDF x 0 scale + normalPDF (-x) 0 scale else 0

/-- Values of all unknowns: the mean and the standard deviation of the population of each parameter (by component), the value of each parameter in each test, and the noise. -/
structure Theta where
  loc : String → ℕ → ℝ
  scale : String → ℕ → ℝ
  test : String → ℕ → ℕ → ℝ
  eps : ℕ → ℝ

/-- The density of the prior of one parameter's population mean and standard deviation. -/
noncomputable def topDensity (p : String × Prior) (θ : Theta) : ℝ :=
  ∏ i ∈ Finset.range p.2.k, normalPDF (θ.loc p.1 i) (p.2.locLoc i) (p.2.locScale i) * halfNormalPDF (θ.scale p.1 i) (p.2.scaleScale i)

/-- The density of the values of one parameter in test `b`, given its population. -/
noncomputable def testDensity (p : String × Prior) (θ : Theta) (b : ℕ) : ℝ :=
  ∏ i ∈ Finset.range p.2.k, normalPDF (θ.test p.1 b i) (θ.loc p.1 i) (θ.scale p.1 i)

/-- The likelihood of the data `y` of test `b` when `results` is predicted. -/
noncomputable def likelihood (nt : ℕ) (results y : ℕ → ℕ → ℝ) (noise : ℕ → ℝ) (b : ℕ) : ℝ :=
  ∏ t ∈ Finset.range nt, normalPDF (y t b) (results t b) (noise b)

/-- The (unnormalised) posterior density of a two level model, where test `b` counts with weight `w b`: the weight is a power of everything that concerns this test. `epsPrior` is the density
of the prior of the noise, or one. -/
noncomputable def posterior (vars : List (String × Prior)) (epsPrior : ℝ) (nt nb : ℕ) (θ : Theta) (w : ℕ → ℝ) (results y : ℕ → ℕ → ℝ) (noise : ℕ → ℝ) : ℝ :=
  (vars.map fun p => topDensity p θ).prod * epsPrior *
    ∏ b ∈ Finset.range nb, ((vars.map fun p => testDensity p θ b).prod * likelihood nt results y noise b) ^ w b

/-! ### Names and the parameter store -/

/-- The variables with their priors. -/
abbrev vars (c : Config) : List (String × Prior) := c.names.zip c.priors

/-- What a name derived from a variable is for: its value in the tests, its population's mean and standard deviation, and the parameters of the guide for the three. -/
inductive Slot
  | bot | loc | scale | botP | locP | scaleP

/-- The name. -/
def nm (c : Config) (v : String) : Slot → String
  | .bot => v
  | .loc => v ++ c.locSuffix
  | .scale => v ++ c.scaleSuffix
  | .botP => v ++ c.paramSuffix
  | .locP => v ++ c.locSuffix ++ c.paramSuffix
  | .scaleP => v ++ c.scaleSuffix ++ c.paramSuffix

/-- All names used by a model: of the sample statements, of the parameters of the guide, and of the plates. -/
def siteNames (c : Config) : List String :=
  ((vars c).flatMap fun p => [p.1, p.1 ++ c.locSuffix, p.1 ++ c.scaleSuffix, p.1 ++ c.paramSuffix, p.1 ++ c.locSuffix ++ c.paramSuffix,
    p.1 ++ c.scaleSuffix ++ c.paramSuffix]) ++ ["eps", "eps" ++ c.paramSuffix, "trials", "time", "obs"]

/-- Lookup in the parameter store. -/
def lk (store : List (String × Val)) (n : String) : Option Val := (store.find? fun p => p.1 == n).map Prod.snd

/-- The value `pyro.param` returns. -/
def pv (store : List (String × Val)) (n : String) (init : Val) : Val := (lk store n).getD init

/-- The unknowns `θ` are what the guide finds in the store, or takes as initial values. -/
structure Represents (c : Config) (nb : ℕ) (store : List (String × Val)) (θ : Theta) : Prop where
  top : ∀ p ∈ vars c, pv store (nm c p.1 .locP) (Val.const p.2.k p.2.locLoc) = Val.const p.2.k (θ.loc p.1) ∧
    pv store (nm c p.1 .scaleP) (Val.const p.2.k p.2.scaleScale) = Val.const p.2.k (θ.scale p.1)
  test : ∀ p ∈ vars c, pv store (nm c p.1 .botP) ⟨some nb, p.2.k, fun _ i => p.2.locLoc i⟩ = ⟨some nb, p.2.k, θ.test p.1⟩
  eps : c.includeNoise = true → pv store ("eps" ++ c.paramSuffix) (noiseVal c.noise) = Val.const (noiseVal c.noise).k θ.eps

/-- The unknowns `θ` are in the store. -/
structure Stored (c : Config) (nb : ℕ) (store : List (String × Val)) (θ : Theta) : Prop where
  top : ∀ p ∈ vars c, lk store (nm c p.1 .locP) = some (Val.const p.2.k (θ.loc p.1)) ∧
    lk store (nm c p.1 .scaleP) = some (Val.const p.2.k (θ.scale p.1))
  test : ∀ p ∈ vars c, lk store (nm c p.1 .botP) = some ⟨some nb, p.2.k, θ.test p.1⟩
  eps : c.includeNoise = true → lk store ("eps" ++ c.paramSuffix) = some (Val.const (noiseVal c.noise).k θ.eps)

/-- The values of one variable in the tests. -/
def vBot (nb : ℕ) (θ : Theta) (p : String × Prior) : Val := ⟨some nb, p.2.k, θ.test p.1⟩

/-- The noise in force: inferred or given. -/
noncomputable def noiseIn (c : Config) (θ : Theta) : ℝ ⊕ List ℝ :=
  if c.includeNoise then
    match c.noise with
    | .inl _ => .inl (θ.eps 0)
    | .inr l => .inr ((List.range l.length).map θ.eps)
  else c.noise

/-- The density of the prior of the noise; one if the noise is given. -/
noncomputable def epsDensity (c : Config) (θ : Theta) : ℝ :=
  if c.includeNoise then ∏ i ∈ Finset.range (noiseVal c.noise).k, halfNormalPDF (θ.eps i) ((noiseVal c.noise).get 0 i) else 1

end Pyoptmat.Optimize
