import Verif.Spec.Examples
import Mathlib.Analysis.Calculus.Deriv.Pow
import Mathlib.Analysis.Calculus.FDeriv.Pi
import Mathlib.Analysis.Calculus.FDeriv.Mul
import Mathlib.Analysis.Calculus.FDeriv.Pow
import Mathlib.Analysis.Calculus.FDeriv.Add

/-!
# C132: the Jacobians of the example systems
-/

namespace Pyoptmat.Props

open Pyoptmat.Ode Pyoptmat.Spec Pyoptmat.Examples

variable {β : Type*} {m : ℕ}

private theorem entry_lt {N : ℕ} (x : Fin N → ℝ) (i : Fin N) : entry x i.val = x i := by
  unfold entry
  rw [dif_pos i.2]

private theorem entry_end {N : ℕ} (x : Fin N → ℝ) (k : ℕ) (h : ¬ k < N) : entry x k = 0 := by
  unfold entry
  rw [dif_neg h]

private theorem sum_at {N : ℕ} (u : Fin N → ℝ) (a : ℝ) (k : ℕ) : ∑ j : Fin N, (if j.val = k then a else 0) * u j = a * entry u k := by
  by_cases h : k < N
  · rw [Finset.sum_eq_single ⟨k, h⟩]
    · rw [if_pos rfl, entry, dif_pos h]
    · intro j _ hj
      rw [if_neg (fun e => hj (Fin.ext e)), zero_mul]
    · intro hh
      exact absurd (Finset.mem_univ _) hh
  · rw [entry_end _ _ h, mul_zero]
    exact Finset.sum_eq_zero fun j _ => by rw [if_neg (by have := j.2; omega), zero_mul]

private theorem sum_back {N : ℕ} (K u : Fin N → ℝ) (d : ℝ) (i : Fin N) :
    ∑ j : Fin N, (if i.val = j.val + 1 then K j / d else 0) * u j = if 0 < i.val then entry K (i.val - 1) / d * entry u (i.val - 1) else 0 := by
  by_cases h : 0 < i.val
  · have e : ∀ j : Fin N, (if i.val = j.val + 1 then K j / d else 0) * u j = (if j.val = i.val - 1 then entry K (i.val - 1) / d else 0) * u j := by
      intro j
      by_cases hj : i.val = j.val + 1
      · have hj' : j.val = i.val - 1 := by omega
        rw [if_pos hj, if_pos hj', ← hj', entry_lt]
      · rw [if_neg hj, if_neg (by omega)]
    simp only [e]
    rw [sum_at, if_pos h]
  · rw [if_neg h]
    exact Finset.sum_eq_zero fun j _ => by rw [if_neg (by omega), zero_mul]

/-- The forces of the elements are what their Jacobian says: they are linear. -/
theorem elementForce_linear {N : ℕ} (K M x : Fin N → ℝ) (i : Fin N) : elementForce K M x i = (elementJacobian K M).mulVec x i := by
  have h1 : (elementJacobian K M).mulVec x i = -K i / M i * x i + (if 0 < i.val then -entry K (i.val - 1) / M i * x i else 0) + K i / M i * entry x (i.val + 1) +
      (if 0 < i.val then entry K (i.val - 1) / M i * entry x (i.val - 1) else 0) := by
    have e1 : ∑ j, (if i = j then -K i / M i else 0) * x j = -K i / M i * x i := by simp
    have e2 : ∑ j, (if 0 < i.val ∧ i = j then -entry K (i.val - 1) / M i else 0) * x j = if 0 < i.val then -entry K (i.val - 1) / M i * x i else 0 := by
      by_cases h : 0 < i.val <;> simp [h]
    have e : (elementJacobian K M).mulVec x i = ∑ j, ((if i = j then -K i / M i else 0) * x j + (if 0 < i.val ∧ i = j then -entry K (i.val - 1) / M i else 0) * x j +
        (if j.val = i.val + 1 then K i / M i else 0) * x j + (if i.val = j.val + 1 then K j / M i else 0) * x j) := by
      unfold Matrix.mulVec dotProduct
      refine Finset.sum_congr rfl fun j _ => ?_
      simp only [elementJacobian, Matrix.of_apply]
      ring
    rw [e, Finset.sum_add_distrib, Finset.sum_add_distrib, Finset.sum_add_distrib, e1, e2, sum_at, sum_back]
  rw [h1]
  unfold elementForce
  have hi := i.2
  by_cases a : i.val + 1 < N
  · rw [if_pos a, if_neg (by omega : ¬ i.val + 1 = N)]
    by_cases b : 0 < i.val
    · rw [if_pos b, if_pos b, if_pos b]; ring
    · rw [if_neg b, if_neg b, if_neg b]; ring
  · rw [if_neg a, if_pos (by omega : i.val + 1 = N), entry_end x _ a]
    by_cases b : 0 < i.val
    · rw [if_pos b, if_pos b, if_pos b]; ring
    · rw [if_neg b, if_neg b, if_neg b]; ring

/-- The forcing of the chain. -/
noncomputable def chainLoad {N : ℕ} (M : Fin N → ℝ) (mScale F : ℝ) : Fin (N + N) → ℝ := Fin.append (fun _ => 0) fun i => if i.val = 0 then F / (M i * mScale) else 0

theorem chain_affine {N : ℕ} (K C M : Fin N → ℝ) (cScale mScale : ℝ) (force : β → ℝ → ℝ) (b : β) (t t' : ℝ) (y y' : Fin (N + N) → ℝ) :
    (massDamperSpring K C M cScale mScale force b t y).1 = (massDamperSpring K C M cScale mScale force b t' y').2.mulVec y + chainLoad M mScale (force b t) := by
  funext r
  refine Fin.addCases (fun i => ?_) (fun i => ?_) r
  · simp only [massDamperSpring, Fin.append_left, Pi.add_apply, chainLoad, Matrix.mulVec, dotProduct, Matrix.of_apply, Fin.addCases_left, Fin.sum_univ_add, Fin.addCases_right]
    simp [vel]
  · simp only [massDamperSpring, Fin.append_right, Pi.add_apply, chainLoad, Matrix.mulVec, dotProduct, Matrix.of_apply, Fin.addCases_left, Fin.sum_univ_add, Fin.addCases_right]
    rw [elementForce_linear, elementForce_linear]
    simp only [Matrix.mulVec, dotProduct, disp, vel]
    ring

/-- **C132.** The Jacobian of the mass-spring-damper chain is exact, for every number of masses. -/
theorem C132_mass_damper_spring {N : ℕ} (K C M : Fin N → ℝ) (cScale mScale : ℝ) (_hM : ∀ i, M i * mScale ≠ 0) (force : β → ℝ → ℝ) : ReportsJacobian (massDamperSpring K C M cScale mScale force) := by
  intro b t y
  have e : (fun y => (massDamperSpring K C M cScale mScale force b t y).1) = fun z => LinearMap.toContinuousLinearMap (Matrix.toLin' (massDamperSpring K C M cScale mScale force b t y).2) z +
      chainLoad M mScale (force b t) := by
    funext z
    rw [chain_affine K C M cScale mScale force b t t z y]
    rfl
  rw [e]
  exact (ContinuousLinearMap.hasFDerivAt _).add_const _

/-- **C132.** The Jacobian of the van der Pol oscillator is exact. -/
theorem C132_van_der_pol (mu : ℝ) : ReportsJacobian (vanDerPol mu : Func β 2) := by
  intro b t y
  have h0 : HasFDerivAt (fun y : Fin 2 → ℝ => y 0) (ContinuousLinearMap.proj (R := ℝ) (φ := fun _ : Fin 2 => ℝ) 0) y := hasFDerivAt_apply 0 y
  have h1 : HasFDerivAt (fun y : Fin 2 → ℝ => y 1) (ContinuousLinearMap.proj (R := ℝ) (φ := fun _ : Fin 2 => ℝ) 1) y := hasFDerivAt_apply 1 y
  rw [hasFDerivAt_pi']
  intro i
  fin_cases i
  · refine h1.congr_fderiv ?_
    ext z
    simp [vanDerPol, Matrix.mulVec, dotProduct]
  · refine (h0.neg.add ((((h0.pow 2).const_sub 1).const_mul mu).mul h1)).congr_fderiv ?_
    ext z
    simp [vanDerPol, Matrix.mulVec, dotProduct]
    ring

/-- **C132.** The Jacobian of the trajectory is exact: the rates do not depend on the position. -/
theorem C132_trajectory (g : ℝ) (v a : β → ℝ) : ReportsJacobian (trajectory g v a) := by
  intro b t y
  refine (hasFDerivAt_const _ y).congr_fderiv ?_
  ext z
  simp [trajectory]

private theorem var_fst {n : ℕ} (i : Fin n) (q : Fin 4) : finProdFinEquiv.symm (var i q) = (i, q) := by
  unfold var
  exact Equiv.symm_apply_apply _ _

private theorem sum_var {n : ℕ} (g : Fin (n * 4) → ℝ) : ∑ r, g r = ∑ i, (g (var i 0) + g (var i 1) + g (var i 2) + g (var i 3)) := by
  rw [← finProdFinEquiv.sum_comp, Fintype.sum_prod_type]
  refine Finset.sum_congr rfl fun i _ => ?_
  rw [Fin.sum_univ_four]
  rfl

/-- **C132.** The Jacobian of the coupled Hodgkin-Huxley neurons is exact, for every number of neurons. -/
theorem C132_neurons {n : ℕ} (p : Neurons n) (_hC : ∀ i, p.C i ≠ 0 ∧ p.tauM i ≠ 0 ∧ p.tauH i ≠ 0 ∧ p.tauN i ≠ 0) (I : β → ℝ → ℝ) : ReportsJacobian (neurons p I) := by
  intro b t y
  have hv : ∀ r, HasFDerivAt (fun y : Fin (n * 4) → ℝ => y r) (ContinuousLinearMap.proj (R := ℝ) (φ := fun _ : Fin (n * 4) => ℝ) r) y := fun r => hasFDerivAt_apply r y
  rw [hasFDerivAt_pi']
  intro r
  obtain ⟨⟨i, q⟩, rfl⟩ := finProdFinEquiv.surjective r
  change HasFDerivAt (fun y => (neurons p I b t y).1 (var i q)) _ y
  have rowsum : ∀ z : Fin (n * 4) → ℝ, (ContinuousLinearMap.proj (R := ℝ) (φ := fun _ : Fin (n * 4) => ℝ) (finProdFinEquiv (i, q))).comp
      (LinearMap.toContinuousLinearMap (Matrix.toLin' (neurons p I b t y).2)) z = ∑ s, p.jacobian y (var i q) s * z s := fun z => rfl
  have e : ∀ (j : Fin n) (c : Fin 4) , (finProdFinEquiv.symm (var j c)).1 = j ∧ (finProdFinEquiv.symm (var j c)).2 = c := fun j c => by rw [var_fst]; exact ⟨rfl, rfl⟩
  fin_cases q
  · have hf : (fun y => (neurons p I b t y).1 (var i 0)) = fun y => 1 / p.C i * (-p.gNa i * y (var i 1) ^ 3 * y (var i 2) * (y (var i 0) - p.ENa i) - p.gK i * y (var i 3) ^ 4 * (y (var i 0) - p.EK i) -
        p.gL i * (y (var i 0) - p.EL i) + I b t) + ∑ j, p.gC j * (y (var i 0) - y (var j 0)) / p.C j := by
      funext y
      simp only [neurons, Neurons.rate, (e i 0).1, (e i 0).2]
    change HasFDerivAt (fun y => (neurons p I b t y).1 (var i 0)) _ y
    rw [hf]
    have d1 := ((((hv (var i 1)).pow 3).const_mul (-p.gNa i)).mul (hv (var i 2))).mul ((hv (var i 0)).sub_const (p.ENa i))
    have d2 := (((hv (var i 3)).pow 4).const_mul (p.gK i)).mul ((hv (var i 0)).sub_const (p.EK i))
    have d3 := ((hv (var i 0)).sub_const (p.EL i)).const_mul (p.gL i)
    have d4 : HasFDerivAt (fun y : Fin (n * 4) → ℝ => ∑ j, p.gC j * (y (var i 0) - y (var j 0)) / p.C j)
        (∑ j, (p.gC j / p.C j) • (ContinuousLinearMap.proj (R := ℝ) (φ := fun _ : Fin (n * 4) => ℝ) (var i 0) - ContinuousLinearMap.proj (R := ℝ) (φ := fun _ : Fin (n * 4) => ℝ) (var j 0))) y := by
      have := HasFDerivAt.fun_sum (u := Finset.univ) fun (j : Fin n) _ => ((hv (var i 0)).sub (hv (var j 0))).const_mul (p.gC j / p.C j)
      refine this.congr_of_eventuallyEq (Filter.Eventually.of_forall fun y => ?_)
      exact Finset.sum_congr rfl fun j _ => by simp only [Pi.sub_apply]; ring
    refine ((((((d1.sub d2).sub d3).add_const (I b t)).const_mul (1 / p.C i)).add d4)).congr_fderiv ?_
    ext z
    rw [rowsum, sum_var]
    simp only [Neurons.jacobian, Matrix.of_apply, (e _ _).1, (e _ _).2]
    simp [Finset.sum_add_distrib, sub_mul, add_mul, Finset.sum_sub_distrib, mul_sub, ite_mul]
    have es : ∑ j, p.gC j / p.C j * z (var i 0) = (∑ j, p.gC j / p.C j) * z (var i 0) := (Finset.sum_mul _ _ _).symm
    rw [es]
    ring
  · have hf : (fun y => (neurons p I b t y).1 (var i 1)) = fun y => (p.mInf i - y (var i 1)) / p.tauM i := by
      funext y
      simp only [neurons, Neurons.rate, (e i 1).1, (e i 1).2]
    change HasFDerivAt (fun y => (neurons p I b t y).1 (var i 1)) _ y
    rw [hf]
    refine (((hv (var i 1)).const_sub (p.mInf i)).mul_const (p.tauM i)⁻¹).congr_fderiv ?_
    ext z
    rw [rowsum, sum_var]
    simp only [Neurons.jacobian, Matrix.of_apply, (e _ _).1, (e _ _).2]
    simp
    ring
  · have hf : (fun y => (neurons p I b t y).1 (var i 2)) = fun y => (p.hInf i - y (var i 2)) / p.tauH i := by
      funext y
      simp only [neurons, Neurons.rate, (e i 2).1, (e i 2).2]
    change HasFDerivAt (fun y => (neurons p I b t y).1 (var i 2)) _ y
    rw [hf]
    refine (((hv (var i 2)).const_sub (p.hInf i)).mul_const (p.tauH i)⁻¹).congr_fderiv ?_
    ext z
    rw [rowsum, sum_var]
    simp only [Neurons.jacobian, Matrix.of_apply, (e _ _).1, (e _ _).2]
    simp
    ring
  · have hf : (fun y => (neurons p I b t y).1 (var i 3)) = fun y => (p.nInf i - y (var i 3)) / p.tauN i := by
      funext y
      simp only [neurons, Neurons.rate, (e i 3).1, (e i 3).2]
    change HasFDerivAt (fun y => (neurons p I b t y).1 (var i 3)) _ y
    rw [hf]
    refine (((hv (var i 3)).const_sub (p.nInf i)).mul_const (p.tauN i)⁻¹).congr_fderiv ?_
    ext z
    rw [rowsum, sum_var]
    simp only [Neurons.jacobian, Matrix.of_apply, (e _ _).1, (e _ _).2]
    simp
    ring

/-- Non-vacuity of C132: parameters as the examples draw them. -/
example : ReportsJacobian (massDamperSpring (β := Unit) (fun i : Fin 5 => (i.val : ℝ) + 1) (fun _ => 1 / 2) (fun i => 1 / ((i.val : ℝ) + 1)) 1e-4 1e-5 fun _ t => t ^ 2) :=
  C132_mass_damper_spring _ _ _ _ _ (fun i => by positivity) _

example : ReportsJacobian (neurons (β := Unit) (n := 10) ⟨fun i => (i.val : ℝ) + 1, fun _ => 1 / 2, fun _ => 1 / 3, fun _ => 2, fun _ => 1, fun _ => 1 / 5, fun _ => 1 / 4, fun _ => 1 / 2, fun _ => 5, fun _ => 1 / 2,
    fun _ => 15, fun _ => 1 / 2, fun _ => 10, fun _ => 1 / 100⟩ fun _ t => t) :=
  C132_neurons _ (fun i => ⟨by positivity, by norm_num, by norm_num, by norm_num⟩) _

end Pyoptmat.Props
