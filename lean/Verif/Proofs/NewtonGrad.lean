import Verif.Model.Autograd
import Verif.Proofs.Control
import Verif.Props.Solvers
import Mathlib.Analysis.Calculus.FDeriv.Mul
import Mathlib.Analysis.Calculus.Deriv.Inv

/-! Helper lemmas: derivatives of Newton iterates with respect to parameters. -/

namespace Pyoptmat.Newton

open Topology Filter

variable {P : Type*} [NormedAddCommGroup P] [NormedSpace ℝ P]

/-- derivative of one Newton update -/
theorem step_hasFDerivAt {R J : P → ℝ → ℝ} {x : P → ℝ} {p0 : P} {g Rp Jp : P →L[ℝ] ℝ} {Rx Jx : ℝ} (hx : HasFDerivAt x g p0)
    (hR : HasFDerivAt (fun q : P × ℝ => R q.1 q.2) (Rp.coprod (Rx • ContinuousLinearMap.id ℝ ℝ)) (p0, x p0))
    (hJ : HasFDerivAt (fun q : P × ℝ => J q.1 q.2) (Jp.coprod (Jx • ContinuousLinearMap.id ℝ ℝ)) (p0, x p0))
    (hRx : J p0 (x p0) = Rx) (h0 : J p0 (x p0) ≠ 0) :
    HasFDerivAt (fun p => x p - R p (x p) / J p (x p))
      (-(Rx⁻¹ • Rp) + (R p0 (x p0) / Rx ^ 2) • (Jp + Jx • g)) p0 := by
  have hp : HasFDerivAt (fun p => (p, x p)) ((ContinuousLinearMap.id ℝ P).prod g) p0 := (hasFDerivAt_id p0).prodMk hx
  have h1 := HasFDerivAt.comp (g := fun q : P × ℝ => R q.1 q.2) p0 hR hp
  have h2 := HasFDerivAt.comp (g := fun q : P × ℝ => J q.1 q.2) p0 hJ hp
  have h3 := ((hasDerivAt_inv h0).hasFDerivAt.comp p0 h2)
  have h4 := hx.sub (h1.mul h3)
  refine (h4.congr_fderiv ?_).congr_of_eventuallyEq ?_
  · subst hRx
    refine ContinuousLinearMap.ext fun v => ?_
    simp only [ContinuousLinearMap.sub_apply, ContinuousLinearMap.add_apply, ContinuousLinearMap.smul_apply, ContinuousLinearMap.comp_apply,
      ContinuousLinearMap.coprod_apply, ContinuousLinearMap.prod_apply, ContinuousLinearMap.id_apply, smul_eq_mul, ContinuousLinearMap.neg_apply,
      Function.comp_apply, ContinuousLinearMap.toSpanSingleton_apply]
    field_simp
    ring
  · filter_upwards with p
    simp only [Pi.sub_apply, Function.comp_apply, div_eq_mul_inv, Pi.mul_apply]

/-- `u_{k+1} ≤ ε_k + θ_k u_k` with `ε, θ → 0` tends to zero -/
theorem tendsto_of_recursion {u ε θ : ℕ → ℝ} (hu : ∀ k, 0 ≤ u k) (h : ∀ k, u (k + 1) ≤ ε k + θ k * u k)
    (hε : Tendsto ε atTop (𝓝 0)) (hθ : Tendsto θ atTop (𝓝 0)) : Tendsto u atTop (𝓝 0) := by
  rw [Metric.tendsto_atTop]
  intro δ hδ
  obtain ⟨K1, h1⟩ := Metric.tendsto_atTop.1 hε (δ / 8) (by positivity)
  obtain ⟨K2, h2⟩ := Metric.tendsto_atTop.1 hθ (1 / 2) (by norm_num)
  set K := max K1 K2
  have hstep : ∀ j, u (K + j) ≤ δ / 4 + u K * (1 / 2) ^ j := by
    intro j
    induction j with
    | zero => simp; linarith
    | succ j ih =>
      have e1 := h1 (K + j) (by omega)
      have e2 := h2 (K + j) (by omega)
      rw [Real.dist_eq, sub_zero] at e1 e2
      have a1 := (abs_lt.1 e1).2
      have a2 := (abs_lt.1 e2).2
      have := h (K + j)
      have hm : θ (K + j) * u (K + j) ≤ 1 / 2 * u (K + j) := mul_le_mul_of_nonneg_right a2.le (hu _)
      rw [show K + (j + 1) = K + j + 1 by ring, pow_succ]
      nlinarith
  have hpow : Tendsto (fun j : ℕ => u K * (1 / 2 : ℝ) ^ j) atTop (𝓝 0) := by
    have := (tendsto_pow_atTop_nhds_zero_of_lt_one (r := (1 / 2 : ℝ)) (by norm_num) (by norm_num)).const_mul (u K)
    simpa using this
  obtain ⟨K3, h3⟩ := Metric.tendsto_atTop.1 hpow (δ / 4) (by positivity)
  refine ⟨K + K3, fun n hn => ?_⟩
  obtain ⟨j, rfl⟩ : ∃ j, n = K + j := ⟨n - K, by omega⟩
  have := h3 j (by omega)
  rw [Real.dist_eq, sub_zero] at this ⊢
  rw [abs_of_nonneg (hu _)]
  have := (abs_lt.1 this).2
  have := hstep j
  linarith

end Pyoptmat.Newton

namespace Pyoptmat.Control

open Pyoptmat.Material Pyoptmat.Newton Pyoptmat.Solvers Pyoptmat.Spec

variable {β : Type*} {m : ℕ}

theorem newtonIterate_lane (model : β → Model (m + 1)) (csr cs cT t : β → ℝ) (y : β → Fin (m + 1) → ℝ) (K : ℕ) (b : β) :
    newtonIterate (stressRJ model csr cs cT t y) jacobiLinearSolve (fun x dx => x - dx) 0 K b 0 =
      (recordedUpdate (model b) (csr b) (cs b) (cT b) (t b) (y b))^[K] 0 := by
  induction K with
  | zero => rfl
  | succ K ih =>
    unfold newtonIterate at ih ⊢
    rw [Function.iterate_succ_apply', Function.iterate_succ_apply']
    generalize (fun x : β → Fin 1 → ℝ => (fun x dx => x - dx) x (jacobiLinearSolve (stressRJ model csr cs cT t y x).2 (stressRJ model csr cs cT t y x).1))^[K] 0 = z at ih ⊢
    change z b 0 - ((model b (t b) (imposed (cs b) (y b)) (z b 0) (cT b)).ydot 0 - csr b) / (model b (t b) (imposed (cs b) (y b)) (z b 0) (cT b)).Je 0 = _
    rw [ih]
    rfl

theorem stressSolve_lane (model : β → Model (m + 1)) (csr cs cT t : β → ℝ) (y : β → Fin (m + 1) → ℝ) (b : β) :
    (stressSolve model csr cs cT t y).x b 0 =
      (recordedUpdate (model b) (csr b) (cs b) (cT b) (t b) (y b))^[(stressSolve model csr cs cT t y).iters] 0 := by
  have h := (Props.C66_returns_first_iterate (stressRJ model csr cs cT t y) jacobiLinearSolve (fun x dx => x - dx)
    (fun r b => rowNorm (r b)) 0 1e-6 1e-10 100).2.1
  rw [← newtonIterate_lane]
  exact congrFun (congrFun h b) 0

end Pyoptmat.Control
