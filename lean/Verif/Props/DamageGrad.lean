import Verif.Props.MaterialGrad
import Verif.Props.Models

/-!
# Property C108: gradients of damaged materials
-/

namespace Pyoptmat.Props

open Pyoptmat Pyoptmat.Spec Pyoptmat.Control Pyoptmat.Material Pyoptmat.Ode Pyoptmat.Newton Pyoptmat.Chunktime Topology Filter

variable {β : Type*} [Fintype β] {m n p : ℕ}

/-- `S` propagates a change `dq` of the parameters through the backward Euler steps at the states `Y`, with the Jacobians the model reports. -/
def IsReportedSensitivity (J : β → ℝ → (Fin m → ℝ) → Matrix (Fin m) (Fin m) ℝ) (fp : β → ℝ → (Fin m → ℝ) → Matrix (Fin m) (Fin p) ℝ) (nt : ℕ) (t : ℕ → β → ℝ) (Y : ℕ → β → Fin m → ℝ)
    (dq : Fin p → ℝ) (S : ℕ → β → Fin m → ℝ) : Prop :=
  ∀ k b, k + 1 < nt → S (k + 1) b - S k b =
    (t (k + 1) b - t k b) • ((J b (t (k + 1) b) (Y (k + 1) b)).mulVec (S (k + 1) b) + (fp b (t (k + 1) b) (Y (k + 1) b)).mulVec dq)

/-- **C108.** What the adjoint pass returns for any model, right or wrong: the sensitivity of the loss computed with the Jacobians the model reports. So an error in a reported Jacobian is not detected,
it goes into the gradient. -/
theorem C108_reported (d : Direct) (f : Func β m) (fp : β → ℝ → (Fin m → ℝ) → Matrix (Fin m) (Fin p) ℝ) (nt : ℕ) (hnt : 0 < nt) (t : ℕ → β → ℝ) (Y g : ℕ → β → Fin m → ℝ) (blockSize : ℤ)
    (hn : 0 < blockSize) (hA : ∀ k, k + 1 < nt → ∀ b, IsUnit (1 - (t (k + 1) b - t k b) • (f b (t (k + 1) b) (Y (k + 1) b)).2).det) :
    ∃ grad lam, rewind .backwardEuler d f fp nt t Y g blockSize = .ok (grad, lam) ∧
      ∀ (dq : Fin p → ℝ) (S : ℕ → β → Fin m → ℝ), IsReportedSensitivity (fun b t y => (f b t y).2) fp nt t Y dq S →
        ∑ k ∈ Finset.range nt, ∑ b, g k b ⬝ᵥ S k b = grad ⬝ᵥ dq + ∑ b, lam b ⬝ᵥ S 0 b := by
  refine ⟨_, _, rewind_spec .backwardEuler d f fp nt hnt t Y g blockSize hn (fun _ => hA), fun dq S hS => ?_⟩
  have hT : IsTangent .backwardEuler f fp nt t Y dq S := fun k b hk => by
    have := hS k b hk
    change S (k + 1) b = S k b + _
    rw [← this]; abel
  have hid := adjoint_identity .backwardEuler f fp nt t Y g (fun _ => hA) dq S hT (nt - 1) (by omega)
  have hlast : flipRows nt S (nt - 1) = S 0 := by
    unfold flipRows; simp
  rw [Nat.sub_add_cancel hnt, hlast] at hid
  have hrefl := Finset.sum_range_reflect (fun k => ∑ b, g k b ⬝ᵥ S k b) nt
  rw [← hrefl]
  exact hid

/-- A damaged material under strain control: modulus `q`, linear viscous flow, and Larson-Miller damage whose rate is `|stress|`. -/
noncomputable def lmModel (eps q : ℝ) : Model (0 + 2) := damaged (fun _ => q) (perfect (fun _ => 1) (fun _ => 1)) (larsonMiller (fun _ => 0) (fun _ => -1) (fun _ => 0) eps)

/-- It is stretched by two during one unit of time. -/
noncomputable def lmTest (eps q : ℝ) : Func Unit (0 + 2) := strainFunc (fun _ => lmModel eps q) 2 (fun k _ => k) (fun k _ => 2 * k) (fun _ _ => 1)

private theorem lm_grid : StrictGrid (2 - 1) fun k => (k : ℝ) := fun j _ => by push_cast; linarith

private theorem lm_temp : dataFn 2 (fun k => (k : ℝ)) (fun _ => 1) (1 : ℝ) = 1 := by
  have := dataFn_grid lm_grid (fun _ => (1 : ℝ)) (k := 1) (by norm_num) (by norm_num)
  simpa using this

private theorem lm_erate : rateFn 2 (fun k => (k : ℝ)) (fun k => 2 * (k : ℝ)) (1 : ℝ) = 2 := by
  have := rateFn_grid lm_grid (fun k => 2 * (k : ℝ)) (k := 0) (by norm_num)
  simpa using this

private theorem abs_mul_sgn (x : ℝ) : |x| * sgn x = x := by
  rcases lt_trichotomy x 0 with h | h | h
  · rw [abs_of_neg h, sgn, Real.sign_of_neg h]; ring
  · rw [h]; simp
  · rw [abs_of_pos h, sgn, Real.sign_of_pos h]; ring

private theorem lm_rate (eps q s d : ℝ) (hd : d < 1) :
    (lmTest eps q () 1 (![s, d] : Fin 2 → ℝ)).1 = (![q * (2 * (1 - d) - s), |s|] : Fin 2 → ℝ) := by
  have h1 : 0 < 1 - d := by linarith
  have hss := abs_mul_sgn (s / (1 - d))
  have e : lmTest eps q () 1 (![s, d] : Fin 2 → ℝ) = ((lmModel eps q 1 ![s, d] 2 1).ydot, (lmModel eps q 1 ![s, d] 2 1).J) := by
    simp only [lmTest, strainFunc, lm_temp, lm_erate]
  rw [e]
  funext i
  fin_cases i
  · change (1 - d) * q * (2 - (|s / (1 - d)| / 1) ^ (1 : ℝ) * sgn (s / (1 - d))) = q * (2 * (1 - d) - s)
    rw [div_one, Real.rpow_one, hss]
    field_simp
  · change (10 : ℝ) ^ ((0 : ℝ) - 0 / 1) * (|s / (1 - d)| * (1 - d)) ^ (-(-1 : ℝ) / 1) = |s|
    rw [abs_div, abs_of_pos h1]
    norm_num
    field_simp

private theorem lm_jac (eps : ℝ) : (lmTest eps 1 () 1 (![1 / 2, 1 / 2] : Fin 2 → ℝ)).2 = (!![-1, -2; 1 / (1 + eps), -1] : Matrix (Fin 2) (Fin 2) ℝ) := by
  have e : lmTest eps 1 () 1 (![1 / 2, 1 / 2] : Fin 2 → ℝ) = ((lmModel eps 1 1 ![1 / 2, 1 / 2] 2 1).ydot, (lmModel eps 1 1 ![1 / 2, 1 / 2] 2 1).J) := by
    simp only [lmTest, strainFunc, lm_temp, lm_erate]
  rw [e]
  have hs : sgn (1 / 2 / (1 - 1 / 2) : ℝ) = 1 := by norm_num [sgn]
  have h1 : (1 / 2 / (1 - 1 / 2) : ℝ) = 1 := by norm_num
  funext i j
  fin_cases i <;> fin_cases j
  · change -(1 : ℝ) * (1 * (|1 / 2 / (1 - 1 / 2)| / 1) ^ ((1 : ℝ) - 1) / 1) = -1
    norm_num
  · change -(1 : ℝ) * (2 - (|1 / 2 / (1 - 1 / 2)| / 1) ^ (1 : ℝ) * sgn (1 / 2 / (1 - 1 / 2))) - 1 * (1 * (|1 / 2 / (1 - 1 / 2)| / 1) ^ ((1 : ℝ) - 1) / 1) * (1 / 2) / (1 - 1 / 2) = -2
    rw [hs]; norm_num
  · change -((10 : ℝ) ^ ((0 : ℝ) - 0 / 1)) * (-1) * (|1 / 2 / (1 - 1 / 2)| * (1 - 1 / 2)) ^ (-(-1 : ℝ) / 1) / ((|1 / 2 / (1 - 1 / 2)| + eps) * 1) * sgn (1 / 2 / (1 - 1 / 2)) / (1 - 1 / 2) = 1 / (1 + eps)
    rw [hs, h1]
    norm_num
    ring
  · change (10 : ℝ) ^ ((0 : ℝ) - 0 / 1) * (-1) * |1 / 2 / (1 - 1 / 2)| * (|1 / 2 / (1 - 1 / 2)| * (1 - 1 / 2)) ^ (-((-1 : ℝ) + 1) / 1) / 1 = -1
    norm_num

/-- The exact solution: after one backward Euler step stress and damage are both `2q / (1 + 3q)`. -/
noncomputable def lmState (q : ℝ) (k : ℕ) (_ : Unit) : Fin (0 + 2) → ℝ := if k = 0 then 0 else fun _ => 2 * q / (1 + 3 * q)

/-- **C108.** With Larson-Miller damage the gradient is wrong. In this test the implicit step has exactly one solution with tensile stress and damage below one, and the derivative of the final damage with respect to the
modulus is `1/8` at `q = 1`; the adjoint pass, given the exact solution and the exact parameter derivatives of the rates, returns `1 / (12 + 8 eps)`, about `1/12`. (The Jacobian misses a term, see C25.) -/
theorem C108_larson_miller_wrong (eps : ℝ) (heps : 0 ≤ eps) :
    (∀ q > 0, IsBackwardEuler (fun b t y => (lmTest eps q b t y).1) 2 (fun k _ => (k : ℝ)) (lmState q) ∧ lmState q 0 = 0 ∧
      ∀ y : ℕ → Unit → Fin (0 + 2) → ℝ, IsBackwardEuler (fun b t y => (lmTest eps q b t y).1) 2 (fun k _ => (k : ℝ)) y → y 0 = 0 → 0 ≤ y 1 () 0 → y 1 () 1 < 1 → y 1 = lmState q 1) ∧
    HasDerivAt (fun q => lmState q 1 () 1) (1 / 8) 1 ∧
    ∀ (d : Direct) (fp : Unit → ℝ → (Fin (0 + 2) → ℝ) → Matrix (Fin (0 + 2)) (Fin 1) ℝ) (blockSize : ℤ), 0 < blockSize →
      HasFDerivAt (fun q : Fin 1 → ℝ => (lmTest eps (q 0) () 1 (lmState 1 1 ())).1) (matCLM (fp () 1 (lmState 1 1 ()))) (fun _ => 1) →
      ∃ grad lam, rewind .backwardEuler d (lmTest eps 1) fp 2 (fun k _ => (k : ℝ)) (lmState 1) (fun k _ i => if k = 1 ∧ i = 1 then 1 else 0) blockSize = .ok (grad, lam) ∧
        grad 0 = 1 / (12 + 8 * eps) := by
  have hstate : ∀ q : ℝ, lmState q 1 = fun _ => (![2 * q / (1 + 3 * q), 2 * q / (1 + 3 * q)] : Fin 2 → ℝ) := fun q => by
    funext b i; fin_cases i <;> rfl
  have hlt : ∀ q : ℝ, 0 < q → 2 * q / (1 + 3 * q) < 1 := fun q hq => by rw [div_lt_one (by linarith)]; linarith
  refine ⟨fun q hq => ⟨fun k b hk => ?_, rfl, fun y hy h0 hs hd => ?_⟩, ?_, fun d fp blockSize hn hfp => ?_⟩
  · obtain rfl : k = 0 := by omega
    have hpos : 0 < 1 + 3 * q := by linarith
    have h2 : 0 ≤ 2 * q / (1 + 3 * q) := div_nonneg (by linarith) hpos.le
    have := lm_rate eps q (2 * q / (1 + 3 * q)) (2 * q / (1 + 3 * q)) (hlt q hq)
    simp only [zero_add, Nat.cast_one, Nat.cast_zero, hstate]
    rw [this, abs_of_nonneg h2]
    funext i
    fin_cases i
    · simp [lmState]; field_simp; ring
    · simp [lmState]
  · have h := hy 0 () (by norm_num)
    have hy1 : y 1 () = (![y 1 () 0, y 1 () 1] : Fin 2 → ℝ) := by funext i; fin_cases i <;> rfl
    simp only [zero_add, Nat.cast_one, Nat.cast_zero, h0] at h
    rw [hy1, lm_rate eps q _ _ hd, abs_of_nonneg hs] at h
    have e0 := congrFun h 0
    have e1 := congrFun h 1
    simp at e0 e1
    have hpos : 0 < 1 + 3 * q := by linarith
    have e : y 1 () 0 = 2 * q / (1 + 3 * q) := by
      rw [eq_div_iff hpos.ne']
      rw [e1] at e0
      linarith
    rw [hstate]
    funext b i
    fin_cases i
    · exact e
    · exact e1.trans e
  · have h2 : HasDerivAt (fun q : ℝ => 2 * q / (1 + 3 * q)) ((2 * 1 * (1 + 3 * 1) - 2 * 1 * (3 * 1)) / (1 + 3 * 1) ^ 2) 1 :=
      ((hasDerivAt_id (1 : ℝ)).const_mul 2).fun_div (((hasDerivAt_id (1 : ℝ)).const_mul 3).const_add 1) (by norm_num)
    exact h2.congr_deriv (by norm_num)
  · have hv : lmState 1 1 () = (![1 / 2, 1 / 2] : Fin 2 → ℝ) := by
      rw [hstate]; norm_num
    have hJ : (lmTest eps 1 () ((0 + 1 : ℕ) : ℝ) (lmState 1 (0 + 1) ())).2 = (!![-1, -2; 1 / (1 + eps), -1] : Matrix (Fin 2) (Fin 2) ℝ) := by
      simp only [zero_add, Nat.cast_one, hv, lm_jac]
    have hfp1 : (fp () 1 (lmState 1 1 ())).mulVec (fun _ => 1) = (![1 / 2, 0] : Fin 2 → ℝ) := by
      have h1 := hfp
      have h2 : HasFDerivAt (fun q : Fin 1 → ℝ => (lmTest eps (q 0) () 1 (lmState 1 1 ())).1)
          ((ContinuousLinearMap.proj (R := ℝ) (φ := fun _ : Fin 1 => ℝ) 0).smulRight (![1 / 2, 0] : Fin 2 → ℝ)) (fun _ => 1) := by
        have e : (fun q : Fin 1 → ℝ => (lmTest eps (q 0) () 1 (lmState 1 1 ())).1) = fun q => q 0 • (![1 / 2, 0] : Fin 2 → ℝ) + (![0, 1 / 2] : Fin 2 → ℝ) := by
          funext q
          rw [hv, lm_rate _ _ _ _ (by norm_num)]
          funext i
          fin_cases i <;> norm_num
        rw [e]
        exact (((ContinuousLinearMap.proj (R := ℝ) (φ := fun _ : Fin 1 => ℝ) 0).hasFDerivAt (x := fun _ => 1)).smul_const (![1 / 2, 0] : Fin 2 → ℝ)).add_const _
      have := congrArg (fun L => L (fun _ => 1)) (h1.unique h2)
      simpa [Ode.matCLM_apply] using this
    have hdet : ∀ k, k + 1 < 2 → ∀ b : Unit, IsUnit (1 - ((((k + 1 : ℕ) : ℝ)) - (k : ℝ)) • (lmTest eps 1 b ((k + 1 : ℕ) : ℝ) (lmState 1 (k + 1) b)).2).det := by
      intro k hk b
      obtain rfl : k = 0 := by omega
      rw [hJ, isUnit_iff_ne_zero]
      have hp : 0 < 1 + eps := by linarith
      rw [Matrix.det_fin_two]
      simp
      have : 0 < (1 + eps)⁻¹ := by positivity
      intro h
      linarith
    obtain ⟨grad, lam, h1, h2⟩ := C108_reported d (lmTest eps 1) fp 2 (by norm_num) (fun k _ => (k : ℝ)) (lmState 1) (fun k _ i => if k = 1 ∧ i = 1 then 1 else 0) blockSize hn hdet
    refine ⟨grad, lam, h1, ?_⟩
    have h3 := h2 (fun _ => 1) (fun k _ => if k = 0 then 0 else (![(1 + eps) / (2 * (3 + 2 * eps)), 1 / (12 + 8 * eps)] : Fin 2 → ℝ)) (fun k b hk => by
      obtain rfl : k = 0 := by omega
      beta_reduce
      rw [hJ]
      simp only [zero_add, Nat.cast_one, Nat.cast_zero, hfp1]
      have : 0 < 1 + eps := by linarith
      have : 0 < 3 + 2 * eps := by linarith
      have : 0 < 12 + 8 * eps := by linarith
      have hm : ∀ a c : ℝ, (!![-1, -2; 1 / (1 + eps), -1] : Matrix (Fin 2) (Fin 2) ℝ).mulVec (![a, c] : Fin 2 → ℝ) = (![-a - 2 * c, a / (1 + eps) - c] : Fin 2 → ℝ) := fun a c => by
        funext i
        fin_cases i <;> simp [Matrix.mulVec, dotProduct, Fin.sum_univ_two] <;> ring
      rw [if_neg one_ne_zero, if_pos trivial]
      refine Eq.trans ?_ (congrArg (fun v : Fin 2 → ℝ => ((1 : ℝ) - 0) • (v + (![1 / 2, 0] : Fin 2 → ℝ))) (hm ((1 + eps) / (2 * (3 + 2 * eps))) (1 / (12 + 8 * eps))).symm)
      funext i
      fin_cases i
      · simp
        field_simp
        ring
      · simp
        field_simp
        ring)
    simp [Finset.sum_range_succ, dotProduct] at h3
    rw [one_div]
    exact h3.symm

/-- Non-vacuity, with the default `eps` and Thomas' algorithm: the parameter derivative exists, so the adjoint pass does return this wrong gradient. -/
example : ∃ (fp : Unit → ℝ → (Fin (0 + 2) → ℝ) → Matrix (Fin (0 + 2)) (Fin 1) ℝ) (grad : Fin 1 → ℝ) (lam : BVec Unit (0 + 2) ℝ),
    rewind .backwardEuler .thomas (lmTest 1e-12 1) fp 2 (fun k _ => (k : ℝ)) (lmState 1) (fun k _ i => if k = 1 ∧ i = 1 then 1 else 0) 1 = .ok (grad, lam) ∧ grad 0 < 1 / 8 := by
  obtain ⟨grad, lam, h1, h2⟩ := (C108_larson_miller_wrong 1e-12 (by norm_num)).2.2 .thomas
    (fun b t y => LinearMap.toMatrix' (fderiv ℝ (fun q : Fin 1 → ℝ => (lmTest 1e-12 (q 0) b t y).1) (fun _ => 1)).toLinearMap) 1 (by norm_num) (by
      rw [matCLM_surj]
      refine DifferentiableAt.hasFDerivAt ?_
      have hv : lmState 1 1 () = (![1 / 2, 1 / 2] : Fin 2 → ℝ) := by
        funext i; fin_cases i <;> norm_num [lmState]
      have e : (fun q : Fin 1 → ℝ => (lmTest 1e-12 (q 0) () 1 (lmState 1 1 ())).1) = fun q => q 0 • (![1 / 2, 0] : Fin 2 → ℝ) + (![0, 1 / 2] : Fin 2 → ℝ) := by
        funext q
        rw [hv, lm_rate _ _ _ _ (by norm_num)]
        funext i
        fin_cases i <;> norm_num
      rw [e]
      exact ((differentiableAt_apply 0 _).smul_const _).add_const _)
  exact ⟨_, grad, lam, h1, by rw [h2]; norm_num⟩

/-- **C108.** Damage that does not depend on the stress does no harm: perfect viscoplasticity with `ConstantDamage` under strain control has exact gradients as long as no test has failed (`damage < 1`). -/
theorem C108_constant_damage (d : Direct) (E n eta R : β → (Fin p → ℝ) → ℝ → ℝ) (p0 : Fin p → ℝ) (nt : ℕ) (times strains temps : ℕ → β → ℝ) (hnt : 1 < nt)
    (hg : ∀ b, StrictGrid (nt - 1) fun k => times k b)
    (hp : ∀ k b, k < nt → 0 ≤ E b p0 (temps k b) ∧ 1 < n b p0 (temps k b) ∧ 0 < eta b p0 (temps k b))
    (hd : ∀ k b, k < nt → ContDiffAt ℝ 1 (fun q => E b q (temps k b)) p0 ∧ ContDiffAt ℝ 1 (fun q => n b q (temps k b)) p0 ∧ ContDiffAt ℝ 1 (fun q => eta b q (temps k b)) p0 ∧
      ContDiffAt ℝ 1 (fun q => R b q (temps k b)) p0)
    (Y : ℕ → β → Fin (0 + 2) → ℝ) (hlt : ∀ k b, k < nt → Y k b 1 < 1)
    (hY : IsBackwardEuler (fun b t y => (strainFunc (fun b => damaged (E b p0) (perfect (n b p0) (eta b p0)) (constantDamage (R b p0))) nt times strains temps b t y).1) nt times Y)
    (fp : β → ℝ → (Fin (0 + 2) → ℝ) → Matrix (Fin (0 + 2)) (Fin p) ℝ)
    (hfp : ∀ k < nt, ∀ b, HasFDerivAt (fun q => (strainFunc (fun b => damaged (E b q) (perfect (n b q) (eta b q)) (constantDamage (R b q))) nt times strains temps b (times k b) (Y k b)).1)
      (matCLM (fp b (times k b) (Y k b))) p0)
    (g : ℕ → β → Fin (0 + 2) → ℝ) (blockSize : ℤ) (hn : 0 < blockSize) :
    ∃ grad lam, rewind .backwardEuler d (strainFunc (fun b => damaged (E b p0) (perfect (n b p0) (eta b p0)) (constantDamage (R b p0))) nt times strains temps) fp nt times Y g blockSize = .ok (grad, lam) ∧
      IsGradient (fun q b t y => (strainFunc (fun b => damaged (E b q) (perfect (n b q) (eta b q)) (constantDamage (R b q))) nt times strains temps b t y).1) nt times Y p0 g grad lam := by
  have ht : ∀ k b, k + 1 < nt → times k b ≤ times (k + 1) b := fun k b hk => (hg b k (by omega)).le
  have hT : ∀ k b, k < nt → dataFn nt (fun k => times k b) (fun k => temps k b) (times k b) = temps k b :=
    fun k b hk => dataFn_grid (hg b) (fun k => temps k b) hk hnt
  obtain ⟨y, h1, h2, h3, h4, grad, lam, h5, h6⟩ := C83_backward d (fun q b t y => (strainFunc (fun b => damaged (E b q) (perfect (n b q) (eta b q)) (constantDamage (R b q))) nt times strains temps b t y).1)
    (fun b t y => (strainFunc (fun b => damaged (E b p0) (perfect (n b p0) (eta b p0)) (constantDamage (R b p0))) nt times strains temps b t y).2) fp nt (by omega) times Y p0 blockSize hn g hY
    (fun k hk b => by
      simp only [strainFunc]
      rw [hT (k + 1) b hk, isUnit_iff_ne_zero, Matrix.det_fin_two]
      obtain ⟨e0, n1, e1⟩ := hp (k + 1) b hk
      have hdt : 0 ≤ times (k + 1) b - times k b := by have := ht k b hk; linarith
      set T := temps (k + 1) b
      set se := Y (k + 1) b 0 / (1 - Y (k + 1) b (Fin.last (0 + 1)))
      have h : 0 ≤ (times (k + 1) b - times k b) * (E b p0 T * (n b p0 T * (|se| / eta b p0 T) ^ (n b p0 T - 1) / eta b p0 T)) :=
        mul_nonneg hdt (mul_nonneg e0 (div_nonneg (mul_nonneg (by linarith) (Real.rpow_nonneg (div_nonneg (abs_nonneg _) e1.le) _)) e1.le))
      have j00 : ∀ t e, (damaged (E b p0) (perfect (n b p0) (eta b p0)) (constantDamage (R b p0)) t (Y (k + 1) b) e T).J 0 0 = -E b p0 T * (n b p0 T * (|se| / eta b p0 T) ^ (n b p0 T - 1) / eta b p0 T) := fun _ _ => rfl
      have j10 : ∀ t e, (damaged (E b p0) (perfect (n b p0) (eta b p0)) (constantDamage (R b p0)) t (Y (k + 1) b) e T).J 1 0 = 0 / (1 - Y (k + 1) b (Fin.last (0 + 1))) := fun _ _ => rfl
      have j11 : ∀ t e, (damaged (E b p0) (perfect (n b p0) (eta b p0)) (constantDamage (R b p0)) t (Y (k + 1) b) e T).J 1 1 = 0 := fun _ _ => rfl
      simp only [Matrix.sub_apply, Matrix.smul_apply, Matrix.one_apply_eq, j00, j10, j11, smul_eq_mul]
      rw [Matrix.one_apply_ne (show (1 : Fin 2) ≠ 0 by decide)]
      intro h'
      simp at h'
      linarith)
    (fun k hk b => by
      have hf := hfp k hk b
      simp only [strainFunc] at hf ⊢
      rw [hT k b hk] at hf ⊢
      obtain ⟨e0, n1, e1⟩ := hp k b hk
      obtain ⟨dE, dn, de, dR⟩ := hd k b hk
      have hl := hlt k b hk
      have hne : Y k b (Fin.last (0 + 1)) ≠ 1 := ne_of_lt hl
      refine model_strict ?_ ((C25_exact_iff _ _ _ _ _ _ _ hne (C30_exact _ _ _ _ _ _ _ e1 (Or.inr n1.le)) (C43_exact _ _ _ _ _ _).2).2 (Or.inl rfl)) hf
      have c1 : ∀ {φ : (Fin p → ℝ) → ℝ}, ContDiffAt ℝ 1 φ p0 → ContDiffAt ℝ 1 (fun x : (Fin p → ℝ) × (Fin (0 + 2) → ℝ) => φ x.1) (p0, Y k b) :=
        fun h => ContDiffAt.comp (p0, Y k b) h contDiffAt_fst
      have hs : ∀ i, ContDiffAt ℝ 1 (fun x : (Fin p → ℝ) × (Fin (0 + 2) → ℝ) => x.2 i) (p0, Y k b) := fun i => (contDiffAt_pi.1 contDiffAt_snd) i
      have hw : ContDiffAt ℝ 1 (fun x : (Fin p → ℝ) × (Fin (0 + 2) → ℝ) => 1 - x.2 (Fin.last (0 + 1))) (p0, Y k b) := contDiffAt_const.sub (hs _)
      have hse : ContDiffAt ℝ 1 (fun x : (Fin p → ℝ) × (Fin (0 + 2) → ℝ) => x.2 0 / (1 - x.2 (Fin.last (0 + 1)))) (p0, Y k b) := (hs 0).div hw (sub_ne_zero.2 hne.symm)
      have ho := overflow_contDiffAt (x := (p0, Y k b)) (c1 dn) (c1 de) hse (contDiffAt_const (c := (0 : ℝ))) n1 e1 (Eventually.of_forall fun _ => le_rfl)
      have hev : ∀ᶠ x : (Fin p → ℝ) × (Fin (0 + 2) → ℝ) in 𝓝 (p0, Y k b), 0 < eta b x.1 (temps k b) := (c1 de).continuousAt.eventually (lt_mem_nhds e1)
      rw [contDiffAt_pi]
      intro i
      have hi : i = 0 ∨ i = 1 := by
        rcases i with ⟨i, hi⟩
        rcases i with _ | _ | i
        · exact Or.inl rfl
        · exact Or.inr rfl
        · omega
      rcases hi with rfl | rfl
      · refine ((hw.mul (c1 dE)).mul ((contDiffAt_const (c := rateFn nt (fun k => times k b) (fun k => strains k b) (times k b))).sub ho)).congr_of_eventuallyEq ?_
        filter_upwards [hev] with x hx
        simp only [damaged, cat3_zero, perfect, overflow, sub_zero]
        rcases (div_nonneg (abs_nonneg (x.2 0 / (1 - x.2 (Fin.last (0 + 1))))) hx.le).eq_or_lt with h | h
        · rw [← h, macaulay_of_nonpos le_rfl]
        · rw [macaulay_of_pos h]
      · refine (c1 dR).congr_of_eventuallyEq (Eventually.of_forall fun x => ?_)
        change 1 * R b x.1 (temps k b) = _
        rw [one_mul])
  exact ⟨grad, lam, h5, y, h1, h2, h3, h4, h6⟩

/-- Non-vacuity: damage `k / 40` after `k` steps, the strain history keeps the effective stress at one; exponent, viscosity and damage rate are the parameters. -/
example : let strains : ℕ → Unit → ℝ := fun k _ => ∑ j ∈ Finset.range k, (1 - (1 / 40) / (1 - ((j : ℝ) + 1) / 40))
    let Y : ℕ → Unit → Fin (0 + 2) → ℝ := fun k _ => (![1 - (k : ℝ) / 40, (k : ℝ) / 40] : Fin 2 → ℝ)
    let model : (Fin 3 → ℝ) → Model (0 + 2) := fun q => damaged (fun _ => 1) (perfect (fun _ => q 0) (fun _ => q 1)) (constantDamage (fun _ => q 2))
    ∃ (fp : Unit → ℝ → (Fin (0 + 2) → ℝ) → Matrix (Fin (0 + 2)) (Fin 3) ℝ) (grad : Fin 3 → ℝ) (lam : Unit → Fin (0 + 2) → ℝ),
    rewind .backwardEuler .thomas (strainFunc (fun _ => model ![2, 1, 1 / 40]) 20 (fun k _ => k) strains (fun _ _ => 300)) fp 20 (fun k (_ : Unit) => k) Y (fun _ _ _ => 1) 4 = .ok (grad, lam) ∧
    IsGradient (fun q b t y => (strainFunc (fun _ => model q) 20 (fun k _ => k) strains (fun _ _ => 300) b t y).1) 20 (fun k (_ : Unit) => k) Y ![2, 1, 1 / 40] (fun _ _ _ => 1) grad lam := by
  intro strains Y model
  have hgrid : ∀ b : Unit, StrictGrid (20 - 1) fun k => (k : ℝ) := fun _ j _ => by push_cast; linarith
  have hpos : ∀ k : ℕ, k < 20 → 0 < 1 - (k : ℝ) / 40 := fun k hk => by
    have : (k : ℝ) < 20 := by exact_mod_cast hk
    linarith
  have hrate : ∀ k : ℕ, k + 1 < 20 → rateFn 20 (fun k => (k : ℝ)) (fun k => strains k ()) ((k + 1 : ℕ) : ℝ) = 1 - (1 / 40) / (1 - ((k : ℝ) + 1) / 40) := fun k hk => by
    have := rateFn_grid (hgrid ()) (fun k => strains k ()) (k := k) (by omega)
    simp only [strains, Finset.sum_range_succ] at this ⊢
    push_cast at this ⊢
    simpa using this
  obtain ⟨grad, lam, h1, h2⟩ := C108_constant_damage (β := Unit) (p := 3) .thomas (fun _ _ _ => 1) (fun _ q _ => q 0) (fun _ q _ => q 1) (fun _ q _ => q 2) ![2, 1, 1 / 40] 20 (fun k _ => (k : ℝ)) strains
    (fun _ _ => 300) (by norm_num) hgrid (fun _ _ _ => by norm_num)
    (fun _ _ _ => ⟨contDiffAt_const, (contDiffAt_pi.1 contDiffAt_id) 0, (contDiffAt_pi.1 contDiffAt_id) 1, (contDiffAt_pi.1 contDiffAt_id) 2⟩) Y
    (fun k b hk => by have := hpos k hk; change (k : ℝ) / 40 < 1; linarith)
    (fun k b hk => by
      have hp := hpos (k + 1) hk
      push_cast at hp
      simp only [strainFunc]
      rw [hrate k hk]
      funext i
      fin_cases i
      · change (1 - ((k + 1 : ℕ) : ℝ) / 40) = (1 - (k : ℝ) / 40) + (((k + 1 : ℕ) : ℝ) - k) * ((1 - ((k + 1 : ℕ) : ℝ) / 40) * 1 * (1 - (1 / 40) / (1 - ((k : ℝ) + 1) / 40) -
          (|(1 - ((k + 1 : ℕ) : ℝ) / 40) / (1 - ((k + 1 : ℕ) : ℝ) / 40)| / 1) ^ (2 : ℝ) * sgn ((1 - ((k + 1 : ℕ) : ℝ) / 40) / (1 - ((k + 1 : ℕ) : ℝ) / 40))))
        push_cast
        rw [div_self hp.ne']
        generalize hx : 1 - ((k : ℝ) + 1) / 40 = x at hp
        have e : 1 - (k : ℝ) / 40 = x + 1 / 40 := by rw [← hx]; ring
        rw [e]
        simp [sgn]
        field_simp
        ring
      · change ((k + 1 : ℕ) : ℝ) / 40 = (k : ℝ) / 40 + (((k + 1 : ℕ) : ℝ) - k) * (1 * (1 / 40))
        push_cast
        ring)
    (fun b t y => LinearMap.toMatrix' (fderiv ℝ (fun q : Fin 3 → ℝ => (strainFunc (fun _ => model q) 20 (fun k _ => k) strains (fun _ _ => 300) b t y).1) ![2, 1, 1 / 40]).toLinearMap)
    (fun k hk b => by
      rw [matCLM_surj]
      refine DifferentiableAt.hasFDerivAt ?_
      rw [differentiableAt_pi]
      have h0 : DifferentiableAt ℝ (fun q : Fin 3 → ℝ => q 0) ![2, 1, 1 / 40] := differentiableAt_apply 0 _
      have h1 : DifferentiableAt ℝ (fun q : Fin 3 → ℝ => q 1) ![2, 1, 1 / 40] := differentiableAt_apply 1 _
      have h2 : DifferentiableAt ℝ (fun q : Fin 3 → ℝ => q 2) ![2, 1, 1 / 40] := differentiableAt_apply 2 _
      have hne : (![2, 1, 1 / 40] : Fin 3 → ℝ) 1 ≠ 0 := by norm_num
      have hp := hpos k hk
      intro i
      fin_cases i
      · have hq : DifferentiableAt ℝ (fun q : Fin 3 → ℝ => |(1 - (k : ℝ) / 40) / (1 - (k : ℝ) / 40)| / q 1) ![2, 1, 1 / 40] := by
          simp only [div_eq_mul_inv]
          exact (h1.fun_inv hne).const_mul _
        have hpw : DifferentiableAt ℝ (fun q : Fin 3 → ℝ => (|(1 - (k : ℝ) / 40) / (1 - (k : ℝ) / 40)| / q 1) ^ q 0) ![2, 1, 1 / 40] :=
          hq.rpow h0 (by rw [div_self hp.ne']; norm_num)
        exact ((differentiableAt_const _).fun_sub (hpw.mul_const _)).const_mul _
      · exact h2.const_mul 1)
    (fun _ _ _ => 1) 4 (by norm_num)
  exact ⟨_, grad, lam, h1, h2⟩

end Pyoptmat.Props
