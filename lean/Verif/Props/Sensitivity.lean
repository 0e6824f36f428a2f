import Verif.Proofs.Sensitivity
import Verif.Proofs.Kantorovich
import Verif.Props.Accuracy
import Verif.Props.Adjoint

/-!
# C111: gradients converge to the gradients of the exact solution

The discrete adjoint is exact for the discrete equations (C83). Here: how far its gradients are from those of the solution of the differential equation.
-/

namespace Pyoptmat.Props

open Pyoptmat.Spec Pyoptmat.Ode Pyoptmat.Chunktime Filter Topology

variable {β : Type*} [Fintype β] {m p : ℕ}

/-- **C111.** The sensitivity of an exact solution: the solution of the variational equation is the derivative of the solution with respect to parameters and initial state. -/
theorem C111_variational {F : (Fin p → ℝ) → ℝ → (Fin m → ℝ) → Fin m → ℝ} {J : ℝ → (Fin m → ℝ) → Matrix (Fin m) (Fin m) ℝ} {fp : ℝ → (Fin m → ℝ) → Matrix (Fin m) (Fin p) ℝ} {p0 q : Fin p → ℝ} {K : ℕ}
    {t : ℕ → ℝ} {Y : ℝ → Fin m → ℝ} {Ys : ℝ → ℝ → Fin m → ℝ} {S : ℝ → Fin m → ℝ} {v : Fin m → ℝ} {nu Λ ρ MS B : ℝ} (hnu : 0 ≤ nu) (ht : ∀ k < K, t k ≤ t (k + 1))
    (h : ExactDirection F J fp p0 K t nu Λ ρ Y q v MS B Ys S) (k : ℕ) (hk : k ≤ K) : HasDerivAt (fun e => Ys e (t k)) (S (t k)) 0 := by
  have hmono : ∀ i j, i ≤ j → j ≤ K → t i ≤ t j := by
    intro i j hij
    induction j, hij using Nat.le_induction with
    | base => exact fun _ => le_rfl
    | succ j hij ih => exact fun hj => (ih (by omega)).trans (ht j (by omega))
  have hin : ∀ k < K, ∀ s ∈ Set.Ioo (t k) (t (k + 1)), s ∈ Set.Icc (t 0) (t K) := fun k hk s hs =>
    ⟨(hmono 0 k (by omega) hk.le).trans hs.1.le, hs.2.le.trans (hmono (k + 1) K hk le_rfl)⟩
  obtain ⟨rfl, h1, h2, h3, h4, h5, h6, -⟩ := h
  exact sensitivity (nu := nu) (B := B) hnu ht (h1.mono fun e he k hk s hs => he s (hin k hk s hs)) h2 h3 (fun k hk s hs => (h6 s (hin k hk s hs)).2) ⟨h4.cont, h4.deriv⟩ h5 k hk

private theorem tangent_exists (A : ℕ → Matrix (Fin m) (Fin m) ℝ) (w : ℕ → Fin m → ℝ) (h : ℕ → ℝ) (v : Fin m → ℝ) {K : ℕ} (hA : ∀ k < K, IsUnit (1 - h k • A k).det) :
    ∃ T : ℕ → Fin m → ℝ, T 0 = v ∧ ∀ k < K, T (k + 1) = T k + h k • ((A k).mulVec (T (k + 1)) + w k) := by
  suffices H : ∀ k < K, ∀ T, (1 - h k • A k)⁻¹.mulVec (T + h k • w k) = T + h k • ((A k).mulVec ((1 - h k • A k)⁻¹.mulVec (T + h k • w k)) + w k) from
    ⟨fun k => Nat.rec v (fun k T => (1 - h k • A k)⁻¹.mulVec (T + h k • w k)) k, rfl, fun k hk => H k hk _⟩
  intro k hk T
  generalize hx : (1 - h k • A k)⁻¹.mulVec (T + h k • w k) = x
  have h1 : (1 - h k • A k).mulVec x = T + h k • w k := by
    rw [← hx, Matrix.mulVec_mulVec, Matrix.mul_nonsing_inv _ (hA k hk), Matrix.one_mulVec]
  rw [Matrix.sub_mulVec, Matrix.one_mulVec, Matrix.smul_mulVec, sub_eq_iff_eq_add] at h1
  conv_lhs => rw [h1]
  rw [smul_add]
  abel

/-- **C111.** Accuracy of the gradients. Let the integration (backward Euler, any batch, block size, linear solver and tolerances) have returned `res` without a warning, `δ` bounding what the tolerances permit
per step, `hmax` the steps and `D` the durations; let the tests have exact solutions with rates one-sided Lipschitz with constant `ν`, and let the state error bound of C81 be at most `E ≤ ρ`. Then `rewind`
returns `grad` and `lam`, and for every direction `(q, v)` in parameters and initial states the exact loss `Σ g · Y(t)` has a derivative, and `grad · q + Σ lam · v` misses it by at most
`(Σ |g|) exp(2 ν D) D (MS hmax / 2 + Λ (B + 1) E)`: the gradients converge with the step size and the tolerances. -/
theorem C111_accuracy (c : Config) (hs : c.scheme = .backwardEuler) (hm : 0 ≤ c.miter) (d : Direct) (rate : (Fin p → ℝ) → β → ℝ → (Fin m → ℝ) → Fin m → ℝ)
    (J : β → ℝ → (Fin m → ℝ) → Matrix (Fin m) (Fin m) ℝ) (fp : β → ℝ → (Fin m → ℝ) → Matrix (Fin m) (Fin p) ℝ) (p0 : Fin p → ℝ) (y0 : BVec β m ℝ) (nt : ℕ) (hnt : 0 < nt) (t : ℕ → β → ℝ) (n n' : ℤ)
    (hn : 0 < n) (hn' : 0 < n') (g : ℕ → BVec β m ℝ) (res : Partial β m) (h : integrate c (Func.lift fun b t y => (rate p0 b t y, J b t y)) y0 nt t n = .ok (res, false))
    (ht : ∀ b k, k + 1 < nt → t k b ≤ t (k + 1) b) (δ hmax D nu M Λ ρ E : ℝ) (hδ : ∀ b, ToleranceBound c (fun b t y => (rate p0 b t y, J b t y)) nt t res.get b δ)
    (hh : ∀ b k, k + 1 < nt → t (k + 1) b - t k b ≤ hmax) (hD : ∀ b, t (nt - 1) b - t 0 b ≤ D) (hnu : 0 ≤ nu) (hnuh : nu * hmax ≤ 1 / 2) (hh0 : 0 ≤ hmax) (hM : 0 ≤ M) (hΛ : 0 ≤ Λ)
    (hE : Real.exp (2 * nu * D) * (M / 2 * hmax * D + nt * δ) ≤ E) (hρ : E ≤ ρ) (Y : β → ℝ → Fin m → ℝ) (hY0 : ∀ b, Y b (t 0 b) = y0 b)
    (hY : ∀ b, ExactTest (fun q => rate q b) (J b) p0 (nt - 1) (fun k => t k b) nu M Λ ρ (Y b)) :
    ∃ grad lam, rewind .backwardEuler d (fun b t y => (rate p0 b t y, J b t y)) fp nt t res.get g n' = .ok (grad, lam) ∧
      ∀ (q : Fin p → ℝ) (v : β → Fin m → ℝ) (MS B : ℝ) (Ys : β → ℝ → ℝ → Fin m → ℝ) (S : β → ℝ → Fin m → ℝ), 0 ≤ MS → 0 ≤ B →
        (∀ b, ExactDirection (fun q => rate q b) (J b) (fp b) p0 (nt - 1) (fun k => t k b) nu Λ ρ (Y b) q (v b) MS B (Ys b) (S b)) →
        ∃ L, HasDerivAt (fun e => ∑ k ∈ Finset.range nt, ∑ b, g k b ⬝ᵥ Ys b e (t k b)) L 0 ∧
          |grad ⬝ᵥ q + ∑ b, lam b ⬝ᵥ v b - L| ≤ (∑ k ∈ Finset.range nt, ∑ b, l2 (g k b)) * (Real.exp (2 * nu * D) * (D * (MS / 2 * hmax + Λ * (B + 1) * E))) := by
  set f : Func β m := fun b t y => (rate p0 b t y, J b t y) with hf
  have hδ0 : ∀ b, 0 ≤ δ := fun b => (hδ b).1
  have hdur : ∀ b k, k < nt → 0 ≤ t k b - t 0 b ∧ t k b - t 0 b ≤ D := fun b k hk =>
    ⟨sub_nonneg.2 (mono_of_steps (t := fun k => t k b) (ht b) (by omega) hk),
      (sub_le_sub_right (mono_of_steps (t := fun k => t k b) (ht b) (by omega : k ≤ nt - 1) (by omega)) _).trans (hD b)⟩
  have hIcc : ∀ b k, k < nt → t k b ∈ Set.Icc (t 0 b) (t (nt - 1) b) := fun b k hk =>
    ⟨mono_of_steps (t := fun k => t k b) (ht b) (by omega) hk, mono_of_steps (t := fun k => t k b) (ht b) (by omega) (by omega)⟩
  -- the computed states are in the tube
  have herr : ∀ b k, k < nt → l2 (res.get k b - Y b (t k b)) ≤ E := by
    intro b k hk
    have h1 := C81_backward_piecewise c hs hm f y0 nt t n hn res h b (ht b) δ (hδ b) hmax (hh b) nu hnu hnuh (fun k hk => (hY b).oneSided _ (hIcc b _ hk)) M hM (Y b) (hY0 b) (hY b).solution k hk
    refine h1.trans (le_trans ?_ hE)
    obtain ⟨h2, h3⟩ := hdur b k hk
    refine mul_le_mul (Real.exp_le_exp.2 (mul_le_mul_of_nonneg_left h3 (by linarith))) ?_ ?_ (Real.exp_pos _).le
    · refine add_le_add (mul_le_mul_of_nonneg_left h3 (by positivity)) (mul_le_mul_of_nonneg_right ?_ (hδ0 b))
      exact_mod_cast hk.le
    · exact add_nonneg (mul_nonneg (by positivity) h2) (mul_nonneg (Nat.cast_nonneg k) (hδ0 b))
  -- the state matrices there are one-sided
  have hone : ∀ b k, k + 1 < nt → ∀ z, (J b (t (k + 1) b) (res.get (k + 1) b)).mulVec z ⬝ᵥ z ≤ nu * (z ⬝ᵥ z) := fun b k hk z =>
    oneSided_dir ((hY b).oneSided _ (hIcc b _ hk)) ((hY b).jac k (by omega) _ ((herr b _ hk).trans hρ) z)
  have hstep : ∀ b k, k + 1 < nt → nu * (t (k + 1) b - t k b) ≤ 1 / 2 := fun b k hk => (mul_le_mul_of_nonneg_left (hh b k hk) hnu).trans hnuh
  have hA : ∀ k, k + 1 < nt → ∀ b, IsUnit (1 - (t (k + 1) b - t k b) • J b (t (k + 1) b) (res.get (k + 1) b)).det := fun k hk b =>
    step_det_unit (sub_nonneg.2 (ht b k hk)) (by linarith [hstep b k hk]) (hone b k hk)
  refine ⟨_, _, rewind_spec .backwardEuler d f fp nt hnt t res.get g n' hn' fun _ => hA, fun q v MS B Ys S hMS hB hdir => ?_⟩
  refine ⟨∑ k ∈ Finset.range nt, ∑ b, g k b ⬝ᵥ S b (t k b), ?_, ?_⟩
  · refine HasDerivAt.fun_sum fun k hk => HasDerivAt.fun_sum fun b _ => ?_
    have hk := Finset.mem_range.1 hk
    have h1 := C111_variational (t := fun k => t k b) hnu (fun k hk => ht b k (by omega)) (hdir b) k (by omega)
    exact HasDerivAt.fun_sum fun i _ => ((hasDerivAt_pi.1 h1) i).const_mul (g k b i)
  · -- discrete tangents
    have hex : ∀ b, ∃ T : ℕ → Fin m → ℝ, T 0 = v b ∧ ∀ k < nt - 1, T (k + 1) = T k + (t (k + 1) b - t k b) • ((J b (t (k + 1) b) (res.get (k + 1) b)).mulVec (T (k + 1)) +
        (fp b (t (k + 1) b) (res.get (k + 1) b)).mulVec q) := fun b =>
      tangent_exists (fun k => J b (t (k + 1) b) (res.get (k + 1) b)) (fun k => (fp b (t (k + 1) b) (res.get (k + 1) b)).mulVec q) (fun k => t (k + 1) b - t k b) (v b) fun k hk => hA k (by omega) b
    choose T hT0 hT using hex
    have hid := adjoint_identity .backwardEuler f fp nt t res.get g (fun _ => hA) q (fun k b => T b k) (fun k b hk => hT b k (by omega)) (nt - 1) (by omega)
    have hlast : flipRows nt (fun k b => T b k) (nt - 1) = fun b => v b := by
      funext b
      unfold flipRows
      simp [hT0]
    rw [Nat.sub_add_cancel hnt, hlast] at hid
    have hrefl := Finset.sum_range_reflect (fun k => ∑ b, g k b ⬝ᵥ T b k) nt
    rw [← hid]
    change |(∑ i ∈ Finset.range nt, ∑ b, g (nt - 1 - i) b ⬝ᵥ T b (nt - 1 - i)) - _| ≤ _
    rw [hrefl, ← Finset.sum_sub_distrib, Finset.sum_mul]
    refine (Finset.abs_sum_le_sum_abs _ _).trans (Finset.sum_le_sum fun k hk => ?_)
    have hk := Finset.mem_range.1 hk
    rw [← Finset.sum_sub_distrib, Finset.sum_mul]
    refine (Finset.abs_sum_le_sum_abs _ _).trans (Finset.sum_le_sum fun b _ => ?_)
    rw [← dotProduct_sub]
    have habs : |g k b ⬝ᵥ (T b k - S b (t k b))| ≤ l2 (g k b) * l2 (T b k - S b (t k b)) := by
      rw [abs_le]
      refine ⟨?_, dot_le _ _⟩
      have := dot_le (-g k b) (T b k - S b (t k b))
      rw [l2_neg, neg_dotProduct] at this
      linarith
    refine habs.trans (mul_le_mul_of_nonneg_left ?_ (l2_nonneg _))
    -- comparison of the discrete with the exact sensitivities
    have hEn : 0 ≤ E := (l2_nonneg _).trans (herr b k hk)
    have hBE : 0 ≤ Λ * (B + 1) * E := by positivity
    have main := backward_compare (F := fun k z => (J b (t k b) (res.get k b)).mulVec z + (fp b (t k b) (res.get k b)).mulVec q) hnu (K := nt - 1) (t := fun k => t k b) (fun k hk => ht b k (by omega))
      (fun k hk x y => by
        have := hone b k (by omega) (x - y)
        rw [Matrix.mulVec_sub] at this
        simpa only [add_sub_add_right_eq_sub] using this) (fun k hk => hstep b k (by omega)) (x := fun k => T b k) (y := fun k => S b (t k b)) (dx := fun _ => 0)
      (dy := fun k => MS / 2 * (t (k + 1) b - t k b) ^ 2 + (t (k + 1) b - t k b) * (Λ * (B + 1) * E)) (fun k hk => by
        have e1 : T b (k + 1) - T b k - (t (k + 1) b - t k b) • ((J b (t (k + 1) b) (res.get (k + 1) b)).mulVec (T b (k + 1)) + (fp b (t (k + 1) b) (res.get (k + 1) b)).mulVec q) = 0 := by
          conv_lhs => lhs; lhs; rw [hT b k hk]
          abel
        beta_reduce
        rw [e1, l2_zero]) (fun k hk => by
        have hsub : Set.Icc (t k b) (t (k + 1) b) ⊆ Set.Icc (t 0 b) (t (nt - 1) b) := Set.Icc_subset_Icc (hIcc b k (by omega)).1 (hIcc b (k + 1) (by omega)).2
        have h1 := truncation_interior (Y' := fun s => variational (J b) (fp b) q (Y b) s (S b s)) (ht b k (by omega)) _ ((hdir b).sens.cont.mono hsub) ((hdir b).sens.deriv k hk) ((hdir b).sens.lip k hk)
        have h2 := (hY b).lip k hk (res.get (k + 1) b) ((herr b (k + 1) (by omega)).trans hρ) (S b (t (k + 1) b))
        have h3 := (hdir b).lip k hk (res.get (k + 1) b) ((herr b (k + 1) (by omega)).trans hρ)
        have h4 := herr b (k + 1) (by omega)
        have h5 := ((hdir b).bound _ (hIcc b (k + 1) (by omega))).1
        have h6 : Λ * l2 (res.get (k + 1) b - Y b (t (k + 1) b)) * l2 (S b (t (k + 1) b)) ≤ Λ * E * B :=
          mul_le_mul (mul_le_mul_of_nonneg_left h4 hΛ) h5 (l2_nonneg _) (mul_nonneg hΛ hEn)
        have h7 : Λ * l2 (res.get (k + 1) b - Y b (t (k + 1) b)) ≤ Λ * E := mul_le_mul_of_nonneg_left h4 hΛ
        have hstep0 : 0 ≤ t (k + 1) b - t k b := sub_nonneg.2 (ht b k (by omega))
        set u := (J b (t (k + 1) b) (res.get (k + 1) b)).mulVec (S b (t (k + 1) b)) - (J b (t (k + 1) b) (Y b (t (k + 1) b))).mulVec (S b (t (k + 1) b)) with hu
        set w := (fp b (t (k + 1) b) (res.get (k + 1) b)).mulVec q - (fp b (t (k + 1) b) (Y b (t (k + 1) b))).mulVec q with hw
        have e1 : S b (t (k + 1) b) - S b (t k b) - (t (k + 1) b - t k b) • ((J b (t (k + 1) b) (res.get (k + 1) b)).mulVec (S b (t (k + 1) b)) + (fp b (t (k + 1) b) (res.get (k + 1) b)).mulVec q) =
            (S b (t (k + 1) b) - S b (t k b) - (t (k + 1) b - t k b) • variational (J b) (fp b) q (Y b) (t (k + 1) b) (S b (t (k + 1) b))) + -((t (k + 1) b - t k b) • (u + w)) := by
          rw [hu, hw, variational]
          simp only [smul_add, smul_sub]
          abel
        beta_reduce
        rw [e1]
        refine (l2_add_le _ _).trans (add_le_add h1 ?_)
        rw [l2_neg, l2_smul, abs_of_nonneg hstep0]
        refine mul_le_mul_of_nonneg_left ((l2_add_le _ _).trans ?_) hstep0
        have : Λ * (B + 1) * E = Λ * E * B + Λ * E := by ring
        linarith) k (by omega)
    refine main.trans ?_
    beta_reduce
    rw [hT0, (hdir b).start, sub_self, l2_zero, zero_add]
    obtain ⟨h2, h3⟩ := hdur b k hk
    refine mul_le_mul (Real.exp_le_exp.2 (mul_le_mul_of_nonneg_left h3 (by linarith))) ?_ ?_ (Real.exp_pos _).le
    · have h4 : ∑ j ∈ Finset.range k, (0 + (MS / 2 * (t (j + 1) b - t j b) ^ 2 + (t (j + 1) b - t j b) * (Λ * (B + 1) * E))) ≤
          ∑ j ∈ Finset.range k, (t (j + 1) b - t j b) * (MS / 2 * hmax + Λ * (B + 1) * E) := by
        refine Finset.sum_le_sum fun j hj => ?_
        have hj := Finset.mem_range.1 hj
        have h5 : 0 ≤ t (j + 1) b - t j b := sub_nonneg.2 (ht b j (by omega))
        have h6 := mul_le_mul_of_nonneg_left (hh b j (by omega)) h5
        have h7 := mul_le_mul_of_nonneg_left h6 (by linarith : 0 ≤ MS / 2)
        nlinarith
      refine h4.trans ?_
      rw [← Finset.sum_mul, Finset.sum_range_sub (fun j => t j b)]
      exact mul_le_mul_of_nonneg_right h3 (by positivity)
    · refine Finset.sum_nonneg fun j hj => ?_
      have hj := Finset.mem_range.1 hj
      have h5 : 0 ≤ t (j + 1) b - t j b := sub_nonneg.2 (ht b j (by omega))
      positivity

theorem exp_lip {s u : ℝ} (hs : 0 ≤ s) (hu : 0 ≤ u) : |Real.exp (-s) - Real.exp (-u)| ≤ |s - u| := by
  wlog h : s ≤ u with H
  · rw [abs_sub_comm, abs_sub_comm s]
    exact H hu hs (le_of_not_ge h)
  have h1 : Real.exp (-u) = Real.exp (-s) * Real.exp (-(u - s)) := by
    rw [← Real.exp_add]
    congr 1
    ring
  have h2 : Real.exp (-s) ≤ 1 := Real.exp_le_one_iff.2 (by linarith)
  have h3 := Real.add_one_le_exp (-(u - s))
  have h4 : Real.exp (-(u - s)) ≤ 1 := Real.exp_le_one_iff.2 (by linarith)
  have h5 := Real.exp_pos (-s)
  rw [abs_of_nonneg (by rw [h1]; nlinarith), abs_of_nonpos (by linarith), h1]
  nlinarith

private theorem decay_test : ExactTest (p := 1) (m := 1) (fun q _ y _ => q 0 * y 0) (fun _ _ => !![-1]) (fun _ => -1) 10 (fun k => (k : ℝ) / 10) 0 1 1 1 (fun s _ => Real.exp (-s)) where
  oneSided := fun s _ x y => by
    simp only [dotProduct, Finset.univ_unique, Fin.default_eq_zero, Finset.sum_singleton, Pi.sub_apply, zero_mul]
    nlinarith [mul_self_nonneg (x 0 - y 0)]
  solution := by
    refine ⟨Continuous.continuousOn (by fun_prop), fun k _ s _ => ?_, fun k hk s hs => ?_⟩
    · rw [hasDerivAt_pi]
      intro i
      refine ((hasDerivAt_id s).neg.exp).congr_deriv ?_
      simp
    · have hk0 : (0 : ℝ) ≤ (k : ℝ) / 10 := by positivity
      have hk1 : (0 : ℝ) ≤ ((k + 1 : ℕ) : ℝ) / 10 := by positivity
      rw [l2_one, one_mul]
      refine le_trans (le_of_eq ?_) (exp_lip (hk0.trans hs.1.le) hk1)
      rw [abs_sub_comm]
      congr 1
      simp only [Pi.sub_apply]
      ring
  jac := fun k _ y _ z => by
    rw [hasDerivAt_pi]
    intro i
    obtain rfl : i = 0 := Subsingleton.elim (α := Fin 1) i 0
    have := (((hasDerivAt_id (0 : ℝ)).mul_const (z 0)).const_add (y 0)).const_mul (-1)
    refine this.congr_deriv ?_
    simp [Matrix.mulVec, dotProduct]
  lip := fun k _ y _ z => by
    rw [sub_self, l2_zero]
    exact mul_nonneg (mul_nonneg zero_le_one (l2_nonneg _)) (l2_nonneg _)

private theorem decay_direction : ExactDirection (p := 1) (m := 1) (fun q _ y _ => q 0 * y 0) (fun _ _ => !![-1]) (fun _ y => !![y 0]) (fun _ => -1) 10 (fun k => (k : ℝ) / 10) 0 1 1 (fun s _ => Real.exp (-s))
    (fun _ => 1) 0 2 1 (fun e s _ => Real.exp ((-1 + e) * s)) (fun s _ => s * Real.exp (-s)) where
  base := by
    funext s i
    simp
  oneSided := by
    filter_upwards [Metric.ball_mem_nhds (0 : ℝ) one_pos] with e he s _ x y
    rw [Metric.mem_ball, Real.dist_eq, sub_zero, abs_lt] at he
    simp only [dotProduct, Finset.univ_unique, Fin.default_eq_zero, Finset.sum_singleton, Pi.sub_apply, zero_mul, Pi.add_apply, Pi.smul_apply, smul_eq_mul, mul_one]
    nlinarith [mul_self_nonneg (x 0 - y 0)]
  family := by
    refine Eventually.of_forall fun e => ⟨⟨Continuous.continuousOn (by fun_prop), fun k _ s _ => ?_⟩, by funext i; simp⟩
    rw [hasDerivAt_pi]
    intro i
    refine (((hasDerivAt_id s).const_mul (-1 + e)).exp).congr_deriv ?_
    simp
    ring
  along := by
    intro η hη
    refine ⟨min η 1, lt_min hη one_pos, fun k _ s _ e z he hz => ?_⟩
    rw [l2_one, l2_one]
    have e1 : ((-1 + e * 1) * (Real.exp (-s) + z 0) - -1 * Real.exp (-s) - (-1 * z 0 + e * Real.exp (-s))) = e * z 0 := by ring
    refine le_trans (le_of_eq (congrArg abs (Eq.trans ?_ e1))) ?_
    · simp [Matrix.mulVec, dotProduct]
    rw [abs_mul]
    have := he.trans (min_le_left _ _)
    nlinarith [abs_nonneg e, abs_nonneg (z 0), mul_nonneg hη.le (abs_nonneg e)]
  sens := by
    refine ⟨Continuous.continuousOn (by fun_prop), fun k _ s _ => ?_, fun k hk s hs => ?_⟩
    · rw [hasDerivAt_pi]
      intro i
      obtain rfl : i = 0 := Subsingleton.elim (α := Fin 1) i 0
      refine ((hasDerivAt_id s).mul (hasDerivAt_id s).neg.exp).congr_deriv ?_
      simp [variational, Matrix.mulVec, dotProduct]
      ring
    · have hk0 : (0 : ℝ) ≤ (k : ℝ) / 10 := by positivity
      have hk1 : (0 : ℝ) ≤ ((k + 1 : ℕ) : ℝ) / 10 := by positivity
      have hk2 : ((k + 1 : ℕ) : ℝ) / 10 ≤ 1 := by
        have : ((k + 1 : ℕ) : ℝ) ≤ 10 := by exact_mod_cast hk
        linarith
      beta_reduce at hs ⊢
      generalize ((k + 1 : ℕ) : ℝ) / 10 = u at hs hk1 hk2 ⊢
      have hs0 : 0 ≤ s := hk0.trans hs.1.le
      have hs1 : s ≤ 1 := hs.2.le.trans hk2
      rw [l2_one]
      have e1 : (variational (fun _ _ => !![-1]) (fun _ y => !![y 0]) (fun _ => 1) (fun s _ => Real.exp (-s)) s (fun _ => s * Real.exp (-s)) -
          variational (fun _ _ => !![-1]) (fun _ y => !![y 0]) (fun _ => 1) (fun s _ => Real.exp (-s)) u (fun _ => u * Real.exp (-u)) : Fin 1 → ℝ) 0 =
          (Real.exp (-s) - Real.exp (-u)) * (1 - s) + Real.exp (-u) * (u - s) := by
        simp [variational, Matrix.mulVec, dotProduct]
        ring
      refine le_trans (le_of_eq (congrArg abs e1)) ((abs_add_le _ _).trans ?_)
      rw [abs_mul, abs_mul, abs_of_nonneg (by linarith : 0 ≤ 1 - s), abs_of_pos (Real.exp_pos _), abs_sub_comm u s]
      have h1 := exp_lip hs0 hk1
      have h2 : Real.exp (-u) ≤ 1 := Real.exp_le_one_iff.2 (by linarith)
      nlinarith [abs_nonneg (s - u), abs_nonneg (Real.exp (-s) - Real.exp (-u))]
  start := by
    funext i
    simp
  bound := fun s hs => by
    have h0 : 0 ≤ s := by simpa using hs.1
    have h1 : s ≤ 1 := by
      have := hs.2
      norm_num at this
      exact this
    have h2 : Real.exp (-s) ≤ 1 := Real.exp_le_one_iff.2 (by linarith)
    have h3 := Real.exp_pos (-s)
    rw [l2_one, l2_one]
    constructor
    · rw [abs_of_nonneg (by positivity)]
      nlinarith
    · simp [Matrix.mulVec, dotProduct]
      linarith
  lip := fun k _ y _ => by
    rw [l2_one, l2_one, one_mul]
    simp [Matrix.mulVec, dotProduct]

/-- Non-vacuity of C111: `y' = p y`, `p = -1`, `y(0) = 1`, ten steps of 1/10 in blocks of three: the run succeeds, and the gradient of `y(1)` with respect to `p`, which is `exp(-1)` for the exact solution, is
returned up to 1/5 — C111's bound for this example. -/
example : let c : Config := ⟨.backwardEuler, .direct .thomas, 0, 0, 100, true, "zero"⟩
    let f : Func Unit 1 := fun _ _ y => (fun _ => -1 * y 0, !![-1])
    ∃ res grad lam, integrate c (Func.lift f) (fun _ _ => 1) 11 (fun k _ => (k : ℝ) / 10) 3 = .ok (res, false) ∧
      rewind .backwardEuler .pcr f (fun _ _ y => !![y 0]) 11 (fun k _ => (k : ℝ) / 10) res.get (fun k _ _ => if k = 10 then 1 else 0) 4 = .ok (grad, lam) ∧
      |grad 0 - Real.exp (-1)| ≤ 1 / 5 := by
  intro c f
  obtain ⟨res, ho, -⟩ := C18_linear_integrate_exact (β := Unit) (m := 1) c rfl rfl rfl (by norm_num) (fun _ _ => !![-1]) (fun _ _ => 0) (fun _ _ => 1) 11 (by norm_num)
    (fun k _ => (k : ℝ) / 10) 3 (by norm_num) (Or.inl rfl) (by
      intro k b _
      rw [Matrix.det_fin_one, isUnit_iff_ne_zero]
      change (1 : Matrix (Fin 1) (Fin 1) ℝ) 0 0 - (((k + 1 : ℕ) : ℝ) / 10 - (k : ℝ) / 10) * -1 ≠ 0
      push_cast
      rw [Matrix.one_apply_eq]
      ring_nf
      norm_num)
  have hf : (fun (_ : Unit) (_ : ℝ) (y : Fin 1 → ℝ) => ((!![-1] : Matrix (Fin 1) (Fin 1) ℝ).mulVec y + 0, !![(-1 : ℝ)])) = f := by
    funext _ _ y
    refine Prod.ext (funext fun i => ?_) rfl
    simp [f, Matrix.mulVec, dotProduct]
  rw [hf] at ho
  obtain ⟨grad, lam, h1, h2⟩ := C111_accuracy (β := Unit) (m := 1) (p := 1) c rfl (by norm_num) .pcr (fun q _ _ y _ => q 0 * y 0) (fun _ _ _ => !![-1]) (fun _ _ y => !![y 0]) (fun _ => -1) (fun _ _ => 1) 11
    (by norm_num) (fun k _ => (k : ℝ) / 10) 3 4 (by norm_num) (by norm_num) (fun k _ _ => if k = 10 then 1 else 0) res ho (fun _ k _ => by push_cast; linarith) 0 (1 / 10) 1 0 1 1 1 (1 / 20)
    (fun _ => ⟨le_rfl, le_rfl, Or.inl rfl⟩) (fun _ k _ => by push_cast; linarith) (fun _ => by norm_num) le_rfl (by norm_num) (by norm_num) (by norm_num) (by norm_num) (by norm_num) (by norm_num)
    (fun _ s _ => Real.exp (-s)) (fun _ => by funext i; simp) (fun _ => decay_test)
  obtain ⟨L, h3, h4⟩ := h2 (fun _ => 1) 0 2 1 (fun _ e s _ => Real.exp ((-1 + e) * s)) (fun _ s _ => s * Real.exp (-s)) (by norm_num) (by norm_num) (fun _ => decay_direction)
  refine ⟨res, grad, lam, ho, h1, ?_⟩
  have e1 : L = Real.exp (-1) := by
    refine h3.unique ?_
    have e2 : (fun e : ℝ => ∑ k ∈ Finset.range 11, ∑ b : Unit, (fun _ : Fin 1 => if k = 10 then (1 : ℝ) else 0) ⬝ᵥ fun _ : Fin 1 => Real.exp ((-1 + e) * ((k : ℝ) / 10))) = fun e => Real.exp (-1 + e) := by
      funext e
      simp [dotProduct, Finset.sum_ite_eq', Finset.sum_range_succ]
    rw [e2]
    refine ((hasDerivAt_id (0 : ℝ)).const_add (-1)).exp.congr_deriv ?_
    simp
  have e3 : ∑ k ∈ Finset.range 11, ∑ b : Unit, l2 (fun _ : Fin 1 => if k = 10 then (1 : ℝ) else 0) = 1 := by
    simp [l2_one, Finset.sum_range_succ]
  rw [e1] at h4
  simp only [e3] at h4
  simp [dotProduct] at h4
  refine h4.trans ?_
  norm_num

end Pyoptmat.Props
