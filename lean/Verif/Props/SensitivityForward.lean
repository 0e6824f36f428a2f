import Verif.Props.Sensitivity
import Mathlib.Analysis.Complex.ExponentialBounds

/-!
# C111 for the forward Euler scheme
-/

namespace Pyoptmat.Spec

open Filter Topology

variable {m p : ℕ}

theorem Lip.oneSided {f : (Fin m → ℝ) → Fin m → ℝ} {L : ℝ} (h : Lip f L) : OneSided f L := fun x y => by
  have h1 := dot_le (f x - f y) (x - y)
  have h2 := mul_le_mul_of_nonneg_right (h x y) (l2_nonneg (x - y))
  rw [l2_sq]
  nlinarith

theorem continuous_l2 : Continuous (l2 : (Fin m → ℝ) → ℝ) := by
  unfold l2
  fun_prop

/-- the derivative of a Lipschitz function is bounded -/
theorem Lip.dir {f : (Fin m → ℝ) → Fin m → ℝ} {L : ℝ} (hf : Lip f L) {y z w : Fin m → ℝ} (h : HasDerivAt (fun τ : ℝ => f (y + τ • z)) w 0) : l2 w ≤ L * l2 z := by
  have h2 := (continuous_l2.tendsto _).comp h.tendsto_slope_zero_right
  refine le_of_tendsto h2 ?_
  filter_upwards [self_mem_nhdsWithin] with τ hτ
  have hτ : 0 < τ := hτ
  have h3 := hf (y + τ • z) y
  simp only [Function.comp, zero_add, zero_smul, add_zero, add_sub_cancel_left, l2_smul] at h3 ⊢
  rw [abs_of_pos hτ] at h3
  rw [abs_of_pos (inv_pos.2 hτ), inv_mul_le_iff₀ hτ]
  linarith

theorem SmoothSolution.grid {F : ℝ → (Fin m → ℝ) → Fin m → ℝ} {K : ℕ} {t : ℕ → ℝ} {M : ℝ} {Y : ℝ → Fin m → ℝ} (h : SmoothSolution F (t 0) (t K) M Y) (ht : ∀ k < K, t k ≤ t (k + 1)) :
    GridSolution F K t Y := by
  have hmono : ∀ i j, i ≤ j → j ≤ K → t i ≤ t j := by
    intro i j hij
    induction j, hij using Nat.le_induction with
    | base => exact fun _ => le_rfl
    | succ j hij ih => exact fun hj => (ih (by omega)).trans (ht j (by omega))
  refine ⟨fun s hs => (h.deriv s hs).continuousWithinAt, fun k hk s hs => ?_⟩
  have h1 : t 0 < s := (hmono 0 k (by omega) hk.le).trans_lt hs.1
  have h2 : s < t K := hs.2.trans_le (hmono (k + 1) K hk le_rfl)
  exact (h.deriv s ⟨h1.le, h2.le⟩).hasDerivAt (Icc_mem_nhds h1 h2)

end Pyoptmat.Spec

namespace Pyoptmat.Props

open Pyoptmat.Spec Pyoptmat.Ode Pyoptmat.Chunktime Filter Topology

variable {β : Type*} [Fintype β] {m p : ℕ}

/-- **C111.** Accuracy of the gradients, forward Euler. Let the integration (any batch, block size, linear solver and tolerances) have returned `res` without a warning, `δ` bounding what the tolerances permit
per step, `hmax` the steps and `D` the durations; let the tests have exact solutions with rates Lipschitz with constant `Lr`, and let the state error bound of C81 be at most `E ≤ ρ`. Then `rewind`
returns `grad` and `lam` (no step matrix has to be invertible), and for every direction `(q, v)` in parameters and initial states the exact loss `Σ g · Y(t)` has a derivative, and `grad · q + Σ lam · v` misses
it by at most `(Σ |g|) exp(Lr D) D (MS hmax / 2 + Λ (B + 1) E)`. -/
theorem C111_forward_accuracy (c : Config) (hs : c.scheme = .forwardEuler) (hm : 0 ≤ c.miter) (d : Direct) (rate : (Fin p → ℝ) → β → ℝ → (Fin m → ℝ) → Fin m → ℝ)
    (J : β → ℝ → (Fin m → ℝ) → Matrix (Fin m) (Fin m) ℝ) (fp : β → ℝ → (Fin m → ℝ) → Matrix (Fin m) (Fin p) ℝ) (p0 : Fin p → ℝ) (y0 : BVec β m ℝ) (nt : ℕ) (hnt : 0 < nt) (t : ℕ → β → ℝ) (n n' : ℤ)
    (hn : 0 < n) (hn' : 0 < n') (g : ℕ → BVec β m ℝ) (res : Partial β m) (h : integrate c (Func.lift fun b t y => (rate p0 b t y, J b t y)) y0 nt t n = .ok (res, false))
    (ht : ∀ b k, k + 1 < nt → t k b ≤ t (k + 1) b) (δ hmax D Lr M Λ ρ E : ℝ) (hδ : ∀ b, ToleranceBound c (fun b t y => (rate p0 b t y, J b t y)) nt t res.get b δ)
    (hh : ∀ b k, k + 1 < nt → t (k + 1) b - t k b ≤ hmax) (hD : ∀ b, t (nt - 1) b - t 0 b ≤ D) (hL : 0 ≤ Lr) (hh0 : 0 ≤ hmax) (hM : 0 ≤ M) (hΛ : 0 ≤ Λ)
    (hE : Real.exp (Lr * D) * (M / 2 * hmax * D + nt * δ) ≤ E) (hρ : E ≤ ρ) (Y : β → ℝ → Fin m → ℝ) (hY0 : ∀ b, Y b (t 0 b) = y0 b)
    (hY : ∀ b, ForwardTest (fun q => rate q b) (J b) p0 (nt - 1) (fun k => t k b) Lr M Λ ρ (Y b)) :
    ∃ grad lam, rewind .forwardEuler d (fun b t y => (rate p0 b t y, J b t y)) fp nt t res.get g n' = .ok (grad, lam) ∧
      ∀ (q : Fin p → ℝ) (v : β → Fin m → ℝ) (MS B : ℝ) (Ys : β → ℝ → ℝ → Fin m → ℝ) (S : β → ℝ → Fin m → ℝ), 0 ≤ MS → 0 ≤ B →
        (∀ b, ForwardDirection (fun q => rate q b) (J b) (fp b) p0 (nt - 1) (fun k => t k b) Lr Λ ρ (Y b) q (v b) MS B (Ys b) (S b)) →
        ∃ L, HasDerivAt (fun e => ∑ k ∈ Finset.range nt, ∑ b, g k b ⬝ᵥ Ys b e (t k b)) L 0 ∧
          |grad ⬝ᵥ q + ∑ b, lam b ⬝ᵥ v b - L| ≤ (∑ k ∈ Finset.range nt, ∑ b, l2 (g k b)) * (Real.exp (Lr * D) * (D * (MS / 2 * hmax + Λ * (B + 1) * E))) := by
  set f : Func β m := fun b t y => (rate p0 b t y, J b t y) with hf
  have hδ0 : ∀ b, 0 ≤ δ := fun b => (hδ b).1
  have hdur : ∀ b k, k < nt → 0 ≤ t k b - t 0 b ∧ t k b - t 0 b ≤ D := fun b k hk =>
    ⟨sub_nonneg.2 (mono_of_steps (t := fun k => t k b) (ht b) (by omega) hk),
      (sub_le_sub_right (mono_of_steps (t := fun k => t k b) (ht b) (by omega : k ≤ nt - 1) (by omega)) _).trans (hD b)⟩
  have hIcc : ∀ b k, k < nt → t k b ∈ Set.Icc (t 0 b) (t (nt - 1) b) := fun b k hk =>
    ⟨mono_of_steps (t := fun k => t k b) (ht b) (by omega) hk, mono_of_steps (t := fun k => t k b) (ht b) (by omega) (by omega)⟩
  -- the computed states are in the tube
  have herr : ∀ b k, k < nt → l2 (res.get k b - Y b (t k b)) ≤ E := by
    intro b k hk
    have h1 := C81_forward_accuracy c hs hm f y0 nt t n hn res h b (ht b) δ (hδ b) hmax (hh b) Lr hL (fun k hk => (hY b).rates _ (hIcc b _ (by omega))) M hM (Y b) (hY0 b) (hY b).solution k hk
    refine h1.trans (le_trans ?_ hE)
    obtain ⟨h2, h3⟩ := hdur b k hk
    refine mul_le_mul (Real.exp_le_exp.2 (mul_le_mul_of_nonneg_left h3 hL)) ?_ ?_ (Real.exp_pos _).le
    · refine add_le_add (mul_le_mul_of_nonneg_left h3 (by positivity)) (mul_le_mul_of_nonneg_right ?_ (hδ0 b))
      exact_mod_cast hk.le
    · exact add_nonneg (mul_nonneg (by positivity) h2) (mul_nonneg (Nat.cast_nonneg k) (hδ0 b))
  -- the state matrices there are bounded
  have hone : ∀ b k, k + 1 < nt → ∀ z, l2 ((J b (t k b) (res.get k b)).mulVec z) ≤ Lr * l2 z := fun b k hk z =>
    Lip.dir ((hY b).rates _ (hIcc b _ (by omega))) ((hY b).jac k (by omega) _ ((herr b _ (by omega)).trans hρ) z)
  refine ⟨_, _, rewind_spec .forwardEuler d f fp nt hnt t res.get g n' hn' (fun h => by cases h), fun q v MS B Ys S hMS hB hdir => ?_⟩
  refine ⟨∑ k ∈ Finset.range nt, ∑ b, g k b ⬝ᵥ S b (t k b), ?_, ?_⟩
  · refine HasDerivAt.fun_sum fun k hk => HasDerivAt.fun_sum fun b _ => ?_
    have hk := Finset.mem_range.1 hk
    have hin : ∀ k < nt - 1, ∀ s ∈ Set.Ioo (t k b) (t (k + 1) b), s ∈ Set.Icc (t 0 b) (t (nt - 1) b) := fun k hk s hs =>
      ⟨(hIcc b k (by omega)).1.trans hs.1.le, hs.2.le.trans (hIcc b (k + 1) (by omega)).2⟩
    have h1 : HasDerivAt (fun e => Ys b e (t k b)) (S b (t k b)) 0 := by
      have hb := hdir b
      have e0 := hb.base
      refine sensitivity (F := fun q => rate q b) (J := J b) (fp := fp b) (p0 := p0) (q := q) (K := nt - 1) (t := fun k => t k b) (nu := Lr) (B := B) (Y := Ys b) (v := v b) hL (fun k hk => ht b k (by omega))
        (hb.rates.mono fun e he k hk s hs => (he s (hin k hk s hs)).oneSided) ?_ ?_ (fun k hk s hs => ?_) ?_ hb.start k (by omega)
      · rw [e0]
        exact hb.family
      · rw [e0]
        exact hb.along
      · rw [e0]
        exact (hb.bound s (hin k hk s hs)).2
      · rw [e0]
        exact hb.sens.grid (t := fun k => t k b) fun k hk => ht b k (by omega)
    exact HasDerivAt.fun_sum fun i _ => ((hasDerivAt_pi.1 h1) i).const_mul (g k b i)
  · -- discrete tangents
    let T : β → ℕ → Fin m → ℝ := fun b k => Nat.rec (v b) (fun k T => T + (t (k + 1) b - t k b) • ((J b (t k b) (res.get k b)).mulVec T + (fp b (t k b) (res.get k b)).mulVec q)) k
    have hT0 : ∀ b, T b 0 = v b := fun b => rfl
    have hT : ∀ b k, T b (k + 1) = T b k + (t (k + 1) b - t k b) • ((J b (t k b) (res.get k b)).mulVec (T b k) + (fp b (t k b) (res.get k b)).mulVec q) := fun b k => rfl
    clear_value T
    have hid := adjoint_identity .forwardEuler f fp nt t res.get g (fun h => by cases h) q (fun k b => T b k) (fun k b hk => hT b k) (nt - 1) (by omega)
    have hlast : flipRows nt (fun k b => T b k) (nt - 1) = fun b => v b := by
      funext b
      unfold flipRows
      simp [hT0]
    rw [Nat.sub_add_cancel hnt, hlast] at hid
    have hrefl := Finset.sum_range_reflect (fun k => ∑ b, g k b ⬝ᵥ T b k) nt
    rw [← hid]
    change |(∑ i ∈ Finset.range nt, ∑ b, g (nt - 1 - i) b ⬝ᵥ T b (nt - 1 - i)) - _| ≤ _
    rw [hrefl, ← Finset.sum_sub_distrib, Finset.sum_mul]
    refine (Finset.abs_sum_le_sum_abs _ _).trans (Finset.sum_le_sum fun k hk => ?_)
    have hk := Finset.mem_range.1 hk
    rw [← Finset.sum_sub_distrib, Finset.sum_mul]
    refine (Finset.abs_sum_le_sum_abs _ _).trans (Finset.sum_le_sum fun b _ => ?_)
    rw [← dotProduct_sub]
    have habs : |g k b ⬝ᵥ (T b k - S b (t k b))| ≤ l2 (g k b) * l2 (T b k - S b (t k b)) := by
      rw [abs_le]
      refine ⟨?_, dot_le _ _⟩
      have := dot_le (-g k b) (T b k - S b (t k b))
      rw [l2_neg, neg_dotProduct] at this
      linarith
    refine habs.trans (mul_le_mul_of_nonneg_left ?_ (l2_nonneg _))
    -- comparison of the discrete with the exact sensitivities
    have hEn : 0 ≤ E := (l2_nonneg _).trans (herr b k hk)
    have hBE : 0 ≤ Λ * (B + 1) * E := by positivity
    have main := forward_compare (F := fun k z => (J b (t k b) (res.get k b)).mulVec z + (fp b (t k b) (res.get k b)).mulVec q) hL (K := nt - 1) (t := fun k => t k b) (fun k hk => ht b k (by omega))
      (fun k hk x y => by
        have := hone b k (by omega) (x - y)
        rw [Matrix.mulVec_sub] at this
        simpa only [add_sub_add_right_eq_sub] using this) (x := fun k => T b k) (y := fun k => S b (t k b)) (dx := fun _ => 0)
      (dy := fun k => MS / 2 * (t (k + 1) b - t k b) ^ 2 + (t (k + 1) b - t k b) * (Λ * (B + 1) * E)) (fun k hk => by
        have e1 : T b (k + 1) - T b k - (t (k + 1) b - t k b) • ((J b (t k b) (res.get k b)).mulVec (T b k) + (fp b (t k b) (res.get k b)).mulVec q) = 0 := by
          rw [hT b k]
          abel
        beta_reduce
        rw [e1, l2_zero]) (fun k hk => by
        have hsub : Set.Icc (t k b) (t (k + 1) b) ⊆ Set.Icc (t 0 b) (t (nt - 1) b) := Set.Icc_subset_Icc (hIcc b k (by omega)).1 (hIcc b (k + 1) (by omega)).2
        have h1 := truncation (Y' := fun s => variational (J b) (fp b) q (Y b) s (S b s)) (ht b k (by omega)) _ (fun s hs => ((hdir b).sens.deriv s (hsub hs)).mono hsub)
          (fun s hs => (hdir b).sens.lip s (hsub hs) (t k b) (hIcc b k (by omega))) (Or.inl rfl)
        have h2 := (hY b).lip k hk (res.get k b) ((herr b k (by omega)).trans hρ) (S b (t k b))
        have h3 := (hdir b).lip k hk (res.get k b) ((herr b k (by omega)).trans hρ)
        have h4 := herr b k (by omega)
        have h5 := ((hdir b).bound _ (hIcc b k (by omega))).1
        have h6 : Λ * l2 (res.get k b - Y b (t k b)) * l2 (S b (t k b)) ≤ Λ * E * B :=
          mul_le_mul (mul_le_mul_of_nonneg_left h4 hΛ) h5 (l2_nonneg _) (mul_nonneg hΛ hEn)
        have h7 : Λ * l2 (res.get k b - Y b (t k b)) ≤ Λ * E := mul_le_mul_of_nonneg_left h4 hΛ
        have hstep0 : 0 ≤ t (k + 1) b - t k b := sub_nonneg.2 (ht b k (by omega))
        set u := (J b (t k b) (res.get k b)).mulVec (S b (t k b)) - (J b (t k b) (Y b (t k b))).mulVec (S b (t k b)) with hu
        set w := (fp b (t k b) (res.get k b)).mulVec q - (fp b (t k b) (Y b (t k b))).mulVec q with hw
        have e1 : S b (t (k + 1) b) - S b (t k b) - (t (k + 1) b - t k b) • ((J b (t k b) (res.get k b)).mulVec (S b (t k b)) + (fp b (t k b) (res.get k b)).mulVec q) =
            (S b (t (k + 1) b) - S b (t k b) - (t (k + 1) b - t k b) • variational (J b) (fp b) q (Y b) (t k b) (S b (t k b))) + -((t (k + 1) b - t k b) • (u + w)) := by
          rw [hu, hw, variational]
          simp only [smul_add, smul_sub]
          abel
        beta_reduce
        rw [e1]
        refine (l2_add_le _ _).trans (add_le_add h1 ?_)
        rw [l2_neg, l2_smul, abs_of_nonneg hstep0]
        refine mul_le_mul_of_nonneg_left ((l2_add_le _ _).trans ?_) hstep0
        have : Λ * (B + 1) * E = Λ * E * B + Λ * E := by ring
        linarith) k (by omega)
    refine main.trans ?_
    beta_reduce
    rw [hT0, (hdir b).start, sub_self, l2_zero, zero_add]
    obtain ⟨h2, h3⟩ := hdur b k hk
    refine mul_le_mul (Real.exp_le_exp.2 (mul_le_mul_of_nonneg_left h3 hL)) ?_ ?_ (Real.exp_pos _).le
    · have h4 : ∑ j ∈ Finset.range k, (0 + (MS / 2 * (t (j + 1) b - t j b) ^ 2 + (t (j + 1) b - t j b) * (Λ * (B + 1) * E))) ≤
          ∑ j ∈ Finset.range k, (t (j + 1) b - t j b) * (MS / 2 * hmax + Λ * (B + 1) * E) := by
        refine Finset.sum_le_sum fun j hj => ?_
        have hj := Finset.mem_range.1 hj
        have h5 : 0 ≤ t (j + 1) b - t j b := sub_nonneg.2 (ht b j (by omega))
        have h6 := mul_le_mul_of_nonneg_left (hh b j (by omega)) h5
        have h7 := mul_le_mul_of_nonneg_left h6 (by linarith : 0 ≤ MS / 2)
        nlinarith
      refine h4.trans ?_
      rw [← Finset.sum_mul, Finset.sum_range_sub (fun j => t j b)]
      exact mul_le_mul_of_nonneg_right h3 (by positivity)
    · refine Finset.sum_nonneg fun j hj => ?_
      have hj := Finset.mem_range.1 hj
      have h5 : 0 ≤ t (j + 1) b - t j b := sub_nonneg.2 (ht b j (by omega))
      positivity

private theorem decay_test : ForwardTest (p := 1) (m := 1) (fun q _ y _ => q 0 * y 0) (fun _ _ => !![-1]) (fun _ => -1) 1000 (fun k => (k : ℝ) / 1000) 2 1 1 1 (fun s _ => Real.exp (-s)) where
  rates := fun s _ x y => by
    rw [l2_one, l2_one]
    have : |(fun _ : Fin 1 => -1 * x 0) 0 - -1 * y 0| = |x 0 - y 0| := by
      rw [← abs_neg]
      congr 1
      ring
    refine (le_of_eq this).trans ?_
    change |x 0 - y 0| ≤ 2 * |x 0 - y 0|
    linarith [abs_nonneg (x 0 - y 0)]
  solution := by
    refine ⟨fun s _ => ?_, fun s hs u hu => ?_⟩
    · refine HasDerivAt.hasDerivWithinAt ?_
      rw [hasDerivAt_pi]
      intro i
      refine ((hasDerivAt_id s).neg.exp).congr_deriv ?_
      simp
    · have hs0 : 0 ≤ s := by simpa using hs.1
      have hu0 : 0 ≤ u := by simpa using hu.1
      rw [l2_one, one_mul]
      refine le_trans (le_of_eq ?_) (exp_lip hs0 hu0)
      rw [abs_sub_comm]
      congr 1
      simp only [Pi.sub_apply]
      ring
  jac := fun k _ y _ z => by
    rw [hasDerivAt_pi]
    intro i
    obtain rfl : i = 0 := Subsingleton.elim (α := Fin 1) i 0
    have := (((hasDerivAt_id (0 : ℝ)).mul_const (z 0)).const_add (y 0)).const_mul (-1)
    refine this.congr_deriv ?_
    simp [Matrix.mulVec, dotProduct]
  lip := fun k _ y _ z => by
    rw [sub_self, l2_zero]
    exact mul_nonneg (mul_nonneg zero_le_one (l2_nonneg _)) (l2_nonneg _)

private theorem decay_direction : ForwardDirection (p := 1) (m := 1) (fun q _ y _ => q 0 * y 0) (fun _ _ => !![-1]) (fun _ y => !![y 0]) (fun _ => -1) 1000 (fun k => (k : ℝ) / 1000) 2 1 1
    (fun s _ => Real.exp (-s)) (fun _ => 1) 0 2 1 (fun e s _ => Real.exp ((-1 + e) * s)) (fun s _ => s * Real.exp (-s)) where
  base := by
    funext s i
    simp
  rates := by
    filter_upwards [Metric.ball_mem_nhds (0 : ℝ) one_pos] with e he s _ x y
    rw [Metric.mem_ball, Real.dist_eq, sub_zero, abs_lt] at he
    rw [l2_one, l2_one]
    have e1 : (fun _ : Fin 1 => (-1 + e * 1) * x 0) 0 - (-1 + e * 1) * y 0 = (-1 + e) * (x 0 - y 0) := by ring
    change |(fun _ : Fin 1 => (-1 + e * 1) * x 0) 0 - (-1 + e * 1) * y 0| ≤ 2 * |x 0 - y 0|
    rw [e1, abs_mul]
    refine mul_le_mul_of_nonneg_right ?_ (abs_nonneg _)
    rw [abs_le]
    constructor <;> linarith
  family := by
    refine Eventually.of_forall fun e => ⟨⟨Continuous.continuousOn (by fun_prop), fun k _ s _ => ?_⟩, by funext i; simp⟩
    rw [hasDerivAt_pi]
    intro i
    refine (((hasDerivAt_id s).const_mul (-1 + e)).exp).congr_deriv ?_
    simp
    ring
  along := by
    intro η hη
    refine ⟨min η 1, lt_min hη one_pos, fun k _ s _ e z he hz => ?_⟩
    rw [l2_one, l2_one]
    have e1 : ((-1 + e * 1) * (Real.exp (-s) + z 0) - -1 * Real.exp (-s) - (-1 * z 0 + e * Real.exp (-s))) = e * z 0 := by ring
    refine le_trans (le_of_eq (congrArg abs (Eq.trans ?_ e1))) ?_
    · simp [Matrix.mulVec, dotProduct]
    rw [abs_mul]
    have := he.trans (min_le_left _ _)
    nlinarith [abs_nonneg e, abs_nonneg (z 0), mul_nonneg hη.le (abs_nonneg e)]
  sens := by
    have hend : ((1000 : ℕ) : ℝ) / 1000 = 1 := by norm_num
    refine ⟨fun s _ => HasDerivAt.hasDerivWithinAt ?_, fun s hs u hu => ?_⟩
    · rw [hasDerivAt_pi]
      intro i
      obtain rfl : i = 0 := Subsingleton.elim (α := Fin 1) i 0
      refine ((hasDerivAt_id s).mul (hasDerivAt_id s).neg.exp).congr_deriv ?_
      simp [variational, Matrix.mulVec, dotProduct]
      ring
    · have hs0 : 0 ≤ s := by simpa using hs.1
      have hk1 : 0 ≤ u := by simpa using hu.1
      have hs1 : s ≤ 1 := hs.2.trans hend.le
      rw [l2_one]
      have e1 : (variational (fun _ _ => !![-1]) (fun _ y => !![y 0]) (fun _ => 1) (fun s _ => Real.exp (-s)) s (fun _ => s * Real.exp (-s)) -
          variational (fun _ _ => !![-1]) (fun _ y => !![y 0]) (fun _ => 1) (fun s _ => Real.exp (-s)) u (fun _ => u * Real.exp (-u)) : Fin 1 → ℝ) 0 =
          (Real.exp (-s) - Real.exp (-u)) * (1 - s) + Real.exp (-u) * (u - s) := by
        simp [variational, Matrix.mulVec, dotProduct]
        ring
      refine le_trans (le_of_eq (congrArg abs e1)) ((abs_add_le _ _).trans ?_)
      rw [abs_mul, abs_mul, abs_of_nonneg (by linarith : 0 ≤ 1 - s), abs_of_pos (Real.exp_pos _), abs_sub_comm u s]
      have h1 := exp_lip hs0 hk1
      have h2 : Real.exp (-u) ≤ 1 := Real.exp_le_one_iff.2 (by linarith)
      nlinarith [abs_nonneg (s - u), abs_nonneg (Real.exp (-s) - Real.exp (-u))]
  start := by
    funext i
    simp
  bound := fun s hs => by
    have hend : ((1000 : ℕ) : ℝ) / 1000 = 1 := by norm_num
    have h0 : 0 ≤ s := by simpa using hs.1
    have h1 : s ≤ 1 := hs.2.trans hend.le
    have h2 : Real.exp (-s) ≤ 1 := Real.exp_le_one_iff.2 (by linarith)
    have h3 := Real.exp_pos (-s)
    rw [l2_one, l2_one]
    constructor
    · rw [abs_of_nonneg (by positivity)]
      nlinarith
    · simp [Matrix.mulVec, dotProduct]
      linarith
  lip := fun k _ y _ => by
    rw [l2_one, l2_one, one_mul]
    simp [Matrix.mulVec, dotProduct]

/-- Non-vacuity of C111 for forward Euler: `y' = p y`, `p = -1`, `y(0) = 1`, a thousand steps of 1/1000 in blocks of seven: the run succeeds, and the gradient of `y(1)` with respect to `p`, which is `exp(-1)` for
the exact solution, is returned up to 1/10 — C111's bound for this example. -/
example : let c : Config := ⟨.forwardEuler, .direct .thomas, 0, 0, 100, true, "zero"⟩
    let f : Func Unit 1 := fun _ _ y => (fun _ => -1 * y 0, !![-1])
    ∃ res grad lam, integrate c (Func.lift f) (fun _ _ => 1) 1001 (fun k _ => (k : ℝ) / 1000) 7 = .ok (res, false) ∧
      rewind .forwardEuler .pcr f (fun _ _ y => !![y 0]) 1001 (fun k _ => (k : ℝ) / 1000) res.get (fun k _ _ => if k = 1000 then 1 else 0) 4 = .ok (grad, lam) ∧
      |grad 0 - Real.exp (-1)| ≤ 1 / 10 := by
  intro c f
  obtain ⟨res, ho⟩ := C18_linear_succeeds (β := Unit) (m := 1) c le_rfl (by norm_num) (fun _ _ => !![-1]) (fun _ _ => 0) (fun _ _ => 1) 1001 (by norm_num)
    (fun k _ => (k : ℝ) / 1000) 7 (by norm_num) (Or.inl rfl) (fun h => by cases h)
  have hf : (fun (_ : Unit) (_ : ℝ) (y : Fin 1 → ℝ) => ((!![-1] : Matrix (Fin 1) (Fin 1) ℝ).mulVec y + 0, !![(-1 : ℝ)])) = f := by
    funext _ _ y
    refine Prod.ext (funext fun i => ?_) rfl
    simp [f, Matrix.mulVec, dotProduct]
  rw [hf] at ho
  have hexp : Real.exp 2 ≤ 8 := by
    have h1 := Real.exp_one_lt_d9
    have h2 : Real.exp 2 = Real.exp 1 * Real.exp 1 := by rw [← Real.exp_add]; norm_num
    nlinarith [Real.exp_pos 1]
  obtain ⟨grad, lam, h1, h2⟩ := C111_forward_accuracy (β := Unit) (m := 1) (p := 1) c rfl (by norm_num) .pcr (fun q _ _ y _ => q 0 * y 0) (fun _ _ _ => !![-1]) (fun _ _ y => !![y 0]) (fun _ => -1) (fun _ _ => 1) 1001
    (by norm_num) (fun k _ => (k : ℝ) / 1000) 7 4 (by norm_num) (by norm_num) (fun k _ _ => if k = 1000 then 1 else 0) res ho (fun _ k _ => by push_cast; linarith) 0 (1 / 1000) 1 2 1 1 1 (1 / 250)
    (fun _ => ⟨le_rfl, le_rfl, Or.inl rfl⟩) (fun _ k _ => by push_cast; linarith) (fun _ => by norm_num) (by norm_num) (by norm_num) (by norm_num) (by norm_num)
    (by rw [mul_one]; nlinarith) (by norm_num)
    (fun _ s _ => Real.exp (-s)) (fun _ => by funext i; simp) (fun _ => decay_test)
  obtain ⟨L, h3, h4⟩ := h2 (fun _ => 1) 0 2 1 (fun _ e s _ => Real.exp ((-1 + e) * s)) (fun _ s _ => s * Real.exp (-s)) (by norm_num) (by norm_num) (fun _ => decay_direction)
  refine ⟨res, grad, lam, ho, h1, ?_⟩
  have e1 : L = Real.exp (-1) := by
    refine h3.unique ?_
    have e2 : (fun e : ℝ => ∑ k ∈ Finset.range 1001, ∑ b : Unit, (fun _ : Fin 1 => if k = 1000 then (1 : ℝ) else 0) ⬝ᵥ fun _ : Fin 1 => Real.exp ((-1 + e) * ((k : ℝ) / 1000))) = fun e => Real.exp (-1 + e) := by
      funext e
      simp [dotProduct, Finset.sum_ite_eq']
    rw [e2]
    refine ((hasDerivAt_id (0 : ℝ)).const_add (-1)).exp.congr_deriv ?_
    simp
  have e3 : ∑ k ∈ Finset.range 1001, ∑ b : Unit, l2 (fun _ : Fin 1 => if k = 1000 then (1 : ℝ) else 0) = 1 := by
    rw [Finset.sum_eq_single 1000]
    · simp [l2_one]
    · intro k _ hk
      simp [l2_one, hk]
    · intro h
      exact absurd (Finset.mem_range.2 (by norm_num)) h
  rw [e1] at h4
  simp only [e3] at h4
  simp [dotProduct] at h4
  refine h4.trans ?_
  norm_num
  nlinarith

end Pyoptmat.Props
