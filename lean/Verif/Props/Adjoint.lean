import Verif.Proofs.AdjointDeriv
import Mathlib.Analysis.Calculus.Deriv.Inv
import Mathlib.Analysis.Calculus.Deriv.Pow
import Mathlib.Topology.Algebra.GroupWithZero

/-!
# Properties C19–C22: the adjoint method

`y p k b` is the discrete trajectory for parameters `p`; `g k b` is the upstream gradient of time `k`, batch entry
`b`. The scalar that is differentiated is `∑ k, ∑ b, ⟨g k b, y p k b⟩`.
-/

namespace Pyoptmat.Props

open Pyoptmat.Chunktime Pyoptmat.Newton Pyoptmat.Spec Pyoptmat.Ode Filter Topology

variable {β : Type*} [Fintype β] {m p : ℕ}

/-- **C19.** After a backward Euler solve, `rewind` (any block size, any of the direct solvers, any upstream gradient,
any number of times and batch entries, per-batch time grids, negative or zero steps allowed) returns the exact
gradient of `∑ ⟨g, y⟩` with respect to the parameters. Hypotheses: for parameters near `p0` `y p` satisfies the backward
Euler recursion, depends continuously on the parameters and starts from the same initial condition; the
matrices `1 - dt J` that the implicit steps solve with are invertible; `J` and `fp` are the
derivatives of the rate. -/
theorem C19_adjoint_backward (d : Direct)
    (rate : (Fin p → ℝ) → β → ℝ → (Fin m → ℝ) → Fin m → ℝ)
    (J : β → ℝ → (Fin m → ℝ) → Matrix (Fin m) (Fin m) ℝ)
    (fp : β → ℝ → (Fin m → ℝ) → Matrix (Fin m) (Fin p) ℝ)
    (nt : ℕ) (hnt : 0 < nt) (t : ℕ → β → ℝ) (y : (Fin p → ℝ) → ℕ → β → Fin m → ℝ) (p0 : Fin p → ℝ)
    (blockSize : ℤ) (hn : 0 < blockSize) (g : ℕ → β → Fin m → ℝ)
    (hrec : ∀ᶠ q in 𝓝 p0, IsBackwardEuler (rate q) nt t (y q))
    (h0 : ∀ᶠ q in 𝓝 p0, y q 0 = y p0 0)
    (hc : ∀ k < nt, ∀ b, ContinuousAt (fun q => y q k b) p0)
    (hA : ∀ k, k + 1 < nt → ∀ b,
      IsUnit (1 - (t (k + 1) b - t k b) • J b (t (k + 1) b) (y p0 (k + 1) b)).det)
    (hR : ∀ k < nt, ∀ b, HasFDerivAt (fun x : (Fin p → ℝ) × (Fin m → ℝ) => rate x.1 b (t k b) x.2)
      ((matCLM (fp b (t k b) (y p0 k b))).coprod (matCLM (J b (t k b) (y p0 k b)))) (p0, y p0 k b)) :
    ∃ grad lam, rewind .backwardEuler d (fun b t y => (rate p0 b t y, J b t y)) fp nt t (y p0) g blockSize
        = .ok (grad, lam) ∧
      HasFDerivAt (fun q => ∑ k ∈ Finset.range nt, ∑ b, g k b ⬝ᵥ y q k b) (dotCLM grad) p0 := by
  obtain ⟨grad, lam, h1, h2⟩ := rewind_derivative .backwardEuler d rate J fp (ContinuousLinearMap.id ℝ _) nt hnt t y
    p0 blockSize hn g hrec (fun _ => 0)
    (fun b => (hasFDerivAt_const (y p0 0 b) p0).congr_of_eventuallyEq (by
      filter_upwards [h0] with q hq; rw [hq])) (fun _ => hc) (fun _ => hA)
    (fun k hk b => by simpa only [ContinuousLinearMap.comp_id] using hR k hk b)
  exact ⟨grad, lam, h1, by simpa using h2⟩

/-- **C20.** The same for the forward Euler scheme; no invertibility or continuity hypothesis is needed. -/
theorem C20_adjoint_forward (d : Direct)
    (rate : (Fin p → ℝ) → β → ℝ → (Fin m → ℝ) → Fin m → ℝ)
    (J : β → ℝ → (Fin m → ℝ) → Matrix (Fin m) (Fin m) ℝ)
    (fp : β → ℝ → (Fin m → ℝ) → Matrix (Fin m) (Fin p) ℝ)
    (nt : ℕ) (hnt : 0 < nt) (t : ℕ → β → ℝ) (y : (Fin p → ℝ) → ℕ → β → Fin m → ℝ) (p0 : Fin p → ℝ)
    (blockSize : ℤ) (hn : 0 < blockSize) (g : ℕ → β → Fin m → ℝ)
    (hrec : ∀ᶠ q in 𝓝 p0, IsForwardEuler (rate q) nt t (y q))
    (h0 : ∀ᶠ q in 𝓝 p0, y q 0 = y p0 0)
    (hR : ∀ k < nt, ∀ b, HasFDerivAt (fun x : (Fin p → ℝ) × (Fin m → ℝ) => rate x.1 b (t k b) x.2)
      ((matCLM (fp b (t k b) (y p0 k b))).coprod (matCLM (J b (t k b) (y p0 k b)))) (p0, y p0 k b)) :
    ∃ grad lam, rewind .forwardEuler d (fun b t y => (rate p0 b t y, J b t y)) fp nt t (y p0) g blockSize
        = .ok (grad, lam) ∧
      HasFDerivAt (fun q => ∑ k ∈ Finset.range nt, ∑ b, g k b ⬝ᵥ y q k b) (dotCLM grad) p0 := by
  obtain ⟨grad, lam, h1, h2⟩ := rewind_derivative .forwardEuler d rate J fp (ContinuousLinearMap.id ℝ _) nt hnt t y
    p0 blockSize hn g hrec (fun _ => 0)
    (fun b => (hasFDerivAt_const (y p0 0 b) p0).congr_of_eventuallyEq (by
      filter_upwards [h0] with q hq; rw [hq])) (fun h => by simp at h) (fun h => by simp at h)
    (fun k hk b => by simpa only [ContinuousLinearMap.comp_id] using hR k hk b)
  exact ⟨grad, lam, h1, by simpa using h2⟩

omit [Fintype β] in
private theorem snd_deriv (rate : β → ℝ → (Fin m → ℝ) → Fin m → ℝ) {E : Type*} [NormedAddCommGroup E]
    [NormedSpace ℝ E] (q : E) (b : β) (t : ℝ) (y : Fin m → ℝ) (J : Matrix (Fin m) (Fin m) ℝ)
    (fp : Matrix (Fin m) (Fin p) ℝ)
    (h : HasFDerivAt (rate b t) (matCLM J) y) :
    HasFDerivAt (fun x : E × (Fin m → ℝ) => rate b t x.2)
      (((matCLM fp).comp (0 : E →L[ℝ] (Fin p → ℝ))).coprod (matCLM J)) (q, y) := by
  have h1 := HasFDerivAt.comp (q, y) (f := Prod.snd) h hasFDerivAt_snd
  refine h1.congr_fderiv ?_
  ext x <;> simp

/-- **C21.** The second output of `rewind` is the exact gradient of `∑ ⟨g, y⟩` with respect to the initial condition
of every batch entry: backward Euler. -/
theorem C21_initial_backward (d : Direct)
    (rate : β → ℝ → (Fin m → ℝ) → Fin m → ℝ) (J : β → ℝ → (Fin m → ℝ) → Matrix (Fin m) (Fin m) ℝ)
    (fp : β → ℝ → (Fin m → ℝ) → Matrix (Fin m) (Fin p) ℝ)
    (nt : ℕ) (hnt : 0 < nt) (t : ℕ → β → ℝ) (y : (β → Fin m → ℝ) → ℕ → β → Fin m → ℝ) (y0 : β → Fin m → ℝ)
    (blockSize : ℤ) (hn : 0 < blockSize) (g : ℕ → β → Fin m → ℝ)
    (hrec : ∀ᶠ x in 𝓝 y0, IsBackwardEuler rate nt t (y x)) (h0 : ∀ᶠ x in 𝓝 y0, y x 0 = x)
    (hc : ∀ k < nt, ∀ b, ContinuousAt (fun x => y x k b) y0)
    (hA : ∀ k, k + 1 < nt → ∀ b,
      IsUnit (1 - (t (k + 1) b - t k b) • J b (t (k + 1) b) (y y0 (k + 1) b)).det)
    (hR : ∀ k < nt, ∀ b, HasFDerivAt (rate b (t k b)) (matCLM (J b (t k b) (y y0 k b))) (y y0 k b)) :
    ∃ grad lam, rewind .backwardEuler d (fun b t y => (rate b t y, J b t y)) fp nt t (y y0) g blockSize
        = .ok (grad, lam) ∧
      HasFDerivAt (fun x => ∑ k ∈ Finset.range nt, ∑ b, g k b ⬝ᵥ y x k b)
        (∑ b, (dotCLM (lam b)).comp (ContinuousLinearMap.proj b)) y0 := by
  obtain ⟨grad, lam, h1, h2⟩ := rewind_derivative .backwardEuler d (fun _ => rate) J fp
    (0 : (β → Fin m → ℝ) →L[ℝ] (Fin p → ℝ)) nt hnt t y
    y0 blockSize hn g hrec (fun b => ContinuousLinearMap.proj b)
    (fun b => (hasFDerivAt_apply (𝕜 := ℝ) b y0).congr_of_eventuallyEq (by
      filter_upwards [h0] with q hq; rw [hq])) (fun _ => hc) (fun _ => hA)
    (fun k hk b => snd_deriv rate y0 b (t k b) _ _ _ (hR k hk b))
  exact ⟨grad, lam, h1, by simpa using h2⟩

/-- **C21.** Forward Euler. -/
theorem C21_initial_forward (d : Direct)
    (rate : β → ℝ → (Fin m → ℝ) → Fin m → ℝ) (J : β → ℝ → (Fin m → ℝ) → Matrix (Fin m) (Fin m) ℝ)
    (fp : β → ℝ → (Fin m → ℝ) → Matrix (Fin m) (Fin p) ℝ)
    (nt : ℕ) (hnt : 0 < nt) (t : ℕ → β → ℝ) (y : (β → Fin m → ℝ) → ℕ → β → Fin m → ℝ) (y0 : β → Fin m → ℝ)
    (blockSize : ℤ) (hn : 0 < blockSize) (g : ℕ → β → Fin m → ℝ)
    (hrec : ∀ᶠ x in 𝓝 y0, IsForwardEuler rate nt t (y x)) (h0 : ∀ᶠ x in 𝓝 y0, y x 0 = x)
    (hR : ∀ k < nt, ∀ b, HasFDerivAt (rate b (t k b)) (matCLM (J b (t k b) (y y0 k b))) (y y0 k b)) :
    ∃ grad lam, rewind .forwardEuler d (fun b t y => (rate b t y, J b t y)) fp nt t (y y0) g blockSize
        = .ok (grad, lam) ∧
      HasFDerivAt (fun x => ∑ k ∈ Finset.range nt, ∑ b, g k b ⬝ᵥ y x k b)
        (∑ b, (dotCLM (lam b)).comp (ContinuousLinearMap.proj b)) y0 := by
  obtain ⟨grad, lam, h1, h2⟩ := rewind_derivative .forwardEuler d (fun _ => rate) J fp
    (0 : (β → Fin m → ℝ) →L[ℝ] (Fin p → ℝ)) nt hnt t y
    y0 blockSize hn g hrec (fun b => ContinuousLinearMap.proj b)
    (fun b => (hasFDerivAt_apply (𝕜 := ℝ) b y0).congr_of_eventuallyEq (by
      filter_upwards [h0] with q hq; rw [hq])) (fun h => by simp at h) (fun h => by simp at h)
    (fun k hk b => snd_deriv rate y0 b (t k b) _ _ _ (hR k hk b))
  exact ⟨grad, lam, h1, by simpa using h2⟩

/-- **C22.** `rewind` returns the same two gradients for every block size and every direct linear solver, whatever the
Jacobians, states, times and upstream gradients are (they need not come from a converged solve; the backward
Euler scheme needs its matrices to be invertible). -/
theorem C22_adjoint_block_size (s : Scheme) (d d' : Direct) (f : Func β m)
    (fp : β → ℝ → (Fin m → ℝ) → Matrix (Fin m) (Fin p) ℝ) (nt : ℕ) (t : ℕ → β → ℝ)
    (y g : ℕ → β → Fin m → ℝ) (n n' : ℤ) (hn : 0 < n) (hn' : 0 < n')
    (hA : s = .backwardEuler → ∀ k, k + 1 < nt → ∀ b,
      IsUnit (1 - (t (k + 1) b - t k b) • (f b (t (k + 1) b) (y (k + 1) b)).2).det) :
    rewind s d f fp nt t y g n = rewind s d' f fp nt t y g n' ∧
      ∃ out, rewind s d f fp nt t y g n = .ok out := by
  rcases Nat.eq_zero_or_pos nt with rfl | hnt
  · have h : ∀ (d : Direct) (n : ℤ), 0 < n → rewind s d f fp 0 t y g n = .ok (0, flipRows 0 g 0) := by
      intro d n hn
      have : blockStarts 0 n = .ok [] := by
        unfold blockStarts
        rw [if_neg (by omega), if_neg (by omega)]
        have : (0 - 1 + (n.toNat - 1)) / n.toNat = 0 := Nat.div_eq_of_lt (by omega)
        rw [this]
        rfl
      unfold rewind
      rw [this]
      rfl
    exact ⟨(h d n hn).trans (h d' n' hn').symm, _, h d n hn⟩
  · exact ⟨(rewind_spec s d f fp nt hnt t y g n hn hA).trans
      (rewind_spec s d' f fp nt hnt t y g n' hn' hA).symm, _, rewind_spec s d f fp nt hnt t y g n hn hA⟩

/-! ## Non-vacuity: `y' = p y`, `y(0) = 1`, unit steps -/

private theorem ex_rate (q : Fin 1 → ℝ) (y : Fin 1 → ℝ) :
    HasFDerivAt (fun x : (Fin 1 → ℝ) × (Fin 1 → ℝ) => fun _ : Fin 1 => x.1 0 * x.2 0)
      ((matCLM !![y 0]).coprod (matCLM !![q 0])) (q, y) := by
  rw [hasFDerivAt_pi']
  intro i
  have h1 : HasFDerivAt (fun x : (Fin 1 → ℝ) × (Fin 1 → ℝ) => x.1 0)
      ((ContinuousLinearMap.proj (R := ℝ) (φ := fun _ : Fin 1 => ℝ) 0).comp
        (ContinuousLinearMap.fst ℝ _ _)) (q, y) :=
    ((ContinuousLinearMap.proj (R := ℝ) (φ := fun _ : Fin 1 => ℝ) 0).comp
        (ContinuousLinearMap.fst ℝ (Fin 1 → ℝ) (Fin 1 → ℝ))).hasFDerivAt
  have h2 : HasFDerivAt (fun x : (Fin 1 → ℝ) × (Fin 1 → ℝ) => x.2 0)
      ((ContinuousLinearMap.proj (R := ℝ) (φ := fun _ : Fin 1 => ℝ) 0).comp
        (ContinuousLinearMap.snd ℝ _ _)) (q, y) :=
    ((ContinuousLinearMap.proj (R := ℝ) (φ := fun _ : Fin 1 => ℝ) 0).comp
        (ContinuousLinearMap.snd ℝ (Fin 1 → ℝ) (Fin 1 → ℝ))).hasFDerivAt
  refine (h1.mul h2).congr_fderiv ?_
  ext x <;> simp [matCLM_apply, Matrix.mulVec, dotProduct, Subsingleton.elim i 0]

private theorem ex_near : ∀ᶠ q : Fin 1 → ℝ in 𝓝 (fun _ => -1), 1 - q 0 ≠ 0 := by
  have h : ContinuousAt (fun q : Fin 1 → ℝ => 1 - q 0) (fun _ => -1) :=
    (continuous_const.sub (continuous_apply 0)).continuousAt
  exact h.eventually_ne (by norm_num)

/-- The hypotheses of C19 are met by the decay equation, and the reported gradient is then the derivative of
`∑ k, (1 - p)^(-k)`. -/
example : ∃ grad lam, rewind .backwardEuler .pcr
      (fun (_ : Unit) _ y => ((fun _ => -1 * y 0 : Fin 1 → ℝ), !![(-1 : ℝ)]))
      (fun _ _ y => !![y 0]) 5 (fun k _ => (k : ℝ)) (fun k _ _ => (1 - (-1 : ℝ))⁻¹ ^ k) (fun _ _ _ => 1) 3
        = .ok (grad, lam) ∧
      HasFDerivAt (fun q : Fin 1 → ℝ => ∑ k ∈ Finset.range 5, ∑ _ : Unit,
        (fun _ : Fin 1 => (1 : ℝ)) ⬝ᵥ (fun _ => (1 - q 0)⁻¹ ^ k)) (dotCLM grad) (fun _ => -1) := by
  refine C19_adjoint_backward (β := Unit) (m := 1) (p := 1) .pcr (fun q _ _ y _ => q 0 * y 0) (fun _ _ _ => !![-1])
    (fun _ _ y => !![y 0]) 5 (by norm_num) (fun k _ => (k : ℝ)) (fun q k _ _ => (1 - q 0)⁻¹ ^ k) (fun _ => -1) 3
    (by norm_num) (fun _ _ _ => 1) ?_ ?_ ?_ ?_ ?_
  · filter_upwards [ex_near] with q hq
    intro k b _
    funext i
    simp only [Pi.add_apply, Pi.smul_apply, smul_eq_mul]
    rw [pow_succ]
    field_simp
    push_cast
    ring
  · filter_upwards with q
    simp
  · intro k _ b
    refine continuousAt_pi.2 fun i => ?_
    refine ContinuousAt.pow (ContinuousAt.inv₀
      (continuous_const.sub (continuous_apply 0)).continuousAt (by norm_num)) k
  · intro k _ b
    rw [isUnit_iff_ne_zero, Matrix.det_fin_one]
    simp
  · intro k _ b
    exact ex_rate (fun _ => -1) (fun _ => (1 - (-1 : ℝ))⁻¹ ^ k)

/-- Same problem, forward Euler (`C20`). -/
example : ∃ grad lam, rewind .forwardEuler .thomas
      (fun (_ : Unit) _ y => ((fun _ => -1 * y 0 : Fin 1 → ℝ), !![(-1 : ℝ)]))
      (fun _ _ y => !![y 0]) 4 (fun k _ => (k : ℝ)) (fun k _ _ => (1 + (-1 : ℝ)) ^ k) (fun _ _ _ => 1) 2
        = .ok (grad, lam) ∧
      HasFDerivAt (fun q : Fin 1 → ℝ => ∑ k ∈ Finset.range 4, ∑ _ : Unit,
        (fun _ : Fin 1 => (1 : ℝ)) ⬝ᵥ (fun _ => (1 + q 0) ^ k)) (dotCLM grad) (fun _ => -1) := by
  refine C20_adjoint_forward (β := Unit) (m := 1) (p := 1) .thomas (fun q _ _ y _ => q 0 * y 0) (fun _ _ _ => !![-1])
    (fun _ _ y => !![y 0]) 4 (by norm_num) (fun k _ => (k : ℝ)) (fun q k _ _ => (1 + q 0) ^ k) (fun _ => -1) 2
    (by norm_num) (fun _ _ _ => 1) ?_ ?_ ?_
  · filter_upwards with q
    intro k b _
    funext i
    simp only [Pi.add_apply, Pi.smul_apply, smul_eq_mul]
    rw [pow_succ]
    push_cast
    ring
  · filter_upwards with q
    simp
  · intro k _ b
    exact ex_rate (fun _ => -1) (fun _ => (1 + (-1 : ℝ)) ^ k)

private theorem ex_init (y : Fin 1 → ℝ) :
    HasFDerivAt (fun (x : Fin 1 → ℝ) (_ : Fin 1) => -1 * x 0) (matCLM !![(-1 : ℝ)]) y := by
  have : (fun (x : Fin 1 → ℝ) (_ : Fin 1) => -1 * x 0) = matCLM !![(-1 : ℝ)] := by
    funext x i
    simp [matCLM_apply, Matrix.mulVec, dotProduct]
  rw [this]
  exact (matCLM _).hasFDerivAt

/-- `y' = -y` with backward Euler: the hypotheses of C21 are met, and so are those of C22. -/
example : ∃ grad lam, rewind .backwardEuler (.hybrid 2)
      (fun (_ : Unit) _ y => ((fun _ => -1 * y 0 : Fin 1 → ℝ), !![(-1 : ℝ)]))
      (fun _ _ _ => (0 : Matrix (Fin 1) (Fin 0) ℝ)) 5 (fun k _ => (k : ℝ)) (fun k _ _ => (1 / 2 : ℝ) ^ k * 3)
      (fun _ _ _ => 1) 3 = .ok (grad, lam) ∧
      HasFDerivAt (fun x : Unit → Fin 1 → ℝ => ∑ k ∈ Finset.range 5, ∑ b : Unit,
        (fun _ : Fin 1 => (1 : ℝ)) ⬝ᵥ (fun _ => (1 / 2 : ℝ) ^ k * x b 0))
        (∑ b, (dotCLM (lam b)).comp (ContinuousLinearMap.proj b)) (fun _ _ => 3) := by
  refine C21_initial_backward (β := Unit) (m := 1) (p := 0) (.hybrid 2) (fun _ _ y _ => -1 * y 0)
    (fun _ _ _ => !![-1]) (fun _ _ _ => 0) 5 (by norm_num) (fun k _ => (k : ℝ))
    (fun x k b _ => (1 / 2 : ℝ) ^ k * x b 0) (fun _ _ => 3) 3 (by norm_num) (fun _ _ _ => 1) ?_ ?_ ?_ ?_ ?_
  · filter_upwards with x
    intro k b _
    funext i
    simp only [Pi.add_apply, Pi.smul_apply, smul_eq_mul]
    rw [pow_succ]
    push_cast
    ring
  · filter_upwards with x
    funext b i
    simp [Subsingleton.elim i 0]
  · intro k _ b
    refine continuousAt_pi.2 fun i => ?_
    exact (continuous_const.mul (continuous_apply_apply b (0 : Fin 1))).continuousAt
  · intro k _ b
    rw [isUnit_iff_ne_zero, Matrix.det_fin_one]
    simp
  · intro k _ b
    exact ex_init _

end Pyoptmat.Props
