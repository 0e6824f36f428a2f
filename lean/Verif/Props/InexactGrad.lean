import Verif.Props.MixedGrad

/-!
# C114: gradients after a run with ordinary tolerances

The states a run returns solve the scheme only up to the tolerances. The gradients are nevertheless exact: they are those of the scheme with the remaining defects kept fixed.
-/

namespace Pyoptmat.Props

open Pyoptmat Pyoptmat.Tensor Pyoptmat.Spec Pyoptmat.Control Pyoptmat.Material Pyoptmat.Ode Pyoptmat.Newton Pyoptmat.Solvers Filter Topology

variable {β : Type*} [Fintype β] {nb m nt p nk n : ℕ}

/-- By how much step `k → k+1` misses the formula of the scheme. -/
def stepDefect (s : Scheme) (rate : β → ℝ → (Fin m → ℝ) → Fin m → ℝ) (t : ℕ → β → ℝ) (y : ℕ → β → Fin m → ℝ) (k : ℕ) (b : β) : Fin m → ℝ :=
  match s with
  | .backwardEuler => backwardDefect rate t y k b
  | .forwardEuler => forwardDefect rate t y k b

/-- `grad`, `lam` are the exact gradient, with respect to parameters and initial state, of `∑ ⟨g, y⟩` where `y` runs through the states that miss the scheme by exactly as much as `Y` does: near `(p0, Y 0)`
there are such states `y q x` for each parameter `q` and initial state `x`, they are `Y` at `(p0, Y 0)`, no others depend continuously on `(q, x)`, they are differentiable, and the derivative is `grad · dq + ∑ b, lam b · dx b`. -/
def IsFrozenGradient (s : Scheme) (rate : (Fin p → ℝ) → β → ℝ → (Fin m → ℝ) → Fin m → ℝ) (nt : ℕ) (t : ℕ → β → ℝ) (Y : ℕ → β → Fin m → ℝ) (p0 : Fin p → ℝ) (g : ℕ → β → Fin m → ℝ)
    (grad : Fin p → ℝ) (lam : β → Fin m → ℝ) : Prop :=
  ∃ y : (Fin p → ℝ) → (β → Fin m → ℝ) → ℕ → β → Fin m → ℝ,
    y p0 (Y 0) = Y ∧ (∀ q x, y q x 0 = x) ∧
    (∀ᶠ v in 𝓝 (p0, Y 0), ∀ k b, k + 1 < nt → stepDefect s (rate v.1) t (y v.1 v.2) k b = stepDefect s (rate p0) t Y k b) ∧
    (∀ y' : (Fin p → ℝ) → (β → Fin m → ℝ) → ℕ → β → Fin m → ℝ,
      (∀ᶠ v in 𝓝 (p0, Y 0), ∀ k b, k + 1 < nt → stepDefect s (rate v.1) t (y' v.1 v.2) k b = stepDefect s (rate p0) t Y k b) →
      (∀ᶠ v in 𝓝 (p0, Y 0), y' v.1 v.2 0 = v.2) → (∀ k < nt, y' p0 (Y 0) k = Y k) →
      (∀ k < nt, ∀ b, ContinuousAt (fun v : (Fin p → ℝ) × (β → Fin m → ℝ) => y' v.1 v.2 k b) (p0, Y 0)) →
      ∀ᶠ v in 𝓝 (p0, Y 0), ∀ k < nt, y' v.1 v.2 k = y v.1 v.2 k) ∧
    (∀ k < nt, ∀ b, DifferentiableAt ℝ (fun v : (Fin p → ℝ) × (β → Fin m → ℝ) => y v.1 v.2 k b) (p0, Y 0)) ∧
    HasFDerivAt (fun v : (Fin p → ℝ) × (β → Fin m → ℝ) => ∑ k ∈ Finset.range nt, ∑ b, g k b ⬝ᵥ y v.1 v.2 k b) (totalGrad grad lam) (p0, Y 0)

/-- With states that solve the scheme this is the gradient of C107 and C112. -/
theorem C114_consistent {rate : (Fin p → ℝ) → β → ℝ → (Fin m → ℝ) → Fin m → ℝ} {t : ℕ → β → ℝ} {Y : ℕ → β → Fin m → ℝ} {p0 : Fin p → ℝ} {g : ℕ → β → Fin m → ℝ}
    {grad : Fin p → ℝ} {lam : β → Fin m → ℝ} (hY : IsBackwardEuler (rate p0) nt t Y) :
    IsFrozenGradient .backwardEuler rate nt t Y p0 g grad lam ↔ IsGradient rate nt t Y p0 g grad lam := by
  have key : ∀ (R : β → ℝ → (Fin m → ℝ) → Fin m → ℝ) (z : ℕ → β → Fin m → ℝ),
      (∀ k b, k + 1 < nt → stepDefect .backwardEuler R t z k b = stepDefect .backwardEuler (rate p0) t Y k b) ↔ IsBackwardEuler R nt t z := by
    intro R z
    have h0 : ∀ k b, k + 1 < nt → stepDefect .backwardEuler (rate p0) t Y k b = 0 := by
      intro k b hk
      have := hY k b hk
      simp only [stepDefect, backwardDefect]
      rw [sub_sub, ← this, sub_self]
    refine forall_congr' fun k => forall_congr' fun b => imp_congr_right fun hk => ?_
    rw [h0 k b hk]
    simp only [stepDefect, backwardDefect]
    rw [sub_sub, sub_eq_zero]
  unfold IsFrozenGradient IsGradient
  simp only [key]

omit [Fintype β] in
private theorem grid_inj {t : ℕ → ℝ} {N : ℕ} (hg : StrictGrid N t) {i j : ℕ} (hi : i ≤ N) (hj : j ≤ N) (h : t i = t j) : i = j := by
  have lt : ∀ i j, i < j → j ≤ N → t i < t j := by
    intro i j hij hj
    induction j, hij using Nat.le_induction with
    | base => exact hg i (by omega)
    | succ j hij ih => exact (ih (by omega)).trans (hg j (by omega))
  rcases lt_trichotomy i j with h1 | h1 | h1
  · exact absurd h (lt i j h1 hj).ne
  · exact h1
  · exact absurd h (lt j i h1 hi).ne'

/-- the row at which the scheme evaluates the rates of step `k` -/
private def evalRow (s : Scheme) (k : ℕ) : ℕ := match s with
  | .backwardEuler => k + 1
  | .forwardEuler => k

omit [Fintype β] in
/-- rates that remove the defects of `Y` -/
private theorem shifted (s : Scheme) (rate : β → ℝ → (Fin m → ℝ) → Fin m → ℝ) (nt : ℕ) (t : ℕ → β → ℝ) (hg : ∀ b, StrictGrid (nt - 1) fun k => t k b) (Y : ℕ → β → Fin m → ℝ) :
    ∃ c : β → ℝ → Fin m → ℝ, ∀ (R : β → ℝ → (Fin m → ℝ) → Fin m → ℝ) (z : ℕ → β → Fin m → ℝ),
      IsTrajectory s (fun b s y => R b s y + c b s) nt t z ↔ ∀ k b, k + 1 < nt → stepDefect s R t z k b = stepDefect s rate t Y k b := by
  classical
  let c : β → ℝ → Fin m → ℝ := fun b τ => if h : ∃ k, k + 1 < nt ∧ t (evalRow s k) b = τ then
    (t (h.choose + 1) b - t h.choose b)⁻¹ • stepDefect s rate t Y h.choose b else 0
  have hc : ∀ k b, k + 1 < nt → (t (k + 1) b - t k b) • c b (t (evalRow s k) b) = stepDefect s rate t Y k b := by
    intro k b hk
    have hex : ∃ k', k' + 1 < nt ∧ t (evalRow s k') b = t (evalRow s k) b := ⟨k, hk, rfl⟩
    have e0 : ∀ k', k' + 1 < nt → t (evalRow s k') b = t (evalRow s k) b → k' = k := by
      intro k' h1 h2
      have := grid_inj (t := fun k => t k b) (hg b) (i := evalRow s k') (j := evalRow s k) (by cases s <;> simp only [evalRow] <;> omega)
        (by cases s <;> simp only [evalRow] <;> omega) h2
      cases s <;> simp only [evalRow] at this <;> omega
    have e : hex.choose = k := e0 _ hex.choose_spec.1 hex.choose_spec.2
    have hdt : t (k + 1) b - t k b ≠ 0 := (sub_pos.2 (hg b k (by omega))).ne'
    simp only [c]
    rw [dif_pos hex, e, smul_smul, mul_inv_cancel₀ hdt, one_smul]
  refine ⟨c, fun R z => ?_⟩
  cases s with
  | backwardEuler =>
    refine forall_congr' fun k => forall_congr' fun b => imp_congr_right fun hk => ?_
    have := hc k b hk
    rw [← this]
    simp only [stepDefect, backwardDefect, evalRow]
    rw [smul_add, sub_sub, sub_eq_iff_eq_add, add_comm _ (z k b + _), add_assoc]
  | forwardEuler =>
    refine forall_congr' fun k => forall_congr' fun b => imp_congr_right fun hk => ?_
    have := hc k b hk
    rw [← this]
    simp only [stepDefect, forwardDefect, evalRow]
    rw [smul_add, sub_sub, sub_eq_iff_eq_add, add_comm _ (z k b + _), add_assoc]

omit [Fintype β] in
/-- the adjoint states depend on the right hand side through its Jacobian only -/
private theorem adj_jac (s : Scheme) {f f' : Func β m} (h : ∀ b t y, (f b t y).2 = (f' b t y).2) (t : ℕ → β → ℝ) (y g : ℕ → β → Fin m → ℝ) (j : ℕ) : adj s f t y g j = adj s f' t y g j := by
  induction j with
  | zero => rfl
  | succ j ih => cases s <;> simp only [adj, ih, h]

/-- **C114.** Whatever states `Y` the adjoint pass is given - for instance those of a run with any tolerances - it returns the exact gradient of the scheme with the steps' defects kept at those of `Y`, if the rates are
(strictly) differentiable along `Y` with the Jacobian the right hand side reports, times increase and (backward Euler) the matrices of the steps are invertible. Both schemes, every direct solver and block size. -/
theorem C114_frozen (s : Scheme) (d : Chunktime.Direct) (rate : (Fin p → ℝ) → β → ℝ → (Fin m → ℝ) → Fin m → ℝ) (J : β → ℝ → (Fin m → ℝ) → Matrix (Fin m) (Fin m) ℝ)
    (fp : β → ℝ → (Fin m → ℝ) → Matrix (Fin m) (Fin p) ℝ) (nt : ℕ) (hnt : 0 < nt) (t : ℕ → β → ℝ) (hg : ∀ b, StrictGrid (nt - 1) fun k => t k b) (Y : ℕ → β → Fin m → ℝ) (p0 : Fin p → ℝ)
    (blockSize : ℤ) (hn : 0 < blockSize) (g : ℕ → β → Fin m → ℝ)
    (hA : s = .backwardEuler → ∀ k, k + 1 < nt → ∀ b, IsUnit (1 - (t (k + 1) b - t k b) • J b (t (k + 1) b) (Y (k + 1) b)).det)
    (hR : ∀ k < nt, ∀ b, HasStrictFDerivAt (fun x : (Fin p → ℝ) × (Fin m → ℝ) => rate x.1 b (t k b) x.2)
      ((matCLM (fp b (t k b) (Y k b))).coprod (matCLM (J b (t k b) (Y k b)))) (p0, Y k b)) :
    ∃ grad lam, rewind s d (fun b t y => (rate p0 b t y, J b t y)) fp nt t Y g blockSize = .ok (grad, lam) ∧ IsFrozenGradient s rate nt t Y p0 g grad lam := by
  obtain ⟨c, hc⟩ := shifted s (rate p0) nt t hg Y
  obtain ⟨y, h1, h2, h3, h4, grad, lam, h5, h6⟩ := gradient_exact s d (fun q b τ y => rate q b τ y + c b τ) J fp nt hnt t Y p0 blockSize hn g ((hc _ _).2 fun _ _ _ => rfl) hA
    (fun k hk b => by
      have := (hR k hk b).add_const (c b (t k b))
      exact this)
  refine ⟨grad, lam, ?_, y, h1, h2, ?_, ?_, h6⟩
  · rw [rewind_spec s d _ fp nt hnt t Y g blockSize hn hA] at h5 ⊢
    rw [← h5]
    have e := adj_jac s (f := fun b t y => (rate p0 b t y, J b t y)) (f' := fun b t y => (rate p0 b t y + c b t, J b t y)) (fun _ _ _ => rfl) (flipRows nt t) (flipRows nt Y) (flipRows nt g)
    unfold contrib
    simp only [e]
  · filter_upwards [h3] with v hv
    exact (hc _ _).1 hv
  · intro y' a1 a2 a3 a4
    refine h4 y' ?_ a2 a3 a4
    filter_upwards [a1] with v hv
    exact (hc _ _).2 hv

/-- **C114.** After a run without warning, with any tolerances: the adjoint pass returns the exact gradient of the scheme with frozen defects, and the defects are within the tolerance. -/
theorem C114_run (c : Config) (hm : 0 ≤ c.miter) (d : Chunktime.Direct) (rate : (Fin p → ℝ) → β → ℝ → (Fin m → ℝ) → Fin m → ℝ) (J : β → ℝ → (Fin m → ℝ) → Matrix (Fin m) (Fin m) ℝ)
    (fp : β → ℝ → (Fin m → ℝ) → Matrix (Fin m) (Fin p) ℝ) (nt : ℕ) (hnt : 0 < nt) (t : ℕ → β → ℝ) (hg : ∀ b, StrictGrid (nt - 1) fun k => t k b) (y0 : β → Fin m → ℝ) (p0 : Fin p → ℝ)
    (q q' : ℤ) (hq : 0 < q) (hq' : 0 < q') (res : Partial β m) (h : integrate c (Func.lift fun b t y => (rate p0 b t y, J b t y)) y0 nt t q = .ok (res, false)) (g : ℕ → β → Fin m → ℝ)
    (hA : c.scheme = .backwardEuler → ∀ k, k + 1 < nt → ∀ b, IsUnit (1 - (t (k + 1) b - t k b) • J b (t (k + 1) b) (res.get (k + 1) b)).det)
    (hR : ∀ k < nt, ∀ b, HasStrictFDerivAt (fun x : (Fin p → ℝ) × (Fin m → ℝ) => rate x.1 b (t k b) x.2)
      ((matCLM (fp b (t k b) (res.get k b))).coprod (matCLM (J b (t k b) (res.get k b)))) (p0, res.get k b)) :
    (∃ grad lam, rewind c.scheme d (fun b t y => (rate p0 b t y, J b t y)) fp nt t res.get g q' = .ok (grad, lam) ∧ IsFrozenGradient c.scheme rate nt t res.get p0 g grad lam) ∧
    res.get 0 = y0 ∧ ∀ b δ, ToleranceBound c (fun b t y => (rate p0 b t y, J b t y)) nt t res.get b δ → ∀ k, k + 1 < nt → l2 (stepDefect c.scheme (rate p0) t res.get k b) ≤ δ := by
  refine ⟨C114_frozen c.scheme d rate J fp nt hnt t hg res.get p0 q' hq' g hA hR, ?_, fun b δ hδ k hk => ?_⟩
  · have f2 := (C14_every_time_filled c _ y0 nt t q hq res false h).2
    simp only [Partial.get]
    rw [f2]
    rfl
  · have := step_defect_le c hm (fun b t y => (rate p0 b t y, J b t y)) y0 nt t q hq res h b (fun k hk => (hg b k (by omega)).le) hδ k hk
    cases hs : c.scheme with
    | backwardEuler => rw [hs] at this; exact this
    | forwardEuler => rw [hs] at this; exact this

/-! ## Materials -/

/-- **C114.** A batch with tests of both kinds of control, test by test, and any states in the admissible region: hardening between 0 and its saturation, backstresses within their bounds. -/
theorem C114_lanes (d : Chunktime.Direct) (P : β → (Fin p → ℝ) → VCParams nk) (p0 : Fin p → ℝ) (nt : ℕ) (times data temps : ℕ → β → ℝ) (label : β → ℝ) (hnt : 1 < nt)
    (hg : ∀ b, StrictGrid (nt - 1) fun k => times k b) (hP : ∀ k b, k < nt → (P b p0).Smooth (temps k b)) (hd : ∀ k b, k < nt → VCParams.DiffAt (P b) p0 (temps k b))
    (hE : ∀ k b, k < nt → (P b p0).E (temps k b) ≠ 0) (rate base T : β → ℝ → ℝ) (hT : T = fun b => dataFn nt (fun k => times k b) fun k => temps k b)
    (Y : ℕ → β → Fin (1 + nk + 1) → ℝ) (hst : ∀ k b, k < nt → VCState (P b p0).R (P b p0).C (P b p0).g (temps k b) (Y k b))
    (fp : β → ℝ → (Fin (1 + nk + 1) → ℝ) → Matrix (Fin (1 + nk + 1)) (Fin p) ℝ)
    (hfp : fp = fun b t y => LinearMap.toMatrix' (fderiv ℝ (fun q => mixedRates (P b q).E (P b q).flowRule (label b) (rate b t) (base b t) (T b t) t y) p0).toLinearMap)
    (g : ℕ → β → Fin (1 + nk + 1) → ℝ) (s : Scheme) (blockSize : ℤ) (hn : 0 < blockSize) :
    (∀ k < nt, ∀ b, DifferentiableAt ℝ (fun q => mixedRates (P b q).E (P b q).flowRule (label b) (rate b (times k b)) (base b (times k b)) (T b (times k b)) (times k b) (Y k b)) p0) ∧
    ∃ grad lam, rewind s d (fun b t y => (mixedRates (P b p0).E (P b p0).flowRule (label b) (rate b t) (base b t) (T b t) t y,
        mixedJac (P b p0).E (P b p0).flowRule (label b) (rate b t) (base b t) (T b t) t y)) fp nt times Y g blockSize = .ok (grad, lam) ∧
      IsFrozenGradient s (fun q b t y => mixedRates (P b q).E (P b q).flowRule (label b) (rate b t) (base b t) (T b t) t y) nt times Y p0 g grad lam := by
  have hTT : ∀ k b, k < nt → T b (times k b) = temps k b := fun k b hk => by rw [hT]; exact dataFn_grid (hg b) (fun k => temps k b) hk hnt
  have key := fun k b (hk : k < nt) => vc_mixed_at (P b) p0 (label b) (rate b (times k b)) (base b (times k b)) (T b (times k b)) (times k b) (Y k b) (by rw [hTT k b hk]; exact hP k b hk)
    (by rw [hTT k b hk]; exact hd k b hk) (by rw [hTT k b hk]; exact hE k b hk) (by rw [hTT k b hk]; exact hst k b hk)
  refine ⟨fun k hk b => ?_, ?_⟩
  · obtain ⟨A, hA, -⟩ := (key k b hk).2
    exact hA.differentiableAt
  exact C114_frozen s d (fun q b t y => mixedRates (P b q).E (P b q).flowRule (label b) (rate b t) (base b t) (T b t) t y)
    (fun b t y => mixedJac (P b p0).E (P b p0).flowRule (label b) (rate b t) (base b t) (T b t) t y) fp nt (by omega) times hg Y p0 blockSize hn g
    (fun _ k hk b => (key (k + 1) b hk).1 _ (sub_nonneg.2 (hg b k (by omega)).le))
    (fun k hk b => by
      obtain ⟨A, hA, hS⟩ := (key k b hk).2
      rw [hfp]
      beta_reduce
      rw [hA.fderiv, matCLM_surj]
      exact hS)

/-- **C114.** Exact trajectories that start in the admissible region stay in it, under either control and for the other labels: with zero tolerances the condition on the returned states is met (so C114 covers C112 and
C113, whose examples meet its hypotheses). -/
theorem C114_region (Pr : β → VCParams nk) (nt : ℕ) (hnt : 1 < nt) (times temps : ℕ → β → ℝ) (label : β → ℝ) (hg : ∀ b, StrictGrid (nt - 1) fun k => times k b)
    (hP : ∀ k b, k < nt → (Pr b).Smooth (temps k b)) (R0 : β → ℝ) (B : β → Fin nk → ℝ) (hR : ∀ k b, k < nt → (Pr b).R (temps k b) = R0 b)
    (hC : ∀ k b, k < nt → ∀ i, (Pr b).C i (temps k b) = B b i * (Pr b).g i (temps k b)) (rate base T : β → ℝ → ℝ) (hT : T = fun b => dataFn nt (fun k => times k b) fun k => temps k b)
    (Y : ℕ → β → Fin (1 + nk + 1) → ℝ) (h0 : ∀ b, (0 ≤ Y 0 b 1 ∧ Y 0 b 1 ≤ R0 b) ∧ ∀ i : Fin nk, |Y 0 b (Fin.natAdd 1 i).succ| ≤ B b i)
    (hY : IsBackwardEuler (fun b t y => mixedRates (Pr b).E (Pr b).flowRule (label b) (rate b t) (base b t) (T b t) t y) nt times Y) (k : ℕ) (b : β) (hk : k < nt) :
    VCState (Pr b).R (Pr b).C (Pr b).g (temps k b) (Y k b) := by
  have hTT : ∀ k, k < nt → T b (times k b) = temps k b := fun k hk => by rw [hT]; exact dataFn_grid (hg b) (fun k => temps k b) hk hnt
  have ht : ∀ k, k + 1 < nt → times k b ≤ times (k + 1) b := fun k hk => (hg b k (by omega)).le
  rw [← hTT k hk]
  by_cases h1 : label b = 1
  · refine stress_states (β := Unit) (Pr b) (fun _ => rate b) (fun _ => base b) (fun _ => T b) nt (fun k _ => times k b) (fun k _ hk => ht k hk) (fun k _ => Y k b) (fun k _ hk => ?_)
      (fun k _ hk => by rw [hTT k hk]; exact hP k b hk) (R0 b) (B b) (fun k _ hk => by rw [hTT k hk]; exact hR k b hk) (fun k _ hk => by rw [hTT k hk]; exact hC k b hk) (fun _ => h0 b) k () hk
    have := hY k b hk
    simp only [mixedRates, if_pos h1] at this
    exact this
  by_cases h2 : label b = 0
  · refine vc_states (β := Unit) (Pr b) (fun _ => rate b) (fun _ => T b) nt (fun k _ => times k b) (fun k _ hk => ht k hk) (fun k _ => Y k b) (fun k _ hk => ?_)
      (fun k _ hk => by rw [hTT k hk]; exact hP k b hk) (R0 b) (B b) (fun k _ hk => by rw [hTT k hk]; exact hR k b hk) (fun k _ hk => by rw [hTT k hk]; exact hC k b hk) (fun _ => h0 b) k () hk
    have := hY k b hk
    simp only [mixedRates, if_neg h1, if_pos h2] at this
    exact this
  · have hc : ∀ k, k < nt → Y k b = Y 0 b := by
      intro k
      induction k with
      | zero => intro _; rfl
      | succ k ih =>
        intro hk
        have := hY k b hk
        simp only [mixedRates, if_neg h1, if_neg h2, smul_zero, add_zero] at this
        rw [this, ih (by omega)]
    rw [hc k hk, hTT k hk]
    refine ⟨?_, fun i => ?_⟩
    · rw [hR k b hk]; exact (h0 b).1
    · rw [hC k b hk]; exact mul_le_mul_of_nonneg_right ((h0 b).2 i) ((hP k b hk).adm.g i)

section tensors

variable {D : Set ℝ} {times data temps control : Tensor} {M : Tensor → Tensor → Tensor → Tensor → Except String TOut}

/-- **C114.** `solve_strain` on tensors with any tolerances and either scheme, without a warning, followed by `rewind`: if the returned states lie in the admissible region (for zero tolerances they always do, C112), the
returned gradients are exactly those of the scheme with frozen defects, and the defects are within the tolerance. -/
theorem C114_strain (hnb : 0 < nb) (P : ℕ → (Fin p → ℝ) → VCParams nk) (p0 : Fin p → ℝ) (hM : ∀ q, ModelIs [nb, q] D M fun i => (P (i.headD 0) p0).model) (h : Tests nb nt D times data temps) (c : Config)
    (hi : 0 ≤ c.miter) (garbage : List ℕ → ℝ) (q q' : ℤ) (hq : 0 < q) (hq' : 0 < q') {Y G : Tensor}
    (hY : tSolveStrain c M (1 + nk + 1) garbage times data temps q = .ok (Y, false)) (hG : G.shape = [1 + nk + 1, nb, nt])
    (hP : ∀ k < nt, ∀ b < nb, (P b p0).Smooth (temps.data [b, k])) (hd : ∀ k < nt, ∀ b < nb, VCParams.DiffAt (P b) p0 (temps.data [b, k]))
    (hst : ∀ k < nt, ∀ b : Fin nb, VCState (P b.val p0).R (P b.val p0).C (P b.val p0).g (temps.data [b.val, k]) (statesOf nb (1 + nk + 1) Y k b))
    (d : Chunktime.Direct) {vjp : Tensor → Tensor → Tensor → Except String (Fin p → ℝ)} {fp : Fin nb → ℝ → (Fin (1 + nk + 1) → ℝ) → Matrix (Fin (1 + nk + 1)) (Fin p) ℝ}
    (hV : VjpIs nb (1 + nk + 1) (fun b => Set.Icc (times.data [b.val, 0]) (times.data [b.val, nt - 1])) vjp fp)
    (hfp : ∀ k < nt, ∀ b : Fin nb, HasFDerivAt (fun q => (strainFunc (fun b : Fin nb => (P b.val q).model) nt (fun j b => times.data [b.val, j]) (fun j b => data.data [b.val, j])
      (fun j b => temps.data [b.val, j]) b (times.data [b.val, k]) (statesOf nb (1 + nk + 1) Y k b)).1) (matCLM (fp b (times.data [b.val, k]) (statesOf nb (1 + nk + 1) Y k b))) p0) :
    (∃ (grad : Fin p → ℝ) (L : Tensor), tRewind c.scheme d (tStrainFunc M times data temps) vjp times Y G q' = .ok (grad, L) ∧ L.shape = [1 + nk + 1, nb] ∧
      IsFrozenGradient c.scheme (fun q b t y => (strainFunc (fun b : Fin nb => (P b.val q).model) nt (fun j b => times.data [b.val, j]) (fun j b => data.data [b.val, j]) (fun j b => temps.data [b.val, j]) b t y).1)
        nt (fun k b => times.data [b.val, k]) (statesOf nb (1 + nk + 1) Y) p0 (statesOf nb (1 + nk + 1) G) grad fun b j => L.data [j.val, b.val]) ∧
    statesOf nb (1 + nk + 1) Y 0 = 0 ∧
    ∀ (b : Fin nb) (δ : ℝ), ToleranceBound c (strainFunc (fun b : Fin nb => (P b.val p0).model) nt (fun j b => times.data [b.val, j]) (fun j b => data.data [b.val, j]) (fun j b => temps.data [b.val, j])) nt
        (fun k b => times.data [b.val, k]) (statesOf nb (1 + nk + 1) Y) b δ →
      ∀ k, k + 1 < nt → l2 (stepDefect c.scheme (fun b t y => (strainFunc (fun b : Fin nb => (P b.val p0).model) nt (fun j b => times.data [b.val, j]) (fun j b => data.data [b.val, j])
        (fun j b => temps.data [b.val, j]) b t y).1) (fun k b => times.data [b.val, k]) (statesOf nb (1 + nk + 1) Y) k b) ≤ δ := by
  have htwo := h.two
  have hnt : 1 < nt := by omega
  have hg : ∀ b : Fin nb, StrictGrid (nt - 1) fun k => times.data [b.val, k] := fun b => h.increasing b b.isLt
  obtain ⟨res, ho, h1, h2, h3⟩ := of_run hq (C109_solve_strain hnb (Nat.succ_pos _) (L := fun b => (P b p0).model) hM h c garbage q) hY
  have hTT : ∀ (k : ℕ) (b : Fin nb), k < nt → dataFn nt (fun k => times.data [b.val, k]) (fun k => temps.data [b.val, k]) (times.data [b.val, k]) = temps.data [b.val, k] := fun k b hk =>
    dataFn_grid (hg b) (fun k => temps.data [b.val, k]) hk hnt
  refine ⟨?_, h3 (by omega), ?_⟩
  · have key := fun (k : ℕ) (b : Fin nb) (hk : k < nt) => vc_strain_at (P b.val) p0 (times.data [b.val, k]) (rateFn nt (fun k => times.data [b.val, k]) (fun k => data.data [b.val, k]) (times.data [b.val, k]))
      (dataFn nt (fun k => times.data [b.val, k]) (fun k => temps.data [b.val, k]) (times.data [b.val, k])) (statesOf nb (1 + nk + 1) Y k b) (by rw [hTT k b hk]; exact hP k hk b b.isLt)
      (by rw [hTT k b hk]; exact hd k hk b b.isLt) (by rw [hTT k b hk]; exact hst k hk b)
    obtain ⟨grad, lam, e1, e2⟩ := C114_frozen (β := Fin nb) c.scheme d (fun q b t y => (strainFunc (fun b : Fin nb => (P b.val q).model) nt (fun j b => times.data [b.val, j]) (fun j b => data.data [b.val, j])
        (fun j b => temps.data [b.val, j]) b t y).1) (fun b t y => (strainFunc (fun b : Fin nb => (P b.val p0).model) nt (fun j b => times.data [b.val, j]) (fun j b => data.data [b.val, j])
        (fun j b => temps.data [b.val, j]) b t y).2) fp nt (by omega) (fun k b => times.data [b.val, k]) hg (statesOf nb (1 + nk + 1) Y) p0 q' hq' (statesOf nb (1 + nk + 1) G)
      (fun _ k hk b => (key (k + 1) b hk).1 _ (sub_nonneg.2 (hg b k (by omega)).le))
      (fun k hk b => by
        obtain ⟨A, hA, hS⟩ := (key k b hk).2
        have := (hfp k hk b).unique hA
        rw [this]
        exact hS)
    have hre := C110_rewind (h.strainFuncIs (L := fun b => (P b p0).model) hM) hV c.scheme d (by omega) h.times_shape h1 hG h.grid q'
    rw [show rewind c.scheme d (strainFunc (fun b : Fin nb => (P b.val p0).model) nt (fun j b => times.data [b.val, j]) (fun j b => data.data [b.val, j]) (fun j b => temps.data [b.val, j])) fp nt
      (fun k b => times.data [b.val, k]) (statesOf nb (1 + nk + 1) Y) (statesOf nb (1 + nk + 1) G) q' = _ from e1] at hre
    obtain ⟨L, f1, f2, f3⟩ := hre
    refine ⟨grad, L, f1, f2, ?_⟩
    have hl : (fun (b : Fin nb) (j : Fin (1 + nk + 1)) => L.data [j.val, b.val]) = lam := by
      funext b j
      exact f3 b j
    rw [hl]
    exact e2
  · intro b δ hδ k hk
    have hδ' : ToleranceBound c (strainFunc (fun b : Fin nb => (P b.val p0).model) nt (fun j b => times.data [b.val, j]) (fun j b => data.data [b.val, j]) (fun j b => temps.data [b.val, j])) nt
        (fun k b => times.data [b.val, k]) res.get b δ := by
      obtain ⟨a1, a2, a3⟩ := hδ
      refine ⟨a1, a2, a3.imp id ?_⟩
      rintro ⟨b1, b2, G, b3, b4⟩
      exact ⟨b1, b2, G, fun i j hi hj => by rw [← h2 j hj]; exact b3 i j hi hj, b4⟩
    have := step_defect_le c hi (strainFunc (fun b : Fin nb => (P b.val p0).model) nt (fun j b => times.data [b.val, j]) (fun j b => data.data [b.val, j]) (fun j b => temps.data [b.val, j])) _ nt
      (fun k b => times.data [b.val, k]) q hq res ho b (fun k hk => (hg b k (by omega)).le) hδ' k hk
    cases hs : c.scheme with
    | backwardEuler =>
      rw [hs] at this
      simp only [stepDefect, backwardDefect]
      rw [h2 k (by omega), h2 (k + 1) hk]
      exact this
    | forwardEuler =>
      rw [hs] at this
      simp only [stepDefect, forwardDefect]
      rw [h2 k (by omega), h2 (k + 1) hk]
      exact this

/-- the defect of a step of `solve_both` is that of the rates that are meant -/
private theorem both_defect (Pr : β → VCParams nk) (nt : ℕ) (hnt : 1 < nt) (times data temps : ℕ → β → ℝ)
    (control : β → ℝ) (hg : ∀ b, StrictGrid (nt - 1) fun k => times k b) (hE : ∀ k b, k < nt → (Pr b).E (temps k b) ≠ 0) (Y : ℕ → β → Fin (1 + nk + 1) → ℝ)
    (hmov : (∃ b, control b = 1) → Moving (fun b => (Pr b).E) (fun b => (Pr b).flowRule) nt times data temps Y)
    (rate base T : β → ℝ → ℝ) (hrate : rate = fun b => rateFn nt (fun k => times k b) fun k => data k b) (hbase : base = fun b => dataFn nt (fun k => times k b) fun k => data k b)
    (hT : T = fun b => dataFn nt (fun k => times k b) fun k => temps k b) (N k0 j : ℕ) (hj : j < N) (hN : k0 + N < nt) (b : β) :
    defectB .backwardEuler (bothFunc (fun b => (Pr b).model) nt times data temps control) N times Y k0 j b =
      stepDefect .backwardEuler (fun b t y => mixedRates (Pr b).E (Pr b).flowRule (control b) (rate b t) (base b t) (T b t) t y) times Y (k0 + j) b := by
  have hk : k0 + j + 1 < nt := by omega
  simp only [defectB, rowRate, stepDefect, backwardDefect]
  rw [dif_pos (by omega), C113_recorded (P := Unit) (fun b _ => (Pr b).model) () nt times data temps control _ _ _ rate base T hrate hbase hT]
  have hTT : T b (times (k0 + (j + 1)) b) = temps (k0 + (j + 1)) b := by
    rw [hT]
    exact dataFn_grid (hg b) (fun k => temps k b) (by omega) hnt
  have hr := recordedBoth_eq (fun _ : Unit => Pr b) (control b) (rate b (times (k0 + (j + 1)) b)) (base b (times (k0 + (j + 1)) b)) (T b (times (k0 + (j + 1)) b)) (times (k0 + (j + 1)) b)
    (Y (k0 + (j + 1)) b) (callUpdates (fun b => (Pr b).model) rate base T (N + 1) (fun i => times (k0 + i.val)) fun i => Y (k0 + i.val))
    (fun e1 => moving_updates (hmov ⟨b, e1⟩) hnt hg rate base T hrate hbase hT _ _ _ ⟨j + 1, by omega⟩ (k0 + j) hk rfl rfl) ()
    (by rw [hTT]; exact hE _ b (by omega))
  exact congrArg (fun r => Y (k0 + j + 1) b - Y (k0 + j) b - (times (k0 + j + 1) b - times (k0 + j) b) • r) hr

/-- **C114.** The same for `solve_both` with backward Euler and any mixture of strain and stress controlled tests: gradients exact for the scheme with frozen defects, and with `rtol = 0` no defect above `atol`. -/
theorem C114_both (hnb : 0 < nb) (P : ℕ → (Fin p → ℝ) → VCParams nk) (p0 : Fin p → ℝ) (hM : ∀ q, ModelIs [nb, q] D M fun i => (P (i.headD 0) p0).model) (h : Tests nb nt D times data temps)
    (hcontrol : control.shape = [nb]) (c : Config)
    (hs : c.scheme = .backwardEuler) (hi : 0 ≤ c.miter) (garbage : List ℕ → ℝ) (q q' : ℤ) (hq : 0 < q) (hq' : 0 < q') {Y G : Tensor}
    (hY : tSolveBoth c M (1 + nk + 1) garbage times temps data control q = .ok (Y, false)) (hG : G.shape = [1 + nk + 1, nb, nt])
    (hP : ∀ k < nt, ∀ b < nb, (P b p0).Smooth (temps.data [b, k])) (hd : ∀ k < nt, ∀ b < nb, VCParams.DiffAt (P b) p0 (temps.data [b, k])) (hE : ∀ k < nt, ∀ b < nb, (P b p0).E (temps.data [b, k]) ≠ 0)
    (hst : ∀ k < nt, ∀ b : Fin nb, VCState (P b.val p0).R (P b.val p0).C (P b.val p0).g (temps.data [b.val, k]) (statesOf nb (1 + nk + 1) Y k b))
    (hmov : (∃ b < nb, control.data [b] = 1) → Moving (fun b : Fin nb => (P b.val p0).E) (fun b => (P b.val p0).flowRule) nt (fun k (b : Fin nb) => times.data [b.val, k]) (fun k b => data.data [b.val, k]) (fun k b => temps.data [b.val, k])
      (statesOf nb (1 + nk + 1) Y))
    (d : Chunktime.Direct) {vjp : Tensor → Tensor → Tensor → Except String (Fin p → ℝ)} (rate base T : Fin nb → ℝ → ℝ)
    (hrate : rate = fun b => rateFn nt (fun k => times.data [b.val, k]) fun k => data.data [b.val, k]) (hbase : base = fun b => dataFn nt (fun k => times.data [b.val, k]) fun k => data.data [b.val, k])
    (hT : T = fun b => dataFn nt (fun k => times.data [b.val, k]) fun k => temps.data [b.val, k])
    (hV : RecordedVjp nb nt (fun b q => (P b.val q).model) p0 rate base T (fun b => control.data [b.val]) (fun k b => times.data [b.val, k]) (statesOf nb (1 + nk + 1) Y) vjp) :
    (∃ (grad : Fin p → ℝ) (L : Tensor), tRewind .backwardEuler d (tBothFunc M times temps data control) vjp times Y G q' = .ok (grad, L) ∧ L.shape = [1 + nk + 1, nb] ∧
      IsFrozenGradient .backwardEuler (fun q b t y => mixedRates (P b.val q).E (P b.val q).flowRule (control.data [b.val]) (rate b t) (base b t) (T b t) t y) nt (fun k b => times.data [b.val, k])
        (statesOf nb (1 + nk + 1) Y) p0 (statesOf nb (1 + nk + 1) G) grad fun b j => L.data [j.val, b.val]) ∧
    statesOf nb (1 + nk + 1) Y 0 = 0 ∧
    (c.rtol = 0 → ∀ (b : Fin nb) (k : ℕ), k + 1 < nt → l2 (stepDefect .backwardEuler (fun b t y => mixedRates (P b.val p0).E (P b.val p0).flowRule (control.data [b.val]) (rate b t) (base b t) (T b t) t y)
      (fun k b => times.data [b.val, k]) (statesOf nb (1 + nk + 1) Y) k b) ≤ max c.atol 0) := by
  have htwo := h.two
  have hnt : 1 < nt := by omega
  have hg : ∀ b : Fin nb, StrictGrid (nt - 1) fun k => times.data [b.val, k] := fun b => h.increasing b b.isLt
  have hmov' : (∃ b : Fin nb, control.data [b.val] = 1) → Moving (fun b : Fin nb => (P b.val p0).E) (fun b => (P b.val p0).flowRule) nt (fun k (b : Fin nb) => times.data [b.val, k]) (fun k b => data.data [b.val, k]) (fun k b => temps.data [b.val, k])
      (statesOf nb (1 + nk + 1) Y) := fun ⟨b, hb⟩ => hmov ⟨b.val, b.isLt, hb⟩
  obtain ⟨res, ho, h1, h2, h3⟩ := of_run hq (C109_solve_both hnb hcontrol (L := fun b => (P b p0).model) hM h c garbage q) hY
  obtain ⟨hdiff, grad, lam, e1, e2⟩ := C114_lanes (β := Fin nb) d (fun b => P b.val) p0 nt (fun k b => times.data [b.val, k]) (fun j b => data.data [b.val, j]) (fun j b => temps.data [b.val, j]) (fun b => control.data [b.val])
    hnt hg (fun k b hk => hP k hk b b.isLt) (fun k b hk => hd k hk b b.isLt) (fun k b hk => hE k hk b b.isLt) rate base T hT
    (statesOf nb (1 + nk + 1) Y) (fun k b hk => hst k hk b) _ rfl (statesOf nb (1 + nk + 1) G) .backwardEuler q' hq'
  obtain ⟨L, f1, f2, hl⟩ := both_rewind P p0 hM h hcontrol q' h1 hG hd hE hmov' d rate base T hrate hbase hT hV hdiff grad lam e1
  refine ⟨⟨grad, L, f1, f2, ?_⟩, h3 (by omega), fun hr b k hk => ?_⟩
  · rw [hl]
    exact e2
  · obtain ⟨-, -, -, h4, -⟩ := integrate_spec c _ _ nt _ q hq res false ho
    refine all_rows (nt := nt) (N := q.toNat) (P := fun k => l2 (stepDefect .backwardEuler (fun b t y => mixedRates (P b.val p0).E (P b.val p0).flowRule (control.data [b.val]) (rate b t) (base b t) (T b t) t y)
      (fun k b => times.data [b.val, k]) (statesOf nb (1 + nk + 1) Y) k b) ≤ max c.atol 0) (by omega) ?_ k hk
    intro i hi' j hj
    have hb := h4 i hi'
    rw [Nat.add_comm 1 (i * q.toNat)] at hb
    obtain ⟨guess, -, htol⟩ := block_toleranceB hi hb
    rw [hr, hs] at htol
    have hN : i * q.toNat + sliceLen nt (i * q.toNat + 1) q.toNat < nt := by
      have := nblocks_lt (by omega) hi'
      unfold sliceLen at hj ⊢
      omega
    have hnorm : rowsNorm (sliceLen nt (i * q.toNat + 1) q.toNat) (fun j => defectB .backwardEuler (bothFunc (fun b : Fin nb => (P b.val p0).model) nt (fun k (b : Fin nb) => times.data [b.val, k])
        (fun k b => data.data [b.val, k]) (fun k b => temps.data [b.val, k]) (fun b => control.data [b.val])) (sliceLen nt (i * q.toNat + 1) q.toNat) (fun k b => times.data [b.val, k]) res.get (i * q.toNat) j b)
        ≤ max c.atol 0 := by
      rcases htol with q1 | q1
      · exact (q1 b).trans (le_max_left _ _)
      · refine (q1 b).trans ?_
        rw [zero_mul]
        exact le_max_right _ _
    have hmovr : (∃ b : Fin nb, control.data [b.val] = 1) → Moving (fun b : Fin nb => (P b.val p0).E) (fun b => (P b.val p0).flowRule) nt (fun k (b : Fin nb) => times.data [b.val, k]) (fun k b => data.data [b.val, k])
        (fun k b => temps.data [b.val, k]) res.get := fun hb k hk => by
      have := hmov' hb k hk
      rw [h2 (k + 1) hk] at this
      exact this
    have e := both_defect (fun b : Fin nb => P b.val p0) nt hnt (fun k (b : Fin nb) => times.data [b.val, k]) (fun k b => data.data [b.val, k]) (fun k b => temps.data [b.val, k]) (fun b => control.data [b.val]) hg
      (fun k b hk => hE k hk b b.isLt) res.get hmovr rate base T hrate hbase hT _ (i * q.toNat) j hj hN b
    have e' : stepDefect .backwardEuler (fun b t y => mixedRates (P b.val p0).E (P b.val p0).flowRule (control.data [b.val]) (rate b t) (base b t) (T b t) t y) (fun k b => times.data [b.val, k])
        (statesOf nb (1 + nk + 1) Y) (i * q.toNat + j) b = stepDefect .backwardEuler (fun b t y => mixedRates (P b.val p0).E (P b.val p0).flowRule (control.data [b.val]) (rate b t) (base b t) (T b t) t y)
        (fun k b => times.data [b.val, k]) res.get (i * q.toNat + j) b := by
      simp only [stepDefect, backwardDefect]
      rw [h2 (i * q.toNat + j) (by omega), h2 (i * q.toNat + j + 1) (by omega)]
    rw [e', ← e]
    exact (l2_le_rowsNorm (d := fun j => defectB .backwardEuler _ _ _ _ _ j b) hj).trans hnorm

end tensors

/-! ## Non-vacuity -/

/-- The decay equation `y' = p y` at `p = -1` with the default tolerances: the run succeeds, `rewind` returns the exact gradient of the scheme with frozen defects, and the hypotheses hold for states that are not on the
trajectory (constant 1, defect 1 in every step). -/
example : (∃ (res : Partial Unit 1) (grad : Fin 1 → ℝ) (lam : Unit → Fin 1 → ℝ),
    integrate (β := Unit) (m := 1) { scheme := .backwardEuler, method := .direct .thomas, rtol := 1e-6, atol := 1e-8, miter := 100, throwOnFail := true, guessType := "zero" }
      (Func.lift fun _ _ y => (fun _ => -1 * y 0, !![(-1 : ℝ)])) (fun _ _ => 1) 5 (fun k _ => (k : ℝ)) 2 = .ok (res, false) ∧
    rewind .backwardEuler .pcr (fun (_ : Unit) _ y => (fun _ => -1 * y 0, !![(-1 : ℝ)])) (fun _ _ y => !![y 0]) 5 (fun k _ => (k : ℝ)) res.get (fun _ _ _ => 1) 3 = .ok (grad, lam) ∧
    IsFrozenGradient .backwardEuler (fun q _ _ y _ => q 0 * y 0) 5 (fun k _ => (k : ℝ)) res.get (fun _ => -1) (fun _ _ _ => 1) grad lam) ∧
    ∃ (grad : Fin 1 → ℝ) (lam : Unit → Fin 1 → ℝ), IsFrozenGradient .backwardEuler (fun q _ _ y _ => q 0 * y 0) 5 (fun k _ => (k : ℝ)) (fun _ (_ : Unit) _ => 1) (fun _ => -1) (fun _ _ _ => 1) grad lam ∧
      stepDefect .backwardEuler (fun (_ : Unit) _ (y : Fin 1 → ℝ) (_ : Fin 1) => -1 * y 0) (fun k _ => (k : ℝ)) (fun _ _ _ => 1) 2 () 0 = 1 := by
  have hg : ∀ _ : Unit, StrictGrid (5 - 1) fun k => (k : ℝ) := fun _ j _ => by push_cast; linarith
  have hA : ∀ k : ℕ, k + 1 < 5 → IsUnit (1 - (((k + 1 : ℕ) : ℝ) - (k : ℝ)) • !![(-1 : ℝ)]).det := fun k _ => by
    rw [isUnit_iff_ne_zero, Matrix.det_fin_one]
    norm_num
  constructor
  · have e : (fun (_ : Unit) (_ : ℝ) (y : Fin 1 → ℝ) => ((fun _ => -1 * y 0 : Fin 1 → ℝ), !![(-1 : ℝ)])) =
        fun _ _ y => ((!![(-1 : ℝ)] : Matrix (Fin 1) (Fin 1) ℝ).mulVec y + 0, !![(-1 : ℝ)]) := by
      funext b s y
      refine Prod.ext (funext fun j => ?_) rfl
      simp [Matrix.mulVec, dotProduct]
    obtain ⟨res, h⟩ := C18_linear_succeeds (β := Unit) (m := 1)
      { scheme := .backwardEuler, method := .direct .thomas, rtol := 1e-6, atol := 1e-8, miter := 100, throwOnFail := true, guessType := "zero" } (by norm_num) (by norm_num)
      (fun _ _ => !![(-1 : ℝ)]) (fun _ _ => 0) (fun _ _ => 1) 5 (by norm_num) (fun k _ => (k : ℝ)) 2 (by norm_num) (Or.inl rfl) (fun _ k b hk => hA k hk)
    rw [← e] at h
    obtain ⟨⟨grad, lam, h1, h2⟩, -⟩ := C114_run (β := Unit) (m := 1) (p := 1)
      { scheme := .backwardEuler, method := .direct .thomas, rtol := 1e-6, atol := 1e-8, miter := 100, throwOnFail := true, guessType := "zero" } (by norm_num) .pcr
      (fun q _ _ y _ => q 0 * y 0) (fun _ _ _ => !![-1]) (fun _ _ y => !![y 0]) 5 (by norm_num) (fun k _ => (k : ℝ)) hg (fun _ _ => 1) (fun _ => -1) 2 3 (by norm_num) (by norm_num) res h
      (fun _ _ _ => 1) (fun _ k hk b => hA k hk) (fun k _ b => ex_strict (fun _ => -1) (res.get k b))
    exact ⟨res, grad, lam, h, h1, h2⟩
  · obtain ⟨grad, lam, -, h2⟩ := C114_frozen (β := Unit) (m := 1) (p := 1) .backwardEuler .pcr (fun q _ _ y _ => q 0 * y 0) (fun _ _ _ => !![-1]) (fun _ _ y => !![y 0]) 5 (by norm_num)
      (fun k _ => (k : ℝ)) hg (fun _ _ _ => 1) (fun _ => -1) 3 (by norm_num) (fun _ _ _ => 1) (fun _ k hk b => hA k hk) (fun k _ b => ex_strict (fun _ => -1) (fun _ => 1))
    refine ⟨grad, lam, h2, ?_⟩
    simp only [stepDefect, backwardDefect, Pi.sub_apply, Pi.smul_apply, smul_eq_mul]
    push_cast
    ring

end Pyoptmat.Props
