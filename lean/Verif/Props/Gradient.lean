import Verif.Proofs.Ift
import Verif.Proofs.AdjointCont
import Verif.Props.Accuracy
import Verif.Props.Adjoint
import Verif.Model.OdeFront

/-!
# Properties C83–C86: the gradients a user of `odeint_adjoint` gets
-/

namespace Pyoptmat.Props

open Pyoptmat.Chunktime Pyoptmat.Newton Pyoptmat.Spec Pyoptmat.Ode Filter Topology

variable {β : Type*} [Fintype β] {m p : ℕ}

/-- the total derivative assembled from the two outputs of `rewind` -/
noncomputable def totalGrad (grad : Fin p → ℝ) (lam : β → Fin m → ℝ) :
    (Fin p → ℝ) × (β → Fin m → ℝ) →L[ℝ] ℝ :=
  (dotCLM grad).coprod (∑ b, (dotCLM (lam b)).comp (ContinuousLinearMap.proj b))

/-- What `totalGrad` is: `grad · dp + ∑ b, lam b · dy₀ b`. -/
theorem totalGrad_apply (grad : Fin p → ℝ) (lam : β → Fin m → ℝ) (v : (Fin p → ℝ) × (β → Fin m → ℝ)) :
    totalGrad grad lam v = grad ⬝ᵥ v.1 + ∑ b, lam b ⬝ᵥ v.2 b := by
  simp [totalGrad, dotCLM_apply, ContinuousLinearMap.sum_apply]

omit [Fintype β] in
private theorem lift_rate {E X : Type*} [NormedAddCommGroup E] [NormedSpace ℝ E] [NormedAddCommGroup X]
    [NormedSpace ℝ X] (rate : E → β → ℝ → (Fin m → ℝ) → Fin m → ℝ) (b : β) (tk : ℝ)
    (A : E →L[ℝ] (Fin m → ℝ)) (B : (Fin m → ℝ) →L[ℝ] (Fin m → ℝ)) (p0 : E) (y0 : X) (z : Fin m → ℝ)
    (h : HasStrictFDerivAt (fun x : E × (Fin m → ℝ) => rate x.1 b tk x.2) (A.coprod B) (p0, z)) :
    HasStrictFDerivAt (fun x : (E × X) × (Fin m → ℝ) => rate x.1.1 b tk x.2)
      ((A.comp (ContinuousLinearMap.fst ℝ E X)).coprod B) ((p0, y0), z) := by
  have h1 : HasStrictFDerivAt (fun x : (E × X) × (Fin m → ℝ) => (x.1.1, x.2))
      (((ContinuousLinearMap.fst ℝ E X).comp (ContinuousLinearMap.fst ℝ _ _)).prod
        (ContinuousLinearMap.snd ℝ _ _)) ((p0, y0), z) :=
    (((ContinuousLinearMap.fst ℝ E X).comp (ContinuousLinearMap.fst ℝ _ _)).prod
        (ContinuousLinearMap.snd ℝ _ (Fin m → ℝ))).hasStrictFDerivAt
  refine (HasStrictFDerivAt.comp (g := fun x : E × (Fin m → ℝ) => rate x.1 b tk x.2)
    ((p0, y0), z) h h1).congr_fderiv ?_
  ext x <;> simp

/-- both schemes at once -/
theorem gradient_exact (s : Scheme) (d : Direct)
    (rate : (Fin p → ℝ) → β → ℝ → (Fin m → ℝ) → Fin m → ℝ)
    (J : β → ℝ → (Fin m → ℝ) → Matrix (Fin m) (Fin m) ℝ)
    (fp : β → ℝ → (Fin m → ℝ) → Matrix (Fin m) (Fin p) ℝ)
    (nt : ℕ) (hnt : 0 < nt) (t : ℕ → β → ℝ) (Y : ℕ → β → Fin m → ℝ) (p0 : Fin p → ℝ)
    (blockSize : ℤ) (hn : 0 < blockSize) (g : ℕ → β → Fin m → ℝ)
    (hY : IsTrajectory s (rate p0) nt t Y)
    (hA : s = .backwardEuler → ∀ k, k + 1 < nt → ∀ b,
      IsUnit (1 - (t (k + 1) b - t k b) • J b (t (k + 1) b) (Y (k + 1) b)).det)
    (hR : ∀ k < nt, ∀ b, HasStrictFDerivAt (fun x : (Fin p → ℝ) × (Fin m → ℝ) => rate x.1 b (t k b) x.2)
      ((matCLM (fp b (t k b) (Y k b))).coprod (matCLM (J b (t k b) (Y k b)))) (p0, Y k b)) :
    ∃ y : (Fin p → ℝ) → (β → Fin m → ℝ) → ℕ → β → Fin m → ℝ,
      y p0 (Y 0) = Y ∧ (∀ q x, y q x 0 = x) ∧
      (∀ᶠ v in 𝓝 (p0, Y 0), IsTrajectory s (rate v.1) nt t (y v.1 v.2)) ∧
      (∀ y' : (Fin p → ℝ) → (β → Fin m → ℝ) → ℕ → β → Fin m → ℝ,
        (∀ᶠ v in 𝓝 (p0, Y 0), IsTrajectory s (rate v.1) nt t (y' v.1 v.2)) →
        (∀ᶠ v in 𝓝 (p0, Y 0), y' v.1 v.2 0 = v.2) → (∀ k < nt, y' p0 (Y 0) k = Y k) →
        (∀ k < nt, ∀ b, ContinuousAt (fun v : (Fin p → ℝ) × (β → Fin m → ℝ) => y' v.1 v.2 k b) (p0, Y 0)) →
        ∀ᶠ v in 𝓝 (p0, Y 0), ∀ k < nt, y' v.1 v.2 k = y v.1 v.2 k) ∧
      ∃ grad lam, rewind s d (fun b t y => (rate p0 b t y, J b t y)) fp nt t Y g blockSize = .ok (grad, lam) ∧
        (∀ k < nt, ∀ b, DifferentiableAt ℝ (fun v : (Fin p → ℝ) × (β → Fin m → ℝ) => y v.1 v.2 k b) (p0, Y 0)) ∧
        HasFDerivAt (fun v : (Fin p → ℝ) × (β → Fin m → ℝ) =>
          ∑ k ∈ Finset.range nt, ∑ b, g k b ⬝ᵥ y v.1 v.2 k b) (totalGrad grad lam) (p0, Y 0) := by
  have hR' := fun k hk b => lift_rate rate b (t k b) _ _ p0 (Y 0) _ (hR k hk b)
  obtain ⟨y, hy1, hy2, hy3, hy4, hy5⟩ := trajectory_exists' s
    (fun v : (Fin p → ℝ) × (β → Fin m → ℝ) => rate v.1) J _ nt hnt t Y (p0, Y 0) hY (fun v => v.2) rfl
    (fun b => ⟨(ContinuousLinearMap.proj b).comp (ContinuousLinearMap.snd ℝ (Fin p → ℝ) (β → Fin m → ℝ)),
      ((ContinuousLinearMap.proj b).comp
        (ContinuousLinearMap.snd ℝ (Fin p → ℝ) (β → Fin m → ℝ))).hasStrictFDerivAt⟩) hA hR'
  refine ⟨fun q x => y (q, x), hy1, fun q x => hy2 (q, x), hy3, fun y' h1 h2 h3 h4 =>
    hy5 (fun v => y' v.1 v.2) h1 h2 h3 h4, ?_⟩
  obtain ⟨grad, lam, h1, h2⟩ := rewind_derivative s d
    (fun v : (Fin p → ℝ) × (β → Fin m → ℝ) => rate v.1) J fp
    (ContinuousLinearMap.fst ℝ (Fin p → ℝ) (β → Fin m → ℝ)) nt hnt t y (p0, Y 0) blockSize hn g hy3
    (fun b => (ContinuousLinearMap.proj b).comp (ContinuousLinearMap.snd ℝ (Fin p → ℝ) (β → Fin m → ℝ)))
    (fun b => by
      have : (fun q => y q 0 b) = fun q : (Fin p → ℝ) × (β → Fin m → ℝ) => q.2 b := funext fun q => congrFun (hy2 q) b
      rw [this]
      exact ((ContinuousLinearMap.proj b).comp
        (ContinuousLinearMap.snd ℝ (Fin p → ℝ) (β → Fin m → ℝ))).hasFDerivAt)
    (fun _ k hk b => by obtain ⟨D, hD⟩ := hy4 k hk b; exact hD.continuousAt)
    (fun hs k hk b => by rw [hy1]; exact hA hs k hk b)
    (fun k hk b => by rw [hy1]; exact (hR' k hk b).hasFDerivAt)
  refine ⟨grad, lam, by rw [hy1] at h1; exact h1, fun k hk b => ?_, h2.congr_fderiv ?_⟩
  · obtain ⟨D, hD⟩ := hy4 k hk b
    exact hD.hasFDerivAt.differentiableAt
  ext v <;> simp [totalGrad, ContinuousLinearMap.sum_apply]

/-- **C83.** Backward Euler. Let `Y` be the discrete trajectory at parameters `p0`. If the rates are (strictly)
differentiable along it, with the Jacobian the right hand side reports, and the matrices of the implicit steps are
invertible, then: for all parameters and initial conditions near `(p0, Y 0)` there is a discrete trajectory `y q x`
that starts at `x`; it is the only one that depends continuously on them and is `Y` at `(p0, Y 0)`;
and the two outputs of `rewind` are the exact gradient of `∑ ⟨g, y q x⟩` at `(p0, Y 0)` with respect
to parameters and initial condition together. -/
theorem C83_backward (d : Direct)
    (rate : (Fin p → ℝ) → β → ℝ → (Fin m → ℝ) → Fin m → ℝ)
    (J : β → ℝ → (Fin m → ℝ) → Matrix (Fin m) (Fin m) ℝ)
    (fp : β → ℝ → (Fin m → ℝ) → Matrix (Fin m) (Fin p) ℝ)
    (nt : ℕ) (hnt : 0 < nt) (t : ℕ → β → ℝ) (Y : ℕ → β → Fin m → ℝ) (p0 : Fin p → ℝ)
    (blockSize : ℤ) (hn : 0 < blockSize) (g : ℕ → β → Fin m → ℝ)
    (hY : IsBackwardEuler (rate p0) nt t Y)
    (hA : ∀ k, k + 1 < nt → ∀ b,
      IsUnit (1 - (t (k + 1) b - t k b) • J b (t (k + 1) b) (Y (k + 1) b)).det)
    (hR : ∀ k < nt, ∀ b, HasStrictFDerivAt (fun x : (Fin p → ℝ) × (Fin m → ℝ) => rate x.1 b (t k b) x.2)
      ((matCLM (fp b (t k b) (Y k b))).coprod (matCLM (J b (t k b) (Y k b)))) (p0, Y k b)) :
    ∃ y : (Fin p → ℝ) → (β → Fin m → ℝ) → ℕ → β → Fin m → ℝ,
      y p0 (Y 0) = Y ∧ (∀ q x, y q x 0 = x) ∧
      (∀ᶠ v in 𝓝 (p0, Y 0), IsBackwardEuler (rate v.1) nt t (y v.1 v.2)) ∧
      (∀ y' : (Fin p → ℝ) → (β → Fin m → ℝ) → ℕ → β → Fin m → ℝ,
        (∀ᶠ v in 𝓝 (p0, Y 0), IsBackwardEuler (rate v.1) nt t (y' v.1 v.2)) →
        (∀ᶠ v in 𝓝 (p0, Y 0), y' v.1 v.2 0 = v.2) → (∀ k < nt, y' p0 (Y 0) k = Y k) →
        (∀ k < nt, ∀ b, ContinuousAt (fun v : (Fin p → ℝ) × (β → Fin m → ℝ) => y' v.1 v.2 k b) (p0, Y 0)) →
        ∀ᶠ v in 𝓝 (p0, Y 0), ∀ k < nt, y' v.1 v.2 k = y v.1 v.2 k) ∧
      ∃ grad lam, rewind .backwardEuler d (fun b t y => (rate p0 b t y, J b t y)) fp nt t Y g blockSize
          = .ok (grad, lam) ∧
        (∀ k < nt, ∀ b, DifferentiableAt ℝ (fun v : (Fin p → ℝ) × (β → Fin m → ℝ) => y v.1 v.2 k b) (p0, Y 0)) ∧
        HasFDerivAt (fun v : (Fin p → ℝ) × (β → Fin m → ℝ) =>
          ∑ k ∈ Finset.range nt, ∑ b, g k b ⬝ᵥ y v.1 v.2 k b) (totalGrad grad lam) (p0, Y 0) :=
  gradient_exact .backwardEuler d rate J fp nt hnt t Y p0 blockSize hn g hY (fun _ => hA) hR

/-- **C83.** Forward Euler: here every discrete trajectory is determined by its start, and no matrix has to be
invertible. -/
theorem C83_forward (d : Direct)
    (rate : (Fin p → ℝ) → β → ℝ → (Fin m → ℝ) → Fin m → ℝ)
    (J : β → ℝ → (Fin m → ℝ) → Matrix (Fin m) (Fin m) ℝ)
    (fp : β → ℝ → (Fin m → ℝ) → Matrix (Fin m) (Fin p) ℝ)
    (nt : ℕ) (hnt : 0 < nt) (t : ℕ → β → ℝ) (y : (Fin p → ℝ) → (β → Fin m → ℝ) → ℕ → β → Fin m → ℝ)
    (p0 : Fin p → ℝ) (y0 : β → Fin m → ℝ)
    (blockSize : ℤ) (hn : 0 < blockSize) (g : ℕ → β → Fin m → ℝ)
    (hy : ∀ q x, IsForwardEuler (rate q) nt t (y q x) ∧ y q x 0 = x)
    (hR : ∀ k < nt, ∀ b, HasStrictFDerivAt (fun x : (Fin p → ℝ) × (Fin m → ℝ) => rate x.1 b (t k b) x.2)
      ((matCLM (fp b (t k b) (y p0 y0 k b))).coprod (matCLM (J b (t k b) (y p0 y0 k b)))) (p0, y p0 y0 k b)) :
    ∃ grad lam, rewind .forwardEuler d (fun b t y => (rate p0 b t y, J b t y)) fp nt t (y p0 y0) g blockSize
        = .ok (grad, lam) ∧
      (∀ k < nt, ∀ b, DifferentiableAt ℝ (fun v : (Fin p → ℝ) × (β → Fin m → ℝ) => y v.1 v.2 k b) (p0, y0)) ∧
      HasFDerivAt (fun v : (Fin p → ℝ) × (β → Fin m → ℝ) =>
        ∑ k ∈ Finset.range nt, ∑ b, g k b ⬝ᵥ y v.1 v.2 k b) (totalGrad grad lam) (p0, y0) := by
  have h0 : y p0 y0 0 = y0 := (hy p0 y0).2
  obtain ⟨z, hz1, hz2, hz3, -, grad, lam, hz5, hz7, hz6⟩ := gradient_exact .forwardEuler d rate J fp nt hnt t (y p0 y0) p0
    blockSize hn g (hy p0 y0).1 (fun h => by simp at h) hR
  rw [h0] at hz1 hz3 hz6 hz7
  have same : ∀ᶠ v in 𝓝 (p0, y0), ∀ k, k < nt → y v.1 v.2 k = z v.1 v.2 k := by
    filter_upwards [hz3] with v hv k
    induction k with
    | zero => intro _; rw [(hy v.1 v.2).2, hz2]
    | succ k ih =>
      intro hk
      funext b
      have e1 := (hy v.1 v.2).1 k b hk
      have e2 := hv k b hk
      rw [e1, e2, ih (by omega)]
  refine ⟨grad, lam, hz5, fun k hk b => (hz7 k hk b).congr_of_eventuallyEq ?_, hz6.congr_of_eventuallyEq ?_⟩
  · filter_upwards [same] with v hv
    rw [hv k hk]
  · filter_upwards [same] with v hv
    refine Finset.sum_congr rfl fun k hk => Finset.sum_congr rfl fun b _ => ?_
    rw [hv k (Finset.mem_range.1 hk)]

/-! ## C84: the leaves -/

section leaves
variable {P : Type*} [Fintype P] [DecidableEq P]

/-- `v ↦ ∑ ℓ, v ℓ • fp ℓ`: derivative of the rate with respect to all leaves. -/
noncomputable def leafCLM (fp : P → Fin m → ℝ) : (P → ℝ) →L[ℝ] (Fin m → ℝ) :=
  ∑ l, (ContinuousLinearMap.proj (R := ℝ) (φ := fun _ : P => ℝ) l).smulRight (fp l)

omit [DecidableEq P] in
private theorem leafCLM_apply (fp : P → Fin m → ℝ) (v : P → ℝ) : leafCLM fp v = ∑ l, v l • fp l := by
  simp [leafCLM, ContinuousLinearMap.sum_apply]

private theorem sum_get {α : Type*} [DecidableEq α] (L : List α) (a : α) (F : Fin L.length → ℝ) (D : ℝ)
    (h : ∀ j, L.get j = a → F j = D) : (∑ j, if L.get j = a then F j else 0) = L.count a * D := by
  have h1 : (∑ j, if L.get j = a then F j else 0) = ∑ j, if L.get j = a then D else 0 :=
    Finset.sum_congr rfl fun j _ => by
      by_cases hj : L.get j = a
      · rw [if_pos hj, if_pos hj, h j hj]
      · rw [if_neg hj, if_neg hj]
  rw [h1]
  clear h h1 F
  induction L with
  | nil => simp
  | cons x L ih =>
    have e := Fin.sum_univ_succ (n := L.length) (fun j => if (x :: L).get j = a then D else 0)
    refine e.trans ?_
    simp only [List.get_cons_zero, List.get_cons_succ']
    rw [ih, List.count_cons]
    by_cases hx : x = a
    · simp [hx]; ring
    · simp [hx]

/-- **C84.** What the backward pass of `odeint_adjoint` leaves in the gradients of the leaves, for either scheme:
every scalar leaf that was passed (as a parameter of `func` or in `extra_params`) receives its partial
derivative of `∑ ⟨g, y⟩` **times the number of times it was passed**; a leaf that was not passed receives none, even if
the rate depends on it; `y0` receives its gradient exactly if it requires one. -/
theorem C84_leaf_gradients (c : Config) (d : Direct)
    (rate : (P → ℝ) → β → ℝ → (Fin m → ℝ) → Fin m → ℝ)
    (J : β → ℝ → (Fin m → ℝ) → Matrix (Fin m) (Fin m) ℝ)
    (fp : P → β → ℝ → (Fin m → ℝ) → Fin m → ℝ) (used : P → Bool) (params : List P) (y0req : Bool)
    (hused : ∀ l ∈ params, used l = true)
    (nt : ℕ) (hnt : 0 < nt) (t : ℕ → β → ℝ) (Y : ℕ → β → Fin m → ℝ) (env : P → ℝ)
    (blockSize : ℤ) (hn : 0 < blockSize) (g : ℕ → β → Fin m → ℝ)
    (hY : IsTrajectory c.scheme (rate env) nt t Y)
    (hA : c.scheme = .backwardEuler → ∀ k, k + 1 < nt → ∀ b,
      IsUnit (1 - (t (k + 1) b - t k b) • J b (t (k + 1) b) (Y (k + 1) b)).det)
    (hR : ∀ k < nt, ∀ b, HasStrictFDerivAt (fun x : (P → ℝ) × (Fin m → ℝ) => rate x.1 b (t k b) x.2)
      ((leafCLM fun l => fp l b (t k b) (Y k b)).coprod (matCLM (J b (t k b) (Y k b)))) (env, Y k b)) :
    ∃ y : (P → ℝ) → (β → Fin m → ℝ) → ℕ → β → Fin m → ℝ,
      y env (Y 0) = Y ∧ (∀ q x, y q x 0 = x) ∧
      (∀ᶠ v in 𝓝 (env, Y 0), IsTrajectory c.scheme (rate v.1) nt t (y v.1 v.2)) ∧
      ∃ G, backward c d (fun b t y => (rate env b t y, J b t y)) fp used params y0req nt t Y g blockSize = .ok G ∧
        (∀ l ∈ params, ∃ D : ℝ, G.param l = some ((params.count l : ℝ) * D) ∧
          HasDerivAt (fun v => ∑ k ∈ Finset.range nt, ∑ b, g k b ⬝ᵥ y (Function.update env l v) (Y 0) k b) D (env l)) ∧
        (∀ l, l ∉ params → G.param l = none) ∧
        (y0req = true → ∃ lam, G.y0 = some lam ∧
          HasFDerivAt (fun x => ∑ k ∈ Finset.range nt, ∑ b, g k b ⬝ᵥ y env x k b)
            (∑ b, (dotCLM (lam b)).comp (ContinuousLinearMap.proj b)) (Y 0)) ∧
        (y0req = false → G.y0 = none) := by
  have hR' := fun k hk b => lift_rate rate b (t k b) _ _ env (Y 0) _ (hR k hk b)
  obtain ⟨y, hy1, hy2, hy3, hy4, -⟩ := trajectory_exists' c.scheme
    (fun v : (P → ℝ) × (β → Fin m → ℝ) => rate v.1) J _ nt hnt t Y (env, Y 0) hY (fun v => v.2) rfl
    (fun b => ⟨(ContinuousLinearMap.proj b).comp (ContinuousLinearMap.snd ℝ (P → ℝ) (β → Fin m → ℝ)),
      ((ContinuousLinearMap.proj b).comp
        (ContinuousLinearMap.snd ℝ (P → ℝ) (β → Fin m → ℝ))).hasStrictFDerivAt⟩) hA hR'
  refine ⟨fun q x => y (q, x), hy1, fun q x => hy2 (q, x), hy3, ?_⟩
  let fpM : β → ℝ → (Fin m → ℝ) → Matrix (Fin m) (Fin params.length) ℝ :=
    fun b t y => Matrix.of fun r (j : Fin params.length) => fp (params.get j) b t y r
  let f : Func β m := fun b t y => (rate env b t y, J b t y)
  have hspec := rewind_spec c.scheme d f fpM nt hnt t Y g blockSize hn hA
  generalize (∑ j ∈ Finset.range (nt - 1), contrib c.scheme f fpM (flipRows nt t) (flipRows nt Y) (flipRows nt g) j)
    = grad at hspec
  generalize adj c.scheme f (flipRows nt t) (flipRows nt Y) (flipRows nt g) (nt - 1) = lam at hspec
  -- parameters
  have hpar : ∀ (l : P) (j : Fin params.length), params.get j = l →
      HasDerivAt (fun v => ∑ k ∈ Finset.range nt, ∑ b, g k b ⬝ᵥ y (Function.update env l v, Y 0) k b)
        (grad j) (env l) := by
    intro l j hj
    have hten : ContinuousAt (fun v : ℝ => (Function.update env l v, Y 0)) (env l) :=
      ((continuous_const.update l continuous_id).prodMk continuous_const).continuousAt
    have hval : (fun v : ℝ => (Function.update env l v, Y 0)) (env l) = (env, Y 0) := by
      simp only [Function.update_eq_self]
    have hten' : Tendsto (fun v : ℝ => (Function.update env l v, Y 0)) (𝓝 (env l)) (𝓝 (env, Y 0)) := by
      rw [← hval]; exact hten
    obtain ⟨grad', lam', h1, h2⟩ := rewind_derivative c.scheme d
      (fun v : ℝ => rate (Function.update env l v)) J fpM
      (ContinuousLinearMap.toSpanSingleton ℝ (Pi.single j 1)) nt hnt t
      (fun v => y (Function.update env l v, Y 0)) (env l) blockSize hn g (hten'.eventually hy3)
      (fun _ => 0) (fun b => by
        have : (fun q : ℝ => y (Function.update env l q, Y 0) 0 b) = fun _ => Y 0 b :=
          funext fun q => congrFun (hy2 _) b
        rw [this]
        exact hasFDerivAt_const _ _)
      (fun _ k hk b => by
        obtain ⟨D, hD⟩ := hy4 k hk b
        exact ContinuousAt.comp_of_eq (f := fun v : ℝ => (Function.update env l v, Y 0)) hD.continuousAt hten hval)
      (fun hs k hk b => by
        simp only [Function.update_eq_self, hy1]
        exact hA hs k hk b)
      (fun k hk b => by
        simp only [Function.update_eq_self, hy1]
        have hu : HasFDerivAt (fun x : ℝ × (Fin m → ℝ) => (Function.update env l x.1, x.2))
            (((ContinuousLinearMap.pi (Pi.single l (ContinuousLinearMap.id ℝ ℝ))).comp
              (ContinuousLinearMap.fst ℝ ℝ (Fin m → ℝ))).prod (ContinuousLinearMap.snd ℝ ℝ (Fin m → ℝ)))
            (env l, Y k b) :=
          (HasFDerivAt.comp (env l, Y k b) (f := Prod.fst) (hasFDerivAt_update (𝕜 := ℝ) env (env l))
            hasFDerivAt_fst).prodMk hasFDerivAt_snd
        have hg : HasFDerivAt (fun x : (P → ℝ) × (Fin m → ℝ) => rate x.1 b (t k b) x.2)
            ((leafCLM fun l => fp l b (t k b) (Y k b)).coprod (matCLM (J b (t k b) (Y k b))))
            ((fun x : ℝ × (Fin m → ℝ) => (Function.update env l x.1, x.2)) (env l, Y k b)) := by
          simp only [Function.update_eq_self]
          exact (hR k hk b).hasFDerivAt
        refine (HasFDerivAt.comp (env l, Y k b) hg hu).congr_fderiv ?_
        refine ContinuousLinearMap.ext fun x => ?_
        have e1 : (ContinuousLinearMap.pi (Pi.single l (ContinuousLinearMap.id ℝ ℝ)) : ℝ →L[ℝ] (P → ℝ)) x.1 =
            Pi.single l x.1 := by
          funext i
          by_cases hi : i = l
          · subst hi; simp
          · simp [hi]
        simp only [ContinuousLinearMap.comp_apply, ContinuousLinearMap.coprod_apply, ContinuousLinearMap.prod_apply,
          ContinuousLinearMap.coe_fst', ContinuousLinearMap.coe_snd', e1, leafCLM_apply,
          ContinuousLinearMap.toSpanSingleton_apply, matCLM_apply]
        congr 1
        rw [Finset.sum_eq_single l (fun i _ hi => by simp [hi]) (by simp)]
        funext r
        simp [fpM, Matrix.mulVec_smul, ← hj])
    have e1 : rewind c.scheme d f fpM nt t Y g blockSize = .ok (grad', lam') := by
      simpa only [Function.update_eq_self, hy1] using h1
    rw [hspec] at e1
    simp only [Except.ok.injEq, Prod.mk.injEq] at e1
    rw [← e1.1] at h2
    refine h2.hasDerivAt.congr_deriv ?_
    simp [dotCLM_apply]
  have hb : ∃ starts, blockStarts nt blockSize = .ok starts := by
    unfold blockStarts
    rw [if_neg (by omega), if_neg (by omega)]
    exact ⟨_, rfl⟩
  obtain ⟨starts, hstarts⟩ := hb
  have hany : params.any (fun l => !used l) = false := by
    rw [List.any_eq_false]
    intro l hl
    simp [hused l hl]
  refine ⟨{ param := fun l => if l ∈ params then
              some (∑ j : Fin params.length, if params.get j = l then grad j else 0) else none
            y0 := if y0req then some lam else none }, ?_, ?_, ?_, ?_, ?_⟩
  · unfold backward
    rw [hstarts]
    simp only [hany]
    rw [if_neg (by simp)]
    have : rewind c.scheme d (fun b t y => (rate env b t y, J b t y))
      (fun b t y => Matrix.of fun r (j : Fin params.length) => fp (params.get j) b t y r) nt t Y g blockSize =
        .ok (grad, lam) := hspec
    rw [this]
  · intro l hl
    obtain ⟨j, hj⟩ := List.get_of_mem hl
    refine ⟨grad j, ?_, hpar l j hj⟩
    simp only [if_pos hl]
    rw [sum_get params l grad (grad j) fun i hi => (hpar l i hi).unique (hpar l j hj)]
  · intro l hl
    simp only [if_neg hl]
  · intro hy
    refine ⟨lam, by simp [hy], ?_⟩
    have hten : Tendsto (fun x : β → Fin m → ℝ => (env, x)) (𝓝 (Y 0)) (𝓝 (env, Y 0)) :=
      (continuous_const.prodMk continuous_id).continuousAt
    obtain ⟨grad', lam', h1, h2⟩ := rewind_derivative c.scheme d (fun _ : β → Fin m → ℝ => rate env) J fpM
      (0 : (β → Fin m → ℝ) →L[ℝ] (Fin params.length → ℝ)) nt hnt t (fun x => y (env, x)) (Y 0) blockSize hn g
      (hten.eventually hy3) (fun b => ContinuousLinearMap.proj b)
      (fun b => by
        have : (fun q : β → Fin m → ℝ => y (env, q) 0 b) = fun q => q b := funext fun q => congrFun (hy2 _) b
        rw [this]
        exact hasFDerivAt_apply b (Y 0))
      (fun _ k hk b => by
        obtain ⟨D, hD⟩ := hy4 k hk b
        exact ContinuousAt.comp (f := fun x : β → Fin m → ℝ => (env, x)) (x := Y 0) hD.continuousAt
          (continuous_const.prodMk continuous_id).continuousAt)
      (fun hs k hk b => by
        rw [hy1]
        exact hA hs k hk b)
      (fun k hk b => by
        rw [hy1]
        have hu : HasFDerivAt (fun x : (β → Fin m → ℝ) × (Fin m → ℝ) => (env, x.2))
            ((0 : (β → Fin m → ℝ) × (Fin m → ℝ) →L[ℝ] (P → ℝ)).prod
              (ContinuousLinearMap.snd ℝ (β → Fin m → ℝ) (Fin m → ℝ))) (Y 0, Y k b) :=
          (hasFDerivAt_const env _).prodMk hasFDerivAt_snd
        refine (HasFDerivAt.comp (g := fun x : (P → ℝ) × (Fin m → ℝ) => rate x.1 b (t k b) x.2)
          (Y 0, Y k b) (hR k hk b).hasFDerivAt hu).congr_fderiv ?_
        ext x <;> simp)
    have e1 : rewind c.scheme d f fpM nt t Y g blockSize = .ok (grad', lam') := by
      rw [hy1] at h1; exact h1
    rw [hspec] at e1
    simp only [Except.ok.injEq, Prod.mk.injEq] at e1
    rw [← e1.2] at h2
    simpa using h2
  · intro hy
    simp [hy]


omit [Fintype P] in
/-- **C84.** If a passed parameter does not occur in the rate (and there is at least one step), the backward pass
raises. -/
theorem C84_unused_parameter_raises (c : Config) (d : Direct) (f : Func β m)
    (fp : P → β → ℝ → (Fin m → ℝ) → Fin m → ℝ) (used : P → Bool) (params : List P) (y0req : Bool)
    (nt : ℕ) (hnt : 1 < nt) (t : ℕ → β → ℝ) (Y g : ℕ → β → Fin m → ℝ) (blockSize : ℤ) (hn : 0 < blockSize)
    (l : P) (hl : l ∈ params) (hu : used l = false) :
    backward c d f fp used params y0req nt t Y g blockSize = .error "RuntimeError: unused parameter" := by
  have hb : ∃ starts, blockStarts nt blockSize = .ok starts ∧ starts ≠ [] := by
    unfold blockStarts
    rw [if_neg (by omega), if_neg (by omega)]
    refine ⟨_, rfl, ?_⟩
    have : 0 < (nt - 1 + (blockSize.toNat - 1)) / blockSize.toNat := Nat.div_pos (by omega) (by omega)
    intro h
    have := congrArg List.length h
    simp at this
    omega
  obtain ⟨starts, h1, h2⟩ := hb
  unfold backward
  rw [h1]
  simp only
  rw [if_pos ⟨h2, List.any_eq_true.2 ⟨l, hl, by simp [hu]⟩⟩]

end leaves

/-! ## C85: the front ends -/

omit [Fintype β] in
/-- **C85.** `odeint_adjoint` returns exactly what `odeint` returns for the same arguments: same values, same warnings, same
exceptions — except that it refuses the keyword `adjoint_params`. `odeint` ignores `extra_params`. -/
theorem C85_same_values {P : Type*} (f : BFunc β m) (y0 : BVec β m ℝ) (nt : ℕ) (t : ℕ → β → ℝ) (method : String)
    (extra extra' : List P) (kw : List String) (o : Options) (hkw : "adjoint_params" ∉ kw) :
    odeintAdjoint f y0 nt t method kw o = odeint f y0 nt t method extra kw o ∧
      odeint f y0 nt t method extra kw o = odeint f y0 nt t method extra' kw o := by
  refine ⟨?_, rfl⟩
  have : kw.any (fun k => ["func", "y0", "scheme", "adjoint_params"].contains k) =
      kw.any (fun k => ["func", "y0", "scheme"].contains k) := by
    induction kw with
    | nil => rfl
    | cons k kw ih =>
      simp only [List.mem_cons, not_or] at hkw
      simp only [List.any_cons, ih hkw.2]
      congr 1
      have : k ≠ "adjoint_params" := fun h => hkw.1 h.symm
      simp [this]
  unfold odeintAdjoint odeint makeSolver
  cases intMethods method with
  | error e => rfl
  | ok s =>
    simp only
    rw [this]

omit [Fintype β] in
/-- **C85.** Which calls are refused before anything is integrated: an unknown `method`, the keyword `scheme` (documented, but
passed by the front end itself), any keyword that is not a parameter of the solver, an unknown linear or
direct solver name. Every call that is not refused is an integration with the options given. -/
theorem C85_accepted_iff {P : Type*} (f : BFunc β m) (y0 : BVec β m ℝ) (nt : ℕ) (t : ℕ → β → ℝ) (method : String)
    (extra : List P) (kw : List String) (o : Options) :
    if (method = "backward-euler" ∨ method = "forward-euler") ∧
        (∀ k ∈ kw, k ∈ ["block_size", "rtol", "atol", "miter", "linear_solve_method", "direct_solve_method",
          "direct_solve_min_size", "adjoint_params", "guess_type", "throw_on_fail"]) ∧
        (o.linear = "dense" ∨ o.linear = "direct") ∧ (o.direct = "thomas" ∨ o.direct = "pcr" ∨ o.direct = "hybrid")
    then ∃ c : Config, odeint f y0 nt t method extra kw o = integrate c f y0 nt t o.blockSize ∧
        c.scheme = (if method = "backward-euler" then .backwardEuler else .forwardEuler) ∧
        solveMethodOfStrings o.linear o.direct o.minSize = .ok c.method ∧ c.rtol = o.rtol ∧ c.atol = o.atol ∧
        c.miter = o.miter ∧ c.throwOnFail = o.throwOnFail ∧ c.guessType = o.guess
    else ∃ e, odeint f y0 nt t method extra kw o = .error e := by
  by_cases hm : method = "backward-euler" ∨ method = "forward-euler"
  · obtain ⟨s, hs, hs'⟩ : ∃ s, intMethods method = .ok s ∧
        s = (if method = "backward-euler" then .backwardEuler else .forwardEuler) := by
      rcases hm with rfl | rfl
      · exact ⟨.backwardEuler, rfl, rfl⟩
      · exact ⟨.forwardEuler, rfl, rfl⟩
    by_cases hk : ∀ k ∈ kw, k ∈ ["block_size", "rtol", "atol", "miter", "linear_solve_method", "direct_solve_method",
          "direct_solve_min_size", "adjoint_params", "guess_type", "throw_on_fail"]
    · have h1 : kw.any (fun k => ["func", "y0", "scheme"].contains k) = false := by
        rw [List.any_eq_false]
        intro k hk1 h
        have := hk k hk1
        simp only [List.contains_eq_mem, List.mem_cons, List.not_mem_nil, or_false, decide_eq_true_eq] at h this
        rcases h with rfl | rfl | rfl <;> simp at this
      have h2 : kw.any (fun k => !solverKeywords.contains k) = false := by
        rw [List.any_eq_false]
        intro k hk1 h
        have := hk k hk1
        simp only [List.mem_cons, List.not_mem_nil, or_false] at this
        rcases this with rfl | rfl | rfl | rfl | rfl | rfl | rfl | rfl | rfl | rfl <;> simp [solverKeywords] at h
      have ho : odeint f y0 nt t method extra kw o = match solveMethodOfStrings o.linear o.direct o.minSize with
          | .error e => .error e
          | .ok meth => integrate { scheme := s, method := meth, rtol := o.rtol, atol := o.atol, miter := o.miter, throwOnFail := o.throwOnFail, guessType := o.guess } f y0 nt t o.blockSize := by
        unfold odeint makeSolver
        rw [hs]
        simp only
        rw [h1, h2]
        cases solveMethodOfStrings o.linear o.direct o.minSize <;> rfl
      by_cases hl : (o.linear = "dense" ∨ o.linear = "direct") ∧ (o.direct = "thomas" ∨ o.direct = "pcr" ∨ o.direct = "hybrid")
      · rw [if_pos ⟨hm, hk, hl⟩]
        have : ∃ meth, solveMethodOfStrings o.linear o.direct o.minSize = .ok meth := by
          unfold solveMethodOfStrings contextOfString directOfString
          rcases hl with ⟨h1 | h1, h2 | h2 | h2⟩ <;> rw [h1, h2] <;> exact ⟨_, rfl⟩
        obtain ⟨meth, hmeth⟩ := this
        rw [ho, hmeth]
        exact ⟨_, rfl, hs', rfl, rfl, rfl, rfl, rfl, rfl⟩
      · rw [if_neg (fun h => hl h.2.2)]
        have : ∃ e, solveMethodOfStrings o.linear o.direct o.minSize = .error e := by
          unfold solveMethodOfStrings contextOfString directOfString
          by_cases h1 : o.linear = "dense" ∨ o.linear = "direct"
          · have h2 : ¬ (o.direct = "thomas" ∨ o.direct = "pcr" ∨ o.direct = "hybrid") := fun h => hl ⟨h1, h⟩
            push Not at h2
            rcases h1 with h1 | h1 <;> simp [h1, h2] <;> exact ⟨_, rfl⟩
          · push Not at h1
            simp [h1]
            exact ⟨_, rfl⟩
        obtain ⟨e, he⟩ := this
        rw [ho, he]
        exact ⟨e, rfl⟩
    · rw [if_neg (fun h => hk h.2.1)]
      push Not at hk
      obtain ⟨k, hk1, hk2⟩ := hk
      unfold odeint makeSolver
      rw [hs]
      simp only
      by_cases h1 : kw.any (fun k => ["func", "y0", "scheme"].contains k) = true
      · rw [if_pos h1]
        exact ⟨_, rfl⟩
      · rw [if_neg h1, if_pos]
        · exact ⟨_, rfl⟩
        · rw [List.any_eq_true]
          refine ⟨k, hk1, ?_⟩
          rw [Bool.not_eq_true, List.any_eq_false] at h1
          have h1 := h1 k hk1
          simp only [List.contains_eq_mem, List.mem_cons, List.not_mem_nil, or_false, decide_eq_true_eq, not_or] at h1 hk2
          simp [solverKeywords, h1, hk2]
  · rw [if_neg (fun h => hm h.1)]
    push Not at hm
    unfold odeint makeSolver intMethods
    rw [if_neg hm.1, if_neg hm.2]
    exact ⟨_, rfl⟩


/-! ## C86: gradients of actual solver runs -/

private theorem tendsto_of_l2 {ι : Type*} {l : Filter ι} {x : ι → Fin m → ℝ} {y : Fin m → ℝ} {e : ι → ℝ}
    (h : ∀ i, l2 (x i - y) ≤ e i) (he : Tendsto e l (𝓝 0)) : Tendsto x l (𝓝 y) := by
  refine tendsto_pi_nhds.2 fun j => ?_
  have h1 : ∀ i, |x i j - y j| ≤ e i := by
    intro i
    refine le_trans ?_ (h i)
    unfold l2
    rw [← Real.sqrt_sq_eq_abs]
    exact Real.sqrt_le_sqrt (Finset.single_le_sum (f := fun k => (x i - y) k ^ 2) (fun k _ => sq_nonneg _)
      (Finset.mem_univ j))
  have h2 : Tendsto (fun i => x i j - y j) l (𝓝 0) := squeeze_zero_norm h1 he
  have := h2.add_const (y j)
  simpa using this

/-- **C86.** Backward Euler. Take any collection of unwarned runs (indexed by `i`, along a filter) from the same initial
condition, with any tolerances, block sizes, linear solvers, guesses and iteration limits, such that what the
tolerances permit (`δ i`) tends to zero. Then the returned histories tend to the exact discrete trajectory `Y`,
and the gradients `rewind` computes from the returned histories tend to the exact gradient of the perturbed
trajectories. Hypotheses: the rates satisfy a one-sided Lipschitz condition, with steps `≤ 1/(2ν)`; the rate is strictly
differentiable along `Y`, with derivatives continuous in the state, and the step matrices are invertible. -/
theorem C86_backward (rate : (Fin p → ℝ) → β → ℝ → (Fin m → ℝ) → Fin m → ℝ)
    (J : β → ℝ → (Fin m → ℝ) → Matrix (Fin m) (Fin m) ℝ)
    (fp : β → ℝ → (Fin m → ℝ) → Matrix (Fin m) (Fin p) ℝ)
    (nt : ℕ) (hnt : 0 < nt) (t : ℕ → β → ℝ) (Y : ℕ → β → Fin m → ℝ) (p0 : Fin p → ℝ)
    (g : ℕ → β → Fin m → ℝ) (hY : IsBackwardEuler (rate p0) nt t Y)
    (hA : ∀ k, k + 1 < nt → ∀ b, IsUnit (1 - (t (k + 1) b - t k b) • J b (t (k + 1) b) (Y (k + 1) b)).det)
    (hR : ∀ k < nt, ∀ b, HasStrictFDerivAt (fun x : (Fin p → ℝ) × (Fin m → ℝ) => rate x.1 b (t k b) x.2)
      ((matCLM (fp b (t k b) (Y k b))).coprod (matCLM (J b (t k b) (Y k b)))) (p0, Y k b))
    (hJ : ∀ k < nt, ∀ b, ContinuousAt (J b (t k b)) (Y k b)) (hfp : ∀ k < nt, ∀ b, ContinuousAt (fp b (t k b)) (Y k b))
    (ht : ∀ k, k + 1 < nt → ∀ b, t k b ≤ t (k + 1) b) (nu : ℝ) (hnu : 0 ≤ nu)
    (hnuh : ∀ k, k + 1 < nt → ∀ b, nu * (t (k + 1) b - t k b) ≤ 1 / 2)
    (hF : ∀ k, k + 1 < nt → ∀ b, OneSided (rate p0 b (t (k + 1) b)) nu)
    {ι : Type*} (l : Filter ι) (c : ι → Config) (hs : ∀ i, (c i).scheme = .backwardEuler) (hm : ∀ i, 0 ≤ (c i).miter)
    (d : ι → Direct) (n : ι → ℤ) (hn : ∀ i, 0 < n i) (res : ι → Partial β m) (δ : ι → ℝ)
    (hrun : ∀ i, integrate (c i) (Func.lift fun b t y => (rate p0 b t y, J b t y)) (Y 0) nt t (n i) = .ok (res i, false))
    (htol : ∀ i b, ToleranceBound (c i) (fun b t y => (rate p0 b t y, J b t y)) nt t (res i).get b (δ i))
    (hδ : Tendsto δ l (𝓝 0)) :
    (∀ k < nt, ∀ b, Tendsto (fun i => (res i).get k b) l (𝓝 (Y k b))) ∧
    ∃ y : (Fin p → ℝ) → (β → Fin m → ℝ) → ℕ → β → Fin m → ℝ,
      y p0 (Y 0) = Y ∧ (∀ q x, y q x 0 = x) ∧
      (∀ᶠ v in 𝓝 (p0, Y 0), IsBackwardEuler (rate v.1) nt t (y v.1 v.2)) ∧
      ∃ grad lam gradn lamn,
        (∀ᶠ i in l, rewind .backwardEuler (d i) (fun b t y => (rate p0 b t y, J b t y)) fp nt t (res i).get g (n i)
          = .ok (gradn i, lamn i)) ∧
        Tendsto gradn l (𝓝 grad) ∧ Tendsto lamn l (𝓝 lam) ∧
        HasFDerivAt (fun v : (Fin p → ℝ) × (β → Fin m → ℝ) =>
          ∑ k ∈ Finset.range nt, ∑ b, g k b ⬝ᵥ y v.1 v.2 k b) (totalGrad grad lam) (p0, Y 0) := by
  have hres : ∀ k < nt, ∀ b, Tendsto (fun i => (res i).get k b) l (𝓝 (Y k b)) := by
    intro k hk b
    refine tendsto_of_l2 (e := fun i => Real.exp (2 * nu * (t k b - t 0 b)) * (k * δ i)) (fun i => ?_) ?_
    · obtain ⟨-, f2⟩ := C14_every_time_filled _ _ _ nt t _ (hn i) (res i) false (hrun i)
      have g0 : (res i).get 0 b = Y 0 b := by simp only [Partial.get]; rw [f2]; rfl
      have main := backward_compare (F := fun k y => rate p0 b (t k b) y) hnu (K := nt - 1) (t := fun k => t k b)
        (fun k hk => ht k (by omega) b) (fun k hk => hF k (by omega) b) (fun k hk => hnuh k (by omega) b)
        (x := fun k => (res i).get k b) (y := fun k => Y k b) (dx := fun _ => δ i) (dy := fun _ => 0)
        (fun k hk => by
          have := step_defect_le (c i) (hm i) _ _ nt t (n i) (hn i) (res i) (hrun i) b (fun k hk => ht k hk b)
            (htol i b) k (by omega)
          rw [hs i] at this
          exact this)
        (fun k hk => by
          have e := hY k b (by omega)
          have : Y (k + 1) b - Y k b - (t (k + 1) b - t k b) • rate p0 b (t (k + 1) b) (Y (k + 1) b) = 0 := by
            rw [sub_sub, ← e, sub_self]
          rw [this, l2_zero]) k (by omega)
      beta_reduce at main
      rw [g0, sub_self, l2_zero, Finset.sum_const, Finset.card_range, nsmul_eq_mul, zero_add, add_zero] at main
      exact main
    · have := (hδ.const_mul (k : ℝ)).const_mul (Real.exp (2 * nu * (t k b - t 0 b)))
      simpa using this
  refine ⟨hres, ?_⟩
  obtain ⟨y, y1, y2, y3, -, grad', lam', y4, y5⟩ := C83_backward .thomas rate J fp nt hnt t Y p0 1 one_pos g hY hA hR
  obtain ⟨grad, lam, r1, gradn, lamn, r2, r3, r4⟩ := rewind_tendsto .backwardEuler d
    (fun b t y => (rate p0 b t y, J b t y)) fp nt hnt t g n hn (fun i => (res i).get) Y hres hJ hfp (fun _ => hA)
  have := (r1 .thomas 1 one_pos).symm.trans y4
  simp only [Except.ok.injEq, Prod.mk.injEq] at this
  obtain ⟨rfl, rfl⟩ := this
  exact ⟨y, y1, y2, y3, grad, lam, gradn, lamn, r2, r3, r4, y5.2⟩

/-- The scalar `∑ ⟨g, result⟩` of what an integration returned (zero if it raised). -/
def lossOf (nt : ℕ) (g : ℕ → β → Fin m → ℝ) (r : Except String (Partial β m × Bool)) : ℝ :=
  match r with
  | .ok (res, _) => ∑ k ∈ Finset.range nt, ∑ b, g k b ⬝ᵥ res.get k b
  | .error _ => 0

/-- **C86.** Forward Euler, end to end, for every right hand side: with zero tolerances and enough updates
(`block_size < miter`), the integration returns for all parameters and initial conditions, and the gradient `rewind` computes from
the returned history is exactly the gradient of `∑ ⟨g, returned history⟩` as a function of parameters and initial
condition, wherever the rate is strictly differentiable along that history with the reported Jacobian. -/
theorem C86_forward_end_to_end (c : Config) (hs : c.scheme = .forwardEuler) (hr : c.rtol = 0) (ha : c.atol = 0)
    (d : Direct) (rate : (Fin p → ℝ) → β → ℝ → (Fin m → ℝ) → Fin m → ℝ)
    (J : (Fin p → ℝ) → β → ℝ → (Fin m → ℝ) → Matrix (Fin m) (Fin m) ℝ)
    (fp : β → ℝ → (Fin m → ℝ) → Matrix (Fin m) (Fin p) ℝ)
    (nt : ℕ) (hnt : 0 < nt) (t : ℕ → β → ℝ) (n : ℤ) (hn : 0 < n) (hm : n < c.miter)
    (hg : c.guessType = "zero" ∨ (c.guessType = "previous" ∧ n ≤ (nt : ℤ) - 1))
    (p0 : Fin p → ℝ) (y0 : β → Fin m → ℝ) (g : ℕ → β → Fin m → ℝ) (res : Partial β m) (w : Bool)
    (hres : integrate c (Func.lift fun b t y => (rate p0 b t y, J p0 b t y)) y0 nt t n = .ok (res, w))
    (hR : ∀ k < nt, ∀ b, HasStrictFDerivAt (fun x : (Fin p → ℝ) × (Fin m → ℝ) => rate x.1 b (t k b) x.2)
      ((matCLM (fp b (t k b) (res.get k b))).coprod (matCLM (J p0 b (t k b) (res.get k b)))) (p0, res.get k b)) :
    ∃ grad lam, rewind .forwardEuler d (fun b t y => (rate p0 b t y, J p0 b t y)) fp nt t res.get g n = .ok (grad, lam) ∧
      HasFDerivAt (fun v : (Fin p → ℝ) × (β → Fin m → ℝ) =>
        lossOf nt g (integrate c (Func.lift fun b t y => (rate v.1 b t y, J v.1 b t y)) v.2 nt t n))
        (totalGrad grad lam) (p0, y0) := by
  have key : ∀ q x, ∃ r : Partial β m, integrate c (Func.lift fun b t y => (rate q b t y, J q b t y)) x nt t n
      = .ok (r, false) ∧ r 0 = some x ∧ IsForwardEuler (rate q) nt t r.get := fun q x =>
    C16_integrate_is_explicit_euler c hs hr ha (fun b t y => (rate q b t y, J q b t y)) x nt hnt t n hn hm hg
  choose r h1 h2 h3 using key
  have e : r p0 y0 = res := by
    have := (h1 p0 y0).symm.trans hres
    simp only [Except.ok.injEq, Prod.mk.injEq] at this
    exact this.1
  obtain ⟨grad, lam, a1, a2⟩ := C83_forward d rate (J p0) fp nt hnt t (fun q x => (r q x).get) p0 y0 n hn g
    (fun q x => ⟨h3 q x, by simp only [Partial.get]; rw [h2]; rfl⟩) (by rw [e]; exact hR)
  rw [e] at a1
  refine ⟨grad, lam, a1, a2.2.congr_of_eventuallyEq (Eventually.of_forall fun v => ?_)⟩
  simp only [h1, lossOf]

/-- **C86.** Backward Euler, end to end, for rates that are affine in the state (`y' = M(p, t) y + c(p, t)`): with zero
tolerances and two allowed updates, the gradient `rewind` computes from the returned history is exactly the gradient of
`∑ ⟨g, returned history⟩`, if `M` and `c` depend differentiably on the parameters and the step matrices are invertible. -/
theorem C86_backward_linear_end_to_end (cfg : Config) (hs : cfg.scheme = .backwardEuler) (hr : cfg.rtol = 0)
    (ha : cfg.atol = 0) (hm : 2 ≤ cfg.miter) (d : Direct)
    (M : (Fin p → ℝ) → β → ℝ → Matrix (Fin m) (Fin m) ℝ) (c : (Fin p → ℝ) → β → ℝ → Fin m → ℝ)
    (fp : β → ℝ → (Fin m → ℝ) → Matrix (Fin m) (Fin p) ℝ)
    (nt : ℕ) (hnt : 0 < nt) (t : ℕ → β → ℝ) (n : ℤ) (hn : 0 < n)
    (hg : cfg.guessType = "zero" ∨ (cfg.guessType = "previous" ∧ n ≤ (nt : ℤ) - 1))
    (p0 : Fin p → ℝ) (y0 : β → Fin m → ℝ) (g : ℕ → β → Fin m → ℝ) (res : Partial β m) (w : Bool)
    (hres : integrate cfg (Func.lift fun b t y => ((M p0 b t).mulVec y + c p0 b t, M p0 b t)) y0 nt t n = .ok (res, w))
    (hA : ∀ k b, k + 1 < nt → IsUnit (1 - (t (k + 1) b - t k b) • M p0 b (t (k + 1) b)).det)
    (hMc : ∀ k < nt, ∀ b, ContinuousAt (fun q => M q b (t k b)) p0)
    (hR : ∀ k < nt, ∀ b, HasStrictFDerivAt
      (fun x : (Fin p → ℝ) × (Fin m → ℝ) => (M x.1 b (t k b)).mulVec x.2 + c x.1 b (t k b))
      ((matCLM (fp b (t k b) (res.get k b))).coprod (matCLM (M p0 b (t k b)))) (p0, res.get k b)) :
    ∃ grad lam, rewind .backwardEuler d (fun b t y => ((M p0 b t).mulVec y + c p0 b t, M p0 b t)) fp nt t res.get g n
        = .ok (grad, lam) ∧
      HasFDerivAt (fun v : (Fin p → ℝ) × (β → Fin m → ℝ) =>
        lossOf nt g (integrate cfg (Func.lift fun b t y => ((M v.1 b t).mulVec y + c v.1 b t, M v.1 b t)) v.2 nt t n))
        (totalGrad grad lam) (p0, y0) := by
  have key : ∀ q x, (∀ k b, k + 1 < nt → IsUnit (1 - (t (k + 1) b - t k b) • M q b (t (k + 1) b)).det) →
      ∃ r : Partial β m, integrate cfg (Func.lift fun b t y => ((M q b t).mulVec y + c q b t, M q b t)) x nt t n
      = .ok (r, false) ∧ r 0 = some x ∧ IsBackwardEuler (fun b t y => (M q b t).mulVec y + c q b t) nt t r.get :=
    fun q x hq => C18_linear_integrate_exact cfg hs hr ha hm (M q) (c q) x nt hnt t n hn hg hq
  have h0 : res 0 = some y0 ∧ IsBackwardEuler (fun b t y => (M p0 b t).mulVec y + c p0 b t) nt t res.get := by
    obtain ⟨r, h1, h2⟩ := key p0 y0 hA
    have := h1.symm.trans hres
    simp only [Except.ok.injEq, Prod.mk.injEq] at this
    rw [← this.1]
    exact h2
  have g0 : res.get 0 = y0 := by simp only [Partial.get]; rw [h0.1]; rfl
  obtain ⟨y, y1, y2, y3, -, grad, lam, y4, y5⟩ := C83_backward d (fun q b t y => (M q b t).mulVec y + c q b t)
    (fun b t _ => M p0 b t) fp nt hnt t res.get p0 n hn g h0.2 (fun k hk b => hA k b hk) hR
  rw [g0] at y1 y3 y5
  refine ⟨grad, lam, y4, y5.2.congr_of_eventuallyEq ?_⟩
  have hinv : ∀ᶠ v : (Fin p → ℝ) × (β → Fin m → ℝ) in 𝓝 (p0, y0), ∀ k < nt, ∀ b, k + 1 < nt →
      IsUnit (1 - (t (k + 1) b - t k b) • M v.1 b (t (k + 1) b)).det := by
    refine (Set.finite_lt_nat nt).eventually_all.2 fun k _ => eventually_all.2 fun b => ?_
    by_cases hk : k + 1 < nt
    · have h1 : ContinuousAt (fun v : (Fin p → ℝ) × (β → Fin m → ℝ) => M v.1 b (t (k + 1) b)) (p0, y0) :=
        ContinuousAt.comp (f := Prod.fst) (x := (p0, y0)) (hMc (k + 1) hk b) continuous_fst.continuousAt
      have hc : Continuous fun M : Matrix (Fin m) (Fin m) ℝ => (1 - (t (k + 1) b - t k b) • M).det :=
        Continuous.matrix_det (continuous_const.sub (continuous_id.fun_const_smul _))
      have h2 := ((hc.tendsto _).comp h1).eventually_ne (hA k b hk).ne_zero
      exact h2.mono fun i hi _ => isUnit_iff_ne_zero.2 hi
    · exact Eventually.of_forall fun i h => absurd h hk
  filter_upwards [hinv, y3] with v hv hy
  obtain ⟨r, h1, h2, h3⟩ := key v.1 v.2 fun k b hk => hv k (by omega) b hk
  rw [h1]
  simp only [lossOf]
  refine Finset.sum_congr rfl fun k hk => Finset.sum_congr rfl fun b _ => ?_
  have : ∀ k, k < nt → r.get k = y v.1 v.2 k := by
    intro k
    induction k with
    | zero => intro _; rw [y2]; simp only [Partial.get]; rw [h2]; rfl
    | succ k ih =>
      intro hk
      funext b
      have e1 := h3 k b hk
      have e2 := hy k b hk
      have hu := hv k (by omega) b hk
      have e3 : ∀ z w : Fin m → ℝ, z = w + (t (k + 1) b - t k b) • ((M v.1 b (t (k + 1) b)).mulVec z + c v.1 b (t (k + 1) b)) →
          (1 - (t (k + 1) b - t k b) • M v.1 b (t (k + 1) b)).mulVec z = w + (t (k + 1) b - t k b) • c v.1 b (t (k + 1) b) := by
        intro z w h
        rw [Matrix.sub_mulVec, Matrix.one_mulVec, Matrix.smul_mulVec, sub_eq_iff_eq_add]
        rw [smul_add] at h
        rw [add_assoc, add_comm ((t (k + 1) b - t k b) • c v.1 b (t (k + 1) b))]
        exact h
      have e4 := (e3 _ _ e1).trans ((congrArg (fun z => z + _) (congrFun (ih (by omega)) b)).trans (e3 _ _ e2).symm)
      have e5 := congrArg ((1 - (t (k + 1) b - t k b) • M v.1 b (t (k + 1) b))⁻¹).mulVec e4
      rwa [Matrix.mulVec_mulVec, Matrix.mulVec_mulVec, Matrix.nonsing_inv_mul _ hu, Matrix.one_mulVec, Matrix.one_mulVec] at e5
  rw [this k (Finset.mem_range.1 hk)]

/-! ## Non-vacuity: `y' = p y` -/

/-- `(q, y) ↦ q y`, one parameter and one unknown, is strictly differentiable. -/
theorem ex_strict (q : Fin 1 → ℝ) (y : Fin 1 → ℝ) :
    HasStrictFDerivAt (fun x : (Fin 1 → ℝ) × (Fin 1 → ℝ) => fun _ : Fin 1 => x.1 0 * x.2 0)
      ((matCLM !![y 0]).coprod (matCLM !![q 0])) (q, y) := by
  rw [hasStrictFDerivAt_pi']
  intro i
  have h1 : HasStrictFDerivAt (fun x : (Fin 1 → ℝ) × (Fin 1 → ℝ) => x.1 0)
      ((ContinuousLinearMap.proj (R := ℝ) (φ := fun _ : Fin 1 => ℝ) 0).comp
        (ContinuousLinearMap.fst ℝ _ _)) (q, y) :=
    ((ContinuousLinearMap.proj (R := ℝ) (φ := fun _ : Fin 1 => ℝ) 0).comp
        (ContinuousLinearMap.fst ℝ (Fin 1 → ℝ) (Fin 1 → ℝ))).hasStrictFDerivAt
  have h2 : HasStrictFDerivAt (fun x : (Fin 1 → ℝ) × (Fin 1 → ℝ) => x.2 0)
      ((ContinuousLinearMap.proj (R := ℝ) (φ := fun _ : Fin 1 => ℝ) 0).comp
        (ContinuousLinearMap.snd ℝ _ _)) (q, y) :=
    ((ContinuousLinearMap.proj (R := ℝ) (φ := fun _ : Fin 1 => ℝ) 0).comp
        (ContinuousLinearMap.snd ℝ (Fin 1 → ℝ) (Fin 1 → ℝ))).hasStrictFDerivAt
  refine (h1.mul h2).congr_fderiv ?_
  ext x <;> simp [matCLM_apply, Matrix.mulVec, dotProduct, Subsingleton.elim i 0]

/-- Backward Euler, `y' = p y` at `p = -1`, unit steps, from 1: the trajectory `2⁻ᵏ` meets the hypotheses of C83. -/
example : ∃ y : (Fin 1 → ℝ) → (Unit → Fin 1 → ℝ) → ℕ → Unit → Fin 1 → ℝ,
    (∀ᶠ v : (Fin 1 → ℝ) × (Unit → Fin 1 → ℝ) in 𝓝 ((fun _ => -1 : Fin 1 → ℝ), (fun _ _ => (1 / 2 : ℝ) ^ 0 : Unit → Fin 1 → ℝ)),
      IsBackwardEuler (fun _ _ (y : Fin 1 → ℝ) _ => (v : (Fin 1 → ℝ) × (Unit → Fin 1 → ℝ)).1 0 * y 0) 5 (fun k _ => (k : ℝ)) (y v.1 v.2)) ∧
    ∃ grad lam, rewind .backwardEuler .pcr (fun (_ : Unit) _ y => ((fun _ => -1 * y 0 : Fin 1 → ℝ), !![(-1 : ℝ)]))
      (fun _ _ y => !![y 0]) 5 (fun k _ => (k : ℝ)) (fun k _ _ => (1 / 2 : ℝ) ^ k) (fun _ _ _ => 1) 3 = .ok (grad, lam) ∧
      HasFDerivAt (fun v : (Fin 1 → ℝ) × (Unit → Fin 1 → ℝ) => ∑ k ∈ Finset.range 5, ∑ b : Unit,
        (fun _ : Fin 1 => (1 : ℝ)) ⬝ᵥ y v.1 v.2 k b) (totalGrad grad lam) (fun _ => -1, fun _ _ => (1 / 2 : ℝ) ^ 0) := by
  obtain ⟨y, -, -, h3, -, grad, lam, h5, -, h6⟩ := C83_backward (β := Unit) (m := 1) (p := 1) .pcr (fun q _ _ y _ => q 0 * y 0)
    (fun _ _ _ => !![-1]) (fun _ _ y => !![y 0]) 5 (by norm_num) (fun k _ => (k : ℝ)) (fun k _ _ => (1 / 2 : ℝ) ^ k)
    (fun _ => -1) 3 (by norm_num) (fun _ _ _ => 1) (by
      intro k b _
      funext i
      simp only [Pi.add_apply, Pi.smul_apply, smul_eq_mul]
      rw [pow_succ]
      push_cast
      ring) (by
      intro k _ b
      rw [isUnit_iff_ne_zero, Matrix.det_fin_one]
      simp) (fun k _ b => ex_strict (fun _ => -1) (fun _ => (1 / 2 : ℝ) ^ k))
  exact ⟨y, h3, grad, lam, h5, h6⟩

/-- The same problem with the parameter passed twice, once as a parameter of `func` and once in `extra_params`: the
reported gradient is twice the derivative. -/
example : ∃ y : (Fin 1 → ℝ) → (Unit → Fin 1 → ℝ) → ℕ → Unit → Fin 1 → ℝ, ∃ G : LeafGrads (Fin 1) Unit 1,
    backward { scheme := .backwardEuler, method := .dense, rtol := 0, atol := 0, miter := 10, throwOnFail := true, guessType := "zero" } .thomas
      (fun (_ : Unit) _ y => ((fun _ => -1 * y 0 : Fin 1 → ℝ), !![(-1 : ℝ)])) (fun _ _ _ y _ => y 0) (fun _ => true)
      (adjointParams [0] (some [0])) true 5 (fun k _ => (k : ℝ)) (fun k _ _ => (1 / 2 : ℝ) ^ k) (fun _ _ _ => 1) 3 = .ok G ∧
    ∃ D : ℝ, G.param 0 = some (2 * D) ∧ HasDerivAt (fun v => ∑ k ∈ Finset.range 5, ∑ b : Unit,
        (fun _ : Fin 1 => (1 : ℝ)) ⬝ᵥ y (Function.update (fun _ => -1) 0 v) (fun _ _ => (1 / 2 : ℝ) ^ 0) k b) D (-1) := by
  obtain ⟨y, -, -, -, G, h1, h2, -⟩ := C84_leaf_gradients (β := Unit) (m := 1) (P := Fin 1)
    { scheme := .backwardEuler, method := .dense, rtol := 0, atol := 0, miter := 10, throwOnFail := true, guessType := "zero" }
    .thomas (fun q _ _ y _ => q 0 * y 0)
    (fun _ _ _ => !![-1]) (fun _ _ _ y _ => y 0) (fun _ => true) (adjointParams [0] (some [0])) true (fun _ _ => rfl) 5
    (by norm_num) (fun k _ => (k : ℝ)) (fun k _ _ => (1 / 2 : ℝ) ^ k)
    (fun _ => -1) 3 (by norm_num) (fun _ _ _ => 1) (by
      intro k b _
      funext i
      simp only [Pi.add_apply, Pi.smul_apply, smul_eq_mul]
      rw [pow_succ]
      push_cast
      ring) (by
      intro _ k _ b
      rw [isUnit_iff_ne_zero, Matrix.det_fin_one]
      simp) (fun k _ b => (ex_strict (fun _ => -1) (fun _ => (1 / 2 : ℝ) ^ k)).congr_fderiv (by
        ext x <;> simp [matCLM_apply, leafCLM_apply, Matrix.mulVec, dotProduct, mul_comm]))
  obtain ⟨D, d1, d2⟩ := h2 0 (by simp [adjointParams])
  refine ⟨y, G, h1, D, ?_, d2⟩
  rw [d1]
  norm_num [adjointParams]

/-- End to end with forward Euler: there is such a run, and its gradient is exact. -/
example : ∃ res w grad lam, integrate (β := Unit) (m := 1)
    { scheme := .forwardEuler, method := .direct .pcr, rtol := 0, atol := 0, miter := 100, throwOnFail := true, guessType := "zero" }
    (Func.lift fun _ _ y => (fun _ => -1 * y 0, !![(-1 : ℝ)])) (fun _ _ => 1) 4 (fun k _ => (k : ℝ) / 2) 2 = .ok (res, w) ∧
    rewind .forwardEuler .thomas (fun (_ : Unit) _ y => (fun _ => -1 * y 0, !![(-1 : ℝ)])) (fun _ _ y => !![y 0]) 4
      (fun k _ => (k : ℝ) / 2) res.get (fun _ _ _ => 1) 2 = .ok (grad, lam) ∧
    HasFDerivAt (fun v : (Fin 1 → ℝ) × (Unit → Fin 1 → ℝ) => lossOf 4 (fun _ _ _ => 1) (integrate
      { scheme := .forwardEuler, method := .direct .pcr, rtol := 0, atol := 0, miter := 100, throwOnFail := true, guessType := "zero" }
      (Func.lift fun _ _ y => (fun _ => v.1 0 * y 0, !![v.1 0])) v.2 4 (fun k _ => (k : ℝ) / 2) 2))
      (totalGrad grad lam) (fun _ => -1, fun _ _ => 1) := by
  obtain ⟨res, h1, -, -⟩ := C16_integrate_is_explicit_euler (β := Unit) (m := 1)
    { scheme := .forwardEuler, method := .direct .pcr, rtol := 0, atol := 0, miter := 100, throwOnFail := true, guessType := "zero" }
    rfl rfl rfl (fun _ _ y => (fun _ => -1 * y 0, !![(-1 : ℝ)])) (fun _ _ => 1) 4 (by norm_num) (fun k _ => (k : ℝ) / 2)
    2 (by norm_num) (by norm_num) (Or.inl rfl)
  obtain ⟨grad, lam, a1, a2⟩ := C86_forward_end_to_end (β := Unit) (m := 1) (p := 1)
    { scheme := .forwardEuler, method := .direct .pcr, rtol := 0, atol := 0, miter := 100, throwOnFail := true, guessType := "zero" }
    rfl rfl rfl .thomas (fun q _ _ y _ => q 0 * y 0) (fun q _ _ _ => !![q 0]) (fun _ _ y => !![y 0]) 4 (by norm_num)
    (fun k _ => (k : ℝ) / 2) 2 (by norm_num) (by norm_num) (Or.inl rfl) (fun _ => -1) (fun _ _ => 1) (fun _ _ _ => 1) res
    false h1 (fun k _ b => ex_strict (fun _ => -1) (res.get k b))
  exact ⟨res, false, grad, lam, h1, a1, a2⟩

private theorem decay_oneSided : OneSided (fun (y : Fin 1 → ℝ) (_ : Fin 1) => (-1 : ℝ) * y 0) 0 := by
  intro x y
  simp only [dotProduct, Finset.univ_unique, Fin.default_eq_zero, Finset.sum_singleton, Pi.sub_apply, zero_mul]
  nlinarith [mul_self_nonneg (x 0 - y 0)]

/-- C86 applies to the decay equation: runs with `atol = 1/(i+1)`, `rtol = 0`. -/
example : ∃ (res : ℕ → Partial Unit 1) (grad : Fin 1 → ℝ) (lam : Unit → Fin 1 → ℝ) (gradn : ℕ → Fin 1 → ℝ) (lamn : ℕ → Unit → Fin 1 → ℝ),
    (∀ i : ℕ, integrate (β := Unit) (m := 1) { scheme := .backwardEuler, method := .direct .thomas, rtol := 0, atol := 1 / ((i : ℝ) + 1), miter := 5, throwOnFail := true, guessType := "zero" }
      (Func.lift fun _ _ y => (fun _ => -1 * y 0, !![(-1 : ℝ)])) (fun _ _ => (1 / 2 : ℝ) ^ 0) 5 (fun k _ => (k : ℝ)) 2 = .ok (res i, false)) ∧
    (∀ᶠ i in atTop, rewind .backwardEuler .pcr (fun (_ : Unit) _ y => (fun _ => -1 * y 0, !![(-1 : ℝ)])) (fun _ _ y => !![y 0]) 5
      (fun k _ => (k : ℝ)) (res i).get (fun _ _ _ => 1) 2 = .ok (gradn i, lamn i)) ∧
    Tendsto gradn atTop (𝓝 grad) ∧ Tendsto lamn atTop (𝓝 lam) := by
  have hrun : ∀ i : ℕ, ∃ res, integrate (β := Unit) (m := 1) { scheme := .backwardEuler, method := .direct .thomas, rtol := 0, atol := 1 / ((i : ℝ) + 1), miter := 5, throwOnFail := true, guessType := "zero" }
      (Func.lift fun _ _ y => (fun _ => -1 * y 0, !![(-1 : ℝ)])) (fun _ _ => (1 / 2 : ℝ) ^ 0) 5 (fun k _ => (k : ℝ)) 2 = .ok (res, false) := by
    intro i
    have e : (fun (_ : Unit) (_ : ℝ) (y : Fin 1 → ℝ) => ((fun _ => -1 * y 0 : Fin 1 → ℝ), !![(-1 : ℝ)])) =
        fun _ _ y => ((!![(-1 : ℝ)] : Matrix (Fin 1) (Fin 1) ℝ).mulVec y + 0, !![(-1 : ℝ)]) := by
      funext b s y
      refine Prod.ext (funext fun j => ?_) rfl
      simp [Matrix.mulVec, dotProduct]
    rw [e]
    exact C18_linear_succeeds (β := Unit) (m := 1) _ (by positivity) (by norm_num) (fun _ _ => !![(-1 : ℝ)]) (fun _ _ => 0) _ 5 (by norm_num)
      (fun k _ => (k : ℝ)) 2 (by norm_num) (Or.inl rfl) (fun _ k b _ => by
        rw [isUnit_iff_ne_zero, Matrix.det_fin_one]
        norm_num)
  choose res hres using hrun
  obtain ⟨-, y, -, -, -, grad, lam, gradn, lamn, h1, h2, h3, -⟩ := C86_backward (β := Unit) (m := 1) (p := 1)
    (fun q _ _ y _ => q 0 * y 0) (fun _ _ _ => !![-1]) (fun _ _ y => !![y 0]) 5 (by norm_num) (fun k _ => (k : ℝ))
    (fun k _ _ => (1 / 2 : ℝ) ^ k) (fun _ => -1) (fun _ _ _ => 1) (by
      intro k b _
      funext i
      simp only [Pi.add_apply, Pi.smul_apply, smul_eq_mul]
      rw [pow_succ]
      push_cast
      ring) (by
      intro k _ b
      rw [isUnit_iff_ne_zero, Matrix.det_fin_one]
      simp) (fun k _ b => ex_strict (fun _ => -1) (fun _ => (1 / 2 : ℝ) ^ k)) (fun k _ b => continuousAt_const) (fun k _ b => by
      have : Continuous fun y : Fin 1 → ℝ => !![y 0] :=
        continuous_matrix fun i j => by
          simp only [Matrix.of_apply, Matrix.cons_val', Matrix.cons_val_fin_one]
          fin_cases i
          exact continuous_apply 0
      exact this.continuousAt) (fun k _ b => by push_cast; linarith) 0 le_rfl (fun k _ b => by norm_num)
      (fun k _ b => decay_oneSided) atTop _ (fun i => rfl) (fun i => by norm_num) (fun _ => .pcr) (fun _ => 2)
      (fun _ => by norm_num) res (fun i : ℕ => 1 / ((i : ℝ) + 1)) hres
      (fun i b => ⟨by positivity, le_rfl, Or.inl rfl⟩) tendsto_one_div_add_atTop_nhds_zero_nat
  exact ⟨res, grad, lam, gradn, lamn, hres, h1, h2, h3⟩

/-- A misspelt option and the documented `scheme` keyword are both refused. -/
example (f : BFunc Unit 1) (y0 : BVec Unit 1 ℝ) :
    (∃ e, odeint f y0 2 (fun k _ => k) "backward-euler" ([] : List Unit) ["scheme"] {} = .error e) ∧
    (∃ e, odeint f y0 2 (fun k _ => k) "backward-euler" ([] : List Unit) ["blocksize"] {} = .error e) := by
  refine ⟨?_, ?_⟩
  · have := C85_accepted_iff f y0 2 (fun k _ => k) "backward-euler" ([] : List Unit) ["scheme"] {}
    rwa [if_neg (by simp)] at this
  · have := C85_accepted_iff f y0 2 (fun k _ => k) "backward-euler" ([] : List Unit) ["blocksize"] {}
    rwa [if_neg (by simp)] at this

end Pyoptmat.Props
