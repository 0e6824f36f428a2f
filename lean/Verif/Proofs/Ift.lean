import Verif.Proofs.AdjointDeriv
import Mathlib.Analysis.Calculus.ImplicitFunction.ProdDomain

/-! Helper lemmas: perturbed trajectories exist, are locally unique and differentiable (implicit function theorem). -/

namespace Pyoptmat.Ode

open Pyoptmat.Chunktime Pyoptmat.Newton Pyoptmat.Spec Filter Topology

section step
variable {E F : Type*} [NormedAddCommGroup E] [NormedSpace ℝ E] [CompleteSpace E]
  [NormedAddCommGroup F] [NormedSpace ℝ F] [CompleteSpace F]

/-- One implicit step: near `q0` the equation `z = w q + dt R(q, z)` has exactly one solution near `z0`. -/
theorem implicit_step_exists {w : E → F} {R : E × F → F} {q0 : E} {z0 : F} {W A : E →L[ℝ] F} {B : F →L[ℝ] F}
    (dt : ℝ) (h0 : z0 = w q0 + dt • R (q0, z0)) (hw : HasStrictFDerivAt w W q0)
    (hR : HasStrictFDerivAt R (A.coprod B) (q0, z0))
    (hC : (ContinuousLinearMap.id ℝ F - dt • B).IsInvertible) :
    ∃ z : E → F, z q0 = z0 ∧ (∃ Z : E →L[ℝ] F, HasStrictFDerivAt z Z q0) ∧
      (∀ᶠ q in 𝓝 q0, z q = w q + dt • R (q, z q)) ∧
      ∀ᶠ v : E × F in 𝓝 (q0, z0), v.2 = w v.1 + dt • R v → v.2 = z v.1 := by
  have hG : HasStrictFDerivAt (fun v : E × F => v.2 - w v.1 - dt • R v)
      (ContinuousLinearMap.snd ℝ E F - W.comp (ContinuousLinearMap.fst ℝ E F) - dt • A.coprod B) (q0, z0) :=
    (hasStrictFDerivAt_snd.sub (HasStrictFDerivAt.comp (q0, z0) (f := Prod.fst) hw hasStrictFDerivAt_fst)).sub
      (hR.const_smul dt)
  have hinv : ((ContinuousLinearMap.snd ℝ E F - W.comp (ContinuousLinearMap.fst ℝ E F) - dt • A.coprod B) ∘L
      .inr ℝ E F).IsInvertible := by
    convert hC using 1
    ext x
    simp
  have hG0 : (fun v : E × F => v.2 - w v.1 - dt • R v) (q0, z0) = 0 := by
    show z0 - w q0 - dt • R (q0, z0) = 0
    rw [sub_sub, ← h0, sub_self]
  have hz := (hG.eventually_apply_eq_iff_implicitFunctionOfProdDomain hinv)
  refine ⟨hG.implicitFunctionOfProdDomain hinv, hz.self_of_nhds.1 rfl,
    ⟨_, hG.hasStrictFDerivAt_implicitFunctionOfProdDomain hinv⟩, ?_, ?_⟩
  · filter_upwards [hG.eventually_apply_implicitFunctionOfProdDomain hinv] with q hq
    have hq' := sub_eq_zero.1 (hq.trans hG0)
    exact (sub_eq_iff_eq_add'.1 hq')
  · filter_upwards [hz] with v hv h
    refine (hv.1 ?_).symm
    refine Eq.trans ?_ hG0.symm
    show v.2 - w v.1 - dt • R v = 0
    rw [sub_sub, ← h, sub_self]

end step

variable {β : Type*} [Finite β] {m : ℕ}

theorem matCLM_isInvertible (dt : ℝ) (J : Matrix (Fin m) (Fin m) ℝ) (h : IsUnit (1 - dt • J).det) :
    (ContinuousLinearMap.id ℝ (Fin m → ℝ) - dt • matCLM J).IsInvertible := by
  have e : ContinuousLinearMap.id ℝ (Fin m → ℝ) - dt • matCLM J = matCLM (1 - dt • J) := by
    ext x i
    simp [matCLM_apply, Matrix.sub_mulVec, Matrix.smul_mulVec]
  rw [e]
  refine ⟨ContinuousLinearEquiv.equivOfInverse (matCLM (1 - dt • J)) (matCLM (1 - dt • J)⁻¹) ?_ ?_, rfl⟩
  · intro x
    rw [matCLM_apply, matCLM_apply, Matrix.mulVec_mulVec, Matrix.nonsing_inv_mul _ h, Matrix.one_mulVec]
  · intro x
    rw [matCLM_apply, matCLM_apply, Matrix.mulVec_mulVec, Matrix.mul_nonsing_inv _ h, Matrix.one_mulVec]

variable {E : Type*} [NormedAddCommGroup E] [NormedSpace ℝ E] [CompleteSpace E]

/-- Right hand side of one step. -/
def stepRhs (s : Scheme) (dt : ℝ) (r0 r1 : (Fin m → ℝ) → Fin m → ℝ) (w z : Fin m → ℝ) : Fin m → ℝ :=
  match s with
  | .backwardEuler => w + dt • r1 z
  | .forwardEuler => w + dt • r0 w

/-- Perturbed trajectories: existence, differentiability, local uniqueness. -/
theorem trajectory_exists (s : Scheme) (R : E → β → ℝ → (Fin m → ℝ) → Fin m → ℝ)
    (J : β → ℝ → (Fin m → ℝ) → Matrix (Fin m) (Fin m) ℝ) (A : ℕ → β → E →L[ℝ] (Fin m → ℝ))
    (nt : ℕ) (t : ℕ → β → ℝ) (Y : ℕ → β → Fin m → ℝ) (q0 : E) (hY : IsTrajectory s (R q0) nt t Y)
    (y0 : E → β → Fin m → ℝ) (hy0 : y0 q0 = Y 0) (hd0 : ∀ b, ∃ D : E →L[ℝ] (Fin m → ℝ), HasStrictFDerivAt (fun q => y0 q b) D q0)
    (hA : s = .backwardEuler → ∀ k, k + 1 < nt → ∀ b,
      IsUnit (1 - (t (k + 1) b - t k b) • J b (t (k + 1) b) (Y (k + 1) b)).det)
    (hR : ∀ k < nt, ∀ b, HasStrictFDerivAt (fun x : E × (Fin m → ℝ) => R x.1 b (t k b) x.2)
      ((A k b).coprod (matCLM (J b (t k b) (Y k b)))) (q0, Y k b)) :
    ∃ y : E → ℕ → β → Fin m → ℝ, (∀ k < nt, y q0 k = Y k) ∧ (∀ q, y q 0 = y0 q) ∧
      (∀ᶠ q in 𝓝 q0, IsTrajectory s (R q) nt t (y q)) ∧
      (∀ k < nt, ∀ b, ∃ D : E →L[ℝ] (Fin m → ℝ), HasStrictFDerivAt (fun q => y q k b) D q0) ∧
      ∀ y' : E → ℕ → β → Fin m → ℝ, (∀ᶠ q in 𝓝 q0, IsTrajectory s (R q) nt t (y' q)) →
        (∀ᶠ q in 𝓝 q0, y' q 0 = y0 q) → (∀ k < nt, y' q0 k = Y k) →
        (∀ k < nt, ∀ b, ContinuousAt (fun q => y' q k b) q0) →
        ∀ᶠ q in 𝓝 q0, ∀ k < nt, y' q k = y q k := by
  -- one step of the recursion
  have hstep : ∀ k, k + 1 < nt → ∀ b, ∀ w : E → Fin m → ℝ, w q0 = Y k b → (∃ D : E →L[ℝ] (Fin m → ℝ), HasStrictFDerivAt w D q0) →
      ∃ z : E → Fin m → ℝ, z q0 = Y (k + 1) b ∧ (∃ Z : E →L[ℝ] (Fin m → ℝ), HasStrictFDerivAt z Z q0) ∧
        (∀ᶠ q in 𝓝 q0, z q = stepRhs s (t (k + 1) b - t k b) (R q b (t k b)) (R q b (t (k + 1) b)) (w q) (z q)) ∧
        ∀ᶠ v : E × (Fin m → ℝ) in 𝓝 (q0, Y (k + 1) b), (v.2 = stepRhs s (t (k + 1) b - t k b) (R v.1 b (t k b)) (R v.1 b (t (k + 1) b)) (w v.1) (v.2)) → v.2 = z v.1 := by
    intro k hk b w hw0 hw
    obtain ⟨D, hD⟩ := hw
    cases s with
    | backwardEuler =>
      have hYk : Y (k + 1) b = Y k b + (t (k + 1) b - t k b) • R q0 b (t (k + 1) b) (Y (k + 1) b) := hY k b hk
      exact implicit_step_exists (R := fun x => R x.1 b (t (k + 1) b) x.2) (t (k + 1) b - t k b)
        (by rw [hw0]; exact hYk) hD (hR (k + 1) hk b) (matCLM_isInvertible _ _ (hA rfl k hk b))
    | forwardEuler =>
      have hYk : Y (k + 1) b = Y k b + (t (k + 1) b - t k b) • R q0 b (t k b) (Y k b) := hY k b hk
      have h1 : HasStrictFDerivAt (fun q => R q b (t k b) (w q)) _ q0 :=
        HasStrictFDerivAt.comp (g := fun x : E × (Fin m → ℝ) => R x.1 b (t k b) x.2) q0
          (by rw [hw0]; exact hR k (by omega) b) ((hasStrictFDerivAt_id q0).prodMk hD)
      refine ⟨fun q => w q + (t (k + 1) b - t k b) • R q b (t k b) (w q), ?_,
        ⟨_, hD.fun_add (h1.fun_const_smul _)⟩, Eventually.of_forall fun q => rfl, Eventually.of_forall fun v hv => hv⟩
      beta_reduce
      rw [hw0]
      exact hYk.symm
  choose! Z hZ0 hZd hZrec hZuniq using hstep
  let y : E → ℕ → β → Fin m → ℝ := fun q k b =>
    (Nat.rec (motive := fun _ => E → Fin m → ℝ) (fun q => y0 q b) (fun j w => Z j b w) k) q
  have hysucc : ∀ k b, (fun q => y q (k + 1) b) = Z k b (fun q => y q k b) := fun k b => rfl
  have hyd : ∀ k, k < nt → ∀ b, y q0 k b = Y k b ∧ ∃ D : E →L[ℝ] (Fin m → ℝ), HasStrictFDerivAt (fun q => y q k b) D q0 := by
    intro k
    induction k with
    | zero => intro _ b; exact ⟨congrFun hy0 b, hd0 b⟩
    | succ k ih =>
      intro hk b
      obtain ⟨h1, h2⟩ := ih (by omega) b
      refine ⟨hZ0 k hk b (fun q => y q k b) h1 h2, ?_⟩
      rw [hysucc]
      exact hZd k hk b (fun q => y q k b) h1 h2
  refine ⟨y, fun k hk => funext fun b => (hyd k hk b).1, fun q => rfl, ?_, fun k hk b => (hyd k hk b).2, ?_⟩
  · have : ∀ᶠ q in 𝓝 q0, ∀ k < nt, ∀ b, k + 1 < nt → y q (k + 1) b = stepRhs s (t (k + 1) b - t k b) (R q b (t k b)) (R q b (t (k + 1) b)) (y q k b) (y q (k + 1) b) := by
      refine (Set.finite_lt_nat nt).eventually_all.2 fun k hk => eventually_all.2 fun b => ?_
      by_cases hk' : k + 1 < nt
      · have := hZrec k hk' b (fun q => y q k b) (hyd k hk b).1 (hyd k hk b).2
        filter_upwards [this] with q hq _
        exact hq
      · exact Eventually.of_forall fun q h => absurd h hk'
    filter_upwards [this] with q hq
    cases s with
    | backwardEuler => exact fun k b hk => hq k (by omega) b hk
    | forwardEuler => exact fun k b hk => hq k (by omega) b hk
  · intro y' hrec' h0' hbase hcont
    suffices h : ∀ k, k < nt → ∀ᶠ q in 𝓝 q0, y' q k = y q k from
      (Set.finite_lt_nat nt).eventually_all.2 h
    intro k
    induction k with
    | zero => intro _; filter_upwards [h0'] with q hq; exact hq
    | succ k ih =>
      intro hk
      have ihk := ih (by omega)
      suffices h : ∀ b, ∀ᶠ q in 𝓝 q0, y' q (k + 1) b = y q (k + 1) b by
        filter_upwards [eventually_all.2 h] with q hq
        exact funext hq
      intro b
      have hten : Tendsto (fun q => (q, y' q (k + 1) b)) (𝓝 q0) (𝓝 (q0, Y (k + 1) b)) := by
        have := (continuousAt_id (x := q0)).prodMk (hcont (k + 1) hk b)
        have h2 : y' q0 (k + 1) b = Y (k + 1) b := congrFun (hbase (k + 1) hk) b
        unfold ContinuousAt at this
        simpa only [id_eq, h2] using this
      have hu := hten.eventually (hZuniq k hk b (fun q => y q k b) (hyd k (by omega) b).1 (hyd k (by omega) b).2)
      filter_upwards [hu, ihk, hrec'] with q hq1 hq2 hq3
      refine hq1 ?_
      cases s with
      | backwardEuler =>
        have := hq3 k b hk
        rw [hq2] at this
        exact this
      | forwardEuler =>
        have := hq3 k b hk
        rw [hq2] at this
        exact this

omit [Finite β] in
theorem isTrajectory_congr (s : Scheme) (r : β → ℝ → (Fin m → ℝ) → Fin m → ℝ) (nt : ℕ) (t : ℕ → β → ℝ)
    (y y' : ℕ → β → Fin m → ℝ) (h : ∀ k < nt, y k = y' k) (hy : IsTrajectory s r nt t y) :
    IsTrajectory s r nt t y' := by
  cases s with
  | backwardEuler =>
    intro k b hk
    rw [← h (k + 1) hk, ← h k (by omega)]
    exact hy k b hk
  | forwardEuler =>
    intro k b hk
    rw [← h (k + 1) hk, ← h k (by omega)]
    exact hy k b hk

/-- `trajectory_exists` with `y q0 = Y` for all indices. -/
theorem trajectory_exists' (s : Scheme) (R : E → β → ℝ → (Fin m → ℝ) → Fin m → ℝ)
    (J : β → ℝ → (Fin m → ℝ) → Matrix (Fin m) (Fin m) ℝ) (A : ℕ → β → E →L[ℝ] (Fin m → ℝ))
    (nt : ℕ) (hnt : 0 < nt) (t : ℕ → β → ℝ) (Y : ℕ → β → Fin m → ℝ) (q0 : E) (hY : IsTrajectory s (R q0) nt t Y)
    (y0 : E → β → Fin m → ℝ) (hy0 : y0 q0 = Y 0)
    (hd0 : ∀ b, ∃ D : E →L[ℝ] (Fin m → ℝ), HasStrictFDerivAt (fun q => y0 q b) D q0)
    (hA : s = .backwardEuler → ∀ k, k + 1 < nt → ∀ b,
      IsUnit (1 - (t (k + 1) b - t k b) • J b (t (k + 1) b) (Y (k + 1) b)).det)
    (hR : ∀ k < nt, ∀ b, HasStrictFDerivAt (fun x : E × (Fin m → ℝ) => R x.1 b (t k b) x.2)
      ((A k b).coprod (matCLM (J b (t k b) (Y k b)))) (q0, Y k b)) :
    ∃ y : E → ℕ → β → Fin m → ℝ, y q0 = Y ∧ (∀ q, y q 0 = y0 q) ∧
      (∀ᶠ q in 𝓝 q0, IsTrajectory s (R q) nt t (y q)) ∧
      (∀ k < nt, ∀ b, ∃ D : E →L[ℝ] (Fin m → ℝ), HasStrictFDerivAt (fun q => y q k b) D q0) ∧
      ∀ y' : E → ℕ → β → Fin m → ℝ, (∀ᶠ q in 𝓝 q0, IsTrajectory s (R q) nt t (y' q)) →
        (∀ᶠ q in 𝓝 q0, y' q 0 = y0 q) → (∀ k < nt, y' q0 k = Y k) →
        (∀ k < nt, ∀ b, ContinuousAt (fun q => y' q k b) q0) →
        ∀ᶠ q in 𝓝 q0, ∀ k < nt, y' q k = y q k := by
  obtain ⟨y, h1, h2, h3, h4, h5⟩ := trajectory_exists s R J A nt t Y q0 hY y0 hy0 hd0 hA hR
  have e : ∀ k, k < nt → ∀ q, (if k < nt then y q k else Y k) = y q k := fun k hk q => if_pos hk
  refine ⟨fun q k => if k < nt then y q k else Y k, ?_, fun q => (e 0 hnt q).trans (h2 q), ?_, ?_, ?_⟩
  · funext k
    beta_reduce
    split
    · next h => exact h1 k h
    · rfl
  · filter_upwards [h3] with q hq
    exact isTrajectory_congr s _ nt t _ _ (fun k hk => (e k hk q).symm) hq
  · intro k hk b
    simp only [e k hk]
    exact h4 k hk b
  · intro y' a1 a2 a3 a4
    filter_upwards [h5 y' a1 a2 a3 a4] with q hq k hk
    rw [e k hk]
    exact hq k hk

end Pyoptmat.Ode
