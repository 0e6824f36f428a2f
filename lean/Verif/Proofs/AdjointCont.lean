import Verif.Proofs.AdjointDeriv
import Mathlib.Topology.Instances.Matrix
import Mathlib.Topology.Algebra.GroupWithZero

/-! Helper lemmas: the adjoint recursion depends continuously on the trajectory. -/

namespace Pyoptmat.Ode

open Pyoptmat.Chunktime Pyoptmat.Newton Pyoptmat.Spec Filter Topology

variable {β : Type*} {m : ℕ}

theorem continuousAt_matrix_inv {n : ℕ} (A : Matrix (Fin n) (Fin n) ℝ) (h : IsUnit A.det) :
    ContinuousAt (fun M : Matrix (Fin n) (Fin n) ℝ => M⁻¹) A := by
  have e : (fun M : Matrix (Fin n) (Fin n) ℝ => M⁻¹) = fun M => M.det⁻¹ • M.adjugate := by
    funext M
    rw [Matrix.inv_def, Ring.inverse_eq_inv']
  rw [e]
  have h1 : Continuous fun M : Matrix (Fin n) (Fin n) ℝ => M.adjugate := Continuous.matrix_adjugate continuous_id
  have h2 : Continuous fun M : Matrix (Fin n) (Fin n) ℝ => M.det := Continuous.matrix_det continuous_id
  exact ContinuousAt.smul (h2.continuousAt.inv₀ h.ne_zero) h1.continuousAt

variable {ι : Type*} {l : Filter ι}

theorem adj_tendsto (s : Scheme) (f : Func β m) (nt : ℕ) (t : ℕ → β → ℝ) (g : ℕ → BVec β m ℝ)
    (Yn : ι → ℕ → BVec β m ℝ) (Y : ℕ → BVec β m ℝ)
    (hY : ∀ k < nt, ∀ b, Tendsto (fun i => Yn i k b) l (𝓝 (Y k b)))
    (hJ : ∀ k < nt, ∀ b, ContinuousAt (fun y => (f b (t k b) y).2) (Y k b))
    (hA : s = .backwardEuler → ∀ j, j + 1 < nt → ∀ b,
      IsUnit (1 + (t (j + 1) b - t j b) • (f b (t j b) (Y j b)).2.transpose).det) (j : ℕ) :
    j < nt → ∀ b, Tendsto (fun i => adj s f t (Yn i) g j b) l (𝓝 (adj s f t Y g j b)) := by
  induction j with
  | zero => intro _ b; exact tendsto_const_nhds
  | succ j ih =>
    intro hj b
    have hj' := ih (by omega) b
    have hmul : ∀ {n : ℕ}, Continuous fun x : Matrix (Fin m) (Fin n) ℝ × (Fin n → ℝ) => x.1.mulVec x.2 :=
      continuous_fst.matrix_mulVec continuous_snd
    cases s with
    | backwardEuler =>
      have h1 : Tendsto (fun i => (f b (t j b) (Yn i j b)).2) l (𝓝 (f b (t j b) (Y j b)).2) :=
        (hJ j (by omega) b).tendsto.comp (hY j (by omega) b)
      have h2 : Tendsto (fun i => 1 + (t (j + 1) b - t j b) • (f b (t j b) (Yn i j b)).2.transpose) l
          (𝓝 (1 + (t (j + 1) b - t j b) • (f b (t j b) (Y j b)).2.transpose)) := by
        have hc : Continuous fun M : Matrix (Fin m) (Fin m) ℝ => 1 + (t (j + 1) b - t j b) • M.transpose :=
          continuous_const.add ((Continuous.matrix_transpose (A := fun M : Matrix (Fin m) (Fin m) ℝ => M) continuous_id).fun_const_smul _)
        exact (hc.tendsto _).comp h1
      have h3 := (continuousAt_matrix_inv _ (hA rfl j hj b)).tendsto.comp h2
      have h4 := (hmul.tendsto _).comp (h3.prodMk_nhds hj')
      simp only [adj]
      exact tendsto_const_nhds.add h4
    | forwardEuler =>
      have h1 : Tendsto (fun i => (f b (t (j + 1) b) (Yn i (j + 1) b)).2) l (𝓝 (f b (t (j + 1) b) (Y (j + 1) b)).2) :=
        (hJ (j + 1) hj b).tendsto.comp (hY (j + 1) hj b)
      have h2 : Tendsto (fun i => 1 - (t (j + 1) b - t j b) • (f b (t (j + 1) b) (Yn i (j + 1) b)).2.transpose) l
          (𝓝 (1 - (t (j + 1) b - t j b) • (f b (t (j + 1) b) (Y (j + 1) b)).2.transpose)) := by
        have hc : Continuous fun M : Matrix (Fin m) (Fin m) ℝ => 1 - (t (j + 1) b - t j b) • M.transpose :=
          continuous_const.sub ((Continuous.matrix_transpose (A := fun M : Matrix (Fin m) (Fin m) ℝ => M) continuous_id).fun_const_smul _)
        exact (hc.tendsto _).comp h1
      have h4 := (hmul.tendsto _).comp (h2.prodMk_nhds hj')
      simp only [adj]
      exact tendsto_const_nhds.add h4

theorem contrib_tendsto [Fintype β] {p : ℕ} (s : Scheme) (f : Func β m)
    (fp : β → ℝ → (Fin m → ℝ) → Matrix (Fin m) (Fin p) ℝ) (nt : ℕ) (t : ℕ → β → ℝ) (g : ℕ → BVec β m ℝ)
    (Yn : ι → ℕ → BVec β m ℝ) (Y : ℕ → BVec β m ℝ)
    (hY : ∀ k < nt, ∀ b, Tendsto (fun i => Yn i k b) l (𝓝 (Y k b)))
    (hJ : ∀ k < nt, ∀ b, ContinuousAt (fun y => (f b (t k b) y).2) (Y k b))
    (hfp : ∀ k < nt, ∀ b, ContinuousAt (fun y => fp b (t k b) y) (Y k b))
    (hA : s = .backwardEuler → ∀ j, j + 1 < nt → ∀ b,
      IsUnit (1 + (t (j + 1) b - t j b) • (f b (t j b) (Y j b)).2.transpose).det) (j : ℕ) (hj : j + 1 < nt) :
    Tendsto (fun i => contrib s f fp t (Yn i) g j) l (𝓝 (contrib s f fp t Y g j)) := by
  have hadj := adj_tendsto s f nt t g Yn Y hY hJ hA
  have hmul : Continuous fun x : (Fin m → ℝ) × Matrix (Fin m) (Fin p) ℝ => Matrix.vecMul x.1 x.2 :=
    continuous_fst.matrix_vecMul continuous_snd
  have hF : ∀ k < nt, ∀ b, Tendsto (fun i => fp b (t k b) (Yn i k b)) l (𝓝 (fp b (t k b) (Y k b))) :=
    fun k hk b => (hfp k hk b).tendsto.comp (hY k hk b)
  unfold contrib
  refine tendsto_finset_sum _ fun b _ => ?_
  cases s with
  | backwardEuler =>
    have h1 := ((hadj (j + 1) hj b).sub_const (g (j + 1) b)).const_smul (-(t (j + 1) b - t j b))
    exact (hmul.tendsto _).comp (h1.prodMk_nhds (hF j (by omega) b))
  | forwardEuler =>
    have h1 := (hadj j (by omega) b).const_smul (-(t (j + 1) b - t j b))
    exact (hmul.tendsto _).comp (h1.prodMk_nhds (hF (j + 1) hj b))

/-- The outputs of `rewind` depend continuously on the trajectory; the block sizes and solvers may vary. -/
theorem rewind_tendsto [Fintype β] {p : ℕ} (s : Scheme) (dn : ι → Direct) (f : Func β m)
    (fp : β → ℝ → (Fin m → ℝ) → Matrix (Fin m) (Fin p) ℝ) (nt : ℕ) (hnt : 0 < nt) (t : ℕ → β → ℝ)
    (g : ℕ → BVec β m ℝ) (N : ι → ℤ) (hN : ∀ i, 0 < N i)
    (Yn : ι → ℕ → BVec β m ℝ) (Y : ℕ → BVec β m ℝ)
    (hY : ∀ k < nt, ∀ b, Tendsto (fun i => Yn i k b) l (𝓝 (Y k b)))
    (hJ : ∀ k < nt, ∀ b, ContinuousAt (fun y => (f b (t k b) y).2) (Y k b))
    (hfp : ∀ k < nt, ∀ b, ContinuousAt (fun y => fp b (t k b) y) (Y k b))
    (hA : s = .backwardEuler → ∀ k, k + 1 < nt → ∀ b,
      IsUnit (1 - (t (k + 1) b - t k b) • (f b (t (k + 1) b) (Y (k + 1) b)).2).det) :
    ∃ grad lam, (∀ d n, 0 < n → rewind s d f fp nt t Y g n = .ok (grad, lam)) ∧
      ∃ gradn lamn, (∀ᶠ i in l, rewind s (dn i) f fp nt t (Yn i) g (N i) = .ok (gradn i, lamn i)) ∧
        Tendsto gradn l (𝓝 grad) ∧ Tendsto lamn l (𝓝 lam) := by
  have hA' : s = .backwardEuler → ∀ j, j + 1 < nt → ∀ b,
      IsUnit (1 + (flipRows nt t (j + 1) b - flipRows nt t j b) •
        (f b (flipRows nt t j b) (flipRows nt Y j b)).2.transpose).det := by
    intro hs j hj b
    have := hA hs (nt - 1 - (j + 1)) (by omega) b
    have e : nt - 1 - (j + 1) + 1 = nt - 1 - j := by omega
    rw [e] at this
    unfold flipRows
    rw [← Matrix.det_transpose] at this
    convert this using 2
    rw [Matrix.transpose_sub, Matrix.transpose_smul, Matrix.transpose_one, sub_eq_add_neg (1 : Matrix _ _ ℝ), ← neg_smul]
    congr 2
    ring
  have hY' : ∀ k < nt, ∀ b, Tendsto (fun i => flipRows nt (Yn i) k b) l (𝓝 (flipRows nt Y k b)) :=
    fun k hk b => hY _ (by omega) b
  have hJ' : ∀ k < nt, ∀ b, ContinuousAt (fun y => (f b (flipRows nt t k b) y).2) (flipRows nt Y k b) :=
    fun k hk b => hJ _ (by omega) b
  refine ⟨_, _, fun d n hn => rewind_spec s d f fp nt hnt t Y g n hn hA,
    fun i => ∑ j ∈ Finset.range (nt - 1), contrib s f fp (flipRows nt t) (flipRows nt (Yn i)) (flipRows nt g) j,
    fun i => adj s f (flipRows nt t) (flipRows nt (Yn i)) (flipRows nt g) (nt - 1), ?_, ?_, ?_⟩
  · have hev : ∀ᶠ i in l, s = .backwardEuler → ∀ k < nt, k + 1 < nt → ∀ b,
        IsUnit (1 - (t (k + 1) b - t k b) • (f b (t (k + 1) b) (Yn i (k + 1) b)).2).det := by
      by_cases hs : s = .backwardEuler
      · have : ∀ᶠ i in l, ∀ k < nt, k + 1 < nt → ∀ b,
            IsUnit (1 - (t (k + 1) b - t k b) • (f b (t (k + 1) b) (Yn i (k + 1) b)).2).det := by
          refine (Set.finite_lt_nat nt).eventually_all.2 fun k _ => ?_
          by_cases hk : k + 1 < nt
          · refine (eventually_all.2 fun b => ?_).mono fun i hi _ => hi
            have h1 : Tendsto (fun i => (f b (t (k + 1) b) (Yn i (k + 1) b)).2) l
                (𝓝 (f b (t (k + 1) b) (Y (k + 1) b)).2) := (hJ (k + 1) hk b).tendsto.comp (hY (k + 1) hk b)
            have hc : Continuous fun M : Matrix (Fin m) (Fin m) ℝ => (1 - (t (k + 1) b - t k b) • M).det :=
              Continuous.matrix_det (continuous_const.sub (continuous_id.fun_const_smul _))
            have h2 := ((hc.tendsto _).comp h1).eventually_ne (hA hs k hk b).ne_zero
            exact h2.mono fun i hi => isUnit_iff_ne_zero.2 hi
          · exact Eventually.of_forall fun i h => absurd h hk
        exact this.mono fun i hi _ => hi
      · exact Eventually.of_forall fun i h => absurd h hs
    filter_upwards [hev] with i hi
    exact rewind_spec s (dn i) f fp nt hnt t (Yn i) g (N i) (hN i) fun hs k hk b => hi hs k (by omega) hk b
  · refine tendsto_finset_sum _ fun j hj => ?_
    exact contrib_tendsto s f fp nt (flipRows nt t) (flipRows nt g) (fun i => flipRows nt (Yn i)) (flipRows nt Y)
      hY' hJ' (fun k hk b => hfp _ (by omega) b) hA' j (by have := Finset.mem_range.1 hj; omega)
  · exact tendsto_pi_nhds.2 fun b => adj_tendsto s f nt (flipRows nt t) (flipRows nt g) (fun i => flipRows nt (Yn i))
      (flipRows nt Y) hY' hJ' hA' (nt - 1) (by omega) b

end Pyoptmat.Ode
