import Verif.Proofs.BackpropLimit
import Verif.Props.Gradient
import Verif.Proofs.Traj

/-!
# Property C129: gradients by backpropagation through `odeint`
-/

namespace Pyoptmat.Props

open Pyoptmat.Chunktime Pyoptmat.Newton Pyoptmat.Spec Pyoptmat.Ode Filter Topology

variable {β : Type*} {m p : ℕ}

/-- **C129.** What `odeint` returns is the recorded computation, with as many Newton updates in each block as the run made: none of the rows depends on the parameters in any other way. -/
theorem C129_recorded (c : Config) (hg : c.guessType = "zero") (hm : 0 ≤ c.miter) (f : BFunc β m) (y0 : BVec β m ℝ) (nt : ℕ) (t : ℕ → β → ℝ) (n : ℤ) (hn : 0 < n)
    (res : Partial β m) (w : Bool) (h : integrate c f y0 nt t n = .ok (res, w)) :
    ∃ K : ℕ → ℕ, (∀ i, (K i : ℤ) ≤ c.miter) ∧
      (∀ i, 1 + i * n.toNat < nt → K i = (blockNewton c f (fun l : Fin (sliceLen nt (1 + i * n.toNat) n.toNat) => t (1 + i * n.toNat + l.val)) (t (i * n.toNat)) (res.get (i * n.toNat)) 0).iters) ∧
      ∀ k < nt, res.get k = recordedIntegrate c.scheme c.method f y0 nt n.toNat t K k := by
  refine ⟨fun i => (blockNewton c f (fun l : Fin (sliceLen nt (1 + i * n.toNat) n.toNat) => t (1 + i * n.toNat + l.val)) (t (i * n.toNat)) (res.get (i * n.toNat)) 0).iters, fun i => ?_, fun i _ => rfl,
    recorded_run f y0 nt t _ c hg hm n hn res w h (fun i _ => rfl)⟩
  exact (C10_returns_first_iterate (blockRJ c.scheme f (fun l : Fin (sliceLen nt (1 + i * n.toNat) n.toNat) => t (1 + i * n.toNat + l.val)) (t (i * n.toNat)) (res.get (i * n.toNat)))
        (fun J R => solve c.method J R) (fun x dx => x - dx) (fun R b => rowNorm (R b)) 0 c.rtol c.atol c.miter hm c.throwOnFail).1

private theorem stack_block {α : Type*} (a : ℕ → α) (k0 n : ℕ) (k : Fin (n + 1)) : (stack (a k0) (fun l : Fin n => a (1 + k0 + l.val)) : Fin (n + 1) → α) k = a (k0 + k.val) := by
  refine Fin.cases ?_ (fun l => ?_) k
  · simp [stack]
  · simp only [stack, Fin.cons_succ, Fin.val_succ]
    congr 1
    omega

private theorem diff_block (t : ℕ → β → ℝ) (k0 n : ℕ) (k : Fin n) (b : β) :
    diff (stack (t k0) (fun l : Fin n => t (1 + k0 + l.val))) k b = t (k0 + k.val + 1) b - t (k0 + k.val) b := by
  unfold diff
  rw [stack_block t k0 n, stack_block t k0 n]
  rfl

private theorem slice_lt {nt n i : ℕ} (l : Fin (sliceLen nt (1 + i * n) n)) : 1 + i * n + l.val < nt := by
  have := l.2
  unfold sliceLen at this
  omega

/-- the rows of a block of an exact trajectory -/
private theorem exactBlock_of {rate : (Fin p → ℝ) → β → ℝ → (Fin m → ℝ) → Fin m → ℝ} {nt : ℕ} {t : ℕ → β → ℝ} {q : Fin p → ℝ} {y : ℕ → β → Fin m → ℝ} (h : IsBackwardEuler (rate q) nt t y) (i n : ℕ) :
    ExactBlock rate (fun l : Fin (sliceLen nt (1 + i * n) n) => t (1 + i * n + l.val)) (t (i * n)) ((q, y (i * n)), fun l b => y (1 + i * n + l.val) b) := by
  intro k b
  have hk := slice_lt k
  have e := h (i * n + k.val) b (by omega)
  have s1 := stack_block y (i * n) (sliceLen nt (1 + i * n) n) k.castSucc
  rw [Fin.val_castSucc] at s1
  have s2 : (stack (y (i * n)) (fun (l : Fin (sliceLen nt (1 + i * n) n)) b => y (1 + i * n + l.val) b) : Fin _ → β → Fin m → ℝ) k.castSucc b = y (i * n + k.val) b := congrFun s1 b
  rw [s2, diff_block]
  have e2 : 1 + i * n + k.val = i * n + k.val + 1 := by omega
  simp only [e2]
  exact e

variable [Fintype β]

/-- **C129.** Backward Euler with a nonlinear rate. `Y` is the discrete trajectory at `p0`; in every block Newton's method, started from the block's first state of `Y`, converges to `Y` through invertible matrices; rates and
Jacobians are continuously differentiable in parameters and state at the states met on the way, and the Jacobian is the derivative of the rate at `Y`. Then with enough Newton updates in every block (tight tolerances),
the recorded rows are as close as we like to `Y`, they are differentiable, and the gradient that backpropagation computes is as close as we like both to the exact gradient of the discrete trajectories and to the gradient the adjoint
method computes from the same rows. -/
theorem C129_limit (d : Direct) (meth : SolveMethod) (rate : (Fin p → ℝ) → β → ℝ → (Fin m → ℝ) → Fin m → ℝ) (J : (Fin p → ℝ) → β → ℝ → (Fin m → ℝ) → Matrix (Fin m) (Fin m) ℝ)
    (fp : β → ℝ → (Fin m → ℝ) → Matrix (Fin m) (Fin p) ℝ) (nt : ℕ) (hnt : 0 < nt) (t : ℕ → β → ℝ) (Y : ℕ → β → Fin m → ℝ) (p0 : Fin p → ℝ) (n : ℕ) (hn : 0 < n) (g : ℕ → β → Fin m → ℝ)
    (hY : IsBackwardEuler (rate p0) nt t Y)
    (hA : ∀ k, k + 1 < nt → ∀ b, IsUnit (1 - (t (k + 1) b - t k b) • J p0 b (t (k + 1) b) (Y (k + 1) b)).det)
    (hR : ∀ k < nt, ∀ b, HasStrictFDerivAt (fun x : (Fin p → ℝ) × (Fin m → ℝ) => rate x.1 b (t k b) x.2)
      ((matCLM (fp b (t k b) (Y k b))).coprod (matCLM (J p0 b (t k b) (Y k b)))) (p0, Y k b))
    (hsY : ∀ k < nt, ∀ b, ContDiffAt ℝ 1 (fun x : (Fin p → ℝ) × (Fin m → ℝ) => rate x.1 b (t k b) x.2) (p0, Y k b) ∧
      ContDiffAt ℝ 1 (fun x : (Fin p → ℝ) × (Fin m → ℝ) => matCLM (J x.1 b (t k b) x.2)) (p0, Y k b))
    (hfp : ∀ k < nt, ∀ b, ContinuousAt (fp b (t k b)) (Y k b))
    (x : ℕ → ℕ → ℕ → β → Fin m → ℝ)
    (hx : ∀ i j, ∀ l : Fin (sliceLen nt (1 + i * n) n), x i j (1 + i * n + l.val) = recordedBlock .backwardEuler meth (Func.lift fun b t y => (rate p0 b t y, J p0 b t y))
      (fun l : Fin (sliceLen nt (1 + i * n) n) => t (1 + i * n + l.val)) (t (i * n)) (Y (i * n)) j l)
    (hxA : ∀ i j k b, i * n < k → k < nt → k ≤ i * n + n → IsUnit (1 - (t k b - t (k - 1) b) • J p0 b (t k b) (x i j k b)).det)
    (hxs : ∀ i j k b, i * n < k → k < nt → k ≤ i * n + n → ContDiffAt ℝ 1 (fun x : (Fin p → ℝ) × (Fin m → ℝ) => rate x.1 b (t k b) x.2) (p0, x i j k b) ∧
      ContDiffAt ℝ 1 (fun x : (Fin p → ℝ) × (Fin m → ℝ) => matCLM (J x.1 b (t k b) x.2)) (p0, x i j k b))
    (hconv : ∀ i k b, i * n < k → k < nt → k ≤ i * n + n → Tendsto (fun j => x i j k b) atTop (𝓝 (Y k b))) :
    ∃ y : (Fin p → ℝ) → (β → Fin m → ℝ) → ℕ → β → Fin m → ℝ,
      y p0 (Y 0) = Y ∧ (∀ q x, y q x 0 = x) ∧ (∀ᶠ v in 𝓝 (p0, Y 0), IsBackwardEuler (rate v.1) nt t (y v.1 v.2)) ∧
      ∃ grad lam, HasFDerivAt (fun v : (Fin p → ℝ) × (β → Fin m → ℝ) => ∑ k ∈ Finset.range nt, ∑ b, g k b ⬝ᵥ y v.1 v.2 k b) (totalGrad grad lam) (p0, Y 0) ∧
      ∀ eps > 0, ∃ N, ∀ K : ℕ → ℕ, (∀ i, N ≤ K i) →
        let rows := fun v : (Fin p → ℝ) × (β → Fin m → ℝ) => recordedIntegrate .backwardEuler meth (Func.lift fun b t y => (rate v.1 b t y, J v.1 b t y)) v.2 nt n t K
        (∀ k < nt, ‖rows (p0, Y 0) k - Y k‖ < eps) ∧
        ∃ D gradK lamK, HasFDerivAt (fun v => ∑ k ∈ Finset.range nt, ∑ b, g k b ⬝ᵥ rows v k b) D (p0, Y 0) ∧ ‖D - totalGrad grad lam‖ < eps ∧
          rewind .backwardEuler d (fun b t y => (rate p0 b t y, J p0 b t y)) fp nt t (rows (p0, Y 0)) g n = .ok (gradK, lamK) ∧ ‖D - totalGrad gradK lamK‖ < eps := by
  obtain ⟨y, y1, y2, y3, -, grad, lam, y4, y5, y6⟩ := C83_backward d rate (J p0) fp nt hnt t Y p0 n (by exact_mod_cast hn) g hY hA hR
  refine ⟨y, y1, y2, y3, grad, lam, y6, ?_⟩
  set v0 : (Fin p → ℝ) × (β → Fin m → ℝ) := (p0, Y 0) with hv0
  set rows := fun (K : ℕ → ℕ) (v : (Fin p → ℝ) × (β → Fin m → ℝ)) => recordedIntegrate .backwardEuler meth (Func.lift fun b t y => (rate v.1 b t y, J v.1 b t y)) v.2 nt n t K with hrows
  have yd : ∀ k < nt, DifferentiableAt ℝ (fun v : (Fin p → ℝ) × (β → Fin m → ℝ) => y v.1 v.2 k) v0 := fun k hk => differentiableAt_pi.2 fun b => y5 k hk b
  have good : ∀ k < nt, GoodLimit (fun K v => rows K v k) (fun v => y v.1 v.2 k) v0 := by
    intro k
    induction k using Nat.strong_induction_on with
    | _ k ih =>
      intro hk
      rcases Nat.eq_zero_or_pos k with rfl | hpos
      · have e1 : (fun (K : ℕ → ℕ) (v : (Fin p → ℝ) × (β → Fin m → ℝ)) => rows K v 0) = fun _ v => v.2 := by
          funext K v
          exact recorded_zero _ _ _ _ _ _ _ _
        have e2 : (fun v : (Fin p → ℝ) × (β → Fin m → ℝ) => y v.1 v.2 0) = fun v => v.2 := funext fun v => y2 _ _
        rw [e1, e2]
        exact GoodLimit.const differentiableAt_snd
      · obtain ⟨i, hi, h1, h2⟩ := block_of_row hn hpos hk
        set L := sliceLen nt (1 + i * n) n with hL
        set T : Fin L → β → ℝ := fun l => t (1 + i * n + l.val) with hT
        have rng : ∀ l : Fin L, 1 + i * n + l.val < nt ∧ i * n < 1 + i * n + l.val ∧ 1 + i * n + l.val ≤ i * n + n := by
          intro l
          have : l.val < min (1 + i * n + n) nt - (1 + i * n) := l.2
          omega
        have es : y p0 (Y 0) (i * n) = Y (i * n) := by rw [y1]
        have ex : ∀ l : Fin L, y p0 (Y 0) (1 + i * n + l.val) = Y (1 + i * n + l.val) := fun l => by rw [y1]
        have g0 := ih (i * n) (by omega) (by omega)
        have dtb : ∀ (l : Fin L) b, diff (stack (t (i * n)) T) l b = t (1 + i * n + l.val) b - t (1 + i * n + l.val - 1) b := by
          intro l b
          rw [hT, diff_block]
          have a1 : i * n + l.val + 1 = 1 + i * n + l.val := by omega
          have a2 : i * n + l.val = 1 + i * n + l.val - 1 := by omega
          rw [a1]
          conv_lhs => rw [a2]
        have reg : Regular (J) T (t (i * n)) ((p0, Y (i * n)), fun l b => Y (1 + i * n + l.val) b) := by
          intro l b
          rw [dtb]
          obtain ⟨r1, r2, r3⟩ := rng l
          have := hA (1 + i * n + l.val - 1) (by omega) b
          rwa [show 1 + i * n + l.val - 1 + 1 = 1 + i * n + l.val by omega] at this
        have smo : SmoothAt rate J T ((p0, Y (i * n)), fun l b => Y (1 + i * n + l.val) b) := fun l b => hsY _ (rng l).1 b
        have exb := exactBlock_of hY i n
        have hJ : ∀ (l : Fin L) b, HasFDerivAt (fun z => rate p0 b (T l b) z) (matCLM (J p0 b (T l b) (Y (1 + i * n + l.val) b))) (Y (1 + i * n + l.val) b) := by
          intro l b
          have hin : HasFDerivAt (fun z : Fin m → ℝ => (p0, z)) (ContinuousLinearMap.inr ℝ (Fin p → ℝ) (Fin m → ℝ)) (Y (1 + i * n + l.val) b) := hasFDerivAt_prodMk_right _ _
          refine (HasFDerivAt.comp (g := fun x : (Fin p → ℝ) × (Fin m → ℝ) => rate x.1 b (T l b) x.2) _ (hR _ (rng l).1 b).hasFDerivAt hin).congr_fderiv ?_
          ext z
          simp [hT]
        obtain ⟨D, hD1, hD2⟩ := prog_deriv meth reg smo exb hJ
        have itx : ∀ j, paramIter (progPhi rate J T (t (i * n)) meth) (fun z _ b => z.2 b) j (p0, Y (i * n)) = fun l => x i j (1 + i * n + l.val) := by
          intro j
          rw [iter_prog]
          funext l
          rw [hx]
        have main := g0.block (ContinuousLinearMap.fst ℝ (Fin p → ℝ) (β → Fin m → ℝ)) (Phi := progPhi rate J T (t (i * n)) meth) (Psi := idealPhi rate J T (t (i * n))) (x0 := fun z _ b => z.2 b)
          (x := fun v (l : Fin L) b => y v.1 v.2 (1 + i * n + l.val) b) (D := D) i (by fun_prop)
          (by
            intro j
            change ContDiffAt ℝ 1 _ ((p0, y p0 (Y 0) (i * n)), paramIter _ _ j (p0, y p0 (Y 0) (i * n)))
            rw [es, itx]
            refine prog_contDiffAt meth (fun l b => ?_) (fun l b => ?_)
            · obtain ⟨r1, r2, r3⟩ := rng l
              rw [dtb]
              exact hxA i j _ b r2 r1 r3
            · obtain ⟨r1, r2, r3⟩ := rng l
              exact hxs i j _ b r2 r1 r3)
          (by
            change ContDiffAt ℝ 1 _ ((p0, y p0 (Y 0) (i * n)), fun (l : Fin L) b => y p0 (Y 0) (1 + i * n + l.val) b)
            rw [y1]
            exact prog_contDiffAt meth reg smo)
          (by
            change progPhi rate J T (t (i * n)) meth ((p0, y p0 (Y 0) (i * n)), fun (l : Fin L) b => y p0 (Y 0) (1 + i * n + l.val) b) = fun l b => y p0 (Y 0) (1 + i * n + l.val) b
            rw [y1, prog_eq_ideal rate J T (t (i * n)) meth _ reg]
            exact idealPhi_fixed exb)
          (by
            change HasFDerivAt _ _ ((p0, y p0 (Y 0) (i * n)), fun (l : Fin L) b => y p0 (Y 0) (1 + i * n + l.val) b)
            rw [y1]
            exact hD2)
          (by
            change HasFDerivAt _ _ ((p0, y p0 (Y 0) (i * n)), fun (l : Fin L) b => y p0 (Y 0) (1 + i * n + l.val) b)
            rw [y1]
            exact hD1)
          (by
            change Tendsto (fun j => paramIter _ _ j (p0, y p0 (Y 0) (i * n))) atTop (𝓝 fun (l : Fin L) b => y p0 (Y 0) (1 + i * n + l.val) b)
            rw [y1]
            simp only [itx]
            refine tendsto_pi_nhds.2 fun l => tendsto_pi_nhds.2 fun b => ?_
            obtain ⟨r1, r2, r3⟩ := rng l
            exact hconv i _ b r2 r1 r3)
          (differentiableAt_pi.2 fun l => differentiableAt_pi.2 fun b => y5 _ (rng l).1 b)
          (y3.mono fun v hv => idealPhi_fixed (exactBlock_of hv i n))
        have fin := main.clm (ContinuousLinearMap.proj (R := ℝ) (φ := fun _ : Fin L => β → Fin m → ℝ) ⟨k - (1 + i * n), h2⟩)
        have ek : 1 + i * n + (⟨k - (1 + i * n), h2⟩ : Fin L).val = k := by simp only; omega
        have e1 : (fun (K : ℕ → ℕ) (v : (Fin p → ℝ) × (β → Fin m → ℝ)) => rows K v k) = fun K v => (ContinuousLinearMap.proj (R := ℝ) (φ := fun _ : Fin L => β → Fin m → ℝ) ⟨k - (1 + i * n), h2⟩)
            (paramIter (progPhi rate J T (t (i * n)) meth) (fun z _ b => z.2 b) (K i) (ContinuousLinearMap.fst ℝ (Fin p → ℝ) (β → Fin m → ℝ) v, rows K v (i * n))) := by
          funext K v
          rw [iter_prog]
          have := recorded_row .backwardEuler meth (Func.lift fun b t y => (rate v.1 b t y, J v.1 b t y)) v.2 nt n t K hi ⟨k - (1 + i * n), h2⟩
          rw [ek] at this
          exact this
        have e2 : (fun v : (Fin p → ℝ) × (β → Fin m → ℝ) => y v.1 v.2 k) = fun v => (ContinuousLinearMap.proj (R := ℝ) (φ := fun _ : Fin L => β → Fin m → ℝ) ⟨k - (1 + i * n), h2⟩)
            (fun (l : Fin L) b => y v.1 v.2 (1 + i * n + l.val) b) := by
          funext v
          change _ = fun b => y v.1 v.2 (1 + i * n + (⟨k - (1 + i * n), h2⟩ : Fin L).val) b
          rw [ek]
        rw [e1, e2]
        exact fin
  -- the loss
  have gl : GoodLimit (fun (K : ℕ → ℕ) v => ∑ k ∈ Finset.range nt, ∑ b, g k b ⬝ᵥ rows K v k b) (fun v : (Fin p → ℝ) × (β → Fin m → ℝ) => ∑ k ∈ Finset.range nt, ∑ b, g k b ⬝ᵥ y v.1 v.2 k b) v0 := by
    have := GoodLimit.sum (Finset.range nt) (S := fun k K v => (∑ b, (dotCLM (g k b)).comp (ContinuousLinearMap.proj (R := ℝ) (φ := fun _ : β => Fin m → ℝ) b)) (rows K v k))
      (s := fun k v => (∑ b, (dotCLM (g k b)).comp (ContinuousLinearMap.proj (R := ℝ) (φ := fun _ : β => Fin m → ℝ) b)) (y v.1 v.2 k)) (v0 := v0)
      (fun k hk => (good k (Finset.mem_range.1 hk)).clm _)
    simpa [dotCLM_apply, ContinuousLinearMap.sum_apply] using this
  have hlim : ∀ k < nt, ∀ b, Tendsto (fun K => rows K v0 k b) manyUpdates (𝓝 (Y k b)) := by
    intro k hk b
    have := tendsto_pi_nhds.1 (good k hk).lim b
    rw [y1] at this
    exact this
  obtain ⟨grad', lam', r1, gradn, lamn, r2, r3, r4⟩ := rewind_tendsto (l := manyUpdates) .backwardEuler (fun _ => d) (fun b t y => (rate p0 b t y, J p0 b t y)) fp nt hnt t g (fun _ => (n : ℤ))
    (fun _ => by exact_mod_cast hn) (fun K => rows K v0) Y hlim (by
      intro k hk b
      have h2 : ContinuousAt (fun z : Fin m → ℝ => matCLM (J p0 b (t k b) z)) (Y k b) :=
        ContinuousAt.comp (g := fun x : (Fin p → ℝ) × (Fin m → ℝ) => matCLM (J x.1 b (t k b) x.2)) (f := fun z : Fin m → ℝ => (p0, z)) (hsY k hk b).2.continuousAt (by fun_prop)
      refine continuousAt_pi.2 fun i => continuousAt_pi.2 fun j => ?_
      have := (continuousAt_pi.1 (h2.clm_apply (continuousAt_const (y := (Pi.single j 1 : Fin m → ℝ))))) i
      simpa [matCLM_apply] using this) hfp (fun _ => hA)
  have := (r1 d n (by exact_mod_cast hn)).symm.trans y4
  simp only [Except.ok.injEq, Prod.mk.injEq] at this
  obtain ⟨rfl, rfl⟩ := this
  have tg : Tendsto (fun K => totalGrad (gradn K) (lamn K)) manyUpdates (𝓝 (totalGrad grad' lam')) := by
    unfold totalGrad
    have t1 : Tendsto (fun K => dotCLM (gradn K)) manyUpdates (𝓝 (dotCLM grad')) := by
      unfold dotCLM
      exact tendsto_finsetSum _ fun i _ => (tendsto_pi_nhds.1 r3 i).smul_const _
    have t2 : Tendsto (fun K => ∑ b, (dotCLM (lamn K b)).comp (ContinuousLinearMap.proj (R := ℝ) (φ := fun _ : β => Fin m → ℝ) b)) manyUpdates
        (𝓝 (∑ b, (dotCLM (lam' b)).comp (ContinuousLinearMap.proj (R := ℝ) (φ := fun _ : β => Fin m → ℝ) b))) := by
      refine tendsto_finsetSum _ fun b _ => ?_
      have : Tendsto (fun K => dotCLM (lamn K b)) manyUpdates (𝓝 (dotCLM (lam' b))) := by
        unfold dotCLM
        exact tendsto_finsetSum _ fun i _ => (tendsto_pi_nhds.1 (tendsto_pi_nhds.1 r4 b) i).smul_const _
      exact (((ContinuousLinearMap.compL ℝ (β → Fin m → ℝ) (Fin m → ℝ) ℝ).flip (ContinuousLinearMap.proj (R := ℝ) (φ := fun _ : β => Fin m → ℝ) b)).continuous.tendsto _).comp this
    have e : ∀ (A : (Fin p → ℝ) →L[ℝ] ℝ) (B : (β → Fin m → ℝ) →L[ℝ] ℝ), A.coprod B = A.comp (ContinuousLinearMap.fst ℝ _ _) + B.comp (ContinuousLinearMap.snd ℝ _ _) := by
      intro A B
      ext v <;> simp
    simp only [e]
    refine Tendsto.add ?_ ?_
    · exact (((ContinuousLinearMap.compL ℝ ((Fin p → ℝ) × (β → Fin m → ℝ)) (Fin p → ℝ) ℝ).flip (ContinuousLinearMap.fst ℝ _ _)).continuous.tendsto _).comp t1
    · exact (((ContinuousLinearMap.compL ℝ ((Fin p → ℝ) × (β → Fin m → ℝ)) (β → Fin m → ℝ) ℝ).flip (ContinuousLinearMap.snd ℝ _ _)).continuous.tendsto _).comp t2
  intro eps heps
  have dl := gl.dlim
  rw [y6.fderiv] at dl
  have ev1 : ∀ᶠ K in manyUpdates, ∀ k < nt, ‖rows K v0 k - Y k‖ < eps := by
    refine (Set.finite_lt_nat nt).eventually_all.2 fun k hk => ?_
    have := Metric.tendsto_nhds.1 (good k hk).lim eps heps
    refine this.mono fun K h => ?_
    rw [dist_eq_norm] at h
    have e : y v0.1 v0.2 k = Y k := by rw [y1]
    rwa [e] at h
  have ev2 := Metric.tendsto_nhds.1 dl eps heps
  have ev3 : ∀ᶠ K in manyUpdates, dist (fderiv ℝ (fun v => ∑ k ∈ Finset.range nt, ∑ b, g k b ⬝ᵥ rows K v k b) v0) (totalGrad (gradn K) (lamn K)) < eps := by
    have := (dl.sub tg)
    rw [sub_self] at this
    have := Metric.tendsto_nhds.1 this eps heps
    refine this.mono fun K h => ?_
    rwa [dist_zero_right, ← dist_eq_norm] at h
  obtain ⟨N, hN⟩ := manyUpdates_iff.1 (ev1.and (ev2.and (ev3.and (gl.diff.and r2))))
  refine ⟨N, fun K hK => ?_⟩
  obtain ⟨a1, a2, a3, a4, a5⟩ := hN K hK
  refine ⟨a1, _, _, _, a4.hasFDerivAt, ?_, a5, ?_⟩
  · rwa [dist_eq_norm] at a2
  · rwa [dist_eq_norm] at a3

omit [Fintype β] in
/-- blocks whose Newton iteration ended at an exact root -/
private theorem recorded_exact (s : Scheme) (meth : SolveMethod) (f : Func β m) (y0 : BVec β m ℝ) (nt n : ℕ) (hn : 0 < n) (t : ℕ → β → ℝ) (K : ℕ → ℕ)
    (h : ∀ i < nblocks nt n, ∀ (yS : BVec β m ℝ) (j : Fin (sliceLen nt (1 + i * n) n)) b, unflatten (blockRJ s f (fun l : Fin (sliceLen nt (1 + i * n) n) => t (1 + i * n + l.val)) (t (i * n)) yS
      (newtonIterate (blockRJ s f (fun l : Fin (sliceLen nt (1 + i * n) n) => t (1 + i * n + l.val)) (t (i * n)) yS) (fun J R => solve meth J R) (fun x dx => x - dx) 0 (K i))).1 j b = 0) :
    ∀ k, k + 1 < nt → ∀ b, defect s f t (recordedIntegrate s meth f y0 nt n t K) k b = 0 := by
  refine all_rows hn (P := fun k => ∀ b, defect s f t (recordedIntegrate s meth f y0 nt n t K) k b = 0) fun i hi j hj b => ?_
  rw [Nat.add_comm (i * n) 1] at hj
  have main := blockRJ_residual s f (fun l : Fin (sliceLen nt (1 + i * n) n) => t (1 + i * n + l.val)) (t (i * n)) (recordedIntegrate s meth f y0 nt n t K (i * n))
    (newtonIterate (blockRJ s f (fun l : Fin (sliceLen nt (1 + i * n) n) => t (1 + i * n + l.val)) (t (i * n)) (recordedIntegrate s meth f y0 nt n t K (i * n))) (fun J R => solve meth J R) (fun x dx => x - dx) 0 (K i))
    t (recordedIntegrate s meth f y0 nt n t K) (i * n) rfl rfl (fun l => by rw [Nat.add_comm (i * n) 1]) (fun l => by
      rw [Nat.add_comm (i * n) 1, recorded_row s meth f y0 nt n t K hi l]; rfl) ⟨j, hj⟩ b
  rw [h i hi] at main
  exact main.symm

/-- **C129.** Forward Euler: if every block made at least as many updates as it has steps (with block size 1: at least one), backpropagation computes exactly the gradient of the discrete trajectories, and exactly what the adjoint
method computes. -/
theorem C129_forward (d : Direct) (meth : SolveMethod) (rate : (Fin p → ℝ) → β → ℝ → (Fin m → ℝ) → Fin m → ℝ) (J : (Fin p → ℝ) → β → ℝ → (Fin m → ℝ) → Matrix (Fin m) (Fin m) ℝ)
    (fp : β → ℝ → (Fin m → ℝ) → Matrix (Fin m) (Fin p) ℝ) (nt : ℕ) (hnt : 0 < nt) (t : ℕ → β → ℝ) (p0 : Fin p → ℝ) (y0 : β → Fin m → ℝ) (n : ℕ) (hn : 0 < n) (g : ℕ → β → Fin m → ℝ)
    (K : ℕ → ℕ) (hK : ∀ i, n ≤ K i) :
    let rows := fun v : (Fin p → ℝ) × (β → Fin m → ℝ) => recordedIntegrate .forwardEuler meth (Func.lift fun b t y => (rate v.1 b t y, J v.1 b t y)) v.2 nt n t K
    (∀ k < nt, ∀ b, HasStrictFDerivAt (fun x : (Fin p → ℝ) × (Fin m → ℝ) => rate x.1 b (t k b) x.2)
      ((matCLM (fp b (t k b) (rows (p0, y0) k b))).coprod (matCLM (J p0 b (t k b) (rows (p0, y0) k b)))) (p0, rows (p0, y0) k b)) →
    (∀ v, IsForwardEuler (rate v.1) nt t (rows v) ∧ rows v 0 = v.2) ∧
    ∃ grad lam, rewind .forwardEuler d (fun b t y => (rate p0 b t y, J p0 b t y)) fp nt t (rows (p0, y0)) g n = .ok (grad, lam) ∧
      HasFDerivAt (fun v => ∑ k ∈ Finset.range nt, ∑ b, g k b ⬝ᵥ rows v k b) (totalGrad grad lam) (p0, y0) := by
  intro rows hR
  have hfe : ∀ v, IsForwardEuler (rate v.1) nt t (rows v) ∧ rows v 0 = v.2 := by
    intro v
    refine ⟨?_, recorded_zero _ _ _ _ _ _ _ _⟩
    intro k b hk
    have := recorded_exact .forwardEuler meth (fun b t y => (rate v.1 b t y, J v.1 b t y)) v.2 nt n hn t K (fun i hi yS j b => by
      have hj := slice_lt j
      have hj2 : j.val < min (1 + i * n + n) nt - (1 + i * n) := j.2
      exact fe_newton_rows (fun b t y => (rate v.1 b t y, J v.1 b t y)) _ _ yS (by have := j.2; omega) meth 0 (K i) j (by have := hK i; omega) b) k hk b
    simp only [defect, forwardDefect] at this
    rw [sub_sub, sub_eq_zero] at this
    exact this
  refine ⟨hfe, ?_⟩
  obtain ⟨grad, lam, h1, -, h3⟩ := C83_forward d rate (J p0) fp nt hnt t (fun q x => rows (q, x)) p0 y0 n (by exact_mod_cast hn) g (fun q x => hfe (q, x)) hR
  exact ⟨grad, lam, h1, h3⟩

/-- **C129.** Backward Euler with rates affine in the state (`y' = M(p, t) y + c(p, t)`): as soon as every block made at least one update, backpropagation computes exactly the gradient of the discrete trajectories, and exactly what the
adjoint method computes. -/
theorem C129_linear (d : Direct) (meth : SolveMethod) (M : (Fin p → ℝ) → β → ℝ → Matrix (Fin m) (Fin m) ℝ) (c : (Fin p → ℝ) → β → ℝ → Fin m → ℝ)
    (fp : β → ℝ → (Fin m → ℝ) → Matrix (Fin m) (Fin p) ℝ) (nt : ℕ) (hnt : 0 < nt) (t : ℕ → β → ℝ) (p0 : Fin p → ℝ) (y0 : β → Fin m → ℝ) (n : ℕ) (hn : 0 < n) (g : ℕ → β → Fin m → ℝ)
    (K : ℕ → ℕ) (hK : ∀ i, 1 ≤ K i) (hA : ∀ k b, k + 1 < nt → IsUnit (1 - (t (k + 1) b - t k b) • M p0 b (t (k + 1) b)).det) (hMc : ∀ k < nt, ∀ b, ContinuousAt (fun q => M q b (t k b)) p0) :
    let rows := fun v : (Fin p → ℝ) × (β → Fin m → ℝ) => recordedIntegrate .backwardEuler meth (Func.lift fun b t y => ((M v.1 b t).mulVec y + c v.1 b t, M v.1 b t)) v.2 nt n t K
    (∀ k < nt, ∀ b, HasStrictFDerivAt (fun x : (Fin p → ℝ) × (Fin m → ℝ) => (M x.1 b (t k b)).mulVec x.2 + c x.1 b (t k b))
      ((matCLM (fp b (t k b) (rows (p0, y0) k b))).coprod (matCLM (M p0 b (t k b)))) (p0, rows (p0, y0) k b)) →
    (∀ᶠ v in 𝓝 (p0, y0), IsBackwardEuler (fun b t y => (M v.1 b t).mulVec y + c v.1 b t) nt t (rows v) ∧ rows v 0 = v.2) ∧
    ∃ grad lam, rewind .backwardEuler d (fun b t y => ((M p0 b t).mulVec y + c p0 b t, M p0 b t)) fp nt t (rows (p0, y0)) g n = .ok (grad, lam) ∧
      HasFDerivAt (fun v => ∑ k ∈ Finset.range nt, ∑ b, g k b ⬝ᵥ rows v k b) (totalGrad grad lam) (p0, y0) := by
  intro rows hR
  have key : ∀ v, (∀ k b, k + 1 < nt → IsUnit (1 - (t (k + 1) b - t k b) • M v.1 b (t (k + 1) b)).det) → IsBackwardEuler (fun b t y => (M v.1 b t).mulVec y + c v.1 b t) nt t (rows v) := by
    intro v hv k b hk
    have := recorded_exact .backwardEuler meth (fun b t y => ((M v.1 b t).mulVec y + c v.1 b t, M v.1 b t)) v.2 nt n hn t K (fun i hi yS j b => by
      have hL : 0 < sliceLen nt (1 + i * n) n := by have := j.2; omega
      obtain ⟨k', hk'⟩ : ∃ k', K i = k' + 1 := ⟨K i - 1, by have := hK i; omega⟩
      have := linear_newton .backwardEuler (M v.1) (c v.1) hL (fun l : Fin (sliceLen nt (1 + i * n) n) => t (1 + i * n + l.val)) (t (i * n)) yS meth (fun _ l b => by
        have hl := slice_lt l
        have hs : (stack (t (i * n)) (fun l : Fin (sliceLen nt (1 + i * n) n) => t (1 + i * n + l.val)) : Fin _ → β → ℝ) l.succ b = t (i * n + l.val + 1) b := by
          rw [stack_block t (i * n)]; rfl
        rw [diff_block, hs]
        exact hv _ b (by omega))
        (newtonIterate (blockRJ .backwardEuler (Func.lift fun b t y => ((M v.1 b t).mulVec y + c v.1 b t, M v.1 b t)) (fun l : Fin (sliceLen nt (1 + i * n) n) => t (1 + i * n + l.val)) (t (i * n)) yS)
          (fun J R => solve meth J R) (fun x dx => x - dx) 0 k')
      rw [hk']
      unfold newtonIterate at this ⊢
      rw [Function.iterate_succ_apply']
      simp only at this
      rw [this]
      rfl) k hk b
    simp only [defect, backwardDefect] at this
    rw [sub_sub, sub_eq_zero] at this
    exact this
  have hinv : ∀ᶠ v : (Fin p → ℝ) × (β → Fin m → ℝ) in 𝓝 (p0, y0), ∀ k < nt, ∀ b, k + 1 < nt →
      IsUnit (1 - (t (k + 1) b - t k b) • M v.1 b (t (k + 1) b)).det := by
    refine (Set.finite_lt_nat nt).eventually_all.2 fun k _ => eventually_all.2 fun b => ?_
    by_cases hk : k + 1 < nt
    · have h1 : ContinuousAt (fun v : (Fin p → ℝ) × (β → Fin m → ℝ) => M v.1 b (t (k + 1) b)) (p0, y0) :=
        ContinuousAt.comp (f := Prod.fst) (x := (p0, y0)) (hMc (k + 1) hk b) continuous_fst.continuousAt
      have hc : Continuous fun M : Matrix (Fin m) (Fin m) ℝ => (1 - (t (k + 1) b - t k b) • M).det :=
        Continuous.matrix_det (continuous_const.sub (continuous_id.fun_const_smul _))
      have h2 := ((hc.tendsto _).comp h1).eventually_ne (hA k b hk).ne_zero
      exact h2.mono fun i hi _ => isUnit_iff_ne_zero.2 hi
    · exact Eventually.of_forall fun i h => absurd h hk
  have r0 : ∀ v, rows v 0 = v.2 := fun v => recorded_zero _ _ _ _ _ _ _ _
  refine ⟨hinv.mono fun v hv => ⟨key v fun k b hk => hv k (by omega) b hk, r0 v⟩, ?_⟩
  have h0 := key (p0, y0) hA
  obtain ⟨y, y1, y2, y3, -, grad, lam, y4, y5⟩ := C83_backward d (fun q b t y => (M q b t).mulVec y + c q b t)
    (fun b t _ => M p0 b t) fp nt hnt t (rows (p0, y0)) p0 n (by exact_mod_cast hn) g h0 (fun k hk b => hA k b hk) hR
  rw [r0] at y1 y3 y5
  refine ⟨grad, lam, y4, y5.2.congr_of_eventuallyEq ?_⟩
  filter_upwards [hinv, y3] with v hv hy
  have h3 := key v fun k b hk => hv k (by omega) b hk
  refine Finset.sum_congr rfl fun k hk => Finset.sum_congr rfl fun b _ => ?_
  have : ∀ k, k < nt → rows v k = y v.1 v.2 k := by
    intro k
    induction k with
    | zero => intro _; rw [y2, r0]
    | succ k ih =>
      intro hk
      funext b
      have e1 := h3 k b hk
      have e2 := hy k b hk
      have hu := hv k (by omega) b hk
      have e3 : ∀ z w : Fin m → ℝ, z = w + (t (k + 1) b - t k b) • ((M v.1 b (t (k + 1) b)).mulVec z + c v.1 b (t (k + 1) b)) →
          (1 - (t (k + 1) b - t k b) • M v.1 b (t (k + 1) b)).mulVec z = w + (t (k + 1) b - t k b) • c v.1 b (t (k + 1) b) := by
        intro z w h
        rw [Matrix.sub_mulVec, Matrix.one_mulVec, Matrix.smul_mulVec, sub_eq_iff_eq_add]
        rw [smul_add] at h
        rw [add_assoc, add_comm ((t (k + 1) b - t k b) • c v.1 b (t (k + 1) b))]
        exact h
      have e4 := (e3 _ _ e1).trans ((congrArg (fun z => z + _) (congrFun (ih (by omega)) b)).trans (e3 _ _ e2).symm)
      have e5 := congrArg ((1 - (t (k + 1) b - t k b) • M v.1 b (t (k + 1) b))⁻¹).mulVec e4
      rwa [Matrix.mulVec_mulVec, Matrix.mulVec_mulVec, Matrix.nonsing_inv_mul _ hu, Matrix.one_mulVec, Matrix.one_mulVec] at e5
  rw [this k (Finset.mem_range.1 hk)]

/-- **C129.** Backward Euler. If in every block the steps `dt · rate` at the initial state are below the absolute tolerance (nothing moves, or only slowly), the run succeeds without any Newton update, the rows all are the initial state, and
backpropagation returns a gradient with respect to the parameters that is exactly zero, whatever the sensitivity of the model: the parameters do not enter what was recorded. -/
theorem C129_no_update (cfg : Config) (hs : cfg.scheme = .backwardEuler) (hg : cfg.guessType = "zero") (hm : 0 < cfg.miter)
    (rate : (Fin p → ℝ) → β → ℝ → (Fin m → ℝ) → Fin m → ℝ) (J : (Fin p → ℝ) → β → ℝ → (Fin m → ℝ) → Matrix (Fin m) (Fin m) ℝ) (nt : ℕ) (hnt : 0 < nt) (t : ℕ → β → ℝ) (p0 : Fin p → ℝ) (y0 : β → Fin m → ℝ)
    (n : ℤ) (hn : 0 < n) (g : ℕ → β → Fin m → ℝ)
    (hsmall : ∀ k, 1 ≤ k → k < nt → ∀ b, rowsNorm (sliceLen nt k n.toNat) (fun j => (t (k + j) b - t (k + j - 1) b) • rate p0 b (t (k + j) b) (y0 b)) ≤ cfg.atol) :
    ∃ res, integrate cfg (Func.lift fun b t y => (rate p0 b t y, J p0 b t y)) y0 nt t n = .ok (res, false) ∧ (∀ k < nt, res.get k = y0) ∧
      (∀ i, 1 + i * n.toNat < nt → (blockNewton cfg (Func.lift fun b t y => (rate p0 b t y, J p0 b t y)) (fun l : Fin (sliceLen nt (1 + i * n.toNat) n.toNat) => t (1 + i * n.toNat + l.val)) (t (i * n.toNat))
        (res.get (i * n.toNat)) 0).iters = 0) ∧
      HasFDerivAt (fun v : (Fin p → ℝ) × (β → Fin m → ℝ) => ∑ k ∈ Finset.range nt, ∑ b,
        g k b ⬝ᵥ recordedIntegrate cfg.scheme cfg.method (Func.lift fun b t y => (rate v.1 b t y, J v.1 b t y)) v.2 nt n.toNat t (fun _ => 0) k b)
        (totalGrad 0 (fun b => ∑ k ∈ Finset.range nt, g k b)) (p0, y0) := by
  have hn' : 0 < n.toNat := by omega
  set F : BFunc β m := Func.lift fun b t y => (rate p0 b t y, J p0 b t y) with hF
  have met : ∀ k, 1 ≤ k → k < nt → MetTolerance (fun b => rowNorm ((blockRJ cfg.scheme F (fun j : Fin (sliceLen nt k n.toNat) => t (k + j.val)) (t (k - 1)) y0 0).1 b))
      (fun b => rowNorm ((blockRJ cfg.scheme F (fun j : Fin (sliceLen nt k n.toNat) => t (k + j.val)) (t (k - 1)) y0 0).1 b)) cfg.rtol cfg.atol := by
    intro k hk1 hk2
    left
    intro b
    rw [hs]
    refine le_trans (le_of_eq ?_) (hsmall k hk1 hk2 b)
    have hneg : rowsNorm (sliceLen nt k n.toNat) (fun j => (t (k + j) b - t (k + j - 1) b) • rate p0 b (t (k + j) b) (y0 b)) =
        rowsNorm (sliceLen nt k n.toNat) (fun j => -((t (k + j) b - t (k + j - 1) b) • rate p0 b (t (k + j) b) (y0 b))) := by
      unfold rowsNorm
      simp only [Pi.neg_apply, neg_sq]
    rw [hneg]
    refine rowNorm_eq_rowsNorm _ b _ fun j => ?_
    rw [be_residual]
    have z1 : unflatten (0 : β → Fin (sliceLen nt k n.toNat * m) → ℝ) j b = 0 := rfl
    have z2 : (stack 0 (unflatten (0 : β → Fin (sliceLen nt k n.toNat * m) → ℝ)) : Fin _ → BVec β m ℝ) j.castSucc b = 0 := by
      refine Fin.cases ?_ (fun l => ?_) j.castSucc
      · simp [stack]
      · simp only [stack, Fin.cons_succ]; rfl
    have z3 : (stack (t (k - 1)) (fun j : Fin (sliceLen nt k n.toNat) => t (k + j.val)) : Fin _ → β → ℝ) j.succ b = t (k + j.val) b := by simp [stack]
    have z4 : (stack (t (k - 1)) (fun j : Fin (sliceLen nt k n.toNat) => t (k + j.val)) : Fin _ → β → ℝ) j.castSucc b = t (k + j.val - 1) b := by
      obtain ⟨k', rfl⟩ : ∃ k', k = 1 + k' := ⟨k - 1, by omega⟩
      have := congrFun (stack_block t k' (sliceLen nt (1 + k') n.toNat) j.castSucc) b
      rw [Fin.val_castSucc] at this
      have e1 : 1 + k' - 1 = k' := by omega
      have e2 : 1 + k' + j.val - 1 = k' + j.val := by omega
      rw [e1, e2]
      exact this
    unfold diff
    rw [z1, z2, z3, z4, zero_add, sub_zero, zero_sub]
  have fst : ∀ k, 1 ≤ k → k < nt → ∃ dy, (blockNewton cfg F (fun j : Fin (sliceLen nt k n.toNat) => t (k + j.val)) (t (k - 1)) y0 0).result = .ok dy ∧
      (blockNewton cfg F (fun j : Fin (sliceLen nt k n.toNat) => t (k + j.val)) (t (k - 1)) y0 0).warned = false ∧ dy = 0 ∧
      (blockNewton cfg F (fun j : Fin (sliceLen nt k n.toNat) => t (k + j.val)) (t (k - 1)) y0 0).iters = 0 := by
    intro k hk1 hk2
    obtain ⟨dy, h1, h2⟩ := newton_succeeds (blockRJ cfg.scheme F (fun j : Fin (sliceLen nt k n.toNat) => t (k + j.val)) (t (k - 1)) y0) (fun J R => solve cfg.method J R) (fun x dx => x - dx)
      (fun R b => rowNorm (R b)) 0 cfg.rtol cfg.atol cfg.miter cfg.throwOnFail 0 (by exact_mod_cast hm) (met k hk1 hk2)
    obtain ⟨-, h4, h5⟩ := C10_returns_first_iterate (blockRJ cfg.scheme F (fun j : Fin (sliceLen nt k n.toNat) => t (k + j.val)) (t (k - 1)) y0) (fun J R => solve cfg.method J R) (fun x dx => x - dx)
      (fun R b => rowNorm (R b)) 0 cfg.rtol cfg.atol cfg.miter hm.le cfg.throwOnFail
    have hz : (blockNewton cfg F (fun j : Fin (sliceLen nt k n.toNat) => t (k + j.val)) (t (k - 1)) y0 0).iters = 0 := by
      by_contra hne
      exact h5 0 (Nat.pos_of_ne_zero hne) (met k hk1 hk2)
    refine ⟨dy, h1, h2, ?_, hz⟩
    have := h4 dy h1
    have hz' : (newtonChunk (blockRJ cfg.scheme F (fun j : Fin (sliceLen nt k n.toNat) => t (k + j.val)) (t (k - 1)) y0) (fun J R => solve cfg.method J R) (fun x dx => x - dx)
      (fun R b => some (rowNorm (R b))) 0 cfg.rtol cfg.atol cfg.miter cfg.throwOnFail).iters = 0 := hz
    rw [hz'] at this
    exact this
  obtain ⟨res, r1, r2⟩ := integrate_traj cfg F nt hnt n hn t hg (fun _ => y0) (fun k hk1 hk2 => by
    obtain ⟨dy, a1, a2, a3, -⟩ := fst k hk1 hk2
    refine ⟨dy, a1, a2, fun j => ?_⟩
    rw [a3]
    funext b i
    simp [unflatten])
  refine ⟨res, r1, r2, fun i hi => ?_, ?_⟩
  · rw [r2 _ (by omega)]
    obtain ⟨dy, -, -, -, a4⟩ := fst (1 + i * n.toNat) (by omega) hi
    rwa [Nat.add_sub_cancel_left] at a4
  · have hrow : ∀ v : (Fin p → ℝ) × (β → Fin m → ℝ), ∀ k < nt, recordedIntegrate cfg.scheme cfg.method (Func.lift fun b t y => (rate v.1 b t y, J v.1 b t y)) v.2 nt n.toNat t (fun _ => 0) k = v.2 := by
      intro v k
      induction k using Nat.strong_induction_on with
      | _ k ih =>
        intro hk
        rcases Nat.eq_zero_or_pos k with rfl | hpos
        · exact recorded_zero _ _ _ _ _ _ _ _
        · obtain ⟨i, hi, h1, h2⟩ := block_of_row hn' hpos hk
          have ek : k = 1 + i * n.toNat + (⟨k - (1 + i * n.toNat), h2⟩ : Fin (sliceLen nt (1 + i * n.toNat) n.toNat)).val := by simp only; omega
          rw [ek, recorded_row _ _ _ _ _ _ _ _ hi, ih (i * n.toNat) (by omega) (by omega), recordedBlock_eq]
          funext b r
          simp [newtonIterate, unflatten]
    have e : (fun v : (Fin p → ℝ) × (β → Fin m → ℝ) => ∑ k ∈ Finset.range nt, ∑ b,
        g k b ⬝ᵥ recordedIntegrate cfg.scheme cfg.method (Func.lift fun b t y => (rate v.1 b t y, J v.1 b t y)) v.2 nt n.toNat t (fun _ => 0) k b) =
        fun v => totalGrad (0 : Fin p → ℝ) (fun b => ∑ k ∈ Finset.range nt, g k b) v := by
      funext v
      rw [totalGrad_apply, zero_dotProduct, zero_add, Finset.sum_comm]
      refine Finset.sum_congr rfl fun b _ => ?_
      rw [sum_dotProduct]
      exact Finset.sum_congr rfl fun k hk => by rw [hrow v k (Finset.mem_range.1 hk)]
    rw [e]
    exact (totalGrad (0 : Fin p → ℝ) (fun b => ∑ k ∈ Finset.range nt, g k b)).hasFDerivAt

/-! ## Non-vacuity -/

/-- `y' = q y`, two steps, one update each: exact. -/
example : ∃ grad lam, rewind .backwardEuler .thomas (fun (_ : Unit) (_ : ℝ) (y : Fin 1 → ℝ) => ((!![(-1 : ℝ)] : Matrix (Fin 1) (Fin 1) ℝ).mulVec y + 0, !![(-1 : ℝ)])) (fun _ _ y => !![y 0]) 3 (fun k _ => (k : ℝ))
      (recordedIntegrate .backwardEuler .dense (Func.lift fun (_ : Unit) (_ : ℝ) (y : Fin 1 → ℝ) => ((!![(-1 : ℝ)] : Matrix (Fin 1) (Fin 1) ℝ).mulVec y + 0, !![(-1 : ℝ)])) (fun _ _ => 1) 3 2 (fun k _ => (k : ℝ)) (fun _ => 1))
      (fun _ _ _ => 1) 2 = .ok (grad, lam) ∧
    HasFDerivAt (fun v : (Fin 1 → ℝ) × (Unit → Fin 1 → ℝ) => ∑ k ∈ Finset.range 3, ∑ b : Unit, (fun _ : Fin 1 => (1 : ℝ)) ⬝ᵥ
      recordedIntegrate .backwardEuler .dense (Func.lift fun (_ : Unit) (_ : ℝ) (y : Fin 1 → ℝ) => ((!![v.1 0] : Matrix (Fin 1) (Fin 1) ℝ).mulVec y + 0, !![v.1 0])) v.2 3 2 (fun k _ => (k : ℝ)) (fun _ => 1) k b)
      (totalGrad grad lam) (fun _ => -1, fun _ _ => 1) := by
  exact (C129_linear (β := Unit) (m := 1) (p := 1) .thomas .dense (fun q _ _ => !![q 0]) (fun _ _ _ => 0) (fun _ _ y => !![y 0]) 3 (by norm_num) (fun k _ => (k : ℝ)) (fun _ => -1) (fun _ _ => 1) 2 (by norm_num)
    (fun _ _ _ => 1) (fun _ => 1) (fun _ => le_rfl) (by
      intro k b _
      rw [Matrix.det_fin_one, isUnit_iff_ne_zero]
      simp [Matrix.sub_apply]) (by
      intro k _ b
      refine continuousAt_pi.2 fun i => continuousAt_pi.2 fun j => ?_
      obtain rfl : i = 0 := Subsingleton.elim _ _
      obtain rfl : j = 0 := Subsingleton.elim _ _
      exact (continuous_apply 0).continuousAt) (by
      intro k _ b
      have := ex_strict (fun _ => -1) (recordedIntegrate .backwardEuler .dense
        (Func.lift fun (_ : Unit) (_ : ℝ) (y : Fin 1 → ℝ) => ((!![(-1 : ℝ)] : Matrix (Fin 1) (Fin 1) ℝ).mulVec y + 0, !![(-1 : ℝ)])) (fun _ _ => 1) 3 2 (fun k _ => (k : ℝ)) (fun _ => 1) k b)
      refine HasStrictFDerivAt.congr_of_eventuallyEq this (Eventually.of_forall fun x => ?_)
      funext i
      obtain rfl : i = 0 := Subsingleton.elim _ _
      simp [Matrix.mulVec, dotProduct])).2

/-- The finding behind `C129_no_update`: `y' = q - y` at `q = 0`, `y = 0`, where nothing moves. A run with any tolerances makes no update and backpropagation reports gradient `0` with respect to `q`, although the exact gradient of the
sum of the two rows is `1/2` (what the adjoint method, and backpropagation after one update, report). -/
example (rtol atol : ℝ) (ha : 0 ≤ atol) :
    (∃ res, integrate (β := Unit) (m := 1) { scheme := .backwardEuler, method := .direct .thomas, rtol := rtol, atol := atol, miter := 100, throwOnFail := true, guessType := "zero" }
        (Func.lift fun _ _ y => (fun i => (0 : Fin 1 → ℝ) i - y i, !![(-1 : ℝ)])) (fun _ _ => 0) 2 (fun k _ => (k : ℝ)) 1 = .ok (res, false) ∧
      HasFDerivAt (fun v : (Fin 1 → ℝ) × (Unit → Fin 1 → ℝ) => ∑ k ∈ Finset.range 2, ∑ b : Unit, (fun _ : Fin 1 => (1 : ℝ)) ⬝ᵥ
        recordedIntegrate .backwardEuler (.direct .thomas) (Func.lift fun (_ : Unit) (_ : ℝ) (y : Fin 1 → ℝ) => (fun i => v.1 i - y i, !![(-1 : ℝ)])) v.2 2 1 (fun k _ => (k : ℝ)) (fun _ => 0) k b)
        (totalGrad 0 (fun _ => ∑ _k ∈ Finset.range 2, fun _ => 1)) (0, fun _ _ => 0)) ∧
    ∃ grad lam, rewind .backwardEuler .thomas (fun (_ : Unit) (_ : ℝ) (y : Fin 1 → ℝ) => ((!![(-1 : ℝ)] : Matrix (Fin 1) (Fin 1) ℝ).mulVec y + (0 : Fin 1 → ℝ), !![(-1 : ℝ)])) (fun _ _ _ => !![(1 : ℝ)]) 2 (fun k _ => (k : ℝ))
      (recordedIntegrate .backwardEuler (.direct .thomas) (Func.lift fun (_ : Unit) (_ : ℝ) (y : Fin 1 → ℝ) => ((!![(-1 : ℝ)] : Matrix (Fin 1) (Fin 1) ℝ).mulVec y + (0 : Fin 1 → ℝ), !![(-1 : ℝ)])) (fun _ _ => 0) 2 1
        (fun k _ => (k : ℝ)) (fun _ => 1)) (fun _ _ _ => 1) 1 = .ok (grad, lam) ∧ grad 0 = 1 / 2 := by
  refine ⟨?_, ?_⟩
  · obtain ⟨res, h1, -, -, h4⟩ := C129_no_update (β := Unit) (m := 1) (p := 1)
      { scheme := .backwardEuler, method := .direct .thomas, rtol := rtol, atol := atol, miter := 100, throwOnFail := true, guessType := "zero" } rfl rfl (by norm_num)
      (fun q _ _ y i => q i - y i) (fun _ _ _ _ => !![-1]) 2 (by norm_num) (fun k _ => (k : ℝ)) 0 (fun _ _ => 0) 1 (by norm_num) (fun _ _ _ => 1) (by
        intro k _ _ b
        unfold rowsNorm
        simp
        exact ha)
    exact ⟨res, h1, h4⟩
  · obtain ⟨ev, grad, lam, h1, h2⟩ := C129_linear (β := Unit) (m := 1) (p := 1) .thomas (.direct .thomas) (fun _ _ _ => !![-1]) (fun q _ _ => q) (fun _ _ _ => !![1]) 2 (by norm_num) (fun k _ => (k : ℝ)) 0 (fun _ _ => 0) 1
      (by norm_num) (fun _ _ _ => 1) (fun _ => 1) (fun _ => le_rfl) (by
        intro k b _
        rw [Matrix.det_fin_one, isUnit_iff_ne_zero]
        simp [Matrix.sub_apply]) (fun k _ b => continuousAt_const) (by
        intro k _ b
        have := ((matCLM !![(1 : ℝ)]).coprod (matCLM !![(-1 : ℝ)])).hasStrictFDerivAt (x := ((0 : Fin 1 → ℝ), recordedIntegrate .backwardEuler (.direct .thomas)
          (Func.lift fun (_ : Unit) (_ : ℝ) (y : Fin 1 → ℝ) => ((!![(-1 : ℝ)] : Matrix (Fin 1) (Fin 1) ℝ).mulVec y + (0 : Fin 1 → ℝ), !![(-1 : ℝ)])) (fun _ _ => 0) 2 1 (fun k _ => (k : ℝ)) (fun _ => 1) k b))
        refine HasStrictFDerivAt.congr_of_eventuallyEq this (Eventually.of_forall fun x => ?_)
        funext i
        obtain rfl : i = 0 := Subsingleton.elim _ _
        simp [matCLM_apply, Matrix.mulVec, dotProduct]
        ring)
    refine ⟨grad, lam, h1, ?_⟩
    have h3 : HasFDerivAt (fun v : (Fin 1 → ℝ) × (Unit → Fin 1 → ℝ) => v.2 () 0 + (v.2 () 0 + v.1 0) / 2) (totalGrad grad lam) (0, fun _ _ => 0) := by
      refine h2.congr_of_eventuallyEq (ev.mono fun v hv => ?_)
      obtain ⟨hv1, hv2⟩ := hv
      beta_reduce at hv1 hv2 ⊢
      generalize recordedIntegrate .backwardEuler (.direct .thomas) (Func.lift fun (_ : Unit) (_ : ℝ) (y : Fin 1 → ℝ) => ((!![(-1 : ℝ)] : Matrix (Fin 1) (Fin 1) ℝ).mulVec y + v.1, !![(-1 : ℝ)])) v.2 2 1
        (fun k _ => (k : ℝ)) (fun _ => 1) = r at hv2 hv1 ⊢
      have e' : r 1 () 0 = r 0 () 0 + (((0 + 1 : ℕ) : ℝ) - ((0 : ℕ) : ℝ)) * ((!![(-1 : ℝ)] : Matrix (Fin 1) (Fin 1) ℝ).mulVec (r 1 ()) 0 + v.1 0) := congrFun (hv1 0 () (by norm_num)) 0
      have e2 : (!![(-1 : ℝ)] : Matrix (Fin 1) (Fin 1) ℝ).mulVec (r 1 ()) 0 = -r 1 () 0 := by simp [Matrix.mulVec, dotProduct]
      rw [e2, hv2] at e'
      simp only [Finset.sum_range_succ, Finset.sum_range_zero, zero_add, Finset.univ_unique, Finset.sum_singleton]
      rw [hv2]
      simp [dotProduct]
      push_cast at e'
      linarith
    have h4 := HasFDerivAt.comp_hasDerivAt (0 : ℝ) (f := fun s : ℝ => (((fun _ => s), fun _ _ => 0) : (Fin 1 → ℝ) × (Unit → Fin 1 → ℝ))) (f' := ((fun _ => 1), fun _ _ => 0))
      (by exact h3) ((hasDerivAt_pi.2 fun _ => hasDerivAt_id (0 : ℝ)).prodMk (hasDerivAt_const _ _))
    have h5 : HasDerivAt (fun s : ℝ => (0 : ℝ) + (0 + s) / 2) (1 / 2) 0 := by
      have := ((hasDerivAt_id (0 : ℝ)).const_add 0).div_const 2 |>.const_add 0
      exact this
    have := h4.unique h5
    rw [totalGrad_apply] at this
    simpa [dotProduct] using this

/-- the Newton iterates of `y = 2 - y^2` from `0`: `0, 2, 6/5, ...` -/
private noncomputable def exS : ℕ → ℝ
  | 0 => 0
  | j + 1 => (2 + exS j ^ 2) / (1 + 2 * exS j)

private theorem exS_nonneg (j : ℕ) : 0 ≤ exS j := by
  induction j with
  | zero => exact le_rfl
  | succ j ih => unfold exS; positivity

private theorem exS_bound (j : ℕ) : 1 ≤ exS (j + 1) ∧ exS (j + 1) ≤ 1 + (1 / 2) ^ j := by
  induction j with
  | zero => norm_num [exS]
  | succ j ih =>
    obtain ⟨h1, h2⟩ := ih
    have e : exS (j + 1 + 1) = (2 + exS (j + 1) ^ 2) / (1 + 2 * exS (j + 1)) := rfl
    have hp : 0 < 1 + 2 * exS (j + 1) := by linarith
    rw [e, le_div_iff₀ hp, div_le_iff₀ hp]
    refine ⟨by nlinarith [sq_nonneg (exS (j + 1) - 1)], ?_⟩
    rw [pow_succ (1 / 2 : ℝ) j]
    have hb : (0 : ℝ) ≤ (1 / 2) ^ j := by positivity
    nlinarith [mul_nonneg (sub_nonneg.2 h1) (sub_nonneg.2 h2), mul_nonneg (sub_nonneg.2 h1) hb]

private theorem exS_lim : Tendsto exS atTop (𝓝 1) := by
  rw [← tendsto_add_atTop_iff_nat 1]
  refine tendsto_of_tendsto_of_tendsto_of_le_of_le tendsto_const_nhds (h := fun j : ℕ => 1 + (1 / 2 : ℝ) ^ j) ?_ (fun j => (exS_bound j).1) (fun j => (exS_bound j).2)
  simpa using (tendsto_pow_atTop_nhds_zero_of_lt_one (r := (1 / 2 : ℝ)) (by norm_num) (by norm_num)).const_add 1

private theorem exS_block (meth : SolveMethod) {L : ℕ} (hL : L = 1) (T : Fin L → Unit → ℝ) (tS : Unit → ℝ) (hT : ∀ l b, T l b - tS b = 1) (j : ℕ) (l : Fin L) :
    recordedBlock .backwardEuler meth (Func.lift fun (_ : Unit) (_ : ℝ) (y : Fin 1 → ℝ) => (fun i => 2 - y i ^ 2, !![-2 * y 0])) T tS (fun _ _ => 0) j l = fun _ _ => exS j := by
  subst hL
  obtain rfl : l = 0 := Subsingleton.elim _ _
  have hd : ∀ k b, diff (stack tS T) k b = 1 := by
    intro k b
    obtain rfl : k = 0 := Subsingleton.elim _ _
    have := hT 0 b
    simpa [diff, stack] using this
  induction j with
  | zero =>
    funext b i
    simp [recordedBlock, unflatten, exS]
  | succ j ih =>
    funext b i
    obtain rfl : i = 0 := Subsingleton.elim _ _
    set x := (fun x => x - solve meth (blockRJ .backwardEuler (Func.lift fun (_ : Unit) (_ : ℝ) (y : Fin 1 → ℝ) => (fun i => 2 - y i ^ 2, !![-2 * y 0])) T tS (fun _ _ => 0) x).2
      (blockRJ .backwardEuler (Func.lift fun (_ : Unit) (_ : ℝ) (y : Fin 1 → ℝ) => (fun i => 2 - y i ^ 2, !![-2 * y 0])) T tS (fun _ _ => 0) x).1)^[j] 0 with hx
    have ex : ∀ k b, (unflatten x k b + (fun _ => 0 : Fin 1 → ℝ)) = fun _ => exS j := by
      intro k b
      obtain rfl : k = 0 := Subsingleton.elim _ _
      exact congrFun ih b
    have ex' : unflatten x 0 b 0 = exS j := by
      have := congrFun (ex 0 b) 0
      simpa using this
    have main := be_newton_update (fun (_ : Unit) (_ : ℝ) (y : Fin 1 → ℝ) => (fun i => 2 - y i ^ 2, !![-2 * y 0])) (n := 1) (by norm_num) T tS (fun _ _ => 0) meth x (by
      intro k b
      rw [hd, ex, Matrix.det_fin_one, isUnit_iff_ne_zero]
      have := exS_nonneg j
      simp [Matrix.sub_apply]
      linarith) 0 b
    simp only at main
    rw [hd, ex] at main
    have e0 := congrFun main 0
    have hr : recordedBlock .backwardEuler meth (Func.lift fun (_ : Unit) (_ : ℝ) (y : Fin 1 → ℝ) => (fun i => 2 - y i ^ 2, !![-2 * y 0])) T tS (fun _ _ => 0) (j + 1) 0 b 0 =
        unflatten (x - solve meth (blockRJ .backwardEuler (Func.lift fun (_ : Unit) (_ : ℝ) (y : Fin 1 → ℝ) => (fun i => 2 - y i ^ 2, !![-2 * y 0])) T tS (fun _ _ => 0) x).2
          (blockRJ .backwardEuler (Func.lift fun (_ : Unit) (_ : ℝ) (y : Fin 1 → ℝ) => (fun i => 2 - y i ^ 2, !![-2 * y 0])) T tS (fun _ _ => 0) x).1) 0 b 0 := by
      unfold recordedBlock
      rw [Function.iterate_succ_apply']
      simp [hx]
    rw [hr]
    generalize hz : x - solve meth (blockRJ .backwardEuler (Func.lift fun (_ : Unit) (_ : ℝ) (y : Fin 1 → ℝ) => (fun i => 2 - y i ^ 2, !![-2 * y 0])) T tS (fun _ _ => 0) x).2
          (blockRJ .backwardEuler (Func.lift fun (_ : Unit) (_ : ℝ) (y : Fin 1 → ℝ) => (fun i => 2 - y i ^ 2, !![-2 * y 0])) T tS (fun _ _ => 0) x).1 = z at e0 ⊢
    have z0 : (stack 0 (unflatten z) : Fin (1 + 1) → BVec Unit 1 ℝ) (Fin.castSucc 0) b 0 = 0 := by simp [stack]
    rw [Pi.sub_apply, z0] at e0
    have e1 : unflatten z 0 b 0 = 2 - exS j ^ 2 + (-2 * exS j) * (unflatten z 0 b 0 - exS j) := by
      simpa [Matrix.mulVec, dotProduct, ex'] using e0
    have hp : 0 < 1 + 2 * exS j := by have := exS_nonneg j; linarith
    change _ = (2 + exS j ^ 2) / (1 + 2 * exS j)
    rw [eq_div_iff hp.ne']
    linarith

/-- `C129_limit` for `y' = q - y^2`, `q = 2`, one step of length one from `0` to `1`. -/
example : ∃ D : (Fin 1 → ℝ) × (Unit → Fin 1 → ℝ) →L[ℝ] ℝ, ∀ eps > 0, ∃ N : ℕ, ∀ K ≥ N, ∃ DK, HasFDerivAt (fun v : (Fin 1 → ℝ) × (Unit → Fin 1 → ℝ) => ∑ k ∈ Finset.range 2, ∑ b : Unit, (fun _ : Fin 1 => (1 : ℝ)) ⬝ᵥ
      recordedIntegrate .backwardEuler .dense (Func.lift fun (_ : Unit) (_ : ℝ) (y : Fin 1 → ℝ) => (fun i => v.1 0 - y i ^ 2, !![-2 * y 0])) v.2 2 1 (fun k _ => (k : ℝ)) (fun _ => K) k b) DK ((fun _ => 2), fun _ _ => 0) ∧
      ‖DK - D‖ < eps := by
  have mul_id : ∀ a : ℝ, matCLM !![a] = a • ContinuousLinearMap.id ℝ (Fin 1 → ℝ) := by
    intro a
    ext v i
    obtain rfl : i = 0 := Subsingleton.elim _ _
    simp [matCLM_apply, Matrix.mulVec, dotProduct]
  have smooth : ∀ z : (Fin 1 → ℝ) × (Fin 1 → ℝ), ContDiffAt ℝ 1 (fun x : (Fin 1 → ℝ) × (Fin 1 → ℝ) => fun i => x.1 0 - x.2 i ^ 2) z ∧
      ContDiffAt ℝ 1 (fun x : (Fin 1 → ℝ) × (Fin 1 → ℝ) => matCLM !![-2 * x.2 0]) z := by
    intro z
    refine ⟨by fun_prop, ?_⟩
    simp only [mul_id]
    fun_prop
  obtain ⟨y, -, -, -, grad, lam, -, h⟩ := C129_limit (β := Unit) (m := 1) (p := 1) .thomas .dense (fun q _ _ y i => q 0 - y i ^ 2) (fun _ _ _ y => !![-2 * y 0]) (fun _ _ _ => !![1]) 2 (by norm_num) (fun k _ => (k : ℝ))
    (fun k _ _ => if k = 0 then 0 else 1) (fun _ => 2) 1 (by norm_num) (fun _ _ _ => 1) (by
      intro k b hk
      obtain rfl : k = 0 := by omega
      funext i
      norm_num) (by
      intro k hk b
      obtain rfl : k = 0 := by omega
      rw [Matrix.det_fin_one, isUnit_iff_ne_zero]
      norm_num [Matrix.sub_apply]) (by
      intro k hk b
      have hs := (smooth ((fun _ => 2), fun _ => if k = 0 then 0 else 1)).1.hasStrictFDerivAt (by norm_num)
      refine hs.congr_fderiv ?_
      refine (HasFDerivAt.fderiv ?_)
      rw [hasFDerivAt_pi']
      intro i
      obtain rfl : i = 0 := Subsingleton.elim _ _
      have h1 : HasFDerivAt (fun x : (Fin 1 → ℝ) × (Fin 1 → ℝ) => x.1 0) ((ContinuousLinearMap.proj (R := ℝ) (φ := fun _ : Fin 1 => ℝ) 0).comp (ContinuousLinearMap.fst ℝ (Fin 1 → ℝ) (Fin 1 → ℝ))) ((fun _ => 2), fun _ => if k = 0 then 0 else 1) :=
        ((ContinuousLinearMap.proj (R := ℝ) (φ := fun _ : Fin 1 => ℝ) 0).comp (ContinuousLinearMap.fst ℝ (Fin 1 → ℝ) (Fin 1 → ℝ))).hasFDerivAt
      have h2 : HasFDerivAt (fun x : (Fin 1 → ℝ) × (Fin 1 → ℝ) => x.2 0) ((ContinuousLinearMap.proj (R := ℝ) (φ := fun _ : Fin 1 => ℝ) 0).comp (ContinuousLinearMap.snd ℝ (Fin 1 → ℝ) (Fin 1 → ℝ))) ((fun _ => 2), fun _ => if k = 0 then 0 else 1) :=
        ((ContinuousLinearMap.proj (R := ℝ) (φ := fun _ : Fin 1 => ℝ) 0).comp (ContinuousLinearMap.snd ℝ (Fin 1 → ℝ) (Fin 1 → ℝ))).hasFDerivAt
      refine (h1.sub (h2.pow 2)).congr_fderiv ?_
      by_cases hk0 : k = 0 <;> ext v <;> simp [matCLM_apply, Matrix.mulVec, dotProduct, hk0])
    (fun k _ b => smooth _) (fun k _ b => continuousAt_const) (fun _ j _ _ _ => exS j) (by
      intro i j l
      have hl := l.2
      unfold sliceLen at hl
      obtain rfl : i = 0 := by omega
      refine (exS_block .dense rfl _ _ (by
        intro l b
        have hl := l.2
        unfold sliceLen at hl
        have : l.val = 0 := by omega
        simp [this]) j l).symm) (by
      intro i j k b h1 h2 h3
      obtain rfl : k = 1 := by omega
      rw [Matrix.det_fin_one, isUnit_iff_ne_zero]
      have := exS_nonneg j
      simp [Matrix.sub_apply]
      linarith) (fun i j k b _ _ _ => smooth _) (by
      intro i k b h1 h2 h3
      obtain rfl : k = 1 := by omega
      exact tendsto_pi_nhds.2 fun _ => exS_lim)
  refine ⟨totalGrad grad lam, fun eps he => ?_⟩
  obtain ⟨N, hN⟩ := h eps he
  refine ⟨N, fun K hK => ?_⟩
  obtain ⟨-, D, -, -, h1, h2, -⟩ := hN (fun _ => K) (fun _ => hK)
  exact ⟨D, h1, h2⟩

/-- `C129_forward` for `y' = q y`, two blocks of one step, one update each. -/
example : ∃ grad lam, rewind .forwardEuler .thomas (fun (_ : Unit) (_ : ℝ) (y : Fin 1 → ℝ) => (fun i => (-1 : ℝ) * y i, !![(-1 : ℝ)])) (fun _ _ y => !![y 0]) 3 (fun k _ => (k : ℝ))
      (recordedIntegrate .forwardEuler .dense (Func.lift fun (_ : Unit) (_ : ℝ) (y : Fin 1 → ℝ) => (fun i => (-1 : ℝ) * y i, !![(-1 : ℝ)])) (fun _ _ => 1) 3 1 (fun k _ => (k : ℝ)) (fun _ => 1))
      (fun _ _ _ => 1) 1 = .ok (grad, lam) ∧
    HasFDerivAt (fun v : (Fin 1 → ℝ) × (Unit → Fin 1 → ℝ) => ∑ k ∈ Finset.range 3, ∑ b : Unit, (fun _ : Fin 1 => (1 : ℝ)) ⬝ᵥ
      recordedIntegrate .forwardEuler .dense (Func.lift fun (_ : Unit) (_ : ℝ) (y : Fin 1 → ℝ) => (fun i => v.1 0 * y i, !![v.1 0])) v.2 3 1 (fun k _ => (k : ℝ)) (fun _ => 1) k b)
      (totalGrad grad lam) ((fun _ => -1), fun _ _ => 1) := by
  exact (C129_forward (β := Unit) (m := 1) (p := 1) .thomas .dense (fun q _ _ y i => q 0 * y i) (fun q _ _ _ => !![q 0]) (fun _ _ y => !![y 0]) 3 (by norm_num) (fun k _ => (k : ℝ)) (fun _ => -1) (fun _ _ => 1) 1 (by norm_num)
    (fun _ _ _ => 1) (fun _ => 1) (fun _ => le_rfl) (by
      intro k _ b
      have := ex_strict (fun _ => -1) (recordedIntegrate .forwardEuler .dense (Func.lift fun (_ : Unit) (_ : ℝ) (y : Fin 1 → ℝ) => (fun i => (-1 : ℝ) * y i, !![(-1 : ℝ)])) (fun _ _ => 1) 3 1 (fun k _ => (k : ℝ)) (fun _ => 1) k b)
      refine HasStrictFDerivAt.congr_of_eventuallyEq this (Eventually.of_forall fun x => ?_)
      funext i
      obtain rfl : i = 0 := Subsingleton.elim _ _
      simp)).2

end Pyoptmat.Props
