import Verif.Proofs.TensorAdjoint
import Verif.Props.TensorOde
import Verif.Props.Gradient

/-!
# C110: the adjoint pass as a torch program

`Model/TensorAdjoint.lean` has `rewind` with `update_adjoint` and `accumulate` on whole tensors. What `torch.autograd.grad` returns for the parameters is an argument of the model; the theorems assume
(`VjpIs`) that it is the vector-Jacobian product it is documented to be.
-/

namespace Pyoptmat.Props

open Pyoptmat.Tensor Pyoptmat.Spec Pyoptmat.Material Pyoptmat.Ode Filter Topology

variable {nb m nt p : ℕ}

/-- **C110.** `rewind(output_grad)` on tensors, for either scheme, any direct solver and any block size: it raises exactly when the lane level function does, and otherwise returns the same parameter gradient
and, as a tensor of shape `(nb, m)`, the same gradient with respect to the initial states. -/
theorem C110_rewind {P : Fin nb → Set ℝ} {func : Tensor → Tensor → Except String (Tensor × Tensor)} {f : Func (Fin nb) m} (hF : FuncIs nb m P func f.lift)
    {vjp : Tensor → Tensor → Tensor → Except String (Fin p → ℝ)} {fp : Fin nb → ℝ → (Fin m → ℝ) → Matrix (Fin m) (Fin p) ℝ} (hV : VjpIs nb m P vjp fp) (s : Scheme) (d : Chunktime.Direct)
    (hnt : 0 < nt) {t y g : Tensor} (ht : t.shape = [nb, nt]) (hy : y.shape = [m, nb, nt]) (hg : g.shape = [m, nb, nt]) (hP : ∀ (j : ℕ) (b : Fin nb), j < nt → t.data [b.val, j] ∈ P b) (q : ℤ) :
    match rewind s d f fp nt (fun k b => t.data [b.val, k]) (statesOf nb m y) (statesOf nb m g) q with
    | .error _ => ∃ e, tRewind s d func vjp t y g q = .error e
    | .ok z => ∃ L : Tensor, tRewind s d func vjp t y g q = .ok (z.1, L) ∧ L.shape = [m, nb] ∧ ∀ (b : Fin nb) (j : Fin m), L.data [j.val, b.val] = z.2 b j := by
  have h := rewind_is hF hV s d hnt ht hy hg hP q
  cases ho : rewind s d f fp nt (fun k b => t.data [b.val, k]) (statesOf nb m y) (statesOf nb m g) q with
  | error e => exact h.1 e ho
  | ok z => exact h.2 z.1 z.2 ho

/-- **C110.** `rewind` returns the same numbers for every block size and direct solver, if the matrices of the implicit steps are invertible. -/
theorem C110_block_size {P : Fin nb → Set ℝ} {func : Tensor → Tensor → Except String (Tensor × Tensor)} {f : Func (Fin nb) m} (hF : FuncIs nb m P func f.lift)
    {vjp : Tensor → Tensor → Tensor → Except String (Fin p → ℝ)} {fp : Fin nb → ℝ → (Fin m → ℝ) → Matrix (Fin m) (Fin p) ℝ} (hV : VjpIs nb m P vjp fp) (s : Scheme) (d d' : Chunktime.Direct)
    (hnt : 0 < nt) {t y g : Tensor} (ht : t.shape = [nb, nt]) (hy : y.shape = [m, nb, nt]) (hg : g.shape = [m, nb, nt]) (hP : ∀ (j : ℕ) (b : Fin nb), j < nt → t.data [b.val, j] ∈ P b) (q q' : ℤ)
    (hq : 0 < q) (hq' : 0 < q') (hA : s = .backwardEuler → ∀ k, k + 1 < nt → ∀ b : Fin nb,
      IsUnit (1 - (t.data [b.val, k + 1] - t.data [b.val, k]) • (f b (t.data [b.val, k + 1]) (statesOf nb m y (k + 1) b)).2).det) :
    ∃ grad L L', tRewind s d func vjp t y g q = .ok (grad, L) ∧ tRewind s d' func vjp t y g q' = .ok (grad, L') ∧ L.shape = [m, nb] ∧ L'.shape = [m, nb] ∧
      ∀ (b : Fin nb) (j : Fin m), L.data [j.val, b.val] = L'.data [j.val, b.val] := by
  obtain ⟨e, z, hz⟩ := C22_adjoint_block_size s d d' f fp nt (fun k b => t.data [b.val, k]) (statesOf nb m y) (statesOf nb m g) q q' hq hq' hA
  have h := C110_rewind hF hV s d hnt ht hy hg hP q
  have h' := C110_rewind hF hV s d' hnt ht hy hg hP q'
  rw [← e] at h'
  rw [hz] at h h'
  obtain ⟨L, e1, hL, v⟩ := h
  obtain ⟨L', e1', hL', v'⟩ := h'
  exact ⟨z.1, L, L', e1, e1', hL, hL', fun b j => (v b j).trans (v' b j).symm⟩

/-- **C110.** Forward and adjoint pass together, as torch programs. Let `integrate` (backward Euler, zero tolerances) have returned `Y` without a warning for the parameters `p0`, with rates that are
differentiable along the result with the Jacobian the right hand side reports, and invertible matrices of the implicit steps. Then near `p0` and `y0` there is exactly one continuous family of backward
Euler trajectories through `Y`, and `rewind(G)` returns the gradient, with respect to parameters and initial states, of the sum over all entries of `G * Y`. -/
theorem C110_gradient (hnb : 0 < nb) (hm : 0 < m) {P : Fin nb → Set ℝ} {func : Tensor → Tensor → Except String (Tensor × Tensor)} (rate : (Fin p → ℝ) → Fin nb → ℝ → (Fin m → ℝ) → Fin m → ℝ)
    (J : Fin nb → ℝ → (Fin m → ℝ) → Matrix (Fin m) (Fin m) ℝ) (fp : Fin nb → ℝ → (Fin m → ℝ) → Matrix (Fin m) (Fin p) ℝ) (p0 : Fin p → ℝ)
    (hF : FuncIs nb m P func (Func.lift fun b t y => (rate p0 b t y, J b t y))) {vjp : Tensor → Tensor → Tensor → Except String (Fin p → ℝ)} (hV : VjpIs nb m P vjp fp)
    (c : Config) (hs : c.scheme = .backwardEuler) (hi : 0 ≤ c.miter) (hr : c.rtol = 0) (ha : c.atol = 0) (d : Chunktime.Direct) {y0 t G : Tensor} (hnt : 0 < nt) (ht : t.shape = [nb, nt])
    (hy : y0.shape = [m, nb]) (hG : G.shape = [m, nb, nt]) (hP : ∀ (j : ℕ) (b : Fin nb), j < nt → t.data [b.val, j] ∈ P b) (garbage : List ℕ → ℝ) (q q' : ℤ) (hq : 0 < q) (hq' : 0 < q') {Y : Tensor}
    (hY : tIntegrate c func garbage y0 t q = .ok (Y, false))
    (hA : ∀ k, k + 1 < nt → ∀ b : Fin nb, IsUnit (1 - (t.data [b.val, k + 1] - t.data [b.val, k]) • J b (t.data [b.val, k + 1]) (statesOf nb m Y (k + 1) b)).det)
    (hR : ∀ k < nt, ∀ b : Fin nb, HasStrictFDerivAt (fun x : (Fin p → ℝ) × (Fin m → ℝ) => rate x.1 b (t.data [b.val, k]) x.2)
      ((matCLM (fp b (t.data [b.val, k]) (statesOf nb m Y k b))).coprod (matCLM (J b (t.data [b.val, k]) (statesOf nb m Y k b)))) (p0, statesOf nb m Y k b)) :
    let x0 : Fin nb → Fin m → ℝ := fun b j => y0.data [j.val, b.val]
    let times : ℕ → Fin nb → ℝ := fun k b => t.data [b.val, k]
    ∃ y : (Fin p → ℝ) → (Fin nb → Fin m → ℝ) → ℕ → Fin nb → Fin m → ℝ,
      (∀ k < nt, ∀ b j, y p0 x0 k b j = Y.data [j.val, b.val, k]) ∧ (∀ q x, y q x 0 = x) ∧
      (∀ᶠ v in 𝓝 (p0, x0), IsBackwardEuler (rate v.1) nt times (y v.1 v.2)) ∧
      (∀ y' : (Fin p → ℝ) → (Fin nb → Fin m → ℝ) → ℕ → Fin nb → Fin m → ℝ,
        (∀ᶠ v in 𝓝 (p0, x0), IsBackwardEuler (rate v.1) nt times (y' v.1 v.2)) → (∀ᶠ v in 𝓝 (p0, x0), y' v.1 v.2 0 = v.2) →
        (∀ k < nt, ∀ b j, y' p0 x0 k b j = Y.data [j.val, b.val, k]) →
        (∀ k < nt, ∀ b, ContinuousAt (fun v : (Fin p → ℝ) × (Fin nb → Fin m → ℝ) => y' v.1 v.2 k b) (p0, x0)) → ∀ᶠ v in 𝓝 (p0, x0), ∀ k < nt, y' v.1 v.2 k = y v.1 v.2 k) ∧
      ∃ (grad : Fin p → ℝ) (L : Tensor), tRewind .backwardEuler d func vjp t Y G q' = .ok (grad, L) ∧ L.shape = [m, nb] ∧
        (∀ k < nt, ∀ b, DifferentiableAt ℝ (fun v : (Fin p → ℝ) × (Fin nb → Fin m → ℝ) => y v.1 v.2 k b) (p0, x0)) ∧
        HasFDerivAt (fun v : (Fin p → ℝ) × (Fin nb → Fin m → ℝ) => ∑ k ∈ Finset.range nt, ∑ b : Fin nb, ∑ j : Fin m, G.data [j.val, b.val, k] * y v.1 v.2 k b j)
          (totalGrad grad fun b j => L.data [j.val, b.val]) (p0, x0) := by
  intro x0 times
  obtain ⟨h1, h2, h3⟩ := C109_backward_euler hnb hm hF c hs hi hr ha ht hy hP garbage q hq hY
  have hx : statesOf nb m Y 0 = x0 := by
    funext b j
    exact h2 b j hnt
  have hbe : IsBackwardEuler (rate p0) nt times (statesOf nb m Y) := by
    intro k b hk
    funext j
    exact h3 k b j hk
  obtain ⟨y, e1, e2, e3, e4, grad, lam, e5, e7, e6⟩ := C83_backward d rate J fp nt hnt times (statesOf nb m Y) p0 q' hq' (statesOf nb m G) hbe hA hR
  rw [hx] at e1 e3 e4 e6 e7
  have hre := C110_rewind hF hV .backwardEuler d hnt ht h1 hG hP q'
  rw [e5] at hre
  obtain ⟨L, f1, f2, f3⟩ := hre
  have hl : (fun (b : Fin nb) (j : Fin m) => L.data [j.val, b.val]) = lam := by
    funext b j
    exact f3 b j
  refine ⟨y, fun k hk b j => by rw [e1]; rfl, e2, e3, fun y' a1 a2 a3 a4 => e4 y' a1 a2 (fun k hk => ?_) a4, grad, L, f1, f2, e7, ?_⟩
  · funext b j
    exact a3 k hk b j
  · rw [hl]
    exact e6

/-- Non-vacuity of C110: two tests decaying at the rate `-y` (one parameter, `-1`) from 1 and 2, five times, forward in blocks of two and back in blocks of three. The run succeeds, and the gradient of the
sum of all results is what `rewind` returns. -/
example : let func : Tensor → Tensor → Except String (Tensor × Tensor) := fun _ y => .ok (⟨y.shape, fun i => -1 * y.data i⟩, ⟨1 :: y.shape, fun _ => -1⟩)
    let vjp : Tensor → Tensor → Tensor → Except String (Fin 1 → ℝ) := fun _ y a => .ok fun _ => ∑ k ∈ Finset.range (y.shape.getLastD 0), ∑ b ∈ Finset.range 2, a.data [0, b, k] * y.data [0, b, k]
    let c : Config := ⟨.backwardEuler, .direct .pcr, 0, 0, 10, true, "zero"⟩
    let y0 : Tensor := ⟨[1, 2], fun i => 1 + i.tail.headD 0⟩
    let t : Tensor := ⟨[2, 5], fun i => i.tail.headD 0⟩
    let G : Tensor := ⟨[1, 2, 5], fun _ => 1⟩
    ∃ Y, tIntegrate c func (fun _ => 17) y0 t 2 = .ok (Y, false) ∧
      ∃ y : (Fin 1 → ℝ) → (Fin 2 → Fin 1 → ℝ) → ℕ → Fin 2 → Fin 1 → ℝ,
        (∀ᶠ v : (Fin 1 → ℝ) × (Fin 2 → Fin 1 → ℝ) in 𝓝 (fun _ => -1, fun b _ => 1 + (b.val : ℝ)), IsBackwardEuler (fun _ _ (y : Fin 1 → ℝ) _ => v.1 0 * y 0) 5 (fun k _ => (k : ℝ)) (y v.1 v.2)) ∧
        ∃ (grad : Fin 1 → ℝ) (L : Tensor), tRewind .backwardEuler .thomas func vjp t Y G 3 = .ok (grad, L) ∧
          HasFDerivAt (fun v : (Fin 1 → ℝ) × (Fin 2 → Fin 1 → ℝ) => ∑ k ∈ Finset.range 5, ∑ b : Fin 2, ∑ j : Fin 1, (1 : ℝ) * y v.1 v.2 k b j)
            (totalGrad grad fun b j => L.data [j.val, b.val]) (fun _ => -1, fun b _ => 1 + (b.val : ℝ)) := by
  intro func vjp c y0 t G
  have hF : FuncIs 2 1 (fun _ => Set.univ) func (Func.lift fun _ _ y => ((fun _ => (fun _ => -1 : Fin 1 → ℝ) 0 * y 0 : Fin 1 → ℝ), !![(-1 : ℝ)])) := by
    intro q t y _ hy _
    refine ⟨_, _, rfl, hy, by change 1 :: y.shape = _; rw [hy], ?_⟩
    refine Prod.ext ?_ ?_
    · funext k b j
      obtain rfl : j = 0 := Subsingleton.elim (α := Fin 1) j 0
      rfl
    · funext k b
      ext i j
      obtain rfl : i = 0 := Subsingleton.elim (α := Fin 1) i 0
      obtain rfl : j = 0 := Subsingleton.elim (α := Fin 1) j 0
      rfl
  have hV : VjpIs 2 1 (fun _ => Set.univ) vjp (fun _ _ y => !![y 0]) := by
    intro q t y a _ hy _ _
    change Except.ok _ = _
    refine congrArg _ (funext fun i => ?_)
    rw [hy]
    change ∑ k ∈ Finset.range q, _ = _
    rw [Finset.sum_range, Finset.sum_apply]
    refine Finset.sum_congr rfl fun k _ => ?_
    rw [Finset.sum_range, Finset.sum_apply]
    refine Finset.sum_congr rfl fun b _ => ?_
    obtain rfl : i = 0 := Subsingleton.elim (α := Fin 1) i 0
    simp [Matrix.vecMul, dotProduct, rowsOf]
  have hrun := C109_integrate (by norm_num) (by norm_num) hF c (y0 := y0) (t := t) (nt := 5) rfl rfl (fun _ _ _ => trivial) (fun _ => 17) 2
  obtain ⟨res, ho, -⟩ := C18_linear_integrate_exact (β := Fin 2) (m := 1) c rfl rfl rfl (by norm_num) (fun _ _ => !![-1]) (fun _ _ => 0) (fun b j => y0.data [j.val, b.val]) 5 (by norm_num)
    (fun k b => t.data [b.val, k]) 2 (by norm_num) (Or.inl rfl) (by
      intro k b _
      rw [Matrix.det_fin_one, isUnit_iff_ne_zero]
      change (1 : Matrix (Fin 1) (Fin 1) ℝ) 0 0 - (((k + 1 : ℕ) : ℝ) - (k : ℝ)) * -1 ≠ 0
      simp)
  have hf : (fun (_ : Fin 2) (_ : ℝ) (y : Fin 1 → ℝ) => ((!![-1] : Matrix (Fin 1) (Fin 1) ℝ).mulVec y + 0, !![(-1 : ℝ)])) =
      fun _ _ y => ((fun _ => (fun _ => -1 : Fin 1 → ℝ) 0 * y 0 : Fin 1 → ℝ), !![(-1 : ℝ)]) := by
    funext _ _ y
    refine Prod.ext (funext fun i => ?_) rfl
    simp [Matrix.mulVec, dotProduct]
  rw [hf] at ho
  rw [ho] at hrun
  obtain ⟨Y, hY, -⟩ := hrun
  obtain ⟨y, -, -, h3, -, grad, L, h4, -, h5⟩ := C110_gradient (nb := 2) (m := 1) (nt := 5) (p := 1) (by norm_num) (by norm_num) (fun q _ _ y _ => q 0 * y 0) (fun _ _ _ => !![-1]) (fun _ _ y => !![y 0])
    (fun _ => -1) hF hV c rfl (by norm_num) rfl rfl .thomas (by norm_num) rfl rfl (G := G) rfl (fun _ _ _ => trivial) (fun _ => 17) 2 3 (by norm_num) (by norm_num) hY (by
      intro k _ b
      rw [Matrix.det_fin_one, isUnit_iff_ne_zero]
      change (1 : Matrix (Fin 1) (Fin 1) ℝ) 0 0 - (((k + 1 : ℕ) : ℝ) - (k : ℝ)) * -1 ≠ 0
      simp) (fun k _ b => ex_strict (fun _ => -1) _)
  exact ⟨Y, hY, y, h3, grad, L, h4, h5.2⟩

end Pyoptmat.Props
