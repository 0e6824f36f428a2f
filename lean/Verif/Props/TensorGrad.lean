import Verif.Props.TensorAdjoint
import Verif.Props.MaterialGrad

/-!
# C112: gradients of simulated tests, end to end on tensors

`solve_strain` with the material, and the adjoint pass, all as torch programs.
-/

namespace Pyoptmat.Props

open Pyoptmat.Tensor Pyoptmat.Spec Pyoptmat.Material Pyoptmat.Ode Pyoptmat.Control Filter Topology

variable {nb m nt p nk : ℕ} {D : Set ℝ} {times data temps : Tensor} {M : Tensor → Tensor → Tensor → Tensor → Except String TOut}

/-- A successful `solve_strain` with backward Euler and zero tolerances is a backward Euler trajectory of the tests from the zero state. -/
theorem C112_trajectory (hnb : 0 < nb) (hm : 0 < m) {L : ℕ → Model m} (hM : ∀ q, ModelIs [nb, q] D M fun i => L (i.headD 0)) (h : Tests nb nt D times data temps) (c : Config)
    (hs : c.scheme = .backwardEuler) (hi : 0 ≤ c.miter) (hr : c.rtol = 0) (ha : c.atol = 0) (garbage : List ℕ → ℝ) (q : ℤ) (hq : 0 < q) {Y : Tensor}
    (hY : tSolveStrain c M m garbage times data temps q = .ok (Y, false)) :
    Y.shape = [m, nb, nt] ∧ statesOf nb m Y 0 = 0 ∧
      IsBackwardEuler (fun b t y => (strainFunc (fun b : Fin nb => L b.val) nt (fun j b => times.data [b.val, j]) (fun j b => data.data [b.val, j]) (fun j b => temps.data [b.val, j]) b t y).1) nt
        (fun k b => times.data [b.val, k]) (statesOf nb m Y) := by
  unfold tSolveStrain at hY
  rw [h.times_shape] at hY
  obtain ⟨h1, h2, h3⟩ := C109_backward_euler hnb hm (h.strainFuncIs hM) c hs hi hr ha h.times_shape (y0 := ⟨[m, nb], fun _ => 0⟩) rfl h.grid garbage q hq hY
  have := h.two
  refine ⟨h1, ?_, ?_⟩
  · funext b j
    exact h2 b j (by omega)
  · intro k b hk
    funext j
    exact h3 k b j hk

/-- **C112.** The material with power law flow, Voce hardening, any number of Chaboche backstresses and static recovery: strain controlled tests are simulated with `solve_strain`, and `rewind` is called with
the gradient `G` of the loss with respect to the results. For meaningful parameters (as in C107) it returns, for every direct solver and block size, the exact gradient with respect to the parameters and
initial states; no step of the adjoint pass is singular. -/
theorem C112_strain (hnb : 0 < nb) (P : ℕ → (Fin p → ℝ) → VCParams nk) (p0 : Fin p → ℝ) (hM : ∀ q, ModelIs [nb, q] D M fun i => (P (i.headD 0) p0).model) (h : Tests nb nt D times data temps) (c : Config)
    (hs : c.scheme = .backwardEuler) (hi : 0 ≤ c.miter) (hr : c.rtol = 0) (ha : c.atol = 0) (garbage : List ℕ → ℝ) (q q' : ℤ) (hq : 0 < q) (hq' : 0 < q') {Y G : Tensor}
    (hY : tSolveStrain c M (1 + nk + 1) garbage times data temps q = .ok (Y, false)) (hG : G.shape = [1 + nk + 1, nb, nt])
    (hP : ∀ k < nt, ∀ b < nb, (P b p0).Smooth (temps.data [b, k])) (hd : ∀ k < nt, ∀ b < nb, VCParams.DiffAt (P b) p0 (temps.data [b, k]))
    (R0 : ℕ → ℝ) (B : ℕ → Fin nk → ℝ) (hR0 : ∀ b < nb, 0 ≤ R0 b) (hB0 : ∀ b < nb, ∀ i, 0 ≤ B b i) (hR : ∀ k < nt, ∀ b < nb, (P b p0).R (temps.data [b, k]) = R0 b)
    (hC : ∀ k < nt, ∀ b < nb, ∀ i, (P b p0).C i (temps.data [b, k]) = B b i * (P b p0).g i (temps.data [b, k]))
    (d : Chunktime.Direct) {vjp : Tensor → Tensor → Tensor → Except String (Fin p → ℝ)} {fp : Fin nb → ℝ → (Fin (1 + nk + 1) → ℝ) → Matrix (Fin (1 + nk + 1)) (Fin p) ℝ}
    (hV : VjpIs nb (1 + nk + 1) (fun b => Set.Icc (times.data [b.val, 0]) (times.data [b.val, nt - 1])) vjp fp)
    (hfp : ∀ k < nt, ∀ b : Fin nb, HasFDerivAt (fun q => (strainFunc (fun b : Fin nb => (P b.val q).model) nt (fun j b => times.data [b.val, j]) (fun j b => data.data [b.val, j])
      (fun j b => temps.data [b.val, j]) b (times.data [b.val, k]) (statesOf nb (1 + nk + 1) Y k b)).1) (matCLM (fp b (times.data [b.val, k]) (statesOf nb (1 + nk + 1) Y k b))) p0) :
    ∃ (grad : Fin p → ℝ) (L : Tensor), tRewind .backwardEuler d (tStrainFunc M times data temps) vjp times Y G q' = .ok (grad, L) ∧ L.shape = [1 + nk + 1, nb] ∧
      IsGradient (fun q b t y => (strainFunc (fun b : Fin nb => (P b.val q).model) nt (fun j b => times.data [b.val, j]) (fun j b => data.data [b.val, j]) (fun j b => temps.data [b.val, j]) b t y).1) nt
        (fun k b => times.data [b.val, k]) (statesOf nb (1 + nk + 1) Y) p0 (statesOf nb (1 + nk + 1) G) grad fun b j => L.data [j.val, b.val] := by
  obtain ⟨h1, h2, h3⟩ := C112_trajectory hnb (Nat.succ_pos _) (L := fun b => (P b p0).model) hM h c hs hi hr ha garbage q hq hY
  have htwo := h.two
  obtain ⟨grad, lam, e1, e2⟩ := C107_strain (β := Fin nb) d (fun b => P b.val) p0 nt (fun k b => times.data [b.val, k]) (fun j b => data.data [b.val, j]) (fun j b => temps.data [b.val, j]) (by omega)
    (fun b => h.increasing b b.isLt) (fun k b hk => hP k hk b b.isLt) (fun k b hk => hd k hk b b.isLt) (fun b => R0 b.val) (fun b => B b.val) (fun k b hk => hR k hk b b.isLt) (fun k b hk => hC k hk b b.isLt) (statesOf nb (1 + nk + 1) Y)
    (fun b => by
      rw [h2]
      exact ⟨⟨le_rfl, hR0 b b.isLt⟩, fun i => by rw [Pi.zero_apply, Pi.zero_apply, abs_zero]; exact hB0 b b.isLt i⟩) h3 fp hfp (statesOf nb (1 + nk + 1) G) q' hq'
  have hre := C110_rewind (h.strainFuncIs (L := fun b => (P b p0).model) hM) hV .backwardEuler d (by omega) h.times_shape h1 hG h.grid q'
  rw [e1] at hre
  obtain ⟨L, f1, f2, f3⟩ := hre
  refine ⟨grad, L, f1, f2, ?_⟩
  have hl : (fun (b : Fin nb) (j : Fin (1 + nk + 1)) => L.data [j.val, b.val]) = lam := by
    funext b j
    exact f3 b j
  rw [hl]
  exact e2

/-- The hypotheses are met by two elastic tests with different strain rates, three recorded times, Voce hardening and one backstress, each test having its own viscosity, the two viscosities being the parameters: the run succeeds even with zero
tolerances and `rewind` returns the gradient. -/
example : let cst := fun v : ℝ => tConstant ⟨[], fun _ => v⟩ (fun a => a) (fun a => a)
    let vec := fun v : ℝ => tConstant ⟨[1], fun _ => v⟩ (fun a => a) (fun a => a)
    let ι : ℕ → Fin 2 := fun b => if b = 0 then 0 else 1
    let p0 : Fin 2 → ℝ := ![10, 20]
    let P : ℕ → (Fin 2 → ℝ) → VCParams 1 := fun b q => ⟨fun _ => 100, fun _ => 2, fun _ => q (ι b), fun _ => 1, fun _ => 3, fun _ => 5, fun _ _ => 7, fun _ _ => 7, fun _ _ => 0, fun _ _ => 2⟩
    let M := tInelastic (cst 100) (tIsoKin ⟨cst 2, tConstant ⟨[2], fun i => p0 (ι (i.headD 0))⟩ (fun a => a) (fun a => a), cst 1, tVoce (cst 3) (cst 5), tChabocheRecovery (vec 7) (vec 7) (vec 0) (vec 2)⟩)
    let times : Tensor := ⟨[2, 3], fun i => i.tail.headD 0⟩
    let data : Tensor := ⟨[2, 3], fun i => (1 + i.headD 0) * i.tail.headD 0 / 1000⟩
    let temps : Tensor := ⟨[2, 3], fun _ => 300⟩
    let G : Tensor := ⟨[3, 2, 3], fun i => i.headD 0⟩
    let c : Config := ⟨.backwardEuler, .direct .thomas, 0, 0, 100, true, "zero"⟩
    ∃ (Y : Tensor) (vjp : Tensor → Tensor → Tensor → Except String (Fin 2 → ℝ)) (grad : Fin 2 → ℝ) (L : Tensor), tSolveStrain c M 3 (fun _ => 17) times data temps 2 = .ok (Y, false) ∧
      Y.data [0, 1, 2] = 2 / 5 ∧ tRewind .backwardEuler .thomas (tStrainFunc M times data temps) vjp times Y G 2 = .ok (grad, L) ∧
      IsGradient (fun q b t y => (strainFunc (fun b : Fin 2 => (P b.val q).model) 3 (fun j b => times.data [b.val, j]) (fun j b => data.data [b.val, j]) (fun j b => temps.data [b.val, j]) b t y).1) 3
        (fun k b => times.data [b.val, k]) (statesOf 2 3 Y) p0 (statesOf 2 3 G) grad fun b j => L.data [j.val, b.val] := by
  intro cst vec ι p0 P M times data temps G c
  have kc : ∀ q (v : ℝ), ParamIs [2, q] Set.univ (cst v) fun _ _ => v := fun q v => C101_constant (fun a => a) (fun a => a) ((C101_parameter_shapes 2 [q] ⟨[], fun _ => v⟩).1 rfl)
  have kv : ∀ q (v : ℝ), VecParamIs [2, q] Set.univ (vec v) fun _ (_ : Fin 1) _ => v := fun q v => (C101_constant_vector (n := 1) (nb := 2) (S := [q]) ⟨[1], fun _ => v⟩ (fun a => a) (fun a => a)).1 rfl
  have ke : ∀ q, ParamIs [2, q] Set.univ (tConstant ⟨[2], fun i => p0 (ι (i.headD 0))⟩ (fun a => a) (fun a => a)) fun i _ => p0 (ι (i.headD 0)) := fun q =>
    C101_constant (fun a => a) (fun a => a) ((C101_parameter_shapes 2 [q] ⟨[2], fun i => p0 (ι (i.headD 0))⟩).2.1 rfl)
  have hp : ∀ i, 0 < p0 i := fun i => by fin_cases i <;> norm_num [p0]
  have hM : ∀ q, ModelIs [2, q] Set.univ M fun i => (P (i.headD 0) p0).model := fun q =>
    C101_inelastic (kc q 100) (C101_iso_kin (kc q 2) (ke q) (kc q 1) (C101_voce (kc q 3) (kc q 5)) (C101_chaboche_recovery (kv q 7) (kv q 7) (kv q 0) (kv q 2)))
  have hT : Tests 2 3 Set.univ times data temps :=
    { two := by norm_num
      times_shape := rfl
      data_shape := rfl
      temps_shape := rfl
      increasing := fun b hb j hj => by
        change ((j : ℕ) : ℝ) < ((j + 1 : ℕ) : ℝ)
        push_cast
        linarith
      interval := Set.ordConnected_univ
      inside := fun _ _ _ _ => trivial }
  have hadm : ∀ (b : ℕ) T, VCAdmissible (nk := 1) (fun _ => 100) (fun _ => 2) (fun _ => p0 (ι b)) (fun _ => 1) (fun _ => 3) (fun _ => 5) (fun _ _ => 7) (fun _ _ => 7) T := fun b T => by
    constructor <;> first | exact hp _ | norm_num
  have hS : ∀ b T, (P b p0).Smooth T := fun b T => ⟨hadm b T, by norm_num [P], by norm_num [P], fun _ => le_rfl, fun _ => by norm_num [P]⟩
  have hD : ∀ b T, VCParams.DiffAt (P b) p0 T := fun b T => by
    constructor <;> simp only [P] <;> first | exact contDiffAt_const | exact fun _ => contDiffAt_const | exact (contDiffAt_pi.1 contDiffAt_id) _
  -- the forward run
  obtain ⟨res, r1, r2⟩ := C72_elastic_always_solved (β := Fin 2) c rfl rfl rfl (by norm_num [c]) rfl (fun _ _ => 100) (fun _ _ => 2) (fun b _ => p0 (ι b.val)) (fun _ _ => 1) (fun _ _ => 3) (fun _ _ => 5)
    (fun _ (_ : Fin 1) _ => 7) (fun _ _ _ => 7) 3 (by norm_num) (fun j b => times.data [b.val, j]) (fun j b => data.data [b.val, j]) (fun j b => temps.data [b.val, j]) (fun b => hT.increasing b b.isLt)
    (fun _ _ _ => ⟨by norm_num, hp _⟩) 2 (by norm_num) (fun k b => (1 + (b.val : ℝ)) * k / 10)
    (fun k b => by
      have : ∀ j : ℕ, (100 : ℝ) * (data.data [b.val, j + 1] - data.data [b.val, j]) = (1 + (b.val : ℝ)) / 10 := fun j => by
        change (100 : ℝ) * ((1 + (b.val : ℝ)) * ((j + 1 : ℕ) : ℝ) / 1000 - (1 + (b.val : ℝ)) * (j : ℝ) / 1000) = _
        push_cast; ring
      simp only [this, Finset.sum_const, Finset.card_range, nsmul_eq_mul]
      ring)
    (fun j k b hj _ => by
      have h1 : (b.val : ℝ) ≤ 1 := by have := b.isLt; exact_mod_cast (by omega : b.val ≤ 1)
      have h2 : (j : ℝ) ≤ 2 := by exact_mod_cast (by omega : j ≤ 2)
      have h3 : (0 : ℝ) ≤ b.val := Nat.cast_nonneg _
      have h4 : (0 : ℝ) ≤ j := Nat.cast_nonneg _
      rw [abs_of_nonneg (by positivity)]
      nlinarith)
  have hrun := C109_solve_strain (nb := 2) (m := 3) (by norm_num) (by norm_num) (L := fun b => (P b p0).model) hM hT c (fun _ => 17) 2
  simp only [chaboche_eq_recovery _ _ (fun _ _ => 2)] at r1
  change SameRun 2 3 3 _ _ (solveStrain c (fun b : Fin 2 => inelastic (fun _ => 100) (isoKin (fun _ => 2) (fun _ => p0 (ι b.val)) (fun _ => 1) (voce (fun _ => 3) (fun _ => 5))
    (chabocheRecovery (fun (_ : Fin 1) _ => 7) (fun _ _ => 7) (fun _ _ => 0) (fun _ _ => 2)))) 3 _ _ _ 2) at hrun
  rw [r1] at hrun
  obtain ⟨Y, e, hF⟩ := hrun
  have hYv : ∀ (k : ℕ) (b : Fin 2) (j : Fin 3), k < 3 → Y.data [j.val, b.val, k] = res.get k b j := by
    intro k b j hk
    obtain ⟨v, hv⟩ := ((C14_every_time_filled c _ _ 3 _ 2 (by norm_num) res false r1).1 k).2 hk
    rw [hF.row k v hk hv b j]
    unfold Partial.get
    rw [hv]
    rfl
  let fp : Fin 2 → ℝ → (Fin (1 + 1 + 1) → ℝ) → Matrix (Fin (1 + 1 + 1)) (Fin 2) ℝ := fun b t y =>
    LinearMap.toMatrix' (fderiv ℝ (fun q => (strainFunc (fun b : Fin 2 => (P b.val q).model) 3 (fun j b => times.data [b.val, j]) (fun j b => data.data [b.val, j]) (fun j b => temps.data [b.val, j]) b t y).1)
      p0).toLinearMap
  let S : Tensor → Tensor → Tensor → ℕ → Fin 2 → ℝ := fun t y a n => ∑ k : Fin n, ∑ b, Matrix.vecMul (rowsOf 2 3 n a k b) (fp b (timesOf 2 n t k b) (rowsOf 2 3 n y k b))
  obtain ⟨grad, L, h1, h2, h3⟩ := C112_strain (nb := 2) (nk := 1) (by norm_num) P p0 hM hT c rfl (by norm_num [c]) rfl rfl (fun _ => 17) 2 2 (by norm_num) (by norm_num) (G := G) e rfl
    (fun _ _ _ _ => hS _ _) (fun _ _ _ _ => hD _ _) (fun _ => 3) (fun _ _ => 1) (fun _ _ => by norm_num) (fun _ _ _ => by norm_num) (fun _ _ _ _ => rfl) (fun _ _ _ _ _ => by norm_num [P]) .thomas
    (vjp := fun t y a => .ok (S t y a (t.shape.tail.headD 0))) (fp := fp)
    (fun q t y a ht hy ha hP => by
      change Except.ok (S t y a _) = Except.ok (S t y a q)
      rw [ht]
      rfl)
    (fun k hk b => by
      rw [matCLM_surj]
      refine DifferentiableAt.hasFDerivAt (ContDiffAt.differentiableAt ?_ one_ne_zero)
      simp only [strainFunc]
      have hDT := hD b.val (dataFn 3 (fun k => times.data [b.val, k]) (fun k => temps.data [b.val, k]) (times.data [b.val, k]))
      have hST := hS b.val (dataFn 3 (fun k => times.data [b.val, k]) (fun k => temps.data [b.val, k]) (times.data [b.val, k]))
      exact vc_contDiffAt (fun q => (P b.val q).E) (fun q => (P b.val q).n) (fun q => (P b.val q).eta) (fun q => (P b.val q).s0) (fun q => (P b.val q).R) (fun q => (P b.val q).d) (fun q => (P b.val q).C) (fun q => (P b.val q).g)
        (fun q => (P b.val q).bb) (fun q => (P b.val q).r) _ _ (fun _ => _) (fun _ => statesOf 2 3 Y k b) p0 hDT.E hDT.n hDT.eta hDT.s0 hDT.R hDT.d hDT.C hDT.g hDT.bb hDT.r contDiffAt_const contDiffAt_const
        hST.n hST.adm.eta (add_pos_of_pos_of_nonneg hST.s0 (by
          have := (r2 k b hk).2 1 (by decide)
          have h := hYv k b 1 hk
          rw [this] at h
          exact h.ge)) hST.r)
  refine ⟨Y, _, grad, L, e, ?_, h1, h3⟩
  have h := hYv 2 1 0 (by norm_num)
  rw [(r2 2 1 (by norm_num)).1] at h
  refine Eq.trans h ?_
  norm_num

end Pyoptmat.Props
