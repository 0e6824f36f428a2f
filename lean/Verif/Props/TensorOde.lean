import Verif.Proofs.TensorOde
import Verif.Props.TensorControl
import Verif.Props.Integrate

/-!
# C109: time integration as a torch program

`Model/TensorOde.lean` has `FixedGridBlockSolver.integrate` with `block_update`, `form_operators`, `newton_raphson_chunk` and the linear solvers on whole tensors, with the reshapes, transposes, slices and
stacks of the code, and `solve_strain`, `solve_stress`, `solve_both` on top of it. Here these programs are shown to compute what the lane level functions of `Model/Ode.lean` and `Model/Control.lean` compute,
which the other theorems about integration are about.
-/

namespace Pyoptmat.Props

open Pyoptmat.Tensor Pyoptmat.Spec Pyoptmat.Material Pyoptmat.Ode

variable {nb m nt : ℕ}

/-- **C109.** `integrate(t, y0)` on tensors, for at least one test and one state variable, any contents of the memory `torch.empty` returns, either scheme, any linear solver, guess, tolerances and block
size: it raises exactly when the lane level function does, and otherwise the result has shape `(nt, nb, m)`, its entries are those of the lane level function where that has written any and untouched
memory elsewhere, and a warning is issued in the same cases. -/
theorem C109_integrate (hnb : 0 < nb) (hm : 0 < m) {P : Fin nb → Set ℝ} {func : Tensor → Tensor → Except String (Tensor × Tensor)} {F : BFunc (Fin nb) m} (hF : FuncIs nb m P func F) (c : Config)
    {y0 t : Tensor} (ht : t.shape = [nb, nt]) (hy : y0.shape = [m, nb]) (hP : ∀ (j : ℕ) (b : Fin nb), j < nt → t.data [b.val, j] ∈ P b) (garbage : List ℕ → ℝ) (q : ℤ) :
    SameRun nb m nt garbage (tIntegrate c func garbage y0 t q) (integrate c F (fun b j => y0.data [j.val, b.val]) nt (fun k b => t.data [b.val, k]) q) :=
  integrate_is hnb hm hF c ht (fun _ _ _ => rfl) hP hy garbage q

/-- **C109.** With a positive block size no uninitialised memory is returned: whatever it held, the entries of the result are the same. -/
theorem C109_no_garbage (hnb : 0 < nb) (hm : 0 < m) {P : Fin nb → Set ℝ} {func : Tensor → Tensor → Except String (Tensor × Tensor)} {F : BFunc (Fin nb) m} (hF : FuncIs nb m P func F) (c : Config)
    {y0 t : Tensor} (ht : t.shape = [nb, nt]) (hy : y0.shape = [m, nb]) (hP : ∀ (j : ℕ) (b : Fin nb), j < nt → t.data [b.val, j] ∈ P b) (garbage garbage' : List ℕ → ℝ) (q : ℤ) (hq : 0 < q)
    {Y : Tensor} {w : Bool} (h : tIntegrate c func garbage y0 t q = .ok (Y, w)) :
    ∃ Y' : Tensor, tIntegrate c func garbage' y0 t q = .ok (Y', w) ∧ Y'.shape = Y.shape ∧ Y.shape = [m, nb, nt] ∧
      ∀ (k : ℕ) (b : Fin nb) (j : Fin m), k < nt → Y'.data [j.val, b.val, k] = Y.data [j.val, b.val, k] := by
  have h1 := C109_integrate hnb hm hF c ht hy hP garbage q
  have h2 := C109_integrate hnb hm hF c ht hy hP garbage' q
  cases ho : integrate c F (fun b j => y0.data [j.val, b.val]) nt (fun k b => t.data [b.val, k]) q with
  | error e =>
    rw [ho] at h1
    obtain ⟨e', he'⟩ := h1
    rw [h] at he'
    cases he'
  | ok z =>
    rw [ho] at h1 h2
    obtain ⟨Y1, e1, f1⟩ := h1
    obtain ⟨Y2, e2, f2⟩ := h2
    rw [h] at e1
    injection e1 with e1
    obtain ⟨rfl, rfl⟩ := Prod.mk.inj e1
    refine ⟨Y2, e2, f2.shape.trans f1.shape.symm, f1.shape, fun k b j hk => ?_⟩
    obtain ⟨v, hv⟩ := ((C14_every_time_filled c F _ nt _ q hq z.1 z.2 ho).1 k).2 hk
    rw [f1.row k v hk hv, f2.row k v hk hv]

theorem of_run {garbage : List ℕ → ℝ} {R : Except String (Tensor × Bool)} {c : Config} {F : BFunc (Fin nb) m} {y0 : Chunktime.BVec (Fin nb) m ℝ} {t : ℕ → Fin nb → ℝ} {q : ℤ} (hq : 0 < q)
    (h : SameRun nb m nt garbage R (integrate c F y0 nt t q)) {Y : Tensor} {w : Bool} (hY : R = .ok (Y, w)) :
    ∃ p : Partial (Fin nb) m, integrate c F y0 nt t q = .ok (p, w) ∧ Y.shape = [m, nb, nt] ∧ (∀ k < nt, statesOf nb m Y k = p.get k) ∧ (0 < nt → statesOf nb m Y 0 = y0) := by
  cases ho : integrate c F y0 nt t q with
  | error e =>
    rw [ho] at h
    obtain ⟨e', he'⟩ := h
    rw [hY] at he'
    cases he'
  | ok z =>
    rw [ho] at h
    obtain ⟨Y1, e1, f1⟩ := h
    rw [hY] at e1
    injection e1 with e1
    obtain ⟨rfl, rfl⟩ := Prod.mk.inj e1
    have hf := C14_every_time_filled c F _ nt _ q hq z.1 z.2 ho
    have hg : ∀ k < nt, statesOf nb m Y k = z.1.get k := by
      intro k hk
      obtain ⟨v, hv⟩ := (hf.1 k).2 hk
      funext b j
      unfold statesOf
      rw [f1.row k v hk hv]
      simp [Partial.get, hv]
    refine ⟨z.1, rfl, f1.shape, hg, fun h0 => ?_⟩
    rw [hg 0 h0]
    simp [Partial.get, hf.2]

/-- **C109.** What the tensor `integrate` returns satisfies, for right hand sides that treat times and tests separately, zero tolerances and no warning: row 0 is `y0` and every later entry satisfies the
backward Euler formula of its own test, with the rates at its own time. -/
theorem C109_backward_euler (hnb : 0 < nb) (hm : 0 < m) {P : Fin nb → Set ℝ} {func : Tensor → Tensor → Except String (Tensor × Tensor)} {f : Func (Fin nb) m}
    (hF : FuncIs nb m P func f.lift) (c : Config) (hs : c.scheme = .backwardEuler) (hi : 0 ≤ c.miter) (hr : c.rtol = 0) (ha : c.atol = 0)
    {y0 t : Tensor} (ht : t.shape = [nb, nt]) (hy : y0.shape = [m, nb]) (hP : ∀ (j : ℕ) (b : Fin nb), j < nt → t.data [b.val, j] ∈ P b) (garbage : List ℕ → ℝ) (q : ℤ) (hq : 0 < q) {Y : Tensor}
    (h : tIntegrate c func garbage y0 t q = .ok (Y, false)) :
    Y.shape = [m, nb, nt] ∧ (∀ (b : Fin nb) (j : Fin m), 0 < nt → Y.data [j.val, b.val, 0] = y0.data [j.val, b.val]) ∧
      ∀ (k : ℕ) (b : Fin nb) (j : Fin m), k + 1 < nt → Y.data [j.val, b.val, k + 1] = Y.data [j.val, b.val, k] +
        (t.data [b.val, k + 1] - t.data [b.val, k]) * (f b (t.data [b.val, k + 1]) fun i => Y.data [i.val, b.val, k + 1]).1 j := by
  obtain ⟨p, ho, h1, h2, h3⟩ := of_run hq (C109_integrate hnb hm hF c ht hy hP garbage q) h
  have hb := C15_exact_blocks_are_backward_euler c hs hi hr ha f _ nt _ q hq p ho
  refine ⟨h1, fun b j h0 => congrFun (congrFun (h3 h0) b) j, fun k b j hk => ?_⟩
  have := congrFun (hb k b hk) j
  rw [← h2 k (by omega), ← h2 (k + 1) hk] at this
  exact this

/-- **C109.** The same for forward Euler: with room for the updates the run succeeds, without a warning, and the entries of the result are the explicit Euler steps of the tests. -/
theorem C109_forward_euler (hnb : 0 < nb) (hm : 0 < m) {P : Fin nb → Set ℝ} {func : Tensor → Tensor → Except String (Tensor × Tensor)} {f : Func (Fin nb) m}
    (hF : FuncIs nb m P func f.lift) (c : Config) (hs : c.scheme = .forwardEuler) (hr : c.rtol = 0) (ha : c.atol = 0) (hg : c.guessType = "zero") (hnt : 0 < nt)
    {y0 t : Tensor} (ht : t.shape = [nb, nt]) (hy : y0.shape = [m, nb]) (hP : ∀ (j : ℕ) (b : Fin nb), j < nt → t.data [b.val, j] ∈ P b) (garbage : List ℕ → ℝ) (q : ℤ) (hq : 0 < q) (hi : q < c.miter) :
    ∃ Y : Tensor, tIntegrate c func garbage y0 t q = .ok (Y, false) ∧ Y.shape = [m, nb, nt] ∧ (∀ (b : Fin nb) (j : Fin m), Y.data [j.val, b.val, 0] = y0.data [j.val, b.val]) ∧
      ∀ (k : ℕ) (b : Fin nb) (j : Fin m), k + 1 < nt → Y.data [j.val, b.val, k + 1] = Y.data [j.val, b.val, k] +
        (t.data [b.val, k + 1] - t.data [b.val, k]) * (f b (t.data [b.val, k]) fun i => Y.data [i.val, b.val, k]).1 j := by
  obtain ⟨p, ho, -, hb⟩ := C16_integrate_is_explicit_euler c hs hr ha f (fun b j => y0.data [j.val, b.val]) nt hnt (fun k b => t.data [b.val, k]) q hq hi (.inl hg)
  have hrun := C109_integrate hnb hm hF c ht hy hP garbage q
  have hrun' := hrun
  rw [ho] at hrun'
  obtain ⟨Y, e, -⟩ := hrun'
  obtain ⟨p', ho', h1, h2, h3⟩ := of_run hq hrun e
  rw [ho] at ho'
  injection ho' with ho'
  obtain ⟨rfl, -⟩ := Prod.mk.inj ho'
  refine ⟨Y, e, h1, fun b j => congrFun (congrFun (h3 hnt) b) j, fun k b j hk => ?_⟩
  have := congrFun (hb k b hk) j
  rw [← h2 k (by omega), ← h2 (k + 1) hk] at this
  exact this

/-! ## Tests -/

/-- Recorded tests: two or more increasing times for each test, data and temperatures of the same shape, temperatures from an interval `D` on which the parameters are as modelled. -/
structure Tests (nb nt : ℕ) (D : Set ℝ) (times data temps : Tensor) : Prop where
  two : 2 ≤ nt
  times_shape : times.shape = [nb, nt]
  data_shape : data.shape = [nb, nt]
  temps_shape : temps.shape = [nb, nt]
  increasing : ∀ b < nb, StrictGrid (nt - 1) fun j => times.data [b, j]
  interval : D.OrdConnected
  inside : ∀ b < nb, ∀ j < nt, temps.data [b, j] ∈ D

section

variable {D : Set ℝ} {times data temps : Tensor} {M : Tensor → Tensor → Tensor → Tensor → Except String TOut}

theorem Tests.run (h : Tests nb nt D times data temps) {q : ℕ} {t y : Tensor} (ht : t.shape = [nb, q]) (hy : y.shape = [m, nb, q])
    (hP : ∀ k b, timesOf nb q t k b ∈ Set.Icc (times.data [b.val, 0]) (times.data [b.val, nt - 1])) : Run nb nt q m D times data temps t y :=
  ⟨h.two, h.times_shape, h.data_shape, h.temps_shape, h.increasing, h.interval, h.inside, ht, hy, fun b hb k hk => hP ⟨k, hk⟩ ⟨b, hb⟩⟩

theorem Tests.grid (h : Tests nb nt D times data temps) (j : ℕ) (b : Fin nb) (hj : j < nt) : times.data [b.val, j] ∈ Set.Icc (times.data [b.val, 0]) (times.data [b.val, nt - 1]) := by
  have hg := h.increasing b b.isLt
  have mono : ∀ i k, i ≤ k → k ≤ nt - 1 → times.data [b.val, i] ≤ times.data [b.val, k] := by
    intro i k hik
    induction k, hik using Nat.le_induction with
    | base => exact fun _ => le_rfl
    | succ k hik ih => exact fun hk => (ih (by omega)).trans (hg k (by omega)).le
  exact ⟨mono 0 j (by omega) (by omega), mono j (nt - 1) (by omega) le_rfl⟩

theorem Tests.strainFuncIs {L : ℕ → Model m} (hM : ∀ q, ModelIs [nb, q] D M fun i => L (i.headD 0)) (h : Tests nb nt D times data temps) :
    FuncIs nb m (fun b => Set.Icc (times.data [b.val, 0]) (times.data [b.val, nt - 1])) (tStrainFunc M times data temps)
      (Func.lift (Control.strainFunc (fun b : Fin nb => L b.val) nt (fun j b => times.data [b.val, j]) (fun j b => data.data [b.val, j]) fun j b => temps.data [b.val, j])) := by
  intro q t y ht hy hP
  obtain ⟨R, J, e, h1, h2, h3⟩ := C103_strain (hM q) (h.run ht hy hP)
  refine ⟨R, J, e, h1, h2, ?_⟩
  refine Prod.ext ?_ ?_
  · funext k b j
    exact (h3 k b).1 j
  · funext k b r c
    exact (h3 k b).2 r c

/-- **C109.** `solve_strain` as a torch program, with everything below it — interpolation, material, integration, linear algebra — on tensors: it returns what the lane level `solveStrain` returns, with
the material constants, times, strains and temperatures of each test. -/
theorem C109_solve_strain (hnb : 0 < nb) (hm : 0 < m) {L : ℕ → Model m} (hM : ∀ q, ModelIs [nb, q] D M fun i => L (i.headD 0)) (h : Tests nb nt D times data temps) (c : Config) (garbage : List ℕ → ℝ)
    (q : ℤ) : SameRun nb m nt garbage (tSolveStrain c M m garbage times data temps q) (Control.solveStrain c (fun b : Fin nb => L b.val) nt (fun j b => times.data [b.val, j])
      (fun j b => data.data [b.val, j]) (fun j b => temps.data [b.val, j]) q) := by
  unfold tSolveStrain
  rw [h.times_shape]
  exact C109_integrate hnb hm (h.strainFuncIs hM) c h.times_shape (y0 := ⟨[m, nb], fun _ => 0⟩) rfl h.grid garbage q

/-- **C109.** `solve_stress` as a torch program, with the nested solves for the strain rates. -/
theorem C109_solve_stress (hnb : 0 < nb) {L : ℕ → Model (m + 1)} (hM : ∀ q, ModelIs [nb, q] D M fun i => L (i.headD 0)) (h : Tests nb nt D times data temps) (c : Config) (garbage : List ℕ → ℝ)
    (q : ℤ) : SameRun nb (m + 1) nt garbage (tSolveStress c M (m + 1) garbage times data temps q) (Control.solveStress c (fun b : Fin nb => L b.val) nt (fun j b => times.data [b.val, j])
      (fun j b => data.data [b.val, j]) (fun j b => temps.data [b.val, j]) q) := by
  unfold tSolveStress
  rw [h.times_shape]
  refine C109_integrate (P := fun b => Set.Icc (times.data [b.val, 0]) (times.data [b.val, nt - 1])) hnb m.succ_pos (fun q t y ht hy hP => ?_) c h.times_shape (y0 := ⟨[m + 1, nb], fun _ => 0⟩) rfl h.grid
    garbage q
  obtain ⟨R, J, e, h1, h2, h3⟩ := C103_stress (hM q) (h.run ht hy hP)
  refine ⟨R, J, e, h1, h2, ?_⟩
  refine Prod.ext ?_ ?_
  · funext k b j
    exact (h3 k b).1 j
  · funext k b r c
    exact (h3 k b).2 r c

/-- **C109.** `solve_both` as a torch program, for any labels. -/
theorem C109_solve_both (hnb : 0 < nb) {L : ℕ → Model (m + 1)} {control : Tensor} (hc : control.shape = [nb]) (hM : ∀ q, ModelIs [nb, q] D M fun i => L (i.headD 0))
    (h : Tests nb nt D times data temps) (c : Config) (garbage : List ℕ → ℝ) (q : ℤ) :
    SameRun nb (m + 1) nt garbage (tSolveBoth c M (m + 1) garbage times temps data control q) (Control.solveBoth c (fun b : Fin nb => L b.val) nt (fun j b => times.data [b.val, j])
      (fun j b => temps.data [b.val, j]) (fun j b => data.data [b.val, j]) (fun b => control.data [b.val]) q) := by
  unfold tSolveBoth
  rw [h.times_shape]
  refine C109_integrate (P := fun b => Set.Icc (times.data [b.val, 0]) (times.data [b.val, nt - 1])) hnb m.succ_pos (fun q t y ht hy hP => ?_) c h.times_shape (y0 := ⟨[m + 1, nb], fun _ => 0⟩) rfl h.grid
    garbage q
  obtain ⟨R, J, e, h1, h2, h3⟩ := C103_both hc (hM q) (h.run ht hy hP)
  refine ⟨R, J, e, h1, h2, ?_⟩
  refine Prod.ext ?_ ?_
  · funext k b j
    exact (h3 k b).1 j
  · funext k b r c
    exact (h3 k b).2 r c

end

/-- The hypotheses are met by two tests of a viscoplastic material with different constants, three recorded times that differ from test to test, under mixed control, with blocks of two steps. Without
`throw_on_fail` the run returns. -/
example : let cst := fun x : Tensor => tConstant x (fun a => a) (fun a => a)
    let x : Tensor := ⟨[2], fun i => 1 + i.headD 0⟩
    let times : Tensor := ⟨[2, 3], fun i => (1 + i.headD 0) * i.tail.headD 0⟩
    let data : Tensor := ⟨[2, 3], fun i => i.tail.headD 0⟩
    let temps : Tensor := ⟨[2, 3], fun _ => 300⟩
    let M := tInelastic (cst x) (tPerfect (cst x) (cst x))
    let c : Config := ⟨.backwardEuler, .direct .thomas, 1 / 10 ^ 6, 1 / 10 ^ 8, 100, false, "zero"⟩
    ∃ L : ℕ → Model 1, (∀ q, ModelIs [2, q] Set.univ M fun i => L (i.headD 0)) ∧ Tests 2 3 Set.univ times data temps ∧
      ∃ Y w, tSolveBoth c M 1 (fun _ => 17) times temps data ⟨[2], fun i => i.headD 0⟩ 2 = .ok (Y, w) ∧ Y.shape = [1, 2, 3] := by
  intro cst x times data temps M c
  have kc : ∀ q, ParamIs [2, q] Set.univ (cst x) fun i _ => x.data [i.headD 0] := fun q => C101_constant (fun a => a) (fun a => a) ((C101_parameter_shapes 2 [q] x).2.1 rfl)
  have hM : ∀ q, ModelIs [2, q] Set.univ M fun i => (fun b => inelastic (fun _ => x.data [b]) (perfect (fun _ => x.data [b]) (fun _ => x.data [b]))) (i.headD 0) :=
    fun q => C101_inelastic (kc q) (C101_perfect (kc q) (kc q))
  have hT : Tests 2 3 Set.univ times data temps :=
    { two := by norm_num
      times_shape := rfl
      data_shape := rfl
      temps_shape := rfl
      increasing := fun b hb j hj => by
        change ((1 : ℝ) + (b : ℕ)) * (j : ℕ) < (1 + (b : ℕ)) * ((j + 1 : ℕ) : ℝ)
        push_cast
        have : (0 : ℝ) ≤ b := Nat.cast_nonneg b
        nlinarith
      interval := Set.ordConnected_univ
      inside := fun _ _ _ _ => trivial }
  refine ⟨fun b => inelastic (fun _ => x.data [b]) (perfect (fun _ => x.data [b]) (fun _ => x.data [b])), hM, hT, ?_⟩
  have h := C109_solve_both (L := fun b => inelastic (fun _ => x.data [b]) (perfect (fun _ => x.data [b]) (fun _ => x.data [b]))) (control := ⟨[2], fun i => i.headD 0⟩) (by norm_num) rfl hM hT c (fun _ => 17) 2
  obtain ⟨res, w, ho⟩ := C14_always_returns c rfl rfl (Control.bothFunc (fun b : Fin 2 => (fun b => inelastic (fun _ => x.data [b]) (perfect (fun _ => x.data [b]) (fun _ => x.data [b]))) b.val) 3
    (fun j b => times.data [b.val, j]) (fun j b => data.data [b.val, j]) (fun j b => temps.data [b.val, j]) fun b => (⟨[2], fun i => i.headD 0⟩ : Tensor).data [b.val]) 0 3 (by norm_num)
    (fun j b => times.data [b.val, j]) 2 (by norm_num)
  unfold Control.solveBoth at h
  rw [ho] at h
  obtain ⟨Y, e, hY⟩ := h
  exact ⟨Y, w, e, hY.shape⟩

end Pyoptmat.Props
