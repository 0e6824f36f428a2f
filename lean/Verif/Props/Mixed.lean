import Verif.Props.Histories

/-!
# Properties C78-C80: whole tests under stress and mixed control; independence of the tests in a batch
-/

namespace Pyoptmat.Props

open Pyoptmat.Control Pyoptmat.Material Pyoptmat.Newton Pyoptmat.Solvers Pyoptmat.Spec Pyoptmat.Ode Pyoptmat.Chunktime

variable {β β' : Type*} {m : ℕ}

/-- Zero tolerances, no warning: every step belongs to a block whose rates, evaluated on the returned rows, satisfy the scheme exactly. -/
theorem exact_defectB {c : Config} (hm : 0 ≤ c.miter) (hr : c.rtol = 0) (ha : c.atol = 0)
    {f : BFunc β m} {y0 : BVec β m ℝ} {nt : ℕ} {t : ℕ → β → ℝ} {n : ℤ} (hn : 0 < n) {res : Partial β m}
    (h : integrate c f y0 nt t n = .ok (res, false)) :
    ∀ k, k + 1 < nt → ∃ N k0 j, k = k0 + j ∧ j < N ∧ k0 + N < nt ∧ ∀ b, defectB c.scheme f N t res.get k0 j b = 0 := by
  obtain ⟨-, -, -, h4, -⟩ := integrate_spec c f y0 nt t n hn res false h
  refine all_rows (N := n.toNat) (by omega) ?_
  intro i hi j hj
  have hb := h4 i hi
  rw [Nat.add_comm] at hb
  obtain ⟨guess, -, htol⟩ := block_toleranceB hm hb
  rw [hr, ha] at htol
  refine ⟨sliceLen nt (i * n.toNat + 1) n.toNat, i * n.toNat, j, rfl, hj, ?_, fun b => ?_⟩
  · have := nblocks_lt (by omega) hi
    unfold sliceLen at hj ⊢
    omega
  · have hz : rowsNorm (sliceLen nt (i * n.toNat + 1) n.toNat)
        (fun j => defectB c.scheme f (sliceLen nt (i * n.toNat + 1) n.toNat) t res.get (i * n.toNat) j b) ≤ 0 := by
      rcases htol with h | h
      · exact h b
      · simpa using h b
    exact rowsNorm_eq_zero hz hj

/-- The base model's stress rate is an affine function of the strain rate, with the nonzero slope the model reports, at the given time, state and temperature. Every
`InelasticModel` and `DamagedInelasticModel` whose flow rule does not look at the strain rate is like that (if the modulus is not zero and the damage not one). -/
def RateAffine (M : Model (m + 1)) (t : ℝ) (y : Fin (m + 1) → ℝ) (T : ℝ) : Prop :=
  ∃ a, a ≠ 0 ∧ ∀ e, (M t y e T).Je 0 = a ∧ (M t y e T).ydot 0 = (M t y 0 T).ydot 0 + a * e

theorem rateAffine_inelastic {n : ℕ} (E : ℝ → ℝ) (f : FlowRule n) (hf : ∀ s h t T e, f.flow s h t T e = f.flow s h t T 0)
    (hd : ∀ s h t T e, f.dflow_de s h t T e = 0) (t : ℝ) (y : Fin (n + 1) → ℝ) (T : ℝ) (hE : E T ≠ 0) :
    RateAffine (inelastic E f) t y T := by
  refine ⟨E T, hE, fun e => ⟨by simp [inelastic, hd], ?_⟩⟩
  simp only [inelastic, Fin.cons_zero]
  rw [hf _ _ _ _ e]
  ring

theorem rateAffine_damaged {n : ℕ} (E : ℝ → ℝ) (f : FlowRule n) (dm : Damage) (hf : ∀ s h t T e, f.flow s h t T e = f.flow s h t T 0)
    (hd : ∀ s h t T e, f.dflow_de s h t T e = 0) (t : ℝ) (y : Fin (n + 2) → ℝ) (T : ℝ) (hE : E T ≠ 0) (hD : y (Fin.last (n + 1)) ≠ 1) :
    RateAffine (damaged E f dm) t y T := by
  refine ⟨E T * (1 - y (Fin.last (n + 1))), mul_ne_zero hE (sub_ne_zero.2 (Ne.symm hD)), fun e => ⟨by simp [damaged, hd, cat3], ?_⟩⟩
  simp only [damaged, cat3, Fin.cons_zero]
  rw [hf _ _ _ _ e]
  ring

/-- one call of the stress controlled model on a batch -/
theorem stressForward_affine (model : β → Model (m + 1)) (srate stress T : β → ℝ → ℝ) (t : β → ℝ) (y : β → Fin (m + 1) → ℝ)
    (b : β) (hA : RateAffine (model b) (t b) (Function.update (y b) 0 (stress b (t b))) (T b (t b))) :
    ∃ e, (stressForward model srate stress T t y).1 b =
        Function.update (model b (t b) (Function.update (y b) 0 (stress b (t b))) e (T b (t b))).ydot 0 e ∧
      |(model b (t b) (Function.update (y b) 0 (stress b (t b))) e (T b (t b))).ydot 0 - srate b (t b)| ≤ 1e-10 := by
  obtain ⟨a, ha0, ha⟩ := hA
  have h := C26_affine_test model (fun b => srate b (t b)) (fun b => stress b (t b)) (fun b => T b (t b)) t y b a ha0
    (fun e => (ha e).1) (fun e => (ha e).2)
  refine ⟨_, rfl, ?_⟩
  have h1 := h.2
  set x := (stressSolve model (fun b => srate b (t b)) (fun b => stress b (t b)) (fun b => T b (t b)) t y).x b 0 with hx
  beta_reduce at h1
  rw [(ha x).2]
  have hpos : 0 < |a| := abs_pos.2 ha0
  rw [le_div_iff₀ hpos, ← abs_mul, sub_mul, div_mul_cancel₀ _ ha0] at h1
  refine le_of_eq_of_le ?_ h1
  congr 1; ring

/-- one row of the call of the stress controlled model on a block of the recorded times -/
theorem stress_row (model : β → Model (m + 1)) (nt : ℕ) (times data temps : ℕ → β → ℝ) (hg : ∀ b, StrictGrid (nt - 1) fun k => times k b)
    (Y : ℕ → β → Fin (m + 1) → ℝ)
    (b : β) (hA : ∀ k, k < nt → RateAffine (model b) (times k b) (Function.update (Y k b) 0 (data k b)) (temps k b))
    {N k0 j : ℕ} (hj : j < N + 1) (hN : k0 + N < nt) (h1 : 1 < nt) :
    ∃ e, (stressForward (β := Fin (N + 1) × β) (fun p => model p.2) (fun p => rateFn nt (fun k => times k p.2) fun k => data k p.2)
        (fun p => dataFn nt (fun k => times k p.2) fun k => data k p.2) (fun p => dataFn nt (fun k => times k p.2) fun k => temps k p.2)
        (fun p => times (k0 + p.1.val) p.2) (fun p => Y (k0 + p.1.val) p.2)).1 (⟨j, hj⟩, b) =
        Function.update (model b (times (k0 + j) b) (Function.update (Y (k0 + j) b) 0 (data (k0 + j) b)) e (temps (k0 + j) b)).ydot 0 e ∧
      |(model b (times (k0 + j) b) (Function.update (Y (k0 + j) b) 0 (data (k0 + j) b)) e (temps (k0 + j) b)).ydot 0 -
        rateFn nt (fun k => times k b) (fun k => data k b) (times (k0 + j) b)| ≤ 1e-10 := by
  have hT : ∀ k b, k < nt → dataFn nt (fun k => times k b) (fun k => temps k b) (times k b) = temps k b := fun k b hk =>
    dataFn_grid (hg b) (fun k => temps k b) hk (by omega)
  have hS : ∀ k b, k < nt → dataFn nt (fun k => times k b) (fun k => data k b) (times k b) = data k b := fun k b hk =>
    dataFn_grid (hg b) (fun k => data k b) hk (by omega)
  obtain ⟨e, h1, h2⟩ := stressForward_affine (β := Fin (N + 1) × β) (fun p => model p.2)
    (fun p => rateFn nt (fun k => times k p.2) fun k => data k p.2)
    (fun p => dataFn nt (fun k => times k p.2) fun k => data k p.2) (fun p => dataFn nt (fun k => times k p.2) fun k => temps k p.2)
    (fun p => times (k0 + p.1.val) p.2) (fun p => Y (k0 + p.1.val) p.2) (⟨j, hj⟩, b) (by
      simp only
      rw [hT _ b (by omega), hS _ b (by omega)]
      exact hA _ (by omega))
  simp only at h1 h2
  rw [hT _ b (by omega), hS _ b (by omega)] at h1 h2
  exact ⟨e, h1, h2⟩

/-! ## C78: stress controlled tests -/

/-- **C78.** `ModelIntegrator.solve_stress`, backward Euler, zero tolerances of the time integrator, no warning. In every step of every test there is a strain rate `e` such that the strain (component 0)
grows by `Δt e`, every other state variable by `Δt` times the base model's rate at the *recorded* stress and temperature of the end of the step, and at that strain rate the
base model's stress rate is the recorded `Δσ / Δt`, up to `1e-10`. The tests may have different materials; only the base model of this test needs to be affine in the strain rate at the returned states, whatever the other tests of the batch are. -/
theorem C78_stress_steps (c : Config) (hs : c.scheme = .backwardEuler) (hm : 0 ≤ c.miter) (hr : c.rtol = 0) (ha : c.atol = 0)
    (model : β → Model (m + 1)) (nt : ℕ) (times stresses temps : ℕ → β → ℝ) (blk : ℤ) (hb : 0 < blk)
    (hg : ∀ b, StrictGrid (nt - 1) fun k => times k b) (res : Partial β (m + 1))
    (h : solveStress c model nt times stresses temps blk = .ok (res, false))
    (b : β) (hA : ∀ k, k < nt → RateAffine (model b) (times k b) (Function.update (res.get k b) 0 (stresses k b)) (temps k b))
    (k : ℕ) (hk : k + 1 < nt) :
    let y := res.get
    let dt := times (k + 1) b - times k b
    let rate : ℝ → Fin (m + 1) → ℝ := fun e =>
      (model b (times (k + 1) b) (Function.update (y (k + 1) b) 0 (stresses (k + 1) b)) e (temps (k + 1) b)).ydot
    ∃ e, y (k + 1) b 0 - y k b 0 = dt * e ∧ (∀ i, i ≠ 0 → y (k + 1) b i - y k b i = dt * rate e i) ∧
      |rate e 0 - (stresses (k + 1) b - stresses k b) / dt| ≤ 1e-10 := by
  intro y dt rate
  obtain ⟨N, k0, j, rfl, hj, hN, hd⟩ := exact_defectB hm hr ha hb h k hk
  have hd := hd b
  rw [hs] at hd
  simp only [defectB, rowRate] at hd
  rw [dif_pos (by omega)] at hd
  obtain ⟨e, h1, h2⟩ := stress_row model nt times stresses temps hg res.get b hA (j := j + 1) (by omega) hN (by omega)
  simp only [← Nat.add_assoc] at h1 h2
  simp only [stressFunc] at hd
  rw [h1, sub_eq_zero] at hd
  have hdt : 0 < dt := sub_pos.2 (hg b (k0 + j) (by omega))
  refine ⟨e, ?_, fun i hi => ?_, ?_⟩
  · have := congrFun hd 0
    simpa using this
  · have := congrFun hd i
    simpa [hi] using this
  · have hr := rateFn_grid (hg b) (fun k => stresses k b) hk
    rw [← hr]
    rw [mul_div_cancel_left₀ _ hdt.ne']
    exact h2

/-- **C78.** For a test with an `InelasticModel` (with a flow rule that does not look at the strain rate), in a batch with any other materials: the recorded test satisfies `Δε = Δσ / E + Δt · flow` at the
recorded stress, up to `Δt · 1e-10 / |E|`, and `Δh = Δt · hist` (at some strain rate, for hardening models that look at it). -/
theorem C78_inelastic_steps (c : Config) (hs : c.scheme = .backwardEuler) (hm : 0 ≤ c.miter) (hr : c.rtol = 0) (ha : c.atol = 0)
    {n : ℕ} (model : β → Model (n + 1)) (nt : ℕ) (times stresses temps : ℕ → β → ℝ) (blk : ℤ) (hb : 0 < blk)
    (hg : ∀ b, StrictGrid (nt - 1) fun k => times k b) (res : Partial β (n + 1))
    (h : solveStress c model nt times stresses temps blk = .ok (res, false)) (b : β) (E : ℝ → ℝ) (f : FlowRule n) (hmod : model b = inelastic E f)
    (hE : ∀ k, k < nt → E (temps k b) ≠ 0) (hf : ∀ s h t T e, f.flow s h t T e = f.flow s h t T 0) (hd : ∀ s h t T e, f.dflow_de s h t T e = 0) (k : ℕ) (hk : k + 1 < nt) :
    let y := res.get
    let dt := times (k + 1) b - times k b
    let hist : Fin n → ℝ := fun j => y (k + 1) b j.succ
    |y (k + 1) b 0 - y k b 0 - ((stresses (k + 1) b - stresses k b) / E (temps (k + 1) b) +
        dt * f.flow (stresses (k + 1) b) hist (times (k + 1) b) (temps (k + 1) b) 0)| ≤ dt * (1e-10 / |E (temps (k + 1) b)|) ∧
    ∃ e, y (k + 1) b 0 - y k b 0 = dt * e ∧ ∀ i : Fin n, y (k + 1) b i.succ - y k b i.succ =
      dt * f.hist (stresses (k + 1) b) hist (times (k + 1) b) (temps (k + 1) b) e i := by
  intro y dt hist
  have hdt : 0 < dt := sub_pos.2 (hg b k (by omega))
  obtain ⟨e, h1, h2, h3⟩ := C78_stress_steps c hs hm hr ha model nt times stresses temps blk hb hg res h b
    (fun k hk => by rw [hmod]; exact rateAffine_inelastic _ _ hf hd _ _ _ (hE k hk)) k hk
  have hu : (fun j : Fin n => Function.update (res.get (k + 1) b) 0 (stresses (k + 1) b) j.succ) = hist := by
    funext j; rw [Function.update_of_ne (Fin.succ_ne_zero j)]
  have hE' := hE (k + 1) hk
  constructor
  · rw [h1]
    simp only [hmod, inelastic, Fin.cons_zero, Function.update_self, hu] at h3
    rw [hf] at h3
    set F := f.flow (stresses (k + 1) b) hist (times (k + 1) b) (temps (k + 1) b) 0
    set EE := E (temps (k + 1) b)
    have e1 : dt * e - ((stresses (k + 1) b - stresses k b) / EE + dt * F) =
        dt * ((EE * (e - F) - (stresses (k + 1) b - stresses k b) / dt) / EE) := by
      field_simp
      ring
    rw [e1, abs_mul, abs_of_pos hdt, abs_div]
    exact mul_le_mul_of_nonneg_left (div_le_div_of_nonneg_right h3 (abs_nonneg _)) hdt.le
  · refine ⟨e, h1, fun i => ?_⟩
    have := h2 i.succ (Fin.succ_ne_zero i)
    simp only [hmod, inelastic, Fin.cons_succ, Function.update_self, hu] at this
    exact this

/-- the state of a model with one state variable is replaced entirely by the imposed stress -/
theorem imposed_one (cs : ℝ) (y y' : Fin (0 + 1) → ℝ) : imposed cs y = imposed cs y' := by
  funext i
  obtain rfl : i = 0 := Subsingleton.elim (α := Fin 1) i 0
  simp [imposed]

theorem stressRJ_one (model : β → Model (0 + 1)) (csr cs cT t : β → ℝ) (y y' : β → Fin (0 + 1) → ℝ) :
    stressRJ model csr cs cT t y = stressRJ model csr cs cT t y' := by
  funext e
  refine Prod.ext ?_ ?_
  · funext b i
    simp only [stressRJ]
    rw [imposed_one _ (y b) (y' b)]
  · funext b
    ext i j
    simp only [stressRJ]
    rw [imposed_one _ (y b) (y' b)]

/-- **C78.** Materials without history variables (creep laws): a stress controlled test always succeeds without a warning even with zero tolerances, for every recorded history, block size,
solver option and scheme (with at least two Newton updates allowed). -/
theorem C78_creep_always_solved (c : Config) (hr : c.rtol = 0) (ha : c.atol = 0) (hm : 2 ≤ c.miter) (model : β → Model (0 + 1)) (nt : ℕ) (hnt : 0 < nt)
    (times stresses temps : ℕ → β → ℝ) (blk : ℤ) (hb : 0 < blk)
    (hg : c.guessType = "zero" ∨ (c.guessType = "previous" ∧ blk ≤ (nt : ℤ) - 1)) :
    ∃ res, solveStress c model nt times stresses temps blk = .ok (res, false) := by
  have key : ∀ n t y, stressFunc model nt times stresses temps n t y = ((stressFunc model nt times stresses temps n t 0).1, 0) := by
    intro n t y
    refine Prod.ext ?_ ?_
    · simp only [stressFunc, stressForward, stressOut, stressSolve]
      funext k b
      rw [stressRJ_one _ _ _ _ _ (fun p : Fin n × β => y p.1 p.2) (fun p : Fin n × β => (0 : Fin n → BVec β (0 + 1) ℝ) p.1 p.2),
        imposed_one _ (y k b) ((0 : Fin n → BVec β (0 + 1) ℝ) k b)]
    · funext k b
      ext i j
      obtain rfl : j = 0 := Subsingleton.elim (α := Fin 1) j 0
      simp [stressFunc, stressForward, stressOut, stressJac]
  obtain ⟨res, w, h, hw⟩ := integrate_ok c (stressFunc model nt times stresses temps) 0 nt hnt times blk hb
    hg (fun w => w = false) rfl (fun a b h1 h2 => by simp [h1, h2]) (by
      intro k hk1 hk2 yS g
      have hlen : 0 < sliceLen nt k blk.toNat := by unfold sliceLen; omega
      unfold blockNewton
      refine newton_succeeds _ _ _ (fun (R : β → Fin (sliceLen nt k blk.toNat * (0 + 1)) → ℝ) (b : β) => rowNorm (R b))
        g _ _ _ _ 1 (by omega) ?_
      left
      intro b
      have := linear_newtonB c.scheme (stressFunc model nt times stresses temps) hlen
        (fun j : Fin (sliceLen nt k blk.toNat) => times (k + j.val)) (times (k - 1)) yS c.method (fun _ _ => 0) _ (by
          intro y
          rw [key]
          refine Prod.ext ?_ rfl
          funext k b
          simp only [Matrix.zero_mulVec, zero_add]
          rfl) (by
          intro _ j b
          simp) g
      show rowNorm ((blockRJ _ _ _ _ _ _).1 b) ≤ _
      simp only [newtonIterate, Function.iterate_one]
      rw [this, ha]
      simp [rowNorm_zero])
  subst hw
  exact ⟨res, h⟩

/-- Non-vacuity of C78: power law creep (`n = 3`, `η = 50`, `E = 100`) of two tests with recorded stresses `10 k` and `-20 k`: the strain increments are the stated ones. -/
example : ∃ res, solveStress (β := Bool)
    { scheme := .backwardEuler, method := .direct .thomas, rtol := 0, atol := 0, miter := 50, throwOnFail := true, guessType := "zero" }
    (fun _ => inelastic (fun _ => 100) (perfect (fun _ => 3) (fun _ => 50))) 4 (fun k _ => k) (fun k b => if b then 10 * k else -20 * k)
    (fun _ _ => 300) 2 = .ok (res, false) ∧
    |res.get 1 true 0 - (10 / 100 + (10 / 50) ^ 3)| ≤ 1e-12 := by
  obtain ⟨res, h⟩ := C78_creep_always_solved (β := Bool)
    { scheme := .backwardEuler, method := .direct .thomas, rtol := 0, atol := 0, miter := 50, throwOnFail := true, guessType := "zero" } rfl rfl (by norm_num)
    (fun _ => inelastic (fun _ => 100) (perfect (fun _ => 3) (fun _ => 50))) 4 (by norm_num) (fun k _ => (k : ℝ)) (fun k b => if b then 10 * k else -20 * k)
    (fun _ _ => 300) 2 (by norm_num) (Or.inl rfl)
  refine ⟨res, h, ?_⟩
  have hg : ∀ b : Bool, StrictGrid (4 - 1) fun k => (fun (k : ℕ) (_ : Bool) => (k : ℝ)) k b := by
    intro b k hk; push_cast; linarith
  have h1 := (C78_inelastic_steps (β := Bool)
    { scheme := .backwardEuler, method := .direct .thomas, rtol := 0, atol := 0, miter := 50, throwOnFail := true, guessType := "zero" } rfl (by norm_num) rfl rfl
    (fun _ => inelastic (fun _ => 100) (perfect (fun _ => 3) (fun _ => 50))) 4 (fun k _ => (k : ℝ)) (fun k b => if b then 10 * k else -20 * k)
    (fun _ _ => 300) 2 (by norm_num) hg res h true (fun _ => 100) (perfect (fun _ => 3) (fun _ => 50)) rfl (by intros; norm_num) (fun _ _ _ _ _ => rfl) (fun _ _ _ _ _ => rfl) 0 (by norm_num)).1
  have h0 : res.get 0 true 0 = 0 := by
    have := (C14_every_time_filled _ _ _ _ _ _ (by norm_num) res false h).2
    simp only [Partial.get]; rw [this]; rfl
  simp only [zero_add, h0, if_true, perfect] at h1
  norm_num at h1 ⊢
  have hs : sgn 10 = 1 := Real.sign_of_pos (by norm_num)
  rw [hs] at h1
  convert h1 using 2
  norm_num

/-! ## C79: mixed batches -/

/-- **C79.** `ModelIntegrator.solve_both`, backward Euler, zero tolerances of the time integrator, no warning. Every test labelled 0 satisfies exactly the step equations of strain control with
its own data (`idata` are strains), whatever else is in the batch; every test labelled 1 those of C78 (`idata` are stresses); a test with any other label returns zeros. -/
theorem C79_both_steps (c : Config) (hs : c.scheme = .backwardEuler) (hm : 0 ≤ c.miter) (hr : c.rtol = 0) (ha : c.atol = 0)
    (model : β → Model (m + 1)) (nt : ℕ) (times temps idata : ℕ → β → ℝ) (control : β → ℝ) (blk : ℤ) (hb : 0 < blk)
    (hg : ∀ b, StrictGrid (nt - 1) fun k => times k b) (res : Partial β (m + 1))
    (h : solveBoth c model nt times temps idata control blk = .ok (res, false)) (b : β) :
    let y := res.get
    (control b = 0 → ∀ k, k + 1 < nt →
      let dt := times (k + 1) b - times k b
      y (k + 1) b = y k b + dt • (model b (times (k + 1) b) (y (k + 1) b) ((idata (k + 1) b - idata k b) / dt) (temps (k + 1) b)).ydot) ∧
    (control b = 1 → (∀ k, k < nt → RateAffine (model b) (times k b) (Function.update (y k b) 0 (idata k b)) (temps k b)) →
      ∀ k, k + 1 < nt →
      let dt := times (k + 1) b - times k b
      let rate : ℝ → Fin (m + 1) → ℝ := fun e =>
        (model b (times (k + 1) b) (Function.update (y (k + 1) b) 0 (idata (k + 1) b)) e (temps (k + 1) b)).ydot
      ∃ e, y (k + 1) b 0 - y k b 0 = dt * e ∧ (∀ i, i ≠ 0 → y (k + 1) b i - y k b i = dt * rate e i) ∧
        |rate e 0 - (idata (k + 1) b - idata k b) / dt| ≤ 1e-10) ∧
    (control b ≠ 0 → control b ≠ 1 → ∀ k, k < nt → y k b = 0) := by
  intro y
  have key : ∀ k, k + 1 < nt → ∃ (N k0 j : ℕ) (hj : j + 1 < N + 1), k = k0 + j ∧ k0 + N < nt ∧
      y (k + 1) b - y k b = (times (k + 1) b - times k b) •
        (bothForward (β := Fin (N + 1) × β) (fun p => model p.2) (fun p => rateFn nt (fun k => times k p.2) fun k => idata k p.2)
          (fun p => dataFn nt (fun k => times k p.2) fun k => idata k p.2) (fun p => dataFn nt (fun k => times k p.2) fun k => temps k p.2)
          (fun p => control p.2) (fun p => times (k0 + p.1.val) p.2) (fun p => res.get (k0 + p.1.val) p.2)).1 (⟨j + 1, hj⟩, b) := by
    intro k hk
    obtain ⟨N, k0, j, rfl, hj, hN, hd⟩ := exact_defectB hm hr ha hb h k hk
    have hd := hd b
    rw [hs] at hd
    simp only [defectB, rowRate] at hd
    rw [dif_pos (by omega)] at hd
    exact ⟨N, k0, j, by omega, rfl, hN, sub_eq_zero.1 hd⟩
  refine ⟨fun hc k hk => ?_, fun hc hA k hk => ?_, fun h0 h1 k hk => ?_⟩
  · intro dt
    have hdt : 0 < dt := sub_pos.2 (hg b k (by omega))
    obtain ⟨N, k0, j, hj, rfl, hN, hd⟩ := key k hk
    rw [((C27_selection (β := Fin (N + 1) × β) (fun p => model p.2) (fun p => rateFn nt (fun k => times k p.2) fun k => idata k p.2)
      (fun p => dataFn nt (fun k => times k p.2) fun k => idata k p.2) (fun p => dataFn nt (fun k => times k p.2) fun k => temps k p.2)
      (fun p => control p.2) (fun p => times (k0 + p.1.val) p.2) (fun p => res.get (k0 + p.1.val) p.2) (⟨j + 1, hj⟩, b)).1 hc).1] at hd
    simp only [← Nat.add_assoc] at hd
    rw [dataFn_grid (hg b) (fun k => temps k b) hk (by omega)] at hd
    have hr := rateFn_grid (hg b) (fun k => idata k b) hk
    rw [← hr, mul_div_cancel_left₀ _ hdt.ne']
    exact sub_eq_iff_eq_add'.1 hd
  · intro dt rate
    have hdt : 0 < dt := sub_pos.2 (hg b k (by omega))
    obtain ⟨N, k0, j, hj, rfl, hN, hd⟩ := key k hk
    rw [((C27_selection (β := Fin (N + 1) × β) (fun p => model p.2) (fun p => rateFn nt (fun k => times k p.2) fun k => idata k p.2)
      (fun p => dataFn nt (fun k => times k p.2) fun k => idata k p.2) (fun p => dataFn nt (fun k => times k p.2) fun k => temps k p.2)
      (fun p => control p.2) (fun p => times (k0 + p.1.val) p.2) (fun p => res.get (k0 + p.1.val) p.2) (⟨j + 1, hj⟩, b)).2.1 hc).1] at hd
    obtain ⟨e, h1, h2⟩ := stress_row model nt times idata temps hg res.get b hA (j := j + 1) hj hN (by omega)
    simp only [← Nat.add_assoc] at h1 h2
    rw [h1] at hd
    refine ⟨e, ?_, fun i hi => ?_, ?_⟩
    · have := congrFun hd 0
      simpa using this
    · have := congrFun hd i
      simpa [hi] using this
    · have hr := rateFn_grid (hg b) (fun k => idata k b) hk
      rw [← hr, mul_div_cancel_left₀ _ hdt.ne']
      exact h2
  · obtain ⟨-, f2⟩ := C14_every_time_filled c _ _ nt times blk hb res false h
    induction k with
    | zero => simp only [y, Partial.get]; rw [f2]; rfl
    | succ k ih =>
      obtain ⟨N, k0, j, hj, rfl, hN, hd⟩ := key k hk
      rw [((C27_selection (β := Fin (N + 1) × β) (fun p => model p.2) (fun p => rateFn nt (fun k => times k p.2) fun k => idata k p.2)
      (fun p => dataFn nt (fun k => times k p.2) fun k => idata k p.2) (fun p => dataFn nt (fun k => times k p.2) fun k => temps k p.2)
      (fun p => control p.2) (fun p => times (k0 + p.1.val) p.2) (fun p => res.get (k0 + p.1.val) p.2) (⟨j + 1, hj⟩, b)).2.2 h0 h1).1, smul_zero, ih (by omega), sub_zero] at hd
      exact hd

/-- **C79.** A linearly viscous (Maxwell) material with constant modulus `E > 0` and viscosity `η > 0`, any mixture of controls: backward Euler always succeeds without a warning, even with zero
tolerances. -/
theorem C79_maxwell_always_solved (c : Config) (hs : c.scheme = .backwardEuler) (hr : c.rtol = 0) (ha : c.atol = 0) (hm : 2 ≤ c.miter) (E eta : ℝ) (hE : 0 < E) (heta : 0 < eta)
    (nt : ℕ) (hnt : 0 < nt) (times temps idata : ℕ → β → ℝ) (ht : ∀ k b, k + 1 < nt → times k b ≤ times (k + 1) b) (control : β → ℝ) (blk : ℤ) (hb : 0 < blk)
    (hg : c.guessType = "zero" ∨ (c.guessType = "previous" ∧ blk ≤ (nt : ℤ) - 1)) :
    ∃ res, solveBoth c (fun _ => inelastic (fun _ => E) (perfect (fun _ => 1) (fun _ => eta))) nt times temps idata control blk = .ok (res, false) := by
  classical
  let model : β → Model (0 + 1) := fun _ => inelastic (fun _ => E) (perfect (fun _ => 1) (fun _ => eta))
  let M : β → Matrix (Fin (0 + 1)) (Fin (0 + 1)) ℝ := fun b => Matrix.of fun _ _ => if control b = 0 then -E / eta else 0
  have key : ∀ n t y, bothFunc model nt times idata temps control n t y =
      (fun k b => (M b).mulVec (y k b) + (bothFunc model nt times idata temps control n t 0).1 k b, fun _ b => M b) := by
    intro n t y
    have sel := fun (y : Fin n → BVec β (0 + 1) ℝ) (p : Fin n × β) => C27_selection (β := Fin n × β) (fun p => model p.2)
      (fun p => rateFn nt (fun k => times k p.2) fun k => idata k p.2)
      (fun p => dataFn nt (fun k => times k p.2) fun k => idata k p.2) (fun p => dataFn nt (fun k => times k p.2) fun k => temps k p.2)
      (fun p => control p.2) (fun p => t p.1 p.2) (fun p => y p.1 p.2) p
    refine Prod.ext ?_ ?_
    · funext k b i
      obtain rfl : i = 0 := Subsingleton.elim (α := Fin 1) i 0
      simp only [bothFunc, Pi.add_apply, Matrix.mulVec, dotProduct, M, Matrix.of_apply]
      rw [Fin.sum_univ_one]
      by_cases h0 : control b = 0
      · rw [((sel y (k, b)).1 h0).1, ((sel 0 (k, b)).1 h0).1, if_pos h0]
        simp only [model, inelastic, perfect, Fin.cons_zero, Real.rpow_one, Pi.zero_apply]
        have h1 := sgn_mul_abs (y k b 0)
        simp only [abs_zero, zero_div, zero_mul]
        linear_combination (-E / eta) * h1
      · rw [if_neg h0, zero_mul]
        refine Eq.trans ?_ (zero_add _).symm
        by_cases h1 : control b = 1
        · rw [((sel y (k, b)).2.1 h1).1, ((sel 0 (k, b)).2.1 h1).1]
          simp only [stressForward, stressOut, stressSolve]
          rw [stressRJ_one _ _ _ _ _ (fun p : Fin n × β => y p.1 p.2) (fun p : Fin n × β => (0 : Fin n → BVec β (0 + 1) ℝ) p.1 p.2),
            imposed_one _ (y k b) ((0 : Fin n → BVec β (0 + 1) ℝ) k b)]
        · rw [((sel y (k, b)).2.2 h0 h1).1, ((sel 0 (k, b)).2.2 h0 h1).1]
    · funext k b
      ext i j
      obtain rfl : i = 0 := Subsingleton.elim (α := Fin 1) i 0
      obtain rfl : j = 0 := Subsingleton.elim (α := Fin 1) j 0
      simp only [bothFunc, M, Matrix.of_apply]
      by_cases h0 : control b = 0
      · rw [((sel y (k, b)).1 h0).2, if_pos h0]
        simp only [model, inelastic, perfect, Fin.cons_zero, sub_self, Real.rpow_zero]
        ring
      · rw [if_neg h0]
        by_cases h1 : control b = 1
        · rw [((sel y (k, b)).2.1 h1).2]
          simp [stressForward, stressOut, stressJac]
        · rw [((sel y (k, b)).2.2 h0 h1).2]; rfl
  obtain ⟨res, w, h, hw⟩ := integrate_ok c (bothFunc model nt times idata temps control) 0 nt hnt times blk hb
    hg (fun w => w = false) rfl (fun a b h1 h2 => by simp [h1, h2]) (by
      intro k hk1 hk2 yS g
      have hlen : 0 < sliceLen nt k blk.toNat := by unfold sliceLen; omega
      unfold blockNewton
      refine newton_succeeds _ _ _ (fun (R : β → Fin (sliceLen nt k blk.toNat * (0 + 1)) → ℝ) (b : β) => rowNorm (R b))
        g _ _ _ _ 1 (by omega) ?_
      left
      intro b
      have := linear_newtonB c.scheme (bothFunc model nt times idata temps control) hlen
        (fun j : Fin (sliceLen nt k blk.toNat) => times (k + j.val)) (times (k - 1)) yS c.method (fun _ b => M b) _ (by
          intro y
          rw [key]) (by
          intro _ j b
          have h1 : ∀ i : Fin (sliceLen nt k blk.toNat + 1),
              stack (times (k - 1)) (fun j : Fin (sliceLen nt k blk.toNat) => times (k + j.val)) i = times (k - 1 + i.val) := by
            intro i
            refine Fin.cases ?_ (fun i => ?_) i
            · simp [stack]
            · simp only [stack, Fin.cons_succ, Fin.val_succ]
              congr 1; omega
          unfold diff
          rw [h1, h1, Fin.val_succ, Fin.val_castSucc, ← Nat.add_assoc]
          have hlt : k - 1 + j.val + 1 < nt := by
            have := j.2
            unfold sliceLen at this
            omega
          have hle := ht _ b hlt
          rw [Matrix.det_fin_one]
          simp only [M, Matrix.sub_apply, Matrix.one_apply_eq, Matrix.smul_apply, Matrix.of_apply, smul_eq_mul, isUnit_iff_ne_zero]
          by_cases h0 : control b = 0
          · rw [if_pos h0]
            have : 0 ≤ (times (k - 1 + j.val + 1) b - times (k - 1 + j.val) b) * (E / eta) :=
              mul_nonneg (sub_nonneg.2 hle) (by positivity)
            have e : (times (k - 1 + j.val + 1) b - times (k - 1 + j.val) b) * (-E / eta) =
              -((times (k - 1 + j.val + 1) b - times (k - 1 + j.val) b) * (E / eta)) := by ring
            rw [e]
            linarith
          · rw [if_neg h0]; norm_num) g
      show rowNorm ((blockRJ _ _ _ _ _ _).1 b) ≤ _
      simp only [newtonIterate, Function.iterate_one]
      rw [this, ha]
      simp [rowNorm_zero])
  subst hw
  exact ⟨res, h⟩

/-- Non-vacuity of C79: three tests in one batch, labelled 0 (strain ramp `ε = k/100`), 1 (constant stress rate) and 7 (no such control): the first step of the strain controlled one is the exact
backward Euler stress `E Δε / (1 + E Δt / η)`, the last stays zero. -/
example : ∃ res, solveBoth (β := Fin 3)
    { scheme := .backwardEuler, method := .direct .thomas, rtol := 0, atol := 0, miter := 50, throwOnFail := true, guessType := "zero" }
    (fun _ => inelastic (fun _ => 100) (perfect (fun _ => 1) (fun _ => 50))) 4 (fun k _ => k) (fun _ _ => 300) (fun k _ => k / 100)
    (fun b => if b = 0 then 0 else if b = 1 then 1 else 7) 2 = .ok (res, false) ∧
    res.get 1 0 0 = 1 / 3 ∧ res.get 3 2 = 0 := by
  have hg : ∀ b : Fin 3, StrictGrid (4 - 1) fun k => (fun (k : ℕ) (_ : Fin 3) => (k : ℝ)) k b := by
    intro b k hk; push_cast; linarith
  obtain ⟨res, h⟩ := C79_maxwell_always_solved (β := Fin 3)
    { scheme := .backwardEuler, method := .direct .thomas, rtol := 0, atol := 0, miter := 50, throwOnFail := true, guessType := "zero" } rfl rfl rfl (by norm_num)
    100 50 (by norm_num) (by norm_num) 4 (by norm_num) (fun k _ => (k : ℝ)) (fun _ _ => 300) (fun k _ => k / 100)
    (by intro k b _; push_cast; linarith) (fun b => if b = 0 then 0 else if b = 1 then 1 else 7) 2 (by norm_num) (Or.inl rfl)
  have steps := fun b => C79_both_steps _ rfl (by norm_num) rfl rfl _ 4 (fun k (_ : Fin 3) => (k : ℝ)) (fun _ _ => 300) (fun k _ => k / 100)
    (fun b => if b = 0 then 0 else if b = 1 then 1 else 7) 2 (by norm_num) hg res h b
  refine ⟨res, h, ?_, ?_⟩
  · have h1 := congrFun ((steps 0).1 (by simp) 0 (by norm_num)) 0
    have h0 : res.get 0 0 0 = 0 := by
      have := (C14_every_time_filled _ _ _ _ _ _ (by norm_num) res false h).2
      simp only [Partial.get]; rw [this]; rfl
    simp only [inelastic, perfect, Fin.cons_zero, Real.rpow_one, Pi.add_apply, Pi.smul_apply, smul_eq_mul, h0] at h1
    have h2 := sgn_mul_abs (res.get 1 0 0)
    norm_num at h1
    linarith
  · exact (steps 2).2.2 (by simp) (by simp) 3 (by norm_num)

/-! ## C80: the tests of a batch do not influence each other -/

/-- Two trajectories of the same step equations of which the steps are uniquely solvable agree. -/
private theorem be_lane_unique {r : ℝ → (Fin m → ℝ) → Fin m → ℝ} {nt : ℕ} {τ : ℕ → ℝ} {y y' : ℕ → Fin m → ℝ}
    (hu : ∀ k z w w', k + 1 < nt → w = z + (τ (k + 1) - τ k) • r (τ (k + 1)) w → w' = z + (τ (k + 1) - τ k) • r (τ (k + 1)) w' → w = w')
    (h0 : y 0 = y' 0) (h : ∀ k, k + 1 < nt → y (k + 1) = y k + (τ (k + 1) - τ k) • r (τ (k + 1)) (y (k + 1)))
    (h' : ∀ k, k + 1 < nt → y' (k + 1) = y' k + (τ (k + 1) - τ k) • r (τ (k + 1)) (y' (k + 1))) : ∀ k, k < nt → y k = y' k := by
  intro k
  induction k with
  | zero => intro _; exact h0
  | succ k ih =>
    intro hk
    have e := ih (by omega)
    refine hu k (y k) _ _ hk (h k hk) ?_
    rw [e]; exact h' k hk

/-- **C80.** Backward Euler with zero tolerances: the result for an entry of a batch is a function of that entry alone. Two integrations without warnings, of batches of any size and composition, with any block sizes, solver
options, guesses and iteration limits, that contain an entry with the same right hand side, times and initial state, give it the same states, if each step of that entry has at most one solution. -/
theorem C80_batch_independent (c c' : Config) (hs : c.scheme = .backwardEuler) (hs' : c'.scheme = .backwardEuler) (hm : 0 ≤ c.miter) (hm' : 0 ≤ c'.miter)
    (hr : c.rtol = 0) (ha : c.atol = 0) (hr' : c'.rtol = 0) (ha' : c'.atol = 0) (f : Func β m) (f' : Func β' m) (y0 : BVec β m ℝ) (y0' : BVec β' m ℝ) (nt : ℕ)
    (t : ℕ → β → ℝ) (t' : ℕ → β' → ℝ) (n n' : ℤ) (hn : 0 < n) (hn' : 0 < n') (res : Partial β m) (res' : Partial β' m)
    (h : integrate c f y0 nt t n = .ok (res, false)) (h' : integrate c' f' y0' nt t' n' = .ok (res', false)) (b : β) (b' : β')
    (hf : ∀ s y, (f b s y).1 = (f' b' s y).1) (ht : ∀ k, k < nt → t k b = t' k b') (hy : y0 b = y0' b')
    (hu : ∀ k (z w w' : Fin m → ℝ), k + 1 < nt → w = z + (t (k + 1) b - t k b) • (f b (t (k + 1) b) w).1 →
      w' = z + (t (k + 1) b - t k b) • (f b (t (k + 1) b) w').1 → w = w') :
    ∀ k, k < nt → res.get k b = res'.get k b' := by
  have e := C15_exact_blocks_are_backward_euler c hs hm hr ha f y0 nt t n hn res h
  have e' := C15_exact_blocks_are_backward_euler c' hs' hm' hr' ha' f' y0' nt t' n' hn' res' h'
  obtain ⟨-, f2⟩ := C14_every_time_filled c f y0 nt t n hn res false h
  obtain ⟨-, f2'⟩ := C14_every_time_filled c' f' y0' nt t' n' hn' res' false h'
  refine be_lane_unique (r := fun s y => (f b s y).1) (τ := fun k => t k b) hu ?_ (fun k hk => e k b hk) fun k hk => ?_
  · simp only [Partial.get]; rw [f2, f2']; exact hy
  · rw [ht k (by omega), ht (k + 1) hk]
    simp only [hf]
    exact e' k b' hk

/-- **C80.** The same for forward Euler, where no uniqueness is needed. -/
theorem C80_batch_independent_forward (c c' : Config) (hs : c.scheme = .forwardEuler) (hs' : c'.scheme = .forwardEuler) (hm : 0 ≤ c.miter) (hm' : 0 ≤ c'.miter)
    (hr : c.rtol = 0) (ha : c.atol = 0) (hr' : c'.rtol = 0) (ha' : c'.atol = 0) (f : Func β m) (f' : Func β' m) (y0 : BVec β m ℝ) (y0' : BVec β' m ℝ) (nt : ℕ)
    (t : ℕ → β → ℝ) (t' : ℕ → β' → ℝ) (n n' : ℤ) (hn : 0 < n) (hn' : 0 < n') (res : Partial β m) (res' : Partial β' m)
    (h : integrate c f y0 nt t n = .ok (res, false)) (h' : integrate c' f' y0' nt t' n' = .ok (res', false)) (b : β) (b' : β')
    (hf : ∀ s y, (f b s y).1 = (f' b' s y).1) (ht : ∀ k, k < nt → t k b = t' k b') (hy : y0 b = y0' b') :
    ∀ k, k < nt → res.get k b = res'.get k b' := by
  obtain ⟨-, f2⟩ := C14_every_time_filled c f y0 nt t n hn res false h
  obtain ⟨-, f2'⟩ := C14_every_time_filled c' f' y0' nt t' n' hn' res' false h'
  intro k
  induction k with
  | zero => intro _; simp only [Partial.get]; rw [f2, f2']; exact hy
  | succ k ih =>
    intro hk
    have d := exact_defect hm hr ha hn h k hk b
    have d' := exact_defect hm' hr' ha' hn' h' k hk b'
    rw [hs] at d
    rw [hs'] at d'
    simp only [defect, forwardDefect, rate] at d d'
    rw [sub_sub, sub_eq_zero] at d d'
    rw [d, d', ih (by omega), ht k (by omega), ht (k + 1) hk, hf]

theorem const_newton (s : Scheme) (meth : SolveMethod) (f : Func β m) (r : β → Fin m → ℝ) (hf : f = fun b _ _ => (r b, 0)) {n : ℕ} (hn : 0 < n) (T : Fin n → β → ℝ) (tS : β → ℝ) (yS : BVec β m ℝ)
    (x : β → Fin (n * m) → ℝ) :
    (blockRJ s f.lift T tS yS (x - Chunktime.solve meth (blockRJ s f.lift T tS yS x).2 (blockRJ s f.lift T tS yS x).1)).1 = 0 := by
  refine linear_newtonB s f.lift hn T tS yS meth (fun _ _ => 0) (fun _ b => r b) ?_ ?_ x
  · intro y
    subst hf
    refine Prod.ext ?_ rfl
    funext k b
    simp only [Matrix.zero_mulVec]
    exact (zero_add _).symm
  · intro _ k b; simp

/-- one strain controlled test of the Voce-Chaboche material: its step equations determine it -/
private theorem vc_lane_unique {nk : ℕ} (E n eta s0 R d : ℝ → ℝ) (C g : Fin nk → ℝ → ℝ) (nt : ℕ) (times strains temps : ℕ → ℝ)
    (hg : StrictGrid (nt - 1) times) (R0 : ℝ) (B : Fin nk → ℝ)
    (hp : ∀ k, k < nt → VCAdmissible E n eta s0 R d C g (temps k) ∧ R (temps k) = R0 ∧ ∀ i, C i (temps k) = B i * g i (temps k))
    (hR0 : 0 ≤ R0) (hB : ∀ i, 0 ≤ B i) (y y' : ℕ → Fin (1 + nk + 1) → ℝ) (h0 : y 0 = 0) (h0' : y' 0 = 0)
    (h : ∀ k, k + 1 < nt → y (k + 1) = y k + (times (k + 1) - times k) • (inelastic E (isoKin n eta s0 (voce R d) (chaboche C g)) (times (k + 1)) (y (k + 1))
      ((strains (k + 1) - strains k) / (times (k + 1) - times k)) (temps (k + 1))).ydot)
    (h' : ∀ k, k + 1 < nt → y' (k + 1) = y' k + (times (k + 1) - times k) • (inelastic E (isoKin n eta s0 (voce R d) (chaboche C g)) (times (k + 1)) (y' (k + 1))
      ((strains (k + 1) - strains k) / (times (k + 1) - times k)) (temps (k + 1))).ydot) : ∀ k, k < nt → y k = y' k := by
  intro k hk
  rcases Nat.lt_or_ge 1 nt with hnt | hnt
  · have conv : ∀ y : ℕ → Fin (1 + nk + 1) → ℝ, (∀ k, k + 1 < nt → y (k + 1) = y k + (times (k + 1) - times k) •
        (inelastic E (isoKin n eta s0 (voce R d) (chaboche C g)) (times (k + 1)) (y (k + 1))
        ((strains (k + 1) - strains k) / (times (k + 1) - times k)) (temps (k + 1))).ydot) →
        IsBackwardEuler (β := Unit) (fun b s x => (inelastic E (isoKin n eta s0 (voce R d) (chaboche C g)) s x
          ((fun _ => rateFn nt times strains) b s) ((fun _ => dataFn nt times temps) b s)).ydot) nt (fun k _ => times k) (fun k _ => y k) := by
      intro y hy k b hk
      have hdt : 0 < times (k + 1) - times k := sub_pos.2 (hg k (by omega))
      have e := hy k hk
      have hr := rateFn_grid hg strains hk
      rw [← hr, mul_div_cancel_left₀ _ hdt.ne'] at e
      beta_reduce
      rw [dataFn_grid hg temps hk hnt]
      exact e
    have := (C74_history (β := Unit) E n eta s0 R d C g (fun _ => rateFn nt times strains) (fun _ => dataFn nt times temps) nt (fun k _ => times k)
      (fun k b hk => (hg k (by omega)).le) R0 B (fun k b hk => by
        beta_reduce
        rw [dataFn_grid hg temps hk hnt]
        exact hp k hk) 0 (fun b => by
        refine ⟨⟨le_rfl, hR0⟩, fun i => ?_⟩
        simpa using hB i)).2 (fun k _ => y k) (fun k _ => y' k) (by funext _; exact h0) (by funext _; exact h0') (conv y h) (conv y' h') k hk
    exact congrFun this ()
  · obtain rfl : k = 0 := by omega
    rw [h0, h0']

private theorem strain_lane {m : ℕ} (model : β → Model m) (nt : ℕ) (c : Config) (hs : c.scheme = .backwardEuler) (hm : 0 ≤ c.miter) (hr : c.rtol = 0) (ha : c.atol = 0)
    (times strains temps : ℕ → β → ℝ) (blk : ℤ) (hb : 0 < blk) (hg : ∀ b, StrictGrid (nt - 1) fun k => times k b) (res : Partial β m)
    (h : solveStrain c model nt times strains temps blk = .ok (res, false)) (b : β) :
    res.get 0 b = 0 ∧ ∀ k, k + 1 < nt → res.get (k + 1) b = res.get k b + (times (k + 1) b - times k b) •
      (model b (times (k + 1) b) (res.get (k + 1) b)
      ((strains (k + 1) b - strains k b) / (times (k + 1) b - times k b)) (temps (k + 1) b)).ydot := by
  have e := C15_exact_blocks_are_backward_euler c hs hm hr ha _ _ nt times blk hb res h
  obtain ⟨-, f2⟩ := C14_every_time_filled c _ _ nt times blk hb res false h
  refine ⟨by simp only [Partial.get]; rw [f2]; rfl, fun k hk => ?_⟩
  have hdt : 0 < times (k + 1) b - times k b := sub_pos.2 (hg b k (by omega))
  have e := e k b hk
  simp only [strainFunc] at e
  have hr := rateFn_grid (hg b) (fun k => strains k b) hk
  rw [← hr, mul_div_cancel_left₀ _ hdt.ne']
  rw [dataFn_grid (hg b) (fun k => temps k b) hk (by omega)] at e
  exact e

/-- **C80.** For the viscoplastic material with power law flow, Voce and Chaboche hardening (parameters as in C74), strain controlled tests, backward Euler, zero tolerances, no warnings: the simulated history of a test is
a function of its own times, strains and temperatures. It does not matter whether the test is simulated with `solve_strain` or, labelled 0, with `solve_both`, in which batch, next to which other
tests (of any materials), at which position, and with which block size and solver options. -/
theorem C80_voce_chaboche_tests {nk : ℕ} (E n eta s0 R d : ℝ → ℝ) (C g : Fin nk → ℝ → ℝ) (R0 : ℝ) (B : Fin nk → ℝ) (hR0 : 0 ≤ R0) (hB : ∀ i, 0 ≤ B i)
    (c c' : Config) (hs : c.scheme = .backwardEuler) (hs' : c'.scheme = .backwardEuler) (hm : 0 ≤ c.miter) (hm' : 0 ≤ c'.miter)
    (hr : c.rtol = 0) (ha : c.atol = 0) (hr' : c'.rtol = 0) (ha' : c'.atol = 0) (nt : ℕ) (times strains temps : ℕ → β → ℝ) (times' idata' temps' : ℕ → β' → ℝ) (control' : β' → ℝ)
    (blk blk' : ℤ) (hb : 0 < blk) (hb' : 0 < blk') (model : β → Model (1 + nk + 1)) (model' : β' → Model (1 + nk + 1)) (hg : ∀ b, StrictGrid (nt - 1) fun k => times k b) (hg' : ∀ b, StrictGrid (nt - 1) fun k => times' k b)
    (res : Partial β (1 + nk + 1)) (res' : Partial β' (1 + nk + 1))
    (h : solveStrain c model nt times strains temps blk = .ok (res, false))
    (b : β) (b' : β') (hmod : model b = inelastic E (isoKin n eta s0 (voce R d) (chaboche C g))) (hmod' : model' b' = inelastic E (isoKin n eta s0 (voce R d) (chaboche C g)))
    (h' : solveStrain c' model' nt times' idata' temps' blk' = .ok (res', false) ∨
      (control' b' = 0 ∧ solveBoth c' model' nt times' temps' idata' control' blk' = .ok (res', false)))
    (hsame : ∀ k, k < nt → times k b = times' k b' ∧ strains k b = idata' k b' ∧ temps k b = temps' k b')
    (hp : ∀ k, k < nt → VCAdmissible E n eta s0 R d C g (temps k b) ∧ R (temps k b) = R0 ∧ ∀ i, C i (temps k b) = B i * g i (temps k b)) :
    ∀ k, k < nt → res.get k b = res'.get k b' := by
  obtain ⟨z, st⟩ := strain_lane model nt c hs hm hr ha times strains temps blk hb hg res h b
  have h2 : res'.get 0 b' = 0 ∧ ∀ k, k + 1 < nt → res'.get (k + 1) b' = res'.get k b' + (times' (k + 1) b' - times' k b') •
        (model' b' (times' (k + 1) b') (res'.get (k + 1) b')
        ((idata' (k + 1) b' - idata' k b') / (times' (k + 1) b' - times' k b')) (temps' (k + 1) b')).ydot := by
    rcases h' with h' | ⟨h0, h'⟩
    · exact strain_lane model' nt c' hs' hm' hr' ha' times' idata' temps' blk' hb' hg' res' h' b'
    · obtain ⟨-, f2⟩ := C14_every_time_filled c' _ _ nt times' blk' hb' res' false h'
      exact ⟨by simp only [Partial.get]; rw [f2]; rfl, (C79_both_steps c' hs' hm' hr' ha' _ nt times' temps' idata' control' blk' hb' hg' res' h' b').1 h0⟩
  rw [hmod] at st
  rw [hmod'] at h2
  refine vc_lane_unique E n eta s0 R d C g nt (fun k => times k b) (fun k => strains k b) (fun k => temps k b) (hg b) R0 B hp hR0 hB _ _ z h2.1 st fun k hk => ?_
  obtain ⟨q1, q2, q3⟩ := hsame k (by omega)
  obtain ⟨r1, r2, r3⟩ := hsame (k + 1) hk
  rw [q1, q2, r1, r2, r3]
  exact h2.2 k hk

/-- Two times, one step of size one, state-independent rates `r b`. -/
theorem constant_rate_step (cfg : Config) (hs : cfg.scheme = .backwardEuler) (hr : cfg.rtol < 1) (ha : 0 ≤ cfg.atol) (hm : 2 ≤ cfg.miter) (hg : cfg.guessType = "zero") (r : β → ℝ) :
    ∃ res, integrate cfg (Func.lift fun b _ (_ : Fin 1 → ℝ) => (fun _ => r b, 0)) 0 2 (fun k _ => k) 1 = .ok (res, false) ∧
      ((∀ b, |r b| ≤ cfg.atol) → ∀ b, res.get 1 b 0 = 0) ∧ ((∃ b, cfg.atol < |r b|) → ∀ b, res.get 1 b 0 = r b) := by
  obtain ⟨f, hf⟩ : ∃ f : Func β 1, f = fun b _ _ => (fun _ => r b, 0) := ⟨_, rfl⟩
  rw [← hf]
  have lin := fun {n : ℕ} (hn : 0 < n) (T : Fin n → β → ℝ) (tS : β → ℝ) (yS : BVec β 1 ℝ) (x : β → Fin (n * 1) → ℝ) =>
    const_newton cfg.scheme cfg.method f (fun b _ => r b) hf hn T tS yS x
  obtain ⟨res, w, h, hw⟩ := integrate_ok cfg f.lift 0 2 (by norm_num) (fun k _ => (k : ℝ)) 1 (by norm_num)
    (Or.inl hg) (fun w => w = false) rfl (fun a b h1 h2 => by simp [h1, h2]) (by
      intro k hk1 hk2 yS g
      have hlen : 0 < sliceLen 2 k (1 : ℤ).toNat := by unfold sliceLen; omega
      unfold blockNewton
      refine newton_succeeds _ _ _ (fun (R : β → Fin (sliceLen 2 k (1 : ℤ).toNat * 1) → ℝ) (b : β) => rowNorm (R b))
        g _ _ _ _ 1 (by omega) ?_
      left
      intro b
      show rowNorm ((blockRJ _ _ _ _ _ _).1 b) ≤ _
      simp only [newtonIterate, Function.iterate_one]
      rw [lin hlen]
      simpa [rowNorm_zero] using ha)
  subst hw
  refine ⟨res, h, ?_⟩
  obtain ⟨-, f0, -, h4, -⟩ := integrate_spec cfg f.lift 0 2 (fun k _ => (k : ℝ)) 1 (by norm_num) res false h
  have hb : BlockOK cfg f.lift 2 (1 : ℤ).toNat (fun k _ => (k : ℝ)) res false (0 + 1) := h4 0 (by decide)
  obtain ⟨guess, dy, e1, e2, e3, e4, e5⟩ := block_factsB hb
  obtain rfl := e3 hg
  have hy0 : res.get 0 = 0 := by simp only [Partial.get]; rw [f0]; rfl
  have hlen : 0 < sliceLen 2 (0 + 1) (1 : ℤ).toNat := by decide
  set RJ := blockRJ cfg.scheme f.lift (fun j : Fin (sliceLen 2 (0 + 1) (1 : ℤ).toNat) => (fun (k : ℕ) (_ : β) => (k : ℝ)) (0 + 1 + j.val))
    ((fun (k : ℕ) (_ : β) => (k : ℝ)) 0) (res.get 0) with hRJ
  obtain ⟨g1, g2, g3⟩ := C10_returns_first_iterate RJ (fun J R => solve cfg.method J R) (fun x dx => x - dx) (fun R b => rowNorm (R b)) 0
    cfg.rtol cfg.atol cfg.miter (by omega) cfg.throwOnFail
  have hout : blockNewton cfg f.lift (fun j : Fin (sliceLen 2 (0 + 1) (1 : ℤ).toNat) => (fun (k : ℕ) (_ : β) => (k : ℝ)) (0 + 1 + j.val))
    ((fun (k : ℕ) (_ : β) => (k : ℝ)) 0) (res.get 0) 0 = newtonChunk RJ (fun J R => solve cfg.method J R) (fun x dx => x - dx)
      (fun R b => some (rowNorm (R b))) 0 cfg.rtol cfg.atol cfg.miter cfg.throwOnFail := rfl
  have e2 := e2 rfl
  rw [hout] at e1 e2
  have g2 := g2 dy e1
  have hmet := C10_no_warning_meets_tolerance RJ (fun J R => solve cfg.method J R) (fun x dx => x - dx) (fun R b => rowNorm (R b)) 0 dy
    cfg.rtol cfg.atol cfg.miter (by omega) cfg.throwOnFail e1 e2
  -- residual of the guess
  have hres0 : ∀ b, rowNorm ((RJ 0).1 b) = |r b| := by
    intro b
    have : rowNorm ((RJ 0).1 b) = rowsNorm (sliceLen 2 (0 + 1) (1 : ℤ).toNat) fun j => defect cfg.scheme f (fun k _ => (k : ℝ)) (fun _ => res.get 0) (0 + j) b :=
      rowNorm_eq_rowsNorm _ b _ fun j => blockRJ_residual cfg.scheme f _ _ _ 0 (fun (k : ℕ) (_ : β) => (k : ℝ)) (fun _ => res.get 0) 0 rfl rfl (fun _ => rfl)
        (fun j => by funext b r; simp [unflatten]) j b
    rw [this, hs]
    have hl : sliceLen 2 (0 + 1) (1 : ℤ).toNat = 1 := by decide
    rw [hl]
    simp [rowsNorm, defect, backwardDefect, rate, hf, Real.sqrt_sq_eq_abs]
  -- at most one update
  have hit : (newtonChunk RJ (fun J R => solve cfg.method J R) (fun x dx => x - dx) (fun R b => some (rowNorm (R b))) 0 cfg.rtol cfg.atol cfg.miter cfg.throwOnFail).iters ≤ 1 := by
    by_contra hlt
    refine g3 1 (by omega) (Or.inl fun b => ?_)
    simp only [newtonIterate, Function.iterate_one]
    rw [lin hlen]
    simpa [rowNorm_zero] using ha
  have row : ∀ b, res.get 1 b 0 = unflatten dy ⟨0, hlen⟩ b 0 := by
    intro b
    have := congrFun (congrFun (e4 ⟨0, hlen⟩) b) 0
    rw [hy0] at this
    simpa using this
  rcases Nat.le_one_iff_eq_zero_or_eq_one.1 hit with h0 | h1
  · rw [h0] at g2
    have hd : dy = 0 := g2
    constructor
    · intro _ b; rw [row b, hd]; rfl
    · rintro ⟨b, hb⟩
      exfalso
      rw [hd] at hmet
      rcases hmet with hq | hq
      · have := hq b
        beta_reduce at this
        rw [hres0] at this
        linarith
      · have := hq b
        beta_reduce at this
        rw [hres0] at this
        have : 0 < |r b| := lt_of_le_of_lt ha hb
        nlinarith
  · constructor
    · intro hall b
      exfalso
      refine g3 0 (by omega) (Or.inl fun b => ?_)
      change rowNorm ((RJ 0).1 b) ≤ cfg.atol
      rw [hres0]; exact hall b
    · intro _ b
      rw [h1] at g2
      have hz : (RJ dy).1 = 0 := by
        rw [g2]
        simp only [newtonIterate, Function.iterate_one]
        exact lin hlen _ _ _ _
      have := e5 ⟨0, hlen⟩ b
      rw [hz, defectB_lift _ _ _ _ _ hlen, hs] at this
      have := congrFun this 0
      simp only [defect, backwardDefect, rate, hf, hy0] at this
      simp [unflatten] at this
      linarith

/-- **C80.** With nonzero tolerances the tests *are* coupled: the Newton iteration stops when all entries meet the tolerance. Two tests with constant rates `5e-9` and `1`, default settings: alone, the first is returned
unchanged; in a batch with the second it is integrated. -/
theorem C80_tolerance_couples :
    let cfg : Config := { scheme := .backwardEuler, method := .direct .thomas, rtol := 1e-6, atol := 1e-8, miter := 100, throwOnFail := false, guessType := "zero" }
    ∃ (alone : Partial Unit 1) (both : Partial Bool 1),
      integrate cfg (Func.lift fun (_ : Unit) _ (_ : Fin 1 → ℝ) => (fun _ => 5e-9, 0)) 0 2 (fun k _ => k) 1 = .ok (alone, false) ∧
      integrate cfg (Func.lift fun (b : Bool) _ (_ : Fin 1 → ℝ) => (fun _ => if b then 1 else 5e-9, 0)) 0 2 (fun k _ => k) 1 = .ok (both, false) ∧
      alone.get 1 () 0 = 0 ∧ both.get 1 false 0 = 5e-9 := by
  intro cfg
  obtain ⟨alone, a1, a2, -⟩ := constant_rate_step (β := Unit) cfg rfl (by norm_num [cfg]) (by norm_num [cfg]) (by norm_num [cfg]) rfl fun _ => 5e-9
  obtain ⟨both, b1, -, b2⟩ := constant_rate_step (β := Bool) cfg rfl (by norm_num [cfg]) (by norm_num [cfg]) (by norm_num [cfg]) rfl fun b => if b then 1 else 5e-9
  refine ⟨alone, both, a1, b1, a2 (fun _ => ?_) (), ?_⟩
  · rw [abs_of_pos (by norm_num)]; norm_num [cfg]
  · rw [b2 ⟨true, by norm_num [cfg]⟩ false]; simp

end Pyoptmat.Props
