import Verif.Props.Accuracy
import Verif.Props.Mixed
import Verif.Proofs.Sensitivity
import Verif.Spec.StepTolerance
import Verif.Props.Monotone

/-!
# C123: with ordinary tolerances every step satisfies its equations up to the tolerance
-/

namespace Pyoptmat.Props

open Pyoptmat.Control Pyoptmat.Material Pyoptmat.Newton Pyoptmat.Spec Pyoptmat.Ode Pyoptmat.Chunktime

variable {β : Type*} {m : ℕ}

/-- **C123.** Any right hand side, which may couple the tests and times it is called with, either scheme: every step of an unwarned run belongs to a block of
rows `k0 … k0 + N` such that the rates returned by the call on that block satisfy the scheme in that step up to `δ`, in the Euclidean norm. -/
theorem C123_step (c : Config) (hm : 0 ≤ c.miter) (F : BFunc β m) (y0 : BVec β m ℝ) (nt : ℕ) (t : ℕ → β → ℝ) (n : ℤ) (hn : 0 < n) (res : Partial β m)
    (h : integrate c F y0 nt t n = .ok (res, false)) (b : β) (ht : ∀ k, k + 1 < nt → t k b ≤ t (k + 1) b) (δ : ℝ)
    (hδ : StepTolerance c F nt t res.get b δ) (k : ℕ) (hk : k + 1 < nt) :
    ∃ k0 N j, k = k0 + j ∧ j < N ∧ k0 + N < nt ∧ l2 (defectB c.scheme F N t res.get k0 j b) ≤ δ := by
  obtain ⟨d0, d1, d2⟩ := hδ
  obtain ⟨-, -, -, h4, -⟩ := integrate_spec c F y0 nt t n hn res false h
  revert k
  refine all_rows (N := n.toNat) (by omega) ?_
  intro i hi j hj
  have hb := h4 i hi
  rw [Nat.add_comm] at hb
  obtain ⟨guess, hz, htol⟩ := block_toleranceB hm hb
  have hlt : i * n.toNat + 1 < nt := by have := nblocks_lt (by omega) hi; omega
  generalize hL : sliceLen nt (i * n.toNat + 1) n.toNat = L at guess hz htol hj
  have hLn : i * n.toNat + L < nt := by
    unfold sliceLen at hL
    omega
  refine ⟨i * n.toNat, L, j, rfl, hj, hLn, ?_⟩
  generalize i * n.toNat = k at *
  refine (l2_le_rowsNorm (d := fun j => defectB c.scheme F L t res.get k j b) hj).trans ?_
  rcases d2 with d2 | ⟨g1, g2, G, g3, g4⟩
  · rw [d2] at htol
    rcases htol with q | q
    · exact (q b).trans d1
    · exact (q b).trans (by rw [zero_mul]; exact d0)
  · have hz := hz g1
    subst hz
    rcases htol with q | q
    · exact (q b).trans d1
    refine (q b).trans ?_
    have hres : ∀ j : Fin L, unflatten (blockRJ c.scheme F (fun j : Fin L => t (k + 1 + j.val)) (t k) (res.get k) 0).1 j b =
        defectB c.scheme F L t (fun _ => res.get k) k j.val b := fun j =>
      blockRJ_residualB c.scheme F _ _ _ 0 t (fun _ => res.get k) k rfl rfl (fun _ => rfl) (fun j => by funext b r; simp [unflatten]) j b
    beta_reduce
    rw [rowNorm_eq_rowsNorm _ b (fun j => defectB c.scheme F L t (fun _ => res.get k) k j b) hres]
    refine le_trans (mul_le_mul_of_nonneg_left ?_ g2) g4
    refine (rowsNorm_le_sum _ _).trans ?_
    have s1 : ∀ j ∈ Finset.range L, l2 (defectB c.scheme F L t (fun _ => res.get k) k j b) ≤ G * (t (k + (j + 1)) b - t (k + j) b) := by
      intro j hj
      have hj := Finset.mem_range.1 hj
      have hd := sub_nonneg.2 (ht (k + j) (by omega))
      have key : ∀ i (hi : i < L + 1), l2 (res.get k b - res.get k b - (t (k + j + 1) b - t (k + j) b) • rowRate F L t (fun _ => res.get k) k i b) ≤
          G * (t (k + (j + 1)) b - t (k + j) b) := by
        intro i hi
        rw [sub_self, zero_sub, l2_neg, l2_smul, abs_of_nonneg hd, mul_comm]
        refine mul_le_mul_of_nonneg_right ?_ hd
        unfold rowRate
        rw [dif_pos hi]
        exact g3 k L hLn ⟨i, hi⟩
      unfold defectB
      cases c.scheme with
      | backwardEuler => exact key (j + 1) (by omega)
      | forwardEuler => exact key j (by omega)
    refine (Finset.sum_le_sum s1).trans ?_
    rw [← Finset.mul_sum, Finset.sum_range_sub (fun j => t (k + j) b)]
    have hG : 0 ≤ G := (l2_nonneg _).trans (g3 k L hLn 0)
    refine mul_le_mul_of_nonneg_left ?_ hG
    have m1 : t 0 b ≤ t (k + 0) b := mono_of_steps (t := fun k => t k b) ht (by omega) (by omega)
    have m2 : t (k + L) b ≤ t (nt - 1) b := mono_of_steps (t := fun k => t k b) ht (by omega) (by omega)
    linarith

/-- **C123.** `solve_strain` of `InelasticModel` with backward Euler: in every step the stress increment is `E(T) (Δε - Δt flow)` and the increments of the
history variables are `Δt` times their rates, at the end of the step, up to `δ`. `rate` is the recorded strain rate of the step. -/
theorem C123_strain (c : Config) (hs : c.scheme = .backwardEuler) (hm : 0 ≤ c.miter) {n : ℕ} (E : β → ℝ → ℝ) (f : β → FlowRule n) (nt : ℕ)
    (times strains temps : ℕ → β → ℝ) (blk : ℤ) (hb : 0 < blk) (hg : ∀ b, StrictGrid (nt - 1) fun k => times k b) (res : Partial β (n + 1))
    (h : solveStrain c (fun b => inelastic (E b) (f b)) nt times strains temps blk = .ok (res, false)) (b : β) (δ : ℝ)
    (hδ : StepTolerance c (Func.lift (strainFunc (fun b => inelastic (E b) (f b)) nt times strains temps)) nt times res.get b δ) (k : ℕ) (hk : k + 1 < nt) :
    let y := res.get
    let dt := times (k + 1) b - times k b
    let rate := (strains (k + 1) b - strains k b) / dt
    let T := temps (k + 1) b
    let hist : Fin n → ℝ := fun j => y (k + 1) b j.succ
    |y (k + 1) b 0 - y k b 0 - E b T * ((strains (k + 1) b - strains k b) - dt * (f b).flow (y (k + 1) b 0) hist (times (k + 1) b) T rate)| ≤ δ ∧
    ∀ i : Fin n, |y (k + 1) b i.succ - y k b i.succ - dt * (f b).hist (y (k + 1) b 0) hist (times (k + 1) b) T rate i| ≤ δ := by
  intro y dt rate T hist
  have hdt : 0 < dt := sub_pos.2 (hg b k (by omega))
  obtain ⟨k0, N, j, rfl, hj, hN, hd⟩ := C123_step c hm _ 0 nt times blk hb res h b (fun k hk => (hg b k (by omega)).le) δ hδ k hk
  rw [hs] at hd
  simp only [defectB] at hd
  rw [rowRate_lift _ _ _ _ (by omega)] at hd
  have er : rateFn nt (fun k => times k b) (fun k => strains k b) (times (k0 + j + 1) b) = rate := by
    have := rateFn_grid (hg b) (fun k => strains k b) hk
    simp only [rate]
    rw [← this, mul_div_cancel_left₀ _ hdt.ne']
  have eT := dataFn_grid (hg b) (fun k => temps k b) hk (by omega)
  simp only [← Nat.add_assoc, Ode.rate, strainFunc] at hd
  rw [er, eT] at hd
  constructor
  · refine le_of_eq_of_le ?_ ((abs_le_l2 _ 0).trans hd)
    congr 1
    simp only [inelastic, Pi.sub_apply, Pi.smul_apply, smul_eq_mul, Fin.cons_zero]
    have : dt * rate = strains (k0 + j + 1) b - strains (k0 + j) b := by simp only [rate]; rw [mul_div_cancel₀ _ hdt.ne']
    rw [← this]
    simp only [y, dt, hist, T]
    ring
  · intro i
    refine le_of_eq_of_le ?_ ((abs_le_l2 _ i.succ).trans hd)
    simp only [inelastic, Pi.sub_apply, Pi.smul_apply, smul_eq_mul, Fin.cons_succ, y, dt, hist, T]

/-- **C123.** `solve_stress` with backward Euler: in every step there is a strain rate `e` such that the strain grows by `Δt e` and every other state variable by
`Δt` times the base model's rate at the recorded stress, up to `δ`, and at that strain rate the base model's stress rate is the recorded one up to `1e-10`. -/
theorem C123_stress (c : Config) (hs : c.scheme = .backwardEuler) (hm : 0 ≤ c.miter) (model : β → Model (m + 1)) (nt : ℕ)
    (times stresses temps : ℕ → β → ℝ) (blk : ℤ) (hb : 0 < blk) (hg : ∀ b, StrictGrid (nt - 1) fun k => times k b) (res : Partial β (m + 1))
    (h : solveStress c model nt times stresses temps blk = .ok (res, false))
    (b : β) (hA : ∀ k, k < nt → RateAffine (model b) (times k b) (Function.update (res.get k b) 0 (stresses k b)) (temps k b)) (δ : ℝ)
    (hδ : StepTolerance c (stressFunc model nt times stresses temps) nt times res.get b δ) (k : ℕ) (hk : k + 1 < nt) :
    let y := res.get
    let dt := times (k + 1) b - times k b
    let rate : ℝ → Fin (m + 1) → ℝ := fun e =>
      (model b (times (k + 1) b) (Function.update (y (k + 1) b) 0 (stresses (k + 1) b)) e (temps (k + 1) b)).ydot
    ∃ e, |y (k + 1) b 0 - y k b 0 - dt * e| ≤ δ ∧ (∀ i, i ≠ 0 → |y (k + 1) b i - y k b i - dt * rate e i| ≤ δ) ∧
      |rate e 0 - (stresses (k + 1) b - stresses k b) / dt| ≤ 1e-10 := by
  intro y dt rate
  have hdt : 0 < dt := sub_pos.2 (hg b k (by omega))
  obtain ⟨k0, N, j, rfl, hj, hN, hd⟩ := C123_step c hm _ 0 nt times blk hb res h b (fun k hk => (hg b k (by omega)).le) δ hδ k hk
  rw [hs] at hd
  simp only [defectB, rowRate] at hd
  rw [dif_pos (by omega)] at hd
  obtain ⟨e, h1, h2⟩ := stress_row model nt times stresses temps hg res.get b hA (j := j + 1) (by omega) hN (by omega)
  simp only [← Nat.add_assoc] at h1 h2
  simp only [stressFunc] at hd
  rw [h1] at hd
  refine ⟨e, ?_, fun i hi => ?_, ?_⟩
  · refine le_of_eq_of_le ?_ ((abs_le_l2 _ 0).trans hd)
    simp [y, dt]
  · refine le_of_eq_of_le ?_ ((abs_le_l2 _ i).trans hd)
    simp [y, dt, rate, hi]
  · have hr := rateFn_grid (hg b) (fun k => stresses k b) hk
    rw [← hr, mul_div_cancel_left₀ _ hdt.ne']
    exact h2

/-- **C123.** For a test with an `InelasticModel` with a flow rule that does not look at the strain rate, in a batch with any other materials: the recorded stress controlled test satisfies
`Δε = Δσ / E + Δt flow` at the recorded stress, up to `δ + Δt 1e-10 / |E|`. -/
theorem C123_inelastic_stress (c : Config) (hs : c.scheme = .backwardEuler) (hm : 0 ≤ c.miter) {n : ℕ} (model : β → Model (n + 1)) (nt : ℕ)
    (times stresses temps : ℕ → β → ℝ) (blk : ℤ) (hb : 0 < blk) (hg : ∀ b, StrictGrid (nt - 1) fun k => times k b)
    (res : Partial β (n + 1)) (h : solveStress c model nt times stresses temps blk = .ok (res, false)) (b : β) (E : ℝ → ℝ) (f : FlowRule n) (hmod : model b = inelastic E f)
    (hE : ∀ k, k < nt → E (temps k b) ≠ 0) (hf : ∀ s h t T e, f.flow s h t T e = f.flow s h t T 0) (hd : ∀ s h t T e, f.dflow_de s h t T e = 0) (δ : ℝ)
    (hδ : StepTolerance c (stressFunc model nt times stresses temps) nt times res.get b δ) (k : ℕ) (hk : k + 1 < nt) :
    let y := res.get
    let dt := times (k + 1) b - times k b
    let T := temps (k + 1) b
    let hist : Fin n → ℝ := fun j => y (k + 1) b j.succ
    |y (k + 1) b 0 - y k b 0 - ((stresses (k + 1) b - stresses k b) / E T +
        dt * f.flow (stresses (k + 1) b) hist (times (k + 1) b) T 0)| ≤ δ + dt * (1e-10 / |E T|) ∧
    ∃ e, ∀ i : Fin n, |y (k + 1) b i.succ - y k b i.succ - dt * f.hist (stresses (k + 1) b) hist (times (k + 1) b) T e i| ≤ δ := by
  intro y dt T hist
  have hdt : 0 < dt := sub_pos.2 (hg b k (by omega))
  obtain ⟨e, h1, h2, h3⟩ := C123_stress c hs hm model nt times stresses temps blk hb hg res h b
    (fun k hk => by rw [hmod]; exact rateAffine_inelastic _ _ hf hd _ _ _ (hE k hk)) δ hδ k hk
  have hu : (fun j : Fin n => Function.update (res.get (k + 1) b) 0 (stresses (k + 1) b) j.succ) = hist := by
    funext j; rw [Function.update_of_ne (Fin.succ_ne_zero j)]
  have hE' : E T ≠ 0 := hE (k + 1) hk
  constructor
  · simp only [hmod, inelastic, Fin.cons_zero, Function.update_self, hu] at h3
    rw [hf] at h3
    have e1 : y (k + 1) b 0 - y k b 0 - ((stresses (k + 1) b - stresses k b) / E T + dt * f.flow (stresses (k + 1) b) hist (times (k + 1) b) T 0) =
        (y (k + 1) b 0 - y k b 0 - dt * e) +
          dt * ((E T * (e - f.flow (stresses (k + 1) b) hist (times (k + 1) b) T 0) - (stresses (k + 1) b - stresses k b) / dt) / E T) := by
      field_simp
      ring
    rw [e1]
    refine (abs_add_le _ _).trans (add_le_add h1 ?_)
    rw [abs_mul, abs_of_pos hdt, abs_div]
    exact mul_le_mul_of_nonneg_left (div_le_div_of_nonneg_right h3 (abs_nonneg _)) hdt.le
  · refine ⟨e, fun i => ?_⟩
    have := h2 i.succ (Fin.succ_ne_zero i)
    simp only [hmod, inelastic, Fin.cons_succ, Function.update_self, hu] at this
    exact this

/-- **C123.** `solve_both` with backward Euler: every test labelled 0 satisfies the strain controlled equations of its own material and history up to `δ`, every
test labelled 1 the stress controlled ones, and tests with other labels move by at most `δ`. -/
theorem C123_both (c : Config) (hs : c.scheme = .backwardEuler) (hm : 0 ≤ c.miter)
    (model : β → Model (m + 1)) (nt : ℕ) (times temps idata : ℕ → β → ℝ) (control : β → ℝ) (blk : ℤ) (hb : 0 < blk)
    (hg : ∀ b, StrictGrid (nt - 1) fun k => times k b) (res : Partial β (m + 1))
    (h : solveBoth c model nt times temps idata control blk = .ok (res, false)) (b : β) (δ : ℝ)
    (hδ : StepTolerance c (bothFunc model nt times idata temps control) nt times res.get b δ) (k : ℕ) (hk : k + 1 < nt) :
    let y := res.get
    let dt := times (k + 1) b - times k b
    (control b = 0 → ∀ i, |y (k + 1) b i - y k b i -
      dt * (model b (times (k + 1) b) (y (k + 1) b) ((idata (k + 1) b - idata k b) / dt) (temps (k + 1) b)).ydot i| ≤ δ) ∧
    (control b = 1 → (∀ k, k < nt → RateAffine (model b) (times k b) (Function.update (y k b) 0 (idata k b)) (temps k b)) →
      let rate : ℝ → Fin (m + 1) → ℝ := fun e =>
        (model b (times (k + 1) b) (Function.update (y (k + 1) b) 0 (idata (k + 1) b)) e (temps (k + 1) b)).ydot
      ∃ e, |y (k + 1) b 0 - y k b 0 - dt * e| ≤ δ ∧ (∀ i, i ≠ 0 → |y (k + 1) b i - y k b i - dt * rate e i| ≤ δ) ∧
        |rate e 0 - (idata (k + 1) b - idata k b) / dt| ≤ 1e-10) ∧
    (control b ≠ 0 → control b ≠ 1 → ∀ i, |y (k + 1) b i - y k b i| ≤ δ) := by
  intro y dt
  have hdt : 0 < dt := sub_pos.2 (hg b k (by omega))
  obtain ⟨k0, N, j, rfl, hj, hN, hd⟩ := C123_step c hm _ 0 nt times blk hb res h b (fun k hk => (hg b k (by omega)).le) δ hδ k hk
  have hj1 : j + 1 < N + 1 := by omega
  rw [hs] at hd
  simp only [defectB, rowRate] at hd
  rw [dif_pos hj1] at hd
  simp only [bothFunc] at hd
  have sel := C27_selection (β := Fin (N + 1) × β) (fun p => model p.2) (fun p => rateFn nt (fun k => times k p.2) fun k => idata k p.2)
      (fun p => dataFn nt (fun k => times k p.2) fun k => idata k p.2) (fun p => dataFn nt (fun k => times k p.2) fun k => temps k p.2)
      (fun p => control p.2) (fun p => times (k0 + p.1.val) p.2) (fun p => res.get (k0 + p.1.val) p.2) (⟨j + 1, hj1⟩, b)
  have hr := rateFn_grid (hg b) (fun k => idata k b) hk
  refine ⟨fun hc i => ?_, fun hc hA => ?_, fun hc0 hc1 i => ?_⟩
  · rw [(sel.1 hc).1] at hd
    simp only [← Nat.add_assoc] at hd
    rw [dataFn_grid (hg b) (fun k => temps k b) hk (by omega)] at hd
    rw [← hr, mul_div_cancel_left₀ _ hdt.ne']
    exact (abs_le_l2 _ i).trans hd
  · intro rate
    rw [(sel.2.1 hc).1] at hd
    obtain ⟨e, h1, h2⟩ := stress_row model nt times idata temps hg res.get b hA (j := j + 1) hj1 hN (by omega)
    simp only [← Nat.add_assoc] at h1 h2
    rw [h1] at hd
    refine ⟨e, ?_, fun i hi => ?_, ?_⟩
    · refine le_of_eq_of_le ?_ ((abs_le_l2 _ 0).trans hd)
      simp [y, dt]
    · refine le_of_eq_of_le ?_ ((abs_le_l2 _ i).trans hd)
      simp [y, dt, rate, hi]
    · rw [← hr, mul_div_cancel_left₀ _ hdt.ne']
      exact h2
  · rw [(sel.2.2 hc0 hc1).1, smul_zero, sub_zero] at hd
    exact (abs_le_l2 _ i).trans hd

/-- **C123.** Such a `δ` always exists: with `rtol = 0` it may be `atol`, otherwise (default guess) the larger of `atol` and `rtol · G · duration`. -/
theorem C123_tolerance_exists (c : Config) (F : BFunc β m) (nt : ℕ) (t : ℕ → β → ℝ) (y : ℕ → BVec β m ℝ) (b : β) :
    (c.rtol = 0 → 0 ≤ c.atol → StepTolerance c F nt t y b c.atol) ∧
    (c.guessType = "zero" → 0 ≤ c.rtol → 0 ≤ c.atol → ∃ G, StepTolerance c F nt t y b (max c.atol (c.rtol * (G * (t (nt - 1) b - t 0 b))))) := by
  refine ⟨fun hr ha => ⟨ha, le_rfl, Or.inl hr⟩, fun hg hr ha => ?_⟩
  let g : ℕ → ℕ → ℝ := fun k0 N => ∑ j : Fin (N + 1), l2 ((F (N + 1) (fun i => t (k0 + i.val)) fun _ => y k0).1 j b)
  have hg0 : ∀ k0 N, 0 ≤ g k0 N := fun k0 N => Finset.sum_nonneg fun _ _ => l2_nonneg _
  refine ⟨∑ k0 ∈ Finset.range nt, ∑ N ∈ Finset.range nt, g k0 N, ha.trans (le_max_left _ _), le_max_left _ _, Or.inr ⟨hg, hr, _, fun k0 N hN j => ?_, le_max_right _ _⟩⟩
  refine (Finset.single_le_sum (f := fun j : Fin (N + 1) => l2 ((F (N + 1) (fun i => t (k0 + i.val)) fun _ => y k0).1 j b)) (fun _ _ => l2_nonneg _)
    (Finset.mem_univ j)).trans ?_
  refine (Finset.single_le_sum (f := fun N => g k0 N) (fun _ _ => hg0 _ _) (Finset.mem_range.2 (by omega : N < nt))).trans ?_
  exact Finset.single_le_sum (f := fun k0 => ∑ N ∈ Finset.range nt, g k0 N) (fun _ _ => Finset.sum_nonneg fun _ _ => hg0 _ _)
    (Finset.mem_range.2 (by omega : k0 < nt))

/-- Non-vacuity of C123: a run of a cubic creep law with all default options that succeeds, and the equation of its steps. -/
example : ∃ (c : Config) (res : Partial Unit (0 + 1)) (δ : ℝ), c.rtol = 1e-6 ∧ c.atol = 1e-8 ∧ c.miter = 100 ∧
    solveStrain c (fun _ => inelastic (fun _ => 1) (perfect (fun _ => 3) (fun _ => 1))) 3 (fun k (_ : Unit) => (k : ℝ)) (fun k _ => 1 * k) (fun _ _ => 300) 1 =
      .ok (res, false) ∧
    ∀ k, k + 1 < 3 → |res.get (k + 1) () 0 - res.get k () 0 - 1 * ((1 * ((k + 1 : ℕ) : ℝ) - 1 * (k : ℝ)) - (((k + 1 : ℕ) : ℝ) - k) *
      (perfect (fun _ => 3) (fun _ => 1)).flow (res.get (k + 1) () 0) (fun j => res.get (k + 1) () j.succ) ((k + 1 : ℕ) : ℝ) 300
        ((1 * ((k + 1 : ℕ) : ℝ) - 1 * (k : ℝ)) / (((k + 1 : ℕ) : ℝ) - k)))| ≤ δ := by
  let c : Config := { scheme := .backwardEuler, method := .direct .thomas, rtol := 1e-6, atol := 1e-8, miter := 100, throwOnFail := true, guessType := "zero" }
  obtain ⟨res, h, -⟩ := C100_defaults c rfl rfl rfl rfl _ _ _ 3 (by norm_num) _ _ _ 1 (by norm_num) _ _ _ _
    (norton_witness 1 1 4 (by norm_num) (by norm_num) (by norm_num) (by norm_num)) (by norm_num)
  obtain ⟨G, hG⟩ := (C123_tolerance_exists c (Func.lift (strainFunc (fun _ => inelastic (fun _ => 1) (perfect (fun _ => 3) (fun _ => 1))) 3
    (fun k (_ : Unit) => (k : ℝ)) (fun k _ => 1 * k) (fun _ _ => 300))) 3 (fun k _ => (k : ℝ)) res.get ()).2 rfl (by norm_num [c]) (by norm_num [c])
  refine ⟨c, res, max c.atol (c.rtol * (G * ((2 : ℕ) - (0 : ℕ)))), rfl, rfl, rfl, h, fun k hk => ?_⟩
  exact (C123_strain c rfl (by norm_num [c]) (fun _ => fun _ => 1) (fun _ => perfect (fun _ => 3) (fun _ => 1)) 3 _ _ _ 1 (by norm_num)
    (by intro b k hk; push_cast; linarith) res h () _ hG k hk).1

end Pyoptmat.Props
