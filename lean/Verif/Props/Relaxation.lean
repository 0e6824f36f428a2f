import Verif.Spec.StressCurve
import Verif.Proofs.Antitone
import Verif.Props.Accuracy
import Mathlib.Analysis.SpecialFunctions.Pow.Deriv

/-!
# Property C98: accuracy of tension and relaxation tests of Norton's law
-/

namespace Pyoptmat.Props

open Pyoptmat.Newton Pyoptmat.Spec Pyoptmat.Ode Pyoptmat.Chunktime Pyoptmat.Material Pyoptmat.Control Pyoptmat.Proofs

variable {β : Type*}

private theorem norton_eq {E n eta e : ℝ} (heta : 0 < eta) (s : ℝ) : nortonRate E n eta e s = E * (e - overflow n eta (s, 0)) := by
  simp only [nortonRate, overflow, sub_zero, sgn]
  rw [macaulay_eq, max_eq_left (div_nonneg (abs_nonneg _) heta.le), mul_comm (Real.sign s)]

private theorem norton_antitone {E n eta e : ℝ} (hE : 0 ≤ E) (hn : 0 < n) (heta : 0 < eta) : Antitone (nortonRate E n eta e) := by
  intro u v h
  rw [norton_eq heta, norton_eq heta]
  have := overflow_mono hn heta h
  exact mul_le_mul_of_nonneg_left (by linarith) hE

private theorem norton_neg (E n eta e s : ℝ) : nortonRate E n eta (-e) (-s) = -nortonRate E n eta e s := by
  simp only [nortonRate, abs_neg, Real.sign_neg]
  ring

/-- **C98.** A window of a simulated test (`solve_strain`, backward Euler, no warning) of `InelasticModel` with `PerfectViscoplasticity` in which strain rate and temperature are constant: steps `k0 … k1`. `σ` is the exact
stress history of Norton's law from the simulated stress at `k0`. With `r` the rate of the exact stress and `h` the largest step of the window, the simulated stress never runs ahead of the exact one in the direction of `r`, and
never falls behind by more than `h · |r(start) - r(now)|`, which is at most `h · |r(start)|` however long the window, however stiff the material and whatever block size, solver and batch are used; each step may add the `δ` that the
tolerances permit. -/
theorem C98_norton_accuracy (c : Config) (hs : c.scheme = .backwardEuler) (hm : 0 ≤ c.miter) (model : β → Model (0 + 1)) (nt : ℕ)
    (times strains temps : ℕ → β → ℝ) (blk : ℤ) (hb : 0 < blk) (res : Partial β (0 + 1))
    (h : solveStrain c model nt times strains temps blk = .ok (res, false)) (b : β)
    (E n eta : ℝ → ℝ) (hmod : model b = inelastic E (perfect n eta))
    (hg : StrictGrid (nt - 1) fun k => times k b) (δ : ℝ)
    (hδ : ToleranceBound c (strainFunc model nt times strains temps) nt times res.get b δ)
    (T e : ℝ) (hE : 0 ≤ E T) (hn : 0 < n T) (heta : 0 < eta T) (k0 k1 : ℕ) (hk1 : k1 < nt)
    (hT : ∀ k, k0 < k → k ≤ k1 → temps k b = T) (he : ∀ k, k0 ≤ k → k < k1 → strains (k + 1) b - strains k b = e * (times (k + 1) b - times k b))
    (σ : ℝ → ℝ) (hσ : NortonCurve (E T) (n T) (eta T) e (times k0 b) (times k1 b) σ) (h0 : σ (times k0 b) = res.get k0 b 0)
    (hmax : ℝ) (hh : ∀ k, k0 ≤ k → k < k1 → times (k + 1) b - times k b ≤ hmax) (k : ℕ) (hk0 : k0 ≤ k) (hk : k ≤ k1) :
    let r := fun k => nortonRate (E T) (n T) (eta T) e (σ (times k b))
    let err := res.get k b 0 - σ (times k b)
    (0 ≤ r k0 → 0 ≤ r k ∧ r k ≤ r k0 ∧ -(hmax * (r k0 - r k)) - (k - k0) * δ ≤ err ∧ err ≤ (k - k0) * δ) ∧
    (r k0 ≤ 0 → r k ≤ 0 ∧ r k0 ≤ r k ∧ -((k - k0) * δ) ≤ err ∧ err ≤ hmax * (r k - r k0) + (k - k0) * δ) := by
  intro r err
  set F := nortonRate (E T) (n T) (eta T) e with hFdef
  have hst : ∀ k, k + 1 < nt → times k b ≤ times (k + 1) b := fun k hk => (hg k (by omega)).le
  have d0 : 0 ≤ δ := hδ.1
  -- the simulated steps
  have step : ∀ k, k0 ≤ k → k < k1 → |res.get (k + 1) b 0 - res.get k b 0 - (times (k + 1) b - times k b) * F (res.get (k + 1) b 0)| ≤ δ := by
    intro k hk0 hk
    have h1 := step_defect_le c hm _ _ nt times blk hb res h b hst hδ k (by omega)
    rw [hs] at h1
    have h2 : res.get (k + 1) b 0 - res.get k b 0 - (times (k + 1) b - times k b) * F (res.get (k + 1) b 0) =
        defect .backwardEuler (strainFunc model nt times strains temps) times res.get k b 0 := by
      have e1 : rateFn nt (fun k => times k b) (fun k => strains k b) (times (k + 1) b) = e := by
        have := rateFn_grid hg (fun k => strains k b) (k := k) (by omega)
        rw [he k hk0 hk, mul_comm e] at this
        exact mul_left_cancel₀ (sub_pos.2 (hg k (by omega))).ne' this
      have e2 : dataFn nt (fun k => times k b) (fun k => temps k b) (times (k + 1) b) = T := by
        rw [dataFn_grid hg (fun k => temps k b) (k := k + 1) (by omega) (by omega)]
        exact hT (k + 1) (by omega) (by omega)
      simp only [defect, backwardDefect, rate, strainFunc, hmod, Pi.sub_apply, Pi.smul_apply, smul_eq_mul]
      rw [e1, e2]
      simp only [inelastic, perfect, Fin.cons_zero, hFdef, nortonRate, sgn]
      ring
    rw [h2, ← l2_one]
    exact h1
  have hF : Antitone F := norton_antitone hE hn heta
  have hmono : ∀ j i, i ≤ j → j < nt → times i b ≤ times j b := fun j i hij hj => mono_of_steps (t := fun k => times k b) hst hij hj
  obtain ⟨j, rfl⟩ := Nat.exists_eq_add_of_le hk0
  obtain ⟨K, rfl⟩ := Nat.exists_eq_add_of_le (hk0.trans hk)
  have hcast : ((k0 + j : ℕ) : ℝ) - k0 = j := by push_cast; ring
  have hjmem : times (k0 + j) b ∈ Set.Icc (times k0 b) (times (k0 + K) b) := ⟨hmono _ _ (by omega) (by omega), hmono _ _ (by omega) (by omega)⟩
  rw [hcast]
  constructor
  · intro hr
    obtain ⟨c1, c2⟩ := antitone_compare (F := F) (x := σ) hF hσ hr (K := K) (t := fun i => times (k0 + i) b) (y := fun i => res.get (k0 + i) b 0) (h := hmax) d0 rfl le_rfl
      (fun i hi => hst (k0 + i) (by omega)) (fun i hi => hh (k0 + i) (by omega) (by omega)) h0.symm (fun i hi => step (k0 + i) (by omega) (by omega)) j (by omega)
    have p1 := rate_nonneg hF hσ hr _ hjmem
    have p2 := hF (increment_bounds hF hσ hr le_rfl hjmem.1 hjmem.2).1
    beta_reduce at c1 c2
    refine ⟨p1, p2, ?_, ?_⟩
    · change -(hmax * (F (σ (times k0 b)) - F (σ (times (k0 + j) b)))) - j * δ ≤ res.get (k0 + j) b 0 - σ (times (k0 + j) b)
      linarith
    · change res.get (k0 + j) b 0 - σ (times (k0 + j) b) ≤ j * δ
      linarith
  · intro hr
    set G := nortonRate (E T) (n T) (eta T) (-e) with hGdef
    have hGF : ∀ s, G (-s) = -F s := fun s => norton_neg _ _ _ _ _
    have hG : Antitone G := norton_antitone hE hn heta
    have hx : ∀ s ∈ Set.Icc (times k0 b) (times (k0 + K) b), HasDerivWithinAt (fun s => -σ s) (G (-σ s)) (Set.Icc (times k0 b) (times (k0 + K) b)) s := by
      intro s hs
      rw [hGF]
      exact (hσ s hs).neg
    have hr' : 0 ≤ G (-σ (times k0 b)) := by rw [hGF]; exact neg_nonneg.2 hr
    obtain ⟨c1, c2⟩ := antitone_compare (F := G) (x := fun s => -σ s) hG hx hr' (K := K) (t := fun i => times (k0 + i) b) (y := fun i => -res.get (k0 + i) b 0) (h := hmax) d0 rfl le_rfl
      (fun i hi => hst (k0 + i) (by omega)) (fun i hi => hh (k0 + i) (by omega) (by omega)) (by beta_reduce; rw [h0]; rfl) (fun i hi => by
        have := step (k0 + i) (by omega) (by omega)
        beta_reduce
        rw [hGF, ← abs_neg]
        refine le_of_eq_of_le ?_ this
        congr 1
        rw [Nat.add_assoc]
        ring) j (by omega)
    have p1 := rate_nonneg hG hx hr' _ hjmem
    have p2 := hG (increment_bounds hG hx hr' le_rfl hjmem.1 hjmem.2).1
    beta_reduce at c1 c2 p1 p2
    rw [hGF] at p1
    rw [hGF, hGF] at p2 c2
    refine ⟨neg_nonneg.1 p1, neg_le_neg_iff.1 p2, ?_, ?_⟩
    · change -(j * δ) ≤ res.get (k0 + j) b 0 - σ (times (k0 + j) b)
      linarith
    · change res.get (k0 + j) b 0 - σ (times (k0 + j) b) ≤ hmax * (F (σ (times (k0 + j) b)) - F (σ (times k0 b))) + j * δ
      linarith

/-- **C98.** The closed form of Norton relaxation is an exact stress history at zero strain rate, for every exponent above one. -/
theorem C98_relaxation_curve (E n eta s0 a b : ℝ) (hE : 0 ≤ E) (hn : 1 < n) (heta : 0 < eta) (hs0 : 0 < s0) :
    NortonCurve E n eta 0 a b (nortonRelaxation E n eta s0 a) ∧ nortonRelaxation E n eta s0 a a = s0 := by
  have hb0 : 0 < s0 ^ (1 - n) := Real.rpow_pos_of_pos hs0 _
  have hn1 : (1 - n) ≠ 0 := by linarith
  constructor
  · intro s hs
    have hbase : 0 < s0 ^ (1 - n) + (n - 1) * E * (s - a) / eta ^ n := by
      have : 0 ≤ (n - 1) * E * (s - a) / eta ^ n := div_nonneg (mul_nonneg (mul_nonneg (by linarith) hE) (sub_nonneg.2 hs.1)) (Real.rpow_nonneg heta.le _)
      linarith
    have hσ : 0 < nortonRelaxation E n eta s0 a s := Real.rpow_pos_of_pos hbase _
    have hd : HasDerivAt (fun s => s0 ^ (1 - n) + (n - 1) * E * (s - a) / eta ^ n) ((n - 1) * E / eta ^ n) s := by
      have := ((((hasDerivAt_id s).sub_const a).const_mul ((n - 1) * E)).div_const (eta ^ n)).const_add (s0 ^ (1 - n))
      refine this.congr_deriv ?_
      rw [mul_one]
    have h1 := (hd.rpow_const (p := 1 / (1 - n)) (Or.inl hbase.ne')).hasDerivWithinAt (s := Set.Icc a b)
    refine h1.congr_deriv ?_
    rw [nortonRate, Real.sign_of_pos hσ, abs_of_pos hσ, Real.div_rpow hσ.le heta.le, nortonRelaxation]
    generalize s0 ^ (1 - n) + (n - 1) * E * (s - a) / eta ^ n = B at *
    rw [← Real.rpow_mul hbase.le]
    have e1 : 1 / (1 - n) - 1 = 1 / (1 - n) * n := by field_simp; ring
    rw [e1]
    have : 0 < eta ^ n := Real.rpow_pos_of_pos heta _
    field_simp
    ring
  · rw [nortonRelaxation, sub_self, mul_zero, zero_div, add_zero, ← Real.rpow_mul hs0.le, mul_one_div_cancel hn1, Real.rpow_one]

/-- **C98.** Relaxation of Norton's law against its closed form: while the strain is held from `k0` to `k1`, the simulated stress lies between the closed form and the closed form plus the largest step times the initial relaxation rate
`E (σ₀/η)^n`, up to `δ` per step. -/
theorem C98_relaxation (c : Config) (hs : c.scheme = .backwardEuler) (hm : 0 ≤ c.miter) (model : β → Model (0 + 1)) (nt : ℕ)
    (times strains temps : ℕ → β → ℝ) (blk : ℤ) (hb : 0 < blk) (res : Partial β (0 + 1))
    (h : solveStrain c model nt times strains temps blk = .ok (res, false)) (b : β)
    (E n eta : ℝ → ℝ) (hmod : model b = inelastic E (perfect n eta))
    (hg : StrictGrid (nt - 1) fun k => times k b) (δ : ℝ)
    (hδ : ToleranceBound c (strainFunc model nt times strains temps) nt times res.get b δ)
    (T : ℝ) (hE : 0 ≤ E T) (hn : 1 < n T) (heta : 0 < eta T) (k0 k1 : ℕ) (hk1 : k1 < nt)
    (hT : ∀ k, k0 < k → k ≤ k1 → temps k b = T) (he : ∀ k, k0 ≤ k → k ≤ k1 → strains k b = strains k0 b) (hpos : 0 < res.get k0 b 0)
    (hmax : ℝ) (hh0 : 0 ≤ hmax) (hh : ∀ k, k0 ≤ k → k < k1 → times (k + 1) b - times k b ≤ hmax) (k : ℕ) (hk0 : k0 ≤ k) (hk : k ≤ k1) :
    let σ := nortonRelaxation (E T) (n T) (eta T) (res.get k0 b 0) (times k0 b) (times k b)
    σ - (k - k0) * δ ≤ res.get k b 0 ∧ res.get k b 0 ≤ σ + hmax * (E T * (res.get k0 b 0 / eta T) ^ n T) + (k - k0) * δ := by
  intro σ
  obtain ⟨h1, h2⟩ := C98_relaxation_curve (E T) (n T) (eta T) (res.get k0 b 0) (times k0 b) (times k1 b) hE hn heta hpos
  have hr0 : nortonRate (E T) (n T) (eta T) 0 (res.get k0 b 0) = -(E T * (res.get k0 b 0 / eta T) ^ n T) := by
    rw [nortonRate, Real.sign_of_pos hpos, abs_of_pos hpos]; ring
  have hr0' : 0 ≤ E T * (res.get k0 b 0 / eta T) ^ n T := mul_nonneg hE (Real.rpow_nonneg (div_nonneg hpos.le heta.le) _)
  have main := (C98_norton_accuracy c hs hm model nt times strains temps blk hb res h b E n eta hmod hg δ hδ T 0 hE (by linarith) heta k0 k1 hk1 hT
    (fun k a1 a2 => by rw [he (k + 1) (by omega) (by omega), he k a1 (by omega)]; ring) _ h1 h2 hmax hh k hk0 hk).2
  beta_reduce at main
  rw [h2, hr0] at main
  obtain ⟨m1, m2, m3, m4⟩ := main (by linarith)
  refine ⟨by change σ - _ ≤ _; linarith, ?_⟩
  have := mul_le_mul_of_nonneg_left (by linarith : nortonRate (E T) (n T) (eta T) 0 σ - -(E T * (res.get k0 b 0 / eta T) ^ n T) ≤ E T * (res.get k0 b 0 / eta T) ^ n T) hh0
  change res.get k b 0 - σ ≤ hmax * (nortonRate (E T) (n T) (eta T) 0 σ - -(E T * (res.get k0 b 0 / eta T) ^ n T)) + _ at m4
  linarith

/-- **C98.** A tension test of Norton's law from rest at the constant strain rate `e ≥ 0`: the simulated stress never exceeds the exact one and is never more than `h E e` below it, up to `δ` per step. -/
theorem C98_tension (c : Config) (hs : c.scheme = .backwardEuler) (hm : 0 ≤ c.miter) (model : β → Model (0 + 1)) (nt : ℕ)
    (times strains temps : ℕ → β → ℝ) (blk : ℤ) (hb : 0 < blk) (res : Partial β (0 + 1))
    (h : solveStrain c model nt times strains temps blk = .ok (res, false)) (b : β)
    (E n eta : ℝ → ℝ) (hmod : model b = inelastic E (perfect n eta))
    (hg : StrictGrid (nt - 1) fun k => times k b) (δ : ℝ)
    (hδ : ToleranceBound c (strainFunc model nt times strains temps) nt times res.get b δ)
    (T e : ℝ) (he0 : 0 ≤ e) (hE : 0 ≤ E T) (hn : 0 < n T) (heta : 0 < eta T)
    (hT : ∀ k, k < nt → temps k b = T) (he : ∀ k, k < nt → strains k b - strains 0 b = e * (times k b - times 0 b))
    (σ : ℝ → ℝ) (hσ : NortonCurve (E T) (n T) (eta T) e (times 0 b) (times (nt - 1) b) σ) (h0 : σ (times 0 b) = 0)
    (hmax : ℝ) (hh0 : 0 ≤ hmax) (hh : ∀ k, k + 1 < nt → times (k + 1) b - times k b ≤ hmax) (k : ℕ) (hk : k < nt) :
    σ (times k b) - hmax * (E T * e) - k * δ ≤ res.get k b 0 ∧ res.get k b 0 ≤ σ (times k b) + k * δ := by
  obtain ⟨-, f2⟩ := C14_every_time_filled c _ _ nt times blk hb res false h
  have g0 : res.get 0 b 0 = 0 := by simp only [Partial.get]; rw [f2]; rfl
  have main := (C98_norton_accuracy c hs hm model nt times strains temps blk hb res h b E n eta hmod hg δ hδ T e hE hn heta 0 (nt - 1) (by omega) (fun k _ h => hT k (by omega))
    (fun k _ h => by have := he k (by omega); have := he (k + 1) (by omega); linarith) σ hσ (by rw [h0, g0]) hmax (fun k _ h => hh k (by omega)) k (by omega) (by omega)).1
  beta_reduce at main
  have hr : nortonRate (E T) (n T) (eta T) e (σ (times 0 b)) = E T * e := by rw [h0]; simp [nortonRate]
  rw [hr] at main
  obtain ⟨m1, m2, m3, m4⟩ := main (mul_nonneg hE he0)
  simp only [Nat.cast_zero, sub_zero] at m3 m4
  have := mul_nonneg hh0 m1
  constructor <;> nlinarith

/-- Non-vacuity: `E = η = n = 1` pulled at unit rate for two unit steps. The run succeeds, the exact stress is `1 - exp(-t)`, and the simulated stress at the end lies between `-exp(-2)` and `1 - exp(-2)` (it is 3/4). -/
example : ∃ res, solveStrain (β := Unit)
    { scheme := .backwardEuler, method := .direct .thomas, rtol := 0, atol := 0, miter := 100, throwOnFail := false, guessType := "zero" }
    (fun _ => inelastic (fun _ => 1) (perfect (fun _ => 1) (fun _ => 1))) 3 (fun k _ => k) (fun k _ => k) (fun _ _ => 0) 2 = .ok (res, false) ∧
    res.get 2 () 0 ≤ 1 - Real.exp (-2) ∧ -Real.exp (-2) ≤ res.get 2 () 0 := by
  obtain ⟨res, h⟩ := C18_linear_succeeds (β := Unit) (m := 0 + 1)
    { scheme := .backwardEuler, method := .direct .thomas, rtol := 0, atol := 0, miter := 100, throwOnFail := false, guessType := "zero" } (by norm_num) (by norm_num)
    (fun _ _ => -1) (fun _ t _ => rateFn 3 (fun k => (k : ℝ)) (fun k => (k : ℝ)) t) 0 3 (by norm_num) (fun k _ => (k : ℝ)) 2 (by norm_num) (Or.inl rfl) (by
      intro _ k b _
      rw [Matrix.det_fin_one]
      norm_num)
  have h' : solveStrain (β := Unit)
      { scheme := .backwardEuler, method := .direct .thomas, rtol := 0, atol := 0, miter := 100, throwOnFail := false, guessType := "zero" }
      (fun _ => inelastic (fun _ => 1) (perfect (fun _ => 1) (fun _ => 1))) 3 (fun k _ => (k : ℝ)) (fun k _ => (k : ℝ)) (fun _ _ => 0) 2 = .ok (res, false) := by
    rw [← h]
    unfold solveStrain
    congr 1
    refine congrArg Func.lift ?_
    funext b t y
    refine Prod.ext ?_ ?_
    · funext j
      obtain rfl : j = 0 := Subsingleton.elim (α := Fin 1) j 0
      simp only [strainFunc, inelastic, perfect, Fin.cons_zero, div_one, Real.rpow_one, one_mul, Pi.add_apply, Matrix.neg_mulVec, Matrix.one_mulVec, Pi.neg_apply, sgn]
      have : |y 0| * Real.sign (y 0) = y 0 := by
        rcases lt_trichotomy (y 0) 0 with q | q | q
        · rw [abs_of_neg q, Real.sign_of_neg q]; ring
        · rw [q]; simp
        · rw [abs_of_pos q, Real.sign_of_pos q]; ring
      rw [this]; ring
    · funext i j
      obtain rfl : i = 0 := Subsingleton.elim (α := Fin 1) i 0
      obtain rfl : j = 0 := Subsingleton.elim (α := Fin 1) j 0
      simp [strainFunc, inelastic, perfect]
  refine ⟨res, h', ?_⟩
  have hcurve : NortonCurve 1 1 1 1 0 2 (fun s => 1 - Real.exp (-s)) := by
    intro s hs
    have h1 : HasDerivAt (fun s => 1 - Real.exp (-s)) (Real.exp (-s)) s := by
      have := ((hasDerivAt_neg s).exp).const_sub 1
      refine this.congr_deriv ?_
      ring
    refine (h1.congr_deriv ?_).hasDerivWithinAt
    have hp : 0 ≤ 1 - Real.exp (-s) := by
      have : Real.exp (-s) ≤ 1 := Real.exp_le_one_iff.2 (by linarith [hs.1])
      linarith
    simp only [nortonRate, div_one, Real.rpow_one, one_mul]
    rcases hp.eq_or_lt with q | q
    · rw [← q, Real.sign_zero]; linarith
    · rw [Real.sign_of_pos q, abs_of_pos q]; ring
  have main := C98_tension _ rfl (by norm_num) _ 3 (fun k (_ : Unit) => (k : ℝ)) (fun k _ => (k : ℝ)) (fun _ _ => 0) 2 (by norm_num) res h' () (fun _ => 1) (fun _ => 1) (fun _ => 1) rfl
    (by intro k _; push_cast; linarith) 0 ⟨le_rfl, le_rfl, Or.inl rfl⟩ 0 1 zero_le_one zero_le_one zero_lt_one zero_lt_one (fun _ _ => rfl) (by intro k _; ring) _
    (by norm_num; exact hcurve) (by norm_num) 1 zero_le_one (by intro k _; push_cast; linarith) 2 (by norm_num)
  norm_num at main
  exact ⟨main.2, main.1⟩

end Pyoptmat.Props
