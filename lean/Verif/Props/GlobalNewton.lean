import Verif.Proofs.MonotoneBlock
import Verif.Props.Relaxation
import Mathlib.Analysis.SpecificLimits.Basic

/-!
# Property C100: tests of Norton's law succeed whatever the step and block sizes
-/

namespace Pyoptmat.Props

open Pyoptmat.Newton Pyoptmat.Spec Pyoptmat.Ode Pyoptmat.Chunktime Pyoptmat.Material Pyoptmat.Control Pyoptmat.Proofs

variable {β : Type*}

/-- What is assumed of the tests, each with its own parameters. Each test `b` is loaded or held, but never unloaded, in its direction `dir b` (tension `1` or compression `-1`); at the temperatures of the tests the modulus is not negative, the drag stress
positive and the exponent between `1` and `N`. `M` bounds the elastically computed stress of every test, `L` the slope `E n (M/η)^(n-1) / η` of the stress rate, `H` the duration of every block of `blk` steps. -/
structure NortonTests (E n eta : β → ℝ → ℝ) (nt : ℕ) (times strains temps : ℕ → β → ℝ) (blk : ℤ) (dir : β → ℝ) (N M L H : ℝ) : Prop where
  grid : ∀ b, StrictGrid (nt - 1) fun k => times k b
  sign : ∀ b, dir b = 1 ∨ dir b = -1
  mono : ∀ b k, k + 1 < nt → 0 ≤ dir b * (strains (k + 1) b - strains k b)
  pars : ∀ b k, 0 < k → k < nt → 0 ≤ E b (temps k b) ∧ 1 ≤ n b (temps k b) ∧ n b (temps k b) ≤ N ∧ 0 < eta b (temps k b)
  one_le : 1 ≤ N
  elastic : ∀ b, ∑ i ∈ Finset.range (nt - 1), E b (temps (i + 1) b) * |strains (i + 1) b - strains i b| ≤ M
  slope : 0 ≤ L ∧ ∀ b k, 0 < k → k < nt → E b (temps k b) * (n b (temps k b) * (M / eta b (temps k b)) ^ (n b (temps k b) - 1) / eta b (temps k b)) ≤ L
  block : ∀ b i j, i ≤ j → j < nt → (j : ℤ) ≤ i + blk → times j b - times i b ≤ H

/-- **C100.** Newton's method converges on every block of a test of Norton's law (`InelasticModel` with `PerfectViscoplasticity`, `solve_strain`, backward Euler, default guess) that is only loaded or held, without any restriction
on the step sizes, the number of steps solved at once or the number of tests in the batch: the run succeeds without a warning once more than `j + 1` iterations are allowed, where `(1 - 1/N)^j M (1 + L H) ≤ atol`. No computed stress
points against the loading, and none exceeds the elastically computed stress. -/
theorem C100_norton_succeeds (c : Config) (hs : c.scheme = .backwardEuler) (hg : c.guessType = "zero") (E n eta : β → ℝ → ℝ) (nt : ℕ) (hnt : 0 < nt) (times strains temps : ℕ → β → ℝ) (blk : ℤ) (hb : 0 < blk)
    (dir : β → ℝ) (N M L H : ℝ) (h : NortonTests E n eta nt times strains temps blk dir N M L H) (j : ℕ) (hj : (j : ℤ) + 1 < c.miter) (ha : (1 - 1 / N) ^ j * (M * (1 + L * H)) ≤ c.atol) :
    ∃ res, solveStrain c (fun b => inelastic (E b) (perfect (n b) (eta b))) nt times strains temps blk = .ok (res, false) ∧ ∀ k < nt, ∀ b,
      0 ≤ dir b * res.get k b 0 ∧ dir b * res.get k b 0 ≤ ∑ i ∈ Finset.range k, E b (temps (i + 1) b) * |strains (i + 1) b - strains i b| := by
  have dabs : ∀ b x, 0 ≤ dir b * x → dir b * x = |x| := by
    intro b x hx
    rcases h.sign b with q | q
    · rw [q, one_mul] at hx ⊢; exact (abs_of_nonneg hx).symm
    · rw [q, neg_one_mul] at hx ⊢; exact (abs_of_nonpos (by linarith)).symm
  set a : β → ℕ → ℝ := fun b k => E b (temps (k + 1) b) * (dir b * ((strains (k + 1) b - strains k b) / (times (k + 1) b - times k b))) with hadef
  have el : ∀ b k, k < nt → elasticSum (dir b * (0 : BVec β (0 + 1) ℝ) b 0) (fun k => times k b) (a b) k = ∑ i ∈ Finset.range k, E b (temps (i + 1) b) * |strains (i + 1) b - strains i b| := by
    intro b k hk
    rw [elasticSum]
    simp only [Pi.zero_apply, mul_zero, zero_add]
    refine Finset.sum_congr rfl fun i hi => ?_
    have hi := Finset.mem_range.1 hi
    have := sub_pos.2 (h.grid b i (by omega))
    rw [← dabs b _ (h.mono b i (by omega)), hadef]
    field_simp
  obtain ⟨res, h1, h2⟩ := convex_integrate c hs hg (strainFunc (fun b => inelastic (E b) (perfect (n b) (eta b))) nt times strains temps) 0 nt hnt times blk hb (fun b k hk => (h.grid b k (by omega)).le)
    (sg := dir) (a := a) (G := fun b k x => E b (temps (k + 1) b) * (x / eta b (temps (k + 1) b)) ^ n b (temps (k + 1) b))
    (G' := fun b k x => E b (temps (k + 1) b) * (n b (temps (k + 1) b) * (x / eta b (temps (k + 1) b)) ^ (n b (temps (k + 1) b) - 1) / eta b (temps (k + 1) b))) (N := N) (L := L) (B := M * (1 + L * H)) (M := M)
    (fun b => by rcases h.sign b with q | q <;> rw [q] <;> norm_num) (fun b => by simp)
    (fun b k hk => mul_nonneg (h.pars b (k + 1) (by omega) hk).1 (by
      rw [mul_div_assoc']
      exact div_nonneg (h.mono b k hk) (sub_nonneg.2 (h.grid b k (by omega)).le))) h.one_le
    (fun b k hk => by
      obtain ⟨p1, p2, p3, p4⟩ := h.pars b (k + 1) (by omega) hk
      exact power_resistance p1 p2 p3 p4)
    (fun b k hk y hy => by
      obtain ⟨p1, p2, p3, p4⟩ := h.pars b (k + 1) (by omega) hk
      have e1 : rateFn nt (fun k => times k b) (fun k => strains k b) (times (k + 1) b) = (strains (k + 1) b - strains k b) / (times (k + 1) b - times k b) := by
        have := rateFn_grid (h.grid b) (fun k => strains k b) hk
        rw [eq_div_iff (sub_pos.2 (h.grid b k (by omega))).ne', mul_comm]; exact this
      have e2 : dataFn nt (fun k => times k b) (fun k => temps k b) (times (k + 1) b) = temps (k + 1) b := dataFn_grid (h.grid b) (fun k => temps k b) hk (by omega)
      have hd2 : dir b * dir b = 1 := by rcases h.sign b with q | q <;> rw [q] <;> norm_num
      simp only [strainFunc]
      rw [e1, e2]
      simp only [inelastic, perfect, Fin.cons_zero, sgn]
      rw [dabs b _ hy]
      refine ⟨?_, by ring⟩
      have e3 : (|y 0| / eta b (temps (k + 1) b)) ^ n b (temps (k + 1) b) * Real.sign (y 0) = dir b * (|y 0| / eta b (temps (k + 1) b)) ^ n b (temps (k + 1) b) := by
        rcases eq_or_ne (y 0) 0 with z | z
        · rw [z, abs_zero, zero_div, Real.zero_rpow (by linarith)]; ring
        · rw [mul_comm]
          congr 1
          rcases h.sign b with q | q
          · rw [q]; rw [q, one_mul] at hy; exact Real.sign_of_pos (lt_of_le_of_ne hy z.symm)
          · rw [q]; rw [q, neg_one_mul] at hy; exact Real.sign_of_neg (lt_of_le_of_ne (by linarith) z)
      rw [e3, hadef]
      linear_combination (-(E b (temps (k + 1) b) * ((strains (k + 1) b - strains k b) / (times (k + 1) b - times k b)))) * hd2)
    (fun b => by rw [el b _ (by omega)]; exact h.elastic b) h.slope.1
    (fun b k hk y hy0 hy => by
      obtain ⟨p1, p2, p3, p4⟩ := h.pars b (k + 1) (by omega) hk
      refine le_trans ?_ (h.slope.2 b (k + 1) (by omega) hk)
      refine mul_le_mul_of_nonneg_left ?_ p1
      refine div_le_div_of_nonneg_right (mul_le_mul_of_nonneg_left ?_ (by linarith)) p4.le
      exact Real.rpow_le_rpow (div_nonneg hy0 p4.le) (by gcongr) (by linarith)) H h.block le_rfl j hj ha
  refine ⟨res, h1, fun k hk b => ?_⟩
  have := h2 k hk b
  rw [el b k hk] at this
  exact this

/-- **C100.** So there is an iteration limit that suffices for the given tests, depending on the step sizes and block size only through the duration of the blocks. -/
theorem C100_limit_exists (E n eta : β → ℝ → ℝ) (nt : ℕ) (hnt : 0 < nt) (times strains temps : ℕ → β → ℝ) (blk : ℤ) (hb : 0 < blk) (dir : β → ℝ) (N M L H : ℝ)
    (h : NortonTests E n eta nt times strains temps blk dir N M L H) (atol : ℝ) (hatol : 0 < atol) :
    ∃ limit : ℤ, ∀ c : Config, c.scheme = .backwardEuler → c.guessType = "zero" → c.atol = atol → limit ≤ c.miter →
      ∃ res, solveStrain c (fun b => inelastic (E b) (perfect (n b) (eta b))) nt times strains temps blk = .ok (res, false) := by
  have h1 : 0 ≤ 1 - 1 / N := by
    have := h.one_le
    rw [sub_nonneg, div_le_one (by linarith)]; exact this
  have h2 : 1 - 1 / N < 1 := by
    have := h.one_le
    have : 0 < 1 / N := by positivity
    linarith
  have lim := (tendsto_pow_atTop_nhds_zero_of_lt_one h1 h2).mul_const (M * (1 + L * H))
  rw [zero_mul] at lim
  obtain ⟨j, hj⟩ := (lim.eventually (gt_mem_nhds hatol)).exists
  refine ⟨(j : ℤ) + 2, fun c c1 c2 c3 c4 => ?_⟩
  obtain ⟨res, r, -⟩ := C100_norton_succeeds c c1 c2 E n eta nt hnt times strains temps blk hb dir N M L H h j (by omega) (by rw [c3]; exact hj.le)
  exact ⟨res, r⟩

/-- **C100.** With the default options (`atol = 1e-8`, `miter = 100`) every test with exponents up to four and `M (1 + L H) ≤ 10⁴` succeeds. -/
theorem C100_defaults (c : Config) (hs : c.scheme = .backwardEuler) (hg : c.guessType = "zero") (ha : c.atol = 1e-8) (hm : c.miter = 100) (E n eta : β → ℝ → ℝ) (nt : ℕ) (hnt : 0 < nt)
    (times strains temps : ℕ → β → ℝ) (blk : ℤ) (hb : 0 < blk) (dir : β → ℝ) (M L H : ℝ) (h : NortonTests E n eta nt times strains temps blk dir 4 M L H) (hB : M * (1 + L * H) ≤ 10000) :
    ∃ res, solveStrain c (fun b => inelastic (E b) (perfect (n b) (eta b))) nt times strains temps blk = .ok (res, false) ∧ ∀ k < nt, ∀ b,
      0 ≤ dir b * res.get k b 0 ∧ dir b * res.get k b 0 ≤ ∑ i ∈ Finset.range k, E b (temps (i + 1) b) * |strains (i + 1) b - strains i b| := by
  refine C100_norton_succeeds c hs hg E n eta nt hnt times strains temps blk hb dir 4 M L H h 98 (by rw [hm]; norm_num) ?_
  rw [ha]
  refine (mul_le_mul_of_nonneg_left hB (by norm_num)).trans ?_
  norm_num

/-- **C100.** Together with C98: a tension test of Norton's law at the constant rate `e ≥ 0` and temperature `T` always completes, and what it returns lies between the exact stress and the exact stress minus `h E e`, up to `k δ` — for every
step size, block size and linear solver. `D` is the duration of the test and `M = E e D` the elastically computed stress at its end. -/
theorem C100_tension (c : Config) (hs : c.scheme = .backwardEuler) (hg : c.guessType = "zero") (hr : 0 ≤ c.rtol) (E n eta : ℝ → ℝ) (nt : ℕ) (hnt : 1 < nt) (times strains temps : ℕ → Unit → ℝ) (blk : ℤ) (hb : 0 < blk)
    (grid : StrictGrid (nt - 1) fun k => times k ()) (T e : ℝ) (he0 : 0 ≤ e) (hE : 0 ≤ E T) (hn : 1 ≤ n T) (heta : 0 < eta T)
    (hT : ∀ k, k < nt → temps k () = T) (he : ∀ k, k < nt → strains k () - strains 0 () = e * (times k () - times 0 ()))
    (σ : ℝ → ℝ) (hσ : NortonCurve (E T) (n T) (eta T) e (times 0 ()) (times (nt - 1) ()) σ) (h0 : σ (times 0 ()) = 0)
    (hmax : ℝ) (hh0 : 0 ≤ hmax) (hh : ∀ k, k + 1 < nt → times (k + 1) () - times k () ≤ hmax) (D M δ : ℝ) (hD : D = times (nt - 1) () - times 0 ()) (hM : M = E T * e * D)
    (hδ : 0 ≤ δ ∧ c.atol ≤ δ ∧ c.rtol * (E T * (e + (M / eta T) ^ n T) * D) ≤ δ) (j : ℕ) (hj : (j : ℤ) + 1 < c.miter)
    (ha : (1 - 1 / n T) ^ j * (M * (1 + E T * (n T * (M / eta T) ^ (n T - 1) / eta T) * D)) ≤ c.atol) :
    ∃ res, solveStrain c (fun _ => inelastic E (perfect n eta)) nt times strains temps blk = .ok (res, false) ∧ ∀ k < nt,
      σ (times k ()) - hmax * (E T * e) - k * δ ≤ res.get k () 0 ∧ res.get k () 0 ≤ σ (times k ()) + k * δ := by
  have tm : ∀ i j, i ≤ j → j < nt → times i () ≤ times j () := fun i j hij hj => mono_of_steps (t := fun k => times k ()) (fun k hk => (grid k (by omega)).le) hij hj
  have D0 : 0 ≤ D := by rw [hD]; exact sub_nonneg.2 (tm 0 (nt - 1) (by omega) (by omega))
  have M0 : 0 ≤ M := by rw [hM]; positivity
  have inc : ∀ k, k + 1 < nt → strains (k + 1) () - strains k () = e * (times (k + 1) () - times k ()) := fun k hk => by
    have := he k (by omega); have := he (k + 1) hk; linarith
  have sl0 : 0 ≤ E T * (n T * (M / eta T) ^ (n T - 1) / eta T) := by
    have : 0 ≤ (M / eta T) ^ (n T - 1) := Real.rpow_nonneg (div_nonneg M0 heta.le) _
    have : 0 ≤ n T := by linarith
    positivity
  have sum : ∀ k, k < nt → ∑ i ∈ Finset.range k, E (temps (i + 1) ()) * |strains (i + 1) () - strains i ()| = E T * e * (times k () - times 0 ()) := by
    intro k hk
    rw [← Finset.sum_range_sub (fun k => times k ()), Finset.mul_sum]
    refine Finset.sum_congr rfl fun i hi => ?_
    have hi := Finset.mem_range.1 hi
    rw [hT (i + 1) (by omega), inc i (by omega), abs_of_nonneg (mul_nonneg he0 (sub_nonneg.2 (grid i (by omega)).le))]
    ring
  have tests : NortonTests (fun _ => E) (fun _ => n) (fun _ => eta) nt times strains temps blk (fun _ => 1) (n T) M (E T * (n T * (M / eta T) ^ (n T - 1) / eta T)) D :=
    { grid := fun _ => grid
      sign := fun _ => Or.inl rfl
      mono := fun _ k hk => by rw [one_mul, inc k hk]; exact mul_nonneg he0 (sub_nonneg.2 (grid k (by omega)).le)
      pars := fun _ k _ hk => by rw [hT k hk]; exact ⟨hE, hn, le_rfl, heta⟩
      one_le := hn
      elastic := fun _ => by rw [sum _ (by omega), ← hD, hM]
      slope := ⟨sl0, fun _ k _ hk => by rw [hT k hk]⟩
      block := fun _ i j hij hj _ => by
        rw [hD]
        have := tm 0 i (by omega) (by omega)
        have := tm j (nt - 1) (by omega) (by omega)
        linarith }
  obtain ⟨res, r1, r2⟩ := C100_norton_succeeds c hs hg (fun _ => E) (fun _ => n) (fun _ => eta) nt (by omega) times strains temps blk hb _ _ _ _ _ tests j hj ha
  refine ⟨res, r1, fun k hk => ?_⟩
  refine C98_tension c hs (by omega) _ nt times strains temps blk hb res r1 () E n eta rfl grid δ ⟨hδ.1, hδ.2.1, Or.inr ⟨hg, hr, E T * (e + (M / eta T) ^ n T), fun i j hi hj => ?_, ?_⟩⟩ T e he0 hE (by linarith) heta hT he σ hσ h0 hmax hh0 hh k hk
  · rw [l2_one]
    have e2 : dataFn nt (fun k => times k ()) (fun k => temps k ()) (times i ()) = T := by
      rw [dataFn_grid grid (fun k => temps k ()) hi hnt]; exact hT i hi
    have e1 : 0 ≤ rateFn nt (fun k => times k ()) (fun k => strains k ()) (times i ()) ∧ rateFn nt (fun k => times k ()) (fun k => strains k ()) (times i ()) ≤ e := by
      unfold rateFn
      rw [interpFn_grid (by omega) grid _ (by omega)]
      unfold rateData
      split_ifs with q
      · exact ⟨le_rfl, he0⟩
      · obtain ⟨i, rfl⟩ : ∃ i', i = i' + 1 := ⟨i - 1, by omega⟩
        have := sub_pos.2 (grid i (by omega))
        rw [Nat.add_sub_cancel, inc i hi, mul_div_cancel_right₀ _ this.ne']
        exact ⟨he0, le_rfl⟩
    obtain ⟨s1, s2⟩ := r2 j hj ()
    rw [sum j hj, one_mul] at s2
    rw [one_mul] at s1
    have s3 : res.get j () 0 ≤ M := by
      rw [hM, hD]
      refine s2.trans (mul_le_mul_of_nonneg_left ?_ (by positivity))
      have := tm j (nt - 1) (by omega) (by omega)
      linarith
    simp only [strainFunc]
    rw [e2]
    simp only [inelastic, perfect, Fin.cons_zero, sgn]
    rw [abs_of_nonneg s1]
    have p0 : 0 ≤ (res.get j () 0 / eta T) ^ n T * Real.sign (res.get j () 0) ∧ (res.get j () 0 / eta T) ^ n T * Real.sign (res.get j () 0) ≤ (M / eta T) ^ n T := by
      have q : (res.get j () 0 / eta T) ^ n T ≤ (M / eta T) ^ n T := Real.rpow_le_rpow (div_nonneg s1 heta.le) (by gcongr) (by linarith)
      have q0 : 0 ≤ (res.get j () 0 / eta T) ^ n T := Real.rpow_nonneg (div_nonneg s1 heta.le) _
      rcases s1.eq_or_lt with z | z
      · rw [← z] at q q0 ⊢
        rw [Real.sign_zero, mul_zero]
        exact ⟨le_rfl, q0.trans q⟩
      · rw [Real.sign_of_pos z, mul_one]; exact ⟨q0, q⟩
    rw [abs_mul, abs_of_nonneg hE]
    refine mul_le_mul_of_nonneg_left ?_ hE
    rw [abs_le]
    constructor <;> linarith [e1.1, e1.2, p0.1, p0.2]
  · rw [← hD]; exact hδ.2.2

/-- Non-vacuity: two tests, one in tension and one in compression, with a quadratic law, `E = η = 1`, each loaded in one single step of 10 to a strain of 10 and then held for another step of 10; both steps solved as one block, default options. Too
coarse for C94, and the run still succeeds; the stresses lie between 0 and 10, and 0 and -10. -/
example : ∃ res, solveStrain (β := Bool)
    { scheme := .backwardEuler, method := .direct .thomas, rtol := 1e-6, atol := 1e-8, miter := 100, throwOnFail := true, guessType := "zero" }
    (fun _ => inelastic (fun _ => 1) (perfect (fun _ => 2) (fun _ => 1))) 3 (fun k _ => 10 * k) (fun k b => (if b then 1 else -1) * (if k = 0 then 0 else 10)) (fun _ _ => 0) 2 = .ok (res, false) ∧
    0 ≤ res.get 2 true 0 ∧ res.get 2 true 0 ≤ 10 ∧ -10 ≤ res.get 2 false 0 ∧ res.get 2 false 0 ≤ 0 := by
  obtain ⟨res, h1, h2⟩ := C100_defaults (β := Bool)
    { scheme := .backwardEuler, method := .direct .thomas, rtol := 1e-6, atol := 1e-8, miter := 100, throwOnFail := true, guessType := "zero" } rfl rfl rfl rfl
    (fun _ => 1) (fun _ => 2) (fun _ => 1) 3 (by norm_num) (fun k _ => 10 * k) (fun k b => (if b then 1 else -1) * (if k = 0 then 0 else 10)) (fun _ _ => 0) 2 (by norm_num)
    (fun b => if b then 1 else -1) 10 20 20
    { grid := fun _ k _ => by push_cast; linarith
      sign := fun b => by cases b <;> simp
      mono := fun b k hk => by rcases k with _ | k <;> cases b <;> simp
      pars := fun _ _ _ _ => by norm_num
      one_le := by norm_num
      elastic := fun b => by cases b <;> simp [Finset.sum_range_succ]
      slope := ⟨by norm_num, fun _ _ _ _ => by norm_num⟩
      block := fun _ i j _ _ hij => by
        have : (j : ℝ) ≤ i + 2 := by exact_mod_cast hij
        linarith } (by norm_num)
  refine ⟨res, h1, ?_⟩
  have t := h2 2 (by norm_num) true
  have f := h2 2 (by norm_num) false
  simp [Finset.sum_range_succ] at t f
  exact ⟨t.1, t.2, by linarith [f.2], f.1⟩

end Pyoptmat.Props
