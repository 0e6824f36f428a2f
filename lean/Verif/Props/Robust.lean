import Verif.Props.Monotone
import Verif.Props.StepTolerance

/-!
# C131: errors in the data and in the parameters have a bounded effect
-/

namespace Pyoptmat.Props

open Pyoptmat.Control Pyoptmat.Material Pyoptmat.Newton Pyoptmat.Spec Pyoptmat.Ode Pyoptmat.Chunktime

variable {β β' : Type*} {m : ℕ}

theorem add_error_sum {t : ℕ → ℝ} {δ : ℝ} {η : ℕ → ℝ} (k : ℕ) : ∑ j ∈ Finset.range k, (δ + (t (j + 1) - t j) * η j) = k * δ + ∑ j ∈ Finset.range k, (t (j + 1) - t j) * η j := by
  rw [Finset.sum_add_distrib, Finset.sum_const, Finset.card_range, nsmul_eq_mul]

/-- **C131.** Backward Euler: two unwarned runs, of tests whose rates differ by at most `η k` at the states of the second run in step `k` (because of other parameters, temperatures or loads), on the same
times, differ after `k` steps by at most `exp(2 ν (t_k - t_0)) (|y0 - y0'| + k (δ + δ') + ∑ Δt_j η_j)`. -/
theorem C131_rates (c c' : Config) (hs : c.scheme = .backwardEuler) (hs' : c'.scheme = .backwardEuler) (hm : 0 ≤ c.miter) (hm' : 0 ≤ c'.miter) (f : Func β m) (f' : Func β' m)
    (y0 : BVec β m ℝ) (y0' : BVec β' m ℝ) (nt : ℕ) (t : ℕ → β → ℝ) (t' : ℕ → β' → ℝ) (n n' : ℤ) (hn : 0 < n) (hn' : 0 < n') (res : Partial β m) (res' : Partial β' m)
    (h : integrate c f y0 nt t n = .ok (res, false)) (h' : integrate c' f' y0' nt t' n' = .ok (res', false)) (b : β) (b' : β') (htt : ∀ k, k < nt → t k b = t' k b')
    (η : ℕ → ℝ) (hf : ∀ k, k + 1 < nt → l2 ((f b (t (k + 1) b) (res'.get (k + 1) b')).1 - (f' b' (t' (k + 1) b') (res'.get (k + 1) b')).1) ≤ η k)
    (ht : ∀ k, k + 1 < nt → t k b ≤ t (k + 1) b) (δ δ' : ℝ)
    (hδ : ToleranceBound c f nt t res.get b δ) (hδ' : ToleranceBound c' f' nt t' res'.get b' δ') (nu : ℝ) (hnu : 0 ≤ nu) (hnuh : ∀ k, k + 1 < nt → nu * (t (k + 1) b - t k b) ≤ 1 / 2)
    (hF : ∀ k, k + 1 < nt → OneSided (fun y => (f b (t (k + 1) b) y).1) nu) (k : ℕ) (hk : k < nt) :
    l2 (res.get k b - res'.get k b') ≤
      Real.exp (2 * nu * (t k b - t 0 b)) * (l2 (y0 b - y0' b') + (k * (δ + δ') + ∑ j ∈ Finset.range k, (t (j + 1) b - t j b) * η j)) := by
  obtain ⟨-, f2⟩ := C14_every_time_filled c f y0 nt t n hn res false h
  obtain ⟨-, f2'⟩ := C14_every_time_filled c' f' y0' nt t' n' hn' res' false h'
  have g0 : res.get 0 b = y0 b := by simp only [Partial.get]; rw [f2]; rfl
  have g0' : res'.get 0 b' = y0' b' := by simp only [Partial.get]; rw [f2']; rfl
  have main := backward_compare (F := fun k y => (f b (t k b) y).1) hnu (K := nt - 1) (t := fun k => t k b) (fun k hk => ht k (by omega)) (fun k hk => hF k (by omega))
    (fun k hk => hnuh k (by omega)) (x := fun k => res.get k b) (y := fun k => res'.get k b') (dx := fun _ => δ)
    (dy := fun k => δ' + (t (k + 1) b - t k b) * η k) (fun k hk => by
      have := step_defect_le c hm f y0 nt t n hn res h b ht hδ k (by omega)
      rw [hs] at this
      exact this) (fun k hk => by
      have h1 := step_defect_le c' hm' f' y0' nt t' n' hn' res' h' b' (fun k hk => by rw [← htt k (by omega), ← htt (k + 1) hk]; exact ht k hk) hδ' k (by omega)
      rw [hs'] at h1
      simp only [defect, backwardDefect, Ode.rate] at h1
      have h2 := hf k (by omega)
      rw [← htt k (by omega), ← htt (k + 1) (by omega)] at h1
      rw [← htt (k + 1) (by omega)] at h2
      have d := sub_nonneg.2 (ht k (by omega))
      have e : res'.get (k + 1) b' - res'.get k b' - (t (k + 1) b - t k b) • (f b (t (k + 1) b) (res'.get (k + 1) b')).1 =
          (res'.get (k + 1) b' - res'.get k b' - (t (k + 1) b - t k b) • (f' b' (t (k + 1) b) (res'.get (k + 1) b')).1) +
            -((t (k + 1) b - t k b) • ((f b (t (k + 1) b) (res'.get (k + 1) b')).1 - (f' b' (t (k + 1) b) (res'.get (k + 1) b')).1)) := by
        rw [smul_sub]; abel
      rw [e]
      refine (l2_add_le _ _).trans (add_le_add h1 ?_)
      rw [l2_neg, l2_smul, abs_of_nonneg d]
      exact mul_le_mul_of_nonneg_left h2 d) k (by omega)
  beta_reduce at main
  rw [g0, g0'] at main
  refine main.trans (le_of_eq ?_)
  congr 2
  rw [← add_error_sum (t := fun k => t k b)]
  refine Finset.sum_congr rfl fun j _ => by ring

/-- One step of a strain controlled run of a material without internal variables, up to `δ`. -/
private theorem plain_step (c : Config) (hs : c.scheme = .backwardEuler) (hm : 0 ≤ c.miter) (model : β → Model (0 + 1)) (nt : ℕ)
    (times strains temps : ℕ → β → ℝ) (blk : ℤ) (hb : 0 < blk) (res : Partial β (0 + 1))
    (h : solveStrain c model nt times strains temps blk = .ok (res, false)) (b : β) (E : ℝ → ℝ) (f : FlowRule 0) (hmod : model b = inelastic E f)
    (hfree : ∀ s v t T e, f.flow s v t T e = f.flow s v t T 0)
    (hg : StrictGrid (nt - 1) fun k => times k b) (δ : ℝ) (hδ : ToleranceBound c (strainFunc model nt times strains temps) nt times res.get b δ) :
    res.get 0 b 0 = 0 ∧ ∀ k, k + 1 < nt →
      |res.get (k + 1) b 0 - res.get k b 0 - E (temps (k + 1) b) * ((strains (k + 1) b - strains k b) -
        (times (k + 1) b - times k b) * f.flow (res.get (k + 1) b 0) ![] (times (k + 1) b) (temps (k + 1) b) 0)| ≤ δ := by
  constructor
  · obtain ⟨-, f2⟩ := C14_every_time_filled c _ 0 nt times blk hb res false h
    unfold Partial.get
    rw [f2]
    rfl
  · intro k hk
    have h1 := step_defect_le c hm _ 0 nt times blk hb res h b (fun k hk => (hg k (by omega)).le) hδ k hk
    rw [hs] at h1
    have h2 := (abs_le_l2 _ 0).trans h1
    have e := dataFn_grid hg (fun k => temps k b) hk (by omega)
    have er := rateFn_grid hg (fun k => strains k b) hk
    have ev : ∀ v : Fin 0 → ℝ, v = ![] := fun v => Subsingleton.elim _ _
    simp only [defect, backwardDefect, rate, strainFunc, hmod, inelastic, Pi.sub_apply, Pi.smul_apply, smul_eq_mul, Fin.cons_zero, e] at h2
    rw [hfree, ev (fun j => _)] at h2
    refine le_of_eq_of_le ?_ h2
    congr 1
    rw [← er]
    ring

/-- **C131.** Noise in the strain history. For a material without internal variables whose flow grows with the stress (`PerfectViscoplasticity`, or any other flow law that depends on stress, time and
temperature only) and a constant modulus `E0`: if the strains of two tests, counted from their first value, differ by at most `η` at every time, the simulated stresses differ by at most
`2 E0 η + k (δ + δ')` after `k` steps, however long the test and however rough the difference of the strains. -/
theorem C131_strain_noise (c c' : Config) (hs : c.scheme = .backwardEuler) (hs' : c'.scheme = .backwardEuler) (hm : 0 ≤ c.miter)
    (hm' : 0 ≤ c'.miter) (model : β → Model (0 + 1)) (model' : β' → Model (0 + 1)) (nt : ℕ) (times strains temps : ℕ → β → ℝ) (times' strains' temps' : ℕ → β' → ℝ) (blk blk' : ℤ)
    (hb : 0 < blk) (hb' : 0 < blk') (res : Partial β (0 + 1)) (res' : Partial β' (0 + 1))
    (h : solveStrain c model nt times strains temps blk = .ok (res, false)) (h' : solveStrain c' model' nt times' strains' temps' blk' = .ok (res', false)) (b : β) (b' : β')
    (E : ℝ → ℝ) (f : FlowRule 0) (hmod : model b = inelastic E f) (hmod' : model' b' = inelastic E f) (hfree : ∀ s v t T e, f.flow s v t T e = f.flow s v t T 0)
    (hmono : ∀ k, k < nt → ∀ s s', s ≤ s' → f.flow s ![] (times k b) (temps k b) 0 ≤ f.flow s' ![] (times k b) (temps k b) 0)
    (E0 : ℝ) (hE0 : 0 ≤ E0) (hE : ∀ k, k < nt → E (temps k b) = E0) (hsame : ∀ k, k < nt → times' k b' = times k b ∧ temps' k b' = temps k b)
    (hg : StrictGrid (nt - 1) fun k => times k b) (η : ℝ) (hη : ∀ k, k < nt → |(strains' k b' - strains' 0 b') - (strains k b - strains 0 b)| ≤ η) (δ δ' : ℝ)
    (hδ : ToleranceBound c (strainFunc model nt times strains temps) nt times res.get b δ)
    (hδ' : ToleranceBound c' (strainFunc model' nt times' strains' temps') nt times' res'.get b' δ') (k : ℕ) (hk : k < nt) :
    |res'.get k b' 0 - res.get k b 0| ≤ 2 * E0 * η + k * (δ + δ') := by
  have hg' : StrictGrid (nt - 1) fun k => times' k b' := fun k hk => by
    dsimp only
    rw [(hsame k (by omega)).1, (hsame (k + 1) (by omega)).1]
    exact hg k hk
  obtain ⟨z, st⟩ := plain_step c hs hm model nt times strains temps blk hb res h b E f hmod hfree hg δ hδ
  obtain ⟨z', st'⟩ := plain_step c' hs' hm' model' nt times' strains' temps' blk' hb' res' h' b' E f hmod' hfree hg' δ' hδ'
  have d0 := hδ.1
  have d0' := hδ'.1
  let D : ℕ → ℝ := fun k => (strains' k b' - strains' 0 b') - (strains k b - strains 0 b)
  let w : ℕ → ℝ := fun k => res'.get k b' 0 - res.get k b 0 - E0 * D k
  have hη0 : 0 ≤ E0 * η := mul_nonneg hE0 ((abs_nonneg _).trans (hη 0 (by omega)))
  have hD : ∀ k, k < nt → |E0 * D k| ≤ E0 * η := fun k hk => by
    rw [abs_mul, abs_of_nonneg hE0]
    exact mul_le_mul_of_nonneg_left (hη k hk) hE0
  have main : ∀ k, k < nt → |w k| ≤ E0 * η + k * (δ + δ') := by
    intro k
    induction k with
    | zero => intro _; simp only [w, D]; rw [z, z']; simp; exact hη0
    | succ k ih =>
      intro hk
      have i1 := abs_le.1 (ih (by omega))
      have a := abs_le.1 (st k hk)
      have a' := abs_le.1 (st' k hk)
      rw [(hsame (k + 1) hk).2, (hsame (k + 1) hk).1, (hsame k (by omega)).1, hE (k + 1) hk] at a'
      rw [hE (k + 1) hk] at a
      have hEdt : 0 ≤ E0 * (times (k + 1) b - times k b) := mul_nonneg hE0 (sub_pos.2 (hg k (by omega))).le
      have q := abs_le.1 (hD (k + 1) hk)
      have mono := hmono (k + 1) hk
      generalize hp' : f.flow (res'.get (k + 1) b' 0) ![] (times (k + 1) b) (temps (k + 1) b) 0 = p' at *
      generalize hp : f.flow (res.get (k + 1) b 0) ![] (times (k + 1) b) (temps (k + 1) b) 0 = p at *
      have step : |w (k + 1) - w k + E0 * (times (k + 1) b - times k b) * (p' - p)| ≤ δ + δ' := by
        rw [abs_le]
        simp only [w, D]
        constructor <;> nlinarith [a.1, a.2, a'.1, a'.2]
      have step := abs_le.1 step
      rw [abs_le]
      push_cast
      constructor
      · by_contra hc
        push Not at hc
        have hlt : p ≤ p' → False := by
          intro hpp
          rcases le_total (res'.get (k + 1) b' 0) (res.get (k + 1) b 0) with s | s
          · have := mono _ _ s
            rw [hp, hp'] at this
            have : p = p' := le_antisymm hpp this
            rw [this, sub_self, mul_zero] at step
            linarith [step.1, i1.1]
          · have : -(E0 * η) ≤ w (k + 1) := by simp only [w]; linarith [q.2]
            have := mul_nonneg (Nat.cast_nonneg (α := ℝ) k) (add_nonneg d0 d0')
            linarith
        have hpp : p' < p := not_le.1 hlt
        have := mul_nonneg hEdt (sub_pos.2 hpp).le
        nlinarith [step.1, i1.1]
      · by_contra hc
        push Not at hc
        have hlt : p' ≤ p → False := by
          intro hpp
          rcases le_total (res.get (k + 1) b 0) (res'.get (k + 1) b' 0) with s | s
          · have := mono _ _ s
            rw [hp, hp'] at this
            have : p = p' := le_antisymm this hpp
            rw [this, sub_self, mul_zero] at step
            linarith [step.2, i1.2]
          · have : w (k + 1) ≤ E0 * η := by simp only [w]; linarith [q.1]
            have := mul_nonneg (Nat.cast_nonneg (α := ℝ) k) (add_nonneg d0 d0')
            linarith
        have hpp : p < p' := not_le.1 hlt
        have := mul_nonneg hEdt (sub_pos.2 hpp).le
        nlinarith [step.2, i1.2]
  have m := abs_le.1 (main k hk)
  have q := abs_le.1 (hD k hk)
  simp only [w] at m
  rw [abs_le]
  constructor <;> linarith [m.1, m.2, q.1, q.2]

private theorem perfect_mono (n eta : ℝ → ℝ) (t T : ℝ) (hn : 0 < n T) (heta : 0 < eta T) (s s' : ℝ) (hss : s ≤ s') :
    (perfect n eta).flow s ![] t T 0 ≤ (perfect n eta).flow s' ![] t T 0 := by
  have e : ∀ s, (perfect n eta).flow s ![] t T 0 = overflow (n T) (eta T) (s, 0) := fun s => by
    simp only [perfect, overflow, sub_zero]
    rw [macaulay_eq, max_eq_left (div_nonneg (abs_nonneg _) heta.le)]
  rw [e, e]
  exact overflow_mono hn heta hss

/-- **C131.** Noise in the strain history, for `PerfectViscoplasticity`. -/
theorem C131_perfect_strain_noise (c c' : Config) (hs : c.scheme = .backwardEuler) (hs' : c'.scheme = .backwardEuler) (hm : 0 ≤ c.miter)
    (hm' : 0 ≤ c'.miter) (model : β → Model (0 + 1)) (model' : β' → Model (0 + 1)) (nt : ℕ) (times strains temps : ℕ → β → ℝ) (times' strains' temps' : ℕ → β' → ℝ) (blk blk' : ℤ)
    (hb : 0 < blk) (hb' : 0 < blk') (res : Partial β (0 + 1)) (res' : Partial β' (0 + 1))
    (h : solveStrain c model nt times strains temps blk = .ok (res, false)) (h' : solveStrain c' model' nt times' strains' temps' blk' = .ok (res', false)) (b : β) (b' : β')
    (E n eta : ℝ → ℝ) (hmod : model b = inelastic E (perfect n eta)) (hmod' : model' b' = inelastic E (perfect n eta)) (hp : ∀ k, k < nt → 0 < n (temps k b) ∧ 0 < eta (temps k b))
    (E0 : ℝ) (hE0 : 0 ≤ E0) (hE : ∀ k, k < nt → E (temps k b) = E0) (hsame : ∀ k, k < nt → times' k b' = times k b ∧ temps' k b' = temps k b)
    (hg : StrictGrid (nt - 1) fun k => times k b) (η : ℝ) (hη : ∀ k, k < nt → |(strains' k b' - strains' 0 b') - (strains k b - strains 0 b)| ≤ η) (δ δ' : ℝ)
    (hδ : ToleranceBound c (strainFunc model nt times strains temps) nt times res.get b δ)
    (hδ' : ToleranceBound c' (strainFunc model' nt times' strains' temps') nt times' res'.get b' δ') (k : ℕ) (hk : k < nt) :
    |res'.get k b' 0 - res.get k b 0| ≤ 2 * E0 * η + k * (δ + δ') :=
  C131_strain_noise c c' hs hs' hm hm' model model' nt times strains temps times' strains' temps' blk blk' hb hb' res res' h h' b b' E (perfect n eta) hmod hmod' (fun _ _ _ _ _ => rfl)
    (fun k hk s s' hss => perfect_mono n eta _ _ (hp k hk).1 (hp k hk).2 s s' hss) E0 hE0 hE hsame hg η hη δ δ' hδ hδ' k hk

/-- **C131.** Errors in the parameters of `PerfectViscoplasticity` under strain control: if at the stresses of the second run the two creep rates differ by at most `φ k` in step `k`, the stresses differ by
at most `k (δ + δ') + ∑ Δt_j E_j φ_j`: the errors add up, and are never amplified. -/
theorem C131_perfect_parameters (c c' : Config) (hs : c.scheme = .backwardEuler) (hs' : c'.scheme = .backwardEuler) (hm : 0 ≤ c.miter)
    (hm' : 0 ≤ c'.miter) (model : β → Model (0 + 1)) (model' : β' → Model (0 + 1)) (nt : ℕ) (times strains temps : ℕ → β → ℝ) (times' strains' temps' : ℕ → β' → ℝ) (blk blk' : ℤ)
    (hb : 0 < blk) (hb' : 0 < blk') (res : Partial β (0 + 1)) (res' : Partial β' (0 + 1))
    (h : solveStrain c model nt times strains temps blk = .ok (res, false)) (h' : solveStrain c' model' nt times' strains' temps' blk' = .ok (res', false)) (b : β) (b' : β')
    (E n eta : ℝ → ℝ) (f' : FlowRule 0) (hmod : model b = inelastic E (perfect n eta)) (hmod' : model' b' = inelastic E f') (hfree : ∀ s v t T e, f'.flow s v t T e = f'.flow s v t T 0)
    (hp : ∀ k, k < nt → 0 ≤ E (temps k b) ∧ 0 < n (temps k b) ∧ 0 < eta (temps k b))
    (hsame : ∀ k, k < nt → times' k b' = times k b ∧ strains' k b' = strains k b ∧ temps' k b' = temps k b) (hg : StrictGrid (nt - 1) fun k => times k b) (φ : ℕ → ℝ)
    (hφ : ∀ k, k + 1 < nt → |(perfect n eta).flow (res'.get (k + 1) b' 0) ![] (times (k + 1) b) (temps (k + 1) b) 0 -
      f'.flow (res'.get (k + 1) b' 0) ![] (times (k + 1) b) (temps (k + 1) b) 0| ≤ φ k) (δ δ' : ℝ)
    (hδ : ToleranceBound c (strainFunc model nt times strains temps) nt times res.get b δ)
    (hδ' : ToleranceBound c' (strainFunc model' nt times' strains' temps') nt times' res'.get b' δ') (k : ℕ) (hk : k < nt) :
    |res.get k b 0 - res'.get k b' 0| ≤ k * (δ + δ') + ∑ j ∈ Finset.range k, (times (j + 1) b - times j b) * (E (temps (j + 1) b) * φ j) := by
  have hst : ∀ k, k + 1 < nt → times k b ≤ times (k + 1) b := fun k hk => (hg k (by omega)).le
  have hg' : StrictGrid (nt - 1) fun k => times' k b' := fun k hk => by
    dsimp only
    rw [(hsame k (by omega)).1, (hsame (k + 1) (by omega)).1]
    exact hg k hk
  have ev : ∀ v : Fin 0 → ℝ, v = ![] := fun v => Subsingleton.elim _ _
  have main := C131_rates c c' hs hs' hm hm' _ _ 0 0 nt times times' blk blk' hb hb' res res' h h' b b' (fun k hk => (hsame k hk).1.symm) (fun j => E (temps (j + 1) b) * φ j) (by
    intro k hk
    have e := dataFn_grid hg (fun k => temps k b) hk (by omega)
    have er := rateFn_grid hg (fun k => strains k b) hk
    have e' := dataFn_grid hg' (fun k => temps' k b') hk (by omega)
    have er' := rateFn_grid hg' (fun k => strains' k b') hk
    beta_reduce at er er' e e'
    have hd : times (k + 1) b - times k b ≠ 0 := (sub_pos.2 (hg k (by omega))).ne'
    rw [(hsame (k + 1) hk).1, (hsame k (by omega)).1, (hsame (k + 1) hk).2.1, (hsame k (by omega)).2.1, ← er] at er'
    have er2 := mul_left_cancel₀ hd er'
    rw [(hsame (k + 1) hk).1] at e' ⊢
    rw [(hsame (k + 1) hk).2.2] at e'
    simp only [strainFunc, hmod, hmod', inelastic, e, e', er2]
    rw [hfree, ev (fun j => _)]
    refine le_of_eq_of_le (l2_one _) ?_
    simp only [Pi.sub_apply, Fin.cons_zero]
    have : ∀ a p q r : ℝ, a * (r - p) - a * (r - q) = -(a * (p - q)) := fun _ _ _ _ => by ring
    rw [this, abs_neg, abs_mul, abs_of_nonneg (hp (k + 1) hk).1]
    exact mul_le_mul_of_nonneg_left (hφ k hk) (hp (k + 1) hk).1) hst δ δ' hδ hδ' 0 le_rfl (fun k _ => by norm_num) (by
    intro k hk
    have e := dataFn_grid hg (fun k => temps k b) hk (by omega)
    obtain ⟨p1, p2, p3⟩ := hp (k + 1) hk
    rw [← e] at p1 p2 p3
    simp only [strainFunc, hmod]
    exact perfect_oneSided E n eta _ _ _ p1 p2 p3) k hk
  have e0 : l2 ((0 : BVec β (0 + 1) ℝ) b - (0 : BVec β' (0 + 1) ℝ) b') = 0 := by
    have : (0 : BVec β (0 + 1) ℝ) b - (0 : BVec β' (0 + 1) ℝ) b' = 0 := by simp
    rw [this, l2_zero]
  rw [e0, mul_zero, zero_mul, Real.exp_zero, one_mul] at main
  have := l2_one (res.get k b - res'.get k b')
  rw [Pi.sub_apply] at this
  rw [← this]
  linarith

/-- **C131.** Errors in the stress history and in the flow law of creep tests: two stress controlled tests of materials whose flow rules (with any internal variables) do not look at the strain rate, with the same constant modulus. If the
inelastic strain rates at their recorded stresses and internal variables differ by at most `φ k` in step `k`, the strains differ by the difference of the elastic strains, up to `∑ Δt_j φ_j` and the tolerances. -/
theorem C131_creep (c c' : Config) (hs : c.scheme = .backwardEuler) (hs' : c'.scheme = .backwardEuler) (hm : 0 ≤ c.miter) (hm' : 0 ≤ c'.miter) {n n' : ℕ}
    (model : β → Model (n + 1)) (model' : β' → Model (n' + 1)) (nt : ℕ) (times stresses temps : ℕ → β → ℝ) (times' stresses' temps' : ℕ → β' → ℝ) (blk blk' : ℤ) (hb : 0 < blk) (hb' : 0 < blk')
    (hg : ∀ b, StrictGrid (nt - 1) fun k => times k b) (hg' : ∀ b, StrictGrid (nt - 1) fun k => times' k b)
    (res : Partial β (n + 1)) (res' : Partial β' (n' + 1)) (h : solveStress c model nt times stresses temps blk = .ok (res, false))
    (h' : solveStress c' model' nt times' stresses' temps' blk' = .ok (res', false)) (b : β) (b' : β') (E E' : ℝ → ℝ) (f : FlowRule n) (f' : FlowRule n')
    (hmod : model b = inelastic E f) (hmod' : model' b' = inelastic E' f') (E0 : ℝ) (hE0 : 0 < E0) (hE : ∀ k, k < nt → E (temps k b) = E0) (hE' : ∀ k, k < nt → E' (temps' k b') = E0)
    (hf : ∀ s h t T e, f.flow s h t T e = f.flow s h t T 0) (hd : ∀ s h t T e, f.dflow_de s h t T e = 0)
    (hf' : ∀ s h t T e, f'.flow s h t T e = f'.flow s h t T 0) (hd' : ∀ s h t T e, f'.dflow_de s h t T e = 0) (hsame : ∀ k, k < nt → times' k b' = times k b) (φ : ℕ → ℝ)
    (hφ : ∀ k, k + 1 < nt → |f'.flow (stresses' (k + 1) b') (fun j => res'.get (k + 1) b' j.succ) (times' (k + 1) b') (temps' (k + 1) b') 0 -
      f.flow (stresses (k + 1) b) (fun j => res.get (k + 1) b j.succ) (times (k + 1) b) (temps (k + 1) b) 0| ≤ φ k) (δ δ' : ℝ)
    (hδ : StepTolerance c (stressFunc model nt times stresses temps) nt times res.get b δ)
    (hδ' : StepTolerance c' (stressFunc model' nt times' stresses' temps') nt times' res'.get b' δ') (k : ℕ) (hk : k < nt) :
    |(res'.get k b' 0 - res.get k b 0) - ((stresses' k b' - stresses' 0 b') - (stresses k b - stresses 0 b)) / E0| ≤
      ∑ j ∈ Finset.range k, (times (j + 1) b - times j b) * φ j + k * (δ + δ') + 2 * (times k b - times 0 b) * (1e-10 / E0) := by
  have z := (C14_every_time_filled c _ 0 nt times blk hb res false h).2
  have z' := (C14_every_time_filled c' _ 0 nt times' blk' hb' res' false h').2
  have g0 : res.get 0 b 0 = 0 := by unfold Partial.get; rw [z]; rfl
  have g0' : res'.get 0 b' 0 = 0 := by unfold Partial.get; rw [z']; rfl
  induction k with
  | zero => rw [g0, g0']; simp
  | succ k ih =>
    have i1 := ih (by omega)
    obtain ⟨a, -⟩ := C123_inelastic_stress c hs hm model nt times stresses temps blk hb hg res h b E f hmod (fun k hk => by rw [hE k hk]; exact hE0.ne') hf hd δ hδ k hk
    obtain ⟨a', -⟩ := C123_inelastic_stress c' hs' hm' model' nt times' stresses' temps' blk' hb' hg' res' h' b' E' f' hmod' (fun k hk => by rw [hE' k hk]; exact hE0.ne') hf' hd' δ' hδ' k hk
    have q := hφ k hk
    rw [hE (k + 1) hk, abs_of_pos hE0] at a
    rw [hE' (k + 1) hk, abs_of_pos hE0, hsame (k + 1) hk, hsame k (by omega)] at a'
    rw [hsame (k + 1) hk] at q
    have hdt := (sub_pos.2 (hg b k (by omega))).le
    rw [Finset.sum_range_succ]
    generalize f'.flow (stresses' (k + 1) b') (fun j => res'.get (k + 1) b' j.succ) (times (k + 1) b) (temps' (k + 1) b') 0 = p' at *
    generalize f.flow (stresses (k + 1) b) (fun j => res.get (k + 1) b j.succ) (times (k + 1) b) (temps (k + 1) b) 0 = p at *
    have q1 : |(times (k + 1) b - times k b) * (p' - p)| ≤ (times (k + 1) b - times k b) * φ k := by
      rw [abs_mul, abs_of_nonneg hdt]
      exact mul_le_mul_of_nonneg_left q hdt
    have e1 : (stresses (k + 1) b - stresses k b) / E0 = stresses (k + 1) b / E0 - stresses k b / E0 := sub_div _ _ _
    have e2 : (stresses' (k + 1) b' - stresses' k b') / E0 = stresses' (k + 1) b' / E0 - stresses' k b' / E0 := sub_div _ _ _
    have e3 : ∀ k, ((stresses' k b' - stresses' 0 b') - (stresses k b - stresses 0 b)) / E0 = (stresses' k b' / E0 - stresses' 0 b' / E0) - (stresses k b / E0 - stresses 0 b / E0) :=
      fun k => by rw [sub_div, sub_div, sub_div]
    have e4 : 2 * (times (k + 1) b - times 0 b) * (1e-10 / E0) = 2 * (times k b - times 0 b) * (1e-10 / E0) + 2 * ((times (k + 1) b - times k b) * (1e-10 / E0)) := by ring
    rw [e3] at i1 ⊢
    rw [e1] at a
    rw [e2] at a'
    rw [e4]
    have e5 : (times (k + 1) b - times k b) * (p' - p) = (times (k + 1) b - times k b) * p' - (times (k + 1) b - times k b) * p := by ring
    rw [e5] at q1
    have e6 : (((k + 1 : ℕ) : ℝ)) * (δ + δ') = k * (δ + δ') + δ + δ' := by push_cast; ring
    rw [e6]
    have a := abs_le.1 a
    have a' := abs_le.1 a'
    have q1 := abs_le.1 q1
    have i1 := abs_le.1 i1
    rw [abs_le]
    constructor <;> linarith [a.1, a.2, a'.1, a'.2, q1.1, q1.2, i1.1, i1.2]

/-- Non-vacuity of C131: a cubic creep law with the drag stresses 1 and 2, pulled at the rates 1 and 2 (a strain error of at most 2), with the tolerance `1/100`: the three runs exist, the strain error moves the stress by at
most `4 + k/50`, and the error of the drag stress by at most the sum of the errors of the rate. -/
example : ∃ (c : Config) (res res1 res2 : Partial Unit (0 + 1)),
    solveStrain c (fun _ => inelastic (fun _ => 1) (perfect (fun _ => 3) (fun _ => 1))) 3 (fun k (_ : Unit) => (k : ℝ)) (fun k _ => 1 * k) (fun _ _ => 300) 1 = .ok (res, false) ∧
    solveStrain c (fun _ => inelastic (fun _ => 1) (perfect (fun _ => 3) (fun _ => 1))) 3 (fun k (_ : Unit) => (k : ℝ)) (fun k _ => 2 * k) (fun _ _ => 300) 1 = .ok (res1, false) ∧
    solveStrain c (fun _ => inelastic (fun _ => 1) (perfect (fun _ => 3) (fun _ => 2))) 3 (fun k (_ : Unit) => (k : ℝ)) (fun k _ => 1 * k) (fun _ _ => 300) 1 = .ok (res2, false) ∧
    (∀ k < 3, |res1.get k () 0 - res.get k () 0| ≤ 2 * 1 * 2 + k * (1 / 100 + 1 / 100)) ∧
    ∀ k < 3, |res.get k () 0 - res2.get k () 0| ≤ k * (1 / 100 + 1 / 100) + ∑ j ∈ Finset.range k, (((j + 1 : ℕ) : ℝ) - j) * (1 *
      |(perfect (fun _ => 3) (fun _ => 1)).flow (res2.get (j + 1) () 0) ![] ((j + 1 : ℕ) : ℝ) 300 0 - (perfect (fun _ => 3) (fun _ => 2)).flow (res2.get (j + 1) () 0) ![] ((j + 1 : ℕ) : ℝ) 300 0|) := by
  obtain ⟨l1, h1⟩ := C100_limit_exists _ _ _ 3 (by norm_num) _ _ _ 1 (by norm_num) _ _ _ _ _ (norton_witness 1 1 3 (by norm_num) (by norm_num) (by norm_num) le_rfl)
    (1 / 100) (by norm_num)
  obtain ⟨l2, h2⟩ := C100_limit_exists _ _ _ 3 (by norm_num) _ _ _ 1 (by norm_num) _ _ _ _ _ (norton_witness 1 2 3 (by norm_num) (by norm_num) (by norm_num) le_rfl)
    (1 / 100) (by norm_num)
  obtain ⟨l3, h3⟩ := C100_limit_exists _ _ _ 3 (by norm_num) _ _ _ 1 (by norm_num) _ _ _ _ _ (norton_witness 2 1 3 (by norm_num) (by norm_num) (by norm_num) le_rfl)
    (1 / 100) (by norm_num)
  let c : Config := { scheme := .backwardEuler, method := .direct .thomas, rtol := 0, atol := 1 / 100, miter := max 0 (max l1 (max l2 l3)), throwOnFail := true,
                      guessType := "zero" }
  have m1 : (l1 : ℤ) ≤ c.miter := (le_max_left _ _).trans (le_max_right _ _)
  have m2 : (l2 : ℤ) ≤ c.miter := (le_max_left _ _).trans ((le_max_right _ _).trans (le_max_right _ _))
  have m3 : (l3 : ℤ) ≤ c.miter := (le_max_right _ _).trans ((le_max_right _ _).trans (le_max_right _ _))
  obtain ⟨res, r1⟩ := h1 c rfl rfl rfl m1
  obtain ⟨res1, r2⟩ := h2 c rfl rfl rfl m2
  obtain ⟨res2, r3⟩ := h3 c rfl rfl rfl m3
  have g : StrictGrid (3 - 1) fun k => (fun (k : ℕ) (_ : Unit) => (k : ℝ)) k () := by intro k hk; push_cast; linarith
  have hd : ∀ (model : Unit → Model (0 + 1)) (s : ℕ → Unit → ℝ) (r : Partial Unit (0 + 1)),
      ToleranceBound c (strainFunc model 3 (fun k (_ : Unit) => (k : ℝ)) s (fun _ _ => 300)) 3 (fun k (_ : Unit) => (k : ℝ)) r.get () (1 / 100) :=
    fun _ _ _ => ⟨by norm_num, le_rfl, Or.inl rfl⟩
  refine ⟨c, res, res1, res2, r1, r2, r3, fun k hk => ?_, fun k hk => ?_⟩
  · refine C131_perfect_strain_noise c c rfl rfl (le_max_left _ _) (le_max_left _ _) _ _ 3 _ _ _ _ _ _ 1 1 (by norm_num) (by norm_num) res res1 r1 r2 () () (fun _ => 1) (fun _ => 3) (fun _ => 1) rfl rfl
      (fun _ _ => by norm_num) 1 (by norm_num) (fun _ _ => rfl) (fun _ _ => ⟨rfl, rfl⟩) g 2 (fun k hk => ?_) (1 / 100) (1 / 100) (hd _ _ _) (hd _ _ _) k hk
    have h0 : (0 : ℝ) ≤ k := Nat.cast_nonneg k
    have : (k : ℝ) ≤ 2 := by exact_mod_cast (by omega : k ≤ 2)
    rw [abs_le]
    constructor <;> push_cast <;> linarith
  · exact C131_perfect_parameters c c rfl rfl (le_max_left _ _) (le_max_left _ _) _ _ 3 _ _ _ _ _ _ 1 1 (by norm_num) (by norm_num) res res2 r1 r3 () () (fun _ => 1) (fun _ => 3) (fun _ => 1)
      (perfect (fun _ => 3) (fun _ => 2)) rfl rfl (fun _ _ _ _ _ => rfl) (fun _ _ => by norm_num) (fun _ _ => ⟨rfl, rfl, rfl⟩) g _ (fun k _ => le_rfl) (1 / 100) (1 / 100) (hd _ _ _) (hd _ _ _) k hk

/-- Non-vacuity of C131 (creep): the stresses 10 and 20, applied in the first step, and materials with the drag stresses 5 and 6; both runs exist with zero tolerances. -/
example : ∃ (c : Config) (res res' : Partial Unit (0 + 1)),
    solveStress c (fun _ => inelastic (fun _ => 100) (perfect (fun _ => 3) (fun _ => 5))) 4 (fun k (_ : Unit) => (k : ℝ)) (fun k _ => if k = 0 then 0 else 10)
      (fun _ _ => 300) 2 = .ok (res, false) ∧
    solveStress c (fun _ => inelastic (fun _ => 100) (perfect (fun _ => 3) (fun _ => 6))) 4 (fun k (_ : Unit) => (k : ℝ)) (fun k _ => if k = 0 then 0 else 20)
      (fun _ _ => 300) 2 = .ok (res', false) ∧
    ∀ k < 4, 1 ≤ k → |(res'.get k () 0 - res.get k () 0) - 1 / 10| ≤
      (∑ j ∈ Finset.range k, (((j + 1 : ℕ) : ℝ) - j) * |(perfect (fun _ => 3) (fun _ => 6)).flow 20 ![] ((j + 1 : ℕ) : ℝ) 300 0 - (perfect (fun _ => 3) (fun _ => 5)).flow 10 ![] ((j + 1 : ℕ) : ℝ) 300 0|) +
        k * (0 + 0) + 2 * ((k : ℝ) - (0 : ℕ)) * (1e-10 / 100) := by
  let c : Config := { scheme := .backwardEuler, method := .direct .thomas, rtol := 0, atol := 0, miter := 2, throwOnFail := true, guessType := "zero" }
  obtain ⟨res, r1⟩ := C78_creep_always_solved (β := Unit) c rfl rfl (by norm_num [c]) (fun _ => inelastic (fun _ => 100) (perfect (fun _ => 3) (fun _ => 5))) 4 (by norm_num)
    (fun k _ => (k : ℝ)) (fun k _ => if k = 0 then 0 else 10) (fun _ _ => 300) 2 (by norm_num) (Or.inl rfl)
  obtain ⟨res', r2⟩ := C78_creep_always_solved (β := Unit) c rfl rfl (by norm_num [c]) (fun _ => inelastic (fun _ => 100) (perfect (fun _ => 3) (fun _ => 6))) 4 (by norm_num)
    (fun k _ => (k : ℝ)) (fun k _ => if k = 0 then 0 else 20) (fun _ _ => 300) 2 (by norm_num) (Or.inl rfl)
  refine ⟨c, res, res', r1, r2, fun k hk k1 => ?_⟩
  have grid : ∀ b : Unit, StrictGrid (4 - 1) fun k => (fun (k : ℕ) (_ : Unit) => (k : ℝ)) k b := by intro b k hk; push_cast; linarith
  have := C131_creep c c rfl rfl (by norm_num [c]) (by norm_num [c]) _ _ 4 _ _ _ _ _ _ 2 2 (by norm_num) (by norm_num) grid grid res res' r1 r2 () () (fun _ => 100) (fun _ => 100) _ _ rfl rfl 100 (by norm_num)
    (fun _ _ => rfl) (fun _ _ => rfl) (fun _ _ _ _ _ => rfl) (fun _ _ _ _ _ => rfl) (fun _ _ _ _ _ => rfl) (fun _ _ _ _ _ => rfl) (fun _ _ => rfl)
    (fun j => |(perfect (fun _ => 3) (fun _ => 6)).flow 20 ![] ((j + 1 : ℕ) : ℝ) 300 0 - (perfect (fun _ => 3) (fun _ => 5)).flow 10 ![] ((j + 1 : ℕ) : ℝ) 300 0|)
    (fun j hj => by
      rw [if_neg (by omega), if_neg (by omega)]
      exact le_rfl) 0 0 ⟨le_rfl, le_rfl, Or.inl rfl⟩ ⟨le_rfl, le_rfl, Or.inl rfl⟩ k hk
  have kne : k ≠ 0 := by omega
  simp only [if_neg kne, if_pos] at this
  norm_num at this ⊢
  exact this

end Pyoptmat.Props
