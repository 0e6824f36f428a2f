import Verif.Props.Accuracy
import Verif.Props.Mixed
import Verif.Proofs.Sensitivity
import Verif.Props.GlobalNewton

/-!
# C122: more strain gives more stress, more stress gives more creep (perfect viscoplasticity)
-/

namespace Pyoptmat.Props

open Pyoptmat.Control Pyoptmat.Material Pyoptmat.Newton Pyoptmat.Spec Pyoptmat.Ode Pyoptmat.Chunktime

variable {β β' : Type*}

private theorem flow_eq (n eta : ℝ → ℝ) (s : ℝ) (h : Fin 0 → ℝ) (t T e : ℝ) (heta : 0 < eta T) :
    (perfect n eta).flow s h t T e = overflow (n T) (eta T) (s, 0) := by
  simp only [perfect, overflow, sub_zero]
  rw [macaulay_eq, max_eq_left (div_nonneg (abs_nonneg _) heta.le)]

private theorem overflow_sign {n eta u : ℝ} (hn : 0 < n) (heta : 0 < eta) :
    (0 ≤ u → 0 ≤ overflow n eta (u, 0)) ∧ (u ≤ 0 → overflow n eta (u, 0) ≤ 0) := by
  have h0 : overflow n eta (0, 0) = 0 := overflow_of_le hn heta (by simp)
  exact ⟨fun h => h0.ge.trans (overflow_mono hn heta h), fun h => (overflow_mono hn heta h).trans h0.le⟩

/-- a larger drag stress lowers the flow in tension -/
private theorem overflow_anti {n eta eta' u : ℝ} (hn : 0 < n) (heta : 0 < eta) (h : eta ≤ eta') (hu : 0 ≤ u) :
    overflow n eta' (u, 0) ≤ overflow n eta (u, 0) := by
  have heta' := heta.trans_le h
  rcases hu.eq_or_lt with rfl | hu
  · rw [overflow_of_le hn heta (by simp), overflow_of_le hn heta' (by simp)]
  · rw [overflow_of_gt heta le_rfl hu, overflow_of_gt heta' le_rfl hu]
    refine Real.rpow_le_rpow (by rw [sub_zero]; positivity) ?_ hn.le
    rw [sub_zero]
    gcongr

/-- One step of a strain controlled run, up to `δ`. -/
private theorem perfect_step (c : Config) (hs : c.scheme = .backwardEuler) (hm : 0 ≤ c.miter) (model : β → Model (0 + 1)) (nt : ℕ)
    (times strains temps : ℕ → β → ℝ) (blk : ℤ) (hb : 0 < blk) (res : Partial β (0 + 1))
    (h : solveStrain c model nt times strains temps blk = .ok (res, false)) (b : β)
    (E n eta : ℝ → ℝ) (hmod : model b = inelastic E (perfect n eta))
    (hg : StrictGrid (nt - 1) fun k => times k b) (hp : ∀ k, k < nt → 0 < eta (temps k b)) (δ : ℝ)
    (hδ : ToleranceBound c (strainFunc model nt times strains temps) nt times res.get b δ) :
    res.get 0 b 0 = 0 ∧ ∀ k, k + 1 < nt →
      |res.get (k + 1) b 0 - res.get k b 0 - E (temps (k + 1) b) * ((strains (k + 1) b - strains k b) -
        (times (k + 1) b - times k b) * overflow (n (temps (k + 1) b)) (eta (temps (k + 1) b)) (res.get (k + 1) b 0, 0))| ≤ δ := by
  constructor
  · obtain ⟨-, f2⟩ := C14_every_time_filled c _ 0 nt times blk hb res false h
    unfold Partial.get
    rw [f2]
    rfl
  · intro k hk
    have h1 := step_defect_le c hm _ 0 nt times blk hb res h b (fun k hk => (hg k (by omega)).le) hδ k hk
    rw [hs] at h1
    have h2 := (abs_le_l2 _ 0).trans h1
    have e := dataFn_grid hg (fun k => temps k b) hk (by omega)
    have er := rateFn_grid hg (fun k => strains k b) hk
    simp only [defect, backwardDefect, rate, strainFunc, hmod, inelastic, Pi.sub_apply, Pi.smul_apply, smul_eq_mul, Fin.cons_zero, e] at h2
    rw [flow_eq n eta _ _ _ _ _ (hp _ hk)] at h2
    refine le_of_eq_of_le ?_ h2
    congr 1
    rw [← er]
    ring

/-- **C122.** Two strain controlled tests of perfect viscoplasticity with the same times and temperatures. If in every step the second is strained at least as
much as the first, and its material has the same drag stress, or a larger one and the first test is never unloaded, its stress is at least that of the first at
every time, up to what the tolerances permit. The tests may be in different batches, with other materials, and solved with different options. -/
theorem C122_more_strain_more_stress (c c' : Config) (hs : c.scheme = .backwardEuler) (hs' : c'.scheme = .backwardEuler) (hm : 0 ≤ c.miter)
    (hm' : 0 ≤ c'.miter) (model : β → Model (0 + 1)) (model' : β' → Model (0 + 1)) (nt : ℕ) (times strains temps : ℕ → β → ℝ) (times' strains' temps' : ℕ → β' → ℝ) (blk blk' : ℤ)
    (hb : 0 < blk) (hb' : 0 < blk') (res : Partial β (0 + 1)) (res' : Partial β' (0 + 1))
    (h : solveStrain c model nt times strains temps blk = .ok (res, false))
    (h' : solveStrain c' model' nt times' strains' temps' blk' = .ok (res', false)) (b : β) (b' : β') (E n eta eta' : ℝ → ℝ)
    (hmod : model b = inelastic E (perfect n eta)) (hmod' : model' b' = inelastic E (perfect n eta'))
    (hsame : ∀ k, k < nt → times' k b' = times k b ∧ temps' k b' = temps k b) (hg : StrictGrid (nt - 1) fun k => times k b)
    (hp : ∀ k, k < nt → 0 ≤ E (temps k b) ∧ 0 < n (temps k b) ∧ 0 < eta (temps k b))
    (hmore : ∀ k, k + 1 < nt → strains (k + 1) b - strains k b ≤ strains' (k + 1) b' - strains' k b')
    (heta : (∀ k, k < nt → eta' (temps k b) = eta (temps k b)) ∨
      ((∀ k, k < nt → eta (temps k b) ≤ eta' (temps k b)) ∧ ∀ k, k + 1 < nt → strains k b ≤ strains (k + 1) b)) (δ δ' : ℝ)
    (hδ : ToleranceBound c (strainFunc model nt times strains temps) nt times res.get b δ)
    (hδ' : ToleranceBound c' (strainFunc model' nt times' strains' temps') nt times' res'.get b' δ') (k : ℕ) (hk : k < nt) :
    res.get k b 0 ≤ res'.get k b' 0 + k * (δ + δ') := by
  have hle : ∀ k, k < nt → eta (temps k b) ≤ eta' (temps k b) := fun k hk => by
    rcases heta with q | ⟨q, -⟩
    · exact (q k hk).ge
    · exact q k hk
  have hg' : StrictGrid (nt - 1) fun k => times' k b' := fun k hk => by
    dsimp only
    rw [(hsame k (by omega)).1, (hsame (k + 1) (by omega)).1]
    exact hg k hk
  obtain ⟨z, st⟩ := perfect_step c hs hm model nt times strains temps blk hb res h b E n eta hmod hg (fun k hk => (hp k hk).2.2) δ hδ
  obtain ⟨z', st'⟩ := perfect_step c' hs' hm' model' nt times' strains' temps' blk' hb' res' h' b' E n eta' hmod' hg'
    (fun k hk => by rw [(hsame k hk).2]; exact (hp k hk).2.2.trans_le (hle k hk)) δ' hδ'
  have d0 := hδ.1
  have d0' := hδ'.1
  have main : ∀ k, k < nt → res.get k b 0 ≤ res'.get k b' 0 + k * (δ + δ') ∧
      ((∀ k, k + 1 < nt → strains k b ≤ strains (k + 1) b) → -(k * δ') ≤ res'.get k b' 0) := by
    intro k
    induction k with
    | zero => intro _; rw [z, z']; simp
    | succ k ih =>
      intro hk
      obtain ⟨i1, i2⟩ := ih (by omega)
      have a := abs_le.1 (st k hk)
      have a' := abs_le.1 (st' k hk)
      rw [(hsame (k + 1) hk).2, (hsame (k + 1) hk).1, (hsame k (by omega)).1] at a'
      obtain ⟨hE, hn, h0⟩ := hp (k + 1) hk
      have hl := hle (k + 1) hk
      have hm1 := mul_le_mul_of_nonneg_left (hmore k hk) hE
      have hdt : 0 ≤ times (k + 1) b - times k b := (sub_pos.2 (hg k (by omega))).le
      have hEdt := mul_nonneg hE hdt
      have second : (∀ k, k + 1 < nt → strains k b ≤ strains (k + 1) b) → -(((k + 1 : ℕ) : ℝ) * δ') ≤ res'.get (k + 1) b' 0 := by
        intro hload
        by_contra hc
        push Not at hc
        have hneg : res'.get (k + 1) b' 0 ≤ 0 := hc.le.trans (by simp; positivity)
        have f0 := (overflow_sign (u := res'.get (k + 1) b' 0) hn (h0.trans_le hl)).2 hneg
        have f1 := mul_nonneg hEdt (neg_nonneg.2 f0)
        have f2 := mul_nonneg hE (sub_nonneg.2 (hload k hk))
        have := i2 hload
        push_cast at hc
        nlinarith [a'.1]
      refine ⟨?_, second⟩
      by_contra hc
      push Not at hc
      push_cast at hc
      have hlt : res'.get (k + 1) b' 0 ≤ res.get (k + 1) b 0 := by nlinarith [mul_nonneg (Nat.cast_nonneg (α := ℝ) k) (add_nonneg d0 d0')]
      have fl : overflow (n (temps (k + 1) b)) (eta' (temps (k + 1) b)) (res'.get (k + 1) b' 0, 0) ≤
          overflow (n (temps (k + 1) b)) (eta (temps (k + 1) b)) (res.get (k + 1) b 0, 0) := by
        rcases heta with q | ⟨-, q⟩
        · rw [q (k + 1) hk]
          exact overflow_mono hn h0 hlt
        · rcases le_total 0 (res.get (k + 1) b 0) with s | s
          · rcases le_total 0 (res'.get (k + 1) b' 0) with s' | s'
            · exact (overflow_anti hn h0 hl s').trans (overflow_mono hn h0 hlt)
            · exact ((overflow_sign hn (h0.trans_le hl)).2 s').trans ((overflow_sign hn h0).1 s)
          · exfalso
            have := second q
            push_cast at this
            nlinarith [mul_nonneg (Nat.cast_nonneg (α := ℝ) k) d0]
      have f1 := mul_nonneg hEdt (sub_nonneg.2 fl)
      nlinarith [a.2, a'.1]
  exact (main k hk).1

/-- **C122.** Two stress controlled tests of perfect viscoplasticity starting from the same stress, with the same times, temperatures and (constant) modulus
`E0`. If the stress of the second is at all times at least that of the first, and its drag stress is the same, or smaller and the first test is in tension, it
creeps at least as much, up to the tolerance `1e-10` of the strain rate solve. -/
theorem C122_more_stress_more_creep (c c' : Config) (hs : c.scheme = .backwardEuler) (hs' : c'.scheme = .backwardEuler) (hm : 0 ≤ c.miter)
    (hm' : 0 ≤ c'.miter) (hr : c.rtol = 0) (ha : c.atol = 0) (hr' : c'.rtol = 0) (ha' : c'.atol = 0) (model : β → Model (0 + 1)) (model' : β' → Model (0 + 1)) (nt : ℕ)
    (times stresses temps : ℕ → β → ℝ) (times' stresses' temps' : ℕ → β' → ℝ) (blk blk' : ℤ) (hb : 0 < blk) (hb' : 0 < blk')
    (hg : ∀ b, StrictGrid (nt - 1) fun k => times k b) (hg' : ∀ b, StrictGrid (nt - 1) fun k => times' k b)
    (res : Partial β (0 + 1)) (res' : Partial β' (0 + 1)) (E n eta eta' : ℝ → ℝ) (E0 : ℝ) (hE0 : 0 < E0)
    (h : solveStress c model nt times stresses temps blk = .ok (res, false))
    (h' : solveStress c' model' nt times' stresses' temps' blk' = .ok (res', false)) (b : β) (b' : β')
    (hmod : model b = inelastic E (perfect n eta)) (hmod' : model' b' = inelastic E (perfect n eta')) (hE : ∀ k, k < nt → E (temps k b) = E0)
    (hsame : ∀ k, k < nt → times' k b' = times k b ∧ temps' k b' = temps k b) (hstart : stresses' 0 b' = stresses 0 b)
    (hp : ∀ k, k < nt → 0 < n (temps k b) ∧ 0 < eta (temps k b) ∧ 0 < eta' (temps k b))
    (hmore : ∀ k, k < nt → stresses k b ≤ stresses' k b')
    (heta : (∀ k, k < nt → eta' (temps k b) = eta (temps k b)) ∨
      ((∀ k, k < nt → eta' (temps k b) ≤ eta (temps k b)) ∧ ∀ k, k < nt → 0 ≤ stresses k b)) (k : ℕ) (hk : k < nt) :
    res.get k b 0 ≤ res'.get k b' 0 + 2 * (times k b - times 0 b) * (1e-10 / E0) := by
  have hE' : ∀ k, k < nt → E (temps' k b') = E0 := fun k hk => by rw [(hsame k hk).2]; exact hE k hk
  have z := (C14_every_time_filled c _ 0 nt times blk hb res false h).2
  have z' := (C14_every_time_filled c' _ 0 nt times' blk' hb' res' false h').2
  have g0 : res.get 0 b 0 = 0 := by unfold Partial.get; rw [z]; rfl
  have g0' : res'.get 0 b' 0 = 0 := by unfold Partial.get; rw [z']; rfl
  have fl : ∀ k, k < nt → overflow (n (temps k b)) (eta (temps k b)) (stresses k b, 0) ≤ overflow (n (temps k b)) (eta' (temps k b)) (stresses' k b', 0) := by
    intro k hk
    obtain ⟨hn, h0, h0'⟩ := hp k hk
    rcases heta with q | ⟨q, q'⟩
    · rw [q k hk]; exact overflow_mono hn h0 (hmore k hk)
    · exact (overflow_anti hn h0' (q k hk) (q' k hk)).trans (overflow_mono hn h0' (hmore k hk))
  have main : ∀ k, k < nt → res.get k b 0 - stresses k b / E0 ≤ res'.get k b' 0 - stresses' k b' / E0 + 2 * (times k b - times 0 b) * (1e-10 / E0) := by
    intro k
    induction k with
    | zero => intro _; rw [g0, g0', hstart]; simp
    | succ k ih =>
      intro hk
      have i1 := ih (by omega)
      obtain ⟨a, -⟩ := C78_inelastic_steps c hs hm hr ha model nt times stresses temps blk hb hg res h b E (perfect n eta) hmod
        (fun k hk => by rw [hE k hk]; exact hE0.ne') (fun _ _ _ _ _ => rfl) (fun _ _ _ _ _ => rfl) k hk
      obtain ⟨a', -⟩ := C78_inelastic_steps c' hs' hm' hr' ha' model' nt times' stresses' temps' blk' hb' hg' res' h' b' E (perfect n eta') hmod'
        (fun k hk => by rw [hE' k hk]; exact hE0.ne') (fun _ _ _ _ _ => rfl) (fun _ _ _ _ _ => rfl) k hk
      rw [hE (k + 1) hk, flow_eq n eta _ _ _ _ _ (hp _ hk).2.1, abs_of_pos hE0] at a
      rw [hE' (k + 1) hk, (hsame (k + 1) hk).1, (hsame k (by omega)).1, (hsame (k + 1) hk).2, flow_eq n eta' _ _ _ _ _ (hp _ hk).2.2, abs_of_pos hE0] at a'
      have f := mul_nonneg (sub_pos.2 (hg b k (by omega))).le (sub_nonneg.2 (fl (k + 1) hk))
      have e1 : (stresses (k + 1) b - stresses k b) / E0 = stresses (k + 1) b / E0 - stresses k b / E0 := sub_div _ _ _
      have e2 : (stresses' (k + 1) b' - stresses' k b') / E0 = stresses' (k + 1) b' / E0 - stresses' k b' / E0 := sub_div _ _ _
      rw [e1] at a
      rw [e2] at a'
      have a := abs_le.1 a
      have a' := abs_le.1 a'
      have e3 : 2 * (times (k + 1) b - times 0 b) * (1e-10 / E0) = 2 * (times k b - times 0 b) * (1e-10 / E0) +
        2 * ((times (k + 1) b - times k b) * (1e-10 / E0)) := by ring
      rw [e3]
      linarith [a.2, a'.1]
  have := main k hk
  have q := div_le_div_of_nonneg_right (hmore k hk) hE0.le
  linarith

/-- a cubic creep law pulled at the rate `a` in two unit steps -/
theorem norton_witness (eta a N : ℝ) (h1 : 1 ≤ eta) (ha : 0 ≤ a) (ha2 : a ≤ 2) (hN : 3 ≤ N) :
    NortonTests (fun _ _ => 1) (fun _ _ => 3) (fun _ _ => eta) 3 (fun k (_ : Unit) => (k : ℝ)) (fun k _ => a * k) (fun _ _ => 300) 1 (fun _ => 1) N 4 48 1 where
  grid := by intro b k hk; push_cast; linarith
  sign := fun _ => Or.inl rfl
  mono := by intro b k _; push_cast; linarith
  pars := by intro b k _ _; exact ⟨by norm_num, by norm_num, hN, by linarith⟩
  one_le := by linarith
  elastic := by
    intro b
    norm_num [Finset.sum_range_succ]
    rw [abs_of_nonneg ha, abs_of_nonneg (by linarith)]
    linarith
  slope := by
    refine ⟨by norm_num, fun b k _ _ => ?_⟩
    have hq : (4 / eta) ^ (2 : ℝ) ≤ 16 := by
      have h4 : (4 / eta) ≤ 4 := div_le_self (by norm_num) h1
      have h0 : 0 ≤ 4 / eta := by positivity
      rw [Real.rpow_two]
      nlinarith
    have e : (3 : ℝ) - 1 = 2 := by norm_num
    rw [e, one_mul, div_le_iff₀ (by linarith)]
    nlinarith
  block := by
    intro b i j _ _ hj
    have : (j : ℝ) ≤ i + 1 := by exact_mod_cast hj
    linarith

/-- Non-vacuity of C122: two runs (of cubic creep laws with drag stresses 1 and 2, pulled at the rates 1 and 2) that meet its hypotheses exist, with the
tolerance `1/100` and a sufficient number of iterations. -/
example : ∃ (c : Config) (res res' : Partial Unit (0 + 1)),
    solveStrain c (fun _ => inelastic (fun _ => 1) (perfect (fun _ => 3) (fun _ => 1))) 3 (fun k (_ : Unit) => (k : ℝ)) (fun k _ => 1 * k) (fun _ _ => 300) 1 =
      .ok (res, false) ∧
    solveStrain c (fun _ => inelastic (fun _ => 1) (perfect (fun _ => 3) (fun _ => 2))) 3 (fun k (_ : Unit) => (k : ℝ)) (fun k _ => 2 * k) (fun _ _ => 300) 1 =
      .ok (res', false) ∧
    ∀ k < 3, res.get k () 0 ≤ res'.get k () 0 + k * (1 / 100 + 1 / 100) := by
  obtain ⟨l1, h1⟩ := C100_limit_exists _ _ _ 3 (by norm_num) _ _ _ 1 (by norm_num) _ _ _ _ _ (norton_witness 1 1 3 (by norm_num) (by norm_num) (by norm_num) le_rfl)
    (1 / 100) (by norm_num)
  obtain ⟨l2, h2⟩ := C100_limit_exists _ _ _ 3 (by norm_num) _ _ _ 1 (by norm_num) _ _ _ _ _ (norton_witness 2 2 3 (by norm_num) (by norm_num) (by norm_num) le_rfl)
    (1 / 100) (by norm_num)
  let c : Config := { scheme := .backwardEuler, method := .direct .thomas, rtol := 0, atol := 1 / 100, miter := max 0 (max l1 l2), throwOnFail := true,
                      guessType := "zero" }
  obtain ⟨res, r1⟩ := h1 c rfl rfl rfl ((le_max_left _ _).trans (le_max_right _ _))
  obtain ⟨res', r2⟩ := h2 c rfl rfl rfl ((le_max_right _ _).trans (le_max_right _ _))
  refine ⟨c, res, res', r1, r2, fun k hk => ?_⟩
  refine C122_more_strain_more_stress c c rfl rfl (le_max_left _ _) (le_max_left _ _) _ _ 3 _ _ _ _ _ _ 1 1
    (by norm_num) (by norm_num) res res' r1 r2 () () (fun _ => 1) (fun _ => 3) (fun _ => 1) (fun _ => 2) rfl rfl (fun _ _ => ⟨rfl, rfl⟩) (by intro k hk; push_cast; linarith) (fun _ _ => by norm_num)
    (fun k _ => by push_cast; linarith) (Or.inr ⟨fun _ _ => by norm_num, fun k _ => by push_cast; linarith⟩) (1 / 100) (1 / 100)
    ⟨by norm_num, le_rfl, Or.inl rfl⟩ ⟨by norm_num, le_rfl, Or.inl rfl⟩ k hk

/-- Non-vacuity of C122 (creep): the stresses 10 and 20, applied in the first step; both runs exist with zero tolerances. -/
example : ∃ (c : Config) (res res' : Partial Unit (0 + 1)),
    solveStress c (fun _ => inelastic (fun _ => 100) (perfect (fun _ => 3) (fun _ => 5))) 4 (fun k (_ : Unit) => (k : ℝ)) (fun k _ => if k = 0 then 0 else 10)
      (fun _ _ => 300) 2 = .ok (res, false) ∧
    solveStress c (fun _ => inelastic (fun _ => 100) (perfect (fun _ => 3) (fun _ => 5))) 4 (fun k (_ : Unit) => (k : ℝ)) (fun k _ => if k = 0 then 0 else 20)
      (fun _ _ => 300) 2 = .ok (res', false) ∧
    ∀ k < 4, res.get k () 0 ≤ res'.get k () 0 + 2 * ((k : ℝ) - (0 : ℕ)) * (1e-10 / 100) := by
  let c : Config := { scheme := .backwardEuler, method := .direct .thomas, rtol := 0, atol := 0, miter := 2, throwOnFail := true, guessType := "zero" }
  obtain ⟨res, r1⟩ := C78_creep_always_solved (β := Unit) c rfl rfl (by norm_num [c]) (fun _ => inelastic (fun _ => 100) (perfect (fun _ => 3) (fun _ => 5))) 4 (by norm_num)
    (fun k _ => (k : ℝ)) (fun k _ => if k = 0 then 0 else 10) (fun _ _ => 300) 2 (by norm_num) (Or.inl rfl)
  obtain ⟨res', r2⟩ := C78_creep_always_solved (β := Unit) c rfl rfl (by norm_num [c]) (fun _ => inelastic (fun _ => 100) (perfect (fun _ => 3) (fun _ => 5))) 4 (by norm_num)
    (fun k _ => (k : ℝ)) (fun k _ => if k = 0 then 0 else 20) (fun _ _ => 300) 2 (by norm_num) (Or.inl rfl)
  refine ⟨c, res, res', r1, r2, fun k hk => ?_⟩
  have grid : ∀ b : Unit, StrictGrid (4 - 1) fun k => (fun (k : ℕ) (_ : Unit) => (k : ℝ)) k b := by intro b k hk; push_cast; linarith
  exact C122_more_stress_more_creep c c rfl rfl (by norm_num [c]) (by norm_num [c]) rfl rfl rfl rfl _ _ 4
    _ _ _ _ _ _ 2 2 (by norm_num) (by norm_num) grid grid res res' (fun _ => 100) (fun _ => 3) (fun _ => 5) (fun _ => 5) 100 (by norm_num) r1 r2 () () rfl rfl (fun _ _ => rfl) (fun _ _ => ⟨rfl, rfl⟩)
    (by simp) (fun _ _ => by norm_num) (fun k _ => by split_ifs <;> norm_num) (Or.inl fun _ _ => rfl) k hk

end Pyoptmat.Props
