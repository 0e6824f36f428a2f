import Verif.Proofs.Traj
import Verif.Props.Mixed

/-!
# Property C72, continued: elastic tests are always solved
-/

namespace Pyoptmat.Props

open Pyoptmat.Control Pyoptmat.Material Pyoptmat.Newton Pyoptmat.Spec Pyoptmat.Ode

variable {β β' : Type*} {nk : ℕ}

/-- in an elastic state nothing flows, and all reported derivatives vanish -/
theorem elastic_flat (E n eta s0 R d : ℝ → ℝ) (C g : Fin nk → ℝ → ℝ) (t e T : ℝ) (hn : 1 < n T) (heta : 0 < eta T) (y : Fin (1 + nk + 1) → ℝ)
    (h0 : |y 0| ≤ s0 T) (hj : ∀ j, j ≠ 0 → y j = 0) :
    (inelastic E (isoKin n eta s0 (voce R d) (chaboche C g)) t y e T).ydot = Fin.cons (E T * e) 0 ∧
    (inelastic E (isoKin n eta s0 (voce R d) (chaboche C g)) t y e T).J = 0 := by
  have hh : (fun j : Fin (1 + nk) => y j.succ) = 0 := by funext j; exact hj _ (Fin.succ_ne_zero j)
  have hv : (voce R d).value (isoPart (0 : Fin (1 + nk) → ℝ)) = 0 := by simp [voce, isoPart]
  have hk : (chaboche C g).value (kinPart (0 : Fin (1 + nk) → ℝ)) = 0 := by simp [chaboche, kinPart]
  have hz : isoKinFlow n eta s0 (voce R d) (chaboche C g) (y 0) 0 T = 0 := by
    rw [isoKinFlow_eq, hv, hk]
    exact overflow_of_le (by linarith) heta (by simpa using h0)
  obtain ⟨z1, z2, z3⟩ := isoKin_zero n eta s0 (voce R d) (chaboche C g) (y 0) 0 T heta
    (by rw [hv, add_zero]; exact (abs_nonneg _).trans h0) (Or.inl hn) hz
  constructor
  · simp only [inelastic, isoKin, hh, hz, sub_zero]
    funext i
    refine Fin.cases rfl (fun i => ?_) i
    simp only [Fin.cons_succ]
    refine Fin.addCases (fun j => ?_) (fun j => ?_) i <;> simp [voce, chaboche]
  · simp only [inelastic, isoKin, hh, hz, z1, z2, z3, zero_mul, mul_zero, add_zero]
    funext i j
    refine Fin.cases ?_ (fun i => ?_) i
    · refine Fin.cases ?_ (fun j => ?_) j
      · simp
      · simp only [Fin.cons_zero, Fin.cons_succ]
        refine Fin.addCases (fun j => ?_) (fun j => ?_) j <;> simp
    · refine Fin.cases ?_ (fun j => ?_) j
      · simp only [Fin.cons_zero, Fin.cons_succ]
        refine Fin.addCases (fun i => ?_) (fun i => ?_) i <;> simp [voce, chaboche]
      · simp only [Fin.cons_succ]
        refine Fin.addCases (fun i => ?_) (fun i => ?_) i <;> refine Fin.addCases (fun j => ?_) (fun j => ?_) j <;> simp [voce, chaboche]

/-- **C72.** Elastic tests are always solved: each test may have its own parameters; if the elastically computed stress `S_k = Σ E(T_j) Δε_j` of each test stays within the smallest initial yield stress of its temperature history, `solve_strain`
(backward Euler, zero guess, at least two Newton updates allowed) succeeds without a warning even with zero tolerances, for every block size and linear solver, and returns
`S_k` with all hardening variables zero. -/
theorem C72_elastic_always_solved (c : Config) (hs : c.scheme = .backwardEuler) (hr : c.rtol = 0) (ha : c.atol = 0) (hm : 2 ≤ c.miter) (hg : c.guessType = "zero")
    (E n eta s0 R d : β → ℝ → ℝ) (C g : β → Fin nk → ℝ → ℝ) (nt : ℕ) (hnt : 1 < nt) (times strains temps : ℕ → β → ℝ) (hgr : ∀ b, StrictGrid (nt - 1) fun k => times k b)
    (hn : ∀ k b, k < nt → 1 < n b (temps k b) ∧ 0 < eta b (temps k b)) (blk : ℤ) (hb : 0 < blk) (S : ℕ → β → ℝ)
    (hS : ∀ k b, S k b = ∑ j ∈ Finset.range k, E b (temps (j + 1) b) * (strains (j + 1) b - strains j b))
    (hel : ∀ j k b, j < nt → k < nt → |S j b| ≤ s0 b (temps k b)) :
    ∃ res, solveStrain c (fun b => inelastic (E b) (isoKin (n b) (eta b) (s0 b) (voce (R b) (d b)) (chaboche (C b) (g b)))) nt times strains temps blk = .ok (res, false) ∧
      ∀ k b, k < nt → res.get k b 0 = S k b ∧ ∀ j, j ≠ 0 → res.get k b j = 0 := by
  obtain ⟨res, h1, h2⟩ := integrate_flat c hs hr ha hm hg
    (strainFunc (fun b => inelastic (E b) (isoKin (n b) (eta b) (s0 b) (voce (R b) (d b)) (chaboche (C b) (g b)))) nt times strains temps) nt (by omega) blk hb times
    (fun b => {y | (∀ k, k < nt → |y 0| ≤ s0 b (temps k b)) ∧ ∀ j, j ≠ 0 → y j = 0})
    (fun k b => Fin.cons (E b (temps k b) * rateFn nt (fun k => times k b) (fun k => strains k b) (times k b)) 0)
    (by
      intro k b y hk hy
      obtain ⟨e1, e2⟩ := elastic_flat (E b) (n b) (eta b) (s0 b) (R b) (d b) (C b) (g b) (times k b) (rateFn nt (fun k => times k b) (fun k => strains k b) (times k b)) (temps k b)
        (hn k b hk).1 (hn k b hk).2 y (hy.1 k hk) hy.2
      unfold strainFunc
      rw [dataFn_grid (hgr b) (fun k => temps k b) hk hnt]
      exact Prod.ext e1 e2)
    (fun k b => Fin.cons (S k b) 0)
    (by
      intro k b hk
      refine ⟨fun i hi => by simpa using hel k i b hk hi, fun j hj => ?_⟩
      obtain ⟨j, rfl⟩ := Fin.exists_succ_eq.2 hj
      simp)
    (by
      intro k b hk
      funext i
      refine Fin.cases ?_ (fun i => ?_) i
      · simp only [Fin.cons_zero, Pi.add_apply, Pi.smul_apply, smul_eq_mul]
        rw [hS, hS, Finset.sum_range_succ]
        have := rateFn_grid (hgr b) (fun k => strains k b) hk
        beta_reduce at this
        rw [← this]
        ring
      · simp)
  refine ⟨res, ?_, fun k b hk => ?_⟩
  · unfold solveStrain
    have h0 : (0 : β → Fin (1 + nk + 1) → ℝ) = fun b => Fin.cons (S 0 b) 0 := by
      funext b i
      refine Fin.cases ?_ (fun i => ?_) i
      · simp [hS]
      · simp
    rw [h0]; exact h1
  · rw [h2 k hk]
    refine ⟨rfl, fun j hj => ?_⟩
    obtain ⟨j, rfl⟩ := Fin.exists_succ_eq.2 hj
    rfl

/-- A material with one backstress and two tests, used as a witness: `E = 100`, `s0 = 10`, strains `± k/100`. -/
private theorem witness (c : Config) (hs : c.scheme = .backwardEuler) (hr : c.rtol = 0) (ha : c.atol = 0) (hm : 2 ≤ c.miter) (hg : c.guessType = "zero") (blk : ℤ) (hb : 0 < blk) (sg : β → ℝ)
    (hsg : ∀ b, |sg b| ≤ 1) :
    ∃ res, solveStrain c (fun _ : β => inelastic (fun _ => 100) (isoKin (fun _ => 5) (fun _ => 300) (fun _ => 10) (voce (fun _ => 100) (fun _ => 10))
        (chaboche (nback := 1) (fun _ _ => 1000) (fun _ _ => 2)))) 5 (fun k _ => k) (fun k b => sg b * k / 100) (fun _ _ => 300) blk = .ok (res, false) ∧
      ∀ k b, k < 5 → res.get k b 0 = sg b * k := by
  obtain ⟨res, h1, h2⟩ := C72_elastic_always_solved c hs hr ha hm hg (fun _ _ => 100) (fun _ _ => 5) (fun _ _ => 300) (fun _ _ => 10) (fun _ _ => 100) (fun _ _ => 10)
    (fun _ (_ : Fin 1) _ => 1000) (fun _ _ _ => 2) 5 (by norm_num) (fun k (_ : β) => (k : ℝ)) (fun k b => sg b * k / 100) (fun _ _ => 300)
    (by intro b k hk; push_cast; linarith) (by intros; norm_num) blk hb (fun k b => sg b * k) (by
      intro k b
      induction k with
      | zero => simp
      | succ k ih => rw [Finset.sum_range_succ, ← ih]; push_cast; ring) (by
      intro j k b hj _
      rw [abs_mul, Nat.abs_cast]
      have : (j : ℝ) ≤ 4 := by exact_mod_cast Nat.lt_succ_iff.1 hj
      have := mul_le_mul (hsg b) this (by positivity) (by norm_num)
      linarith)
  exact ⟨res, h1, fun k b hk => (h2 k b hk).1⟩

/-- The hypotheses of C80 (and so of C74) can be met: the pulled test of a batch of two, integrated in blocks of two by Thomas' algorithm, and the same test alone, one step at a
time by PCR, reach the same nonzero stress. -/
example : ∃ res res',
    solveStrain (β := Bool) { scheme := .backwardEuler, method := .direct .thomas, rtol := 0, atol := 0, miter := 50, throwOnFail := true, guessType := "zero" }
      (fun _ => inelastic (fun _ => 100) (isoKin (fun _ => 5) (fun _ => 300) (fun _ => 10) (voce (fun _ => 100) (fun _ => 10))
        (chaboche (nback := 1) (fun _ _ => 1000) (fun _ _ => 2)))) 5 (fun k _ => k) (fun k b => (if b then 1 else -1) * k / 100) (fun _ _ => 300) 2 = .ok (res, false) ∧
    solveStrain (β := Unit) { scheme := .backwardEuler, method := .direct .pcr, rtol := 0, atol := 0, miter := 7, throwOnFail := false, guessType := "zero" }
      (fun _ => inelastic (fun _ => 100) (isoKin (fun _ => 5) (fun _ => 300) (fun _ => 10) (voce (fun _ => 100) (fun _ => 10))
        (chaboche (nback := 1) (fun _ _ => 1000) (fun _ _ => 2)))) 5 (fun k _ => k) (fun k _ => 1 * k / 100) (fun _ _ => 300) 1 = .ok (res', false) ∧
    (∀ k, k < 5 → res.get k true = res'.get k ()) ∧ res'.get 3 () 0 = 3 := by
  obtain ⟨res, h1, h2⟩ := witness (β := Bool) { scheme := .backwardEuler, method := .direct .thomas, rtol := 0, atol := 0, miter := 50, throwOnFail := true, guessType := "zero" }
    rfl rfl rfl (by norm_num) rfl 2 (by norm_num) (fun b => if b then 1 else -1) (by intro b; cases b <;> simp)
  obtain ⟨res', h1', h2'⟩ := witness (β := Unit) { scheme := .backwardEuler, method := .direct .pcr, rtol := 0, atol := 0, miter := 7, throwOnFail := false, guessType := "zero" }
    rfl rfl rfl (by norm_num) rfl 1 (by norm_num) (fun _ => 1) (by intro b; simp)
  refine ⟨res, res', h1, h1', ?_, by rw [h2' 3 () (by norm_num)]; norm_num⟩
  refine C80_voce_chaboche_tests (fun _ => 100) (fun _ => 5) (fun _ => 300) (fun _ => 10) (fun _ => 100) (fun _ => 10) (fun (_ : Fin 1) _ => 1000) (fun _ _ => 2) 100 (fun _ => 500)
    (by norm_num) (by intro; norm_num) _ _ rfl rfl (by norm_num) (by norm_num) rfl rfl rfl rfl 5 _ _ _ _ _ _ (fun _ => 0) 2 1 (by norm_num) (by norm_num) _ _ ?_ ?_ res res' h1 true () rfl rfl
    (Or.inl h1') ?_ ?_
  · intro b k hk; push_cast; linarith
  · intro b k hk; push_cast; linarith
  · intro k hk; simp
  · intro k hk
    refine ⟨⟨?_, ?_, ?_, ?_, ?_, ?_, fun i => ?_, fun i => ?_⟩, rfl, fun i => ?_⟩ <;> norm_num

end Pyoptmat.Props
