import Verif.Proofs.Traj
import Verif.Proofs.Control

/-!
# C119: stress controlled tests slower than the absolute tolerance of the strain rate solve
-/

namespace Pyoptmat.Props

open Pyoptmat.Chunktime Pyoptmat.Ode Pyoptmat.Material Pyoptmat.Control Pyoptmat.Spec Pyoptmat.Newton Pyoptmat.Solvers

variable {β : Type*} {m : ℕ}

/-- A right hand side that reports zero rates at the zero state is integrated to zero from the zero state. -/
theorem integrate_zero (c : Config) (f : BFunc β m) (nt : ℕ) (hnt : 0 < nt) (n : ℤ) (hn : 0 < n) (t : ℕ → β → ℝ) (hg : c.guessType = "zero")
    (hm : 0 < c.miter)
    (hf : ∀ (k N : ℕ), k + N < nt → (f (N + 1) (fun i => t (k + i.val)) 0).1 = 0) :
    ∃ res, integrate c f 0 nt t n = .ok (res, false) ∧ ∀ j < nt, res.get j = 0 := by
  refine integrate_traj c f nt hnt n hn t hg (fun _ => 0) fun k hk hk' => ⟨0, ?_⟩
  set N := sliceLen nt k n.toNat with hN
  have hts : (stack (t (k - 1)) fun j : Fin N => t (k + j.val)) = fun i : Fin (N + 1) => t (k - 1 + i.val) := by
    funext i
    refine Fin.cases rfl (fun i => ?_) i
    change t (k + i.val) = t (k - 1 + (i.val + 1))
    congr 1
    omega
  have hy : (fun i : Fin (N + 1) => (stack 0 (unflatten (0 : β → Fin (N * m) → ℝ)) : Fin (N + 1) → BVec β m ℝ) i + 0) = 0 := by
    funext i
    refine Fin.cases ?_ (fun i => ?_) i
    · exact add_zero _
    · exact add_zero _
  have hst : (stack 0 (unflatten (0 : β → Fin (N * m) → ℝ)) : Fin (N + 1) → BVec β m ℝ) = 0 := by
    funext i
    refine Fin.cases rfl (fun i => rfl) i
  have h0 : (f (N + 1) (fun i : Fin (N + 1) => t (k - 1 + i.val)) 0).1 = 0 := hf (k - 1) N (by unfold sliceLen at hN; omega)
  have hR : (blockRJ c.scheme f (fun j : Fin N => t (k + j.val)) (t (k - 1)) 0 0).1 = 0 := by
    unfold blockRJ
    simp only [hts, hst, Pi.zero_apply, add_zero]
    have h0' : (f (N + 1) (fun i : Fin (N + 1) => t (k - 1 + i.val)) fun _ => 0).1 = 0 := h0
    cases c.scheme <;> simp only [formOperators, h0', Pi.zero_apply, smul_zero, sub_zero] <;> rfl
  have hl : ∀ fuel, loop (blockRJ c.scheme f (fun j : Fin N => t (k + j.val)) (t (k - 1)) 0) (fun J R => solve c.method J R) (fun x dx => x - dx)
      (fun R b => some (rowNorm (R b))) c.rtol c.atol
      (fun b => some (rowNorm ((blockRJ c.scheme f (fun j : Fin N => t (k + j.val)) (t (k - 1)) 0 0).1 b))) fuel 0 = (0, 0) := by
    intro fuel
    cases fuel with
    | zero => rfl
    | succ fuel =>
      unfold loop
      rw [if_neg]
      rintro ⟨-, b, hb⟩
      unfold gtRtol at hb
      simp only [hR, Pi.zero_apply, rowNorm] at hb
      simp at hb
  unfold blockNewton newtonChunk
  simp only [hl]
  rw [if_neg (by push_cast; omega)]
  refine ⟨rfl, rfl, fun j => ?_⟩
  funext b i
  simp [unflatten]

/-- `solve_stress` works with an absolute tolerance of `1e-10` (in the user's units of stress per time) for the stress rate: if at every time of every
test the imposed stress rate differs by at most that from the stress rate the material would show if it were not strained at all, and the internal
variables are at rest, then the strains and internal variables returned are exactly zero, without a warning, however long the tests last and
however large the stresses are. -/
theorem C119_slow_tests_vanish (c : Config) (hg : c.guessType = "zero") (hm : 0 < c.miter) (model : β → Model (m + 1)) (nt : ℕ) (hnt : 0 < nt)
    (times stresses temps : ℕ → β → ℝ) (hgrid : ∀ b, StrictGrid (nt - 1) fun k => times k b) (n : ℤ) (hn : 0 < n)
    (hslow : ∀ k < nt, ∀ b, |(model b (times k b) (imposed (stresses k b) 0) 0 (temps k b)).ydot 0 -
      (if k = 0 then 0 else (stresses k b - stresses (k - 1) b) / (times k b - times (k - 1) b))| ≤ 1e-10)
    (hrest : ∀ k < nt, ∀ b, ∀ i, i ≠ 0 → (model b (times k b) (imposed (stresses k b) 0) 0 (temps k b)).ydot i = 0) :
    ∃ res, solveStress c model nt times stresses temps n = .ok (res, false) ∧ ∀ j < nt, res.get j = 0 := by
  by_cases h1 : nt = 1
  · subst h1
    refine ⟨fun j => if j = 0 then some 0 else none, ?_, fun j hj => ?_⟩
    · unfold solveStress integrate
      rw [if_neg (by omega)]
      unfold blockStarts
      rw [if_neg (by omega), if_neg (by omega), show (1 - 1 + (n.toNat - 1)) / n.toNat = 0 from Nat.div_eq_of_lt (by omega)]
      rfl
    · obtain rfl : j = 0 := by omega
      rfl
  refine integrate_zero c _ nt hnt n hn times hg hm fun k N hk => ?_
  have hcs : ∀ (data : ℕ → β → ℝ) (i : Fin (N + 1)) (b : β), dataFn nt (fun k => times k b) (fun k => data k b) (times (k + i.val) b) = data (k + i.val) b :=
    fun data i b => dataFn_grid (hgrid b) (fun k => data k b) (by omega) (by omega)
  have hcr : ∀ (i : Fin (N + 1)) (b : β), rateFn nt (fun k => times k b) (fun k => stresses k b) (times (k + i.val) b) =
      if k + i.val = 0 then 0 else (stresses (k + i.val) b - stresses (k + i.val - 1) b) / (times (k + i.val) b - times (k + i.val - 1) b) := by
    intro i b
    unfold rateFn
    rw [interpFn_grid (by omega) (hgrid b) _ (by omega : k + i.val ≤ nt - 1)]
    rfl
  have hsol : (stressSolve (β := Fin (N + 1) × β) (fun p => model p.2)
      (fun p => rateFn nt (fun k => times k p.2) (fun k => stresses k p.2) (times (k + p.1.val) p.2))
      (fun p => dataFn nt (fun k => times k p.2) (fun k => stresses k p.2) (times (k + p.1.val) p.2))
      (fun p => dataFn nt (fun k => times k p.2) (fun k => temps k p.2) (times (k + p.1.val) p.2))
      (fun p => times (k + p.1.val) p.2) 0).x = 0 := by
    unfold stressSolve newtonRaphson
    dsimp only
    change (loop _ _ _ _ _ _ _ (99 + 1) _).1 = 0
    unfold loop
    rw [if_neg]
    rintro ⟨⟨p, hp⟩, -⟩
    unfold gtAtol at hp
    simp only [stressRJ, hcs, hcr, rowNorm_one] at hp
    have := hslow (k + p.1.val) (by omega) p.2
    exact absurd hp (not_lt.2 this)
  funext i b
  change (stressOut (model b) _ _ _ _ _).1 = 0
  have hx := congrFun (congrFun hsol (i, b)) 0
  have hx' : ∀ j, (stressOut (model b) (dataFn nt (fun k => times k b) (fun k => stresses k b) (times (k + i.val) b))
      (dataFn nt (fun k => times k b) (fun k => temps k b) (times (k + i.val) b)) (times (k + i.val) b) 0 0).1 j = 0 := by
    intro j
    rw [hcs, hcs]
    unfold stressOut
    dsimp only
    by_cases hj : j = 0
    · subst hj; simp
    · rw [Function.update_of_ne hj]
      exact hrest (k + i.val) (by omega) b j hj
  funext j
  exact (congrArg (fun x => (stressOut (model b) (dataFn nt (fun k => times k b) (fun k => stresses k b) (times (k + i.val) b))
      (dataFn nt (fun k => times k b) (fun k => temps k b) (times (k + i.val) b)) (times (k + i.val) b) 0 x).1 j) hx).trans (hx' j)

/-- The creep test of a linearly viscous material: `E = 1e5`, viscosity `1e17`, loaded to a stress of `50` within `1e12` time units and held for
`2e15 M`. -/
noncomputable def creepTimes (M : ℝ) (k : ℕ) : ℝ := if k = 0 then 0 else if k = 1 then 1e12 else 1e12 + 2e15 * M

/-- Its stresses. -/
noncomputable def creepStress (k : ℕ) : ℝ := if k = 0 then 0 else 50

/-- Its material. -/
noncomputable def creepModel : Model 1 := inelastic (fun _ => 1e5) (perfect (fun _ => 1) fun _ => 1e17)

theorem creepModel_rate (t y e T : ℝ) (hy : 0 ≤ y) : (creepModel t (fun _ => y) e T).ydot 0 = 1e5 * (e - y / 1e17) := by
  simp only [creepModel, inelastic, perfect, Fin.cons_zero, Real.rpow_one]
  rcases hy.eq_or_lt with h | h
  · subst h; simp
  · rw [sgn, Real.sign_of_pos h, abs_of_pos h, mul_one]

/-- For this test, lasting long enough for a creep strain of at least `M`, whatever `M`, the strain returned is zero. -/
theorem C119_lost_creep (M : ℝ) (hM : 0 < M) (T : ℝ) :
    (∀ c : Config, c.guessType = "zero" → 0 < c.miter → ∀ n : ℤ, 0 < n →
      ∃ res, solveStress c (fun _ : Unit => creepModel) 3 (fun k _ => creepTimes M k) (fun k _ => creepStress k) (fun _ _ => T) n = .ok (res, false) ∧
        ∀ j < 3, res.get j = 0) ∧
    ∃ e₁ e₂ : ℝ, (∀ t, (creepModel t (fun _ => creepStress 1) e₁ T).ydot 0 = (creepStress 1 - creepStress 0) / (creepTimes M 1 - creepTimes M 0)) ∧
      (∀ t, (creepModel t (fun _ => creepStress 2) e₂ T).ydot 0 = (creepStress 2 - creepStress 1) / (creepTimes M 2 - creepTimes M 1)) ∧
      M ≤ (creepTimes M 1 - creepTimes M 0) * e₁ + (creepTimes M 2 - creepTimes M 1) * e₂ := by
  constructor
  · intro c hg hm n hn
    refine C119_slow_tests_vanish c hg hm _ 3 (by omega) _ _ _ (fun _ k hk => ?_) n hn (fun k hk b => ?_) (fun k hk b i hi => ?_)
    · have : k = 0 ∨ k = 1 := by omega
      rcases this with rfl | rfl
      · norm_num [creepTimes]
      · norm_num [creepTimes]; exact hM
    · have him : imposed (creepStress k) (0 : Fin 1 → ℝ) = fun _ => creepStress k := by
        funext i
        obtain rfl : i = 0 := Subsingleton.elim (α := Fin 1) _ _
        simp [imposed]
      rw [him, creepModel_rate _ _ _ _ (by unfold creepStress; split_ifs <;> norm_num)]
      have : k = 0 ∨ k = 1 ∨ k = 2 := by omega
      rcases this with rfl | rfl | rfl
      · norm_num [creepStress]
      · norm_num [creepStress, creepTimes, abs_le]
      · norm_num [creepStress, creepTimes, abs_le]
    · exact absurd (Subsingleton.elim (α := Fin 1) i 0) hi
  · refine ⟨50 / 1e12 / 1e5 + 50 / 1e17, 50 / 1e17, fun t => ?_, fun t => ?_, ?_⟩
    · rw [creepModel_rate _ _ _ _ (by norm_num [creepStress])]
      norm_num [creepStress, creepTimes]
    · rw [creepModel_rate _ _ _ _ (by norm_num [creepStress])]
      norm_num [creepStress, creepTimes]
    · norm_num [creepTimes]
      linarith

end Pyoptmat.Props
