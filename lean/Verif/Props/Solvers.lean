import Verif.Proofs.Solvers
import Verif.Spec.Newton

/-!
# Properties C66-C68, C70 and part of C13: the solvers of `pyoptmat/solvers.py`
-/

namespace Pyoptmat.Props

open Pyoptmat.Solvers Pyoptmat.Newton Pyoptmat.Spec

variable {X Res Jac β : Type*}

/-! ## C66: `newton_raphson` -/

/-- **C66.** Without a warning (finite norms, `miter ≥ 0`) the tolerance is met at the returned point; the second value returned
is always the Jacobian at the returned point. -/
theorem C66_no_warning_meets_tolerance (fn : X → Res × Jac) (solve : Jac → Res → X) (sub : X → X → X)
    (nrm : Res → β → ℝ) (x0 : X) (rtol atol : ℝ) (miter : ℤ) :
    let out := newtonRaphson fn solve sub (fun r b => some (nrm r b)) x0 rtol atol miter
    out.J = (fn out.x).2 ∧
    (0 ≤ miter → out.warned = false → MetTolerance (nrm (fn out.x).1) (nrm (fn x0).1) rtol atol) := by
  obtain ⟨h1, -, -, h4⟩ := loop_spec fn solve sub (fun r b => some (nrm r b)) rtol atol
    (fun b => some (nrm (fn x0).1 b)) miter.toNat x0
  refine ⟨rfl, fun hm hw => ?_⟩
  simp only [newtonRaphson, decide_eq_false_iff_not] at hw
  exact not_notConverged_some (h4 (by omega))

/-- **C66.** At most `miter` updates are made; the point returned is the Newton iterate with that number of updates and every
earlier iterate failed the test; the warning is given exactly when none of the iterates `0 … miter - 1` passed it. -/
theorem C66_returns_first_iterate (fn : X → Res × Jac) (solve : Jac → Res → X) (sub : X → X → X)
    (nrm : Res → β → ℝ) (x0 : X) (rtol atol : ℝ) (miter : ℕ) :
    let out := newtonRaphson fn solve sub (fun r b => some (nrm r b)) x0 rtol atol miter
    let it := newtonIterate fn solve sub x0
    out.iters ≤ miter ∧ out.x = it out.iters ∧
    (∀ j < out.iters, ¬ MetTolerance (nrm (fn (it j)).1) (nrm (fn x0).1) rtol atol) ∧
    (out.warned = true ↔ ∀ j < miter, ¬ MetTolerance (nrm (fn (it j)).1) (nrm (fn x0).1) rtol atol) := by
  obtain ⟨h1, h2, h3, h4⟩ := loop_spec fn solve sub (fun r b => some (nrm r b)) rtol atol
    (fun b => some (nrm (fn x0).1 b)) (miter : ℤ).toNat x0
  have key : ∀ j < (newtonRaphson fn solve sub (fun r b => some (nrm r b)) x0 rtol atol miter).iters,
      ¬ MetTolerance (nrm (fn (newtonIterate fn solve sub x0 j)).1) (nrm (fn x0).1) rtol atol := by
    intro j hj hmet
    obtain ⟨⟨b, hb⟩, ⟨b', hb'⟩⟩ := h3 j hj
    rcases hmet with hmet | hmet
    · exact absurd (hmet b) (not_le.2 hb)
    · exact absurd (hmet b') (not_le.2 hb')
  rw [Int.toNat_natCast] at h1
  refine ⟨by simpa [newtonRaphson] using h1, h2, key, ?_⟩
  simp only [newtonRaphson, decide_eq_true_eq, Nat.cast_inj]
  constructor
  · intro h j hj
    exact key j (by simp only [newtonRaphson]; omega)
  · intro h
    by_contra hne
    rw [Int.toNat_natCast] at hne h2 h4
    have hlt := lt_of_le_of_ne h1 hne
    refine h _ hlt ?_
    have := not_notConverged_some (h4 hlt)
    rw [h2] at this
    exact this

/-- **C66.** A negative `miter` returns the start without an update and without a warning, converged or not. -/
theorem C66_negative_miter_silent (fn : X → Res × Jac) (solve : Jac → Res → X) (sub : X → X → X)
    (nrm : Res → β → Option ℝ) (x0 : X) (rtol atol : ℝ) (miter : ℤ) (h : miter < 0) :
    let out := newtonRaphson fn solve sub nrm x0 rtol atol miter
    out.x = x0 ∧ out.warned = false := by
  have : miter.toNat = 0 := by omega
  simp only [newtonRaphson, this, loop]
  exact ⟨trivial, by simp; omega⟩

/-- **C66.** If the residual and Jacobian of each batch entry depend on that entry only, the entry returned is a Newton iterate of
that entry's own problem (the number of updates being shared by the batch). -/
theorem C66_lanes {n : ℕ} (f : β → (Fin n → ℝ) → (Fin n → ℝ) × Matrix (Fin n) (Fin n) ℝ) (x0 : β → Fin n → ℝ)
    (ls : String) (rtol atol : ℝ) (miter : ℕ) (out : SolveOut (β → Fin n → ℝ) (β → Matrix (Fin n) (Fin n) ℝ))
    (s : (Unit → Matrix (Fin n) (Fin n) ℝ) → (Unit → Fin n → ℝ) → Unit → Fin n → ℝ)
    (hs : linearSolverOf ls = .ok s)
    (h : newtonRaphsonT (fun x => (fun b => (f b (x b)).1, fun b => (f b (x b)).2)) x0 ls rtol atol miter = .ok out) (b : β) :
    out.x b = newtonIterate (f b) (fun J R => s (fun _ => J) (fun _ => R) ()) (fun x dx => x - dx) (x0 b) out.iters := by
  have hgen : ∀ (S : (β → Matrix (Fin n) (Fin n) ℝ) → (β → Fin n → ℝ) → β → Fin n → ℝ),
      linearSolverOf (β := β) (n := n) ls = .ok S → ∀ A R, S A R b = s (fun _ => A b) (fun _ => R b) () := by
    intro S hS A R
    unfold linearSolverOf at hS hs
    split_ifs at hS hs <;> simp only [Except.ok.injEq, reduceCtorEq] at hS hs <;> subst hS <;> subst hs <;> rfl
  unfold newtonRaphsonT at h
  split at h
  · cases h
  rename_i S hS
  simp only [Except.ok.injEq] at h
  have h2 := (C66_returns_first_iterate (fun x : β → Fin n → ℝ => (fun b => (f b (x b)).1, fun b => (f b (x b)).2)) S
    (fun x dx => x - dx) (fun r b => rowNorm (r b)) x0 rtol atol miter).2.1
  rw [h] at h2
  rw [h2]
  generalize out.iters = k
  induction k with
  | zero => rfl
  | succ k ih =>
    simp only [newtonIterate, Function.iterate_succ_apply'] at ih ⊢
    rw [Pi.sub_apply, hgen S hS]
    rw [ih]

/-- **C66.** Every option string other than `"lu"` and `"diag"` is refused, except that for a single unknown the option is not
looked at. -/
theorem C66_linsolver_validated {n : ℕ} (fn : (β → Fin n → ℝ) → (β → Fin n → ℝ) × (β → Matrix (Fin n) (Fin n) ℝ))
    (x0 : β → Fin n → ℝ) (ls : String) (rtol atol : ℝ) (miter : ℤ) :
    (∃ e, newtonRaphsonT fn x0 ls rtol atol miter = .error e) ↔ n ≠ 1 ∧ ls ≠ "lu" ∧ ls ≠ "diag" := by
  unfold newtonRaphsonT linearSolverOf
  by_cases h1 : n = 1 <;> by_cases h2 : ls = "lu" <;> by_cases h3 : ls = "diag" <;> simp [h1, h2, h3]

/-- **C66.** With `"lu"` the linear solve is exact for invertible matrices, in every dimension (for one unknown the division is the same thing);
with `"diag"` it is exact for diagonal matrices with nonzero diagonal. -/
theorem C66_linear_solves_exact {n : ℕ} (ls : String) (s : (β → Matrix (Fin n) (Fin n) ℝ) → (β → Fin n → ℝ) → β → Fin n → ℝ)
    (hs : linearSolverOf ls = .ok s) (A : β → Matrix (Fin n) (Fin n) ℝ) (r : β → Fin n → ℝ) (b : β)
    (hA : (ls = "lu" ∧ IsUnit (A b).det) ∨ ∃ d, (∀ i, d i ≠ 0) ∧ A b = Matrix.diagonal d) :
    (A b).mulVec (s A r b) = r b := by
  have hlu : IsUnit (A b).det → (A b).mulVec ((A b)⁻¹.mulVec (r b)) = r b := by
    intro h
    rw [Matrix.mulVec_mulVec, Matrix.mul_nonsing_inv _ h, Matrix.one_mulVec]
  have hdiag : (∃ d : Fin n → ℝ, (∀ i, d i ≠ 0) ∧ A b = Matrix.diagonal d) →
      (A b).mulVec (fun j => r b j / A b j j) = r b := by
    rintro ⟨d, hd, h⟩
    rw [h]
    funext j
    rw [Matrix.mulVec_diagonal, Matrix.diagonal_apply_eq]
    exact mul_div_cancel₀ _ (hd j)
  have hdet : (∃ d : Fin n → ℝ, (∀ i, d i ≠ 0) ∧ A b = Matrix.diagonal d) → IsUnit (A b).det := by
    rintro ⟨d, hd, h⟩
    rw [h, Matrix.det_diagonal]
    exact (Finset.prod_ne_zero_iff.2 fun i _ => hd i).isUnit
  unfold linearSolverOf at hs
  split_ifs at hs with h1 h2 h3 <;> simp only [Except.ok.injEq, reduceCtorEq] at hs <;> subst hs
  · subst h1
    refine hdiag ?_
    rcases hA with ⟨-, hA⟩ | hA
    · refine ⟨fun _ => A b 0 0, fun _ => ?_, ?_⟩
      · rw [Matrix.det_fin_one] at hA
        exact hA.ne_zero
      · ext i j
        rw [Subsingleton.elim i 0, Subsingleton.elim j 0, Matrix.diagonal_apply_eq]
    · exact hA
  · exact hlu (by rcases hA with hA | hA; exacts [hA.2, hdet hA])
  · rcases hA with hA | hA
    · exact absurd hA.1 h2
    · exact hdiag hA

/-- **C66.** For an affine residual `A x - b` with invertible `A` at most one update is made from any start; if it is made the exact solution
is returned; and with `miter ≥ 2` there is no warning. -/
theorem C66_affine_one_update {n : ℕ} (A : β → Matrix (Fin n) (Fin n) ℝ) (hA : ∀ i, IsUnit (A i).det)
    (b x0 : β → Fin n → ℝ) (rtol atol : ℝ) (hatol : 0 ≤ atol) (miter : ℕ)
    (out : SolveOut (β → Fin n → ℝ) (β → Matrix (Fin n) (Fin n) ℝ))
    (h : newtonRaphsonT (fun x => (fun i => (A i).mulVec (x i) - b i, A)) x0 "lu" rtol atol miter = .ok out) :
    out.iters ≤ 1 ∧ (out.iters = 1 → ∀ i, (A i).mulVec (out.x i) = b i) ∧ (2 ≤ miter → out.warned = false) := by
  unfold newtonRaphsonT at h
  split at h
  · cases h
  rename_i S hS
  simp only [Except.ok.injEq] at h
  have h2 := C66_returns_first_iterate (fun x : β → Fin n → ℝ => (fun i => (A i).mulVec (x i) - b i, A)) S
    (fun x dx => x - dx) (fun r b => rowNorm (r b)) x0 rtol atol miter
  simp only at h2
  rw [h] at h2
  obtain ⟨h3, h4, h5, h6⟩ := h2
  have hone : ∀ i, (A i).mulVec (newtonIterate (fun x : β → Fin n → ℝ => (fun i => (A i).mulVec (x i) - b i, A)) S
      (fun x dx => x - dx) x0 1 i) = b i := by
    intro i
    simp only [newtonIterate, Function.iterate_one, Pi.sub_apply, Matrix.mulVec_sub]
    rw [C66_linear_solves_exact "lu" S hS A _ i (Or.inl ⟨rfl, hA i⟩)]
    abel
  have hmet : MetTolerance (fun i => rowNorm ((A i).mulVec (newtonIterate (fun x : β → Fin n → ℝ =>
      (fun i => (A i).mulVec (x i) - b i, A)) S (fun x dx => x - dx) x0 1 i) - b i))
      (fun i => rowNorm ((A i).mulVec (x0 i) - b i)) rtol atol := by
    left
    intro i
    dsimp only
    rw [hone i, sub_self]
    simpa [rowNorm] using hatol
  refine ⟨?_, ?_, ?_⟩
  · by_contra hlt
    exact h5 1 (by omega) hmet
  · intro hi i
    rw [h4, hi]
    exact hone i
  · intro hm
    by_contra hw
    exact h6.1 (by simpa using hw) 1 (by omega) hmet

/-- Non-vacuity of C66: a 2×2 batch problem whose start is not a solution. -/
example : ∃ out, newtonRaphsonT (β := Fin 2) (fun x => (fun i => (!![2, 1; 0, 1] : Matrix (Fin 2) (Fin 2) ℝ).mulVec (x i) - ![3, 1],
      fun _ => !![2, 1; 0, 1])) 0 "lu" 0 0 5 = .ok out ∧ out.warned = false ∧
      ∀ i, (!![2, 1; 0, 1] : Matrix (Fin 2) (Fin 2) ℝ).mulVec (out.x i) = ![3, 1] := by
  have hu : IsUnit (!![2, 1; 0, 1] : Matrix (Fin 2) (Fin 2) ℝ).det := by
    rw [Matrix.det_fin_two_of]; norm_num
  refine ⟨_, rfl, ?_⟩
  have h := C66_affine_one_update (β := Fin 2) (fun _ => !![2, 1; 0, 1]) (fun _ => hu) (fun _ => ![3, 1]) 0 0 0 le_rfl 5 _ rfl
  refine ⟨h.2.2 (by norm_num), ?_⟩
  have hmet := (C66_no_warning_meets_tolerance (fun x : Fin 2 → Fin 2 → ℝ =>
      (fun i => (!![2, 1; 0, 1] : Matrix (Fin 2) (Fin 2) ℝ).mulVec (x i) - ![3, 1], fun _ : Fin 2 => !![2, 1; 0, 1]))
    luLinearSolve (fun x dx => x - dx) (fun r b => rowNorm (r b)) 0 0 0 5).2 (by norm_num) (h.2.2 (by norm_num))
  intro i
  have hz : rowNorm ((!![2, 1; 0, 1] : Matrix (Fin 2) (Fin 2) ℝ).mulVec ((newtonRaphson (fun x : Fin 2 → Fin 2 → ℝ =>
      (fun i => (!![2, 1; 0, 1] : Matrix (Fin 2) (Fin 2) ℝ).mulVec (x i) - ![3, 1], fun _ : Fin 2 => !![2, 1; 0, 1]))
    luLinearSolve (fun x dx => x - dx) (fun r b => some (rowNorm (r b))) 0 0 0 5).x i) - ![3, 1]) ≤ 0 := by
    rcases hmet with hm | hm
    · exact hm i
    · have := hm i
      rw [zero_mul] at this
      exact this
  have hz' := le_antisymm hz (Real.sqrt_nonneg _)
  exact sub_eq_zero.1 (rowNorm_eq_zero.1 hz')

/-! ## C13: what happens to the caller's `x0` -/

/-- **C13.** After `newton_raphson` the caller's `x0` holds the returned point; after `newton_raphson_bt` it is unchanged. -/
theorem C13_newton_raphson_overwrites_x0 {V : Type*} [AddCommGroup V] [Module ℝ V] (fn : (β → V) → Res × Jac)
    (solve : Jac → Res → β → V) (nrm : Res → β → Option ℝ) (x0 : β → V) (rtol atol : ℝ) (miter maxBt : ℤ) :
    (newtonRaphson fn solve (fun x dx => x - dx) nrm x0 rtol atol miter).callerX0 =
      (newtonRaphson fn solve (fun x dx => x - dx) nrm x0 rtol atol miter).x ∧
    (newtonRaphsonBt fn solve nrm x0 rtol atol miter maxBt).callerX0 = x0 := ⟨rfl, rfl⟩

/-! ## C67: Newton with backtracking -/

section bt
variable {V : Type*} [AddCommGroup V] [Module ℝ V]

/-- **C67.** One update of `newton_raphson_bt` moves each batch entry along its Newton direction by a step `2^{-j}` with
`j ≤ max_bt + 1`, after at most `max_bt + 2` trial points (`max_bt ≥ -1`); if fewer trial points were used, every residual norm is strictly smaller
than before. -/
theorem C67_step (fn : (β → V) → Res × Jac) (solve : Jac → Res → β → V) (nrm : Res → β → ℝ) (atol : ℝ)
    (maxBt : ℕ) (x : β → V) :
    let s := btStep fn solve (fun r b => some (nrm r b)) atol maxBt x
    (∃ j : β → ℕ, (∀ b, j b ≤ maxBt + 1 ∧ j b < s.2) ∧ s.1 = fun b => x b - ((1 / 2 : ℝ) ^ j b) • solve (fn x).2 (fn x).1 b) ∧
    s.2 ≤ maxBt + 2 ∧
    (s.2 < maxBt + 2 → ∀ b, nrm (fn s.1).1 b < nrm (fn x).1 b) := by
  obtain ⟨j, h1, h2, h3, h4, h5, -⟩ := btSearch_spec fn (fun r b => some (nrm r b)) atol x (solve (fn x).2 (fn x).1)
    (fun b => some (nrm (fn x).1 b)) ((maxBt : ℤ) + 1).toNat fun _ => 1
  have e : ((maxBt : ℤ) + 1).toNat = maxBt + 1 := by omega
  rw [e] at h1 h2 h3 h4 h5
  simp only [btStep, e]
  refine ⟨⟨j, fun b => ⟨h1 b, h3 b⟩, ?_⟩, h2, fun h b => ?_⟩
  · rw [h4]; simp
  · exact h5 h b

/-- **C67.** A batch entry whose residual never exceeds the previous one by more than `atol` (in particular one whose residual norm is
not a number, for which no comparison holds) is never backtracked: it takes the full Newton step, whatever happens in the other entries. -/
theorem C67_lane_not_backtracked (fn : (β → V) → Res × Jac) (solve : Jac → Res → β → V) (nrm : Res → β → Option ℝ)
    (atol : ℝ) (maxBt : ℤ) (x : β → V) (b : β)
    (hb : ∀ z, nrm (fn z).1 b = none ∨ nrm (fn x).1 b = none ∨
      ∃ u v, nrm (fn z).1 b = some u ∧ nrm (fn x).1 b = some v ∧ u ≤ v + atol) :
    (btStep fn solve nrm atol maxBt x).1 b = x b - solve (fn x).2 (fn x).1 b := by
  obtain ⟨j, -, -, -, h4, -, h6⟩ := btSearch_spec fn nrm atol x (solve (fn x).2 (fn x).1)
    (nrm (fn x).1) (maxBt + 1).toNat fun _ => 1
  have hj : j b = 0 := by
    refine h6 b fun z hz => ?_
    unfold increased at hz
    rcases hb z with h | h | ⟨u, v, h, h', huv⟩
    · rw [h] at hz; exact hz
    · rw [h] at hz; split at hz <;> simp_all
    · rw [h, h'] at hz; simp only at hz; linarith
  simp only [btStep]
  rw [h4]
  simp [hj]

/-- **C67.** If the full Newton step reduces every residual norm it is accepted at once. -/
theorem C67_full_step_if_decreasing (fn : (β → V) → Res × Jac) (solve : Jac → Res → β → V) (nrm : Res → β → ℝ) (atol : ℝ)
    (maxBt : ℤ) (x : β → V)
    (h : ∀ b, nrm (fn fun b => x b - solve (fn x).2 (fn x).1 b).1 b < nrm (fn x).1 b) :
    (btStep fn solve (fun r b => some (nrm r b)) atol maxBt x).1 = fun b => x b - solve (fn x).2 (fn x).1 b := by
  unfold btStep
  cases hf : (maxBt + 1).toNat with
  | zero => simp [btSearch]
  | succ f =>
    rw [btSearch, if_pos]
    · simp
    · intro b
      simpa [ltOpt] using h b

/-- **C67.** No warning means the tolerance was met; the Jacobian returned is the one at the returned point; at most `miter` updates; the warning
is exactly that `miter` updates were made. -/
theorem C67_no_warning_meets_tolerance (fn : (β → V) → Res × Jac) (solve : Jac → Res → β → V) (nrm : Res → β → ℝ)
    (x0 : β → V) (rtol atol : ℝ) (miter : ℕ) (maxBt : ℤ) :
    let out := newtonRaphsonBt fn solve (fun r b => some (nrm r b)) x0 rtol atol miter maxBt
    out.J = (fn out.x).2 ∧ out.iters ≤ miter ∧ (out.warned = true ↔ out.iters = miter) ∧
    (out.warned = false → MetTolerance (nrm (fn out.x).1) (nrm (fn x0).1) rtol atol) := by
  obtain ⟨h1, -, -, h4⟩ := btLoop_spec fn solve (fun r b => some (nrm r b)) rtol atol maxBt
    (fun b => some (nrm (fn x0).1 b)) miter x0
  simp only [newtonRaphsonBt, Int.toNat_natCast, decide_eq_true_eq, Nat.cast_inj, decide_eq_false_iff_not, true_and]
  exact ⟨h1, fun hw => not_notConverged_some (h4 (lt_of_le_of_ne h1 hw))⟩

/-- **C67.** The point returned is reached from `x0` by accepted steps, each with the properties of `C67_step`, and every point before it
failed the tolerance test. -/
theorem C67_returns_iterate (fn : (β → V) → Res × Jac) (solve : Jac → Res → β → V) (nrm : Res → β → ℝ)
    (x0 : β → V) (rtol atol : ℝ) (miter : ℕ) (maxBt : ℕ) :
    let out := newtonRaphsonBt fn solve (fun r b => some (nrm r b)) x0 rtol atol miter maxBt
    ∃ xs : ℕ → β → V, xs 0 = x0 ∧ xs out.iters = out.x ∧ ∀ i < out.iters,
      ¬ MetTolerance (nrm (fn (xs i)).1) (nrm (fn x0).1) rtol atol ∧
      ∃ j : β → ℕ, (∀ b, j b ≤ maxBt + 1) ∧
        xs (i + 1) = fun b => xs i b - ((1 / 2 : ℝ) ^ j b) • solve (fn (xs i)).2 (fn (xs i)).1 b := by
  obtain ⟨h1, h2, h3, -⟩ := btLoop_spec fn solve (fun r b => some (nrm r b)) rtol atol maxBt
    (fun b => some (nrm (fn x0).1 b)) miter x0
  refine ⟨fun i => (fun x => (btStep fn solve (fun r b => some (nrm r b)) atol maxBt x).1)^[i] x0, rfl, ?_, ?_⟩
  · simp only [newtonRaphsonBt, Int.toNat_natCast]
    exact h2.symm
  · intro i hi
    simp only [newtonRaphsonBt, Int.toNat_natCast] at hi
    refine ⟨fun hmet => ?_, ?_⟩
    · obtain ⟨⟨b, hb⟩, ⟨b', hb'⟩⟩ := h3 i hi
      rcases hmet with hmet | hmet
      · exact absurd (hmet b) (not_le.2 hb)
      · exact absurd (hmet b') (not_le.2 hb')
    · obtain ⟨⟨j, hj, hs⟩, -⟩ := C67_step fn solve nrm atol maxBt
        ((fun x => (btStep fn solve (fun r b => some (nrm r b)) atol maxBt x).1)^[i] x0)
      refine ⟨j, fun b => (hj b).1, ?_⟩
      beta_reduce
      rw [Function.iterate_succ_apply']
      exact hs

end bt

/-- Non-vacuity of C67: the residual `|x| ` with value `1, 2, 0` at `1, -1, 0` and a Jacobian `1/2` at `1`: the full step to `-1` doubles the residual and is
halved once; the accepted point is `0`. -/
example : btStep (β := Unit) (V := ℝ) (fun x => (if x () < 0 then (2 : ℝ) else x (), (1 / 2 : ℝ))) (fun J R _ => R / J)
    (fun r _ => some |r|) 0 5 (fun _ => 1) = (fun _ => 0, 2) := by
  unfold btStep
  have e : ((5 : ℤ) + 1).toNat = 5 + 1 := rfl
  rw [e, btSearch, if_neg]
  · rw [btSearch, if_pos]
    · norm_num [increased]
    · intro b
      norm_num [ltOpt, increased]
  · push Not
    refine ⟨(), ?_⟩
    norm_num [ltOpt]

/-! ## C68: GMRES -/

section gm
variable {n : ℕ}

/-- **C68.** For every operator, right hand side, start, preconditioner and least squares routine: if `gmres` stops before its last
permitted pass, all residual norms of the vector it returns are below the tolerance. -/
theorem C68_early_stop_meets_tolerance (A : β → Matrix (Fin n) (Fin n) ℝ) (b x0 : β → Fin n → ℝ) (M : Precond β n)
    (lstsq : Lstsq β) (tol eps : ℝ) (maxiter check : ℕ)
    (h : (gmres A b x0 M lstsq tol eps maxiter check).2 + 1 < maxiter) (i : β) :
    rowNorm (b i - (A i).mulVec ((gmres A b x0 M lstsq tol eps maxiter check).1 i)) < tol := by
  unfold gmres at h ⊢
  simp only at h ⊢
  split_ifs at h ⊢ with h0
  · exact h0 i
  · exact (gmresLoop_early A b x0 M lstsq tol eps check maxiter _ maxiter 0 _ x0 (by omega)).2 h i

/-- **C68.** A start that already meets the tolerance in the whole batch is returned unchanged, with iteration count 0; the count is always below
`maxiter`. -/
theorem C68_converged_start (A : β → Matrix (Fin n) (Fin n) ℝ) (b x0 : β → Fin n → ℝ) (M : Precond β n)
    (lstsq : Lstsq β) (tol eps : ℝ) (maxiter check : ℕ) (hm : 0 < maxiter) :
    ((∀ i, rowNorm (b i - (A i).mulVec (x0 i)) < tol) → gmres A b x0 M lstsq tol eps maxiter check = (x0, 0)) ∧
    (gmres A b x0 M lstsq tol eps maxiter check).2 < maxiter := by
  constructor
  · intro h
    unfold gmres
    simp only
    exact if_pos h
  · unfold gmres
    simp only
    split_ifs with h0
    · exact hm
    · have := (gmresLoop_early A b x0 M lstsq tol eps check maxiter (fun i => rowNorm (residual A b x0 i)) maxiter 0
        (krylovInit M (residual A b x0)) x0 (by omega)).1
      omega

/-- **C68.** The residual of the vector returned is bounded by the residual of the small projected system `H y = ‖r₀‖ e₁`: there are `K < maxiter`,
a Hessenberg array `h` and coefficients `y`, the output of the least squares routine on it, such that in every batch entry with a nonzero initial residual the
norm of the true residual is at most `∑ |(‖r₀‖ e₁ - h y)_l|`. -/
theorem C68_residual_bounded_by_projected (A : β → Matrix (Fin n) (Fin n) ℝ) (b x0 : β → Fin n → ℝ) (M : Precond β n)
    (lstsq : Lstsq β) (tol eps : ℝ) (heps : 0 < eps) (maxiter check : ℕ) (hm : 0 < maxiter)
    (hr : ∀ i, b i - (A i).mulVec (x0 i) ≠ 0)
    (htol : ∃ i, tol ≤ rowNorm (b i - (A i).mulVec (x0 i))) :
    let nR := fun i => rowNorm (b i - (A i).mulVec (x0 i))
    let out := gmres A b x0 M lstsq tol eps maxiter check
    ∃ h : ℕ → ℕ → β → ℝ,
      let y := lstsq out.2 h (fun l => if l = 0 then nR else fun _ => 0)
      ∀ i, rowNorm (b i - (A i).mulVec (out.1 i)) ≤
        ∑ l ∈ Finset.range (out.2 + 1), |(if l = 0 then nR i else 0) - ∑ c ∈ Finset.range out.2, h l c i * y c i| := by
  intro nR out
  have hout : out = gmresLoop A b x0 M lstsq tol eps check maxiter nR maxiter 0 (krylovInit M (residual A b x0)) x0 := by
    simp only [out, gmres]
    rw [if_neg]
    · rfl
    · push Not
      exact htol
  obtain ⟨K, hK, he⟩ := gmresLoop_result A b x0 M lstsq tol eps check maxiter nR (residual A b x0) maxiter 0 x0
    (by omega) hm
  have hout' : out = (project lstsq nR x0 K (krylovAfter A M eps (residual A b x0) (K + 1)), K) := by
    rw [hout]; exact he
  rw [hout']
  refine ⟨(krylovAfter A M eps (residual A b x0) (K + 1)).H, fun i => ?_⟩
  exact project_residual A b x0 M lstsq eps heps K i (hr i)

/-- **C68.** `lu_gmres` (and `gmres` with any exact preconditioner and `check = 1`): when the least squares routine satisfies the normal equations of
a one-column system, the call stops at the second pass with a residual of `ε² ‖r₀‖ / (1 + ε²)` per batch entry, for every invertible operator. -/
theorem C68_exact_preconditioner_converges (A : β → Matrix (Fin n) (Fin n) ℝ) (b x0 : β → Fin n → ℝ) (M : Precond β n)
    (hM : ∀ v i, (A i).mulVec (M v i) = v i) (lstsq : Lstsq β) (tol eps : ℝ) (heps : 0 < eps) (maxiter : ℕ) (hm : 2 ≤ maxiter)
    (hl : ∀ h e i, (h 0 0 i) * (h 0 0 i * lstsq 1 h e 0 i - e 0 i) + (h 1 0 i) * (h 1 0 i * lstsq 1 h e 0 i - e 1 i) = 0)
    (hr : ∀ i, b i - (A i).mulVec (x0 i) ≠ 0)
    (htol : ∃ i, tol ≤ rowNorm (b i - (A i).mulVec (x0 i)))
    (hsmall : ∀ i, eps ^ 2 / (1 + eps ^ 2) * rowNorm (b i - (A i).mulVec (x0 i)) < tol) :
    let out := gmres A b x0 M lstsq tol eps maxiter 1
    out.2 = 1 ∧ ∀ i, b i - (A i).mulVec (out.1 i) = (eps ^ 2 / (1 + eps ^ 2)) • (b i - (A i).mulVec (x0 i)) :=
  gmres_exact_precond A b x0 M hM lstsq tol eps heps maxiter hm hl hr htol hsmall

/-- **C68.** With a linear preconditioner `N` (none, Jacobi or LU) the correction `x - x0` returned after pass `k` lies in the preconditioned Krylov
space `N · span{r₀, (A N) r₀, …, (A N)^(k-1) r₀}` of the initial residual, in every batch entry. -/
theorem C68_krylov_space (A N : β → Matrix (Fin n) (Fin n) ℝ) (b x0 : β → Fin n → ℝ) (M : Precond β n)
    (hM : ∀ v i, M v i = (N i).mulVec (v i)) (lstsq : Lstsq β) (tol eps : ℝ) (maxiter check : ℕ) (hm : 0 < maxiter) (i : β) :
    let out := gmres A b x0 M lstsq tol eps maxiter check
    out.1 i - x0 i ∈ Submodule.span ℝ {v | ∃ l < out.2, v = (N i * (A i * N i) ^ l).mulVec (b i - (A i).mulVec (x0 i))} := by
  intro out
  by_cases htol : ∀ i, rowNorm (b i - (A i).mulVec (x0 i)) < tol
  · have : out = (x0, 0) := (C68_converged_start A b x0 M lstsq tol eps maxiter check hm).1 htol
    rw [this, sub_self]
    exact Submodule.zero_mem _
  have hout : out = gmresLoop A b x0 M lstsq tol eps check maxiter (fun i => rowNorm (b i - (A i).mulVec (x0 i))) maxiter 0
      (krylovInit M (residual A b x0)) x0 := by
    simp only [out, gmres]
    rw [if_neg]
    · rfl
    · exact htol
  obtain ⟨K, hK, he⟩ := gmresLoop_result A b x0 M lstsq tol eps check maxiter (fun i => rowNorm (b i - (A i).mulVec (x0 i)))
    (residual A b x0) maxiter 0 x0 (by omega) hm
  have hout' := hout.trans he
  rw [hout']
  simp only [project, add_sub_cancel_right]
  refine Submodule.sum_mem _ fun l hl => Submodule.smul_mem _ _ ?_
  have hl' := Finset.mem_range.1 hl
  obtain ⟨h1, h2⟩ := krylov_span A N M hM eps (residual A b x0) (K + 1) l (by omega) i
  rw [h2]
  refine Submodule.span_induction (p := fun v _ => (N i).mulVec v ∈ Submodule.span ℝ
    {v | ∃ l < K, v = (N i * (A i * N i) ^ l).mulVec (b i - (A i).mulVec (x0 i))}) ?_ ?_ ?_ ?_ h1
  · rintro v ⟨c, hc, rfl⟩
    exact Submodule.subset_span ⟨c, by omega, by rw [Matrix.mulVec_mulVec]; rfl⟩
  · rw [Matrix.mulVec_zero]; exact Submodule.zero_mem _
  · intro x y _ _ hx hy; rw [Matrix.mulVec_add]; exact Submodule.add_mem _ hx hy
  · intro c x _ hx; rw [Matrix.mulVec_smul]; exact Submodule.smul_mem _ _ hx

/-- Non-vacuity: `M=NoOp()` and the LU preconditioner are linear. -/
example (J : β → Matrix (Fin n) (Fin n) ℝ) :
    (∀ (v : β → Fin n → ℝ) i, luPrecond J v i = ((J i)⁻¹).mulVec (v i)) ∧
    (∀ (v : β → Fin n → ℝ) i, id v i = (1 : Matrix (Fin n) (Fin n) ℝ).mulVec (v i)) :=
  ⟨fun _ _ => rfl, fun _ _ => by rw [Matrix.one_mulVec]; rfl⟩

/-- The LU preconditioner of an invertible operator is exact. -/
theorem C68_lu_preconditioner_exact (A : β → Matrix (Fin n) (Fin n) ℝ) (hA : ∀ i, IsUnit (A i).det) (v : β → Fin n → ℝ) (i : β) :
    (A i).mulVec (luPrecond A v i) = v i := by
  simp only [luPrecond, luLinearSolve]
  rw [Matrix.mulVec_mulVec, Matrix.mul_nonsing_inv _ (hA i), Matrix.one_mulVec]

end gm

/-- Non-vacuity of C68: `2 x = 3` from `x0 = 0`, the exact preconditioner, an exact least squares routine. -/
example : ∃ (lstsq : Lstsq Unit),
    (gmres (fun _ : Unit => (!![2] : Matrix (Fin 1) (Fin 1) ℝ)) (fun _ _ => 3) 0 (luPrecond fun _ => !![2]) lstsq 1e-10 1e-15 2 1).2 = 1 := by
  refine ⟨fun _ h e _ i => (h 0 0 i * e 0 i + h 1 0 i * e 1 i) / (h 0 0 i ^ 2 + h 1 0 i ^ 2), ?_⟩
  have hn : rowNorm (fun _ : Fin 1 => (3 : ℝ)) = 3 := by
    unfold rowNorm
    rw [Fin.sum_univ_one, Real.sqrt_sq (by norm_num)]
  refine (C68_exact_preconditioner_converges (β := Unit) _ _ 0 _ (C68_lu_preconditioner_exact _ (fun _ => ?_)) _ 1e-10 1e-15
    (by norm_num) 2 le_rfl ?_ ?_ ?_ ?_).1
  · simp
  · intro h e i
    by_cases hz : h 0 0 i ^ 2 + h 1 0 i ^ 2 = 0
    · have h0 : h 0 0 i = 0 := by nlinarith [sq_nonneg (h 0 0 i), sq_nonneg (h 1 0 i)]
      have h1 : h 1 0 i = 0 := by nlinarith [sq_nonneg (h 0 0 i), sq_nonneg (h 1 0 i)]
      rw [h0, h1]; ring
    · field_simp
      ring
  · intro i h
    have := congrFun h 0
    simp at this
  · refine ⟨(), ?_⟩
    simp only [Pi.zero_apply, Matrix.mulVec_zero, sub_zero, hn]
    norm_num
  · intro i
    simp only [Pi.zero_apply, Matrix.mulVec_zero, sub_zero, hn]
    norm_num

/-! ## C70: `PreconditionerReuseNonlinearSolver` -/

/-- **C70.** Whatever preconditioner earlier calls left behind (right or wrong) and whatever the least squares routine does: without a warning
the tolerance is met at the returned point, and the second value is the Jacobian there; at most `miter` updates. -/
theorem C70_any_stored_preconditioner {n : ℕ} (fn : (β → Fin n → ℝ) → (β → Fin n → ℝ) × (β → Matrix (Fin n) (Fin n) ℝ))
    (lstsq : Lstsq β) (stored : Option (Precond β n)) (x0 : β → Fin n → ℝ) (rtol atol : ℝ) (miter : ℕ) (ltol : ℝ) :
    let out := (reuseSolve fn lstsq stored x0 rtol atol miter ltol).1
    out.J = (fn out.x).2 ∧ out.iters ≤ miter ∧ (out.warned = true ↔ out.iters = miter) ∧
    (out.warned = false →
      MetTolerance (fun b => rowNorm ((fn out.x).1 b)) (fun b => rowNorm ((fn x0).1 b)) rtol atol) := by
  obtain ⟨h1, h4⟩ := reuseLoop_spec fn lstsq rtol atol ltol (fun b => some (rowNorm ((fn x0).1 b))) miter x0
    (stored.getD (luPrecond (fn x0).2))
  simp only [reuseSolve, Int.toNat_natCast, decide_eq_true_eq, Nat.cast_inj, decide_eq_false_iff_not, true_and]
  exact ⟨h1, fun hw => not_notConverged_some (h4 (lt_of_le_of_ne h1 hw))⟩

/-- **C70.** Over any sequence of problems solved one after the other with the same solver object, each unwarned answer meets its own tolerance. -/
theorem C70_history {n : ℕ} (lstsq : Lstsq β) (rtol atol : ℝ) (miter : ℕ) (ltol : ℝ)
    (probs : ℕ → ((β → Fin n → ℝ) → (β → Fin n → ℝ) × (β → Matrix (Fin n) (Fin n) ℝ)) × (β → Fin n → ℝ))
    (stored : ℕ → Option (Precond β n)) (_h0 : stored 0 = none)
    (_hs : ∀ k, stored (k + 1) = some (reuseSolve (probs k).1 lstsq (stored k) (probs k).2 rtol atol miter ltol).2) (k : ℕ)
    (hw : (reuseSolve (probs k).1 lstsq (stored k) (probs k).2 rtol atol miter ltol).1.warned = false) :
    MetTolerance
      (fun b => rowNorm (((probs k).1 (reuseSolve (probs k).1 lstsq (stored k) (probs k).2 rtol atol miter ltol).1.x).1 b))
      (fun b => rowNorm (((probs k).1 (probs k).2).1 b)) rtol atol :=
  (C70_any_stored_preconditioner _ lstsq (stored k) _ rtol atol miter ltol).2.2.2 hw

/-- **C70.** On an affine residual `A x - b` whose start fails both tolerances: if the linear solve met its tolerance (`gmres` applied to the residual, started
from the iterate and with the remembered preconditioner), one update is made, the residual is then below `ltol` and the object remembers the LU preconditioner
of `A` if the linear solve took more than two thirds of `n` passes, the old one otherwise. -/
theorem C70_affine {n : ℕ} (A : β → Matrix (Fin n) (Fin n) ℝ) (b x0 : β → Fin n → ℝ) (lstsq : Lstsq β) (stored : Option (Precond β n))
    (rtol atol : ℝ) (hr : rtol < 1) (ha : 0 ≤ atol) (miter : ℕ) (hm : 0 < miter) (ltol : ℝ) (hl : ltol ≤ atol)
    (hne : ∃ i, atol < rowNorm ((A i).mulVec (x0 i) - b i)) :
    let R := fun i => (A i).mulVec (x0 i) - b i
    let M := stored.getD (luPrecond A)
    let g := gmres A R x0 M lstsq ltol 1e-15 (n + 1) (max 1 ((n + 1) / 10))
    (∀ i, rowNorm (R i - (A i).mulVec (g.1 i)) < ltol) →
    let out := reuseSolve (fun x => (fun i => (A i).mulVec (x i) - b i, A)) lstsq stored x0 rtol atol miter ltol
    out.1.iters = 1 ∧ (∀ i, rowNorm ((A i).mulVec (out.1.x i) - b i) < ltol) ∧ (out.1.warned = true ↔ miter = 1) ∧
    out.2 = if n * 2 / 3 < g.2 then luPrecond A else M := by
  intro R M g hg out
  obtain ⟨m, rfl⟩ : ∃ m, miter = m + 1 := ⟨miter - 1, by omega⟩
  have hres : ∀ i, (A i).mulVec ((x0 - g.1) i) - b i = R i - (A i).mulVec (g.1 i) := by
    intro i
    simp only [R, Pi.sub_apply]
    rw [Matrix.mulVec_sub]
    abel
  have hnc : notConverged (fun i => some (rowNorm (R i))) (fun i => some (rowNorm (R i))) rtol atol := by
    obtain ⟨i, hi⟩ := hne
    refine ⟨⟨i, hi⟩, ⟨i, ?_⟩⟩
    simp only [gtRtol]
    have : 0 < rowNorm (R i) := lt_of_le_of_lt ha hi
    nlinarith
  have hc : ¬ notConverged (fun i => some (rowNorm ((A i).mulVec ((x0 - g.1) i) - b i))) (fun i => some (rowNorm (R i))) rtol atol := by
    rintro ⟨⟨i, hi⟩, -⟩
    simp only [hres, gtAtol] at hi
    have := hg i
    linarith
  have hloop : reuseLoop (fun x => (fun i => (A i).mulVec (x i) - b i, A)) lstsq rtol atol ltol (fun i => some (rowNorm (R i))) (m + 1) x0 M =
      ((x0 - g.1, if n * 2 / 3 < g.2 then luPrecond A else M), 1) := by
    rw [reuseLoop]
    simp only
    rw [if_pos hnc]
    cases m with
    | zero => rfl
    | succ m =>
      rw [reuseLoop]
      simp only
      rw [if_neg hc]
  have hout : out = ({ x := x0 - g.1, J := A, warned := decide (((1 : ℕ) : ℤ) = ((m + 1 : ℕ) : ℤ)), iters := 1, callerX0 := x0 - g.1 },
      if n * 2 / 3 < g.2 then luPrecond A else M) := by
    have key : ∀ r, reuseLoop (fun x => (fun i => (A i).mulVec (x i) - b i, A)) lstsq rtol atol ltol (fun i => some (rowNorm (R i))) (m + 1) x0 M = r →
        out = ({ x := r.1.1, J := A, warned := decide ((r.2 : ℤ) = ((m + 1 : ℕ) : ℤ)), iters := r.2, callerX0 := r.1.1 }, r.1.2) := by
      rintro _ rfl; rfl
    exact key _ hloop
  rw [hout]
  refine ⟨rfl, fun i => ?_, ?_, rfl⟩
  · rw [hres]; exact hg i
  · simp only [decide_eq_true_eq, Nat.cast_inj]
    omega

/-- **C70.** In particular a fresh object on an affine problem with fewer than nineteen unknowns: one update. -/
theorem C70_affine_fresh {n : ℕ} (hn : 1 ≤ n) (hn' : n < 19) (A : β → Matrix (Fin n) (Fin n) ℝ) (hA : ∀ i, IsUnit (A i).det)
    (b x0 : β → Fin n → ℝ) (lstsq : Lstsq β)
    (hl : ∀ h e i, (h 0 0 i) * (h 0 0 i * lstsq 1 h e 0 i - e 0 i) + (h 1 0 i) * (h 1 0 i * lstsq 1 h e 0 i - e 1 i) = 0)
    (rtol atol : ℝ) (hr : rtol < 1) (ha : 0 ≤ atol) (miter : ℕ) (hm : 0 < miter) (ltol : ℝ) (hlt : ltol ≤ atol)
    (hne : ∃ i, atol < rowNorm ((A i).mulVec (x0 i) - b i))
    (hz : ∀ i, b i ≠ 0) (htol : ∃ i, ltol ≤ rowNorm (b i))
    (hsmall : ∀ i, (1e-15 : ℝ) ^ 2 / (1 + (1e-15 : ℝ) ^ 2) * rowNorm (b i) < ltol) :
    (reuseSolve (fun x => (fun i => (A i).mulVec (x i) - b i, A)) lstsq none x0 rtol atol miter ltol).1.iters = 1 := by
  refine (C70_affine A b x0 lstsq none rtol atol hr ha miter hm ltol hlt hne ?_).1
  have hc : max 1 ((n + 1) / 10) = 1 := by omega
  have e : ∀ i, (A i).mulVec (x0 i) - b i - (A i).mulVec (x0 i) = (-1 : ℝ) • b i := by
    intro i; rw [neg_one_smul]; abel
  have e' : ∀ i, rowNorm ((A i).mulVec (x0 i) - b i - (A i).mulVec (x0 i)) = rowNorm (b i) := by
    intro i; rw [e, rowNorm_smul, abs_neg, abs_one, one_mul]
  intro i
  obtain ⟨-, h2⟩ := C68_exact_preconditioner_converges A (fun i => (A i).mulVec (x0 i) - b i) x0 (luPrecond A)
    (C68_lu_preconditioner_exact A hA) lstsq ltol 1e-15 (by norm_num) (n + 1) (by omega) hl
    (fun i => by rw [e]; simpa using hz i) (by simpa only [e'] using htol) (by simpa only [e'] using hsmall)
  simp only [Option.getD_none]
  rw [hc, h2 i, rowNorm_smul, abs_of_nonneg (by positivity), e']
  exact hsmall i

/-- Non-vacuity of C70: `2 x - 3 = 0` from `x0 = 0`, an exact least squares routine, default tolerances. -/
example : ∃ (lstsq : Lstsq Unit),
    (reuseSolve (fun x => (fun i => (!![2] : Matrix (Fin 1) (Fin 1) ℝ).mulVec (x i) - fun _ => 3, fun _ : Unit => !![2])) lstsq none 0 1e-6 1e-10
      (100 : ℕ) 1e-10).1.iters = 1 := by
  refine ⟨fun _ h e _ i => (h 0 0 i * e 0 i + h 1 0 i * e 1 i) / (h 0 0 i ^ 2 + h 1 0 i ^ 2), ?_⟩
  have hn : rowNorm (fun _ : Fin 1 => (3 : ℝ)) = 3 := by
    unfold rowNorm
    rw [Fin.sum_univ_one, Real.sqrt_sq (by norm_num)]
  refine C70_affine_fresh (β := Unit) (le_refl 1) (by norm_num) (fun _ => !![2]) (fun _ => by simp) (fun _ _ => 3) 0 _ ?_ 1e-6 1e-10 (by norm_num)
    (by norm_num) 100 (by norm_num) 1e-10 le_rfl ⟨(), ?_⟩ (fun i h => ?_) ⟨(), by rw [hn]; norm_num⟩ (fun i => by rw [hn]; norm_num)
  · intro h e i
    by_cases hz : h 0 0 i ^ 2 + h 1 0 i ^ 2 = 0
    · have h0 : h 0 0 i = 0 := by nlinarith [sq_nonneg (h 0 0 i), sq_nonneg (h 1 0 i)]
      have h1 : h 1 0 i = 0 := by nlinarith [sq_nonneg (h 0 0 i), sq_nonneg (h 1 0 i)]
      rw [h0, h1]; ring
    · field_simp
      ring
  · have : (!![2] : Matrix (Fin 1) (Fin 1) ℝ).mulVec ((0 : Unit → Fin 1 → ℝ) ()) - (fun _ => 3) = (-1 : ℝ) • fun _ : Fin 1 => (3 : ℝ) := by
      simp only [Pi.zero_apply, Matrix.mulVec_zero, zero_sub, neg_one_smul]
    rw [this, rowNorm_smul, hn]; norm_num
  · have := congrFun h 0
    simp at this

end Pyoptmat.Props
