import Verif.Proofs.FiniteDiff

/-!
# Properties C49, C50: finite differences, the neural ODE

`none` is a division by zero (`inf` or `nan` in the code). A batched function is *lane-wise* if `fn x b = g b (x b)`.
-/

namespace Pyoptmat.Props

open Pyoptmat.FiniteDiff

section
variable {β : Type} {n p : ℕ}

/-- **C49** (`batch_differentiate` and `new_differentiate` are exact on affine functions). For every batch, every lane-wise affine function,
every point (the origin included) and every positive `eps` the result is the matrix of the function. -/
theorem C49_affine (A : β → Fin p → Fin n → ℝ) (c : β → Fin p → ℝ) (eps : ℝ) (heps : 0 < eps) (x0 : β → Fin n → ℝ) :
    let fn : (β → Fin n → ℝ) → β → Fin p → ℝ := fun x b i => ∑ k, A b i k * x b k + c b i
    (∀ b i j, batchDifferentiate fn eps x0 b i j = some (A b i j)) ∧
    ∀ b i j, newDifferentiate fn eps x0 b i j = some (A b i j) := by
  intro fn
  have key : ∀ b i j, fdiv (fn (x0 + bump eps x0 j) b i - fn x0 b i) (inc eps (x0 b j)) = some (A b i j) := by
    intro b i j
    have hp := inc_pos heps (x0 b j)
    rw [fdiv_some hp.ne']
    congr 1
    rw [div_eq_iff hp.ne']
    simp only [fn, Pi.add_apply, bump, mul_add, Finset.sum_add_distrib, mul_ite, mul_zero, Finset.sum_ite_eq', Finset.mem_univ,
      if_true]
    ring
  exact ⟨key, key⟩

/-- **C49** (what it returns in general). On every lane-wise function differentiable along component `j`, the entry is finite, and is the
derivative along component `j` at a point between the argument and the argument moved by at most `max |x_j| 1 * eps`. -/
theorem C49_mean_value (g : β → (Fin n → ℝ) → Fin p → ℝ) (eps : ℝ) (heps : 0 < eps) (x0 : β → Fin n → ℝ) (b : β) (i : Fin p) (j : Fin n)
    (g' : ℝ → ℝ) (hg : ∀ s, HasDerivAt (fun s => g b (Function.update (x0 b) j s) i) (g' s) s) :
    ∃ ξ, x0 b j < ξ ∧ ξ < x0 b j + max |x0 b j| 1 * eps ∧
      batchDifferentiate (fun x b => g b (x b)) eps x0 b i j = some (g' ξ) := by
  have hp := inc_pos heps (x0 b j)
  obtain ⟨ξ, hξ, e⟩ := exists_hasDerivAt_eq_slope (fun s => g b (Function.update (x0 b) j s) i) g'
    (a := x0 b j) (b := x0 b j + inc eps (x0 b j)) (by linarith)
    (fun s _ => (hg s).continuousAt.continuousWithinAt) (fun s _ => hg s)
  refine ⟨ξ, hξ.1, by rw [← inc_eq heps]; exact hξ.2, ?_⟩
  unfold batchDifferentiate
  rw [fdiv_some hp.ne', e]
  simp only [add_bump, Function.update_eq_self]
  congr 2
  ring

/-- **C49** (consistency). As `eps` goes to zero from above the entry tends to the partial derivative. -/
theorem C49_limit (g : β → (Fin n → ℝ) → Fin p → ℝ) (x0 : β → Fin n → ℝ) (b : β) (i : Fin p) (j : Fin n) (g' : ℝ)
    (hg : HasDerivAt (fun s => g b (Function.update (x0 b) j s) i) g' (x0 b j)) :
    Filter.Tendsto (fun eps => (batchDifferentiate (fun x b => g b (x b)) eps x0 b i j).getD 0) (nhdsWithin 0 (Set.Ioi 0)) (nhds g') := by
  have hc : (0 : ℝ) < max |x0 b j| 1 := lt_max_of_lt_right one_pos
  refine (tendsto_forward hg hc).congr' ?_
  filter_upwards [self_mem_nhdsWithin] with e he
  have he' : 0 < e := he
  have hp := inc_pos he' (x0 b j)
  unfold batchDifferentiate
  rw [fdiv_some hp.ne', Option.getD_some, inc_eq he']
  simp only [add_bump, Function.update_eq_self, inc_eq he']

/-- **C49** (`new_differentiate` of scalars). With a batch of scalars the increment of the first batch entry serves for all; affine
functions are still differentiated exactly, in every batch entry. -/
theorem C49_new_scalar (b0 : β) (A c : β → Fin p → ℝ) (eps : ℝ) (heps : 0 < eps) (x0 : β → ℝ) (b : β) (k : Fin p) :
    newDifferentiateScalar b0 (fun x b i => A b i * x b + c b i) eps x0 b k = some (A b k) := by
  have hp := inc_pos heps (x0 b0)
  unfold newDifferentiateScalar
  rw [fdiv_some hp.ne']
  congr 1
  rw [div_eq_iff hp.ne']
  ring

/-- **C49** (`differentiate` of scalars). For batches of scalars `differentiate` is exact on affine functions at every entry that is not zero,
and divides by zero at every entry that is zero, for every function. -/
theorem C49_scalar_origin (fn : (β → ℝ) → β → ℝ) (A c : β → ℝ) (eps : ℝ) (heps : 0 < eps) (x0 : β → ℝ) (b : β) :
    (x0 b ≠ 0 → differentiateScalar (fun x b => A b * x b + c b) eps x0 b = some (A b)) ∧
    (x0 b = 0 → differentiateScalar fn eps x0 b = none) := by
  unfold differentiateScalar
  constructor
  · intro h
    have hp : |x0 b| * eps ≠ 0 := mul_ne_zero (abs_ne_zero.mpr h) heps.ne'
    rw [fdiv_some hp]
    congr 1
    rw [div_eq_iff hp]
    ring
  · intro h
    simp [h, fdiv]

/-- **C49** (`differentiate` of vectors: only the diagonal is finite). With `n ≥ 2` components of argument and value, whatever the function:
every entry off the diagonal is a division by zero; entries on the diagonal are those of `batch_differentiate`. When the numbers of
components differ, the call fails. -/
theorem C49_vector_offdiagonal (fn : (β → Fin n → ℝ) → β → Fin p → ℝ) (eps : ℝ) (heps : 0 < eps) (x0 : β → Fin n → ℝ) (hn : 2 ≤ n) :
    (p ≠ n → ∃ e, differentiateVec fn eps x0 = .error e) ∧
    (p = n → ∃ d, differentiateVec fn eps x0 = .ok d ∧ ∀ b i j,
      (i.val ≠ j.val → d b i j = none) ∧ (i.val = j.val → d b i j = batchDifferentiate fn eps x0 b i j ∧ d b i j ≠ none)) := by
  have h1 : n ≠ 1 := by omega
  have h0 : n ≠ 0 := by omega
  unfold differentiateVec
  refine ⟨fun h => ⟨"shape mismatch", by simp [h1, h, h0]⟩, ?_⟩
  rintro rfl
  refine ⟨_, by simp [h1]; rfl, fun b i j => ⟨fun hne => ?_, fun he => ?_⟩⟩
  · have : i ≠ j := fun h => hne (by rw [h])
    simp [bump, this, fdiv]
  · have : i = j := Fin.ext he
    subst this
    have hp := inc_pos heps (x0 b i)
    simp [bump, fdiv, hp.ne', batchDifferentiate]

/-- **C49** (`differentiate` of one component). With one component of the argument `differentiate` does what `batch_differentiate` does,
for vector valued functions of any length, and scalar functions of two or more components are refused. -/
theorem C49_single_component (fn : (β → Fin 1 → ℝ) → β → Fin p → ℝ) (eps : ℝ) (x0 : β → Fin 1 → ℝ)
    (fs : (β → Fin n → ℝ) → β → ℝ) (y0 : β → Fin n → ℝ) :
    differentiateVec fn eps x0 = .ok (batchDifferentiate fn eps x0) ∧
    (2 ≤ n → ∃ e, differentiateGrad fs eps y0 = .error e) := by
  constructor
  · simp [differentiateVec, bump, batchDifferentiate]
  · intro h
    exact ⟨"shape is invalid for input", by simp [differentiateGrad, show ¬ n ≤ 1 by omega]⟩

/-- **C49** (matrix valued functions). A matrix valued lane-wise affine function of a batch of `nb ≥ 2` entries: the call fails unless the number of
rows `p` is `nb`, and then row `i` of *every* entry is divided by the increment of batch entry `i`: the derivative is wrong by the
factor of the two increments, so right at `(b, i)` exactly if the entry vanishes or the increments agree. -/
theorem C49_matrix_rows_mixed {nb q : ℕ} (A : Fin nb → Fin p → Fin q → Fin n → ℝ) (c : Fin nb → Fin p → Fin q → ℝ) (eps : ℝ)
    (heps : 0 < eps) (x0 : Fin nb → Fin n → ℝ) (hnb : 2 ≤ nb) :
    let fn : (Fin nb → Fin n → ℝ) → Fin nb → Fin p → Fin q → ℝ := fun x b i k => ∑ l, A b i k l * x b l + c b i k
    (p ≠ nb → ∃ e, batchDifferentiateMat fn eps x0 = .error e) ∧
    ∀ h : p = nb, ∃ d, batchDifferentiateMat fn eps x0 = .ok d ∧ ∀ b i k j,
      d b i k j = some (A b i k j * (max |x0 b j| 1 / max |x0 (Fin.cast h i) j| 1)) ∧
      (d b i k j = some (A b i k j) ↔ A b i k j = 0 ∨ max |x0 b j| 1 = max |x0 (Fin.cast h i) j| 1) := by
  intro fn
  have h1 : nb ≠ 1 := by omega
  refine ⟨fun h => ⟨"The expanded size of the tensor must match the existing size", ?_⟩, fun h => ?_⟩
  · unfold batchDifferentiateMat
    simp [h1, h]
  · have key : ∀ b i k j, fdiv (fn (x0 + bump eps x0 j) b i k - fn x0 b i k) (inc eps (x0 (Fin.cast h i) j)) =
        some (A b i k j * (max |x0 b j| 1 / max |x0 (Fin.cast h i) j| 1)) := by
      intro b i k j
      have hp := inc_pos heps (x0 (Fin.cast h i) j)
      have hc : (0 : ℝ) < max |x0 (Fin.cast h i) j| 1 := lt_max_of_lt_right one_pos
      rw [fdiv_some hp.ne']
      congr 1
      rw [div_eq_iff hp.ne', inc_eq heps]
      simp only [fn, Pi.add_apply, bump, mul_add, Finset.sum_add_distrib, mul_ite, mul_zero, Finset.sum_ite_eq', Finset.mem_univ,
        if_true, inc_eq heps]
      field_simp
      ring
    refine ⟨_, by unfold batchDifferentiateMat; simp only [h1, h, if_false, dif_pos]; rfl, fun b i k j => ?_⟩
    have e := key b i k j
    refine ⟨e, ?_⟩
    have hc : (0 : ℝ) < max |x0 (Fin.cast h i) j| 1 := lt_max_of_lt_right one_pos
    refine Iff.trans (b := some (A b i k j * (max |x0 b j| 1 / max |x0 (Fin.cast h i) j| 1)) = some (A b i k j)) ?_ ?_
    · rw [← e]
    · rw [Option.some_inj]
      constructor
      · intro he
        by_cases hA : A b i k j = 0
        · exact .inl hA
        · right
          have : max |x0 b j| 1 / max |x0 (Fin.cast h i) j| 1 = 1 := mul_left_cancel₀ hA (by linarith)
          rwa [div_eq_one_iff_eq hc.ne'] at this
      · rintro (h0 | he)
        · rw [h0, zero_mul]
        · rw [he, div_self hc.ne', mul_one]

end

/-- Non-vacuity: the origin, where `differentiate` fails and `batch_differentiate` does not. -/
example : batchDifferentiate (fun (x : Unit → Fin 1 → ℝ) b _ => ∑ k, (fun _ _ _ => 3 : Unit → Fin 1 → Fin 1 → ℝ) b 0 k * x b k + 2) 1e-6
      (fun _ _ => 0) () (0 : Fin 1) 0 = some 3 ∧
    differentiateScalar (fun (x : Unit → ℝ) b => 3 * x b + 2) 1e-6 (fun _ => 0) () = none := by
  refine ⟨(C49_affine (β := Unit) (n := 1) (p := 1) (fun _ _ _ => 3) (fun _ _ => 2) 1e-6 (by norm_num) (fun _ _ => 0)).1 () 0 0,
    (C49_scalar_origin (β := Unit) (fun x b => 3 * x b + 2) 1 0 1e-6 (by norm_num) _ ()).2 rfl⟩

/-! ### C50 -/

/-- **C50** (with at least one force the Jacobian is the state Jacobian). The first result is the network at the state and the force; the second has one column for each
state component, and is the matrix of the derivative of the rate as a function of the state, the force being held. -/
theorem C50_state_jacobian {m f p : ℕ} (hf : 0 < f) (model : (Fin (m + f) → ℝ) → Fin p → ℝ) (force : ℝ → Fin f → ℝ) (t : ℝ) (y : Fin m → ℝ)
    (hd : DifferentiableAt ℝ model (Fin.append y (force t))) :
    (neuralOde model force t y).1 = model (Fin.append y (force t)) ∧
    ∃ hm : m = sliceStop (m + f) (-(f : ℤ)),
      ∀ i j, HasDerivAt (fun s => model (Fin.append (Function.update y j s) (force t)) i)
        ((neuralOde model force t y).2 i (Fin.cast hm j)) (y j) := by
  refine ⟨rfl, (sliceStop_neg m f hf).symm, fun i j => ?_⟩
  have hmap : ∀ s, Fin.append (Function.update y j s) (force t) =
      Function.update (Fin.append y (force t)) (Fin.castAdd f j) s := by
    intro s
    funext k
    refine Fin.addCases (fun k => ?_) (fun k => ?_) k
    · by_cases hk : k = j
      · subst hk; simp
      · have : Fin.castAdd f k ≠ Fin.castAdd f j := fun h => hk (Fin.castAdd_injective m f h)
        simp [hk, this]
    · have : Fin.natAdd m k ≠ Fin.castAdd f j := by
        intro h
        have := congrArg Fin.val h
        simp at this
        have := j.isLt
        omega
      simp [this]
  have h1 : HasDerivAt (fun s => Function.update (Fin.append y (force t)) (Fin.castAdd f j) s)
      (Pi.single (Fin.castAdd f j) (1 : ℝ)) (y j) := hasDerivAt_update _ _ _
  have hx : Function.update (Fin.append y (force t)) (Fin.castAdd f j) (y j) = Fin.append y (force t) := by
    rw [← hmap, Function.update_eq_self]
  have hd' : HasFDerivAt model (fderiv ℝ model (Fin.append y (force t)))
      (Function.update (Fin.append y (force t)) (Fin.castAdd f j) (y j)) := by
    rw [hx]; exact hd.hasFDerivAt
  have h2 := hd'.comp_hasDerivAt (y j) h1
  have h3 := (hasDerivAt_pi.mp h2) i
  simp only [Function.comp] at h3
  simp only [hmap]
  have e : (neuralOde model force t y).2 i (Fin.cast (sliceStop_neg m f hf).symm j) =
      fderiv ℝ model (Fin.append y (force t)) (Pi.single (Fin.castAdd f j) (1 : ℝ)) i := by
    change fderiv ℝ model (Fin.append y (force t)) (fun k => if k.val = j.val then 1 else 0) i = _
    refine congrArg (fun v => fderiv ℝ model (Fin.append y (force t)) v i) ?_
    funext k
    by_cases hk : k = Fin.castAdd f j
    · subst hk; simp
    · have : k.val ≠ j.val := fun h => hk (Fin.ext h)
      simp [hk, this]
  rw [e]
  exact h3

/-- **C50** (without forces the Jacobian is empty). With force arrays of width zero the slice `[..., : -0]` drops every column, whatever the
network and the number of states: the second result has no column at all, although the state has `m`. -/
theorem C50_no_force_empty {m p : ℕ} (model : (Fin (m + 0) → ℝ) → Fin p → ℝ) (force : ℝ → Fin 0 → ℝ) (t : ℝ) (y : Fin m → ℝ) :
    (neuralOde model force t y).1 = model y ∧ IsEmpty (Fin (sliceStop (m + 0) (-((0 : ℕ) : ℤ)))) := by
  constructor
  · change model (Fin.append y (force t)) = model y
    congr 1
    funext k
    exact Fin.addCases (m := m) (n := 0) (fun k => Fin.append_left y (force t) k) (fun k => k.elim0) k
  · rw [sliceStop_zero]
    infer_instance

/-- Non-vacuity: a network `y ↦ 2 y + 5 f` has state Jacobian `2`. -/
example : (neuralOde (m := 1) (f := 1) (p := 1) (fun x _ => 2 * x 0 + 5 * x 1) (fun t _ => t) 3 (fun _ => 7)).1 0 = 29 := by
  simp [neuralOde, Fin.append, Fin.addCases]
  norm_num

example : DifferentiableAt ℝ (fun (x : Fin (1 + 1) → ℝ) (_ : Fin 1) => 2 * x 0 + 5 * x 1) (Fin.append (fun _ : Fin 1 => (7 : ℝ)) (fun _ => 3)) := by
  fun_prop

end Pyoptmat.Props
