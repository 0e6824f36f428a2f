import Verif.Proofs.BlockNewton

/-!
# Properties C14-C16, C18, C23, C69: block time integration
-/

namespace Pyoptmat.Props

open Pyoptmat.Chunktime Pyoptmat.Newton Pyoptmat.Spec Pyoptmat.Ode

variable {β : Type*} {m : ℕ}

/-! ## C14 -/

/-- **C14.** Whenever `integrate` returns (block size at least 1), the result has one state for each of the
`nt` times, none uninitialised, none beyond, and the first is `y0`. -/
theorem C14_every_time_filled (c : Config) (f : BFunc β m) (y0 : BVec β m ℝ) (nt : ℕ) (t : ℕ → β → ℝ)
    (n : ℤ) (hn : 0 < n) (res : Partial β m) (w : Bool)
    (h : integrate c f y0 nt t n = .ok (res, w)) :
    (∀ k, (∃ v, res k = some v) ↔ k < nt) ∧ res 0 = some y0 := by
  obtain ⟨h0, h1, h2, -, h4⟩ := integrate_spec c f y0 nt t n hn res w h
  refine ⟨fun k => ⟨fun ⟨v, hv⟩ => ?_, h4 k⟩, h1⟩
  by_contra hk
  rw [h2 k (by omega)] at hv
  exact absurd hv (by simp)

/-- **C14.** Without `throw_on_fail` and with the default guess, `integrate` always returns, for every right hand
side, at least one time and every block size `≥ 1`. -/
theorem C14_always_returns (c : Config) (hthr : c.throwOnFail = false) (hg : c.guessType = "zero")
    (f : BFunc β m) (y0 : BVec β m ℝ) (nt : ℕ) (hnt : 0 < nt) (t : ℕ → β → ℝ) (n : ℤ) (hn : 0 < n) :
    ∃ res w, integrate c f y0 nt t n = .ok (res, w) := by
  obtain ⟨res, w, h, -⟩ := integrate_ok c f y0 nt hnt t n hn (Or.inl hg) (fun _ => True) trivial
    (fun _ _ _ _ => trivial) (by
      intro k _ _ yS g
      unfold blockNewton newtonChunk
      rw [hthr]
      simp only [Bool.false_eq_true, if_false]
      split_ifs with ha
      · exact ⟨_, rfl, trivial⟩
      · exact ⟨_, rfl, trivial⟩)
  exact ⟨res, w, h⟩

/-- **C14.** A block size of zero is an error; a negative one silently returns a result of which only row 0 was
ever written. -/
theorem C14_bad_block_size (c : Config) (f : BFunc β m) (y0 : BVec β m ℝ) (nt : ℕ) (hnt : 0 < nt)
    (t : ℕ → β → ℝ) (n : ℤ) :
    (n = 0 → ∃ e, integrate c f y0 nt t n = .error e) ∧
    (n < 0 → ∃ res, integrate c f y0 nt t n = .ok (res, false) ∧ ∀ k, 0 < k → res k = none) := by
  constructor
  · rintro rfl
    exact ⟨"range() arg 3 must not be zero", by simp [integrate, blockStarts, show nt ≠ 0 by omega]⟩
  · intro h
    refine ⟨fun j => if j = 0 then some y0 else none, ?_, ?_⟩
    · unfold integrate blockStarts
      rw [if_neg (by omega), if_neg (by omega), if_pos h]
      rfl
    · intro k hk; simp; omega

/-! ## C15 -/

/-- **C15.** The backward Euler block residual vanishes exactly when the rows of the block satisfy the
step-by-step backward Euler formula (the rows are `y_start` followed by `y_start + dy_j`). -/
theorem C15_block_root_iff (f : Func β m) {n : ℕ} (T : Fin n → β → ℝ) (tStart : β → ℝ)
    (yStart : BVec β m ℝ) (dy : β → Fin (n * m) → ℝ) (t : ℕ → β → ℝ) (y : ℕ → BVec β m ℝ)
    (ht0 : t 0 = tStart) (hy0 : y 0 = yStart) (ht : ∀ j : Fin n, t (j.val + 1) = T j)
    (hy : ∀ j : Fin n, y (j.val + 1) = unflatten dy j + yStart) :
    (blockRJ .backwardEuler f T tStart yStart dy).1 = 0 ↔
      IsBackwardEuler (fun b t y => (f b t y).1) (n + 1) t y := by
  rw [unflatten_eq_zero_iff]
  have key := blockRJ_residual .backwardEuler f T tStart yStart dy t y 0 ht0 hy0
    (fun j => by rw [← ht j]; congr 1; omega) (fun j => by rw [← hy j]; congr 1; omega)
  constructor
  · intro h k b hk
    have h1 := key ⟨k, by omega⟩ b
    rw [h] at h1
    simp only [defect, backwardDefect, Nat.zero_add] at h1
    have h2 := h1.symm
    rw [sub_sub, sub_eq_zero] at h2
    exact h2
  · intro h j b
    rw [key j b]
    simp only [defect, backwardDefect, Nat.zero_add]
    rw [sub_sub, sub_eq_zero]
    exact h j.val b (by omega)

/-- **C15.** Tolerance form, for both schemes: when `integrate` with the default guess returns without warning,
in every block (first row `k+1`, `len` rows) the defects of its steps, taken together, are at most `atol` for
every batch entry, or at most `rtol` times the size of the increments `dt f` at the start of the block for
every batch entry. -/
theorem C15_defect_within_tolerance (c : Config) (hm : 0 ≤ c.miter) (hg : c.guessType = "zero")
    (f : Func β m) (y0 : BVec β m ℝ) (nt : ℕ) (t : ℕ → β → ℝ) (n : ℤ) (hn : 0 < n) (res : Partial β m)
    (h : integrate c f y0 nt t n = .ok (res, false)) (i : ℕ) (hi : i * n.toNat + 1 < nt) :
    let k := i * n.toNat
    let len := min n.toNat (nt - 1 - k)
    let g : β → ℝ → (Fin m → ℝ) → Fin m → ℝ := fun b t y => (f b t y).1
    match c.scheme with
    | .backwardEuler =>
      MetTolerance (fun b => rowsNorm len fun j => backwardDefect g t res.get (k + j) b)
        (fun b => rowsNorm len fun j =>
          (t (k + j + 1) b - t (k + j) b) • g b (t (k + j + 1) b) (res.get k b)) c.rtol c.atol
    | .forwardEuler =>
      MetTolerance (fun b => rowsNorm len fun j => forwardDefect g t res.get (k + j) b)
        (fun b => rowsNorm len fun j =>
          (t (k + j + 1) b - t (k + j) b) • g b (t (k + j) b) (res.get k b)) c.rtol c.atol := by
  intro k len g
  obtain ⟨-, -, -, h4, -⟩ := integrate_spec c f y0 nt t n hn res false h
  have hib : i < nblocks nt n.toNat := by
    unfold nblocks
    rw [Nat.lt_div_iff_mul_lt (by omega)]
    have : n.toNat * i = i * n.toNat := Nat.mul_comm _ _
    omega
  have hb := h4 i hib
  rw [Nat.add_comm] at hb
  obtain ⟨guess, hz, htol⟩ := block_tolerance hm hb
  have hz := hz hg
  subst hz
  have hlen : sliceLen nt (i * n.toNat + 1) n.toNat = len := by
    unfold sliceLen; omega
  have hres : ∀ (j : Fin (sliceLen nt (i * n.toNat + 1) n.toNat)) (b : β),
      unflatten (blockRJ c.scheme f (fun j : Fin (sliceLen nt (i * n.toNat + 1) n.toNat) =>
        t (i * n.toNat + 1 + j.val)) (t (i * n.toNat)) (res.get (i * n.toNat)) 0).1 j b =
      defect c.scheme f t (fun _ => res.get k) (k + j.val) b := by
    intro j b
    exact blockRJ_residual c.scheme f _ _ _ 0 t (fun _ => res.get k) k rfl rfl (fun _ => rfl)
      (fun j => by funext b r; simp [unflatten, k]) j b
  have h0 : ∀ b, rowNorm ((blockRJ c.scheme f (fun j : Fin (sliceLen nt (i * n.toNat + 1) n.toNat) =>
        t (i * n.toNat + 1 + j.val)) (t (i * n.toNat)) (res.get (i * n.toNat)) 0).1 b) =
      rowsNorm len fun j => defect c.scheme f t (fun _ => res.get k) (k + j) b := by
    intro b
    rw [← hlen]
    exact rowNorm_eq_rowsNorm _ b _ fun j => hres j b
  simp only [h0, hlen] at htol
  have hneg : ∀ (L : ℕ) (d d' : ℕ → Fin m → ℝ), (∀ j, d j = -d' j) → rowsNorm L d = rowsNorm L d' := by
    intro L d d' hdd
    unfold rowsNorm
    simp [hdd]
  cases hs : c.scheme with
  | backwardEuler =>
    rw [hs] at htol
    simp only
    have : ∀ b, (rowsNorm len fun j => defect .backwardEuler f t (fun _ => res.get k) (k + j) b) =
        rowsNorm len fun j => (t (k + j + 1) b - t (k + j) b) • g b (t (k + j + 1) b) (res.get k b) := by
      intro b
      refine hneg _ _ _ fun j => ?_
      simp [defect, backwardDefect, rate, g]
    simp only [this] at htol
    exact htol
  | forwardEuler =>
    rw [hs] at htol
    simp only
    have : ∀ b, (rowsNorm len fun j => defect .forwardEuler f t (fun _ => res.get k) (k + j) b) =
        rowsNorm len fun j => (t (k + j + 1) b - t (k + j) b) • g b (t (k + j) b) (res.get k b) := by
      intro b
      refine hneg _ _ _ fun j => ?_
      simp [defect, forwardDefect, rate, g]
    simp only [this] at htol
    exact htol

theorem exact_defect {c : Config} (hm : 0 ≤ c.miter) (hr : c.rtol = 0) (ha : c.atol = 0)
    {f : Func β m} {y0 : BVec β m ℝ} {nt : ℕ} {t : ℕ → β → ℝ} {n : ℤ} (hn : 0 < n) {res : Partial β m}
    (h : integrate c f y0 nt t n = .ok (res, false)) :
    ∀ k, k + 1 < nt → ∀ b, defect c.scheme f t res.get k b = 0 := by
  obtain ⟨-, -, -, h4, -⟩ := integrate_spec c f y0 nt t n hn res false h
  refine all_rows (N := n.toNat) (by omega) ?_
  intro i hi j hj b
  have hb := h4 i hi
  rw [Nat.add_comm] at hb
  obtain ⟨guess, -, htol⟩ := block_tolerance hm hb
  rw [hr, ha] at htol
  have hz : rowsNorm (sliceLen nt (i * n.toNat + 1) n.toNat)
      (fun j => defect c.scheme f t res.get (i * n.toNat + j) b) ≤ 0 := by
    rcases htol with h | h
    · exact h b
    · simpa using h b
  exact rowsNorm_eq_zero hz hj

/-- **C15.** Exact form: with zero tolerances, an unwarned backward Euler integration in blocks of any size
returns a trajectory satisfying the step-by-step backward Euler formula at every time. -/
theorem C15_exact_blocks_are_backward_euler (c : Config) (hs : c.scheme = .backwardEuler) (hm : 0 ≤ c.miter)
    (hr : c.rtol = 0) (ha : c.atol = 0) (f : Func β m) (y0 : BVec β m ℝ) (nt : ℕ) (t : ℕ → β → ℝ) (n : ℤ)
    (hn : 0 < n) (res : Partial β m) (h : integrate c f y0 nt t n = .ok (res, false)) :
    IsBackwardEuler (fun b t y => (f b t y).1) nt t res.get := by
  intro k b hk
  have := exact_defect hm hr ha hn h k hk b
  rw [hs] at this
  simp only [defect, backwardDefect] at this
  rw [sub_sub, sub_eq_zero] at this
  exact this

/-- **C15.** Hence the result does not depend on the block size (or on the linear solver, the guess or the
iteration limit) whenever each implicit step has at most one solution. -/
theorem C15_block_size_independent (c c' : Config) (hs : c.scheme = .backwardEuler)
    (hs' : c'.scheme = .backwardEuler) (hm : 0 ≤ c.miter) (hm' : 0 ≤ c'.miter)
    (hr : c.rtol = 0) (ha : c.atol = 0) (hr' : c'.rtol = 0) (ha' : c'.atol = 0)
    (f : Func β m) (y0 : BVec β m ℝ) (nt : ℕ) (t : ℕ → β → ℝ) (n n' : ℤ)
    (hn : 0 < n) (hn' : 0 < n') (res res' : Partial β m)
    (hu : ∀ k b (y z z' : Fin m → ℝ), k + 1 < nt →
      z = y + (t (k + 1) b - t k b) • (f b (t (k + 1) b) z).1 →
      z' = y + (t (k + 1) b - t k b) • (f b (t (k + 1) b) z').1 → z = z')
    (h : integrate c f y0 nt t n = .ok (res, false)) (h' : integrate c' f y0 nt t n' = .ok (res', false)) :
    ∀ k, k < nt → res k = res' k := by
  have e := C15_exact_blocks_are_backward_euler c hs hm hr ha f y0 nt t n hn res h
  have e' := C15_exact_blocks_are_backward_euler c' hs' hm' hr' ha' f y0 nt t n' hn' res' h'
  obtain ⟨f1, f2⟩ := C14_every_time_filled c f y0 nt t n hn res false h
  obtain ⟨f1', f2'⟩ := C14_every_time_filled c' f y0 nt t n' hn' res' false h'
  have hget : ∀ k, k < nt → res.get k = res'.get k := by
    intro k
    induction k with
    | zero => intro _; unfold Partial.get; rw [f2, f2']
    | succ k ih =>
      intro hk
      funext b
      have a1 := e k b hk
      have a2 := e' k b hk
      rw [← ih (by omega)] at a2
      exact hu k b _ _ _ hk a1 a2
  intro k hk
  obtain ⟨v, hv⟩ := (f1 k).2 hk
  obtain ⟨v', hv'⟩ := (f1' k).2 hk
  have := hget k hk
  unfold Partial.get at this
  rw [hv, hv'] at this ⊢
  simpa using this

/-! ## C16 -/

/-- **C16.** The root of the forward Euler block residual is the explicit Euler recursion. -/
theorem C16_block_root_iff (f : Func β m) {n : ℕ} (T : Fin n → β → ℝ) (tStart : β → ℝ)
    (yStart : BVec β m ℝ) (dy : β → Fin (n * m) → ℝ) (t : ℕ → β → ℝ) (y : ℕ → BVec β m ℝ)
    (ht0 : t 0 = tStart) (hy0 : y 0 = yStart) (ht : ∀ j : Fin n, t (j.val + 1) = T j)
    (hy : ∀ j : Fin n, y (j.val + 1) = unflatten dy j + yStart) :
    (blockRJ .forwardEuler f T tStart yStart dy).1 = 0 ↔
      IsForwardEuler (fun b t y => (f b t y).1) (n + 1) t y := by
  rw [unflatten_eq_zero_iff]
  have key := blockRJ_residual .forwardEuler f T tStart yStart dy t y 0 ht0 hy0
    (fun j => by rw [← ht j]; congr 1; omega) (fun j => by rw [← hy j]; congr 1; omega)
  constructor
  · intro h k b hk
    have h1 := key ⟨k, by omega⟩ b
    rw [h] at h1
    simp only [defect, forwardDefect, Nat.zero_add] at h1
    have h2 := h1.symm
    rw [sub_sub, sub_eq_zero] at h2
    exact h2
  · intro h j b
    rw [key j b]
    simp only [defect, forwardDefect, Nat.zero_add]
    rw [sub_sub, sub_eq_zero]
    exact h j.val b (by omega)

/-- **C16.** After `j` Newton updates on a forward Euler block, the first `j` steps satisfy the explicit Euler
formula exactly, whatever the right hand side, whatever Jacobian it reports, whatever the starting guess and
the linear solver. -/
theorem C16_row_exact_after_updates (f : Func β m) {n : ℕ} (hn : 0 < n) (T : Fin n → β → ℝ)
    (tStart : β → ℝ) (yStart : BVec β m ℝ) (meth : SolveMethod) (guess : β → Fin (n * m) → ℝ) (j : ℕ)
    (hj : j ≤ n) (t : ℕ → β → ℝ) (y : ℕ → BVec β m ℝ) (ht0 : t 0 = tStart) (hy0 : y 0 = yStart)
    (ht : ∀ j : Fin n, t (j.val + 1) = T j)
    (hy : ∀ i : Fin n, y (i.val + 1) = unflatten (newtonIterate (blockRJ .forwardEuler f T tStart yStart)
      (fun J R => solve meth J R) (fun x dx => x - dx) guess j) i + yStart) :
    IsForwardEuler (fun b t y => (f b t y).1) (j + 1) t y := by
  have key := blockRJ_residual .forwardEuler f T tStart yStart _ t y 0 ht0 hy0
    (fun j => by rw [← ht j]; congr 1; omega) (fun j => by rw [← hy j]; congr 1; omega)
  intro k b hk
  have h1 := key ⟨k, by omega⟩ b
  rw [fe_newton_rows f T tStart yStart hn meth guess j ⟨k, by omega⟩ (by simp; omega) b] at h1
  simp only [defect, forwardDefect, Nat.zero_add] at h1
  have h2 := h1.symm
  rw [sub_sub, sub_eq_zero] at h2
  exact h2

/-- **C16.** Forward Euler integration in blocks with zero tolerances and at least `block_size + 1` allowed
updates always succeeds without warning and returns exactly the explicit Euler trajectory, for every right
hand side. -/
theorem C16_integrate_is_explicit_euler (c : Config) (hs : c.scheme = .forwardEuler)
    (hr : c.rtol = 0) (ha : c.atol = 0) (f : Func β m) (y0 : BVec β m ℝ) (nt : ℕ) (hnt : 0 < nt)
    (t : ℕ → β → ℝ) (n : ℤ) (hn : 0 < n) (hm : n < c.miter)
    (hg : c.guessType = "zero" ∨ (c.guessType = "previous" ∧ n ≤ (nt : ℤ) - 1)) :
    ∃ res, integrate c f y0 nt t n = .ok (res, false) ∧ res 0 = some y0 ∧
      IsForwardEuler (fun b t y => (f b t y).1) nt t res.get := by
  obtain ⟨res, w, h, hw⟩ := integrate_ok c f y0 nt hnt t n hn hg (fun w => w = false) rfl
    (fun a b h1 h2 => by simp [h1, h2]) (by
      intro k hk1 hk2 yS g
      have hlen : 0 < sliceLen nt k n.toNat := by unfold sliceLen; omega
      have hlen' : sliceLen nt k n.toNat ≤ n.toNat := by unfold sliceLen; omega
      unfold blockNewton
      refine newton_succeeds _ _ _ (fun (R : β → Fin (sliceLen nt k n.toNat * m) → ℝ) (b : β) => rowNorm (R b))
        g _ _ _ _ (sliceLen nt k n.toNat) (by omega) ?_
      left
      intro b
      have hz := fe_newton_rows f (fun j : Fin (sliceLen nt k n.toNat) => t (k + j.val)) (t (k - 1)) yS hlen
        c.method g (sliceLen nt k n.toNat)
      have := unflatten_eq_zero_iff.2 fun j b => hz j j.2 b
      rw [hs, this, ha]
      simp [rowNorm_zero])
  subst hw
  refine ⟨res, h, (C14_every_time_filled c f y0 nt t n hn res false h).2, ?_⟩
  intro k b hk
  have := exact_defect (by omega) hr ha hn h k hk b
  rw [hs] at this
  simp only [defect, forwardDefect] at this
  rw [sub_sub, sub_eq_zero] at this
  exact this

/-- Non-vacuity: a nonlinear right hand side with a *wrong* reported Jacobian, three times, one block. -/
example : ∃ res, integrate (β := Bool) (m := 1)
    { scheme := .forwardEuler, method := .direct .pcr, rtol := 0, atol := 0, miter := 100,
      throwOnFail := true, guessType := "zero" } (Func.lift fun _ t y => (fun i => t + y i ^ 2, 7))
    (fun _ _ => 1) 3 (fun k _ => k) 2 = .ok (res, false) ∧ res.get 1 true 0 = 2 := by
  obtain ⟨res, h1, h2, h3⟩ := C16_integrate_is_explicit_euler (β := Bool) (m := 1)
    { scheme := .forwardEuler, method := .direct .pcr, rtol := 0, atol := 0, miter := 100,
      throwOnFail := true, guessType := "zero" } rfl rfl rfl (fun _ t y => (fun i => t + y i ^ 2, 7))
    (fun _ _ => 1) 3 (by norm_num) (fun k _ => k) 2 (by norm_num) (by norm_num) (Or.inl rfl)
  refine ⟨res, h1, ?_⟩
  have := congrFun (h3 0 true (by norm_num)) 0
  have h0 : res.get 0 = fun _ _ => 1 := by unfold Partial.get; rw [h2]; rfl
  simp [h0] at this
  rw [this]; norm_num

/-! ## C18 -/

/-- **C18.** For a linear right hand side `f(t,y) = M(t) y + c(t)` one Newton update from any point lands on the
exact root of the block residual, for both schemes and every linear solve option (for backward Euler, when the
step matrices `1 - dt M` are invertible). -/
theorem C18_one_update_exact (s : Scheme) (M : β → ℝ → Matrix (Fin m) (Fin m) ℝ) (c : β → ℝ → Fin m → ℝ)
    {n : ℕ} (hn : 0 < n) (T : Fin n → β → ℝ) (tStart : β → ℝ) (yStart : BVec β m ℝ) (meth : SolveMethod)
    (hA : s = .backwardEuler → ∀ (k : Fin n) b,
      IsUnit (1 - diff (stack tStart T) k b • M b (stack tStart T k.succ b)).det)
    (x : β → Fin (n * m) → ℝ) :
    let RJ := blockRJ s (Func.lift fun b t y => ((M b t).mulVec y + c b t, M b t)) T tStart yStart
    (RJ (x - solve meth (RJ x).2 (RJ x).1)).1 = 0 :=
  linear_newton s M c hn T tStart yStart meth hA x

/-- **C18.** Linear right hand sides (either scheme): the integration succeeds without a warning for all non-negative tolerances, every block size, linear solver and guess, if two Newton updates are
allowed and (backward Euler) the step matrices are invertible. -/
theorem C18_linear_succeeds (cfg : Config) (ha : 0 ≤ cfg.atol) (hm : 2 ≤ cfg.miter)
    (M : β → ℝ → Matrix (Fin m) (Fin m) ℝ) (c : β → ℝ → Fin m → ℝ) (y0 : BVec β m ℝ) (nt : ℕ)
    (hnt : 0 < nt) (t : ℕ → β → ℝ) (n : ℤ) (hn : 0 < n)
    (hg : cfg.guessType = "zero" ∨ (cfg.guessType = "previous" ∧ n ≤ (nt : ℤ) - 1))
    (hA : cfg.scheme = .backwardEuler → ∀ k b, k + 1 < nt → IsUnit (1 - (t (k + 1) b - t k b) • M b (t (k + 1) b)).det) :
    ∃ res, integrate cfg (Func.lift fun b t y => ((M b t).mulVec y + c b t, M b t)) y0 nt t n = .ok (res, false) := by
  obtain ⟨res, w, h, hw⟩ := integrate_ok cfg (Func.lift fun b t y => ((M b t).mulVec y + c b t, M b t)) y0 nt hnt t n hn
    hg (fun w => w = false) rfl (fun a b h1 h2 => by simp [h1, h2]) (by
      intro k hk1 hk2 yS g
      have hlen : 0 < sliceLen nt k n.toNat := by unfold sliceLen; omega
      unfold blockNewton
      refine newton_succeeds _ _ _ (fun (R : β → Fin (sliceLen nt k n.toNat * m) → ℝ) (b : β) => rowNorm (R b))
        g _ _ _ _ 1 (by omega) ?_
      left
      intro b
      have := linear_newton cfg.scheme M c hlen (fun j : Fin (sliceLen nt k n.toNat) => t (k + j.val))
        (t (k - 1)) yS cfg.method (by
          intro hsc j b
          have h1 : ∀ i : Fin (sliceLen nt k n.toNat + 1),
              stack (t (k - 1)) (fun j : Fin (sliceLen nt k n.toNat) => t (k + j.val)) i = t (k - 1 + i.val) := by
            intro i
            refine Fin.cases ?_ (fun i => ?_) i
            · simp [stack]
            · simp only [stack, Fin.cons_succ, Fin.val_succ]
              congr 1; omega
          unfold diff
          rw [h1, h1, Fin.val_succ, Fin.val_castSucc, ← Nat.add_assoc]
          refine hA hsc _ b ?_
          have := j.2
          unfold sliceLen at this
          omega) g
      simp only at this
      show rowNorm ((blockRJ _ _ _ _ _ _).1 b) ≤ _
      simp only [newtonIterate, Function.iterate_one]
      rw [this]
      simpa [rowNorm_zero] using ha)
  subst hw
  exact ⟨res, h⟩

/-- **C18.** Backward Euler integration of a linear problem with zero tolerances and at least two allowed
updates succeeds without warning and is exact, for every block size and solver option. -/
theorem C18_linear_integrate_exact (cfg : Config) (hs : cfg.scheme = .backwardEuler)
    (hr : cfg.rtol = 0) (ha : cfg.atol = 0) (hm : 2 ≤ cfg.miter)
    (M : β → ℝ → Matrix (Fin m) (Fin m) ℝ) (c : β → ℝ → Fin m → ℝ) (y0 : BVec β m ℝ) (nt : ℕ)
    (hnt : 0 < nt) (t : ℕ → β → ℝ) (n : ℤ) (hn : 0 < n)
    (hg : cfg.guessType = "zero" ∨ (cfg.guessType = "previous" ∧ n ≤ (nt : ℤ) - 1))
    (hA : ∀ k b, k + 1 < nt → IsUnit (1 - (t (k + 1) b - t k b) • M b (t (k + 1) b)).det) :
    ∃ res, integrate cfg (Func.lift fun b t y => ((M b t).mulVec y + c b t, M b t)) y0 nt t n = .ok (res, false) ∧
      res 0 = some y0 ∧
      IsBackwardEuler (fun b t y => (M b t).mulVec y + c b t) nt t res.get := by
  obtain ⟨res, h⟩ := C18_linear_succeeds cfg (by rw [ha]) hm M c y0 nt hnt t n hn hg fun _ => hA
  exact ⟨res, h, (C14_every_time_filled cfg _ y0 nt t n hn res false h).2,
    C15_exact_blocks_are_backward_euler cfg hs (by omega) hr ha _ y0 nt t n hn res h⟩

/-- Non-vacuity of C15/C18: `y' = -y`, two time steps of size one, block size one: `1, 1/2, 1/4`. -/
example : ∃ res, integrate (β := Unit) (m := 1)
    { scheme := .backwardEuler, method := .direct .thomas, rtol := 0, atol := 0, miter := 5,
      throwOnFail := true, guessType := "previous" }
    (Func.lift fun _ _ y => ((-1 : Matrix (Fin 1) (Fin 1) ℝ).mulVec y + 0, -1))
    (fun _ _ => 1) 3 (fun k _ => k) 1 = .ok (res, false) ∧ res.get 1 () 0 = 1 / 2 ∧
      res.get 2 () 0 = 1 / 4 := by
  obtain ⟨res, h1, h2, h3⟩ := C18_linear_integrate_exact (β := Unit) (m := 1)
    { scheme := .backwardEuler, method := .direct .thomas, rtol := 0, atol := 0, miter := 5,
      throwOnFail := true, guessType := "previous" } rfl rfl rfl (by norm_num) (fun _ _ => -1)
    (fun _ _ => 0) (fun _ _ => 1) 3 (by norm_num) (fun k _ => k) 1 (by norm_num)
    (Or.inr ⟨rfl, by norm_num⟩) (by
      intro k b _
      simp only [Matrix.det_fin_one, Nat.cast_add, Nat.cast_one, add_sub_cancel_left, one_smul, sub_neg_eq_add,
        Matrix.add_apply, Matrix.one_apply_eq]
      norm_num)
  have h0 : res.get 0 = fun _ _ => 1 := by unfold Partial.get; rw [h2]; rfl
  have e1 := congrFun (h3 0 () (by norm_num)) 0
  have e2 := congrFun (h3 1 () (by norm_num)) 0
  simp [h0, Matrix.neg_mulVec] at e1
  simp [Matrix.neg_mulVec] at e2
  have r1 : res.get 1 () 0 = 1 / 2 := by linarith
  refine ⟨res, h1, r1, ?_⟩
  rw [r1] at e2
  norm_num at e2
  linarith

/-! ## C23 -/

/-- **C23.** The `"zero"` guess has exactly one (zero) row per time of the block, at every block. -/
theorem C23_zero_guess (nt n : ℕ) (r : Partial β m) (k : ℕ) :
    ∃ g, initialGuess "zero" nt n r k = .ok g ∧ g.length = min (k + n) nt - k ∧ ∀ x ∈ g, x = 0 := by
  rw [initialGuess_zero_eq]
  refine ⟨_, rfl, by simp [sliceLen], ?_⟩
  intro x hx
  exact (List.mem_replicate.1 hx).2

/-- **C23.** The `"previous"` guess has the right number of rows at every block of an integration whose block size
does not exceed the number of steps. -/
theorem C23_previous_guess_shape (nt n : ℕ) (hn : 0 < n) (hle : n ≤ nt - 1) (r : Partial β m) (i : ℕ)
    (hi : 1 + i * n < nt) :
    ∃ g, initialGuess "previous" nt n r (1 + i * n) = .ok g ∧
      g.length = min (1 + i * n + n) nt - (1 + i * n) :=
  guess_length hn (Or.inr ⟨rfl, hle⟩) r hi

/-- **C23.** From the second block on, row `j` of the `"previous"` guess is the increment, since the start of the
previous block, of the time `n` steps earlier than the last rows: for a full block it is
`y_{k-n+j} - y_{k-n-1}`. -/
theorem C23_previous_guess_value (nt n : ℕ) (r : Partial β m) (k j : ℕ) (hk : n + 1 ≤ k) (hfull : k + n ≤ nt)
    (hj : j < n) :
    ∃ g, initialGuess "previous" nt n r k = .ok g ∧
      g[j]? = some (r.get (k - n + j) - r.get (k - n - 1)) := by
  unfold initialGuess
  rw [if_neg (by decide), if_pos rfl]
  refine ⟨_, rfl, ?_⟩
  have hs : sliceLen nt k n = n := by unfold sliceLen; omega
  simp only [hs, Nat.sub_self, List.drop_zero]
  rw [if_neg (by omega)]
  simp [List.getElem?_range', hj]

/-- **C23.** When the block size exceeds the number of steps, the `"previous"` guess of the first block has too few
rows, and the integration stops with an error whatever the problem. -/
theorem C23_previous_guess_too_short (c : Config) (hg : c.guessType = "previous") (f : Func β m)
    (y0 : BVec β m ℝ) (nt : ℕ) (hnt : 2 ≤ nt) (t : ℕ → β → ℝ) (n : ℤ) (hn : (nt : ℤ) - 1 < n) :
    ∃ e, integrate c f y0 nt t n = .error e := by
  have hpos : 0 < nblocks nt n.toNat := by
    unfold nblocks
    exact Nat.div_pos (by omega) (by omega)
  unfold integrate
  rw [if_neg (by omega), blockStarts_pos nt (by omega)]
  obtain ⟨q, hq⟩ : ∃ q, nblocks nt n.toNat = q + 1 := ⟨nblocks nt n.toNat - 1, by omega⟩
  simp only [hq, List.range'_succ, integrateLoop]
  have : integrateStep c f nt n.toNat t (fun j => if j = 0 then some y0 else none, false) 1 =
      .error "shape mismatch in reshape" := by
    unfold integrateStep initialGuess
    rw [if_neg (by rw [hg]; decide), if_pos hg]
    simp only
    rw [if_neg]
    rw [if_pos (by push_cast; omega)]
    simp only [List.length_drop, List.length_replicate, sliceLen]
    omega
  rw [this]
  exact ⟨_, rfl⟩

/-- **C23.** Any other guess name is an error. -/
theorem C23_unknown_guess (c : Config) (h1 : c.guessType ≠ "zero") (h2 : c.guessType ≠ "previous")
    (f : Func β m) (y0 : BVec β m ℝ) (nt : ℕ) (hnt : 2 ≤ nt) (t : ℕ → β → ℝ) (n : ℤ) (hn : 0 < n) :
    ∃ e, integrate c f y0 nt t n = .error e := by
  have hpos : 0 < nblocks nt n.toNat := by
    unfold nblocks
    exact Nat.div_pos (by omega) (by omega)
  unfold integrate
  rw [if_neg (by omega), blockStarts_pos nt (by omega)]
  obtain ⟨q, hq⟩ : ∃ q, nblocks nt n.toNat = q + 1 := ⟨nblocks nt n.toNat - 1, by omega⟩
  simp only [hq, List.range'_succ, integrateLoop]
  have : integrateStep c f nt n.toNat t (fun j => if j = 0 then some y0 else none, false) 1 =
      .error "Unknown initial guess strategy" := by
    unfold integrateStep initialGuess
    rw [if_neg h1, if_neg h2]
  rw [this]
  exact ⟨_, rfl⟩

/-! ## C69 -/

/-- **C69.** The integration method, linear solver and direct solver strings accepted are exactly the documented
ones. -/
theorem C69_solver_strings (minSize : ℤ) :
    (∀ s, (∃ r, intMethods s = .ok r) ↔ s = "backward-euler" ∨ s = "forward-euler") ∧
    (∀ s, (∃ r, directOfString s minSize = .ok r) ↔ s = "thomas" ∨ s = "pcr" ∨ s = "hybrid") ∧
    (∀ l d, (∃ r, solveMethodOfStrings l d minSize = .ok r) ↔
      (l = "dense" ∨ l = "direct") ∧ (d = "thomas" ∨ d = "pcr" ∨ d = "hybrid")) := by
  refine ⟨?_, ?_, ?_⟩
  · intro s
    unfold intMethods
    split_ifs with h1 h2 <;> simp [*]
  · intro s
    unfold directOfString
    split_ifs with h1 h2 h3 <;> simp [*]
  · intro l d
    unfold solveMethodOfStrings contextOfString directOfString
    by_cases hl : l = "dense" ∨ l = "direct"
    · rw [if_pos hl]
      split_ifs with h1 h2 h3 <;> simp [bind, Except.bind, pure, Except.pure, *]
    · rw [if_neg hl]
      simp [bind, Except.bind, hl]

/-- **C69.** Names select the scheme, the linear solver and the factorization they say: `"dense"` always the dense solve, `"direct"` the
factorization of the given name. -/
theorem C69_solver_strings_select (minSize : ℤ) :
    (intMethods "backward-euler" = .ok .backwardEuler ∧ intMethods "forward-euler" = .ok .forwardEuler) ∧
    (directOfString "thomas" minSize = .ok .thomas ∧ directOfString "pcr" minSize = .ok .pcr ∧
      directOfString "hybrid" minSize = .ok (.hybrid minSize)) ∧
    (∀ d, d = "thomas" ∨ d = "pcr" ∨ d = "hybrid" → solveMethodOfStrings "dense" d minSize = .ok .dense) ∧
    (solveMethodOfStrings "direct" "thomas" minSize = .ok (.direct .thomas) ∧
      solveMethodOfStrings "direct" "pcr" minSize = .ok (.direct .pcr) ∧
      solveMethodOfStrings "direct" "hybrid" minSize = .ok (.direct (.hybrid minSize))) := by
  refine ⟨⟨?_, ?_⟩, ⟨?_, ?_, ?_⟩, ?_, ?_, ?_, ?_⟩
  · simp [intMethods]
  · simp [intMethods]
  · simp [directOfString]
  · simp [directOfString]
  · simp [directOfString]
  · rintro d (rfl | rfl | rfl) <;> rfl
  all_goals rfl

end Pyoptmat.Props
