import Verif.Proofs.Newton
import Verif.Proofs.Dense
import Verif.Spec.Newton
import Verif.Props.Linear

/-!
# Properties C10-C13: `newton_raphson_chunk`
-/

namespace Pyoptmat.Props

open Pyoptmat.Newton Pyoptmat.Spec Pyoptmat.Chunktime

variable {X Res Jac β : Type*}

/-! ## C10 -/

/-- **C10.** If the call returns `x` (finite norms, `miter ≥ 0`) without a warning, then the residual
norms at `x` meet the absolute tolerance in every batch entry, or the relative one in every batch entry. -/
theorem C10_no_warning_meets_tolerance (fn : X → Res × Jac) (solve : Jac → Res → X)
    (sub : X → X → X) (nrm : Res → β → ℝ) (x0 x : X) (rtol atol : ℝ) (miter : ℤ)
    (hm : 0 ≤ miter) (thr : Bool)
    (hr : (newtonChunk fn solve sub (fun r b => some (nrm r b)) x0 rtol atol miter thr).result = .ok x)
    (hw : (newtonChunk fn solve sub (fun r b => some (nrm r b)) x0 rtol atol miter thr).warned = false) :
    MetTolerance (nrm (fn x).1) (nrm (fn x0).1) rtol atol := by
  obtain ⟨h1, -, -, h4⟩ := loop_spec fn solve sub (fun r b => some (nrm r b)) rtol atol
    (fun b => some (nrm (fn x0).1 b)) miter.toNat x0
  unfold newtonChunk at hr hw
  simp only at hr hw
  split_ifs at hr hw with ha hb
  simp only [Except.ok.injEq] at hr
  rw [← hr]
  exact not_notConverged_some (h4 (by omega))

/-- **C10.** At most `miter` updates are made, and the value returned is the Newton iterate with that
number of updates; every earlier iterate failed the tolerance test (no needless update). -/
theorem C10_returns_first_iterate (fn : X → Res × Jac) (solve : Jac → Res → X)
    (sub : X → X → X) (nrm : Res → β → ℝ) (x0 : X) (rtol atol : ℝ) (miter : ℤ)
    (hm : 0 ≤ miter) (thr : Bool) :
    let out := newtonChunk fn solve sub (fun r b => some (nrm r b)) x0 rtol atol miter thr
    (out.iters : ℤ) ≤ miter ∧
    (∀ x, out.result = .ok x → x = newtonIterate fn solve sub x0 out.iters) ∧
    ∀ j < out.iters, ¬ MetTolerance (nrm (fn (newtonIterate fn solve sub x0 j)).1) (nrm (fn x0).1)
      rtol atol := by
  obtain ⟨h1, h2, h3, -⟩ := loop_spec fn solve sub (fun r b => some (nrm r b)) rtol atol
    (fun b => some (nrm (fn x0).1 b)) miter.toNat x0
  have key : ∀ j < (loop fn solve sub (fun r b => some (nrm r b)) rtol atol
      (fun b => some (nrm (fn x0).1 b)) miter.toNat x0).2,
      ¬ MetTolerance (nrm (fn (newtonIterate fn solve sub x0 j)).1) (nrm (fn x0).1) rtol atol := by
    intro j hj hmet
    obtain ⟨⟨b, hb⟩, ⟨b', hb'⟩⟩ := h3 j hj
    rcases hmet with hmet | hmet
    · exact absurd (hmet b) (not_le.2 hb)
    · exact absurd (hmet b') (not_le.2 hb')
  unfold newtonChunk
  simp only
  split_ifs with ha hb
  · exact ⟨by dsimp only; omega, by simp, key⟩
  · refine ⟨by dsimp only; omega, ?_, key⟩
    intro x hx
    simp only [Except.ok.injEq] at hx
    rw [← hx]; exact h2
  · refine ⟨by dsimp only; omega, ?_, key⟩
    intro x hx
    simp only [Except.ok.injEq] at hx
    rw [← hx]; exact h2

/-- **C10.** With `throw_on_fail` an iterate is only ever returned if it met the tolerance. -/
theorem C10_throw_never_returns_unconverged (fn : X → Res × Jac) (solve : Jac → Res → X)
    (sub : X → X → X) (nrm : Res → β → ℝ) (x0 x : X) (rtol atol : ℝ) (miter : ℤ) (hm : 0 ≤ miter)
    (hr : (newtonChunk fn solve sub (fun r b => some (nrm r b)) x0 rtol atol miter true).result
      = .ok x) :
    MetTolerance (nrm (fn x).1) (nrm (fn x0).1) rtol atol := by
  refine C10_no_warning_meets_tolerance fn solve sub nrm x0 x rtol atol miter hm true hr ?_
  unfold newtonChunk at hr ⊢
  simp only at hr ⊢
  split_ifs at hr ⊢ with ha hb
  rfl

/-- Non-vacuity of C10: scalar `x² - 4 = 0` with exact Jacobian `2x` from `x0 = 3`, absolute tolerance 1:
one update to `13/6`, no warning. -/
example :
    let out := newtonChunk (β := Unit) (fun x : ℝ => (x ^ 2 - 4, 2 * x)) (fun J R => R / J)
      (fun x dx => x - dx) (fun r _ => some |r|) 3 0 1 10 true
    out.result = .ok (13 / 6) ∧ out.warned = false ∧ out.iters = 1 := by
  have h : loop (β := Unit) (fun x : ℝ => (x ^ 2 - 4, 2 * x)) (fun J R => R / J)
      (fun x dx => x - dx) (fun r _ => some |r|) 0 1 (fun _ => some |3 ^ 2 - 4|) 10 3 = (13 / 6, 1) := by
    rw [loop, if_pos, loop, if_neg]
    · norm_num
    · rintro ⟨⟨_, h⟩, _⟩
      simp only [gtAtol] at h
      norm_num at h
    · refine ⟨⟨(), ?_⟩, ⟨(), ?_⟩⟩
      · simp only [gtAtol]; norm_num
      · simp only [gtRtol]; norm_num
  simp only [newtonChunk]
  have : ((10 : ℤ).toNat) = 10 := rfl
  rw [this, h]
  simp

/-! ## C11 -/

/-- **C11.** A warning (or, with `throw_on_fail`, the exception) is issued exactly when `miter` updates
were made, that is when none of the first `miter` iterates `x_0 … x_{miter-1}` met the tolerance, whatever
the state of the iterate finally returned. -/
theorem C11_warns_iff (fn : X → Res × Jac) (solve : Jac → Res → X)
    (sub : X → X → X) (nrm : Res → β → ℝ) (x0 : X) (rtol atol : ℝ) (miter : ℕ) (thr : Bool) :
    let out := newtonChunk fn solve sub (fun r b => some (nrm r b)) x0 rtol atol miter thr
    ((thr = false ∧ out.warned = true) ∨ (thr = true ∧ ∃ e, out.result = .error e)) ↔
    ∀ j < miter, ¬ MetTolerance (nrm (fn (newtonIterate fn solve sub x0 j)).1) (nrm (fn x0).1)
      rtol atol := by
  obtain ⟨h1, h2, h3, h4⟩ := loop_spec fn solve sub (fun r b => some (nrm r b)) rtol atol
    (fun b => some (nrm (fn x0).1 b)) (miter : ℤ).toNat x0
  rw [Int.toNat_natCast] at h1 h2 h3 h4
  have hiff : ((loop fn solve sub (fun r b => some (nrm r b)) rtol atol
      (fun b => some (nrm (fn x0).1 b)) miter x0).2 = miter) ↔
      ∀ j < miter, ¬ MetTolerance (nrm (fn (newtonIterate fn solve sub x0 j)).1) (nrm (fn x0).1)
      rtol atol := by
    constructor
    · intro h j hj hmet
      obtain ⟨⟨b, hb⟩, ⟨b', hb'⟩⟩ := h3 j (by omega)
      rcases hmet with hmet | hmet
      · exact absurd (hmet b) (not_le.2 hb)
      · exact absurd (hmet b') (not_le.2 hb')
    · intro h
      by_contra hne
      have hlt := lt_of_le_of_ne h1 hne
      refine h _ hlt ?_
      have := not_notConverged_some (h4 hlt)
      rw [h2] at this
      exact this
  rw [← hiff]
  unfold newtonChunk
  simp only [Int.toNat_natCast, Nat.cast_inj]
  split_ifs with ha hb
  · simp [ha, hb]
  · simp [ha, hb]
  · simp [ha]

/-- **C11.** `miter = 0` always warns (or throws), even for an exact starting point. -/
theorem C11_zero_miter (fn : X → Res × Jac) (solve : Jac → Res → X)
    (sub : X → X → X) (nrm : Res → β → ℝ) (x0 : X) (rtol atol : ℝ) :
    (newtonChunk fn solve sub (fun r b => some (nrm r b)) x0 rtol atol 0 false).warned = true ∧
    (newtonChunk fn solve sub (fun r b => some (nrm r b)) x0 rtol atol 0 false).result = .ok x0 ∧
    ∃ e, (newtonChunk fn solve sub (fun r b => some (nrm r b)) x0 rtol atol 0 true).result = .error e := by
  simp [newtonChunk, loop]

/-- **C11.** A negative `miter` never warns and returns the starting point unchanged. -/
theorem C11_negative_miter (fn : X → Res × Jac) (solve : Jac → Res → X)
    (sub : X → X → X) (nrm : Res → β → Option ℝ) (x0 : X) (rtol atol : ℝ) (miter : ℤ) (h : miter < 0)
    (thr : Bool) :
    (newtonChunk fn solve sub nrm x0 rtol atol miter thr).warned = false ∧
    (newtonChunk fn solve sub nrm x0 rtol atol miter thr).result = .ok x0 := by
  have h1 : miter.toNat = 0 := by omega
  have h2 : ¬ (0 : ℤ) = miter := by omega
  simp [newtonChunk, h1, loop, h2]

/-- **C11.** If every residual norm of some iterate `x_i`, `i < miter`, is not a number and no earlier iterate
met the tolerance, the call returns that iterate with neither warning nor exception. -/
theorem C11_nan_is_silent (fn : X → Res × Jac) (solve : Jac → Res → X)
    (sub : X → X → X) (nrm : Res → β → Option ℝ) (x0 : X) (rtol atol : ℝ) (miter : ℤ) (thr : Bool)
    (i : ℕ) (hi : (i : ℤ) < miter)
    (hbefore : ∀ j < i, ∃ b a a0, nrm (fn (newtonIterate fn solve sub x0 j)).1 b = some a ∧
      nrm (fn x0).1 b = some a0 ∧ atol < a ∧ rtol * a0 < a)
    (hnan : ∀ b, nrm (fn (newtonIterate fn solve sub x0 i)).1 b = none) :
    (newtonChunk fn solve sub nrm x0 rtol atol miter thr).result =
      .ok (newtonIterate fn solve sub x0 i) ∧
    (newtonChunk fn solve sub nrm x0 rtol atol miter thr).warned = false := by
  obtain ⟨h1, h2, h3, h4⟩ := loop_spec fn solve sub nrm rtol atol (nrm (fn x0).1) miter.toNat x0
  have hnc : ¬ notConverged (nrm (fn (newtonIterate fn solve sub x0 i)).1) (nrm (fn x0).1)
      rtol atol := by
    rintro ⟨⟨b, hb⟩, _⟩
    rw [hnan b] at hb
    exact hb
  have heq : (loop fn solve sub nrm rtol atol (nrm (fn x0).1) miter.toNat x0).2 = i := by
    rcases lt_trichotomy (loop fn solve sub nrm rtol atol (nrm (fn x0).1) miter.toNat x0).2 i with h | h | h
    · exfalso
      refine h4 (by omega) ?_
      rw [h2]
      obtain ⟨b, a, a0, e1, e2, e3, e4⟩ := hbefore _ h
      have e1' : nrm (fn ((update fn solve sub)^[(loop fn solve sub nrm rtol atol
        (nrm (fn x0).1) miter.toNat x0).2] x0)).1 b = some a := e1
      refine ⟨⟨b, ?_⟩, ⟨b, ?_⟩⟩
      · rw [e1']; exact e3
      · rw [e1', e2]; exact e4
    · exact h
    · exact absurd (h3 i h) hnc
  have hne : ¬ (((loop fn solve sub nrm rtol atol (nrm (fn x0).1) miter.toNat x0).2 : ℤ) = miter) := by
    rw [heq]; omega
  unfold newtonChunk
  simp only
  rw [if_neg hne]
  refine ⟨?_, rfl⟩
  rw [h2, heq]
  rfl

/-- Non-vacuity: an iteration that produces a not-a-number after one update. -/
example :
    let out := newtonChunk (β := Unit) (fun x : ℕ => (x, ())) (fun _ _ => 1)
      (fun x dx => x + dx) (fun r _ => if r = 0 then some 1 else none) 0 (1 / 2) (1 / 2) 5 true
    out.result = .ok 1 ∧ out.warned = false := by
  refine C11_nan_is_silent (β := Unit) (fun x : ℕ => (x, ())) (fun _ _ => 1) (fun x dx => x + dx)
    (fun r _ => if r = 0 then some 1 else none) 0 (1 / 2) (1 / 2) 5 true 1 (by norm_num) ?_ ?_
  · intro j hj
    have : j = 0 := by omega
    subst this
    exact ⟨(), 1, 1, by simp [newtonIterate], by simp, by norm_num, by norm_num⟩
  · intro b; simp [newtonIterate]

/-- Non-vacuity of the warning on a converged last iterate: `x - 1 = 0` solved exactly by the only allowed
update, which still warns. -/
example :
    let out := newtonChunk (β := Unit) (fun x : ℝ => (x - 1, ())) (fun _ R => R)
      (fun x dx => x - dx) (fun r _ => some |r|) 0 (1 / 2) (1 / 2) 1 false
    out.result = .ok 1 ∧ out.warned = true := by
  have h : loop (β := Unit) (fun x : ℝ => (x - 1, ())) (fun _ R => R)
      (fun x dx => x - dx) (fun r _ => some |r|) (1 / 2) (1 / 2) (fun _ => some |0 - 1|) 1 0 = (1, 1) := by
    rw [loop, if_pos, loop]
    · norm_num
    · refine ⟨⟨(), ?_⟩, ⟨(), ?_⟩⟩
      · simp only [gtAtol]; norm_num
      · simp only [gtRtol]; norm_num
  simp only [newtonChunk]
  have : ((1 : ℤ).toNat) = 1 := rfl
  rw [this, h]
  simp

/-! ## C12 -/

theorem rowNorm_zero {N : ℕ} : rowNorm (0 : Fin N → ℝ) = 0 := by simp [rowNorm]

theorem rowNorm_nonneg {N : ℕ} (r : Fin N → ℝ) : 0 ≤ rowNorm r := Real.sqrt_nonneg _

theorem rowNorm_eq_zero {N : ℕ} {r : Fin N → ℝ} (h : rowNorm r = 0) : r = 0 := by
  unfold rowNorm at h
  rw [Real.sqrt_eq_zero (Finset.sum_nonneg fun i _ => sq_nonneg _)] at h
  funext i
  have := (Finset.sum_eq_zero_iff_of_nonneg (fun i _ => sq_nonneg (r i))).1 h i (Finset.mem_univ i)
  simpa using this

/-- **C12.** For an affine residual `M x - c` with block bidiagonal `M` (invertible diagonal blocks) solved by
any linear solve option, at least two allowed updates and `atol ≥ 0`: there is no warning and no exception,
at most one update is made, and what is returned is either the untouched guess, when that already meets the
tolerance, or an exact root. -/
theorem C12_affine_one_update {n m : ℕ} (hn : 0 < n) (meth : SolveMethod) (M : BidiagOp β n m ℝ)
    (hM : ∀ k b, IsUnit (M.A k b).det) (c x0 : β → Fin (n * m) → ℝ) (rtol atol : ℝ) (hat : 0 ≤ atol)
    (miter : ℤ) (hmit : 2 ≤ miter) (thr : Bool) :
    let R : (β → Fin (n * m) → ℝ) → β → Fin (n * m) → ℝ := fun x b =>
      (bidiagonalMatrix (fun k => M.A k b) (fun k => M.B k b)).mulVec (x b) - c b
    let out := newtonChunk (fun x => (R x, M)) (solve meth) (fun x dx => x - dx)
      (fun r b => some (rowNorm (r b))) x0 rtol atol miter thr
    out.warned = false ∧ out.iters ≤ 1 ∧
    ∃ x, out.result = .ok x ∧
      (R x = 0 ∨ (x = x0 ∧ MetTolerance (fun b => rowNorm (R x0 b)) (fun b => rowNorm (R x0 b))
        rtol atol)) := by
  intro R out
  have hstep : ∀ x, R (x - solve meth M (R x)) = 0 := by
    intro x
    funext b
    have := C04_solve_correct hn meth M hM (R x) b
    simp only [R, Pi.sub_apply, Matrix.mulVec_sub, Pi.zero_apply] at this ⊢
    rw [this]; abel
  obtain ⟨h1, h2, h3, h4⟩ := loop_spec (fun x => (R x, M)) (solve meth) (fun x dx => x - dx)
    (fun r b => some (rowNorm (r b))) rtol atol (fun b => some (rowNorm (R x0 b))) miter.toNat x0
  set l := loop (fun x => (R x, M)) (solve meth) (fun x dx => x - dx)
    (fun r b => some (rowNorm (r b))) rtol atol (fun b => some (rowNorm (R x0 b))) miter.toNat x0 with hl
  have hle : l.2 ≤ 1 := by
    by_contra hgt
    obtain ⟨⟨b, hb⟩, -⟩ := h3 1 (by omega)
    simp only [Function.iterate_one, update, hstep, gtAtol, Pi.zero_apply, rowNorm_zero] at hb
    exact absurd hb (not_lt.2 hat)
  have hne : ¬ ((l.2 : ℤ) = miter) := by omega
  have hout : out = { result := .ok l.1, warned := false, iters := l.2, callerX0 := l.1 } := by
    show newtonChunk _ _ _ _ _ _ _ _ _ = _
    unfold newtonChunk
    simp only
    rw [← hl, if_neg hne]
  rw [hout]
  refine ⟨rfl, hle, l.1, rfl, ?_⟩
  rcases Nat.lt_or_ge l.2 1 with h | h
  · right
    have h0 : l.2 = 0 := by omega
    have hx : l.1 = x0 := by rw [h2, h0]; rfl
    refine ⟨hx, ?_⟩
    have := h4 (by omega)
    rw [hx] at this
    exact not_notConverged_some this
  · left
    have h0 : l.2 = 1 := by omega
    rw [h2, h0]
    exact hstep x0

/-- Non-vacuity of C12: a system with three 1x1 blocks. -/
example : ∃ M : BidiagOp Bool 3 1 ℝ, (∀ k b, IsUnit (M.A k b).det) ∧ M.B ≠ 0 := by
  refine ⟨⟨fun _ _ => 2, fun _ _ => 1⟩, ?_, ?_⟩
  · intro k b
    have : (2 : Matrix (Fin 1) (Fin 1) ℝ).det = 2 := by
      rw [Matrix.det_fin_one]; rfl
    show IsUnit (2 : Matrix (Fin 1) (Fin 1) ℝ).det
    rw [this]; norm_num
  · intro h
    have := congrFun (congrFun (congrFun (congrFun h 0) true) 0) 0
    simp at this

/-! ## C13, starting point -/

/-- **C13.** `newton_raphson_chunk` updates its argument `x0` in place: afterwards the caller's tensor holds
the value returned; also when it throws, the caller's tensor holds the last iterate. -/
theorem C13_newton_chunk_overwrites_x0 (fn : X → Res × Jac) (solve : Jac → Res → X)
    (sub : X → X → X) (nrm : Res → β → Option ℝ) (x0 : X) (rtol atol : ℝ) (miter : ℤ) (thr : Bool) :
    let out := newtonChunk fn solve sub nrm x0 rtol atol miter thr
    (∀ x, out.result = .ok x → out.callerX0 = x) ∧
    out.callerX0 = newtonIterate fn solve sub x0 out.iters := by
  obtain ⟨h1, h2, h3, h4⟩ := loop_spec fn solve sub nrm rtol atol (nrm (fn x0).1) miter.toNat x0
  unfold newtonChunk
  simp only
  split_ifs with ha hb
  · exact ⟨by simp, h2⟩
  · exact ⟨by simp, h2⟩
  · exact ⟨by simp, h2⟩

end Pyoptmat.Props
