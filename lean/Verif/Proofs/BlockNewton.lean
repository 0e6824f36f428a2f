import Verif.Proofs.Block

/-! Helper lemmas: Newton updates on the block residual. -/

namespace Pyoptmat.Ode

open Pyoptmat.Chunktime Pyoptmat.Newton Pyoptmat.Spec

variable {β : Type*} {m : ℕ}

theorem solves_stack {n : ℕ} {A : Fin n → Blk β m ℝ} {B : Fin (n - 1) → Blk β m ℝ}
    {v x : Fin n → BVec β m ℝ} (h : SolvesBidiagonal A B v x) (B' : Fin n → Blk β m ℝ)
    (hB : ∀ (j : ℕ) (hj : j + 1 < n), B' ⟨j + 1, hj⟩ = B ⟨j, by omega⟩) (k : Fin n) (b : β) :
    (B' k b).mulVec ((stack 0 x : Fin (n + 1) → BVec β m ℝ) k.castSucc b) + (A k b).mulVec (x k b) = v k b := by
  obtain ⟨k, hk⟩ := k
  cases k with
  | zero =>
    have := h.1 hk b
    simp only [Fin.castSucc_mk, Fin.mk_zero', stack, Fin.cons_zero, Pi.zero_apply, Matrix.mulVec_zero, zero_add]
    exact this
  | succ j =>
    have := h.2 j hk b
    rw [hB j hk]
    have hs : (stack 0 x : Fin (n + 1) → BVec β m ℝ) (Fin.castSucc ⟨j + 1, hk⟩) = x ⟨j, by omega⟩ := by
      have : (Fin.castSucc ⟨j + 1, hk⟩ : Fin (n + 1)) = Fin.succ ⟨j, by omega⟩ := by ext; simp
      rw [this]; simp only [stack, Fin.cons_succ]
    rw [hs]
    exact this

/-- sub-diagonal blocks indexed by the row they are in -/
def rowB (s : Scheme) {n : ℕ} (yJ : Fin (n + 1) → Blk β m ℝ) (dt : Fin n → β → ℝ) : Fin n → Blk β m ℝ :=
  match s with
  | .backwardEuler => fun _ _ => -1
  | .forwardEuler => fun k b => -1 - dt k b • yJ k.castSucc b

theorem rowB_eq (s : Scheme) {n : ℕ} (dy yd : Fin (n + 1) → BVec β m ℝ)
    (yJ : Fin (n + 1) → Blk β m ℝ) (dt : Fin n → β → ℝ) (j : ℕ) (hj : j + 1 < n) :
    rowB s yJ dt ⟨j + 1, hj⟩ = (formOperators s dy yd yJ dt).2.B ⟨j, by omega⟩ := by
  cases s <;> rfl

/-- A Newton correction solves the linearised block equations row by row. -/
theorem newton_correction (s : Scheme) {n : ℕ} (hn : 0 < n) (meth : SolveMethod)
    (dy yd : Fin (n + 1) → BVec β m ℝ) (yJ : Fin (n + 1) → Blk β m ℝ) (dt : Fin n → β → ℝ)
    (hA : ∀ k b, IsUnit ((formOperators s dy yd yJ dt).2.A k b).det) (k : Fin n) (b : β) :
    let dx := unflatten (solve meth (formOperators s dy yd yJ dt).2 (formOperators s dy yd yJ dt).1)
    (rowB s yJ dt k b).mulVec ((stack 0 dx : Fin (n + 1) → BVec β m ℝ) k.castSucc b) +
      ((formOperators s dy yd yJ dt).2.A k b).mulVec (dx k b) =
      unflatten (formOperators s dy yd yJ dt).1 k b := by
  intro dx
  refine solves_stack (A := (formOperators s dy yd yJ dt).2.A) (B := (formOperators s dy yd yJ dt).2.B)
    ?_ _ (rowB_eq s dy yd yJ dt) k b
  exact (bidiagonal_mulVec_iff _ _ _ _).1 fun b => Props.C04_solve_correct hn meth _ hA _ b

theorem stack_unflatten_sub {n : ℕ} (x dx : β → Fin (n * m) → ℝ) (k : Fin (n + 1)) :
    (stack 0 (unflatten (x - dx)) : Fin (n + 1) → BVec β m ℝ) k =
      (stack 0 (unflatten x) : Fin (n + 1) → BVec β m ℝ) k -
      (stack 0 (unflatten dx) : Fin (n + 1) → BVec β m ℝ) k := by
  refine Fin.cases ?_ (fun k => ?_) k
  · simp [stack]
  · simp only [stack, Fin.cons_succ]; rfl

section fe
variable (f : Func β m) {n : ℕ} (T : Fin n → β → ℝ) (tStart : β → ℝ) (yStart : BVec β m ℝ)

/-- forward Euler residual, written out -/
theorem fe_residual (x : β → Fin (n * m) → ℝ) (k : Fin n) (b : β) :
    unflatten (blockRJ .forwardEuler f T tStart yStart x).1 k b =
      unflatten x k b - (stack 0 (unflatten x) : Fin (n + 1) → BVec β m ℝ) k.castSucc b -
      diff (stack tStart T) k b • (f b (stack tStart T k.castSucc b)
        ((stack 0 (unflatten x) : Fin (n + 1) → BVec β m ℝ) k.castSucc b + yStart b)).1 := by
  unfold blockRJ formOperators
  simp only [unflatten_flatten]
  rfl

theorem be_residual (x : β → Fin (n * m) → ℝ) (k : Fin n) (b : β) :
    unflatten (blockRJ .backwardEuler f T tStart yStart x).1 k b =
      unflatten x k b - (stack 0 (unflatten x) : Fin (n + 1) → BVec β m ℝ) k.castSucc b -
      diff (stack tStart T) k b • (f b (stack tStart T k.succ b)
        (unflatten x k b + yStart b)).1 := by
  unfold blockRJ formOperators
  simp only [unflatten_flatten]
  rfl

theorem fe_newton_row (hn : 0 < n) (meth : SolveMethod) (x : β → Fin (n * m) → ℝ) (j : ℕ)
    (hx : ∀ (k : Fin n), k.val < j → ∀ b, unflatten (blockRJ .forwardEuler f T tStart yStart x).1 k b = 0) :
    ∀ (k : Fin n), k.val < j + 1 → ∀ b, unflatten (blockRJ .forwardEuler f T tStart yStart
      (x - solve meth (blockRJ .forwardEuler f T tStart yStart x).2
        (blockRJ .forwardEuler f T tStart yStart x).1)).1 k b = 0 := by
  set R := (blockRJ .forwardEuler f T tStart yStart x).1 with hR
  set dx := solve meth (blockRJ .forwardEuler f T tStart yStart x).2 R with hdx
  have hcor : ∀ (k : Fin n) (b : β), ∃ M : Matrix (Fin m) (Fin m) ℝ,
      M.mulVec ((stack 0 (unflatten dx) : Fin (n + 1) → BVec β m ℝ) k.castSucc b) + unflatten dx k b
        = unflatten R k b := by
    intro k b
    have := newton_correction .forwardEuler hn meth (stack 0 (unflatten x))
      (fun k b => (f b (stack tStart T k b)
        ((stack 0 (unflatten x) : Fin (n + 1) → BVec β m ℝ) k b + yStart b)).1)
      (fun k b => (f b (stack tStart T k b)
        ((stack 0 (unflatten x) : Fin (n + 1) → BVec β m ℝ) k b + yStart b)).2)
      (diff (stack tStart T)) (by intro k b; simp [formOperators]) k b
    refine ⟨rowB .forwardEuler (fun k b => (f b (stack tStart T k b)
        ((stack 0 (unflatten x) : Fin (n + 1) → BVec β m ℝ) k b + yStart b)).2)
      (diff (stack tStart T)) k b, ?_⟩
    have e : ((formOperators .forwardEuler (stack 0 (unflatten x))
      (fun k b => (f b (stack tStart T k b)
        ((stack 0 (unflatten x) : Fin (n + 1) → BVec β m ℝ) k b + yStart b)).1)
      (fun k b => (f b (stack tStart T k b)
        ((stack 0 (unflatten x) : Fin (n + 1) → BVec β m ℝ) k b + yStart b)).2)
      (diff (stack tStart T))).2.A k b) = 1 := rfl
    simp only [e, Matrix.one_mulVec] at this
    exact this
  have hzero : ∀ (i : ℕ) (hi : i < n), i < j → ∀ b, unflatten dx ⟨i, hi⟩ b = 0 := by
    intro i
    induction i with
    | zero =>
      intro hi hj b
      obtain ⟨M, hM⟩ := hcor ⟨0, hi⟩ b
      rw [hx _ hj b] at hM
      simpa [stack] using hM
    | succ i ih =>
      intro hi hj b
      obtain ⟨M, hM⟩ := hcor ⟨i + 1, hi⟩ b
      rw [hx _ hj b] at hM
      have hs : (stack 0 (unflatten dx) : Fin (n + 1) → BVec β m ℝ) (Fin.castSucc ⟨i + 1, hi⟩) b = 0 := by
        have : (Fin.castSucc ⟨i + 1, hi⟩ : Fin (n + 1)) = Fin.succ ⟨i, by omega⟩ := by ext; simp
        rw [this]
        simp only [stack, Fin.cons_succ]
        exact ih (by omega) (by omega) b
      rw [hs] at hM
      simpa using hM
  have hstack : ∀ (k : Fin n), k.val < j + 1 → ∀ b,
      (stack 0 (unflatten dx) : Fin (n + 1) → BVec β m ℝ) k.castSucc b = 0 := by
    rintro ⟨k, hk⟩ hkj b
    cases k with
    | zero => simp [stack]
    | succ k =>
      have : (Fin.castSucc ⟨k + 1, hk⟩ : Fin (n + 1)) = Fin.succ ⟨k, by omega⟩ := by ext; simp
      rw [this]
      simp only [stack, Fin.cons_succ]
      exact hzero k _ (by simpa using hkj) b
  intro k hk b
  have hd : unflatten dx k b = unflatten R k b := by
    obtain ⟨M, hM⟩ := hcor k b
    rw [hstack k hk b] at hM
    simpa using hM
  rw [fe_residual, stack_unflatten_sub]
  simp only [Pi.sub_apply, hstack k hk b, sub_zero]
  have h2 : unflatten (x - dx) k b = unflatten x k b - unflatten dx k b := rfl
  rw [h2, hd, hR, fe_residual]
  abel

theorem fe_newton_rows (hn : 0 < n) (meth : SolveMethod) (x : β → Fin (n * m) → ℝ) (j : ℕ) :
    ∀ (k : Fin n), k.val < j → ∀ b, unflatten (blockRJ .forwardEuler f T tStart yStart
      (newtonIterate (blockRJ .forwardEuler f T tStart yStart) (fun J R => solve meth J R)
        (fun x dx => x - dx) x j)).1 k b = 0 := by
  induction j with
  | zero => intro k hk; omega
  | succ j ih =>
    have := fe_newton_row f T tStart yStart hn meth _ j ih
    intro k hk b
    have h2 := this k hk b
    unfold newtonIterate at h2 ⊢
    rw [Function.iterate_succ_apply']
    exact h2

end fe

/-- Linear right hand side: one update gives a root, for both schemes. -/
theorem linear_newtonB (s : Scheme) (f : BFunc β m)
    {n : ℕ} (hn : 0 < n) (T : Fin n → β → ℝ) (tStart : β → ℝ) (yStart : BVec β m ℝ) (meth : SolveMethod)
    (M : Fin (n + 1) → β → Matrix (Fin m) (Fin m) ℝ) (c : Fin (n + 1) → β → Fin m → ℝ)
    (hf : ∀ y, f (n + 1) (stack tStart T) y = (fun k b => (M k b).mulVec (y k b) + c k b, M))
    (hA : s = .backwardEuler → ∀ (k : Fin n) b, IsUnit (1 - diff (stack tStart T) k b • M k.succ b).det)
    (x : β → Fin (n * m) → ℝ) :
    (blockRJ s f T tStart yStart
      (x - solve meth (blockRJ s f T tStart yStart x).2 (blockRJ s f T tStart yStart x).1)).1 = 0 := by
  rw [unflatten_eq_zero_iff]
  intro k b
  have hbe : ∀ x k b, unflatten (blockRJ .backwardEuler f T tStart yStart x).1 k b =
      unflatten x k b - (stack 0 (unflatten x) : Fin (n + 1) → BVec β m ℝ) k.castSucc b -
      diff (stack tStart T) k b • ((M k.succ b).mulVec (unflatten x k b + yStart b) + c k.succ b) := by
    intro x k b
    unfold blockRJ formOperators
    simp only [hf, unflatten_flatten]
    rfl
  have hfe : ∀ x k b, unflatten (blockRJ .forwardEuler f T tStart yStart x).1 k b =
      unflatten x k b - (stack 0 (unflatten x) : Fin (n + 1) → BVec β m ℝ) k.castSucc b -
      diff (stack tStart T) k b • ((M k.castSucc b).mulVec
        ((stack 0 (unflatten x) : Fin (n + 1) → BVec β m ℝ) k.castSucc b + yStart b) + c k.castSucc b) := by
    intro x k b
    unfold blockRJ formOperators
    simp only [hf, unflatten_flatten]
    rfl
  have hop : ∀ x, (blockRJ s f T tStart yStart x) = formOperators s (stack 0 (unflatten x))
      (fun k b => (M k b).mulVec ((stack 0 (unflatten x) : Fin (n + 1) → BVec β m ℝ) k b + yStart b) + c k b) M
      (diff (stack tStart T)) := by
    intro x
    unfold blockRJ
    simp only [hf]
    rfl
  set dx := solve meth (blockRJ s f T tStart yStart x).2 (blockRJ s f T tStart yStart x).1 with hdx
  have hAu : ∀ k b, IsUnit ((blockRJ s f T tStart yStart x).2.A k b).det := by
    intro k b
    rw [hop]
    cases s with
    | backwardEuler => exact hA rfl k b
    | forwardEuler => simp [formOperators]
  rw [hop] at hAu
  have hc := newton_correction s hn meth (stack 0 (unflatten x))
      (fun k b => (M k b).mulVec ((stack 0 (unflatten x) : Fin (n + 1) → BVec β m ℝ) k b + yStart b) + c k b) M
      (diff (stack tStart T)) hAu k b
  rw [← hop, ← hdx] at hc
  have h2 : unflatten (x - dx) k b = unflatten x k b - unflatten dx k b := rfl
  cases s with
  | backwardEuler =>
    have hc' : (-1 : Matrix (Fin m) (Fin m) ℝ).mulVec
        ((stack 0 (unflatten dx) : Fin (n + 1) → BVec β m ℝ) k.castSucc b) +
        (1 - diff (stack tStart T) k b • M k.succ b).mulVec (unflatten dx k b) =
        unflatten (blockRJ .backwardEuler f T tStart yStart x).1 k b := by rw [hop]; rw [hop] at hc; exact hc
    rw [hbe] at hc' ⊢
    rw [stack_unflatten_sub]
    simp only [Matrix.neg_mulVec, Matrix.one_mulVec, Matrix.sub_mulVec, Matrix.smul_mulVec] at hc'
    simp only [Matrix.mulVec_sub, Matrix.mulVec_add, Pi.sub_apply, h2] at hc' ⊢
    have e := sub_eq_zero.2 hc'
    rw [← neg_eq_zero, ← e]
    simp only [smul_add, smul_sub]
    abel
  | forwardEuler =>
    have hc' : (-1 - diff (stack tStart T) k b • M k.castSucc b).mulVec
        ((stack 0 (unflatten dx) : Fin (n + 1) → BVec β m ℝ) k.castSucc b) +
        (1 : Matrix (Fin m) (Fin m) ℝ).mulVec (unflatten dx k b) =
        unflatten (blockRJ .forwardEuler f T tStart yStart x).1 k b := by rw [hop]; rw [hop] at hc; exact hc
    rw [hfe] at hc' ⊢
    rw [stack_unflatten_sub]
    simp only [Matrix.neg_mulVec, Matrix.one_mulVec, Matrix.sub_mulVec, Matrix.smul_mulVec] at hc'
    simp only [Matrix.mulVec_sub, Matrix.mulVec_add, Pi.sub_apply, h2] at hc' ⊢
    have e := sub_eq_zero.2 hc'
    rw [← neg_eq_zero, ← e]
    simp only [smul_add, smul_sub]
    abel

/-- The same for right hand sides acting entry by entry. -/
theorem linear_newton (s : Scheme) (M : β → ℝ → Matrix (Fin m) (Fin m) ℝ) (c : β → ℝ → Fin m → ℝ)
    {n : ℕ} (hn : 0 < n) (T : Fin n → β → ℝ) (tStart : β → ℝ) (yStart : BVec β m ℝ) (meth : SolveMethod)
    (hA : s = .backwardEuler → ∀ (k : Fin n) b,
      IsUnit (1 - diff (stack tStart T) k b • M b (stack tStart T k.succ b)).det)
    (x : β → Fin (n * m) → ℝ) :
    let f : Func β m := fun b t y => ((M b t).mulVec y + c b t, M b t)
    (blockRJ s f T tStart yStart
      (x - solve meth (blockRJ s f T tStart yStart x).2 (blockRJ s f T tStart yStart x).1)).1 = 0 :=
  linear_newtonB s _ hn T tStart yStart meth (fun k b => M b (stack tStart T k b)) (fun k b => c b (stack tStart T k b))
    (fun _ => rfl) hA x

/-- Newton succeeds silently if some early enough iterate meets the tolerance. -/
theorem newton_succeeds {X Res Jac : Type*} (fn : X → Res × Jac) (sol : Jac → Res → X)
    (sub : X → X → X) (nrm : Res → β → ℝ) (x0 : X) (rtol atol : ℝ) (miter : ℤ) (thr : Bool) (i : ℕ)
    (hi : (i : ℤ) < miter)
    (h : MetTolerance (nrm (fn (newtonIterate fn sol sub x0 i)).1) (nrm (fn x0).1) rtol atol) :
    ∃ x, (newtonChunk fn sol sub (fun r b => some (nrm r b)) x0 rtol atol miter thr).result = .ok x ∧
      (newtonChunk fn sol sub (fun r b => some (nrm r b)) x0 rtol atol miter thr).warned = false := by
  obtain ⟨mi, rfl⟩ : ∃ mi : ℕ, miter = mi := ⟨miter.toNat, by omega⟩
  have h1 := (Props.C11_warns_iff fn sol sub nrm x0 rtol atol mi thr).not.2 (by
    push Not; exact ⟨i, by omega, h⟩)
  unfold newtonChunk at h1 ⊢
  simp only at h1 ⊢
  split_ifs at h1 ⊢ with ha hb
  · exact absurd (Or.inr ⟨hb, _, rfl⟩) h1
  · exact absurd (Or.inl ⟨by simpa using hb, rfl⟩) h1
  · exact ⟨_, rfl, rfl⟩

end Pyoptmat.Ode
