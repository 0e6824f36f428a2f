import Verif.Model.Solvers
import Verif.Proofs.Newton
import Verif.Spec.Newton
import Mathlib.Analysis.InnerProductSpace.PiL2
import Mathlib.Tactic

/-! Helper lemmas: the nonlinear solvers and GMRES of `solvers.py`. -/

namespace Pyoptmat.Solvers

open Pyoptmat.Newton Pyoptmat.Spec

variable {X Res Jac β : Type*}

section bt
variable {V : Type*} [AddCommGroup V] [Module ℝ V]

/-- the number of trial points of the line search in which lane `b` grew by more than `atol` halves its step that often -/
theorem btSearch_spec (fn : (β → V) → Res × Jac) (nrm : Res → β → Option ℝ) (atol : ℝ) (x dx : β → V)
    (nPrev : β → Option ℝ) (fuel : ℕ) (alpha : β → ℝ) :
    ∃ j : β → ℕ, (∀ b, j b ≤ fuel) ∧ (btSearch fn nrm atol x dx nPrev fuel alpha).2 ≤ fuel + 1 ∧
      (∀ b, j b < (btSearch fn nrm atol x dx nPrev fuel alpha).2) ∧
      (btSearch fn nrm atol x dx nPrev fuel alpha).1 = (fun b => x b - (alpha b * (1 / 2) ^ j b) • dx b) ∧
      ((btSearch fn nrm atol x dx nPrev fuel alpha).2 < fuel + 1 →
        ∀ b, ltOpt (nrm (fn (btSearch fn nrm atol x dx nPrev fuel alpha).1).1 b) (nPrev b)) ∧
      ∀ b, (∀ z, ¬ increased (nrm (fn z).1 b) (nPrev b) atol) → j b = 0 := by
  induction fuel generalizing alpha with
  | zero =>
    refine ⟨fun _ => 0, fun _ => le_rfl, ?_, ?_, ?_, ?_, fun _ _ => rfl⟩ <;> simp [btSearch]
  | succ fuel ih =>
    classical
    rw [btSearch]
    split_ifs with h
    · refine ⟨fun _ => 0, fun _ => Nat.zero_le _, by simp, by simp, by simp, fun _ => by simpa using h, fun _ _ => rfl⟩
    · obtain ⟨j, h1, h2, h3, h4, h5, h6⟩ := ih
        (fun b => if increased (nrm (fn fun b => x b - alpha b • dx b).1 b) (nPrev b) atol then alpha b / 2 else alpha b)
      refine ⟨fun b => j b + if increased (nrm (fn fun b => x b - alpha b • dx b).1 b) (nPrev b) atol then 1 else 0,
        ?_, ?_, ?_, ?_, ?_, ?_⟩
      · intro b; have := h1 b; dsimp only; split_ifs <;> omega
      · simpa using h2
      · intro b; have := h3 b; dsimp only; split_ifs <;> omega
      · simp only
        rw [h4]
        funext b
        congr 2
        split_ifs
        · rw [pow_succ]; ring
        · rw [Nat.add_zero]
      · intro hlt
        exact h5 (by simpa using hlt)
      · intro b hb
        dsimp only
        rw [h6 b hb, if_neg (hb _)]

theorem btLoop_spec (fn : (β → V) → Res × Jac) (solve : Jac → Res → β → V) (nrm : Res → β → Option ℝ)
    (rtol atol : ℝ) (maxBt : ℤ) (nR0 : β → Option ℝ) (fuel : ℕ) (x : β → V) :
    (btLoop fn solve nrm rtol atol maxBt nR0 fuel x).2 ≤ fuel ∧
    (btLoop fn solve nrm rtol atol maxBt nR0 fuel x).1 =
      (fun x => (btStep fn solve nrm atol maxBt x).1)^[(btLoop fn solve nrm rtol atol maxBt nR0 fuel x).2] x ∧
    (∀ j < (btLoop fn solve nrm rtol atol maxBt nR0 fuel x).2,
      notConverged (nrm (fn ((fun x => (btStep fn solve nrm atol maxBt x).1)^[j] x)).1) nR0 rtol atol) ∧
    ((btLoop fn solve nrm rtol atol maxBt nR0 fuel x).2 < fuel →
      ¬ notConverged (nrm (fn (btLoop fn solve nrm rtol atol maxBt nR0 fuel x).1).1) nR0 rtol atol) := by
  induction fuel generalizing x with
  | zero => simp [btLoop]
  | succ fuel ih =>
    rw [btLoop]
    split_ifs with h
    · obtain ⟨h1, h2, h3, h4⟩ := ih (btStep fn solve nrm atol maxBt x).1
      refine ⟨by simpa using h1, ?_, ?_, ?_⟩
      · simp only [Function.iterate_succ, Function.comp]
        exact h2
      · intro j hj
        cases j with
        | zero => simpa using h
        | succ j =>
          simp only [Function.iterate_succ, Function.comp]
          exact h3 j (by simpa using hj)
      · intro hlt
        exact h4 (by simpa using hlt)
    · exact ⟨by simp, by simp, by simp, fun _ => h⟩

end bt

section gmres
variable {n : ℕ}

/-- the loop returns a checked point unless it ran to the end -/
theorem gmresLoop_early (A : β → Matrix (Fin n) (Fin n) ℝ) (b x0 : β → Fin n → ℝ) (M : Precond β n)
    (lstsq : Lstsq β) (tol eps : ℝ) (check maxiter : ℕ) (nR : β → ℝ) (fuel k : ℕ) (s : Krylov β n)
    (x : β → Fin n → ℝ) (hk : k + fuel = maxiter) :
    (gmresLoop A b x0 M lstsq tol eps check maxiter nR fuel k s x).2 ≤ max (k - 1) (maxiter - 1) ∧
    ((gmresLoop A b x0 M lstsq tol eps check maxiter nR fuel k s x).2 + 1 < maxiter →
      ∀ i, rowNorm (residual A b (gmresLoop A b x0 M lstsq tol eps check maxiter nR fuel k s x).1 i) < tol) := by
  induction fuel generalizing k s x with
  | zero => simp [gmresLoop]; omega
  | succ fuel ih =>
    rw [gmresLoop]
    simp only
    split_ifs with h1 h2
    · exact ⟨by simp; omega, fun _ => h2⟩
    · obtain ⟨i1, i2⟩ := ih (k + 1) (arnoldi A M eps k s)
        (project lstsq nR x0 k (arnoldi A M eps k s)) (by omega)
      exact ⟨by omega, i2⟩
    · obtain ⟨i1, i2⟩ := ih (k + 1) (arnoldi A M eps k s) x (by omega)
      exact ⟨by omega, i2⟩

/-- result of the orthogonalisation: `w0 = w + Σ h_j V_j` -/
theorem orthogonalize_sum (V : ℕ → β → Fin n → ℝ) (w0 : β → Fin n → ℝ) (J : ℕ) (i : β) :
    w0 i = (orthogonalize V w0 J).2 i + ∑ j ∈ Finset.range J, (orthogonalize V w0 J).1 j i • V j i := by
  induction J with
  | zero => simp [orthogonalize]
  | succ J ih =>
    rw [Finset.sum_range_succ]
    simp only [orthogonalize, if_true]
    have h1 : ∑ j ∈ Finset.range J, (if j = J then fun i => V J i ⬝ᵥ (orthogonalize V w0 J).2 i
        else (orthogonalize V w0 J).1 j) i • V j i = ∑ j ∈ Finset.range J, (orthogonalize V w0 J).1 j i • V j i := by
      refine Finset.sum_congr rfl fun j hj => ?_
      rw [if_neg (by have := Finset.mem_range.1 hj; omega)]
    rw [h1]
    conv_lhs => rw [ih]
    abel

/-- the state after `k` Arnoldi passes -/
noncomputable def krylovAfter (A : β → Matrix (Fin n) (Fin n) ℝ) (M : Precond β n) (eps : ℝ) (r : β → Fin n → ℝ) :
    ℕ → Krylov β n
  | 0 => krylovInit M r
  | k + 1 => arnoldi A M eps k (krylovAfter A M eps r k)

/-- `A Z_c = Σ_{l ≤ c+1} H_{l c} V_l` for every column computed so far; `V_0` stays `r/|r|`. -/
theorem arnoldi_relation (A : β → Matrix (Fin n) (Fin n) ℝ) (M : Precond β n) (eps : ℝ) (heps : 0 < eps)
    (r : β → Fin n → ℝ) (k : ℕ) :
    (∀ i j, (krylovAfter A M eps r k).V 0 i j = r i j / rowNorm (r i)) ∧
    (∀ c < k, ∀ i, (A i).mulVec ((krylovAfter A M eps r k).Z c i) =
      ∑ l ∈ Finset.range (c + 2), (krylovAfter A M eps r k).H l c i • (krylovAfter A M eps r k).V l i) ∧
    ∀ l c, c < k → c + 1 < l → ∀ i, (krylovAfter A M eps r k).H l c i = 0 := by
  have hzero : ∀ k l c, k ≤ c → ∀ i, (krylovAfter A M eps r k).H l c i = 0 := by
    intro k
    induction k with
    | zero => intro l c _ i; rfl
    | succ k ih =>
      intro l c hc i
      simp only [krylovAfter, arnoldi]
      rw [if_neg (by omega)]
      exact ih l c (by omega) i
  induction k with
  | zero => exact ⟨fun i j => rfl, by simp, by simp⟩
  | succ k ih =>
    obtain ⟨h1, h2, h3⟩ := ih
    set s := krylovAfter A M eps r k with hs
    have hV : ∀ l, l ≠ k + 1 → (krylovAfter A M eps r (k + 1)).V l = s.V l := fun l hl => by
      simp only [krylovAfter, arnoldi]; rw [if_neg hl]
    have hZ : ∀ l, l ≠ k + 1 → (krylovAfter A M eps r (k + 1)).Z l = s.Z l := fun l hl => by
      simp only [krylovAfter, arnoldi]; rw [if_neg hl]
    have hH : ∀ l c, c ≠ k → (krylovAfter A M eps r (k + 1)).H l c = s.H l c := fun l c hc => by
      simp only [krylovAfter, arnoldi]; rw [if_neg hc]
    refine ⟨fun i j => by rw [hV 0 (by omega)]; exact h1 i j, ?_, ?_⟩
    · intro c hc i
      by_cases hck : c = k
      · subst hck
        rw [hZ c (by omega), Finset.sum_range_succ]
        set o := orthogonalize s.V (fun i => (A i).mulVec (s.Z c i)) (c + 1) with ho
        have hw := orthogonalize_sum s.V (fun i => (A i).mulVec (s.Z c i)) (c + 1) i
        rw [← ho] at hw
        have e1 : (krylovAfter A M eps r (c + 1)).H (c + 1) c i • (krylovAfter A M eps r (c + 1)).V (c + 1) i = o.2 i := by
          simp only [krylovAfter, arnoldi, if_true]
          rw [← hs, ← ho]
          have hpos : rowNorm (o.2 i) + eps ≠ 0 := by
            have : 0 ≤ rowNorm (o.2 i) := Real.sqrt_nonneg _
            linarith
          funext j
          simp only [Pi.smul_apply, smul_eq_mul]
          field_simp
        rw [e1]
        rw [hw, add_comm]
        congr 1
        refine Finset.sum_congr rfl fun l hl => ?_
        have hl' := Finset.mem_range.1 hl
        rw [hV l (by omega)]
        congr 1
        simp only [krylovAfter, arnoldi, if_true]
        rw [if_neg (by omega), if_pos hl']
      · rw [hZ c (by omega), h2 c (by omega) i]
        refine Finset.sum_congr rfl fun l hl => ?_
        have hl' := Finset.mem_range.1 hl
        rw [hV l (by omega), hH l c hck]
    · intro l c hc hl i
      by_cases hck : c = k
      · subst hck
        simp only [krylovAfter, arnoldi, if_true]
        rw [if_neg (by omega), if_neg (by omega)]
        exact hzero c l c le_rfl i
      · rw [hH l c hck]
        exact h3 l c (by omega) hl i

/-- in pass `k` the loop works on `krylovAfter … (k+1)`; a property of the point returned that holds for every point checked -/
theorem gmresLoop_result (A : β → Matrix (Fin n) (Fin n) ℝ) (b x0 : β → Fin n → ℝ) (M : Precond β n)
    (lstsq : Lstsq β) (tol eps : ℝ) (check maxiter : ℕ) (nR : β → ℝ) (r : β → Fin n → ℝ) (fuel k : ℕ)
    (x : β → Fin n → ℝ) (hk : k + fuel = maxiter) (hf : 0 < fuel) :
    ∃ K < maxiter, (gmresLoop A b x0 M lstsq tol eps check maxiter nR fuel k (krylovAfter A M eps r k) x) =
      (project lstsq nR x0 K (krylovAfter A M eps r (K + 1)), K) := by
  induction fuel generalizing k x with
  | zero => omega
  | succ fuel ih =>
    rw [gmresLoop]
    simp only
    have e : arnoldi A M eps k (krylovAfter A M eps r k) = krylovAfter A M eps r (k + 1) := rfl
    rw [e]
    by_cases hfuel : fuel = 0
    · subst hfuel
      rw [if_pos (Or.inr (by omega))]
      split_ifs with h2
      · exact ⟨k, by omega, rfl⟩
      · exact ⟨k, by omega, by simp [gmresLoop]⟩
    · split_ifs with h1 h2
      · exact ⟨k, by omega, rfl⟩
      · exact ih (k + 1) _ (by omega) (by omega)
      · exact ih (k + 1) _ (by omega) (by omega)

/-- with a linear preconditioner `N`, basis vector `j` lies in the Krylov space of `A N` of order `j`, and `Z_j = N V_j` -/
theorem krylov_span (A N : β → Matrix (Fin n) (Fin n) ℝ) (M : Precond β n) (hM : ∀ v i, M v i = (N i).mulVec (v i)) (eps : ℝ)
    (r : β → Fin n → ℝ) (k j : ℕ) (hj : j ≤ k) (i : β) :
    (krylovAfter A M eps r k).V j i ∈ Submodule.span ℝ {v | ∃ l ≤ j, v = ((A i * N i) ^ l).mulVec (r i)} ∧
    (krylovAfter A M eps r k).Z j i = (N i).mulVec ((krylovAfter A M eps r k).V j i) := by
  have mono : ∀ a b, a ≤ b → Submodule.span ℝ {v | ∃ l ≤ a, v = ((A i * N i) ^ l).mulVec (r i)} ≤
      Submodule.span ℝ {v | ∃ l ≤ b, v = ((A i * N i) ^ l).mulVec (r i)} := by
    intro a b hab
    refine Submodule.span_mono ?_
    rintro v ⟨l, hl, rfl⟩
    exact ⟨l, hl.trans hab, rfl⟩
  have sub : ∀ (V : ℕ → β → Fin n → ℝ) (w0 : β → Fin n → ℝ) (S : Submodule ℝ (Fin n → ℝ)) (J : ℕ), w0 i ∈ S →
      (∀ l < J, V l i ∈ S) → (orthogonalize V w0 J).2 i ∈ S := by
    intro V w0 S J h0 hV
    induction J with
    | zero => exact h0
    | succ J ih =>
      simp only [orthogonalize]
      exact S.sub_mem (ih fun l hl => hV l (by omega)) (S.smul_mem _ (hV J (by omega)))
  induction k generalizing j with
  | zero =>
    obtain rfl : j = 0 := by omega
    refine ⟨?_, ?_⟩
    · have : (krylovAfter A M eps r 0).V 0 i = (rowNorm (r i))⁻¹ • r i := by
        funext c
        simp only [krylovAfter, krylovInit, if_true, Pi.smul_apply, smul_eq_mul]
        rw [div_eq_inv_mul]
      rw [this]
      exact Submodule.smul_mem _ _ (Submodule.subset_span ⟨0, le_rfl, by simp⟩)
    · simp only [krylovAfter, krylovInit, if_true, hM]
  | succ k ih =>
    by_cases hjk : j = k + 1
    · subst hjk
      simp only [krylovAfter, arnoldi, if_true, hM]
      refine ⟨?_, trivial⟩
      set s := krylovAfter A M eps r k
      set o := orthogonalize s.V (fun i => (A i).mulVec (s.Z k i)) (k + 1)
      have e : (fun c => o.2 i c / (rowNorm (o.2 i) + eps)) = (rowNorm (o.2 i) + eps)⁻¹ • o.2 i := by
        funext c
        simp only [Pi.smul_apply, smul_eq_mul]
        rw [div_eq_inv_mul]
      rw [e]
      refine Submodule.smul_mem _ _ (sub _ _ _ _ ?_ fun l hl => mono l (k + 1) (by omega) (ih l (by omega)).1)
      obtain ⟨i1, i2⟩ := ih k le_rfl
      rw [i2, Matrix.mulVec_mulVec]
      refine Submodule.span_induction (p := fun v _ => (A i * N i).mulVec v ∈
        Submodule.span ℝ {v | ∃ l ≤ k + 1, v = ((A i * N i) ^ l).mulVec (r i)}) ?_ ?_ ?_ ?_ i1
      · rintro v ⟨l, hl, rfl⟩
        exact Submodule.subset_span ⟨l + 1, by omega, by rw [Matrix.mulVec_mulVec, pow_succ']⟩
      · rw [Matrix.mulVec_zero]; exact Submodule.zero_mem _
      · intro x y _ _ hx hy; rw [Matrix.mulVec_add]; exact Submodule.add_mem _ hx hy
      · intro c x _ hx; rw [Matrix.mulVec_smul]; exact Submodule.smul_mem _ _ hx
    · simp only [krylovAfter, arnoldi, if_neg hjk]
      exact ih j (by omega)

end gmres

theorem reuseLoop_spec {n : ℕ} (fn : (β → Fin n → ℝ) → (β → Fin n → ℝ) × (β → Matrix (Fin n) (Fin n) ℝ))
    (lstsq : Lstsq β) (rtol atol ltol : ℝ) (nR0 : β → Option ℝ) (fuel : ℕ) (x : β → Fin n → ℝ) (M : Precond β n) :
    (reuseLoop fn lstsq rtol atol ltol nR0 fuel x M).2 ≤ fuel ∧
    ((reuseLoop fn lstsq rtol atol ltol nR0 fuel x M).2 < fuel →
      ¬ notConverged (fun b => some (rowNorm ((fn (reuseLoop fn lstsq rtol atol ltol nR0 fuel x M).1.1).1 b)))
        nR0 rtol atol) := by
  induction fuel generalizing x M with
  | zero => simp [reuseLoop]
  | succ fuel ih =>
    rw [reuseLoop]
    split_ifs with h
    · simp only
      obtain ⟨h1, h2⟩ := ih _ _
      exact ⟨by omega, fun hlt => h2 (by omega)⟩
    · exact ⟨by simp, fun _ => h⟩

theorem rowNorm_eq_zero {n : ℕ} {r : Fin n → ℝ} : rowNorm r = 0 ↔ r = 0 := by
  unfold rowNorm
  rw [Real.sqrt_eq_zero (Finset.sum_nonneg fun i _ => sq_nonneg _), Finset.sum_eq_zero_iff_of_nonneg fun i _ => sq_nonneg _]
  constructor
  · intro h
    funext i
    simpa using h i (Finset.mem_univ i)
  · rintro rfl i _
    simp

theorem rowNorm_nonneg {n : ℕ} (r : Fin n → ℝ) : 0 ≤ rowNorm r := Real.sqrt_nonneg _

theorem rowNorm_eq_norm {n : ℕ} (r : Fin n → ℝ) : rowNorm r = ‖(WithLp.toLp 2 r : EuclideanSpace ℝ (Fin n))‖ := by
  rw [EuclideanSpace.norm_eq]
  simp [rowNorm]

theorem rowNorm_smul {n : ℕ} (c : ℝ) (r : Fin n → ℝ) : rowNorm (c • r) = |c| * rowNorm r := by
  rw [rowNorm_eq_norm, rowNorm_eq_norm, WithLp.toLp_smul, norm_smul, Real.norm_eq_abs]

theorem rowNorm_add_le {n : ℕ} (r s : Fin n → ℝ) : rowNorm (r + s) ≤ rowNorm r + rowNorm s := by
  rw [rowNorm_eq_norm, rowNorm_eq_norm, rowNorm_eq_norm, WithLp.toLp_add]
  exact norm_add_le _ _

theorem rowNorm_sum_le {n : ℕ} (s : Finset ℕ) (c : ℕ → ℝ) (v : ℕ → Fin n → ℝ) (hv : ∀ l ∈ s, rowNorm (v l) ≤ 1) :
    rowNorm (∑ l ∈ s, c l • v l) ≤ ∑ l ∈ s, |c l| := by
  classical
  induction s using Finset.induction_on with
  | empty => simp [rowNorm]
  | insert a s ha ih =>
    rw [Finset.sum_insert ha, Finset.sum_insert ha]
    refine (rowNorm_add_le _ _).trans (add_le_add ?_ (ih fun l hl => hv l (Finset.mem_insert_of_mem hl)))
    rw [rowNorm_smul]
    calc |c a| * rowNorm (v a) ≤ |c a| * 1 := mul_le_mul_of_nonneg_left (hv a (Finset.mem_insert_self _ _)) (abs_nonneg _)
      _ = |c a| := mul_one _

theorem rowNorm_div {n : ℕ} (r : Fin n → ℝ) (a : ℝ) (ha : 0 ≤ a) : rowNorm (fun j => r j / a) = rowNorm r / a := by
  have : (fun j => r j / a) = (a⁻¹) • r := by
    funext j
    simp [div_eq_inv_mul]
  rw [this, rowNorm_smul, abs_of_nonneg (inv_nonneg.2 ha), div_eq_inv_mul]

/-- all basis vectors have norm at most one -/
theorem krylov_norm {n : ℕ} (A : β → Matrix (Fin n) (Fin n) ℝ) (M : Precond β n) (eps : ℝ) (heps : 0 < eps)
    (r : β → Fin n → ℝ) (k l : ℕ) (i : β) : rowNorm ((krylovAfter A M eps r k).V l i) ≤ 1 := by
  induction k generalizing l with
  | zero =>
    simp only [krylovAfter, krylovInit]
    split_ifs with h
    · rw [rowNorm_div _ _ (rowNorm_nonneg _)]
      exact div_self_le_one _
    · have : rowNorm ((0 : β → Fin n → ℝ) i) = 0 := rowNorm_eq_zero.2 rfl
      rw [this]; exact zero_le_one
  | succ k ih =>
    simp only [krylovAfter, arnoldi]
    split_ifs with h
    · have hpos : 0 < rowNorm ((orthogonalize (krylovAfter A M eps r k).V
          (fun i => (A i).mulVec ((krylovAfter A M eps r k).Z k i)) (k + 1)).2 i) + eps := by
        have := rowNorm_nonneg ((orthogonalize (krylovAfter A M eps r k).V
          (fun i => (A i).mulVec ((krylovAfter A M eps r k).Z k i)) (k + 1)).2 i)
        linarith
      rw [rowNorm_div _ _ hpos.le]
      rw [div_le_one hpos]
      linarith
    · exact ih l

theorem project_eq {n : ℕ} (A : β → Matrix (Fin n) (Fin n) ℝ) (b x0 : β → Fin n → ℝ) (M : Precond β n)
    (lstsq : Lstsq β) (eps : ℝ) (heps : 0 < eps) (K : ℕ) (i : β)
    (hr : b i - (A i).mulVec (x0 i) ≠ 0) :
    let nR := fun i => rowNorm (b i - (A i).mulVec (x0 i))
    let s := krylovAfter A M eps (residual A b x0) (K + 1)
    let y := lstsq K s.H (fun l => if l = 0 then nR else fun _ => 0)
    b i - (A i).mulVec (project lstsq nR x0 K s i) =
      ∑ l ∈ Finset.range (K + 1), ((if l = 0 then nR i else 0) - ∑ c ∈ Finset.range K, s.H l c i * y c i) • s.V l i := by
  intro nR s y
  obtain ⟨hV, hA, hH⟩ := arnoldi_relation A M eps heps (residual A b x0) (K + 1)
  have hz : nR i ≠ 0 := fun h => hr (rowNorm_eq_zero.1 h)
  have h0 : b i - (A i).mulVec (x0 i) = nR i • s.V 0 i := by
    funext j
    rw [Pi.smul_apply, smul_eq_mul]
    have := hV i j
    simp only [s]
    rw [this]
    simp only [residual, nR]
    rw [mul_div_cancel₀]
    exact hz
  have h1 : ∀ c ∈ Finset.range K, (A i).mulVec (s.Z c i) = ∑ l ∈ Finset.range (K + 1), s.H l c i • s.V l i := by
    intro c hc
    have hc' := Finset.mem_range.1 hc
    rw [hA c (by omega) i]
    refine Finset.sum_subset (Finset.range_mono (by omega)) fun l _ hl => ?_
    rw [Finset.mem_range] at hl
    rw [hH l c (by omega) (by omega) i, zero_smul]
  have h2 : (A i).mulVec (project lstsq nR x0 K s i) =
      (∑ c ∈ Finset.range K, y c i • ∑ l ∈ Finset.range (K + 1), s.H l c i • s.V l i) + (A i).mulVec (x0 i) := by
    simp only [project]
    rw [Matrix.mulVec_add, Matrix.mulVec_sum]
    congr 1
    refine Finset.sum_congr rfl fun c hc => ?_
    rw [Matrix.mulVec_smul, h1 c hc]
  rw [h2, add_comm, ← sub_sub, h0]
  simp only [sub_smul, Finset.sum_sub_distrib, Finset.sum_smul, Finset.smul_sum]
  congr 1
  · rw [Finset.sum_eq_single 0]
    · simp
    · intro l _ hl; simp [hl]
    · simp
  · rw [Finset.sum_comm]
    refine Finset.sum_congr rfl fun l _ => Finset.sum_congr rfl fun c _ => ?_
    rw [smul_smul, mul_comm]

theorem project_residual {n : ℕ} (A : β → Matrix (Fin n) (Fin n) ℝ) (b x0 : β → Fin n → ℝ) (M : Precond β n)
    (lstsq : Lstsq β) (eps : ℝ) (heps : 0 < eps) (K : ℕ) (i : β)
    (hr : b i - (A i).mulVec (x0 i) ≠ 0) :
    let nR := fun i => rowNorm (b i - (A i).mulVec (x0 i))
    let s := krylovAfter A M eps (residual A b x0) (K + 1)
    let y := lstsq K s.H (fun l => if l = 0 then nR else fun _ => 0)
    rowNorm (b i - (A i).mulVec (project lstsq nR x0 K s i)) ≤
      ∑ l ∈ Finset.range (K + 1), |(if l = 0 then nR i else 0) - ∑ c ∈ Finset.range K, s.H l c i * y c i| := by
  intro nR s y
  rw [project_eq A b x0 M lstsq eps heps K i hr]
  exact rowNorm_sum_le _ _ _ fun l _ => krylov_norm A M eps heps _ _ l i

theorem gmres_exact_precond {n : ℕ} (A : β → Matrix (Fin n) (Fin n) ℝ) (b x0 : β → Fin n → ℝ) (M : Precond β n)
    (hM : ∀ v i, (A i).mulVec (M v i) = v i) (lstsq : Lstsq β) (tol eps : ℝ) (heps : 0 < eps) (maxiter : ℕ) (hm : 2 ≤ maxiter)
    (hl : ∀ h e i, (h 0 0 i) * (h 0 0 i * lstsq 1 h e 0 i - e 0 i) + (h 1 0 i) * (h 1 0 i * lstsq 1 h e 0 i - e 1 i) = 0)
    (hr : ∀ i, b i - (A i).mulVec (x0 i) ≠ 0)
    (htol : ∃ i, tol ≤ rowNorm (b i - (A i).mulVec (x0 i)))
    (hsmall : ∀ i, eps ^ 2 / (1 + eps ^ 2) * rowNorm (b i - (A i).mulVec (x0 i)) < tol) :
    let out := gmres A b x0 M lstsq tol eps maxiter 1
    out.2 = 1 ∧ ∀ i, b i - (A i).mulVec (out.1 i) = (eps ^ 2 / (1 + eps ^ 2)) • (b i - (A i).mulVec (x0 i)) := by
  intro out
  set nR := fun i => rowNorm (b i - (A i).mulVec (x0 i)) with hnR
  set s2 := krylovAfter A M eps (residual A b x0) 2 with hs2
  have hnz : ∀ i, nR i ≠ 0 := fun i h => hr i (rowNorm_eq_zero.1 h)
  -- the first Arnoldi pass
  have hv0 : ∀ i, s2.V 0 i = fun j => (b i j - (A i).mulVec (x0 i) j) / nR i := by
    intro i
    funext j
    exact (arnoldi_relation A M eps heps (residual A b x0) 2).1 i j
  have hV00 : ∀ i, (fun j => residual A b x0 i j / rowNorm (residual A b x0 i)) ⬝ᵥ
      (fun j => residual A b x0 i j / rowNorm (residual A b x0 i)) = 1 := by
    intro i
    have hd : rowNorm (residual A b x0 i) ≠ 0 := hnz i
    have hsq : rowNorm (residual A b x0 i) ^ 2 = ∑ j, residual A b x0 i j ^ 2 :=
      Real.sq_sqrt (Finset.sum_nonneg fun j _ => sq_nonneg _)
    have : (fun j => residual A b x0 i j / rowNorm (residual A b x0 i)) ⬝ᵥ
      (fun j => residual A b x0 i j / rowNorm (residual A b x0 i)) =
        (∑ j, residual A b x0 i j ^ 2) / rowNorm (residual A b x0 i) ^ 2 := by
      rw [dotProduct, Finset.sum_div]
      refine Finset.sum_congr rfl fun j _ => ?_
      field_simp
    rw [this, ← hsq, div_self (pow_ne_zero 2 hd)]
  have hw : ∀ i, (orthogonalize (krylovInit M (residual A b x0)).V
      (fun i => (A i).mulVec ((krylovInit M (residual A b x0)).Z 0 i)) 1).2 i = 0 := by
    intro i
    simp only [orthogonalize, krylovInit, if_true, hM]
    rw [hV00 i]
    simp
  have hH00 : ∀ i, s2.H 0 0 i = 1 := by
    intro i
    simp only [hs2, krylovAfter, arnoldi]
    simp only [orthogonalize, krylovInit, if_true, hM]
    norm_num
    exact hV00 i
  have hH10 : ∀ i, s2.H 1 0 i = eps := by
    intro i
    have e : s2.H 1 0 i = rowNorm ((orthogonalize (krylovInit M (residual A b x0)).V
      (fun i => (A i).mulVec ((krylovInit M (residual A b x0)).Z 0 i)) 1).2 i) + eps := by
      simp only [hs2, krylovAfter, arnoldi]
      norm_num
    rw [e, hw i, rowNorm_eq_zero.2 rfl, zero_add]
  have hV1 : ∀ i, s2.V 1 i = 0 := by
    intro i
    funext j
    have e : s2.V 1 i j = (orthogonalize (krylovInit M (residual A b x0)).V
      (fun i => (A i).mulVec ((krylovInit M (residual A b x0)).Z 0 i)) 1).2 i j / (rowNorm ((orthogonalize (krylovInit M (residual A b x0)).V
      (fun i => (A i).mulVec ((krylovInit M (residual A b x0)).Z 0 i)) 1).2 i) + eps) := by
      simp only [hs2, krylovAfter, arnoldi]
      norm_num
    rw [e, hw i]
    simp
  have hres : ∀ i, b i - (A i).mulVec (project lstsq nR x0 1 s2 i) = (eps ^ 2 / (1 + eps ^ 2)) • (b i - (A i).mulVec (x0 i)) := by
    intro i
    have h := project_eq A b x0 M lstsq eps heps 1 i (hr i)
    simp only at h
    rw [← hnR, ← hs2] at h
    rw [h, Finset.sum_range_succ, Finset.sum_range_one, Finset.sum_range_one, hV1 i, smul_zero, add_zero, if_pos rfl, hH00 i]
    have hy := hl s2.H (fun l => if l = 0 then nR else fun _ => 0) i
    rw [hH00 i, hH10 i] at hy
    simp only [if_true] at hy
    norm_num at hy
    set y := lstsq 1 s2.H (fun l => if l = 0 then nR else fun _ => 0) 0 i with hyd
    have hpos : (0 : ℝ) < 1 + eps ^ 2 := by positivity
    have hy' : nR i - 1 * y = eps ^ 2 / (1 + eps ^ 2) * nR i := by
      field_simp
      linarith
    rw [hy', hv0 i]
    funext j
    simp only [Pi.smul_apply, smul_eq_mul, Pi.sub_apply]
    rw [mul_assoc, mul_div_cancel₀ _ (hnz i)]
  have hconv : ∀ i, rowNorm (residual A b (project lstsq nR x0 1 s2) i) < tol := by
    intro i
    have := hsmall i
    simp only [residual]
    rw [hres i, rowNorm_smul, abs_of_nonneg (by positivity)]
    exact this
  have hout : out = (project lstsq nR x0 1 s2, 1) := by
    simp only [out, gmres]
    rw [if_neg (by push Not; exact htol)]
    obtain ⟨m, rfl⟩ : ∃ m, maxiter = m + 2 := ⟨maxiter - 2, by omega⟩
    rw [gmresLoop]
    simp only [Nat.mod_one, true_or, if_true]
    rw [if_neg, gmresLoop]
    · simp only [Nat.mod_one, true_or, if_true]
      exact if_pos hconv
    · push Not
      obtain ⟨i, hi⟩ := htol
      refine ⟨i, ?_⟩
      simpa [project, residual] using hi
  rw [hout]
  exact ⟨rfl, hres⟩

end Pyoptmat.Solvers
