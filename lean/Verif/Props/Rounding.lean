import Verif.Props.Inexact

/-!
# C130: the error budget of floating point arithmetic
-/

namespace Pyoptmat.Props

open Pyoptmat.Control Pyoptmat.Material Pyoptmat.Newton Pyoptmat.Spec Pyoptmat.Ode Pyoptmat.Chunktime

variable {β : Type*} {m : ℕ}

theorem l2_mono {v w : Fin m → ℝ} (h : ∀ i, |v i| ≤ |w i|) : l2 v ≤ l2 w := by
  unfold l2
  exact Real.sqrt_le_sqrt (Finset.sum_le_sum fun i _ => sq_le_sq.2 (h i))

theorem round_vec {fl : ℝ → ℝ} {u : ℝ} (hu : 0 ≤ u) (hfl : Rounds fl u) (v : Fin m → ℝ) : l2 ((fun i => fl (v i)) - v) ≤ u * l2 v := by
  rw [← abs_of_nonneg hu, ← l2_smul]
  refine l2_mono fun i => ?_
  rw [Pi.sub_apply, Pi.smul_apply, smul_eq_mul, abs_mul, abs_of_nonneg hu]
  exact hfl _

/-- one row of a rounded residual -/
theorem round_residual {fl : ℝ → ℝ} {u : ℝ} (hu : 0 ≤ u) (hfl : Rounds fl u) {D q r : Fin m → ℝ} {dt h A G e : ℝ} (h0 : 0 ≤ dt) (h1 : dt ≤ h) (hD : l2 D ≤ A) (hr : l2 r ≤ G) (he : l2 (r - q) ≤ e) :
    l2 ((fun i => fl (fl (D i) - fl (fl dt * r i))) - (D - dt • q)) ≤ u * A + u * (h * G) + h * e + u * ((1 + u) * (h * G)) + u * ((1 + u) * A + (1 + u) * ((1 + u) * (h * G))) := by
  let D' : Fin m → ℝ := fun i => fl (D i)
  let P : Fin m → ℝ := fl dt • r
  let P' : Fin m → ℝ := fun i => fl (P i)
  have hG : 0 ≤ G := (l2_nonneg _).trans hr
  have hh : 0 ≤ h := h0.trans h1
  have e1 : l2 (D' - D) ≤ u * A := (round_vec hu hfl D).trans (mul_le_mul_of_nonneg_left hD hu)
  have hdt : |fl dt - dt| ≤ u * h := (hfl dt).trans (mul_le_mul_of_nonneg_left (by rw [abs_of_nonneg h0]; exact h1) hu)
  have hdt' : |fl dt| ≤ (1 + u) * h := by
    have := abs_add_le (fl dt - dt) dt
    rw [sub_add_cancel, abs_of_nonneg h0] at this
    linarith
  have hP : l2 P ≤ (1 + u) * (h * G) := by
    simp only [P]
    rw [l2_smul, ← mul_assoc]
    exact mul_le_mul hdt' hr (l2_nonneg _) (by positivity)
  have e2 : l2 (P' - P) ≤ u * ((1 + u) * (h * G)) := (round_vec hu hfl P).trans (mul_le_mul_of_nonneg_left hP hu)
  have e3 : l2 (P - dt • q) ≤ u * (h * G) + h * e := by
    have : P - dt • q = (fl dt - dt) • r + dt • (r - q) := by simp only [P]; rw [sub_smul, smul_sub]; abel
    rw [this]
    refine (l2_add_le _ _).trans (add_le_add ?_ ?_)
    · rw [l2_smul, ← mul_assoc]
      exact mul_le_mul hdt hr (l2_nonneg _) (by positivity)
    · rw [l2_smul, abs_of_nonneg h0]
      exact mul_le_mul h1 he (l2_nonneg _) hh
  have hD' : l2 D' ≤ (1 + u) * A := by
    have := l2_add_le (D' - D) D
    rw [sub_add_cancel] at this
    linarith
  have hP' : l2 P' ≤ (1 + u) * ((1 + u) * (h * G)) := by
    have := l2_add_le (P' - P) P
    rw [sub_add_cancel] at this
    linarith
  have e4 : l2 ((fun i => fl ((D' - P') i)) - (D' - P')) ≤ u * ((1 + u) * A + (1 + u) * ((1 + u) * (h * G))) := by
    refine (round_vec hu hfl _).trans (mul_le_mul_of_nonneg_left ?_ hu)
    have := l2_add_le D' (-P')
    rw [l2_neg, ← sub_eq_add_neg] at this
    linarith
  have e : (fun i => fl (fl (D i) - fl (fl dt * r i))) - (D - dt • q) = ((fun i => fl ((D' - P') i)) - (D' - P')) + ((D' - D) + (-(P' - P) + -(P - dt • q))) := by
    funext i
    simp only [D', P', P, Pi.sub_apply, Pi.add_apply, Pi.neg_apply, Pi.smul_apply, smul_eq_mul]
    ring
  rw [e]
  have q1 := l2_add_le ((fun i => fl ((D' - P') i)) - (D' - P')) ((D' - D) + (-(P' - P) + -(P - dt • q)))
  have q2 := l2_add_le (D' - D) (-(P' - P) + -(P - dt • q))
  have q3 := l2_add_le (-(P' - P)) (-(P - dt • q))
  rw [l2_neg, l2_neg] at q3
  linarith

/-- **C130.** Without rounding, the floating point operations are the exact ones. -/
theorem C130_float_exact (c : Config) (f : BFunc β m) :
    floatArith (fun x => x) c.scheme f (fun _ t tS yS dy => (blockRJ c.scheme f t tS yS dy).2) (fun _ J R => Chunktime.solve c.method J R) (fun _ x dx => x - dx)
      (fun _ R b => some (rowNorm (R b))) = exactArith c f := by
  unfold floatArith exactArith
  congr 1
  funext n t tS yS dy
  refine Prod.ext ?_ rfl
  unfold blockRJ formOperators
  cases c.scheme <;> rfl

/-- **C130.** In floating point arithmetic with unit roundoff `u ≤ 1/100` (without overflow and underflow), a machine that evaluates the rates with an error of at most `ef` and norms with a relative error
of at most `un` has a stopping test that can be trusted up to `h ef + u (7 B + 4 h (F + ef) + 3 h L B) + un δ`, where `B` bounds the states, `F` the rates at states up to `1.01 B`, `L` is a Lipschitz
constant of the rates and `h` bounds the steps. Jacobian, linear solves and Newton updates are arbitrary. -/
theorem C130_rounding (fl : ℝ → ℝ) (u : ℝ) (hu : 0 ≤ u) (hu' : u ≤ 1 / 100) (hfl : Rounds fl u) (s : Scheme) (f : Func β m) (g : ℝ → (Fin m → ℝ) → Fin m → ℝ)
    (jac : (n : ℕ) → (Fin n → β → ℝ) → (β → ℝ) → BVec β m ℝ → (β → Fin (n * m) → ℝ) → BidiagOp β n m ℝ)
    (solve : (n : ℕ) → BidiagOp β n m ℝ → (β → Fin (n * m) → ℝ) → β → Fin (n * m) → ℝ) (sub : (n : ℕ) → (β → Fin (n * m) → ℝ) → (β → Fin (n * m) → ℝ) → β → Fin (n * m) → ℝ)
    (norm : (n : ℕ) → (β → Fin (n * m) → ℝ) → β → Option ℝ) (nt : ℕ) (t : ℕ → β → ℝ) (b : β) (B δ h F ef L un : ℝ) (hB : 0 ≤ B) (hL : 0 ≤ L) (hun : 0 ≤ un)
    (ht : ∀ k, k + 1 < nt → t k b ≤ t (k + 1) b) (hh : ∀ k, k + 1 < nt → t (k + 1) b - t k b ≤ h)
    (hf : ∀ k, k < nt → ∀ y, l2 y ≤ 1.01 * B → l2 ((f b (t k b) y).1 - g (t k b) y) ≤ ef) (hF : ∀ k, k < nt → ∀ y, l2 y ≤ 1.01 * B → l2 (g (t k b) y) ≤ F)
    (hg : ∀ k, k < nt → Lip (g (t k b)) L) (hn : ∀ N R, ∃ x, norm N R b = some x ∧ rowNorm (R b) ≤ (1 + un) * x) :
    ResidualsRight (floatArith fl s (Func.lift f) jac solve sub norm) s g nt t b B δ (h * ef + u * (7 * B + 4 * (h * (F + ef)) + 3 * (h * L * B)) + un * δ) := by
  have hX : ∀ v : Fin m → ℝ, l2 (fun i => fl (v i)) ≤ B → l2 v ≤ 1.0102 * B := by
    intro v hv
    have h1 := round_vec hu hfl v
    have h2 := l2_add_le (-((fun i => fl (v i)) - v)) (fun i => fl (v i))
    rw [l2_neg] at h2
    have e : -((fun i => fl (v i)) - v) + (fun i => fl (v i)) = v := by abel
    rw [e] at h2
    have h3 := mul_le_mul_of_nonneg_right hu' (l2_nonneg v)
    linarith
  have hR : ∀ v : Fin m → ℝ, l2 v ≤ B → l2 (fun i => fl (v i)) ≤ 1.01 * B := by
    intro v hv
    have h1 := round_vec hu hfl v
    have h2 := l2_add_le ((fun i => fl (v i)) - v) v
    rw [sub_add_cancel] at h2
    have h3 := mul_le_mul_of_nonneg_right hu' (l2_nonneg v)
    linarith
  have bud : Budget (floatArith fl s (Func.lift f) jac solve sub norm) s g nt t b B δ
      (u * (2.0204 * B) + u * (h * (F + ef)) + h * (ef + L * (u * (1.0102 * B))) + u * ((1 + u) * (h * (F + ef))) +
        u * ((1 + u) * (2.0204 * B) + (1 + u) * ((1 + u) * (h * (F + ef))))) (un * δ) (u * (1.0102 * B)) := by
    refine ⟨fun k N yStart dy hN h0 hrows X X0 XS j => ?_, fun k N yStart dy _ _ _ => ?_, fun N yStart dy h0 j hj => ?_⟩
    · have hdX : ∀ i : Fin (N + 1), (stack (0 : BVec β m ℝ) (unflatten dy) : Fin (N + 1) → BVec β m ℝ) i b + yStart b = X i.val := by
        intro i
        refine Fin.cases ?_ (fun i => ?_) i
        · simp [stack, X0]
        · simp only [stack, Fin.cons_succ, Fin.val_succ]
          exact (XS i).symm
      have hT : ∀ i : Fin (N + 1), (stack (t k) (fun j : Fin N => t (k + 1 + j.val)) : Fin (N + 1) → β → ℝ) i b = t (k + i.val) b := by
        intro i
        refine Fin.cases ?_ (fun i => ?_) i
        · simp [stack]
        · simp only [stack, Fin.cons_succ, Fin.val_succ]
          rw [show k + 1 + i.val = k + (i.val + 1) by omega]
      have sX : ∀ i, i ≤ N → l2 (X i) ≤ 1.0102 * B := by
        intro i hi
        cases i with
        | zero => rw [X0]; linarith
        | succ i =>
          refine hX _ ?_
          have := hrows ⟨i, by omega⟩
          rw [XS ⟨i, by omega⟩]
          exact this
      have sY : ∀ i, i ≤ N → l2 (fun e => fl (X i e)) ≤ 1.01 * B := by
        intro i hi
        cases i with
        | zero => rw [X0]; exact hR _ h0
        | succ i =>
          have := hrows ⟨i, by omega⟩
          rw [XS ⟨i, by omega⟩]
          refine le_trans this ?_
          linarith
      have hrate : ∀ i, i ≤ N → l2 (f b (t (k + i) b) (fun e => fl (X i e))).1 ≤ F + ef ∧
          l2 ((f b (t (k + i) b) (fun e => fl (X i e))).1 - g (t (k + i) b) (X i)) ≤ ef + L * (u * (1.0102 * B)) := by
        intro i hi
        have a1 := hf (k + i) (by omega) _ (sY i hi)
        have a2 := hF (k + i) (by omega) _ (sY i hi)
        have a3 := (hg (k + i) (by omega) (fun e => fl (X i e)) (X i)).trans (mul_le_mul_of_nonneg_left ((round_vec hu hfl (X i)).trans (mul_le_mul_of_nonneg_left (sX i hi) hu)) hL)
        generalize (f b (t (k + i) b) (fun e => fl (X i e))).1 = r at *
        constructor
        · have := l2_add_le (r - g (t (k + i) b) (fun e => fl (X i e))) (g (t (k + i) b) (fun e => fl (X i e)))
          rw [sub_add_cancel] at this
          linarith
        · have := l2_add_le (r - g (t (k + i) b) (fun e => fl (X i e))) (g (t (k + i) b) (fun e => fl (X i e)) - g (t (k + i) b) (X i))
          rw [sub_add_sub_cancel] at this
          linarith
      have hD : l2 (X (j.val + 1) - X j.val) ≤ 2.0204 * B := by
        have := l2_add_le (X (j.val + 1)) (-X j.val)
        rw [l2_neg, ← sub_eq_add_neg] at this
        have := sX j.val (by have := j.2; omega)
        have := sX (j.val + 1) j.2
        linarith
      have d0 := sub_nonneg.2 (ht (k + j.val) (by have := j.2; omega))
      have d1 := hh (k + j.val) (by have := j.2; omega)
      have eD : ∀ i, (stack (0 : BVec β m ℝ) (unflatten dy) : Fin (N + 1) → BVec β m ℝ) j.succ b i - (stack (0 : BVec β m ℝ) (unflatten dy) : Fin (N + 1) → BVec β m ℝ) j.castSucc b i =
          (X (j.val + 1) - X j.val) i := by
        intro i
        have c1 := congrFun (hdX j.succ) i
        have c2 := congrFun (hdX j.castSucc) i
        simp only [Pi.add_apply, Fin.val_succ, Fin.val_castSucc] at c1 c2
        rw [Pi.sub_apply, ← c1, ← c2]
        ring
      have eY : ∀ i : Fin (N + 1), (fun e => fl ((stack (0 : BVec β m ℝ) (unflatten dy) : Fin (N + 1) → BVec β m ℝ) i b e + yStart b e)) = fun e => fl (X i.val e) := by
        intro i
        funext e
        rw [← congrFun (hdX i) e, Pi.add_apply]
      cases s with
      | backwardEuler =>
        have e : unflatten ((floatArith fl .backwardEuler (Func.lift f) jac solve sub norm).R N (fun j => t (k + 1 + j.val)) (t k) yStart dy).1 j b =
            fun i => fl (fl ((X (j.val + 1) - X j.val) i) - fl (fl (t (k + j.val + 1) b - t (k + j.val) b) * (f b (t (k + (j.val + 1)) b) (fun e => fl (X (j.val + 1) e))).1 i)) := by
          simp only [floatArith, unflatten_flatten, Func.lift]
          funext i
          rw [eD, eY, hT, hT]
          rfl
        rw [e]
        exact round_residual hu hfl d0 d1 hD (hrate (j.val + 1) j.2).1 (hrate (j.val + 1) j.2).2
      | forwardEuler =>
        have e : unflatten ((floatArith fl .forwardEuler (Func.lift f) jac solve sub norm).R N (fun j => t (k + 1 + j.val)) (t k) yStart dy).1 j b =
            fun i => fl (fl ((X (j.val + 1) - X j.val) i) - fl (fl (t (k + j.val + 1) b - t (k + j.val) b) * (f b (t (k + j.val) b) (fun e => fl (X j.val e))).1 i)) := by
          simp only [floatArith, unflatten_flatten, Func.lift]
          funext i
          rw [eD, eY, hT, hT]
          rfl
        rw [e]
        exact round_residual hu hfl d0 d1 hD (hrate j.val (by have := j.2; omega)).1 (hrate j.val (by have := j.2; omega)).2
    · obtain ⟨x, hx, hle⟩ := hn N ((floatArith fl s (Func.lift f) jac solve sub norm).R N (fun j => t (k + 1 + j.val)) (t k) yStart dy).1
      refine ⟨x, hx, fun hxd j => (l2_le_rowNorm _ b j).trans (hle.trans ?_)⟩
      have := mul_le_mul_of_nonneg_left hxd (by linarith : 0 ≤ 1 + un)
      linarith
    · have h1 := hX (unflatten dy j b + yStart b) hj
      exact (round_vec hu hfl (unflatten dy j b + yStart b)).trans (mul_le_mul_of_nonneg_left h1 hu)
  have main := C130_budget _ s g nt t b B δ _ _ _ (by positivity) bud L hL hg h ht hh
  intro k N yStart dy hN h0 hrows
  obtain ⟨x, hx, hm⟩ := main k N yStart dy hN h0 hrows
  refine ⟨x, hx, fun hxd y hy0 hy j hj => (hm hxd y hy0 hy j hj).trans ?_⟩
  have hh0 : 0 ≤ h := (sub_nonneg.2 (ht (k + j) (by omega))).trans (hh (k + j) (by omega))
  have hF0 : 0 ≤ F + ef := by
    have a1 := (l2_nonneg _).trans (hf k (by omega) 0 (by rw [l2_zero]; positivity))
    have a2 := (l2_nonneg _).trans (hF k (by omega) 0 (by rw [l2_zero]; positivity))
    linarith
  have hG : 0 ≤ h * (F + ef) := mul_nonneg hh0 hF0
  generalize h * (F + ef) = G at *
  have p1 : 0 ≤ u * B := mul_nonneg hu hB
  have p2 : 0 ≤ u * G := mul_nonneg hu hG
  have p3 : 0 ≤ h * L * (u * B) := by positivity
  have p4 : u * (u * B) ≤ 1 / 100 * (u * B) := mul_le_mul_of_nonneg_right hu' p1
  have p5 : u * (u * G) ≤ 1 / 100 * (u * G) := mul_le_mul_of_nonneg_right hu' p2
  have p6 : u * (u * (u * G)) ≤ 1 / 100 * (1 / 100 * (u * G)) := (mul_le_mul_of_nonneg_left p5 hu).trans (by
    have := mul_le_mul_of_nonneg_left p5 (by norm_num : (0 : ℝ) ≤ 1 / 100)
    nlinarith)
  nlinarith

/-- **C130.** For `InelasticModel` with `PerfectViscoplasticity` under strain control, two machines that run the same test without warnings (one of them may compute exactly) give stresses that differ by at
most `k (δ + ε + δ' + ε')` after `k` steps: rounding errors of earlier steps are never amplified, however stiff the material. -/
theorem C130_perfect_stress {β' : Type*} (a : Arith β (0 + 1)) (a' : Arith β' (0 + 1)) (c c' : Config) (hm : 0 ≤ c.miter) (hm' : 0 ≤ c'.miter) (nt : ℕ) (times : ℕ → β → ℝ) (times' : ℕ → β' → ℝ)
    (blk blk' : ℤ) (hb : 0 < blk) (hb' : 0 < blk') (res : Partial β (0 + 1)) (res' : Partial β' (0 + 1)) (h : integrateWith a c 0 nt times blk = .ok (res, false))
    (h' : integrateWith a' c' 0 nt times' blk' = .ok (res', false)) (b : β) (b' : β') (htt : ∀ k, k < nt → times k b = times' k b') (strains temps : ℕ → ℝ) (E n eta : ℝ → ℝ)
    (hg : StrictGrid (nt - 1) fun k => times k b) (hp : ∀ k, k < nt → 0 ≤ E (temps k) ∧ 0 < n (temps k) ∧ 0 < eta (temps k)) (B ε δ B' ε' δ' : ℝ) :
    let g : ℝ → (Fin (0 + 1) → ℝ) → Fin (0 + 1) → ℝ := fun s y =>
      (strainFunc (fun _ : Unit => inelastic E (perfect n eta)) nt (fun k _ => times k b) (fun k _ => strains k) (fun k _ => temps k) () s y).1
    ResidualsRight a .backwardEuler g nt times b B δ ε → ResidualsRight a' .backwardEuler g nt times' b' B' δ' ε' → MachineTolerance a c nt times res.get b δ →
      MachineTolerance a' c' nt times' res'.get b' δ' → (∀ k, k < nt → l2 (res.get k b) ≤ B) → (∀ k, k < nt → l2 (res'.get k b') ≤ B') →
      ∀ k, k < nt → |res.get k b 0 - res'.get k b' 0| ≤ k * (δ + ε + (δ' + ε')) := by
  intro g hε hε' hδ hδ' hB hB' k hk
  have hst : ∀ k, k + 1 < nt → times k b ≤ times (k + 1) b := fun k hk => (hg k (by omega)).le
  have main := C130_reproducible a a' c c' hm hm' g 0 0 nt times times' blk blk' hb hb' res res' h h' b b' htt B ε δ B' ε' δ' hε hε' hδ hδ' hB hB' hst 0 le_rfl
    (fun k _ => by norm_num) (by
    intro k hk
    have e := dataFn_grid hg temps hk (by omega)
    obtain ⟨p1, p2, p3⟩ := hp (k + 1) hk
    rw [← e] at p1 p2 p3
    simp only [g, strainFunc]
    exact perfect_oneSided E n eta _ _ _ p1 p2 p3) k hk
  have e0 : l2 ((0 : BVec β (0 + 1) ℝ) b - (0 : BVec β' (0 + 1) ℝ) b') = 0 := by
    have : (0 : BVec β (0 + 1) ℝ) b - (0 : BVec β' (0 + 1) ℝ) b' = 0 := by simp
    rw [this, l2_zero]
  rw [e0, mul_zero, zero_mul, Real.exp_zero, one_mul] at main
  have := l2_one (res.get k b - res'.get k b')
  rw [Pi.sub_apply] at this
  rw [← this]
  linarith

/-- Non-vacuity of `C130_rounding`: a rounding function with unit roundoff `1e-16`, `y' = -y` in ten steps of `1/10`, states up to 1: the stopping test with `atol = 1e-8` can be trusted up to `1e-15`. -/
example (jac : (n : ℕ) → (Fin n → Unit → ℝ) → (Unit → ℝ) → BVec Unit 1 ℝ → (Unit → Fin (n * 1) → ℝ) → BidiagOp Unit n 1 ℝ)
    (solve : (n : ℕ) → BidiagOp Unit n 1 ℝ → (Unit → Fin (n * 1) → ℝ) → Unit → Fin (n * 1) → ℝ) :
    ResidualsRight (floatArith (fun x => x * (1 + 1e-16)) .backwardEuler (Func.lift fun _ _ y => (-y, -1)) jac solve (fun _ x dx => x - dx) fun _ R b => some (rowNorm (R b))) .backwardEuler
      (fun _ y => -y) 11 (fun k _ => (k : ℝ) / 10) () 1 1e-8 1e-15 := by
  have h := C130_rounding (β := Unit) (m := 1) (fun x => x * (1 + 1e-16)) 1e-16 (by norm_num) (by norm_num) (fun x => by
    rw [show x * (1 + 1e-16) - x = 1e-16 * x by ring, abs_mul, abs_of_pos (by norm_num : (0 : ℝ) < 1e-16)]) .backwardEuler (fun _ _ y => (-y, -1)) (fun _ y => -y) jac solve (fun _ x dx => x - dx)
    (fun _ R b => some (rowNorm (R b))) 11 (fun k _ => (k : ℝ) / 10) () 1 1e-8 (1 / 10) 1.01 0 1 0 zero_le_one zero_le_one le_rfl (fun k _ => by push_cast; linarith) (fun k _ => by push_cast; linarith)
    (fun k _ y _ => by simp [l2_zero]) (fun k _ y hy => by rw [l2_neg]; linarith)
    (fun k _ x y => by rw [show -x - -y = -(x - y) by abel, l2_neg, one_mul]) (fun N R => ⟨_, rfl, by linarith⟩)
  intro k N yStart dy hN h0 hrows
  obtain ⟨x, hx, hm⟩ := h k N yStart dy hN h0 hrows
  refine ⟨x, hx, fun hxd y hy0 hy j hj => (hm hxd y hy0 hy j hj).trans ?_⟩
  norm_num

end Pyoptmat.Props
