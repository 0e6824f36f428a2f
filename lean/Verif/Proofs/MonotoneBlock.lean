import Verif.Proofs.MonotoneNewton
import Verif.Props.Convergence

/-! Helper lemmas: the block integrator on one state with a convex, increasing resistance. -/

namespace Pyoptmat.Ode

open Pyoptmat.Chunktime Pyoptmat.Newton Pyoptmat.Spec Pyoptmat.Proofs Pyoptmat.Props

variable {β : Type*}

/-- the hypotheses on one block: every batch entry is loaded in one direction `sg b` -/
structure ConvexBlock (f : Func β 1) (n : ℕ) (t : ℕ → β → ℝ) (yS : BVec β 1 ℝ) (sg : β → ℝ) (a : β → ℕ → ℝ) (G G' : β → ℕ → ℝ → ℝ) (N : ℝ) : Prop where
  n0 : 0 < n
  ht : ∀ b, ∀ k < n, t k b ≤ t (k + 1) b
  sign : ∀ b, sg b * sg b = 1
  start : ∀ b, 0 ≤ sg b * yS b 0
  load : ∀ b, ∀ k < n, 0 ≤ a b k
  hN : 1 ≤ N
  res : ∀ b, ∀ k < n, ConvexResistance (G b k) (G' b k) N
  law : ∀ b, ∀ k < n, ∀ y : Fin 1 → ℝ, 0 ≤ sg b * y 0 → (f b (t (k + 1) b) y).1 0 = sg b * (a b k - G b k (sg b * y 0)) ∧ (f b (t (k + 1) b) y).2 0 0 = -G' b k (sg b * y 0)

section
variable {f : Func β 1} {n : ℕ} {t : ℕ → β → ℝ} {yS : BVec β 1 ℝ} {sg : β → ℝ} {a : β → ℕ → ℝ} {G G' : β → ℕ → ℝ → ℝ} {N : ℝ}

theorem ConvexBlock.recursion (h : ConvexBlock f n t yS sg a G G' N) (meth : SolveMethod) (j : ℕ) (hj : ∀ b, ∀ k < n, 0 ≤ sg b * blockRows yS (iter f n t yS meth j) (k + 1) b 0) (b : β) (k : ℕ)
    (hk : k < n) :
    let x := fun j b k => sg b * blockRows yS (iter f n t yS meth j) k b 0
    x (j + 1) b (k + 1) - x (j + 1) b k = (t (k + 1) b - t k b) * (a b k - G b k (x j b (k + 1)) - G' b k (x j b (k + 1)) * (x (j + 1) b (k + 1) - x j b (k + 1))) := by
  intro x
  have hd : ∀ (k : Fin n) b, diff (stack (t 0) (fun j : Fin n => t (j.val + 1))) k b = t (k.val + 1) b - t k.val b := by
    intro k b
    unfold diff
    rw [stack_times, stack_times, Fin.val_succ, Fin.val_castSucc]
  have main := be_newton_update f h.n0 (fun j : Fin n => t (j.val + 1)) (t 0) yS meth (iter f n t yS meth j) (by
    intro k b
    rw [hd, stack_times, Fin.val_succ, ← blockRows_succ, Matrix.det_fin_one]
    simp only [Matrix.sub_apply, Matrix.smul_apply, Matrix.one_apply_eq, smul_eq_mul]
    rw [(h.law b k k.2 _ (hj b k k.2)).2, isUnit_iff_ne_zero]
    have := mul_nonneg (sub_nonneg.2 (h.ht b k k.2)) ((h.res b k k.2).slope _ (hj b k k.2))
    rw [mul_neg, sub_neg_eq_add]
    positivity) ⟨k, hk⟩ b
  have e : iter f n t yS meth (j + 1) = iter f n t yS meth j - solve meth (blockRJ .backwardEuler f (fun j : Fin n => t (j.val + 1)) (t 0) yS (iter f n t yS meth j)).2
      (blockRJ .backwardEuler f (fun j : Fin n => t (j.val + 1)) (t 0) yS (iter f n t yS meth j)).1 := by
    unfold iter newtonIterate
    rw [Function.iterate_succ_apply']
  simp only [← e] at main
  rw [hd, stack_times, Fin.val_succ] at main
  have r1 := blockRows_succ yS (iter f n t yS meth (j + 1)) b ⟨k, hk⟩
  have r2 := blockRows_succ yS (iter f n t yS meth j) b ⟨k, hk⟩
  simp only at r1 r2 main
  have r3 : blockRows yS (iter f n t yS meth (j + 1)) k b = (stack 0 (unflatten (iter f n t yS meth (j + 1))) : Fin (n + 1) → BVec β 1 ℝ) (Fin.castSucc ⟨k, hk⟩) b + yS b := by
    unfold blockRows
    rw [dif_pos (by omega)]
    rfl
  have m0 := congrFun main 0
  have hp := h.law b k hk _ (hj b k hk)
  have d1 : blockRows yS (iter f n t yS meth (j + 1)) (k + 1) b 0 - blockRows yS (iter f n t yS meth (j + 1)) k b 0 =
      (unflatten (iter f n t yS meth (j + 1)) ⟨k, hk⟩ b - (stack 0 (unflatten (iter f n t yS meth (j + 1))) : Fin (n + 1) → BVec β 1 ℝ) (Fin.castSucc ⟨k, hk⟩) b) 0 := by
    rw [r1, r3]; simp
  have d2 : blockRows yS (iter f n t yS meth (j + 1)) (k + 1) b 0 - blockRows yS (iter f n t yS meth j) (k + 1) b 0 =
      (unflatten (iter f n t yS meth (j + 1)) ⟨k, hk⟩ b - unflatten (iter f n t yS meth j) ⟨k, hk⟩ b) 0 := by
    rw [r1, r2]; simp
  rw [← r2] at m0
  simp only [Pi.smul_apply, Pi.add_apply, smul_eq_mul, Matrix.mulVec, dotProduct, Fin.sum_univ_one] at m0
  rw [hp.1, hp.2, ← d2] at m0
  have m1 : blockRows yS (iter f n t yS meth (j + 1)) (k + 1) b 0 - blockRows yS (iter f n t yS meth (j + 1)) k b 0 = _ := d1.trans m0
  simp only [x]
  rw [← mul_sub, ← mul_sub, m1]
  have := h.sign b
  linear_combination (t (k + 1) b - t k b) * (a b k - G b k (sg b * blockRows yS (iter f n t yS meth j) (k + 1) b 0)) * this

theorem ConvexBlock.close (h : ConvexBlock f n t yS sg a G G' N) (meth : SolveMethod) {L : ℝ} (b : β)
    (hL : ∀ k < n, ∀ y, 0 ≤ y → y ≤ elasticSum (sg b * yS b 0) (fun k => t k b) (a b) n → G' b k y ≤ L) (hL0 : 0 ≤ L) (j : ℕ) :
    (∀ k ≤ n, 0 ≤ sg b * blockRows yS (iter f n t yS meth j) k b 0 ∧ sg b * blockRows yS (iter f n t yS meth j) k b 0 ≤ elasticSum (sg b * yS b 0) (fun k => t k b) (a b) k) ∧
    rowNorm ((blockRJ .backwardEuler f (fun j : Fin n => t (j.val + 1)) (t 0) yS (iter f n t yS meth (j + 1))).1 b) ≤
      (1 - 1 / N) ^ j * elasticSum (sg b * yS b 0) (fun k => t k b) (a b) n * (1 + L * (t n b - t 0 b)) := by
  have run := fun b hL j => monotone_newton_defect (t := fun b k => t k b) (a := a) (s := fun b => sg b * yS b 0) (L := L) h.ht h.load h.start h.hN h.res
    (x := fun j b k => sg b * blockRows yS (iter f n t yS meth j) k b 0) (fun b k => by rw [show iter f n t yS meth 0 = 0 from rfl, blockRows_guess]) (fun j b => by rw [blockRows_zero])
    (fun j hj b k hk => h.recursion meth j hj b k hk) b hL hL0 j
  have main := run b hL j
  have next := (run b hL (j + 1)).1
  refine ⟨main.1, ?_⟩
  set R := (blockRJ .backwardEuler f (fun j : Fin n => t (j.val + 1)) (t 0) yS (iter f n t yS meth (j + 1))).1 with hR
  rw [rowNorm_eq_rowsNorm R b (fun j => if hj : j < n then unflatten R ⟨j, hj⟩ b else 0) (fun j => by rw [dif_pos j.2])]
  refine (rowsNorm_le_sum _ _).trans (le_trans (le_of_eq (Finset.sum_congr rfl fun k hk => ?_)) main.2)
  have hk := Finset.mem_range.1 hk
  rw [dif_pos hk, l2_one]
  have key := blockRJ_residual .backwardEuler f (fun j : Fin n => t (j.val + 1)) (t 0) yS (iter f n t yS meth (j + 1)) t (fun k => blockRows yS (iter f n t yS meth (j + 1)) k) 0 rfl
    (by funext b; exact blockRows_zero yS _ b) (fun j => by rw [Nat.zero_add, Nat.add_comm 1 j.val]) (fun j => by
      funext b
      rw [Nat.zero_add, Nat.add_comm 1 j.val]
      exact blockRows_succ yS _ b j) ⟨k, hk⟩ b
  rw [← hR] at key
  rw [key]
  simp only [defect, backwardDefect, Nat.zero_add, rate, Pi.sub_apply, Pi.smul_apply, smul_eq_mul]
  rw [(h.law b k hk _ (next (k + 1) hk).1).1]
  have s1 : |sg b| = 1 := by
    have := h.sign b
    rw [← abs_mul_abs_self] at this
    nlinarith [abs_nonneg (sg b)]
  rw [← one_mul |_|, ← s1, ← abs_mul]
  congr 1
  have := h.sign b
  linear_combination (-((t (k + 1) b - t k b) * (a b k - G b k (sg b * blockRows yS (iter f n t yS meth (j + 1)) (k + 1) b 0)))) * this

/-- the block update succeeds -/
theorem ConvexBlock.succeeds (c : Config) (hs : c.scheme = .backwardEuler) (h : ConvexBlock f n t yS sg a G G' N) {L B : ℝ}
    (hL : ∀ b, ∀ k < n, ∀ y, 0 ≤ y → y ≤ elasticSum (sg b * yS b 0) (fun k => t k b) (a b) n → G' b k y ≤ L) (hL0 : 0 ≤ L) 
    (hB : ∀ b, elasticSum (sg b * yS b 0) (fun k => t k b) (a b) n * (1 + L * (t n b - t 0 b)) ≤ B) (j : ℕ) (hj : (j : ℤ) + 1 < c.miter) (ha : (1 - 1 / N) ^ j * B ≤ c.atol) :
    ∃ rows, blockUpdate c f (fun j : Fin n => t (j.val + 1)) (t 0) yS 0 = .ok (rows, false) ∧
      ∀ k b, 0 ≤ sg b * rows k b 0 ∧ sg b * rows k b 0 ≤ elasticSum (sg b * yS b 0) (fun k => t k b) (a b) (k.val + 1) := by
  have hθ : 0 ≤ 1 - 1 / N := by
    have := h.hN
    rw [sub_nonneg, div_le_one (by linarith)]; exact h.hN
  have hN : ∃ dy, (blockNewton c f (fun j : Fin n => t (j.val + 1)) (t 0) yS 0).result = .ok dy ∧ (blockNewton c f (fun j : Fin n => t (j.val + 1)) (t 0) yS 0).warned = false := by
    unfold blockNewton
    refine newton_succeeds _ _ _ (fun (R : β → Fin (n * 1) → ℝ) (b : β) => rowNorm (R b)) _ _ _ _ _ (j + 1) (by push_cast; exact hj) (Or.inl fun b => ?_)
    rw [hs]
    refine (h.close c.method b (hL b) hL0 j).2.trans (le_trans ?_ ha)
    rw [mul_assoc]
    exact mul_le_mul_of_nonneg_left (hB b) (pow_nonneg hθ _)
  obtain ⟨dy, h1, h2⟩ := hN
  refine ⟨fun k => unflatten dy k + yS, ?_, fun k b => ?_⟩
  · unfold blockUpdate
    rw [h1, h2]
  · obtain ⟨-, q, -⟩ := C10_returns_first_iterate (blockRJ c.scheme f (fun j : Fin n => t (j.val + 1)) (t 0) yS) (fun J R => solve c.method J R)
      (fun x dx => x - dx) (fun (R : β → Fin (n * 1) → ℝ) (b : β) => rowNorm (R b)) 0 c.rtol c.atol c.miter (by omega) c.throwOnFail
    obtain ⟨i, e⟩ : ∃ i, dy = iter f n t yS c.method i :=
      ⟨_, by unfold iter; rw [← hs]; exact q dy h1⟩
    have := (h.close c.method b (hL b) hL0 i).1 (k.val + 1) k.2
    rw [blockRows_succ, ← e] at this
    exact this

end

theorem elasticSum_shift {s s' : ℝ} {t a : ℕ → ℝ} {k : ℕ} (h : s' ≤ elasticSum s t a k) (i : ℕ) : elasticSum s' (fun i => t (k + i)) (fun i => a (k + i)) i ≤ elasticSum s t a (k + i) := by
  induction i with
  | zero => rw [elasticSum_zero]; exact h
  | succ i ih =>
    rw [elasticSum_succ, show k + (i + 1) = k + i + 1 by omega, elasticSum_succ]
    exact add_le_add ih le_rfl

theorem elasticSum_le_of_le {s : ℝ} {t a' a : ℕ → ℝ} {k : ℕ} (ht : ∀ i < k, t i ≤ t (i + 1)) (h : ∀ i < k, a' i ≤ a i) : elasticSum s t a' k ≤ elasticSum s t a k := by
  unfold elasticSum
  refine add_le_add le_rfl (Finset.sum_le_sum fun i hi => ?_)
  have hi := Finset.mem_range.1 hi
  exact mul_le_mul_of_nonneg_left (h i hi) (sub_nonneg.2 (ht i hi))

/-- a block sees the rates only at its own times -/
theorem blockUpdate_congr {m : ℕ} (c : Config) (F F' : BFunc β m) {n : ℕ} (t : Fin n → β → ℝ) (tS : β → ℝ) (yS : BVec β m ℝ) (g : β → Fin (n * m) → ℝ)
    (h : ∀ Y, F (n + 1) (stack tS t) Y = F' (n + 1) (stack tS t) Y) : blockUpdate c F t tS yS g = blockUpdate c F' t tS yS g := by
  have e : blockRJ c.scheme F t tS yS = blockRJ c.scheme F' t tS yS := by
    funext dy
    unfold blockRJ
    simp only [h]
  unfold blockUpdate blockNewton
  rw [e]

/-- the whole integration succeeds; the rates may differ from block to block -/
theorem convex_integrateB (c : Config) (hs : c.scheme = .backwardEuler) (hg : c.guessType = "zero") (F : BFunc β 1) (y0 : BVec β 1 ℝ) (nt : ℕ) (hnt : 0 < nt) (t : ℕ → β → ℝ) (n : ℤ)
    (hn : 0 < n) (ht : ∀ b k, k + 1 < nt → t k b ≤ t (k + 1) b) {sg : β → ℝ} {a : β → ℕ → ℝ} {G G' : β → ℕ → ℝ → ℝ} {N L B M : ℝ} (sign : ∀ b, sg b * sg b = 1) (start : ∀ b, 0 ≤ sg b * y0 b 0)
    (load : ∀ b k, k + 1 < nt → 0 ≤ a b k) (hN : 1 ≤ N) (hres : ∀ b k, k + 1 < nt → ConvexResistance (G b k) (G' b k) N)
    (hF : ∀ k len, 0 < len → k + len < nt → (len : ℤ) ≤ n → ∃ (f : Func β 1) (a' : β → ℕ → ℝ), (∀ Y, F (len + 1) (fun j b => t (k + j.val) b) Y = f.lift (len + 1) (fun j b => t (k + j.val) b) Y) ∧
      ∀ b, ∀ i < len, (0 ≤ a' b i ∧ a' b i ≤ a b (k + i)) ∧ ∀ y : Fin 1 → ℝ, 0 ≤ sg b * y 0 →
        (f b (t (k + i + 1) b) y).1 0 = sg b * (a' b i - G b (k + i) (sg b * y 0)) ∧ (f b (t (k + i + 1) b) y).2 0 0 = -G' b (k + i) (sg b * y 0))
    (hM : ∀ b, elasticSum (sg b * y0 b 0) (fun k => t k b) (a b) (nt - 1) ≤ M) (hL0 : 0 ≤ L) (hL : ∀ b k, k + 1 < nt → ∀ y, 0 ≤ y → y ≤ M → G' b k y ≤ L) (H : ℝ)
    (hblock : ∀ b i j, i ≤ j → j < nt → (j : ℤ) ≤ i + n → t j b - t i b ≤ H) (hB : M * (1 + L * H) ≤ B)
    (j : ℕ) (hj : (j : ℤ) + 1 < c.miter) (ha : (1 - 1 / N) ^ j * B ≤ c.atol) :
    ∃ res, integrate c F y0 nt t n = .ok (res, false) ∧ ∀ k < nt, ∀ b, 0 ≤ sg b * res.get k b 0 ∧ sg b * res.get k b 0 ≤ elasticSum (sg b * y0 b 0) (fun k => t k b) (a b) k := by
  have emono : ∀ b i j, i ≤ j → j < nt → elasticSum (sg b * y0 b 0) (fun k => t k b) (a b) i ≤ elasticSum (sg b * y0 b 0) (fun k => t k b) (a b) j := fun b i j hij hj =>
    elasticSum_mono (n := nt - 1) (fun k hk => ht b k (by omega)) (fun k hk => load b k (by omega)) hij (by omega)
  have tmono : ∀ b i j, i ≤ j → j < nt → t i b ≤ t j b := fun b i j hij hj => mono_of_steps (t := fun k => t k b) (ht b) hij hj
  obtain ⟨r, r1, r2, r3⟩ := integrateLoop_inv c F nt n.toNat t (fun k st => st.2 = false ∧ ∀ b, ∀ i, i < k → i < nt →
      0 ≤ sg b * st.1.get i b 0 ∧ sg b * st.1.get i b 0 ≤ elasticSum (sg b * y0 b 0) (fun k => t k b) (a b) i)
    (nblocks nt n.toNat) 1 (fun j => if j = 0 then some y0 else none, false) ⟨rfl, fun b i hi _ => by
      obtain rfl : i = 0 := by omega
      rw [elasticSum_zero]
      exact ⟨start b, le_rfl⟩⟩ (by
      intro i hi st hst
      obtain ⟨w, hst⟩ := hst
      have hlt : 1 + i * n.toNat < nt := nblocks_lt (by omega) hi
      have hadd : 1 + (i + 1) * n.toNat = 1 + i * n.toNat + n.toNat := by ring
      rw [hadd]
      generalize hk : i * n.toNat = k at *
      rw [Nat.add_comm 1 k] at *
      have hlen0 : 0 < sliceLen nt (k + 1) n.toNat := by unfold sliceLen; omega
      have hlen : ∀ j, j ≤ sliceLen nt (k + 1) n.toNat → k + j < nt ∧ j ≤ n.toNat := by unfold sliceLen; intro j; omega
      have hcov : ∀ j, j < k + 1 + n.toNat → j < nt → k < j → j - (k + 1) < sliceLen nt (k + 1) n.toNat := by unfold sliceLen; intro j; omega
      generalize hL' : sliceLen nt (k + 1) n.toNat = len at *
      obtain ⟨f, a', hf, hlaw⟩ := hF k len hlen0 (hlen len le_rfl).1 (by have := (hlen len le_rfl).2; omega)
      have blk : ConvexBlock f len (fun j => t (k + j)) (st.1.get k) sg a' (fun b i => G b (k + i)) (fun b i => G' b (k + i)) N :=
        { n0 := hlen0
          ht := fun b j hj => ht b (k + j) (hlen (j + 1) hj).1
          sign := sign
          start := fun b => (hst b k (by omega) (by omega)).1
          load := fun b j hj => (hlaw b j hj).1.1
          hN := hN
          res := fun b j hj => hres b (k + j) (hlen (j + 1) hj).1
          law := fun b j hj => (hlaw b j hj).2 }
      have sh : ∀ b j, j ≤ len → elasticSum (sg b * st.1.get k b 0) (fun i => t (k + i) b) (a' b) j ≤ elasticSum (sg b * y0 b 0) (fun k => t k b) (a b) (k + j) := fun b j hj =>
        le_trans (elasticSum_le_of_le (fun i hi => ht b (k + i) (hlen (i + 1) (by omega)).1) fun i hi => (hlaw b i (by omega)).1.2)
          (elasticSum_shift (t := fun k => t k b) (a := a b) (hst b k (by omega) (by omega)).2 j)
      have shM : ∀ b, elasticSum (sg b * st.1.get k b 0) (fun i => t (k + i) b) (a' b) len ≤ M := fun b =>
        (sh b len le_rfl).trans ((emono b _ _ (by have := (hlen len le_rfl).1; omega) (by omega)).trans (hM b))
      obtain ⟨rows, hu, hrow⟩ := blk.succeeds c hs (L := L) (B := B) (fun b j hj y hy0 hy => hL b (k + j) (hlen (j + 1) hj).1 y hy0 (hy.trans (shM b))) hL0 (fun b => by
        have d := hblock b (k + 0) (k + len) (by omega) (hlen len le_rfl).1 (by have := (hlen len le_rfl).2; push_cast; omega)
        have d0 := sub_nonneg.2 (tmono b (k + 0) (k + len) (by omega) (hlen len le_rfl).1)
        have M0 : 0 ≤ M := by
          have := emono b 0 (nt - 1) (by omega) (by omega)
          rw [elasticSum_zero] at this
          linarith [start b, hM b]
        refine le_trans ?_ hB
        have e1 := mul_le_mul_of_nonneg_left d hL0
        have e2 := mul_nonneg hL0 d0
        exact mul_le_mul (shM b) (by linarith) (by linarith) M0) j hj ha
      have hzero : (flatten fun j : Fin len => (List.replicate len (0 : BVec β 1 ℝ)).getD j.val 0) = (0 : β → Fin (len * 1) → ℝ) := by
        funext b e
        simp [flatten, List.getD]
      have htimes : (fun j : Fin len => t (k + 1 + j.val)) = fun j : Fin len => t (k + (j.val + 1)) := by
        funext j; congr 1; omega
      refine ⟨(fun j => if h : k + 1 ≤ j ∧ j - (k + 1) < len then some (rows ⟨j - (k + 1), h.2⟩) else st.1 j, st.2 || false), ?_, ?_, ?_⟩
      · subst hL'
        unfold integrateStep
        rw [hg, initialGuess_zero_eq]
        simp only
        rw [if_pos (by simp), hzero, htimes, Nat.add_sub_cancel]
        have hu' : blockUpdate c f (fun j : Fin (sliceLen nt (k + 1) n.toNat) => t (k + (j.val + 1))) (t k) (st.1.get k) 0 = .ok (rows, false) := hu
        have hst : (stack (t k) fun j : Fin (sliceLen nt (k + 1) n.toNat) => t (k + (j.val + 1))) = fun j b => t (k + j.val) b := by
          funext j b
          refine Fin.cases ?_ (fun j => ?_) j
          · rfl
          · rfl
        rw [blockUpdate_congr c F f.lift _ _ _ _ (by rw [hst]; exact hf), hu']
      · rw [w]; rfl
      · intro b i hi1 hi2
        rcases Nat.lt_or_ge k i with hik | hik
        · have hq := hcov i hi1 hi2 hik
          obtain ⟨q, rfl⟩ : ∃ q, i = k + (q + 1) := ⟨i - (k + 1), by omega⟩
          have hq' : q < len := by omega
          have new : (Partial.get (fun j => if h : k + 1 ≤ j ∧ j - (k + 1) < len then some (rows ⟨j - (k + 1), h.2⟩) else st.1 j) (k + (q + 1)) : BVec β 1 ℝ) = rows ⟨q, hq'⟩ := by
            unfold Partial.get
            beta_reduce
            rw [dif_pos ⟨by omega, by omega⟩]
            simp only [Option.getD_some]
            congr 1
            ext
            simp only
            omega
          simp only
          rw [new]
          exact ⟨(hrow ⟨q, hq'⟩ b).1, (hrow ⟨q, hq'⟩ b).2.trans (sh b (q + 1) hq')⟩
        · have old : (Partial.get (fun j => if h : k + 1 ≤ j ∧ j - (k + 1) < len then some (rows ⟨j - (k + 1), h.2⟩) else st.1 j) i : BVec β 1 ℝ) = st.1.get i := by
            unfold Partial.get
            beta_reduce
            rw [dif_neg (by omega)]
          simp only
          rw [old]
          exact hst b i (by omega) hi2)
  refine ⟨r.1, ?_, fun k hk b => r3 b k ?_ hk⟩
  · unfold integrate
    rw [if_neg (by omega), blockStarts_pos nt hn]
    simp only
    rw [r1, ← r2]
  · have := nblocks_cover (nt := nt) (N := n.toNat) (by omega)
    omega

/-- the whole integration succeeds -/
theorem convex_integrate (c : Config) (hs : c.scheme = .backwardEuler) (hg : c.guessType = "zero") (f : Func β 1) (y0 : BVec β 1 ℝ) (nt : ℕ) (hnt : 0 < nt) (t : ℕ → β → ℝ) (n : ℤ)
    (hn : 0 < n) (ht : ∀ b k, k + 1 < nt → t k b ≤ t (k + 1) b) {sg : β → ℝ} {a : β → ℕ → ℝ} {G G' : β → ℕ → ℝ → ℝ} {N L B M : ℝ} (sign : ∀ b, sg b * sg b = 1) (start : ∀ b, 0 ≤ sg b * y0 b 0)
    (load : ∀ b k, k + 1 < nt → 0 ≤ a b k) (hN : 1 ≤ N) (hres : ∀ b k, k + 1 < nt → ConvexResistance (G b k) (G' b k) N)
    (law : ∀ b k, k + 1 < nt → ∀ y : Fin 1 → ℝ, 0 ≤ sg b * y 0 → (f b (t (k + 1) b) y).1 0 = sg b * (a b k - G b k (sg b * y 0)) ∧ (f b (t (k + 1) b) y).2 0 0 = -G' b k (sg b * y 0))
    (hM : ∀ b, elasticSum (sg b * y0 b 0) (fun k => t k b) (a b) (nt - 1) ≤ M) (hL0 : 0 ≤ L) (hL : ∀ b k, k + 1 < nt → ∀ y, 0 ≤ y → y ≤ M → G' b k y ≤ L) (H : ℝ)
    (hblock : ∀ b i j, i ≤ j → j < nt → (j : ℤ) ≤ i + n → t j b - t i b ≤ H) (hB : M * (1 + L * H) ≤ B)
    (j : ℕ) (hj : (j : ℤ) + 1 < c.miter) (ha : (1 - 1 / N) ^ j * B ≤ c.atol) :
    ∃ res, integrate c f y0 nt t n = .ok (res, false) ∧ ∀ k < nt, ∀ b, 0 ≤ sg b * res.get k b 0 ∧ sg b * res.get k b 0 ≤ elasticSum (sg b * y0 b 0) (fun k => t k b) (a b) k
    := convex_integrateB c hs hg f.lift y0 nt hnt t n hn ht sign start load hN hres
    (fun k len _ hlen _ => ⟨f, fun b i => a b (k + i), fun _ => rfl, fun b i hi => ⟨⟨load b (k + i) (by omega), le_rfl⟩, law b (k + i) (by omega)⟩⟩) hM hL0 hL H hblock hB j hj ha

end Pyoptmat.Ode
