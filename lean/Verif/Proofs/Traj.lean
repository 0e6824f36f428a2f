import Verif.Proofs.BlockNewton
import Verif.Proofs.Solvers

/-! Helper lemmas: an integration whose trajectory is known in advance. -/

namespace Pyoptmat.Ode

open Pyoptmat.Chunktime Pyoptmat.Newton Pyoptmat.Spec

variable {β : Type*} {m : ℕ}

theorem integrateLoop_traj (c : Config) (f : BFunc β m) (nt N : ℕ) (hN : 0 < N) (t : ℕ → β → ℝ) (hg : c.guessType = "zero") (Y : ℕ → BVec β m ℝ)
    (hNewton : ∀ k, 1 ≤ k → k < nt → ∃ dy,
      (blockNewton c f (fun j : Fin (sliceLen nt k N) => t (k + j.val)) (t (k - 1)) (Y (k - 1)) 0).result = .ok dy ∧
      (blockNewton c f (fun j : Fin (sliceLen nt k N) => t (k + j.val)) (t (k - 1)) (Y (k - 1)) 0).warned = false ∧
      ∀ j : Fin (sliceLen nt k N), unflatten dy j + Y (k - 1) = Y (k + j.val)) (cnt : ℕ) :
    ∀ (k0 : ℕ) (st : Partial β m × Bool), 1 ≤ k0 → (∀ i < cnt, k0 + i * N < nt) → (∀ j < min nt k0, st.1 j = some (Y j)) → st.2 = false →
    ∃ res, integrateLoop c f nt N t (List.range' k0 cnt N) st = .ok (res, false) ∧ ∀ j < min nt (k0 + cnt * N), res j = some (Y j) := by
  induction cnt with
  | zero =>
    intro k0 st h1 _ h3 h4
    refine ⟨st.1, ?_, by simpa using h3⟩
    simp only [List.range'_zero, integrateLoop]
    rw [← h4]
  | succ cnt ih =>
    intro k0 st h1 h2 h3 h4
    have hk0 : k0 < nt := by simpa using h2 0 (by omega)
    obtain ⟨dy, d1, d2, d3⟩ := hNewton k0 h1 hk0
    have hget : st.1.get (k0 - 1) = Y (k0 - 1) := by
      unfold Partial.get
      rw [h3 _ (by omega)]; rfl
    have hguess : (flatten fun j : Fin (sliceLen nt k0 N) => (List.replicate (sliceLen nt k0 N) (0 : BVec β m ℝ)).getD j.val 0) = 0 := by
      funext b e
      simp [flatten, List.getD]
      rw [List.getElem?_replicate]
      split_ifs <;> simp
    have hstep : integrateStep c f nt N t st k0 = .ok
        (fun j => if h : k0 ≤ j ∧ j - k0 < sliceLen nt k0 N then some (unflatten dy ⟨j - k0, h.2⟩ + Y (k0 - 1)) else st.1 j, false) := by
      unfold integrateStep
      rw [hg, initialGuess_zero_eq]
      simp only [List.length_replicate, if_true]
      rw [hguess, hget]
      unfold blockUpdate
      rw [d1]
      simp only [h4, d2, Bool.or_false]
    obtain ⟨res, r1, r2⟩ := ih (k0 + N) (fun j => if h : k0 ≤ j ∧ j - k0 < sliceLen nt k0 N then some (unflatten dy ⟨j - k0, h.2⟩ + Y (k0 - 1)) else st.1 j, false) (by omega) (fun i hi => by
        have := h2 (i + 1) (by omega)
        have e : k0 + N + i * N = k0 + (i + 1) * N := by ring
        rw [e]; exact this) (by
        intro j hj
        simp only
        by_cases hk : k0 ≤ j
        · have hl : j - k0 < sliceLen nt k0 N := by unfold sliceLen; omega
          rw [dif_pos ⟨hk, hl⟩, d3 ⟨j - k0, hl⟩]
          congr 2
          simp only; omega
        · rw [dif_neg (by tauto)]
          exact h3 j (by omega)) rfl
    refine ⟨res, ?_, fun j hj => r2 j ?_⟩
    · rw [List.range'_succ, integrateLoop, hstep]
      exact r1
    · have e : k0 + N + cnt * N = k0 + (cnt + 1) * N := by ring
      rw [e]; exact hj

/-- If each Newton solve started from the true trajectory reproduces it, the integration does. -/
theorem integrate_traj (c : Config) (f : BFunc β m) (nt : ℕ) (hnt : 0 < nt) (n : ℤ) (hn : 0 < n) (t : ℕ → β → ℝ) (hg : c.guessType = "zero") (Y : ℕ → BVec β m ℝ)
    (hNewton : ∀ k, 1 ≤ k → k < nt → ∃ dy,
      (blockNewton c f (fun j : Fin (sliceLen nt k n.toNat) => t (k + j.val)) (t (k - 1)) (Y (k - 1)) 0).result = .ok dy ∧
      (blockNewton c f (fun j : Fin (sliceLen nt k n.toNat) => t (k + j.val)) (t (k - 1)) (Y (k - 1)) 0).warned = false ∧
      ∀ j : Fin (sliceLen nt k n.toNat), unflatten dy j + Y (k - 1) = Y (k + j.val)) :
    ∃ res, integrate c f (Y 0) nt t n = .ok (res, false) ∧ ∀ j < nt, res.get j = Y j := by
  obtain ⟨res, r1, r2⟩ := integrateLoop_traj c f nt n.toNat (by omega) t hg Y hNewton (nblocks nt n.toNat) 1
    (fun j => if j = 0 then some (Y 0) else none, false) le_rfl (fun i hi => nblocks_lt (by omega) hi) (by
      intro j hj
      obtain rfl : j = 0 := by omega
      simp) rfl
  refine ⟨res, ?_, fun j hj => ?_⟩
  · unfold integrate
    rw [if_neg (by omega), blockStarts_pos nt hn]
    exact r1
  · have := nblocks_cover (nt := nt) (N := n.toNat) (by omega)
    unfold Partial.get
    rw [r2 j (by omega)]; rfl

/-- A region of state space in which the rates do not depend on the state and the reported Jacobian is zero: if the trajectory stays in it, Newton's method reaches it in one update, and the integration
reproduces it without a warning even with zero tolerances. -/
theorem integrate_flatB (c : Config) (hs : c.scheme = .backwardEuler) (hr : c.rtol = 0) (ha : c.atol = 0) (hm : 2 ≤ c.miter) (hg : c.guessType = "zero") (f : BFunc β m) (nt : ℕ) (hnt : 0 < nt)
    (n : ℤ) (hn : 0 < n) (t : ℕ → β → ℝ) (D : β → Set (Fin m → ℝ)) (r : ℕ → β → Fin m → ℝ)
    (hD : ∀ (k N : ℕ) (y : Fin (N + 1) → BVec β m ℝ), 0 < N → k + N < nt → (∀ i b, y i b ∈ D b) → f (N + 1) (fun i => t (k + i.val)) y = (fun i => r (k + i.val), fun _ _ => 0)) (Y : ℕ → BVec β m ℝ) (hY : ∀ k b, k < nt → Y k b ∈ D b)
    (hstep : ∀ k b, k + 1 < nt → Y (k + 1) b = Y k b + (t (k + 1) b - t k b) • r (k + 1) b) :
    ∃ res, integrate c f (Y 0) nt t n = .ok (res, false) ∧ ∀ j < nt, res.get j = Y j := by
  refine integrate_traj c f nt hnt n hn t hg Y ?_
  intro k hk1 hk2
  have hlpos : 0 < sliceLen nt k n.toNat := by unfold sliceLen; omega
  have hle : k + sliceLen nt k n.toNat ≤ nt := by unfold sliceLen; omega
  generalize sliceLen nt k n.toNat = len at *
  have hllt : ∀ j : Fin len, k + j.val < nt := fun j => by have := j.2; omega
  let T : Fin len → β → ℝ := fun j => t (k + j.val)
  have hst : ∀ i : Fin (len + 1), stack (t (k - 1)) T i = t (k - 1 + i.val) := by
    intro i
    refine Fin.cases ?_ (fun i => ?_) i
    · simp [stack]
    · simp only [stack, Fin.cons_succ, Fin.val_succ, T]
      congr 1; omega
  -- the increments of the trajectory
  let X : β → Fin (len * m) → ℝ := flatten fun j b => Y (k + j.val) b - Y (k - 1) b
  have hX : ∀ i : Fin (len + 1), (stack 0 (unflatten X) : Fin (len + 1) → BVec β m ℝ) i + Y (k - 1) = Y (k - 1 + i.val) := by
    intro i
    refine Fin.cases ?_ (fun i => ?_) i
    · simp [stack]
    · funext b
      simp only [stack, Fin.cons_succ, X, unflatten_flatten, Pi.add_apply, sub_add_cancel, Fin.val_succ]
      have e : k - 1 + (i.val + 1) = k + i.val := by omega
      rw [e]
  have hzero : ∀ i : Fin (len + 1), (stack 0 (unflatten (0 : β → Fin (len * m) → ℝ)) : Fin (len + 1) → BVec β m ℝ) i + Y (k - 1) = Y (k - 1) := by
    intro i
    refine Fin.cases ?_ (fun i => ?_) i
    · simp [stack]
    · funext b e
      simp [stack, unflatten]
  -- the affine right hand side the solver sees
  let g : BFunc β m := fun N _ _ => (fun i => r (k - 1 + i.val), fun _ _ => 0)
  have agree : ∀ x : β → Fin (len * m) → ℝ, (∀ (i : Fin (len + 1)) b, ((stack 0 (unflatten x) : Fin (len + 1) → BVec β m ℝ) i + Y (k - 1)) b ∈ D b) →
      blockRJ c.scheme f T (t (k - 1)) (Y (k - 1)) x = blockRJ c.scheme g T (t (k - 1)) (Y (k - 1)) x := by
    intro x hx
    unfold blockRJ
    have e1 : (f (len + 1) (stack (t (k - 1)) T) fun i => (stack 0 (unflatten x) : Fin (len + 1) → BVec β m ℝ) i + Y (k - 1)) =
        g (len + 1) (stack (t (k - 1)) T) fun i => (stack 0 (unflatten x) : Fin (len + 1) → BVec β m ℝ) i + Y (k - 1) := by
      rw [show stack (t (k - 1)) T = fun i => t (k - 1 + i.val) from funext hst]
      exact hD (k - 1) len _ hlpos (by omega) hx
    simp only [e1]
  have agree0 := agree 0 (by intro i b; rw [hzero]; exact hY _ _ (by omega))
  have agreeX := agree X (by
    intro i b; rw [hX]
    refine hY _ _ ?_
    rcases Nat.eq_zero_or_pos i.val with h0 | h0
    · omega
    · have := hllt ⟨i.val - 1, by have := i.2; omega⟩
      simp only at this; omega)
  -- the first update
  have hg1 := linear_newtonB c.scheme g hlpos T (t (k - 1)) (Y (k - 1)) c.method (fun _ _ => 0) (fun i b => r (k - 1 + i.val) b) (by
    intro y
    refine Prod.ext ?_ rfl
    funext i b
    simp only [Matrix.zero_mulVec, zero_add]
    rfl) (by intro _ j b; simp) 0
  -- solutions of the affine block equations are the trajectory
  have uniq : ∀ x : β → Fin (len * m) → ℝ, (blockRJ c.scheme g T (t (k - 1)) (Y (k - 1)) x).1 = 0 → x = X := by
    intro x hx
    have hrow : ∀ (j : Fin len) b, unflatten x j b - (stack 0 (unflatten x) : Fin (len + 1) → BVec β m ℝ) j.castSucc b -
        diff (stack (t (k - 1)) T) j b • r (k - 1 + j.succ.val) b = 0 := by
      intro j b
      have : unflatten (blockRJ c.scheme g T (t (k - 1)) (Y (k - 1)) x).1 j b = 0 := by rw [hx]; rfl
      rw [hs] at this
      unfold blockRJ formOperators at this
      simp only [unflatten_flatten] at this
      exact this
    have main : ∀ (j : ℕ) (hj : j < len) b, unflatten x ⟨j, hj⟩ b = Y (k + j) b - Y (k - 1) b := by
      intro j
      induction j with
      | zero =>
        intro hj b
        have h := hrow ⟨0, hj⟩ b
        have s := hstep (k - 1) b (by omega)
        unfold diff at h
        rw [hst, hst] at h
        simp only [Fin.castSucc_mk, Fin.succ_mk, zero_add, Fin.mk_zero', stack, Fin.cons_zero, Pi.zero_apply, sub_zero] at h
        simp only [Fin.val_zero, add_zero] at h
        rw [sub_eq_zero] at h
        rw [h]
        have e : k - 1 + 1 = k := by omega
        rw [e] at s ⊢
        rw [add_zero, s]
        simp
      | succ j ih =>
        intro hj b
        have h := hrow ⟨j + 1, hj⟩ b
        have s := hstep (k + j) b (by have := hllt ⟨j + 1, hj⟩; simp only at this; omega)
        have hs' : (stack 0 (unflatten x) : Fin (len + 1) → BVec β m ℝ) (Fin.castSucc ⟨j + 1, hj⟩) = unflatten x ⟨j, by omega⟩ := by
          have : (Fin.castSucc ⟨j + 1, hj⟩ : Fin (len + 1)) = Fin.succ ⟨j, by omega⟩ := by ext; simp
          rw [this]; simp only [stack, Fin.cons_succ]
        unfold diff at h
        rw [hst, hst, hs', ih (by omega) b] at h
        simp only [Fin.castSucc_mk, Fin.succ_mk] at h
        have e1 : k - 1 + (j + 1) = k + j := by omega
        have e2 : k - 1 + (j + 1 + 1) = k + j + 1 := by omega
        rw [e1, e2, sub_eq_zero, sub_eq_iff_eq_add] at h
        rw [h, ← add_assoc k j 1, s]
        abel
    have hu : unflatten x = fun j b => Y (k + j.val) b - Y (k - 1) b := by
      funext j b
      exact main j.val j.2 b
    simp only [X]
    rw [← hu, flatten_unflatten]
  have hx1 := uniq _ hg1
  have itX : newtonIterate (blockRJ c.scheme f T (t (k - 1)) (Y (k - 1))) (fun J R => solve c.method J R) (fun x dx => x - dx) 0 1 = X := by
    simp only [newtonIterate, Function.iterate_one]
    rw [agree0]; exact hx1
  have resX : (blockRJ c.scheme f T (t (k - 1)) (Y (k - 1)) X).1 = 0 := by
    rw [agreeX]
    rw [hx1] at hg1
    exact hg1
  obtain ⟨dy, d1, d2⟩ := newton_succeeds (blockRJ c.scheme f T (t (k - 1)) (Y (k - 1))) (fun J R => solve c.method J R) (fun x dx => x - dx)
    (fun (R : β → Fin (len * m) → ℝ) (b : β) => rowNorm (R b)) 0 c.rtol c.atol c.miter c.throwOnFail 1 (by omega) (by
      left; intro b
      rw [itX, resX, ha]
      simp [Props.rowNorm_zero])
  have hmet := Props.C10_no_warning_meets_tolerance _ _ _ (fun (R : β → Fin (len * m) → ℝ) (b : β) => rowNorm (R b)) 0 dy c.rtol c.atol c.miter (by omega) c.throwOnFail d1 d2
  obtain ⟨-, g2, g3⟩ := Props.C10_returns_first_iterate (blockRJ c.scheme f T (t (k - 1)) (Y (k - 1))) (fun J R => solve c.method J R) (fun x dx => x - dx)
    (fun (R : β → Fin (len * m) → ℝ) (b : β) => rowNorm (R b)) 0 c.rtol c.atol c.miter (by omega) c.throwOnFail
  have hdy : dy = X := by
    have g2 := g2 dy d1
    have hit : (newtonChunk (blockRJ c.scheme f T (t (k - 1)) (Y (k - 1))) (fun J R => solve c.method J R) (fun x dx => x - dx)
        (fun (R : β → Fin (len * m) → ℝ) (b : β) => some (rowNorm (R b))) 0 c.rtol c.atol c.miter c.throwOnFail).iters ≤ 1 := by
      by_contra hlt
      refine g3 1 (by omega) (Or.inl fun b => ?_)
      rw [itX, resX, ha]
      simp [Props.rowNorm_zero]
    rcases Nat.le_one_iff_eq_zero_or_eq_one.1 hit with h0 | h1
    · rw [h0] at g2
      have hd : dy = 0 := g2
      rw [hd] at hmet ⊢
      refine uniq 0 ?_
      rw [← agree0]
      rw [hr, ha] at hmet
      funext b
      have hz : rowNorm ((blockRJ c.scheme f T (t (k - 1)) (Y (k - 1)) 0).1 b) ≤ 0 := by
        rcases hmet with h | h
        · exact h b
        · simpa using h b
      exact Solvers.rowNorm_eq_zero.1 (le_antisymm hz (Real.sqrt_nonneg _))
    · rw [h1] at g2
      rw [g2]; exact itX
  refine ⟨dy, d1, d2, fun j => ?_⟩
  rw [hdy]
  have := hX j.succ
  simp only [stack, Fin.cons_succ, Fin.val_succ] at this
  rw [this]
  congr 1; omega

/-- A region of state space in which the rates do not depend on the state and the reported Jacobian is zero: if the trajectory stays in it, Newton's method reaches it in one update, and the integration
reproduces it without a warning even with zero tolerances. -/
theorem integrate_flat (c : Config) (hs : c.scheme = .backwardEuler) (hr : c.rtol = 0) (ha : c.atol = 0) (hm : 2 ≤ c.miter) (hg : c.guessType = "zero") (f : Func β m) (nt : ℕ) (hnt : 0 < nt)
    (n : ℤ) (hn : 0 < n) (t : ℕ → β → ℝ) (D : β → Set (Fin m → ℝ)) (r : ℕ → β → Fin m → ℝ)
    (hD : ∀ k b y, k < nt → y ∈ D b → f b (t k b) y = (r k b, 0)) (Y : ℕ → BVec β m ℝ) (hY : ∀ k b, k < nt → Y k b ∈ D b)
    (hstep : ∀ k b, k + 1 < nt → Y (k + 1) b = Y k b + (t (k + 1) b - t k b) • r (k + 1) b) :
    ∃ res, integrate c f.lift (Y 0) nt t n = .ok (res, false) ∧ ∀ j < nt, res.get j = Y j := by
  refine integrate_flatB c hs hr ha hm hg f.lift nt hnt n hn t D r ?_ Y hY hstep
  intro k N y hN hk hy
  have e : ∀ (i : Fin (N + 1)) (b : β), f b (t (k + i.val) b) (y i b) = (r (k + i.val) b, 0) := fun i b => hD _ _ _ (by have := i.2; omega) (hy i b)
  refine Prod.ext ?_ ?_
  · funext i b
    exact congrArg Prod.fst (e i b)
  · funext i b
    exact congrArg Prod.snd (e i b)

end Pyoptmat.Ode
