import Verif.Proofs.Control
import Verif.Proofs.BlockNewton
import Verif.Proofs.Integrate

/-! Helper lemmas: tables with repeated rows. -/

namespace Pyoptmat.Spec

theorem Padding.le_of_le {σ : ℕ → ℕ} {n N : ℕ} (h : Padding σ n N) {i j : ℕ} (hij : i ≤ j) (hj : j ≤ n) : σ i ≤ σ j := by
  induction j, hij using Nat.le_induction with
  | base => exact le_rfl
  | succ j hij ih =>
    have := ih (by omega)
    rcases h.step j (by omega) with e | e <;> omega

theorem Padding.le_last {σ : ℕ → ℕ} {n N : ℕ} (h : Padding σ n N) {j : ℕ} (hj : j ≤ n) : σ j ≤ N := h.last ▸ h.le_of_le hj le_rfl

theorem Padding.pos {σ : ℕ → ℕ} {n N : ℕ} (h : Padding σ n N) : 0 < N := by
  have := h.le_last (j := 1) h.first.1
  have := h.first.2
  omega

/-- the first row showing row `i` of the original -/
theorem Padding.exists_first {σ : ℕ → ℕ} {n N : ℕ} (h : Padding σ n N) {k : ℕ} (hk : k ≤ n) (h0 : 0 < σ k) :
    ∃ j, j + 1 ≤ k ∧ σ (j + 1) = σ k ∧ σ (j + 1) = σ j + 1 := by
  induction k with
  | zero => rw [h.zero] at h0; omega
  | succ k ih =>
    rcases h.step k (by omega) with e | e
    · obtain ⟨j, h1, h2, h3⟩ := ih (by omega) (by omega)
      exact ⟨j, by omega, by omega, h3⟩
    · exact ⟨k, le_rfl, rfl, e⟩

theorem Padding.surj {σ : ℕ → ℕ} {n N : ℕ} (h : Padding σ n N) {i : ℕ} (hi : i ≤ N) : ∃ k ≤ n, σ k = i := by
  have key : ∀ m ≤ n, ∀ i ≤ σ m, ∃ k ≤ m, σ k = i := by
    intro m
    induction m with
    | zero => intro _ i hi; exact ⟨0, le_rfl, by rw [h.zero] at hi ⊢; omega⟩
    | succ m ih =>
      intro hm i hi
      by_cases he : i = σ (m + 1)
      · exact ⟨m + 1, le_rfl, he.symm⟩
      · obtain ⟨k, hk, e⟩ := ih (by omega) i (by rcases h.step m (by omega) with e | e <;> omega)
        exact ⟨k, by omega, e⟩
  exact key n le_rfl i (by rw [h.last]; exact hi)

end Pyoptmat.Spec

namespace Pyoptmat.Interp

open Pyoptmat.Spec

theorem map_filter_step {σ : ℕ → ℕ} (h0 : σ 0 = 0) : ∀ (n : ℕ), (∀ k < n, σ (k + 1) = σ k ∨ σ (k + 1) = σ k + 1) →
    ((List.range n).filter fun j => decide (σ (j + 1) = σ j + 1)).map σ = List.range (σ n) := by
  intro n
  induction n with
  | zero => intro _; simp [h0]
  | succ n ih =>
    intro hs
    rw [List.range_succ, List.filter_append, List.map_append, ih fun k hk => hs k (by omega)]
    rcases hs n (by omega) with e | e
    · simp [e]
    · simp [e, List.range_succ]

/-- repeated rows are never selected -/
theorem hits_padded {σ : ℕ → ℕ} {n N : ℕ} (h : Padding σ n N) (times vals : ℕ → ℝ) (t : ℝ) :
    hits n (fun j => times (σ j)) (fun j => vals (σ j)) t = hits N times vals t := by
  classical
  unfold hits
  rw [← h.last, ← map_filter_step h.zero n h.step, List.filter_map, List.map_map, List.filter_filter]
  have e1 : ((List.range n).filter fun j => decide (loc (fun j => times (σ j)) t j)) =
      (List.range n).filter fun a => ((fun j => decide (loc times t j)) ∘ σ) a && decide (σ (a + 1) = σ a + 1) := by
    refine List.filter_congr fun j hj => ?_
    have hj := List.mem_range.1 hj
    rw [Bool.eq_iff_iff]
    simp only [Function.comp_apply, Bool.and_eq_true, decide_eq_true_eq]
    unfold loc
    rcases h.step j hj with e | e
    · have hj0 : j ≠ 0 := by
        rintro rfl
        have := h.first.2
        rw [h.zero] at e
        simp only [Nat.zero_add] at e
        omega
      constructor
      · rintro (⟨a, b⟩ | ⟨a, _⟩)
        · beta_reduce at a b; rw [e] at a; linarith
        · exact absurd a hj0
      · rintro ⟨_, a⟩; omega
    · simp only [e, and_true]
      constructor
      · rintro (a | ⟨rfl, b⟩)
        · exact Or.inl a
        · exact Or.inr ⟨h.zero, by rw [h.zero] at b; exact b⟩
      · rintro (a | ⟨a, b⟩)
        · exact Or.inl a
        · have : j = 0 := by
            by_contra hne
            have := h.le_of_le (i := 1) (j := j) (by omega) (by omega)
            have := h.first.2
            omega
          exact Or.inr ⟨this, by rw [h.zero]; exact b⟩
  rw [e1]
  refine List.map_congr_left fun j hj => ?_
  have := (List.mem_filter.1 hj).2
  simp only [Bool.and_eq_true, decide_eq_true_eq] at this
  simp only [poss, slope, Function.comp_apply, this.2]

theorem interpFn_padded {σ : ℕ → ℕ} {n N : ℕ} (h : Padding σ n N) (times vals : ℕ → ℝ) (t : ℝ) :
    interpFn n (fun j => times (σ j)) (fun j => vals (σ j)) t = interpFn N times vals t := by
  unfold interpFn
  rw [hits_padded h]

end Pyoptmat.Interp

namespace Pyoptmat.Control

open Pyoptmat.Spec

/-- at a recorded time, only the value in the first of equal rows counts -/
theorem interp_first {σ : ℕ → ℕ} {n N : ℕ} (h : Padding σ n N) {times : ℕ → ℝ} (hg : StrictGrid N times) (vals : ℕ → ℝ) {j : ℕ} (hj : j < n)
    (hs : σ (j + 1) = σ j + 1) : Interp.interpFn n (fun j => times (σ j)) vals (times (σ (j + 1))) = vals (j + 1) := by
  classical
  have hl : ∀ i < n, Interp.loc (fun j => times (σ j)) (times (σ (j + 1))) i ↔ i = j := by
    intro i hi
    unfold Interp.loc
    have hjN := h.le_last (j := j + 1) (by omega)
    constructor
    · rintro (⟨a, b⟩ | ⟨rfl, b⟩)
      · by_contra hne
        rcases lt_or_gt_of_ne hne with hlt | hlt
        · have h1 := h.le_of_le (i := i + 1) (j := j) (by omega) (by omega)
          have := Interp.grid_lt hg (i := σ (i + 1)) (j := σ (j + 1)) (by omega) hjN
          linarith
        · have h1 := h.le_of_le (i := j + 1) (j := i) (by omega) (by omega)
          have := Interp.grid_le hg h1 (h.le_last (by omega))
          linarith
      · beta_reduce at b
        rw [h.zero] at b
        have := Interp.grid_lt hg (i := 0) (j := σ (j + 1)) (by omega) hjN
        linarith
    · rintro rfl
      exact Or.inl ⟨le_rfl, Interp.grid_lt hg (by omega) hjN⟩
  unfold Interp.interpFn Interp.hits
  rw [Interp.filter_range_unique _ n j hj (by simpa using (hl j hj).2 rfl) fun i hi hp => (hl i hi).1 (by simpa using hp)]
  simp only [List.map_cons, List.map_nil, List.headD_cons, Interp.poss, Interp.slope]
  have := Interp.grid_lt hg (i := σ j) (j := σ (j + 1)) (by omega) (h.le_last (by omega))
  rw [div_mul_cancel₀ _ (by linarith)]
  ring

theorem dataFn_padded {σ : ℕ → ℕ} {n N : ℕ} (h : Padding σ n N) (times data : ℕ → ℝ) (t : ℝ) :
    dataFn (n + 1) (fun j => times (σ j)) (fun j => data (σ j)) t = dataFn (N + 1) times data t :=
  Interp.interpFn_padded h times data t

theorem rateFn_padded {σ : ℕ → ℕ} {n N : ℕ} (h : Padding σ n N) {times : ℕ → ℝ} (hg : StrictGrid N times) (data : ℕ → ℝ) {k : ℕ} (hk : k ≤ n) :
    rateFn (n + 1) (fun j => times (σ j)) (fun j => data (σ j)) (times (σ k)) = rateFn (N + 1) times data (times (σ k)) := by
  unfold rateFn
  rw [Nat.add_sub_cancel, Nat.add_sub_cancel, interpFn_grid h.pos hg _ (h.le_last hk)]
  rcases Nat.eq_zero_or_pos (σ k) with h0 | h0
  · rw [h0]
    classical
    have hN := h.pos
    have e : ((List.range n).filter fun j => decide (Interp.loc (fun j => times (σ j)) (times 0) j)) = [0] := by
      refine Interp.filter_range_unique _ n 0 h.first.1 ?_ ?_
      · simp [Interp.loc, h.zero]
      · intro i hi hp
        rw [decide_eq_true_eq] at hp
        unfold Interp.loc at hp
        rcases hp with ⟨_, b⟩ | ⟨a, _⟩
        · have := Interp.grid_le hg (i := 0) (j := σ i) (by omega) (h.le_last (by omega))
          linarith
        · exact a
    unfold Interp.interpFn Interp.hits
    rw [e]
    simp [Interp.poss, h.zero, rateData]
  · obtain ⟨j, h1, h2, h3⟩ := h.exists_first hk h0
    rw [← h2, interp_first h hg _ (by omega) h3]
    simp only [rateData, Nat.succ_ne_zero, if_false, Nat.add_sub_cancel]
    rw [if_neg (by omega), show σ (j + 1) - 1 = σ j by omega]

end Pyoptmat.Control

namespace Pyoptmat.Ode

open Pyoptmat.Chunktime Pyoptmat.Newton Pyoptmat.Spec

variable {β : Type*} {m : ℕ}

/-- one Newton update makes row `k` equal to the row before it if the time step is zero -/
theorem zero_step_update (s : Scheme) {n : ℕ} (hn : 0 < n) (meth : SolveMethod) (dy yd : Fin (n + 1) → BVec β m ℝ) (yJ : Fin (n + 1) → Blk β m ℝ)
    (dt : Fin n → β → ℝ) (hA : ∀ k b, IsUnit ((formOperators s dy yd yJ dt).2.A k b).det) (k : Fin n) (b : β) (h0 : dt k b = 0) :
    let dx := unflatten (solve meth (formOperators s dy yd yJ dt).2 (formOperators s dy yd yJ dt).1)
    dy k.succ b - dx k b = dy k.castSucc b - (stack 0 dx : Fin (n + 1) → BVec β m ℝ) k.castSucc b := by
  intro dx
  have h := newton_correction s hn meth dy yd yJ dt hA k b
  have hB : rowB s yJ dt k b = -1 := by cases s <;> simp [rowB, h0]
  have hAk : (formOperators s dy yd yJ dt).2.A k b = 1 := by cases s <;> simp [formOperators, h0]
  have hR : unflatten (formOperators s dy yd yJ dt).1 k b = dy k.succ b - dy k.castSucc b := by
    cases s <;> simp only [formOperators, unflatten_flatten, h0, zero_smul, sub_zero]
  rw [hB, hAk, hR] at h
  change Matrix.mulVec (-1) ((stack 0 dx : Fin (n + 1) → BVec β m ℝ) k.castSucc b) + Matrix.mulVec 1 (dx k b) = _ at h
  rw [Matrix.one_mulVec, Matrix.neg_mulVec, Matrix.one_mulVec] at h
  have h' : dx k b = dy k.succ b - dy k.castSucc b + (stack 0 dx : Fin (n + 1) → BVec β m ℝ) k.castSucc b := by
    rw [← h]
    change dx k b = -(stack 0 dx : Fin (n + 1) → BVec β m ℝ) k.castSucc b + dx k b + _
    abel
  rw [h']
  abel

theorem zero_step_block (s : Scheme) (f : BFunc β m) {n : ℕ} (hn : 0 < n) (meth : SolveMethod) (T : Fin n → β → ℝ) (tStart : β → ℝ) (yStart : BVec β m ℝ)
    (hA : ∀ x k b, IsUnit ((blockRJ s f T tStart yStart x).2.A k b).det) (k : Fin n) (b : β) (h0 : diff (stack tStart T) k b = 0) (j : ℕ) :
    unflatten (newtonIterate (blockRJ s f T tStart yStart) (fun J R => solve meth J R) (fun x dx => x - dx) 0 j) k b =
      (stack 0 (unflatten (newtonIterate (blockRJ s f T tStart yStart) (fun J R => solve meth J R) (fun x dx => x - dx) 0 j)) :
        Fin (n + 1) → BVec β m ℝ) k.castSucc b := by
  cases j with
  | zero =>
    change unflatten (0 : β → Fin (n * m) → ℝ) k b = (stack 0 (unflatten (0 : β → Fin (n * m) → ℝ)) : Fin (n + 1) → BVec β m ℝ) k.castSucc b
    refine Fin.cases ?_ (fun i => ?_) k.castSucc <;> simp only [stack, Fin.cons_succ, Fin.cons_zero] <;> rfl
  | succ j =>
    unfold newtonIterate
    rw [Function.iterate_succ_apply']
    set x := (fun x => x - solve meth (blockRJ s f T tStart yStart x).2 (blockRJ s f T tStart yStart x).1)^[j] (0 : β → Fin (n * m) → ℝ) with hx
    rw [stack_unflatten_sub]
    exact zero_step_update s hn meth (stack 0 (unflatten x)) _ _ (diff (stack tStart T)) (hA x) k b h0

theorem stack_rows {α : Type*} (t : ℕ → α) {k : ℕ} (hk : 1 ≤ k) (n : ℕ) :
    stack (t (k - 1)) (fun j : Fin n => t (k + j.val)) = fun j : Fin (n + 1) => t (k - 1 + j.val) := by
  funext j
  refine Fin.cases ?_ (fun i => ?_) j
  · simp [stack]
  · simp only [stack, Fin.cons_succ, Fin.val_succ]
    congr 1
    omega

/-- rows with equal times are equal in the output -/
theorem zero_step_run (c : Config) (hz : c.guessType = "zero") (f : BFunc β m) (y0 : BVec β m ℝ) (nt : ℕ) (t : ℕ → β → ℝ) (n : ℤ) (hn : 0 < n)
    (hA : c.scheme = .backwardEuler → ∀ (N i : ℕ), i + N < nt → ∀ (Y : Fin (N + 1) → BVec β m ℝ) (k : Fin N) (b : β),
      IsUnit (1 - (t (i + k.val + 1) b - t (i + k.val) b) • (f (N + 1) (fun j => t (i + j.val)) Y).2 k.succ b).det)
    (res : Partial β m) (w : Bool) (h : integrate c f y0 nt t n = .ok (res, w)) (k : ℕ) (hk : k + 1 < nt) (b : β) (h0 : t (k + 1) b = t k b) :
    res.get (k + 1) b = res.get k b := by
  obtain ⟨-, -, -, hb, -⟩ := integrate_spec c f y0 nt t n hn res w h
  obtain ⟨i, hi, hi1, hi2⟩ := block_of_row (N := n.toNat) (by omega) (Nat.succ_pos k) hk
  have hbK := hb i hi
  have hK1 : 1 ≤ 1 + i * n.toNat := by omega
  generalize 1 + i * n.toNat = K at hbK hi1 hi2 hK1
  have hKL : K + sliceLen nt K n.toNat ≤ nt := by
    unfold sliceLen at hi2 ⊢; omega
  unfold BlockOK at hbK
  generalize sliceLen nt K n.toNat = L at hbK hi2 hKL
  obtain ⟨guess, rows, wk, hu, -, hrow, hg⟩ := hbK
  obtain rfl := hg hz
  have hres : ∀ j : Fin L, res.get (K + j.val) = rows j := by
    intro j; unfold Partial.get; rw [hrow j]; rfl
  -- the rows are those of a Newton iterate
  have hit : ∃ j, ∀ (q : Fin L), rows q = unflatten (newtonIterate (blockRJ c.scheme f (fun j : Fin L => t (K + j.val)) (t (K - 1)) (res.get (K - 1)))
      (fun J R => solve c.method J R) (fun x dx => x - dx) 0 j) q + res.get (K - 1) := by
    unfold blockUpdate blockNewton newtonChunk at hu
    have hl := (loop_spec (blockRJ c.scheme f (fun j : Fin L => t (K + j.val)) (t (K - 1)) (res.get (K - 1)))
      (fun J R => solve c.method J R) (fun x dx => x - dx) (fun R b => some (rowNorm (R b))) c.rtol c.atol
      (fun b => some (rowNorm ((blockRJ c.scheme f (fun j : Fin L => t (K + j.val)) (t (K - 1)) (res.get (K - 1)) 0).1 b))) c.miter.toNat 0).2.1
    dsimp only at hu
    generalize loop (blockRJ c.scheme f (fun j : Fin L => t (K + j.val)) (t (K - 1)) (res.get (K - 1)))
      (fun J R => solve c.method J R) (fun x dx => x - dx) (fun R b => some (rowNorm (R b))) c.rtol c.atol
      (fun b => some (rowNorm ((blockRJ c.scheme f (fun j : Fin L => t (K + j.val)) (t (K - 1)) (res.get (K - 1)) 0).1 b))) c.miter.toNat 0 = lp at hu hl
    refine ⟨lp.2, fun q => ?_⟩
    · split_ifs at hu with h1 h2
      all_goals
        dsimp only at hu
        simp only [Except.ok.injEq, Prod.mk.injEq] at hu
        rw [← hu.1, hl]
        rfl
  obtain ⟨j, hj⟩ := hit
  have hblk := zero_step_block c.scheme f (n := L) (by omega) c.method (fun j : Fin L => t (K + j.val)) (t (K - 1)) (res.get (K - 1)) ?_ ⟨k + 1 - K, hi2⟩ b ?_ j
  · have e1 : res.get (k + 1) = rows ⟨k + 1 - K, hi2⟩ := by
      rw [← hres]; congr 1; simp only; omega
    rw [e1, hj, Pi.add_apply, hblk]
    by_cases hq : k + 1 = K
    · have : (Fin.castSucc (⟨k + 1 - K, hi2⟩ : Fin L)) = 0 := by ext; simp; omega
      rw [this, show K - 1 = k by omega]
      simp [stack]
    · have hlt : k - K < L := by omega
      have : (Fin.castSucc (⟨k + 1 - K, hi2⟩ : Fin L)) = Fin.succ ⟨k - K, hlt⟩ := by ext; simp; omega
      rw [this]
      have e2 : res.get k = rows ⟨k - K, hlt⟩ := by
        rw [← hres]; congr 1; simp only; omega
      rw [e2, hj]
      simp only [stack, Fin.cons_succ, Pi.add_apply]
  · intro x q b'
    have hst := stack_rows t (k := K) (by omega) L
    cases hs : c.scheme with
    | forwardEuler => simp [blockRJ, formOperators]
    | backwardEuler =>
      have := hA hs L (K - 1) (by omega) (fun j => (stack 0 (unflatten x) : Fin (L + 1) → BVec β m ℝ) j + res.get (K - 1)) q b'
      simp only [blockRJ, formOperators]
      rw [hst]
      simp only [diff, Fin.val_succ, Fin.val_castSucc]
      exact this
  · rw [stack_rows t (k := K) (by omega) L]
    simp only [diff, Fin.val_succ, Fin.val_castSucc]
    rw [show K - 1 + (k + 1 - K + 1) = k + 1 by omega, show K - 1 + (k + 1 - K) = k by omega, h0, sub_self]

end Pyoptmat.Ode
