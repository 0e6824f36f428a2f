import Verif.Model.Control
import Verif.Spec.Units

/-!
# A change of units commutes with the block solver (for C118)
-/

namespace Pyoptmat.Units

open Pyoptmat.Chunktime Pyoptmat.Newton Pyoptmat.Ode Pyoptmat.Spec

variable {β : Type*} {m : ℕ}

section Linear

variable {K : Type*} [Field K]

theorem bmv_smul (M : Blk β m K) (c : K) (v : BVec β m K) : bmv M (c • v) = c • bmv M v := by
  funext b
  exact Matrix.mulVec_smul (M b) c (v b)

theorem luSolve_smul (M : Blk β m K) (c : K) (v : BVec β m K) : luSolve M (c • v) = c • luSolve M v := by
  funext b
  exact Matrix.mulVec_smul _ c (v b)

theorem update_smul (c : K) (v : Mem (BVec β m K)) (i : ℕ) (x : BVec β m K) :
    Function.update (c • v) i (c • x) = c • Function.update v i x := by
  funext j
  by_cases h : j = i
  · subst h; simp [Pi.smul_apply]
  · simp [Pi.smul_apply, Function.update_of_ne h]

theorem assign_smul (c : K) (cells : List (ℕ × BVec β m K)) : ∀ v : Mem (BVec β m K),
    assign (c • v) (cells.map fun p => (p.1, c • p.2)) = c • assign v cells := by
  induction cells with
  | nil => intro v; rfl
  | cons p ps ih =>
    intro v
    have h := ih (Function.update v p.1 p.2)
    rw [← update_smul] at h
    exact h

theorem thomasStep_smul (lu B : Mem (Blk β m K)) (c : K) (v : Mem (BVec β m K)) (i : ℕ) :
    thomasStep lu B (c • v) i = c • thomasStep lu B v i := by
  unfold thomasStep
  rw [← update_smul, ← luSolve_smul, smul_sub, ← bmv_smul]
  rfl

theorem thomas_fold (lu B : Mem (Blk β m K)) (c : K) (l : List ℕ) : ∀ v : Mem (BVec β m K),
    l.foldl (thomasStep lu B) (c • v) = c • l.foldl (thomasStep lu B) v := by
  induction l with
  | nil => intro v; rfl
  | cons i is ih =>
    intro v
    simp only [List.foldl_cons]
    rw [thomasStep_smul, ih]

theorem reduceRhs_smul (vw Bw lw : View) (lu B : Mem (Blk β m K)) (c : K) (v : Mem (BVec β m K)) :
    reduceRhs vw Bw lw lu B (c • v) = c • reduceRhs vw Bw lw lu B v := by
  unfold reduceRhs
  rw [← assign_smul, List.map_map]
  congr 1
  refine List.map_congr_left fun pq _ => ?_
  simp only [Function.comp_apply, Pi.smul_apply, luSolve_smul, bmv_smul, smul_sub]

/-- The state of the reduction with a scaled right hand side. -/
def scaleState (c : K) (st : PcrState β m K) : PcrState β m K := { st with v := c • st.v }

theorem pcrStep_smul (lu : Mem (Blk β m K)) (c : K) (st : PcrState β m K) (i : ℕ) :
    pcrStep lu (scaleState c st) i = scaleState c (pcrStep lu st i) := by
  unfold pcrStep scaleState
  simp only [reduceRhs_smul]

theorem pcr_fold (lu : Mem (Blk β m K)) (c : K) (l : List ℕ) : ∀ st : PcrState β m K,
    l.foldl (pcrStep lu) (scaleState c st) = scaleState c (l.foldl (pcrStep lu) st) := by
  induction l with
  | nil => intro v; rfl
  | cons i is ih =>
    intro v
    simp only [List.foldl_cons]
    rw [pcrStep_smul, ih]

theorem pcrChunk_smul (lu B : Mem (Blk β m K)) (c : K) (v : Mem (BVec β m K)) (se : ℕ × ℕ) :
    pcrChunk lu (B, c • v) se = ((pcrChunk lu (B, v) se).1, c • (pcrChunk lu (B, v) se).2) := by
  have h : solveBlock lu se.1 se.2 B (c • v) = scaleState c (solveBlock lu se.1 se.2 B v) :=
    pcr_fold lu c _ ⟨B, v, sliceView se.1 se.2, sliceView se.1 se.2, sliceView se.1 se.2⟩
  unfold pcrChunk
  simp only [h]
  refine Prod.ext rfl ?_
  dsimp only
  rw [← assign_smul, List.map_map]
  rfl

theorem chunk_fold (lu : Mem (Blk β m K)) (c : K) (l : List (ℕ × ℕ)) : ∀ (B : Mem (Blk β m K)) (v : Mem (BVec β m K)),
    l.foldl (pcrChunk lu) (B, c • v) =
      ((l.foldl (pcrChunk lu) (B, v)).1, c • (l.foldl (pcrChunk lu) (B, v)).2) := by
  induction l with
  | nil => intro B v; rfl
  | cons i is ih =>
    intro B v
    simp only [List.foldl_cons]
    rw [pcrChunk_smul, ih]

/-- Scaling the right hand side scales what `matvec` returns, whether or not the blocks are invertible. -/
theorem matvec_smul (d : Direct) (n : ℕ) (lu B : Mem (Blk β m K)) (c : K) (v : Mem (BVec β m K)) :
    (d.matvec n lu B (c • v)).ret = c • (d.matvec n lu B v).ret := by
  cases d with
  | thomas =>
    change (List.range' 1 (n - 1)).foldl (thomasStep lu B) (Function.update (c • v) 0 (luSolve (lu 0) (c • v 0))) = _
    rw [luSolve_smul, update_smul, thomas_fold]
    rfl
  | pcr =>
    funext k
    change luSolve (lu k) (((pow2 n).foldl (pcrChunk lu) (padFront B, c • v)).2 k) = _
    rw [chunk_fold]
    exact luSolve_smul _ _ _
  | hybrid ms =>
    simp only [Direct.matvec, hybridMatvec]
    rw [chunk_fold, ← thomas_fold, ← assign_smul, List.map_map]
    dsimp only
    congr 2
    refine List.map_congr_left fun k _ => ?_
    simp only [Function.comp_apply, Pi.smul_apply, luSolve_smul]

theorem memOf_smul {n : ℕ} (c : K) (x : Fin n → BVec β m K) : memOf (c • x) = c • memOf x := by
  funext k
  by_cases h : k < n
  · simp [memOf, h]
  · simp [memOf, h]

theorem unflatten_smul {n : ℕ} (c : K) (x : β → Fin (n * m) → K) : unflatten (c • x) = c • unflatten x := rfl

theorem flatten_smul {n : ℕ} (c : K) (x : Fin n → BVec β m K) : flatten (c • x) = c • flatten x := rfl

theorem solve_smul {n : ℕ} (meth : SolveMethod) (J : BidiagOp β n m K) (c : K) (R : β → Fin (n * m) → K) :
    solve meth J (c • R) = c • solve meth J R := by
  cases meth with
  | dense =>
    funext b
    exact Matrix.mulVec_smul _ c (R b)
  | direct d =>
    unfold solve
    dsimp only
    unfold forward
    rw [unflatten_smul, memOf_smul, matvec_smul]
    rfl

end Linear

/-! ## The Newton loop -/

theorem rowNorm_smul {N : ℕ} {c : ℝ} (hc : 0 < c) (r : Fin N → ℝ) : rowNorm (c • r) = c * rowNorm r := by
  unfold rowNorm
  rw [show (∑ i, (c • r) i ^ 2) = c ^ 2 * ∑ i, r i ^ 2 by
    rw [Finset.mul_sum]
    exact Finset.sum_congr rfl fun i _ => by simp [mul_pow]]
  rw [Real.sqrt_mul (by positivity), Real.sqrt_sq hc.le]

theorem notConverged_smul {N : ℕ} {c : ℝ} (hc : 0 < c) (r r0 : β → Fin N → ℝ) (rtol atol : ℝ) :
    notConverged (fun b => some (rowNorm ((c • r) b))) (fun b => some (rowNorm ((c • r0) b))) rtol (c * atol) ↔
      notConverged (fun b => some (rowNorm (r b))) (fun b => some (rowNorm (r0 b))) rtol atol := by
  unfold notConverged gtAtol gtRtol
  simp only [Pi.smul_apply, rowNorm_smul hc]
  refine and_congr (exists_congr fun b => ?_) (exists_congr fun b => ?_)
  · exact mul_lt_mul_iff_right₀ hc
  · rw [show rtol * (c * rowNorm (r0 b)) = c * (rtol * rowNorm (r0 b)) by ring]
    exact mul_lt_mul_iff_right₀ hc

theorem loop_smul {N : ℕ} {Jac : Type*} {c : ℝ} (hc : 0 < c) (fn fn' : (β → Fin N → ℝ) → (β → Fin N → ℝ) × Jac)
    (sol : Jac → (β → Fin N → ℝ) → (β → Fin N → ℝ))
    (hfn : ∀ x, fn' (c • x) = (c • (fn x).1, (fn x).2)) (hsol : ∀ J R, sol J (c • R) = c • sol J R)
    (rtol atol : ℝ) (r0 : β → Fin N → ℝ) : ∀ (fuel : ℕ) (x : β → Fin N → ℝ),
    loop fn' sol (fun x dx => x - dx) (fun R b => some (rowNorm (R b))) rtol (c * atol)
        (fun b => some (rowNorm ((c • r0) b))) fuel (c • x) =
      (c • (loop fn sol (fun x dx => x - dx) (fun R b => some (rowNorm (R b))) rtol atol
          (fun b => some (rowNorm (r0 b))) fuel x).1,
       (loop fn sol (fun x dx => x - dx) (fun R b => some (rowNorm (R b))) rtol atol
          (fun b => some (rowNorm (r0 b))) fuel x).2) := by
  intro fuel
  induction fuel with
  | zero => intro x; rfl
  | succ fuel ih =>
    intro x
    unfold loop
    simp only [hfn, hsol, ← smul_sub]
    by_cases h : notConverged (fun b => some (rowNorm ((fn x).1 b))) (fun b => some (rowNorm (r0 b))) rtol atol
    · have h' := (notConverged_smul hc (fn x).1 r0 rtol atol).2 h
      rw [← show (fn' (c • x)).1 = c • (fn x).1 by rw [hfn]] at h'
      rw [if_pos h', if_pos h, ih]
    · have h' := mt (notConverged_smul hc (fn x).1 r0 rtol atol).1 h
      rw [← show (fn' (c • x)).1 = c • (fn x).1 by rw [hfn]] at h'
      rw [if_neg h', if_neg h]

theorem newton_smul {N : ℕ} {Jac : Type*} {c : ℝ} (hc : 0 < c) (fn fn' : (β → Fin N → ℝ) → (β → Fin N → ℝ) × Jac)
    (sol : Jac → (β → Fin N → ℝ) → (β → Fin N → ℝ))
    (hfn : ∀ x, fn' (c • x) = (c • (fn x).1, (fn x).2)) (hsol : ∀ J R, sol J (c • R) = c • sol J R)
    (rtol atol : ℝ) (x0 : β → Fin N → ℝ) (miter : ℤ) (tf : Bool) :
    (newtonChunk fn' sol (fun x dx => x - dx) (fun R b => some (rowNorm (R b))) (c • x0) rtol (c * atol) miter tf).result =
        (newtonChunk fn sol (fun x dx => x - dx) (fun R b => some (rowNorm (R b))) x0 rtol atol miter tf).result.map (c • ·) ∧
      (newtonChunk fn' sol (fun x dx => x - dx) (fun R b => some (rowNorm (R b))) (c • x0) rtol (c * atol) miter tf).warned =
        (newtonChunk fn sol (fun x dx => x - dx) (fun R b => some (rowNorm (R b))) x0 rtol atol miter tf).warned := by
  unfold newtonChunk
  dsimp only
  rw [show (fun b => some (rowNorm ((fn' (c • x0)).1 b))) = fun b => some (rowNorm ((c • (fn x0).1) b)) by rw [hfn]]
  rw [loop_smul hc fn fn' sol hfn hsol]
  dsimp only
  generalize loop fn sol _ _ _ _ _ _ _ = r
  by_cases h : (r.2 : ℤ) = miter <;> cases tf <;> simp [h, Except.map]

/-! ## The block solver -/

variable {F F' : BFunc β m} {c : ℝ} {τ o : β → ℝ} {S : Set (β → ℝ)}

theorem blockRJ_units (hτ : ∀ b, 0 < τ b) (hF : Rescaled c τ o S F F') (s : Scheme) {n : ℕ}
    {t : Fin n → β → ℝ} {tStart : β → ℝ} (ht : ∀ k, t k ∈ S) (hs : tStart ∈ S) (yStart : BVec β m ℝ) (dy : β → Fin (n * m) → ℝ) :
    blockRJ s F' (fun k => newTime τ o (t k)) (newTime τ o tStart) (c • yStart) (c • dy) =
      (c • (blockRJ s F t tStart yStart dy).1, (blockRJ s F t tStart yStart dy).2) := by
  have hst : stack (newTime τ o tStart) (fun k => newTime τ o (t k)) = fun k => newTime τ o (stack tStart t k) := by
    funext k
    refine Fin.cases ?_ (fun i => ?_) k <;> rfl
  have hdy : (stack 0 (unflatten (c • dy)) : Fin (n + 1) → BVec β m ℝ) = c • stack 0 (unflatten dy) := by
    funext k
    refine Fin.cases ?_ (fun i => ?_) k
    · change (0 : BVec β m ℝ) = c • 0
      rw [smul_zero]
    · rfl
  have hy : (fun k => (c • stack 0 (unflatten dy) : Fin (n + 1) → BVec β m ℝ) k + c • yStart) =
      c • fun k => (stack 0 (unflatten dy) : Fin (n + 1) → BVec β m ℝ) k + yStart := by
    funext k
    exact (smul_add c _ _).symm
  obtain ⟨h1, h2⟩ := hF (n + 1) (stack tStart t) (fun k => (stack 0 (unflatten dy) : Fin (n + 1) → BVec β m ℝ) k + yStart)
    (fun k => by refine Fin.cases ?_ (fun i => ?_) k <;> [exact hs; exact ht i])
  have hdt : ∀ (k : Fin n) (b : β), diff (fun k => newTime τ o (stack tStart t k)) k b = τ b * diff (stack tStart t) k b := by
    intro k b
    simp only [diff, newTime]
    ring
  unfold blockRJ
  simp only [hst, hdy, hy]
  cases s with
  | backwardEuler =>
    refine Prod.ext ?_ ?_
    · simp only [formOperators]
      rw [← flatten_smul]
      congr 1
      funext k b i
      simp only [h1, hdt, Pi.smul_apply, Pi.sub_apply, smul_eq_mul]
      field_simp [(hτ b).ne']
    · simp only [formOperators, h2, hdt]
      congr 1
      funext k b
      rw [smul_smul, show τ b * diff (stack tStart t) k b * (1 / τ b) = diff (stack tStart t) k b by
        field_simp [(hτ b).ne']]
  | forwardEuler =>
    refine Prod.ext ?_ ?_
    · simp only [formOperators]
      rw [← flatten_smul]
      congr 1
      funext k b i
      simp only [h1, hdt, Pi.smul_apply, Pi.sub_apply, smul_eq_mul]
      field_simp [(hτ b).ne']
    · simp only [formOperators, h2, hdt]
      congr 1
      funext k b
      rw [smul_smul, show τ b * diff (stack tStart t) ⟨k.val + 1, by omega⟩ b * (1 / τ b) = diff (stack tStart t) ⟨k.val + 1, by omega⟩ b by
        field_simp [(hτ b).ne']]

theorem blockUpdate_units (hc : 0 < c) (hτ : ∀ b, 0 < τ b) (hF : Rescaled c τ o S F F') (cfg : Config) {n : ℕ}
    {t : Fin n → β → ℝ} {tStart : β → ℝ} (ht : ∀ k, t k ∈ S) (hs : tStart ∈ S) (yStart : BVec β m ℝ) (guess : β → Fin (n * m) → ℝ) :
    blockUpdate { cfg with atol := c * cfg.atol } F' (fun k => newTime τ o (t k)) (newTime τ o tStart) (c • yStart) (c • guess) =
      (blockUpdate cfg F t tStart yStart guess).map fun r => (c • r.1, r.2) := by
  obtain ⟨h1, h2⟩ := newton_smul hc (blockRJ cfg.scheme F t tStart yStart)
    (blockRJ cfg.scheme F' (fun k => newTime τ o (t k)) (newTime τ o tStart) (c • yStart))
    (fun J R => solve cfg.method J R) (blockRJ_units hτ hF cfg.scheme ht hs yStart)
    (fun J R => solve_smul cfg.method J c R) cfg.rtol cfg.atol guess cfg.miter cfg.throwOnFail
  unfold blockUpdate blockNewton
  simp only [h1, h2]
  cases (newtonChunk (blockRJ cfg.scheme F t tStart yStart) (fun J R => solve cfg.method J R) (fun x dx => x - dx)
    (fun R b => some (rowNorm (R b))) guess cfg.rtol cfg.atol cfg.miter cfg.throwOnFail).result with
  | error e => rfl
  | ok x =>
    simp only [Except.map]
    congr 2
    funext k
    exact (smul_add c _ _).symm

theorem get_units (r : Partial β m) (k : ℕ) :
    Partial.get (fun j => (r j).map (c • ·)) k = c • r.get k := by
  unfold Partial.get
  cases h : r k with
  | none => simp [h]
  | some x => simp [h]

theorem initialGuess_units (g : String) (nt n : ℕ) (r : Partial β m) (k : ℕ) :
    initialGuess g nt n (fun j => (r j).map (c • ·)) k = (initialGuess g nt n r k).map fun l => l.map (c • ·) := by
  unfold initialGuess
  by_cases h0 : g = "zero"
  · simp [h0, Except.map]
  · by_cases h1 : g = "previous"
    · simp only [h1, if_true]
      rw [if_neg (by decide), if_neg (show ¬("previous" = "zero") by decide)]
      simp only [Except.map, List.map_drop]
      congr 2
      by_cases h2 : (k : ℤ) - n - 1 < 0
      · rw [if_pos h2, if_pos h2, List.map_replicate, smul_zero]
      · rw [if_neg h2, if_neg h2, List.map_map]
        refine List.map_congr_left fun j _ => ?_
        simp only [get_units, Function.comp_apply, smul_sub]
    · simp [h0, h1, Except.map]

/-- What changes in the state of the time loop. -/
def scaleRun (c : ℝ) (r : Partial β m × Bool) : Partial β m × Bool := (fun j => (r.1 j).map (c • ·), r.2)

theorem step_units (hc : 0 < c) (hτ : ∀ b, 0 < τ b) (hF : Rescaled c τ o S F F') (cfg : Config) (nt n : ℕ)
    (t : ℕ → β → ℝ) (hS : ∀ j < nt, t j ∈ S) (st : Partial β m × Bool) (k : ℕ) (hk : k < nt) :
    integrateStep { cfg with atol := c * cfg.atol } F' nt n (fun k => newTime τ o (t k)) (scaleRun c st) k =
      (integrateStep cfg F nt n t st k).map (scaleRun c) := by
  unfold integrateStep
  simp only [scaleRun, initialGuess_units]
  cases hg : initialGuess cfg.guessType nt n st.1 k with
  | error e => rfl
  | ok g =>
    simp only [Except.map, List.length_map]
    by_cases hl : g.length = sliceLen nt k n
    · simp only [hl, if_true, get_units]
      have hgf : (flatten fun j : Fin (sliceLen nt k n) => (g.map (c • ·)).getD j.val 0) =
          c • (flatten fun j : Fin (sliceLen nt k n) => g.getD j.val 0 : β → Fin (sliceLen nt k n * m) → ℝ) := by
        rw [← flatten_smul]
        congr 1
        funext j
        simp only [List.getD_eq_getElem?_getD, List.getElem?_map, Pi.smul_apply]
        cases g[j.val]? with
        | none => simp
        | some x => rfl
      rw [hgf, blockUpdate_units hc hτ hF cfg (t := fun j : Fin (sliceLen nt k n) => t (k + j.val))
        (fun j => hS _ (by have := j.2; unfold sliceLen at this; omega)) (hS _ (by omega))]
      cases blockUpdate cfg F (fun j : Fin (sliceLen nt k n) => t (k + j.val)) (t (k - 1)) (st.1.get (k - 1))
        (flatten fun j : Fin (sliceLen nt k n) => g.getD j.val 0) with
      | error e => rfl
      | ok r =>
        simp only [Except.map]
        congr 2
        funext j
        by_cases hj : k ≤ j ∧ j - k < sliceLen nt k n
        · simp only [hj]; rfl
        · simp only [hj]; rfl
    · simp only [hl, if_false]

theorem loop_units (hc : 0 < c) (hτ : ∀ b, 0 < τ b) (hF : Rescaled c τ o S F F') (cfg : Config) (nt n : ℕ)
    (t : ℕ → β → ℝ) (hS : ∀ j < nt, t j ∈ S) (ks : List ℕ) (hks : ∀ k ∈ ks, k < nt) : ∀ st : Partial β m × Bool,
    integrateLoop { cfg with atol := c * cfg.atol } F' nt n (fun k => newTime τ o (t k)) ks (scaleRun c st) =
      (integrateLoop cfg F nt n t ks st).map (scaleRun c) := by
  induction ks with
  | nil => intro st; rfl
  | cons k ks ih =>
    intro st
    unfold integrateLoop
    rw [step_units hc hτ hF cfg nt n t hS st k (hks k (by simp))]
    cases integrateStep cfg F nt n t st k with
    | error e => rfl
    | ok st' => exact ih (fun k hk => hks k (by simp [hk])) st'

theorem starts_lt {nt : ℕ} {q : ℤ} {l : List ℕ} (h : blockStarts nt q = .ok l) : ∀ k ∈ l, k < nt := by
  unfold blockStarts at h
  split_ifs at h with h0 h1
  · obtain rfl := Except.ok.inj h
    simp
  · obtain rfl := Except.ok.inj h
    intro k hk
    obtain ⟨i, hi, rfl⟩ := List.mem_range'.1 hk
    have hq : 0 < q.toNat := by omega
    generalize q.toNat = N at *
    have h2 : i + 1 ≤ (nt - 1 + (N - 1)) / N := hi
    have h3 := (Nat.le_div_iff_mul_le hq).1 h2
    have h4 : (i + 1) * N = N * i + N := by ring
    omega

theorem integrate_units (hc : 0 < c) (hτ : ∀ b, 0 < τ b) (hF : Rescaled c τ o S F F') (cfg : Config) (y0 : BVec β m ℝ)
    (nt : ℕ) (t : ℕ → β → ℝ) (hS : ∀ j < nt, t j ∈ S) (q : ℤ) :
    integrate { cfg with atol := c * cfg.atol } F' (c • y0) nt (fun k => newTime τ o (t k)) q =
      (integrate cfg F y0 nt t q).map fun r => (fun j => (r.1 j).map (c • ·), r.2) := by
  unfold integrate
  by_cases h : nt = 0
  · simp [h, Except.map]
  · simp only [h, if_false]
    cases hb : blockStarts nt q with
    | error e => rfl
    | ok starts =>
      have hi : (fun j => if j = 0 then some (c • y0) else none, false) =
          scaleRun c ((fun j => if j = 0 then some y0 else none, false) : Partial β m × Bool) := by
        refine Prod.ext ?_ rfl
        funext j
        by_cases hj : j = 0 <;> simp [scaleRun, hj]
      dsimp only
      rw [hi]
      exact loop_units hc hτ hF cfg nt q.toNat t hS starts (starts_lt hb) _

end Pyoptmat.Units
