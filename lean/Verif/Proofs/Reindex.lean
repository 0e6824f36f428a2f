import Verif.Model.Control
import Verif.Spec.Reindex

/-!
# Reordering and repeating the tests of a batch commutes with the block solver (for C120)
-/

namespace Pyoptmat.Reindex

open Pyoptmat.Chunktime Pyoptmat.Newton Pyoptmat.Ode Pyoptmat.Spec

variable {β β' : Type*} {m : ℕ} (e : β' → β)

section Linear

variable {K : Type*} [Field K]

/-- A storage of batched entries, seen by the new batch. -/
def pull {α : Type*} (v : Mem (β → α)) : Mem (β' → α) := fun k b => v k (e b)

theorem update_pull {α : Type*} (v : Mem (β → α)) (i : ℕ) (x : β → α) :
    Function.update (pull e v) i (fun b => x (e b)) = pull e (Function.update v i x) := by
  funext j b
  by_cases h : j = i
  · subst h; simp [pull]
  · simp [pull, Function.update_of_ne h]

theorem assign_pull {α : Type*} (cells : List (ℕ × (β → α))) : ∀ v : Mem (β → α),
    assign (pull e v) (cells.map fun p => (p.1, fun b => p.2 (e b))) = pull e (assign v cells) := by
  induction cells with
  | nil => intro v; rfl
  | cons p ps ih =>
    intro v
    have h := ih (Function.update v p.1 p.2)
    rw [← update_pull] at h
    exact h

theorem thomasStep_pull (lu B : Mem (Blk β m K)) (v : Mem (BVec β m K)) (i : ℕ) :
    thomasStep (pull e lu) (pull e B) (pull e v) i = pull e (thomasStep lu B v i) := by
  unfold thomasStep
  rw [← update_pull]
  rfl

theorem thomas_fold (lu B : Mem (Blk β m K)) (l : List ℕ) : ∀ v : Mem (BVec β m K),
    l.foldl (thomasStep (pull e lu) (pull e B)) (pull e v) = pull e (l.foldl (thomasStep lu B) v) := by
  induction l with
  | nil => intro v; rfl
  | cons i is ih =>
    intro v
    simp only [List.foldl_cons]
    rw [thomasStep_pull, ih]

theorem reduceRhs_pull (vw Bw lw : View) (lu B : Mem (Blk β m K)) (v : Mem (BVec β m K)) :
    reduceRhs vw Bw lw (pull e lu) (pull e B) (pull e v) = pull e (reduceRhs vw Bw lw lu B v) := by
  unfold reduceRhs
  rw [← assign_pull, List.map_map]
  rfl

theorem reduceOff_pull (Bw lw : View) (lu B : Mem (Blk β m K)) :
    reduceOff Bw lw (pull e lu) (pull e B) = pull e (reduceOff Bw lw lu B) := by
  unfold reduceOff
  rw [← assign_pull, List.map_map]
  rfl

/-- The state of the reduction, seen by the new batch. -/
def pullState (st : PcrState β m K) : PcrState β' m K := { st with B := pull e st.B, v := pull e st.v }

theorem pcrStep_pull (lu : Mem (Blk β m K)) (st : PcrState β m K) (i : ℕ) :
    pcrStep (pull e lu) (pullState e st) i = pullState e (pcrStep lu st i) := by
  unfold pcrStep pullState
  simp only [reduceRhs_pull, reduceOff_pull]

theorem pcr_fold (lu : Mem (Blk β m K)) (l : List ℕ) : ∀ st : PcrState β m K,
    l.foldl (pcrStep (pull e lu)) (pullState e st) = pullState e (l.foldl (pcrStep lu) st) := by
  induction l with
  | nil => intro v; rfl
  | cons i is ih =>
    intro v
    simp only [List.foldl_cons]
    rw [pcrStep_pull, ih]

theorem pcrChunk_pull (lu B : Mem (Blk β m K)) (v : Mem (BVec β m K)) (se : ℕ × ℕ) :
    pcrChunk (pull e lu) (pull e B, pull e v) se = (pull e (pcrChunk lu (B, v) se).1, pull e (pcrChunk lu (B, v) se).2) := by
  have h : solveBlock (pull e lu) se.1 se.2 (pull e B) (pull e v) = pullState e (solveBlock lu se.1 se.2 B v) :=
    pcr_fold e lu _ ⟨B, v, sliceView se.1 se.2, sliceView se.1 se.2, sliceView se.1 se.2⟩
  unfold pcrChunk
  simp only [h]
  refine Prod.ext ?_ ?_
  · dsimp only
    rw [← assign_pull, List.map_map]
    rfl
  · dsimp only
    rw [← assign_pull, List.map_map]
    rfl

theorem chunk_fold (lu : Mem (Blk β m K)) (l : List (ℕ × ℕ)) : ∀ (B : Mem (Blk β m K)) (v : Mem (BVec β m K)),
    l.foldl (pcrChunk (pull e lu)) (pull e B, pull e v) =
      (pull e (l.foldl (pcrChunk lu) (B, v)).1, pull e (l.foldl (pcrChunk lu) (B, v)).2) := by
  induction l with
  | nil => intro B v; rfl
  | cons i is ih =>
    intro B v
    simp only [List.foldl_cons]
    rw [pcrChunk_pull, ih]

theorem padFront_pull (B : Mem (Blk β m K)) : padFront (pull e B) = pull e (padFront B) := by
  funext k
  cases k <;> rfl

/-- Everything `matvec` computes, entry by entry of the batch. -/
theorem matvec_pull (d : Direct) (n : ℕ) (lu B : Mem (Blk β m K)) (v : Mem (BVec β m K)) :
    (d.matvec n (pull e lu) (pull e B) (pull e v)).ret = pull e (d.matvec n lu B v).ret := by
  cases d with
  | thomas =>
    change (List.range' 1 (n - 1)).foldl (thomasStep (pull e lu) (pull e B))
      (Function.update (pull e v) 0 (fun b => luSolve (lu 0) (v 0) (e b))) = _
    rw [update_pull, thomas_fold]
    rfl
  | pcr =>
    funext k
    change luSolve (pull e lu k) (((pow2 n).foldl (pcrChunk (pull e lu)) (padFront (pull e B), pull e v)).2 k) = _
    rw [padFront_pull, chunk_fold]
    rfl
  | hybrid ms =>
    simp only [Direct.matvec, hybridMatvec]
    rw [padFront_pull, chunk_fold]
    have h := thomas_fold e lu (fun k => (List.foldl (pcrChunk lu) (padFront B, v) (pcrBlocks n (ms + 1)).1).1 (k + 1))
      (List.range' (pcrBlocks n (ms + 1)).2 (n - (pcrBlocks n (ms + 1)).2))
      (assign (List.foldl (pcrChunk lu) (padFront B, v) (pcrBlocks n (ms + 1)).1).2
        ((List.range (pcrBlocks n (ms + 1)).2).map fun k =>
          (k, luSolve (lu k) ((List.foldl (pcrChunk lu) (padFront B, v) (pcrBlocks n (ms + 1)).1).2 k))))
    rw [← assign_pull, List.map_map] at h
    exact h

theorem memOf_pull {n : ℕ} {α : Type*} [Zero α] (x : Fin n → β → α) : memOf (fun k b => x k (e b)) = pull e (memOf x) := by
  funext k b
  by_cases h : k < n
  · simp [memOf, h, pull]
  · simp [memOf, h, pull]

/-- An operator, seen by the new batch. -/
def pullOp {n : ℕ} (J : BidiagOp β n m K) : BidiagOp β' n m K := ⟨fun k b => J.A k (e b), fun k b => J.B k (e b)⟩

theorem writeBlock_pull {n : ℕ} (A : β → Matrix (Fin n) (Fin n) K) (i j : ℕ) (blk : Blk β m K) :
    writeBlock (fun b => A (e b)) i j (fun b => blk (e b)) = fun b => writeBlock A i j blk (e b) := rfl

theorem writeDiag_pull {n : ℕ} (nblk : ℕ) (d : ℤ) (L : List (Blk β m K)) (A : β → Matrix (Fin n) (Fin n) K) :
    writeDiag nblk (fun b => A (e b)) (d, L.map fun X b => X (e b)) = fun b => writeDiag nblk A (d, L) (e b) := by
  unfold writeDiag
  generalize List.range (nblk - (d, L).1.natAbs) = l
  change l.foldl (fun A k => writeBlock A (denseRow d k) (denseCol d k) ((L.map fun (X : Blk β m K) b => X (e b)).getD k 0)) (fun b => A (e b)) =
    fun b => l.foldl (fun A k => writeBlock A (denseRow d k) (denseCol d k) (L.getD k 0)) A (e b)
  induction l generalizing A with
  | nil => rfl
  | cons k ks ih =>
    simp only [List.foldl_cons]
    have h : ((L.map fun (X : Blk β m K) (b : β') => X (e b)).getD k 0) = fun b => (L.getD k 0) (e b) := by
      simp only [List.getD_eq_getElem?_getD, List.getElem?_map]
      cases L[k]? <;> rfl
    rw [h, writeBlock_pull, ih]

theorem toDiag_entries {n : ℕ} (J : BidiagOp β n m K) : J.toDiag.entries = [(-1, List.ofFn J.B), (0, List.ofFn J.A)] := by
  unfold BidiagOp.toDiag BlockDiag.mk'
  rw [List.mergeSort]
  simp [List.merge, List.MergeSort.Internal.splitInTwo]

theorem dense_pull {n : ℕ} (J : BidiagOp β n m K) (b : β') : (pullOp e J).dense b = J.dense (e b) := by
  unfold BidiagOp.dense
  rw [toDiag_entries, toDiag_entries]
  simp only [List.foldl_cons, List.foldl_nil]
  have hB : List.ofFn (pullOp e J).B = (List.ofFn J.B).map fun X b => X (e b) := by
    rw [List.map_ofFn]; rfl
  have hA : List.ofFn (pullOp e J).A = (List.ofFn J.A).map fun X b => X (e b) := by
    rw [List.map_ofFn]; rfl
  rw [hA, hB]
  have h1 := writeDiag_pull e n (-1) (List.ofFn J.B) (0 : β → Matrix (Fin (n * m)) (Fin (n * m)) K)
  have h2 := writeDiag_pull e n 0 (List.ofFn J.A) (writeDiag n (0 : β → Matrix (Fin (n * m)) (Fin (n * m)) K) (-1, List.ofFn J.B))
  rw [← h1] at h2
  exact congrFun h2 b

theorem solve_pull {n : ℕ} (meth : SolveMethod) (J : BidiagOp β n m K) (R : β → Fin (n * m) → K) :
    solve meth (pullOp e J) (fun b => R (e b)) = fun b => solve meth J R (e b) := by
  cases meth with
  | dense =>
    funext b
    change ((pullOp e J).dense b)⁻¹.mulVec (R (e b)) = _
    rw [dense_pull]
    rfl
  | direct d =>
    unfold solve
    dsimp only
    unfold forward
    have h1 : memOf (pullOp e J).A = pull e (memOf J.A) := memOf_pull e J.A
    have h2 : memOf (pullOp e J).B = pull e (memOf J.B) := memOf_pull e J.B
    have h3 : memOf (unflatten (nblk := n) (m := m) fun b => R (e b)) = pull e (memOf (unflatten R)) := memOf_pull e (unflatten R)
    rw [h1, h2, h3, matvec_pull]
    rfl

end Linear

/-! ## The Newton loop -/

variable {e}

theorem notConverged_pull (he : Function.Surjective e) (a a0 : β → Option ℝ) (rtol atol : ℝ) :
    notConverged (fun b => a (e b)) (fun b => a0 (e b)) rtol atol ↔ notConverged a a0 rtol atol := by
  unfold notConverged
  refine and_congr ⟨fun ⟨b, h⟩ => ⟨e b, h⟩, fun ⟨b, h⟩ => ?_⟩ ⟨fun ⟨b, h⟩ => ⟨e b, h⟩, fun ⟨b, h⟩ => ?_⟩
  · obtain ⟨b', rfl⟩ := he b
    exact ⟨b', h⟩
  · obtain ⟨b', rfl⟩ := he b
    exact ⟨b', h⟩

theorem loop_pull {N : ℕ} {Jac Jac' : Type*} (pJ : Jac → Jac') (he : Function.Surjective e)
    (fn : (β → Fin N → ℝ) → (β → Fin N → ℝ) × Jac) (fn' : (β' → Fin N → ℝ) → (β' → Fin N → ℝ) × Jac')
    (sol : Jac → (β → Fin N → ℝ) → (β → Fin N → ℝ)) (sol' : Jac' → (β' → Fin N → ℝ) → (β' → Fin N → ℝ))
    (hfn : ∀ x, fn' (fun b => x (e b)) = (fun b => (fn x).1 (e b), pJ (fn x).2))
    (hsol : ∀ J R, sol' (pJ J) (fun b => R (e b)) = fun b => sol J R (e b))
    (rtol atol : ℝ) (n0 : β → Option ℝ) : ∀ (fuel : ℕ) (x : β → Fin N → ℝ),
    loop fn' sol' (fun x dx => x - dx) (fun R b => some (rowNorm (R b))) rtol atol (fun b => n0 (e b)) fuel (fun b => x (e b)) =
      (fun b => (loop fn sol (fun x dx => x - dx) (fun R b => some (rowNorm (R b))) rtol atol n0 fuel x).1 (e b),
       (loop fn sol (fun x dx => x - dx) (fun R b => some (rowNorm (R b))) rtol atol n0 fuel x).2) := by
  intro fuel
  induction fuel with
  | zero => intro x; rfl
  | succ fuel ih =>
    intro x
    unfold loop
    have h1 : (fn' fun b => x (e b)).1 = fun b => (fn x).1 (e b) := by rw [hfn]
    have h2 : (fn' fun b => x (e b)).2 = pJ (fn x).2 := by rw [hfn]
    have hn := notConverged_pull he (fun b => some (rowNorm ((fn x).1 b))) n0 rtol atol
    by_cases h : notConverged (fun b => some (rowNorm ((fn x).1 b))) n0 rtol atol
    · have h' : notConverged (fun b => some (rowNorm ((fn' fun b => x (e b)).1 b))) (fun b => n0 (e b)) rtol atol := by
        rw [h1]; exact hn.2 h
      rw [if_pos h', if_pos h, h1, h2, hsol]
      have := ih (x - sol (fn x).2 (fn x).1)
      change loop fn' sol' _ _ rtol atol _ fuel (fun b => (x - sol (fn x).2 (fn x).1) (e b)) = _ at this
      dsimp only
      rw [show ((fun b => x (e b)) - fun b => sol (fn x).2 (fn x).1 (e b)) = fun b => (x - sol (fn x).2 (fn x).1) (e b) from rfl, this]
    · have h' : ¬notConverged (fun b => some (rowNorm ((fn' fun b => x (e b)).1 b))) (fun b => n0 (e b)) rtol atol := by
        rw [h1]; exact mt hn.1 h
      rw [if_neg h', if_neg h]

theorem newton_pull {N : ℕ} {Jac Jac' : Type*} (pJ : Jac → Jac') (he : Function.Surjective e)
    (fn : (β → Fin N → ℝ) → (β → Fin N → ℝ) × Jac) (fn' : (β' → Fin N → ℝ) → (β' → Fin N → ℝ) × Jac')
    (sol : Jac → (β → Fin N → ℝ) → (β → Fin N → ℝ)) (sol' : Jac' → (β' → Fin N → ℝ) → (β' → Fin N → ℝ))
    (hfn : ∀ x, fn' (fun b => x (e b)) = (fun b => (fn x).1 (e b), pJ (fn x).2))
    (hsol : ∀ J R, sol' (pJ J) (fun b => R (e b)) = fun b => sol J R (e b))
    (rtol atol : ℝ) (x0 : β → Fin N → ℝ) (miter : ℤ) (tf : Bool) :
    (newtonChunk fn' sol' (fun x dx => x - dx) (fun R b => some (rowNorm (R b))) (fun b => x0 (e b)) rtol atol miter tf).result =
        (newtonChunk fn sol (fun x dx => x - dx) (fun R b => some (rowNorm (R b))) x0 rtol atol miter tf).result.map (fun x b => x (e b)) ∧
      (newtonChunk fn' sol' (fun x dx => x - dx) (fun R b => some (rowNorm (R b))) (fun b => x0 (e b)) rtol atol miter tf).warned =
        (newtonChunk fn sol (fun x dx => x - dx) (fun R b => some (rowNorm (R b))) x0 rtol atol miter tf).warned := by
  unfold newtonChunk
  dsimp only
  rw [show (fun b => some (rowNorm ((fn' fun b => x0 (e b)).1 b))) = fun b => (fun b => some (rowNorm ((fn x0).1 b))) (e b) by rw [hfn]]
  rw [loop_pull pJ he fn fn' sol sol' hfn hsol rtol atol (fun b => some (rowNorm ((fn x0).1 b)))]
  dsimp only
  generalize loop fn sol _ _ _ _ _ _ _ = r
  by_cases h : (r.2 : ℤ) = miter <;> cases tf <;> simp [h, Except.map]

/-! ## The block solver -/

variable {F : BFunc β m} {F' : BFunc β' m}

theorem blockRJ_pull (hF : SameTests e F F') (s : Scheme) {n : ℕ} (t : Fin n → β → ℝ) (tStart : β → ℝ) (yStart : BVec β m ℝ)
    (dy : β → Fin (n * m) → ℝ) :
    blockRJ s F' (fun k b => t k (e b)) (fun b => tStart (e b)) (fun b => yStart (e b)) (fun b => dy (e b)) =
      (fun b => (blockRJ s F t tStart yStart dy).1 (e b), pullOp e (blockRJ s F t tStart yStart dy).2) := by
  have hst : stack (fun b => tStart (e b)) (fun k b => t k (e b)) = fun k b => stack tStart t k (e b) := by
    funext k
    refine Fin.cases ?_ (fun i => ?_) k <;> rfl
  have hdy : (stack 0 (unflatten fun b => dy (e b)) : Fin (n + 1) → BVec β' m ℝ) =
      fun k b => (stack 0 (unflatten dy) : Fin (n + 1) → BVec β m ℝ) k (e b) := by
    funext k
    refine Fin.cases ?_ (fun i => ?_) k <;> rfl
  have hy : (fun k => (fun b => (stack 0 (unflatten dy) : Fin (n + 1) → BVec β m ℝ) k (e b)) + fun b => yStart (e b)) =
      fun k b => ((stack 0 (unflatten dy) : Fin (n + 1) → BVec β m ℝ) k + yStart) (e b) := rfl
  have h := hF (n + 1) (stack tStart t) (fun k => (stack 0 (unflatten dy) : Fin (n + 1) → BVec β m ℝ) k + yStart)
  unfold blockRJ
  simp only [hst, hdy, hy, h]
  cases s <;> rfl

theorem blockUpdate_pull (he : Function.Surjective e) (hF : SameTests e F F') (cfg : Config) {n : ℕ}
    (t : Fin n → β → ℝ) (tStart : β → ℝ) (yStart : BVec β m ℝ) (guess : β → Fin (n * m) → ℝ) :
    blockUpdate cfg F' (fun k b => t k (e b)) (fun b => tStart (e b)) (fun b => yStart (e b)) (fun b => guess (e b)) =
      (blockUpdate cfg F t tStart yStart guess).map fun r => (fun k b => r.1 k (e b), r.2) := by
  obtain ⟨h1, h2⟩ := newton_pull (pullOp e) he (blockRJ cfg.scheme F t tStart yStart)
    (blockRJ cfg.scheme F' (fun k b => t k (e b)) (fun b => tStart (e b)) (fun b => yStart (e b)))
    (fun J R => solve cfg.method J R) (fun J R => solve cfg.method J R) (blockRJ_pull hF cfg.scheme t tStart yStart)
    (fun J R => solve_pull e cfg.method J R) cfg.rtol cfg.atol guess cfg.miter cfg.throwOnFail
  unfold blockUpdate blockNewton
  simp only [h1, h2]
  cases (newtonChunk (blockRJ cfg.scheme F t tStart yStart) (fun J R => solve cfg.method J R) (fun x dx => x - dx)
    (fun R b => some (rowNorm (R b))) guess cfg.rtol cfg.atol cfg.miter cfg.throwOnFail).result with
  | error e => rfl
  | ok x => rfl

theorem get_pull (r : Partial β m) (k : ℕ) :
    Partial.get (fun j => (r j).map fun x b => x (e b)) k = fun b => r.get k (e b) := by
  unfold Partial.get
  cases h : r k with
  | none => simp [h]; rfl
  | some x => simp [h]

theorem initialGuess_pull (g : String) (nt n : ℕ) (r : Partial β m) (k : ℕ) :
    initialGuess g nt n (fun j => (r j).map fun x b => x (e b)) k = (initialGuess g nt n r k).map fun l => l.map fun x b => x (e b) := by
  unfold initialGuess
  by_cases h0 : g = "zero"
  · simp only [h0, Except.map, if_true, List.map_replicate]
    rfl
  · by_cases h1 : g = "previous"
    · simp only [h1, if_true]
      rw [if_neg (by decide), if_neg (show ¬("previous" = "zero") by decide)]
      simp only [Except.map, List.map_drop]
      congr 2
      by_cases h2 : (k : ℤ) - n - 1 < 0
      · rw [if_pos h2, if_pos h2, List.map_replicate]
        rfl
      · rw [if_neg h2, if_neg h2, List.map_map]
        refine List.map_congr_left fun j _ => ?_
        simp only [get_pull, Function.comp_apply]
        rfl
    · simp [h0, h1, Except.map]

/-- The state of the time loop, seen by the new batch. -/
def pullRun (e : β' → β) (r : Partial β m × Bool) : Partial β' m × Bool := (fun j => (r.1 j).map fun x b => x (e b), r.2)

theorem step_pull (he : Function.Surjective e) (hF : SameTests e F F') (cfg : Config) (nt n : ℕ)
    (t : ℕ → β → ℝ) (st : Partial β m × Bool) (k : ℕ) :
    integrateStep cfg F' nt n (fun k b => t k (e b)) (pullRun e st) k =
      (integrateStep cfg F nt n t st k).map (pullRun e) := by
  unfold integrateStep
  simp only [pullRun, initialGuess_pull]
  cases hg : initialGuess cfg.guessType nt n st.1 k with
  | error e => rfl
  | ok g =>
    simp only [Except.map, List.length_map]
    by_cases hl : g.length = sliceLen nt k n
    · simp only [hl, if_true, get_pull]
      have hgf : (flatten fun j : Fin (sliceLen nt k n) => (g.map fun (x : BVec β m ℝ) (b : β') => x (e b)).getD j.val 0) =
          fun b => (flatten fun j : Fin (sliceLen nt k n) => g.getD j.val 0 : β → Fin (sliceLen nt k n * m) → ℝ) (e b) := by
        have h : (fun j : Fin (sliceLen nt k n) => (g.map fun (x : BVec β m ℝ) (b : β') => x (e b)).getD j.val 0) =
            fun j b => g.getD j.val 0 (e b) := by
          funext j
          simp only [List.getD_eq_getElem?_getD, List.getElem?_map]
          cases g[j.val]? <;> rfl
        rw [h]
        rfl
      rw [hgf, blockUpdate_pull he hF cfg (fun j : Fin (sliceLen nt k n) => t (k + j.val))]
      cases blockUpdate cfg F (fun j : Fin (sliceLen nt k n) => t (k + j.val)) (t (k - 1)) (st.1.get (k - 1))
        (flatten fun j : Fin (sliceLen nt k n) => g.getD j.val 0) with
      | error e => rfl
      | ok r =>
        simp only [Except.map]
        congr 2
        funext j
        by_cases hj : k ≤ j ∧ j - k < sliceLen nt k n
        · simp only [hj]; rfl
        · simp only [hj]; rfl
    · simp only [hl, if_false]

theorem loop_run_pull (he : Function.Surjective e) (hF : SameTests e F F') (cfg : Config) (nt n : ℕ)
    (t : ℕ → β → ℝ) (ks : List ℕ) : ∀ st : Partial β m × Bool,
    integrateLoop cfg F' nt n (fun k b => t k (e b)) ks (pullRun e st) = (integrateLoop cfg F nt n t ks st).map (pullRun e) := by
  induction ks with
  | nil => intro st; rfl
  | cons k ks ih =>
    intro st
    unfold integrateLoop
    rw [step_pull he hF cfg nt n t st k]
    cases integrateStep cfg F nt n t st k with
    | error e => rfl
    | ok st' => exact ih st'

theorem integrate_pull (he : Function.Surjective e) (hF : SameTests e F F') (cfg : Config) (y0 : BVec β m ℝ)
    (nt : ℕ) (t : ℕ → β → ℝ) (q : ℤ) :
    integrate cfg F' (fun b => y0 (e b)) nt (fun k b => t k (e b)) q =
      (integrate cfg F y0 nt t q).map fun r => (fun j => (r.1 j).map fun x b => x (e b), r.2) := by
  unfold integrate
  by_cases h : nt = 0
  · simp [h, Except.map]
  · simp only [h, if_false]
    cases hb : blockStarts nt q with
    | error e => rfl
    | ok starts =>
      have hi : (fun j => if j = 0 then some (fun b => y0 (e b)) else none, false) =
          pullRun e ((fun j => if j = 0 then some y0 else none, false) : Partial β m × Bool) := by
        refine Prod.ext ?_ rfl
        funext j
        by_cases hj : j = 0 <;> simp [pullRun, hj]
      dsimp only
      rw [hi]
      exact loop_run_pull he hF cfg nt q.toNat t starts _

/-! ## The control modes -/

section Control

open Pyoptmat.Material Pyoptmat.Control Pyoptmat.Solvers

theorem stressSolve_pull {m : ℕ} (he : Function.Surjective e) (model : β → Model (m + 1)) (csr cs cT t : β → ℝ) (y : β → Fin (m + 1) → ℝ) :
    (stressSolve (fun b => model (e b)) (fun b => csr (e b)) (fun b => cs (e b)) (fun b => cT (e b)) (fun b => t (e b)) fun b => y (e b)).x =
      fun b => (stressSolve model csr cs cT t y).x (e b) := by
  have h := loop_pull (e := e) (fun J b => J (e b)) he (stressRJ model csr cs cT t y)
    (stressRJ (fun b => model (e b)) (fun b => csr (e b)) (fun b => cs (e b)) (fun b => cT (e b)) (fun b => t (e b)) fun b => y (e b))
    jacobiLinearSolve jacobiLinearSolve (fun x => rfl) (fun J R => rfl) 1e-6 1e-10
    (fun b => some (rowNorm ((stressRJ model csr cs cT t y 0).1 b))) (100 : ℤ).toNat 0
  exact congrArg Prod.fst h

theorem stressForward_pull {m : ℕ} (he : Function.Surjective e) (model : β → Model (m + 1)) (srate stress T : β → ℝ → ℝ) (t : β → ℝ)
    (y : β → Fin (m + 1) → ℝ) :
    stressForward (fun b => model (e b)) (fun b => srate (e b)) (fun b => stress (e b)) (fun b => T (e b)) (fun b => t (e b)) (fun b => y (e b)) =
      (fun b => (stressForward model srate stress T t y).1 (e b), fun b => (stressForward model srate stress T t y).2 (e b)) := by
  have h := stressSolve_pull he model (fun b => srate b (t b)) (fun b => stress b (t b)) (fun b => T b (t b)) t y
  unfold stressForward
  dsimp only
  rw [h]

theorem bothForward_pull {m : ℕ} (he : Function.Surjective e) (model : β → Model (m + 1)) (rate base T : β → ℝ → ℝ) (control t : β → ℝ)
    (y : β → Fin (m + 1) → ℝ) :
    bothForward (fun b => model (e b)) (fun b => rate (e b)) (fun b => base (e b)) (fun b => T (e b)) (fun b => control (e b)) (fun b => t (e b))
        (fun b => y (e b)) =
      (fun b => (bothForward model rate base T control t y).1 (e b), fun b => (bothForward model rate base T control t y).2 (e b)) := by
  have h := stressForward_pull he model rate base T t y
  unfold bothForward
  dsimp only
  rw [h]
  rfl

theorem strainFunc_pull (model : β → Model m) (nt : ℕ) (times strains temps : ℕ → β → ℝ) :
    SameTests e (Func.lift (strainFunc model nt times strains temps))
      (Func.lift (strainFunc (fun b => model (e b)) nt (fun k b => times k (e b)) (fun k b => strains k (e b)) fun k b => temps k (e b))) :=
  fun _ _ _ => rfl

theorem pairs_surjective (he : Function.Surjective e) (n : ℕ) : Function.Surjective fun p : Fin n × β' => (p.1, e p.2) := fun p => by
  obtain ⟨b, hb⟩ := he p.2
  exact ⟨(p.1, b), Prod.ext rfl hb⟩

theorem stressFunc_pull {m : ℕ} (he : Function.Surjective e) (model : β → Model (m + 1)) (nt : ℕ) (times stresses temps : ℕ → β → ℝ) :
    SameTests e (stressFunc model nt times stresses temps)
      (stressFunc (fun b => model (e b)) nt (fun k b => times k (e b)) (fun k b => stresses k (e b)) fun k b => temps k (e b)) := fun n t y => by
  have h := stressForward_pull (e := fun p : Fin n × β' => (p.1, e p.2)) (pairs_surjective he n) (fun p => model p.2)
    (fun p => rateFn nt (fun k => times k p.2) fun k => stresses k p.2) (fun p => dataFn nt (fun k => times k p.2) fun k => stresses k p.2)
    (fun p => dataFn nt (fun k => times k p.2) fun k => temps k p.2) (fun p => t p.1 p.2) (fun p => y p.1 p.2)
  unfold stressFunc
  dsimp only at h ⊢
  rw [h]

theorem bothFunc_pull {m : ℕ} (he : Function.Surjective e) (model : β → Model (m + 1)) (nt : ℕ) (times idata temps : ℕ → β → ℝ) (control : β → ℝ) :
    SameTests e (bothFunc model nt times idata temps control)
      (bothFunc (fun b => model (e b)) nt (fun k b => times k (e b)) (fun k b => idata k (e b)) (fun k b => temps k (e b))
        fun b => control (e b)) := fun n t y => by
  have h := bothForward_pull (e := fun p : Fin n × β' => (p.1, e p.2)) (pairs_surjective he n) (fun p => model p.2)
    (fun p => rateFn nt (fun k => times k p.2) fun k => idata k p.2) (fun p => dataFn nt (fun k => times k p.2) fun k => idata k p.2)
    (fun p => dataFn nt (fun k => times k p.2) fun k => temps k p.2) (fun p => control p.2) (fun p => t p.1 p.2) (fun p => y p.1 p.2)
  unfold bothFunc
  dsimp only at h ⊢
  rw [h]

end Control

/-! ## The adjoint pass -/

theorem updateAdjoint_pull (e : β' → β) (s : Scheme) (d : Direct) {n : ℕ} (dt : Fin n → β → ℝ) (J : Fin (n + 1) → Blk β m ℝ) (a : BVec β m ℝ)
    (g : Fin (n + 1) → BVec β m ℝ) :
    updateAdjoint s d (fun k b => dt k (e b)) (fun k b => J k (e b)) (fun b => a (e b)) (fun k b => g k (e b)) =
      fun k b => updateAdjoint s d dt J a g k (e b) := by
  cases s with
  | backwardEuler =>
    unfold updateAdjoint
    dsimp only
    rw [memOf_pull e (fun (k : Fin n) b => (1 : Matrix (Fin m) (Fin m) ℝ) + dt k b • (J k.castSucc b).transpose),
      memOf_pull e (fun (_ : Fin (n - 1)) (_ : β) => (-1 : Matrix (Fin m) (Fin m) ℝ)),
      memOf_pull e (fun (k : Fin n) b => g k.succ b + (dt k b • (J k.castSucc b).transpose).mulVec (g k.succ b - a b)), matvec_pull]
    funext k b
    refine Fin.cases ?_ (fun i => ?_) k <;> rfl
  | forwardEuler =>
    unfold updateAdjoint
    dsimp only
    rw [memOf_pull e (fun (_ : Fin n) (_ : β) => (1 : Matrix (Fin m) (Fin m) ℝ)),
      memOf_pull e (fun (k : Fin (n - 1)) b => dt ⟨k.val + 1, by omega⟩ b • (J (Fin.succ ⟨k.val + 1, by omega⟩) b).transpose - 1),
      memOf_pull e (fun (k : Fin n) b => g k.succ b + (dt k b • (J k.succ b).transpose).mulVec (-a b)), matvec_pull]
    funext k b
    refine Fin.cases ?_ (fun i => ?_) k <;> rfl

/-- One test of the batch on its own. -/
def alone {α : Type*} (b : β) (x : ℕ → β → α) : ℕ → Unit → α := fun k _ => x k b

variable [Fintype β]

theorem rewindStep_split (s : Scheme) (d : Direct) (f : Func β m) {p : ℕ} (fp : β → ℝ → (Fin m → ℝ) → Matrix (Fin m) (Fin p) ℝ) (nt n : ℕ)
    (t : ℕ → β → ℝ) (y g : ℕ → BVec β m ℝ) (st : β → (Fin p → ℝ) × BVec Unit m ℝ) (k : ℕ) :
    rewindStep s d f fp nt n t y g (∑ b, (st b).1, fun b => (st b).2 ()) k =
      (∑ b, (rewindStep s d (fun _ => f b) (fun _ => fp b) nt n (alone b t) (alone b y) (alone b g) (st b) k).1,
       fun b => (rewindStep s d (fun _ => f b) (fun _ => fp b) nt n (alone b t) (alone b y) (alone b g) (st b) k).2 ()) := by
  have hu : ∀ b : β, updateAdjoint s d (diff fun j : Fin (sliceLen nt k n + 1) => alone b t (k - 1 + j.val))
      (fun j _ => (f b (alone b t (k - 1 + j.val) ()) (alone b y (k - 1 + j.val) ())).2) (st b).2 (fun j => alone b g (k - 1 + j.val)) =
      fun j _ => updateAdjoint s d (diff fun j : Fin (sliceLen nt k n + 1) => t (k - 1 + j.val))
        (fun j b => (f b (t (k - 1 + j.val) b) (y (k - 1 + j.val) b)).2) (fun b => (st b).2 ()) (fun j => g (k - 1 + j.val)) j b := fun b =>
    updateAdjoint_pull (fun _ : Unit => b) s d (diff fun j : Fin (sliceLen nt k n + 1) => t (k - 1 + j.val))
        (fun j b => (f b (t (k - 1 + j.val) b) (y (k - 1 + j.val) b)).2) (fun b => (st b).2 ()) (fun j => g (k - 1 + j.val))
  unfold rewindStep
  dsimp only
  refine Prod.ext ?_ ?_
  · simp only [hu]
    cases s with
    | backwardEuler =>
      simp only [accumulate, paramPartial, Finset.univ_unique, Finset.sum_singleton]
      rw [Finset.sum_add_distrib]
      congr 1
      rw [Finset.sum_comm]
      rfl
    | forwardEuler =>
      simp only [accumulate, paramPartial, Finset.univ_unique, Finset.sum_singleton]
      rw [Finset.sum_add_distrib]
      congr 1
      rw [Finset.sum_comm]
      rfl
  · dsimp only
    funext b
    rw [hu]

theorem rewind_fold (s : Scheme) (d : Direct) (f : Func β m) {p : ℕ} (fp : β → ℝ → (Fin m → ℝ) → Matrix (Fin m) (Fin p) ℝ) (nt n : ℕ)
    (t : ℕ → β → ℝ) (y g : ℕ → BVec β m ℝ) (ks : List ℕ) : ∀ st : β → (Fin p → ℝ) × BVec Unit m ℝ,
    ks.foldl (rewindStep s d f fp nt n t y g) (∑ b, (st b).1, fun b => (st b).2 ()) =
      (∑ b, (ks.foldl (rewindStep s d (fun _ => f b) (fun _ => fp b) nt n (alone b t) (alone b y) (alone b g)) (st b)).1,
       fun b => (ks.foldl (rewindStep s d (fun _ => f b) (fun _ => fp b) nt n (alone b t) (alone b y) (alone b g)) (st b)).2 ()) := by
  induction ks with
  | nil => intro st; rfl
  | cons k ks ih =>
    intro st
    simp only [List.foldl_cons]
    rw [rewindStep_split, ih fun b => rewindStep s d (fun _ => f b) (fun _ => fp b) nt n (alone b t) (alone b y) (alone b g) (st b) k]

end Pyoptmat.Reindex
