import Verif.Proofs.TensorFirst
import Verif.Proofs.Layout
import Verif.Spec.TensorOde

/-! # `chunktime.py` as a torch program -/

namespace Pyoptmat.Spec

open Pyoptmat.Tensor Pyoptmat.Chunktime Pyoptmat.Ode

variable {nb m n : ℕ}

/-- the vectors in a tensor of shape `(nb, N)` -/
def flatOf (nb N : ℕ) (x : Tensor) : Fin nb → Fin N → ℝ := fun b i => x.data [i.val, b.val]

theorem self_is {S : List ℕ} {x : Tensor} (h : x.shape = S) : Is S (x : TE) x.data := ⟨x, rfl, h, fun _ _ => rfl⟩

/-- the operator `J` has the blocks of `op` -/
structure OpIs (nb m n : ℕ) (J : TBidiag) (op : BidiagOp (Fin nb) n m ℝ) : Prop where
  shapeA : J.A.shape = [m, m, nb, n]
  shapeB : J.B.shape = [m, m, nb, n - 1]
  A : blksOf nb m n J.A = op.A
  B : blksOf nb m (n - 1) J.B = op.B

theorem OpIs.sizes {J : TBidiag} {op : BidiagOp (Fin nb) n m ℝ} (h : OpIs nb m n J op) : J.sizes = (n, nb, m) := by
  unfold TBidiag.sizes
  rw [h.shapeA]

/-! ## Layout -/

theorem flatten_is {x : TE} {f : List ℕ → ℝ} {V : Fin n → BVec (Fin nb) m ℝ} (h : Is [m, nb, n] x f) (hV : ∀ (k : Fin n) (b : Fin nb) (j : Fin m), f [j.val, b.val, k.val] = V k b j) :
    ∃ t : Tensor, flattenFrom1 (swapFirst x) = (t : TE) ∧ t.shape = [n * m, nb] ∧ flatOf nb (n * m) t = flatten V := by
  obtain ⟨t, e, hs, ht⟩ := h.swapFirst.flattenFrom1
  refine ⟨t, e, hs, ?_⟩
  funext b i
  have h := ht [i.val, b.val] (mk2 i.isLt b.isLt)
  refine h.trans ?_
  exact hV i.divNat b i.modNat

theorem unflatten_is {dy : Tensor} (h : dy.shape = [n * m, nb]) :
    Is [m, nb, n] (swapFirst (reshape [m, n, nb] (dy : TE))) fun i => dy.data [i.getD 0 0 + m * i.getD 2 0, i.getD 1 0] := (self_is h).reshape3.swapFirst

theorem unflatten_entry (dy : Tensor) (k : Fin n) (b : Fin nb) (j : Fin m) : dy.data [j.val + m * k.val, b.val] = unflatten (flatOf nb (n * m) dy) k b j := rfl

/-! ## Linear solves -/

theorem luSolve_is {A v : TE} {f g : List ℕ → ℝ} (hA : Is [m, m, nb] A f) (hv : Is [1, m, nb] v g) : ∃ t : Tensor, luSolveT A v = (t : TE) ∧ t.shape = [1, m, nb] ∧
    ∀ (b : Fin nb) (r : Fin m), t.data [0, r.val, b.val] = luSolve (β := Fin nb) (fun b r c => f [c.val, r.val, b.val]) (fun b r => g [0, r.val, b.val]) b r := by
  obtain ⟨⟨sa, a⟩, rfl, hsa, hf⟩ := hA
  obtain ⟨⟨sv, w⟩, rfl, hsv, hg⟩ := hv
  obtain rfl : sa = [m, m, nb] := hsa
  obtain rfl : sv = [1, m, nb] := hsv
  refine ⟨⟨[1, m, nb], fun i => if h : i.tail.headD 0 < m then
        ∑ q : Fin m, (squareAt m ⟨[m, m, nb], a⟩ (i.tail.tail.headD 0))⁻¹ ⟨i.tail.headD 0, h⟩ q * w [i.headD 0, q.val, i.tail.tail.headD 0] else 0⟩, ?_, rfl, fun b r => ?_⟩
  · change (if m = m ∧ m = m ∧ nb = nb then _ else _) = _
    exact if_pos ⟨rfl, rfl, rfl⟩
  · change (if h : r.val < m then ∑ q : Fin m, (squareAt m ⟨[m, m, nb], a⟩ b.val)⁻¹ ⟨r.val, h⟩ q * w [0, q.val, b.val] else 0) = _
    rw [dif_pos r.isLt]
    have e1 : squareAt m ⟨[m, m, nb], a⟩ b.val = fun r c => f [c.val, r.val, b.val] := by
      funext r c
      exact hf _ (mk3 c.isLt r.isLt b.isLt)
    rw [e1]
    unfold luSolve Matrix.mulVec dotProduct
    refine Finset.sum_congr rfl fun q _ => ?_
    rw [show w [0, q.val, b.val] = g [0, q.val, b.val] from hg _ (mk3 (by omega) q.isLt b.isLt)]

theorem bmm_is {A v : TE} {f g : List ℕ → ℝ} (hA : Is [m, m, nb] A f) (hv : Is [1, m, nb] v g) :
    Is [1, m, nb] (bmmT A v) fun i => ∑ q : Fin m, f [q.val, i.tail.headD 0, i.tail.tail.headD 0] * g [i.headD 0, q.val, i.tail.tail.headD 0] := by
  obtain ⟨⟨sa, a⟩, rfl, hsa, hf⟩ := hA
  obtain ⟨⟨sv, w⟩, rfl, hsv, hg⟩ := hv
  obtain rfl : sa = [m, m, nb] := hsa
  obtain rfl : sv = [1, m, nb] := hsv
  refine ⟨⟨[1, m, nb], fun i => ∑ q : Fin m, a [q.val, i.tail.headD 0, i.tail.tail.headD 0] * w [i.headD 0, q.val, i.tail.tail.headD 0]⟩, ?_, rfl, fun i hi => ?_⟩
  · change (if m = m ∧ nb = nb then _ else _) = _
    exact if_pos ⟨rfl, rfl⟩
  · obtain ⟨p, q, r, rfl, hp, hq, hr⟩ := valid3 hi
    change ∑ s : Fin m, a [s.val, q, r] * w [p, s.val, r] = ∑ s : Fin m, f [s.val, q, r] * g [p, s.val, r]
    refine Finset.sum_congr rfl fun s _ => ?_
    exact congrArg₂ (· * ·) (hf [s.val, q, r] (mk3 s.isLt hq hr)) (hg [p, s.val, r] (mk3 hp s.isLt hr))

/-- the right hand side `v` of shape `(n, nb, m, 1)` holds the blocks `mem` -/
def RhsIs (nb m n : ℕ) (v : TE) (mem : Mem (BVec (Fin nb) m ℝ)) : Prop :=
  ∃ t : Tensor, v = (t : TE) ∧ t.shape = [1, m, nb, n] ∧ ∀ k < n, rhsAt nb m t k = mem k

theorem set_rhs {v y : TE} {mem : Mem (BVec (Fin nb) m ℝ)} (hv : RhsIs nb m n v mem) {i : ℕ} (hi : i < n) {t : Tensor} (ey : y = (t : TE)) (hs : t.shape = [1, m, nb]) {w : BVec (Fin nb) m ℝ}
    (hw : ∀ (b : Fin nb) (r : Fin m), t.data [0, r.val, b.val] = w b r) : RhsIs nb m n (setFirst i v y) (Function.update mem i w) := by
  obtain ⟨x, rfl, hx, hm⟩ := hv
  subst ey
  obtain ⟨z, ez, hz, hd⟩ := Is.setFirst (S := [1, m, nb]) i (self_is hx) hi (self_is hs).rep
  refine ⟨z, ez, hz, fun k hk => ?_⟩
  funext b r
  have h := hd [0, r.val, b.val, k] (mk4 (by omega) r.isLt b.isLt hk)
  refine h.trans ?_
  change (if k = i then t.data [0, r.val, b.val] else rhsAt nb m x k b r) = _
  by_cases e : k = i
  · subst e
    rw [if_pos rfl, hw, Function.update_self]
  · rw [if_neg e, hm k hk, Function.update_of_ne e]

theorem rhs_first {v : TE} {mem : Mem (BVec (Fin nb) m ℝ)} (hv : RhsIs nb m n v mem) {i : ℕ} (hi : i < n) : ∃ g, Is [1, m, nb] (first i v) g ∧
    (fun (b : Fin nb) (r : Fin m) => g [0, r.val, b.val]) = mem i := by
  obtain ⟨x, rfl, hx, hm⟩ := hv
  exact ⟨_, Is.first (S := [1, m, nb]) i (self_is hx) hi, hm i hi⟩

theorem blk_first {x : Tensor} {N : ℕ} (hx : x.shape = [m, m, nb, N]) {A : Fin N → Blk (Fin nb) m ℝ} (h : blksOf nb m N x = A) {i : ℕ} (hi : i < N) : ∃ f, Is [m, m, nb] (first i (x : TE)) f ∧
    (fun (b : Fin nb) (r c : Fin m) => f [c.val, r.val, b.val]) = (memOf A i : Blk (Fin nb) m ℝ) := by
  refine ⟨_, Is.first (S := [m, m, nb]) i (self_is hx) hi, ?_⟩
  rw [memOf_apply _ _ hi, ← h]
  rfl

theorem thomas_step {J : TBidiag} {op : BidiagOp (Fin nb) n m ℝ} (hJ : OpIs nb m n J op) {v : TE} {mem : Mem (BVec (Fin nb) m ℝ)} (hv : RhsIs nb m n v mem) {i : ℕ} (h1 : 1 ≤ i) (hi : i < n) :
    RhsIs nb m n (setFirst i v (luSolveT (first i (J.A : TE)) (first i v - bmmT (first (i - 1) (J.B : TE)) (first (i - 1) v)))) (thomasStep (memOf op.A) (memOf op.B) mem i) := by
  obtain ⟨fA, hA, eA⟩ := blk_first hJ.shapeA hJ.A hi
  obtain ⟨fB, hB, eB⟩ := blk_first hJ.shapeB hJ.B (i := i - 1) (by omega)
  obtain ⟨g, hg, eg⟩ := rhs_first hv hi
  obtain ⟨g', hg', eg'⟩ := rhs_first hv (i := i - 1) (by omega)
  obtain ⟨t, et, hs, ht⟩ := luSolve_is hA (hg.sub_left (bmm_is hB hg').rep)
  unfold thomasStep
  refine set_rhs hv hi et hs fun b r => ?_
  rw [ht b r, eA, ← eB, ← eg, ← eg']
  rfl

theorem thomas_loop {J : TBidiag} {op : BidiagOp (Fin nb) n m ℝ} (hJ : OpIs nb m n J op) : ∀ (is : List ℕ) (v : TE) (mem : Mem (BVec (Fin nb) m ℝ)), (∀ i ∈ is, 1 ≤ i ∧ i < n) →
    RhsIs nb m n v mem → RhsIs nb m n (tThomasLoop (J.A : TE) (J.B : TE) is v) (is.foldl (thomasStep (memOf op.A) (memOf op.B)) mem)
  | [], _, _, _, h => h
  | i :: is, _, _, hi, h => thomas_loop hJ is _ _ (fun k hk => hi k (List.mem_cons_of_mem _ hk)) (thomas_step hJ h (hi i List.mem_cons_self).1 (hi i List.mem_cons_self).2)

theorem thomas_is (hn : 0 < n) {J : TBidiag} {op : BidiagOp (Fin nb) n m ℝ} (hJ : OpIs nb m n J op) {v : TE} {mem : Mem (BVec (Fin nb) m ℝ)} (hv : RhsIs nb m n v mem) :
    RhsIs nb m n (tThomas n (J.A : TE) (J.B : TE) v) (thomasSolve n (memOf op.A) (memOf op.B) mem) := by
  unfold tThomas thomasSolve
  refine thomas_loop hJ _ _ _ (fun i hi => ?_) ?_
  · rw [List.mem_range'_1] at hi
    omega
  · obtain ⟨fA, hA, eA⟩ := blk_first hJ.shapeA hJ.A hn
    obtain ⟨g, hg, eg⟩ := rhs_first hv hn
    obtain ⟨t, et, hs, ht⟩ := luSolve_is hA hg
    refine set_rhs hv hn et hs fun b r => ?_
    rw [ht b r, eA, ← eg]

theorem matvec_is (hn : 0 < n) (d : Direct) {J : TBidiag} {op : BidiagOp (Fin nb) n m ℝ} (hJ : OpIs nb m n J op) {v : TE} {V : Fin n → BVec (Fin nb) m ℝ}
    (hv : RhsIs nb m n v (memOf V)) : RhsIs nb m n (tMatvec d J v) (d.matvec n (memOf op.A) (memOf op.B) (memOf V)).ret := by
  have key : ∀ d' : Direct, RhsIs nb m n (TE.bind v fun w =>
    if w.shape = [1, J.sizes.2.2, J.sizes.2.1, J.sizes.1] then
      ((⟨w.shape, fun i =>
        if h : i.tail.headD 0 < J.sizes.2.2 ∧ i.tail.tail.headD 0 < J.sizes.2.1 then
          (d'.matvec J.sizes.1 (fun k => if k < J.sizes.1 then blocksAt J.sizes.2.1 J.sizes.2.2 J.A k else 0)
            (fun k => if k < J.sizes.1 - 1 then blocksAt J.sizes.2.1 J.sizes.2.2 J.B k else 0)
            (fun k => if k < J.sizes.1 then rhsAt J.sizes.2.1 J.sizes.2.2 w k else 0)).ret (i.getLastD 0) ⟨i.tail.tail.headD 0, h.2⟩ ⟨i.tail.headD 0, h.1⟩
        else 0⟩ : Tensor) : TE)
    else (Except.error "RuntimeError: not modelled: other shapes" : TE)) (d'.matvec n (memOf op.A) (memOf op.B) (memOf V)).ret := by
    intro d'
    obtain ⟨w, rfl, hw, hm⟩ := hv
    rw [hJ.sizes]
    dsimp only
    refine ⟨_, if_pos hw, hw, fun k hk => ?_⟩
    funext b r
    have e1 : (fun k => if k < n then blocksAt nb m J.A k else 0) = memOf op.A := by
      funext k
      unfold memOf
      by_cases h : k < n
      · rw [if_pos h, dif_pos h, ← hJ.A]; rfl
      · rw [if_neg h, dif_neg h]
    have e2 : (fun k => if k < n - 1 then blocksAt nb m J.B k else 0) = memOf op.B := by
      funext k
      unfold memOf
      by_cases h : k < n - 1
      · rw [if_pos h, dif_pos h, ← hJ.B]; rfl
      · rw [if_neg h, dif_neg h]
    have e3 : (fun k => if k < n then rhsAt nb m w k else 0) = memOf V := by
      funext k
      by_cases h : k < n
      · rw [if_pos h, hm k h]
      · rw [if_neg h]; unfold memOf; rw [dif_neg h]
    change (if h : r.val < m ∧ b.val < nb then (d'.matvec n (fun k => if k < n then blocksAt nb m J.A k else 0) (fun k => if k < n - 1 then blocksAt nb m J.B k else 0)
      (fun k => if k < n then rhsAt nb m w k else 0)).ret k ⟨b.val, h.2⟩ ⟨r.val, h.1⟩ else 0) = _
    rw [dif_pos ⟨r.isLt, b.isLt⟩, e1, e2, e3]
  cases d with
  | thomas =>
    change RhsIs nb m n (tThomas J.sizes.1 (J.A : TE) (J.B : TE) v) (thomasSolve n (memOf op.A) (memOf op.B) (memOf V))
    rw [hJ.sizes]
    exact thomas_is hn hJ hv
  | pcr => exact key .pcr
  | hybrid ms => exact key (.hybrid ms)

theorem squeeze_is {a b c : ℕ} {x : TE} {f : List ℕ → ℝ} (h : Is [1, a, b, c] x f) : Is [a, b, c] (squeezeLast x) fun i => f (0 :: i) := by
  obtain ⟨⟨sh, da⟩, rfl, hs, hf⟩ := h
  obtain rfl : sh = [1, a, b, c] := hs
  exact ⟨⟨[a, b, c], fun i => da (0 :: i)⟩, rfl, rfl, fun i hi => hf _ (valid_cons.2 ⟨by omega, hi⟩)⟩

theorem forward_is (hn : 0 < n) (d : Direct) {J : TBidiag} {op : BidiagOp (Fin nb) n m ℝ} (hJ : OpIs nb m n J op) {R : Tensor} (hR : R.shape = [n * m, nb]) :
    ∃ t : Tensor, tForward d J (R : TE) = (t : TE) ∧ t.shape = [n * m, nb] ∧ flatOf nb (n * m) t = forward d op (flatOf nb (n * m) R) := by
  obtain ⟨u, eu, hus, hu⟩ := (unflatten_is (m := m) (n := n) hR).unsq
  have hv : RhsIs nb m n (unsq (swapFirst (reshape [m, n, nb] (R : TE)))) (memOf (unflatten (flatOf nb (n * m) R))) := by
    refine ⟨u, eu, hus, fun k hk => ?_⟩
    rw [memOf_apply _ _ hk]
    funext b r
    exact hu [0, r.val, b.val, k] (mk4 (by omega) r.isLt b.isLt hk)
  obtain ⟨w, ew, hws, hw⟩ := matvec_is hn d hJ hv
  unfold tForward
  rw [hJ.sizes]
  dsimp only
  rw [ew]
  exact flatten_is (squeeze_is (self_is hws)) fun k b j => congrFun (congrFun (hw k k.isLt) b) j

/-! ## Dense solves -/

/-- a tensor of shape `(nb, N, N)` holds the matrices `M` -/
def SqIs (nb N : ℕ) (x : TE) (M : Fin nb → Matrix (Fin N) (Fin N) ℝ) : Prop := ∃ t : Tensor, x = (t : TE) ∧ t.shape = [N, N, nb] ∧ ∀ b : Fin nb, squareAt N t b.val = M b

theorem setSquare_is {A y : TE} {M : Fin nb → Matrix (Fin (n * m)) (Fin (n * m)) ℝ} (hA : SqIs nb (n * m) A M) {i j : ℕ} (hi : i < n) (hj : j < n) {f : List ℕ → ℝ} (hy : Is [m, m, nb] y f)
    {blk : Blk (Fin nb) m ℝ} (hb : (fun (b : Fin nb) (r c : Fin m) => f [c.val, r.val, b.val]) = blk) :
    SqIs nb (n * m) (setSquare (i * m) ((i + 1) * m) (j * m) ((j + 1) * m) A y) (writeBlock M i j blk) := by
  obtain ⟨⟨sa, a⟩, rfl, hsa, hM⟩ := hA
  obtain ⟨⟨sy, w⟩, rfl, hsy, hf⟩ := hy
  obtain rfl : sa = [n * m, n * m, nb] := hsa
  obtain rfl : sy = [m, m, nb] := hsy
  have hle : ∀ k < n, min ((k + 1) * m) (n * m) - k * m = m := by
    intro k hk
    have : (k + 1) * m ≤ n * m := Nat.mul_le_mul_right _ hk
    rw [min_eq_left this, Nat.add_mul, Nat.one_mul]
    omega
  refine ⟨⟨[n * m, n * m, nb], fun q => if (i * m ≤ q.tail.headD 0 ∧ q.tail.headD 0 < (i + 1) * m) ∧ (j * m ≤ q.headD 0 ∧ q.headD 0 < (j + 1) * m) then
        w (bidx [m, m, nb] [q.headD 0 - j * m, q.tail.headD 0 - i * m, q.tail.tail.headD 0]) else a q⟩, ?_, rfl, fun b => ?_⟩
  · change (if bshape [m, m, nb] [min ((j + 1) * m) (n * m) - j * m, min ((i + 1) * m) (n * m) - i * m, nb] = some [min ((j + 1) * m) (n * m) - j * m, min ((i + 1) * m) (n * m) - i * m, nb]
      then _ else _) = _
    rw [hle i hi, hle j hj]
    exact if_pos (bshape_self _)
  · funext r c
    change (if (i * m ≤ r.val ∧ r.val < (i + 1) * m) ∧ (j * m ≤ c.val ∧ c.val < (j + 1) * m) then
        w (bidx [m, m, nb] [c.val - j * m, r.val - i * m, b.val]) else a [c.val, r.val, b.val]) = _
    unfold writeBlock
    by_cases h : (i * m ≤ r.val ∧ r.val < (i + 1) * m) ∧ (j * m ≤ c.val ∧ c.val < (j + 1) * m)
    · rw [if_pos h, dif_pos h, ← hb]
      have h1 : r.val - i * m < m := by have := h.1.2; rw [Nat.add_mul, Nat.one_mul] at this; omega
      have h2 : c.val - j * m < m := by have := h.2.2; rw [Nat.add_mul, Nat.one_mul] at this; omega
      rw [bidx_self (mk3 h2 h1 b.isLt)]
      exact hf _ (mk3 h2 h1 b.isLt)
    · rw [if_neg h, dif_neg h, ← hM b]
      rfl

theorem denseDiag_is {N : ℕ} (d : ℕ) {x : Tensor} (hx : x.shape = [m, m, nb, N]) {D : Fin N → Blk (Fin nb) m ℝ} (hD : blksOf nb m N x = D) : ∀ (ks : List ℕ) (A : TE)
    (M : Fin nb → Matrix (Fin (n * m)) (Fin (n * m)) ℝ), (∀ k ∈ ks, k < N ∧ k + d < n) → SqIs nb (n * m) A M →
    SqIs nb (n * m) (tDenseDiag m d (x : TE) ks A) (ks.foldl (fun A k => writeBlock A (denseRow (-(d : ℤ)) k) (denseCol (-(d : ℤ)) k) ((List.ofFn D).getD k 0)) M)
  | [], _, _, _, h => h
  | k :: ks, A, M, hk, h => by
    have hk0 := hk k List.mem_cons_self
    obtain ⟨f, hf, ef⟩ := blk_first hx hD hk0.1
    refine denseDiag_is d hx hD ks _ _ (fun i hi => hk i (List.mem_cons_of_mem _ hi)) ?_
    have e1 : denseRow (-(d : ℤ)) k = k + d := by unfold denseRow; rw [if_pos (by omega)]; simp
    have e2 : denseCol (-(d : ℤ)) k = k := by unfold denseCol; rw [if_pos (by omega)]
    have e3 : (List.ofFn D).getD k 0 = memOf D k := by
      rw [memOf_apply _ _ hk0.1, List.getD_eq_getElem _ _ (by simpa using hk0.1)]
      simp
    beta_reduce
    rw [e1, e2, e3]
    exact setSquare_is h hk0.2 (by omega) hf ef

theorem toDiag_entries (op : BidiagOp (Fin nb) n m ℝ) : op.toDiag.entries = [(-1, List.ofFn op.B), (0, List.ofFn op.A)] := by
  unfold BidiagOp.toDiag BlockDiag.mk'
  simp [List.mergeSort, List.MergeSort.Internal.splitInTwo, List.merge]

theorem dense_is {J : TBidiag} {op : BidiagOp (Fin nb) n m ℝ} (hJ : OpIs nb m n J op) : SqIs nb (n * m) (tDense J) op.dense := by
  unfold tDense BidiagOp.dense
  rw [hJ.sizes, toDiag_entries]
  dsimp only [List.foldl_cons, List.foldl_nil]
  have h0 : SqIs nb (n * m) (full [n * m, n * m, nb] 0) 0 := ⟨⟨_, fun _ => 0⟩, rfl, rfl, fun b => rfl⟩
  have h1 := denseDiag_is (n := n) 1 hJ.shapeB hJ.B (List.range (n - 1)) _ _ (fun k hk => by have := List.mem_range.1 hk; omega) h0
  exact denseDiag_is (n := n) 0 hJ.shapeA hJ.A (List.range n) _ _ (fun k hk => by have := List.mem_range.1 hk; omega) h1

theorem solve_is (hn : 0 < n) (meth : SolveMethod) {J : TBidiag} {op : BidiagOp (Fin nb) n m ℝ} (hJ : OpIs nb m n J op) {R : Tensor} (hR : R.shape = [n * m, nb]) :
    ∃ t : Tensor, tSolve meth J (R : TE) = (t : TE) ∧ t.shape = [n * m, nb] ∧ flatOf nb (n * m) t = solve meth op (flatOf nb (n * m) R) := by
  cases meth with
  | direct d => exact forward_is hn d hJ hR
  | dense =>
    obtain ⟨⟨sa, a⟩, ea, hsa, hM⟩ := dense_is hJ
    obtain ⟨sr, r⟩ := R
    obtain rfl : sa = [n * m, n * m, nb] := hsa
    obtain rfl : sr = [n * m, nb] := hR
    refine ⟨⟨[n * m, nb], fun i => if h : i.headD 0 < n * m then
        ∑ q : Fin (n * m), (squareAt (n * m) ⟨[n * m, n * m, nb], a⟩ (i.tail.headD 0))⁻¹ ⟨i.headD 0, h⟩ q * r [q.val, i.tail.headD 0] else 0⟩, ?_, rfl, ?_⟩
    · unfold tSolve
      dsimp only
      rw [ea]
      change (if n * m = n * m ∧ n * m = n * m ∧ nb = nb then _ else _) = _
      exact if_pos ⟨rfl, rfl, rfl⟩
    · funext b i
      change (if h : i.val < n * m then ∑ q : Fin (n * m), (squareAt (n * m) ⟨[n * m, n * m, nb], a⟩ b.val)⁻¹ ⟨i.val, h⟩ q * r [q.val, b.val] else 0) = _
      rw [dif_pos i.isLt, hM b]
      rfl

end Pyoptmat.Spec
