import Verif.Proofs.TensorControl

/-! # The control modes as torch programs -/

namespace Pyoptmat.Spec

open Pyoptmat.Tensor Pyoptmat.Material

/-! ## Rates -/

theorem interpFn_congr {n : ℕ} (times : ℕ → ℝ) {v v' : ℕ → ℝ} (h : ∀ j ≤ n, v j = v' j) (t : ℝ) : Interp.interpFn n times v t = Interp.interpFn n times v' t := by
  unfold Interp.interpFn Interp.hits
  congr 1
  refine List.map_congr_left fun j hj => ?_
  have hj' := List.mem_range.1 (List.mem_of_mem_filter hj)
  unfold Interp.poss Interp.slope
  rw [h j (by omega), h (j + 1) (by omega)]

theorem rates_is {nb n : ℕ} {times data : Tensor} (ht : times.shape = [nb, n + 1]) (hd : data.shape = [nb, n + 1]) :
    ∃ r : Tensor, tRates times data = (r : TE) ∧ r.shape = [nb, n + 1] ∧ ∀ b < nb, ∀ j ≤ n, colT r b j = Control.rateData (colT times b) (colT data b) j := by
  obtain ⟨st, dt⟩ := times
  obtain ⟨sd, dd⟩ := data
  obtain rfl : st = [nb, n + 1] := ht
  obtain rfl : sd = [nb, n + 1] := hd
  have kf : ∀ da : List ℕ → ℝ, Is [nb, n] (firstFrom ((⟨[nb, n + 1], da⟩ : Tensor) : TE)) fun i => da [i.headD 0, i.tail.headD 0 + 1] := by
    intro da
    refine ⟨⟨[nb, n], fun i => da (i.dropLast ++ [i.getLastD 0 + 1])⟩, rfl, rfl, fun i hi => ?_⟩
    obtain ⟨k, j, rfl, hk, hj⟩ := valid_cons_iff.1 hi
    obtain ⟨k', j', rfl, hk', hj'⟩ := valid_cons_iff.1 hj
    cases hj'
    rfl
  have ki : ∀ da : List ℕ → ℝ, Is [nb, n] (firstInit ((⟨[nb, n + 1], da⟩ : Tensor) : TE)) da := fun da => ⟨⟨[nb, n], da⟩, rfl, rfl, fun i hi => rfl⟩
  obtain ⟨⟨sr, dr⟩, er, hs, hr⟩ := ((kf dd).sub_left (ki dd).rep).div_left ((kf dt).sub_left (ki dt).rep).rep
  obtain rfl : sr = [nb, n] := hs
  dsimp only at hr
  refine ⟨⟨[nb, 1 + n], fun i => if i.tail.headD 0 = 0 then 0 else dr [i.headD 0, i.tail.headD 0 - 1]⟩, ?_, by rw [Nat.add_comm], fun b hb j hj => ?_⟩
  · unfold tRates
    rw [er]
    change (if nb = nb then _ else _) = _
    rw [if_pos rfl]
  · change (if j = 0 then 0 else dr [b, j - 1]) = if j = 0 then 0 else (dd [b, j] - dd [b, j - 1]) / (dt [b, j] - dt [b, j - 1])
    by_cases h : j = 0
    · rw [if_pos h, if_pos h]
    · rw [if_neg h, if_neg h, hr [b, j - 1] (valid_cons.2 ⟨hb, valid_cons.2 ⟨by omega, List.Forall₂.nil⟩⟩)]
      change (dd [b, j - 1 + 1] - dd [b, j - 1]) / (dt [b, j - 1 + 1] - dt [b, j - 1]) = _
      rw [Nat.sub_add_cancel (by omega)]

/-! ## Batches of the integrator as functions -/

variable {nb q : ℕ}

/-- the points of tensors of shape `(q, nb)` -/
theorem valid_pt (p : Fin q × Fin nb) : Valid [nb, q] [p.2.val, p.1.val] := valid_cons.2 ⟨p.2.isLt, valid_cons.2 ⟨p.1.isLt, List.Forall₂.nil⟩⟩

theorem exists_pt {i : List ℕ} (h : Valid [nb, q] i) : ∃ p : Fin q × Fin nb, i = [p.2.val, p.1.val] := by
  obtain ⟨b, j, rfl, hb, hj⟩ := valid_cons_iff.1 h
  obtain ⟨k, j', rfl, hk, hj'⟩ := valid_cons_iff.1 hj
  cases hj'
  exact ⟨(⟨k, hk⟩, ⟨b, hb⟩), rfl⟩

/-- the numbers in a tensor of shape `(q, nb)` -/
def numOf (nb q : ℕ) (x : Tensor) : Fin q × Fin nb → ℝ := fun p => x.data [p.2.val, p.1.val]

/-- the vectors in a tensor of shape `(q, nb, m)` -/
def vecOf (nb q m : ℕ) (x : Tensor) : Fin q × Fin nb → Fin m → ℝ := fun p j => x.data [j.val, p.2.val, p.1.val]

/-- the matrices in a tensor of shape `(q, nb, m, m)` -/
def matOf (nb q m : ℕ) (x : Tensor) : Fin q × Fin nb → Matrix (Fin m) (Fin m) ℝ := fun p r c => x.data [c.val, r.val, p.2.val, p.1.val]

/-! ## Newton's method -/

theorem Is.diagonal {n : ℕ} {S : List ℕ} {x : TE} {f : List ℕ → ℝ} (h : Is (n :: n :: S) x f) : Is (n :: S) (Tensor.diagonal x) fun i => f (i.headD 0 :: i) := by
  obtain ⟨⟨sh, da⟩, rfl, hs, hf⟩ := h
  obtain rfl : sh = n :: n :: S := hs
  refine ⟨⟨min n n :: S, fun i => da (i.headD 0 :: i)⟩, rfl, by simp, fun i hi => ?_⟩
  obtain ⟨k, j, rfl, hk, hj⟩ := valid_cons_iff.1 hi
  exact hf _ (valid_cons.2 ⟨hk, hi⟩)

theorem norm_is {m : ℕ} {R : Tensor} (hR : R.shape = [m, nb, q]) : Is [nb, q] (normLast R) fun i => Real.sqrt (∑ j : Fin m, R.data (j.val :: i) ^ 2) := by
  have k : Is [m, nb, q] (R : TE) R.data := ⟨R, rfl, hR, fun _ _ => rfl⟩
  exact (Is.sumLast (k.map fun a => a ^ 2)).map Real.sqrt

theorem any_iff {S : List ℕ} {m : Mask} {p : List ℕ → Prop} (hs : m.shape = S) (hp : ∀ i, Valid S i → (m.data i ↔ p i)) : anyM m ↔ ∃ i, Valid S i ∧ p i := by
  constructor
  · rintro ⟨k, hk, h⟩
    rw [hs] at hk h
    exact ⟨_, unflat_valid hk, (hp _ (unflat_valid hk)).1 h⟩
  · rintro ⟨i, hi, h⟩
    refine ⟨flat S i, by rw [hs]; exact flat_lt hi, ?_⟩
    rw [hs, unflat_flat hi]
    exact (hp _ hi).2 h

/-- the function `fn` given to `newton_raphson` computes `F` on batches -/
def BatchFn (nb q : ℕ) (fn : Tensor → Except String (Tensor × Tensor)) (F : (Fin q × Fin nb → Fin 1 → ℝ) → (Fin q × Fin nb → Fin 1 → ℝ) × (Fin q × Fin nb → Matrix (Fin 1) (Fin 1) ℝ)) : Prop :=
  ∀ x : Tensor, x.shape = [1, nb, q] → ∃ R J : Tensor, fn x = .ok (R, J) ∧ R.shape = [1, nb, q] ∧ J.shape = [1, 1, nb, q] ∧
    vecOf nb q 1 R = (F (vecOf nb q 1 x)).1 ∧ matOf nb q 1 J = (F (vecOf nb q 1 x)).2

theorem newtonLoop_is {fn : Tensor → Except String (Tensor × Tensor)} {F : (Fin q × Fin nb → Fin 1 → ℝ) → (Fin q × Fin nb → Fin 1 → ℝ) × (Fin q × Fin nb → Matrix (Fin 1) (Fin 1) ℝ)}
    (hF : BatchFn nb q fn F) (rtol atol : ℝ) {nR0 : Tensor} {n0 : Fin q × Fin nb → ℝ} (h0 : nR0.shape = [nb, q]) (h0' : ∀ p, nR0.data [p.2.val, p.1.val] = n0 p) :
    ∀ (fuel : ℕ) (x R J : Tensor), x.shape = [1, nb, q] → R.shape = [1, nb, q] → J.shape = [1, 1, nb, q] →
      vecOf nb q 1 R = (F (vecOf nb q 1 x)).1 → matOf nb q 1 J = (F (vecOf nb q 1 x)).2 →
      ∃ x' J' : Tensor, tNewtonLoop fn rtol atol nR0 fuel x R J = .ok (x', J') ∧ x'.shape = [1, nb, q] ∧
        vecOf nb q 1 x' = (Newton.loop F Solvers.jacobiLinearSolve (fun x dx => x - dx) (fun r b => some (Newton.rowNorm (r b))) rtol atol (fun b => some (n0 b)) fuel (vecOf nb q 1 x)).1 := by
  intro fuel
  induction fuel with
  | zero => exact fun x R J hx hR hJ _ _ => ⟨x, J, rfl, hx, rfl⟩
  | succ fuel ih =>
    intro x R J hx hR hJ eR eJ
    obtain ⟨nR, en, hn⟩ := norm_is (nb := nb) (q := q) hR
    obtain ⟨m1, e1, hs1, hp1⟩ := cmp_is (· > ·) hn.is (Rep.num [nb, q] atol)
    obtain ⟨m2, e2, hs2, hp2⟩ := cmp_is (fun a b => rtol * b < a) hn.is (IsT.is (t := nR0) ⟨h0, fun _ _ => rfl⟩).rep
    have hnorm : ∀ p : Fin q × Fin nb, Real.sqrt (∑ j : Fin 1, R.data [j.val, p.2.val, p.1.val] ^ 2) = Newton.rowNorm ((F (vecOf nb q 1 x)).1 p) := by
      intro p
      rw [← eR]
      rfl
    have hany : (anyM m1 ∧ anyM m2) ↔ Newton.notConverged (fun b => some (Newton.rowNorm ((F (vecOf nb q 1 x)).1 b))) (fun b => some (n0 b)) rtol atol := by
      rw [any_iff hs1 hp1, any_iff hs2 hp2]
      unfold Newton.notConverged
      refine and_congr ?_ ?_
      · constructor
        · rintro ⟨i, hi, h⟩
          obtain ⟨p, rfl⟩ := exists_pt hi
          refine ⟨p, ?_⟩
          change atol < _
          rw [← hnorm p]
          exact h
        · rintro ⟨p, h⟩
          refine ⟨_, valid_pt p, ?_⟩
          change atol < _
          rw [hnorm p]
          exact h
      · constructor
        · rintro ⟨i, hi, h⟩
          obtain ⟨p, rfl⟩ := exists_pt hi
          refine ⟨p, ?_⟩
          change rtol * n0 p < _
          rw [← hnorm p, ← h0' p]
          exact h
        · rintro ⟨p, h⟩
          refine ⟨_, valid_pt p, ?_⟩
          change rtol * _ < _
          rw [hnorm p, h0' p]
          exact h
    have ev : tNewtonLoop fn rtol atol nR0 (fuel + 1) x R J = open Classical in (if anyM m1 ∧ anyM m2 then TE.bind (inplace (· - ·) x (tJacobi J R)) fun x' =>
        withPair (fn x') fun R' J' => tNewtonLoop fn rtol atol nR0 fuel x' R' J' else .ok (x, J)) := by
      rw [tNewtonLoop, en]
      change Mask.bind (cmp (· > ·) nR (num atol)) _ = _
      rw [e1]
      change Mask.bind (cmp (fun a b => rtol * b < a) nR nR0) _ = _
      rw [e2]
      rfl
    rw [ev, Newton.loop]
    by_cases hc : Newton.notConverged (fun b => some (Newton.rowNorm ((F (vecOf nb q 1 x)).1 b))) (fun b => some (n0 b)) rtol atol
    · rw [if_pos (hany.2 hc), if_pos hc]
      have kx : Is [1, nb, q] (x : TE) x.data := ⟨x, rfl, hx, fun _ _ => rfl⟩
      have kR : Is [1, nb, q] (R : TE) R.data := ⟨R, rfl, hR, fun _ _ => rfl⟩
      have kJ : Is [1, 1, nb, q] (J : TE) J.data := ⟨J, rfl, hJ, fun _ _ => rfl⟩
      obtain ⟨x', ex, hx'⟩ := kx.inplace (· - ·) (kR.div_left kJ.diagonal.rep).rep
      obtain ⟨R', J', ef, hR', hJ', eR', eJ'⟩ := hF x' hx'.1
      have evx : vecOf nb q 1 x' = vecOf nb q 1 x - Solvers.jacobiLinearSolve (F (vecOf nb q 1 x)).2 (F (vecOf nb q 1 x)).1 := by
        funext p j
        rw [← eR, ← eJ]
        exact hx'.2 [j.val, p.2.val, p.1.val] (valid_cons.2 ⟨j.isLt, valid_pt p⟩)
      obtain ⟨x'', J'', h1, h2, h3⟩ := ih x' R' J' hx'.1 hR' hJ' eR' eJ'
      refine ⟨x'', J'', ?_, h2, ?_⟩
      · unfold tJacobi
        rw [ex]
        change withPair (fn x') _ = _
        rw [ef]
        exact h1
      · rw [h3, evx]
    · rw [if_neg (fun h => hc (hany.1 h)), if_neg hc]
      exact ⟨x, J, rfl, hx, rfl⟩

theorem newton_is {fn : Tensor → Except String (Tensor × Tensor)} {F : (Fin q × Fin nb → Fin 1 → ℝ) → (Fin q × Fin nb → Fin 1 → ℝ) × (Fin q × Fin nb → Matrix (Fin 1) (Fin 1) ℝ)}
    (hF : BatchFn nb q fn F) (rtol atol : ℝ) (miter : ℕ) {x : Tensor} (hx : x.shape = [1, nb, q]) :
    ∃ x' J' : Tensor, tNewton fn x rtol atol miter = .ok (x', J') ∧ x'.shape = [1, nb, q] ∧
      vecOf nb q 1 x' = (Solvers.newtonRaphson F Solvers.jacobiLinearSolve (fun x dx => x - dx) (fun r b => some (Newton.rowNorm (r b))) (vecOf nb q 1 x) rtol atol miter).x := by
  obtain ⟨R, J, ef, hR, hJ, eR, eJ⟩ := hF x hx
  obtain ⟨nR, en, hn⟩ := norm_is (nb := nb) (q := q) hR
  obtain ⟨x', J', h1, h2, h3⟩ := newtonLoop_is hF rtol atol (nR0 := nR) (n0 := fun p => Newton.rowNorm ((F (vecOf nb q 1 x)).1 p)) hn.1
    (fun p => by rw [hn.2 _ (valid_pt p), ← eR]; rfl) miter x R J hx hR hJ eR eJ
  refine ⟨x', J', ?_, h2, h3⟩
  unfold tNewton
  rw [ef]
  change TE.bind (normLast R) _ = _
  rw [en]
  exact h1

/-! ## Assignments -/

theorem Is.setHead {n : ℕ} {S : List ℕ} {x y : TE} {f g : List ℕ → ℝ} (hx : Is ((n + 1) :: S) x f) (hy : Rep S y g) :
    Is ((n + 1) :: S) (Tensor.setHead x y) fun i => if i.headD 0 = 0 then g i.tail else f i := by
  obtain ⟨⟨sa, a⟩, rfl, hsa, hf⟩ := hx
  obtain ⟨b, rfl, hb, hg⟩ := hy
  obtain rfl : sa = (n + 1) :: S := hsa
  refine ⟨⟨(n + 1) :: S, fun i => if i.headD 0 = 0 then b.data (bidx b.shape i.tail) else a i⟩, ?_, rfl, fun i hi => ?_⟩
  · change (if bshape b.shape S = some S then _ else _) = _
    rw [if_pos hb]
  obtain ⟨k, j, rfl, hk, hj⟩ := valid_cons_iff.1 hi
  change (if k = 0 then b.data (bidx b.shape j) else a (k :: j)) = if k = 0 then g j else f (k :: j)
  split_ifs with h
  · exact hg _ hj
  · exact hf _ hi

theorem Is.firstRow {c r : ℕ} {S : List ℕ} {x : TE} {f : List ℕ → ℝ} (h : Is (c :: (r + 1) :: S) x f) :
    Is (c :: S) (Tensor.firstRow x) fun i => f (i.headD 0 :: 0 :: i.tail) := by
  obtain ⟨⟨sh, da⟩, rfl, hs, hf⟩ := h
  obtain rfl : sh = c :: (r + 1) :: S := hs
  refine ⟨⟨c :: S, fun i => da (i.headD 0 :: 0 :: i.tail)⟩, rfl, rfl, fun i hi => ?_⟩
  obtain ⟨k, j, rfl, hk, hj⟩ := valid_cons_iff.1 hi
  exact hf _ (valid_cons.2 ⟨hk, valid_cons.2 ⟨by omega, hj⟩⟩)

theorem Is.setFirstRow {c r : ℕ} {S : List ℕ} {x y : TE} {f g : List ℕ → ℝ} (hx : Is (c :: (r + 1) :: S) x f) (hy : Rep (c :: S) y g) :
    Is (c :: (r + 1) :: S) (Tensor.setFirstRow x y) fun i => if i.tail.headD 0 = 0 then g (i.headD 0 :: i.tail.tail) else f i := by
  obtain ⟨⟨sa, a⟩, rfl, hsa, hf⟩ := hx
  obtain ⟨b, rfl, hb, hg⟩ := hy
  obtain rfl : sa = c :: (r + 1) :: S := hsa
  refine ⟨⟨c :: (r + 1) :: S, fun i => if i.tail.headD 0 = 0 then b.data (bidx b.shape (i.headD 0 :: i.tail.tail)) else a i⟩, ?_, rfl, fun i hi => ?_⟩
  · change (if bshape b.shape (c :: S) = some (c :: S) then _ else _) = _
    rw [if_pos hb]
  obtain ⟨k, j, rfl, hk, hj⟩ := valid_cons_iff.1 hi
  obtain ⟨k', j', rfl, hk', hj'⟩ := valid_cons_iff.1 hj
  change (if k' = 0 then b.data (bidx b.shape (k :: j')) else a (k :: k' :: j')) = if k' = 0 then g (k :: j') else f (k :: k' :: j')
  split_ifs with h
  · exact hg _ (valid_cons.2 ⟨hk, hj'⟩)
  · exact hf _ hi

theorem Is.zeroFirstColumn {c r : ℕ} {S : List ℕ} {x : TE} {f : List ℕ → ℝ} (h : Is ((c + 1) :: r :: S) x f) :
    Is ((c + 1) :: r :: S) (Tensor.zeroFirstColumn x) fun i => if i.headD 0 = 0 then 0 else f i := by
  obtain ⟨⟨sh, da⟩, rfl, hs, hf⟩ := h
  obtain rfl : sh = (c + 1) :: r :: S := hs
  refine ⟨⟨(c + 1) :: r :: S, fun i => if i.headD 0 = 0 then 0 else da i⟩, rfl, rfl, fun i hi => ?_⟩
  obtain ⟨k, j, rfl, hk, hj⟩ := valid_cons_iff.1 hi
  change (if k = 0 then 0 else da (k :: j)) = if k = 0 then 0 else f (k :: j)
  split_ifs with h
  · rfl
  · exact hf _ hi

open Classical in
theorem Is.copyWhere {k n : ℕ} {S : List ℕ} {x z : TE} {f g : List ℕ → ℝ} {m : Mask} (hm : m.shape = [n]) (hS : S[k]? = some n) (hx : Is S x f) (hz : Is S z g) :
    Is S (Tensor.copyWhere k m x z) fun i => if m.data [i.getD k 0] then g i else f i := by
  obtain ⟨⟨sa, a⟩, rfl, hsa, hf⟩ := hx
  obtain ⟨⟨sc, c⟩, rfl, hsc, hg⟩ := hz
  obtain ⟨sm, dm⟩ := m
  obtain rfl : sm = [n] := hm
  obtain rfl : sa = S := hsa
  obtain rfl : sc = sa := hsc
  refine ⟨⟨sc, fun i => if dm [i.getD k 0] then c i else a i⟩, ?_, rfl, fun i hi => ?_⟩
  · change (match [n], sc[k]? with | [n], some n' => _ | _, _ => _) = _
    rw [hS]
    change (if n = n ∧ sc = sc then _ else _) = _
    rw [if_pos ⟨rfl, rfl⟩]
  · dsimp only at hf hg ⊢
    rw [hf i hi, hg i hi]

/-! ## The control modes -/

/-- `g`, called with the tensor `t` of times, gives at every point `p` what `G p` gives for the time there -/
def TimeFn (nb q : ℕ) (g : Tensor → TE) (t : Tensor) (G : Fin q × Fin nb → ℝ → ℝ) : Prop :=
  ∃ r : Tensor, g t = (r : TE) ∧ r.shape = [nb, q] ∧ ∀ p, r.data [p.2.val, p.1.val] = G p (numOf nb q t p)

/-- a model called with tensors, in terms of points -/
theorem model_call {D : Set ℝ} {m : ℕ} {M : Tensor → Tensor → Tensor → Tensor → Except String TOut} {L : ℕ → Model m} (hM : ModelIs [nb, q] D M fun i => L (i.headD 0))
    {t y e T : Tensor} (ht : t.shape = [nb, q]) (hy : y.shape = [m, nb, q]) (he : e.shape = [nb, q]) (hT : T.shape = [nb, q]) (hD : ∀ p, numOf nb q T p ∈ D) :
    ∃ o : TOut, M t y e T = .ok o ∧ o.ydot.shape = [m, nb, q] ∧ o.J.shape = [m, m, nb, q] ∧ o.Je.shape = [m, nb, q] ∧
      ∀ p : Fin q × Fin nb, let out := L p.2.val (numOf nb q t p) (vecOf nb q m y p) (numOf nb q e p) (numOf nb q T p)
        vecOf nb q m o.ydot p = out.ydot ∧ matOf nb q m o.J p = out.J ∧ vecOf nb q m o.Je p = out.Je := by
  obtain ⟨o, ho, h1, h2, h3, -⟩ := hM t t.data y (fun i j => y.data (j.val :: i)) e e.data T T.data ⟨ht, fun _ _ => rfl⟩ ⟨hy, fun _ _ _ => rfl⟩
    ⟨he, fun _ _ => rfl⟩ ⟨⟨hT, fun _ _ => rfl⟩, fun i hi => by obtain ⟨p, rfl⟩ := exists_pt hi; exact hD p⟩
  refine ⟨o, ho, h1.1, h2.1, h3.1, fun p => ⟨?_, ?_, ?_⟩⟩
  · funext j; exact h1.2 _ (valid_pt p) j
  · funext r c; exact h2.2 _ (valid_pt p) r c
  · funext j; exact h3.2 _ (valid_pt p) j

theorem strainBased_is {D : Set ℝ} {m : ℕ} {M : Tensor → Tensor → Tensor → Tensor → Except String TOut} {L : ℕ → Model m} (hM : ModelIs [nb, q] D M fun i => L (i.headD 0))
    {erateFn TFn : Tensor → TE} {t y : Tensor} {E T : Fin q × Fin nb → ℝ → ℝ} (ht : t.shape = [nb, q]) (hy : y.shape = [m, nb, q]) (hE : TimeFn nb q erateFn t E)
    (hT : TimeFn nb q TFn t T) (hD : ∀ p, T p (numOf nb q t p) ∈ D) :
    ∃ R J : Tensor, tStrainBased M erateFn TFn t y = .ok (R, J) ∧ R.shape = [m, nb, q] ∧ J.shape = [m, m, nb, q] ∧
      (vecOf nb q m R, matOf nb q m J) = Control.strainForward (fun p : Fin q × Fin nb => L p.2.val) E T (numOf nb q t) (vecOf nb q m y) := by
  obtain ⟨e, he, hes, he'⟩ := hE
  obtain ⟨τ, hτ, hτs, hτ'⟩ := hT
  obtain ⟨o, ho, h1, h2, -, h3⟩ := model_call hM ht hy hes hτs (fun p => by unfold numOf; rw [hτ' p]; exact hD p)
  refine ⟨o.ydot, o.J, ?_, h1, h2, ?_⟩
  · unfold tStrainBased
    rw [he, hτ]
    simp only [TE.bind_ok]
    rw [ho]
    rfl
  · refine Prod.ext (funext fun p => ?_) (funext fun p => ?_)
    · change vecOf nb q m o.ydot p = _
      rw [(h3 p).1, show numOf nb q e p = _ from he' p, show numOf nb q τ p = _ from hτ' p]
      rfl
    · change matOf nb q m o.J p = _
      rw [(h3 p).2.1, show numOf nb q e p = _ from he' p, show numOf nb q τ p = _ from hτ' p]
      rfl

theorem stressBased_is {D : Set ℝ} {m : ℕ} {M : Tensor → Tensor → Tensor → Tensor → Except String TOut} {L : ℕ → Model (m + 1)} (hM : ModelIs [nb, q] D M fun i => L (i.headD 0))
    {srateFn stressFn TFn : Tensor → TE} {t y : Tensor} {SR SS T : Fin q × Fin nb → ℝ → ℝ} (ht : t.shape = [nb, q]) (hy : y.shape = [m + 1, nb, q]) (hR : TimeFn nb q srateFn t SR)
    (hS : TimeFn nb q stressFn t SS) (hT : TimeFn nb q TFn t T) (hD : ∀ p, T p (numOf nb q t p) ∈ D) :
    ∃ R J : Tensor, tStressBased M srateFn stressFn TFn t y = .ok (R, J) ∧ R.shape = [m + 1, nb, q] ∧ J.shape = [m + 1, m + 1, nb, q] ∧
      (vecOf nb q (m + 1) R, matOf nb q (m + 1) J) = Control.stressForward (fun p : Fin q × Fin nb => L p.2.val) SR SS T (numOf nb q t) (vecOf nb q (m + 1) y) := by
  obtain ⟨csr, hr, hrs, hr'⟩ := hR
  obtain ⟨cs, hs, hss, hs'⟩ := hS
  obtain ⟨τ, hτ, hτs, hτ'⟩ := hT
  have hτD : ∀ p, numOf nb q τ p ∈ D := fun p => by unfold numOf; rw [hτ' p]; exact hD p
  have ky : Is [m + 1, nb, q] (y : TE) y.data := ⟨y, rfl, hy, fun _ _ => rfl⟩
  have kc : Is [nb, q] (cs : TE) cs.data := ⟨cs, rfl, hss, fun _ _ => rfl⟩
  obtain ⟨yp, eyp, hyp⟩ := ky.setHead kc.rep
  have vyp : ∀ p, vecOf nb q (m + 1) yp p = Control.imposed (SS p (numOf nb q t p)) (vecOf nb q (m + 1) y p) := by
    intro p
    funext j
    have h := hyp.2 [j.val, p.2.val, p.1.val] (valid_cons.2 ⟨j.isLt, valid_pt p⟩)
    refine h.trans ?_
    change (if j.val = 0 then cs.data [p.2.val, p.1.val] else vecOf nb q (m + 1) y p j) = _
    unfold Control.imposed
    by_cases hj : j = 0
    · subst hj
      simp [hs' p]
    · rw [if_neg (show ¬ j.val = 0 from fun h => hj (Fin.ext h)), Function.update_of_ne hj]
  -- the model at a strain rate
  have call : ∀ x : Tensor, x.shape = [1, nb, q] → ∃ (er : Tensor) (o : TOut), sel 0 (x : TE) = (er : TE) ∧ er.shape = [nb, q] ∧ M t yp er τ = .ok o ∧
      o.ydot.shape = [m + 1, nb, q] ∧ o.J.shape = [m + 1, m + 1, nb, q] ∧ o.Je.shape = [m + 1, nb, q] ∧ (∀ p, er.data [p.2.val, p.1.val] = vecOf nb q 1 x p 0) ∧
      ∀ p : Fin q × Fin nb, let out := L p.2.val (numOf nb q t p) (Control.imposed (SS p (numOf nb q t p)) (vecOf nb q (m + 1) y p)) (vecOf nb q 1 x p 0) (T p (numOf nb q t p))
        vecOf nb q (m + 1) o.ydot p = out.ydot ∧ matOf nb q (m + 1) o.J p = out.J ∧ vecOf nb q (m + 1) o.Je p = out.Je := by
    intro x hx
    obtain ⟨er, eer, her⟩ := (IsT.is (t := x) (f := x.data) ⟨hx, fun _ _ => rfl⟩).sel 0 (by omega)
    obtain ⟨o, ho, h1, h2, h3, h4⟩ := model_call hM ht hyp.1 her.1 hτs hτD
    refine ⟨er, o, eer, her.1, ho, h1, h2, h3, fun p => her.2 _ (valid_pt p), fun p => ?_⟩
    have h := h4 p
    rw [vyp p, show numOf nb q er p = _ from her.2 _ (valid_pt p), show numOf nb q τ p = _ from hτ' p] at h
    exact h
  have hF : BatchFn nb q (tStressRJ M csr cs τ t y) (Control.stressRJ (fun p : Fin q × Fin nb => L p.2.val) (fun p => SR p (numOf nb q t p)) (fun p => SS p (numOf nb q t p))
      (fun p => T p (numOf nb q t p)) (numOf nb q t) (vecOf nb q (m + 1) y)) := by
    intro x hx
    obtain ⟨er, o, e1, -, e2, h1, h2, h3, -, h4⟩ := call x hx
    have k1 : Is [m + 1, nb, q] (o.ydot : TE) o.ydot.data := ⟨_, rfl, h1, fun _ _ => rfl⟩
    have k3 : Is [m + 1, nb, q] (o.Je : TE) o.Je.data := ⟨_, rfl, h3, fun _ _ => rfl⟩
    have kr : Is [nb, q] (csr : TE) csr.data := ⟨_, rfl, hrs, fun _ _ => rfl⟩
    obtain ⟨R, eR, hR⟩ := ((k1.sel 0 (by omega)).sub_left kr.rep).unsq
    obtain ⟨J, eJ, hJ⟩ := (k3.sel 0 (by omega)).unsq.unsq
    refine ⟨R, J, ?_, hR.1, hJ.1, ?_, ?_⟩
    · unfold tStressRJ
      rw [eyp]
      simp only [TE.bind_ok]
      rw [e1]
      simp only [TE.bind_ok]
      rw [e2]
      change pair _ _ = _
      rw [eR, eJ]
      rfl
    · funext p j
      have h := hR.2 [j.val, p.2.val, p.1.val] (valid_cons.2 ⟨j.isLt, valid_pt p⟩)
      refine h.trans ?_
      change vecOf nb q (m + 1) o.ydot p 0 - csr.data [p.2.val, p.1.val] = _
      rw [(h4 p).1, hr' p]
      rfl
    · funext p r c
      have h := hJ.2 [c.val, r.val, p.2.val, p.1.val] (valid_cons.2 ⟨c.isLt, valid_cons.2 ⟨r.isLt, valid_pt p⟩⟩)
      refine h.trans ?_
      change vecOf nb q (m + 1) o.Je p 0 = _
      rw [(h4 p).2.2]
      rfl
  obtain ⟨g, eg, hg⟩ : Is [1, nb, q] (TE.bind (sel 0 (y : TE)) fun y0 => unsq (full y0.shape 0)) fun _ => 0 := by
    obtain ⟨y0, e0, h0⟩ := ky.sel 0 (by omega)
    rw [e0]
    simp only [TE.bind_ok]
    rw [h0.1]
    exact (Is.full [nb, q] 0).unsq
  obtain ⟨x, J0, eN, hx, vx⟩ := newton_is hF 1e-6 1e-10 100 hg.1
  have vg : vecOf nb q 1 g = 0 := by
    funext p j
    exact hg.2 [j.val, p.2.val, p.1.val] (valid_cons.2 ⟨j.isLt, valid_pt p⟩)
  rw [vg] at vx
  obtain ⟨er, o, e1, hers, e2, h1, h2, h3, her, h4⟩ := call x hx
  have k1 : Is [m + 1, nb, q] (o.ydot : TE) o.ydot.data := ⟨_, rfl, h1, fun _ _ => rfl⟩
  have k2 : Is [m + 1, m + 1, nb, q] (o.J : TE) o.J.data := ⟨_, rfl, h2, fun _ _ => rfl⟩
  have k3 : Is [m + 1, nb, q] (o.Je : TE) o.Je.data := ⟨_, rfl, h3, fun _ _ => rfl⟩
  have ke : Is [nb, q] (er : TE) er.data := ⟨_, rfl, hers, fun _ _ => rfl⟩
  obtain ⟨R, eR, hR⟩ := k1.setHead ke.rep
  obtain ⟨J, eJ, hJ⟩ := (k2.setFirstRow (k2.firstRow.neg.div_left ((k3.sel 0 (by omega)).rep.unsq (m + 1))).rep).zeroFirstColumn
  refine ⟨R, J, ?_, hR.1, hJ.1, ?_⟩
  · unfold tStressBased
    rw [hr, hs, hτ]
    simp only [TE.bind_ok]
    rw [eg]
    simp only [TE.bind_ok]
    rw [eN]
    change TE.bind (Tensor.setHead y cs) _ = _
    rw [eyp]
    simp only [TE.bind_ok]
    rw [e1]
    simp only [TE.bind_ok]
    rw [e2]
    change pair _ _ = _
    rw [eR, eJ]
    rfl
  · have vx' : ∀ p, vecOf nb q 1 x p 0 = (Control.stressSolve (fun p : Fin q × Fin nb => L p.2.val) (fun p => SR p (numOf nb q t p)) (fun p => SS p (numOf nb q t p))
        (fun p => T p (numOf nb q t p)) (numOf nb q t) (vecOf nb q (m + 1) y)).x p 0 := fun p => by rw [vx]; rfl
    refine Prod.ext (funext fun p => funext fun j => ?_) (funext fun p => funext fun r => funext fun c => ?_)
    · have h := hR.2 [j.val, p.2.val, p.1.val] (valid_cons.2 ⟨j.isLt, valid_pt p⟩)
      refine h.trans ?_
      change (if j.val = 0 then er.data [p.2.val, p.1.val] else vecOf nb q (m + 1) o.ydot p j) = _
      rw [her p, (h4 p).1, vx' p]
      simp only [Control.stressForward, Control.stressOut]
      by_cases hj : j = 0
      · subst hj
        simp
      · rw [if_neg (show ¬ j.val = 0 from fun h => hj (Fin.ext h)), Function.update_of_ne hj]
    · have h := hJ.2 [c.val, r.val, p.2.val, p.1.val] (valid_cons.2 ⟨c.isLt, valid_cons.2 ⟨r.isLt, valid_pt p⟩⟩)
      refine h.trans ?_
      change (if c.val = 0 then 0 else if r.val = 0 then -matOf nb q (m + 1) o.J p 0 c / vecOf nb q (m + 1) o.Je p 0 else matOf nb q (m + 1) o.J p r c) = _
      rw [(h4 p).2.1, (h4 p).2.2, vx' p]
      simp only [Control.stressForward, Control.stressOut, Control.stressJac]
      by_cases hc : c = 0
      · subst hc; simp
      · rw [if_neg (show ¬ c.val = 0 from fun h => hc (Fin.ext h)), if_neg hc]
        by_cases hr : r = 0
        · subst hr; simp
        · rw [if_neg (show ¬ r.val = 0 from fun h => hr (Fin.ext h)), if_neg hr]

theorem bothBased_is {D : Set ℝ} {m : ℕ} {M : Tensor → Tensor → Tensor → Tensor → Except String TOut} {L : ℕ → Model (m + 1)} (hM : ModelIs [nb, q] D M fun i => L (i.headD 0))
    {rateFn baseFn TFn : Tensor → TE} {control t y : Tensor} {SR SS T : Fin q × Fin nb → ℝ → ℝ} (ht : t.shape = [nb, q]) (hy : y.shape = [m + 1, nb, q]) (hc : control.shape = [nb])
    (hR : TimeFn nb q rateFn t SR) (hS : TimeFn nb q baseFn t SS) (hT : TimeFn nb q TFn t T) (hD : ∀ p, T p (numOf nb q t p) ∈ D) :
    ∃ R J : Tensor, tBothBased M rateFn baseFn TFn control t y = .ok (R, J) ∧ R.shape = [m + 1, nb, q] ∧ J.shape = [m + 1, m + 1, nb, q] ∧
      (vecOf nb q (m + 1) R, matOf nb q (m + 1) J) =
        Control.bothForward (fun p : Fin q × Fin nb => L p.2.val) SR SS T (fun p => control.data [p.2.val]) (numOf nb q t) (vecOf nb q (m + 1) y) := by
  obtain ⟨er, ej, ee, he1, he2, he⟩ := strainBased_is hM ht hy hR hT hD
  obtain ⟨sr, sj, es, hs1, hs2, hs⟩ := stressBased_is hM ht hy hR hS hT hD
  have k1 : Is [m + 1, nb, q] (er : TE) er.data := ⟨_, rfl, he1, fun _ _ => rfl⟩
  have k2 : Is [m + 1, m + 1, nb, q] (ej : TE) ej.data := ⟨_, rfl, he2, fun _ _ => rfl⟩
  have k3 : Is [m + 1, nb, q] (sr : TE) sr.data := ⟨_, rfl, hs1, fun _ _ => rfl⟩
  have k4 : Is [m + 1, m + 1, nb, q] (sj : TE) sj.data := ⟨_, rfl, hs2, fun _ _ => rfl⟩
  have hm : ∀ c, (controlIs control c).shape = [nb] := fun c => hc
  obtain ⟨R, eR, hR⟩ := Is.copyWhere (k := 1) (hm 1) rfl (Is.copyWhere (k := 1) (hm 0) rfl (Is.full [m + 1, nb, q] 0) k1) k3
  obtain ⟨J, eJ, hJ⟩ := Is.copyWhere (k := 2) (hm 1) rfl (Is.copyWhere (k := 2) (hm 0) rfl (Is.full [m + 1, m + 1, nb, q] 0) k2) k4
  refine ⟨R, J, ?_, hR.1, hJ.1, ?_⟩
  · unfold tBothBased
    rw [ee]
    change withPair _ _ = _
    rw [es]
    change pair _ _ = _
    rw [he1, he2, eR, eJ]
    rfl
  · have a1 := congrArg Prod.fst he
    have a2 := congrArg Prod.snd he
    have b1 := congrArg Prod.fst hs
    have b2 := congrArg Prod.snd hs
    dsimp only at a1 a2 b1 b2
    refine Prod.ext (funext fun p => funext fun j => ?_) (funext fun p => funext fun r => funext fun c => ?_)
    · have h := hR.2 [j.val, p.2.val, p.1.val] (valid_cons.2 ⟨j.isLt, valid_pt p⟩)
      refine h.trans ?_
      unfold Control.bothForward
      dsimp only
      rw [← a1, ← b1]
      change (if control.data [p.2.val] = 1 then vecOf nb q (m + 1) sr p j else if control.data [p.2.val] = 0 then vecOf nb q (m + 1) er p j else 0) = _
      split_ifs <;> rfl
    · have h := hJ.2 [c.val, r.val, p.2.val, p.1.val] (valid_cons.2 ⟨c.isLt, valid_cons.2 ⟨r.isLt, valid_pt p⟩⟩)
      refine h.trans ?_
      unfold Control.bothForward
      dsimp only
      rw [← a2, ← b2]
      change (if control.data [p.2.val] = 1 then matOf nb q (m + 1) sj p r c else if control.data [p.2.val] = 0 then matOf nb q (m + 1) ej p r c else 0) = _
      split_ifs <;> rfl

end Pyoptmat.Spec
