import Verif.Proofs.TensorChunk

/-! # `ode.py` as a torch program -/

namespace Pyoptmat.Spec

open Pyoptmat.Tensor Pyoptmat.Chunktime Pyoptmat.Ode

variable {nb m n : ℕ}

/-! ## The block residual -/

theorem operator_is {R A B : TE} {r a b : Tensor} (hr : R = (r : TE)) (ha : A = (a : TE)) (hb : B = (b : TE)) : operator R A B = .ok (r, ⟨a, b⟩) := by
  subst hr ha hb
  rfl

theorem eyes_is (m b n : ℕ) : Is [m, m, b, n] (eyes m b n) fun i => if i.headD 0 = i.tail.headD 0 then 1 else 0 := ⟨_, rfl, rfl, fun _ _ => rfl⟩

theorem eye_entry (r c : Fin m) : (if c.val = r.val then (1 : ℝ) else 0) = (1 : Matrix (Fin m) (Fin m) ℝ) r c := by
  rw [Matrix.one_apply]
  by_cases h : r = c
  · subst h; simp
  · rw [if_neg h, if_neg fun e => h (Fin.ext e.symm)]

theorem formOperators_is (s : Scheme) {dy yd yJ dt : Tensor} (h1 : dy.shape = [m, nb, n + 1]) (h2 : yd.shape = [m, nb, n + 1]) (h3 : yJ.shape = [m, m, nb, n + 1]) (h4 : dt.shape = [nb, n]) :
    ∃ (R : Tensor) (J : TBidiag), tFormOperators s dy yd yJ dt = .ok (R, J) ∧ R.shape = [n * m, nb] ∧
      OpIs nb m n J (formOperators s (rowsOf nb m (n + 1) dy) (rowsOf nb m (n + 1) yd) (blksOf nb m (n + 1) yJ) (timesOf nb n dt)).2 ∧
      flatOf nb (n * m) R = (formOperators s (rowsOf nb m (n + 1) dy) (rowsOf nb m (n + 1) yd) (blksOf nb m (n + 1) yJ) (timesOf nb n dt)).1 := by
  have kf : ∀ {x : Tensor}, x.shape = [m, nb, n + 1] → Is [m, nb, n] (firstFrom (x : TE)) fun i => x.data (i.dropLast ++ [i.getLastD 0 + 1]) :=
    fun h => Is.firstFrom (S := [m, nb]) (n := n + 1) (self_is h)
  have ki : ∀ {x : Tensor}, x.shape = [m, nb, n + 1] → Is [m, nb, n] (firstInit (x : TE)) x.data := fun h => Is.firstInit (S := [m, nb]) (n := n + 1) (self_is h)
  have kdt : Rep [m, nb, n] (unsq (dt : TE)) fun i => dt.data i.tail := (self_is h4).rep.unsq m
  have kdt2 : Rep [m, m, nb, n] (unsq (unsq (dt : TE))) fun i => dt.data i.tail.tail := kdt.unsq m
  cases s with
  | backwardEuler =>
    obtain ⟨R, eR, hR, vR⟩ := flatten_is (((kf h1).sub_left (ki h1).rep).sub_left ((kf h2).mul_left kdt).rep)
      (V := fun k b => rowsOf nb m (n + 1) dy k.succ b - rowsOf nb m (n + 1) dy k.castSucc b - timesOf nb n dt k b • rowsOf nb m (n + 1) yd k.succ b)
      (fun k b j => by
        change dy.data [j.val, b.val, k.val + 1] - dy.data [j.val, b.val, k.val] - yd.data [j.val, b.val, k.val + 1] * dt.data [b.val, k.val] = _
        rw [mul_comm]
        rfl)
    have kJ : Is [m, m, nb, n] (firstFrom (yJ : TE)) fun i => yJ.data (i.dropLast ++ [i.getLastD 0 + 1]) := Is.firstFrom (S := [m, m, nb]) (n := n + 1) (self_is h3)
    obtain ⟨A, eA, hA, vA⟩ := (eyes_is m nb n).sub_left (kJ.mul_left kdt2).rep
    obtain ⟨B, eB, hB, vB⟩ := (Is.firstFrom (S := [m, m, nb]) (eyes_is m nb n)).neg
    refine ⟨R, ⟨A, B⟩, ?_, hR, ⟨hA, hB, ?_, ?_⟩, vR⟩
    · unfold tFormOperators
      rw [h1]
      exact operator_is eR eA eB
    · funext k b
      ext r c
      refine (vA [c.val, r.val, b.val, k.val] (mk4 c.isLt r.isLt b.isLt k.isLt)).trans ?_
      change (if c.val = r.val then (1 : ℝ) else 0) - yJ.data [c.val, r.val, b.val, k.val + 1] * dt.data [b.val, k.val] = _
      rw [eye_entry, mul_comm]
      rfl
    · funext k b
      ext r c
      refine (vB [c.val, r.val, b.val, k.val] (mk4 c.isLt r.isLt b.isLt k.isLt)).trans ?_
      change -(if c.val = r.val then (1 : ℝ) else 0) = _
      rw [eye_entry]
      rfl
  | forwardEuler =>
    obtain ⟨R, eR, hR, vR⟩ := flatten_is (((kf h1).sub_left (ki h1).rep).sub_left ((ki h2).mul_left kdt).rep)
      (V := fun k b => rowsOf nb m (n + 1) dy k.succ b - rowsOf nb m (n + 1) dy k.castSucc b - timesOf nb n dt k b • rowsOf nb m (n + 1) yd k.castSucc b)
      (fun k b j => by
        change dy.data [j.val, b.val, k.val + 1] - dy.data [j.val, b.val, k.val] - yd.data [j.val, b.val, k.val] * dt.data [b.val, k.val] = _
        rw [mul_comm]
        rfl)
    have kJ : Is [m, m, nb, n - 1] (firstFrom (firstInit (yJ : TE))) fun i => yJ.data (i.dropLast ++ [i.getLastD 0 + 1]) :=
      Is.firstFrom (S := [m, m, nb]) (n := n) (Is.firstInit (S := [m, m, nb]) (n := n + 1) (self_is h3))
    have kdt3 : Rep [m, m, nb, n - 1] (unsq (unsq (firstFrom (dt : TE)))) fun i => dt.data (i.tail.tail.dropLast ++ [i.tail.tail.getLastD 0 + 1]) :=
      ((Is.firstFrom (S := [nb]) (n := n) (self_is h4)).rep.unsq m).unsq m
    obtain ⟨A, eA, hA, vA⟩ := eyes_is m nb n
    obtain ⟨B, eB, hB, vB⟩ := (Is.firstFrom (S := [m, m, nb]) (eyes_is m nb n)).neg.sub_left (kJ.mul_left kdt3).rep
    refine ⟨R, ⟨A, B⟩, ?_, hR, ⟨hA, hB, ?_, ?_⟩, vR⟩
    · unfold tFormOperators
      rw [h1]
      exact operator_is eR eA eB
    · funext k b
      ext r c
      refine (vA [c.val, r.val, b.val, k.val] (mk4 c.isLt r.isLt b.isLt k.isLt)).trans ?_
      exact eye_entry r c
    · funext k b
      ext r c
      refine (vB [c.val, r.val, b.val, k.val] (mk4 c.isLt r.isLt b.isLt k.isLt)).trans ?_
      change -(if c.val = r.val then (1 : ℝ) else 0) - yJ.data [c.val, r.val, b.val, k.val + 1] * dt.data [b.val, k.val + 1] = _
      rw [eye_entry, mul_comm]
      rfl

theorem blockRJ_is {P : Fin nb → Set ℝ} {func : Tensor → Tensor → Except String (Tensor × Tensor)} {F : BFunc (Fin nb) m} (hF : FuncIs nb m P func F) (s : Scheme) {t ts ys dy : Tensor}
    (ht : t.shape = [nb, n]) (hts : ts.shape = [nb]) (hys : ys.shape = [m, nb]) (hdy : dy.shape = [n * m, nb]) (hP : ∀ k b, timesOf nb n t k b ∈ P b) (hPs : ∀ b : Fin nb, ts.data [b.val] ∈ P b) :
    ∃ (R : Tensor) (J : TBidiag), tBlockRJ s func nb m n t ts ys dy = .ok (R, J) ∧ R.shape = [n * m, nb] ∧
      OpIs nb m n J (blockRJ s F (timesOf nb n t) (fun b => ts.data [b.val]) (fun b j => ys.data [j.val, b.val]) (flatOf nb (n * m) dy)).2 ∧
      flatOf nb (n * m) R = (blockRJ s F (timesOf nb n t) (fun b => ts.data [b.val]) (fun b j => ys.data [j.val, b.val]) (flatOf nb (n * m) dy)).1 := by
  obtain ⟨dy1, e1, h1, v1⟩ := unflatten_is (m := m) (n := n) hdy
  obtain ⟨dy2, e2, h2, v2⟩ := Is.vstack (S := [m, nb]) (self_is hys).zerosLike.lead (self_is h1)
  rw [Nat.add_comm] at h2
  have k2 : Is [m, nb, n + 1] (dy2 : TE) dy2.data := self_is h2
  obtain ⟨y, ey, hy, vy⟩ := k2.add_left (Is.expandFirst (S := [m, nb]) (n + 1) (self_is hys).lead).rep
  obtain ⟨times, et, hti, vt⟩ := Is.vstack (S := [nb]) (self_is hts).lead (self_is ht)
  rw [Nat.add_comm] at hti
  rw [Nat.add_comm] at v2 vt
  have kt : Is [nb, n + 1] (times : TE) times.data := self_is hti
  obtain ⟨dt, ed, hd, vd⟩ := (Is.firstFrom (S := [nb]) (n := n + 1) kt).sub_left (Is.firstInit (S := [nb]) (n := n + 1) kt).rep
  -- the values
  have w2 : rowsOf nb m (n + 1) dy2 = stack 0 (unflatten (flatOf nb (n * m) dy)) := by
    funext k b j
    refine (v2 [j.val, b.val, k.val] (mk3 j.isLt b.isLt k.isLt)).trans ?_
    change (if k.val < 1 then 0 else dy1.data [j.val, b.val, k.val - 1]) = _
    refine Fin.cases ?_ (fun k => ?_) k
    · rfl
    · rw [if_neg (by simp)]
      exact v1 [j.val, b.val, k.val] (mk3 j.isLt b.isLt k.isLt)
  have wy : rowsOf nb m (n + 1) y = fun k => stack 0 (unflatten (flatOf nb (n * m) dy)) k + fun (b : Fin nb) (j : Fin m) => ys.data [j.val, b.val] := by
    funext k b j
    refine (vy [j.val, b.val, k.val] (mk3 j.isLt b.isLt k.isLt)).trans ?_
    change rowsOf nb m (n + 1) dy2 k b j + ys.data [j.val, b.val] = _
    rw [w2]
    rfl
  have wt : timesOf nb (n + 1) times = stack (fun b : Fin nb => ts.data [b.val]) (timesOf nb n t) := by
    funext k b
    refine (vt [b.val, k.val] (mk2 b.isLt k.isLt)).trans ?_
    change (if k.val < 1 then ts.data [b.val] else t.data [b.val, k.val - 1]) = _
    refine Fin.cases ?_ (fun k => ?_) k
    · rfl
    · rw [if_neg (by simp)]
      rfl
  have wd : timesOf nb n dt = Ode.diff (stack (fun b : Fin nb => ts.data [b.val]) (timesOf nb n t)) := by
    rw [← wt]
    funext k b
    exact vd [b.val, k.val] (mk2 b.isLt k.isLt)
  have hPt : ∀ k b, timesOf nb (n + 1) times k b ∈ P b := by
    rw [wt]
    intro k b
    refine Fin.cases ?_ (fun k => ?_) k
    · exact hPs b
    · exact hP k b
  obtain ⟨yd, yJ, ef, hyd, hyJ, vf⟩ := hF (n + 1) times y hti hy hPt
  obtain ⟨R, J, eo, hR, hJ, vR⟩ := formOperators_is s h2 hyd hyJ hd
  have f1 := congrArg Prod.fst vf
  have f2 := congrArg Prod.snd vf
  dsimp only at f1 f2
  rw [w2, wd, f1, f2, wt, wy] at hJ vR
  refine ⟨R, J, ?_, hR, hJ, vR⟩
  unfold tBlockRJ
  rw [e1]
  simp only [TE.bind_ok]
  rw [e2]
  simp only [TE.bind_ok]
  rw [ey]
  simp only [TE.bind_ok]
  rw [et]
  simp only [TE.bind_ok]
  unfold diffFirst
  rw [ed]
  simp only [TE.bind_ok]
  rw [ef]
  exact eo

/-! ## Newton's method -/

/-- the function `fn` given to `newton_raphson_chunk` computes `G` -/
def ChunkFn (nb m n : ℕ) (fn : Tensor → Except String (Tensor × TBidiag)) (G : (Fin nb → Fin (n * m) → ℝ) → (Fin nb → Fin (n * m) → ℝ) × BidiagOp (Fin nb) n m ℝ) : Prop :=
  ∀ x : Tensor, x.shape = [n * m, nb] → ∃ (R : Tensor) (J : TBidiag), fn x = .ok (R, J) ∧ R.shape = [n * m, nb] ∧ OpIs nb m n J (G (flatOf nb (n * m) x)).2 ∧
    flatOf nb (n * m) R = (G (flatOf nb (n * m) x)).1

theorem norm_flat {N : ℕ} {R : Tensor} (hR : R.shape = [N, nb]) : ∃ t : Tensor, normLast (R : TE) = (t : TE) ∧ t.shape = [nb] ∧ ∀ b : Fin nb, t.data [b.val] = Newton.rowNorm (flatOf nb N R b) := by
  obtain ⟨t, e, hs, ht⟩ := (Is.sumLast ((self_is hR).map fun a => a ^ 2)).map Real.sqrt
  exact ⟨t, e, hs, fun b => ht [b.val] (valid_cons.2 ⟨b.isLt, List.Forall₂.nil⟩)⟩

theorem chunkLoop_is (hn : 0 < n) {fn : Tensor → Except String (Tensor × TBidiag)} {G : (Fin nb → Fin (n * m) → ℝ) → (Fin nb → Fin (n * m) → ℝ) × BidiagOp (Fin nb) n m ℝ}
    (hG : ChunkFn nb m n fn G) (meth : SolveMethod) (rtol atol : ℝ) {nR0 : Tensor} {n0 : Fin nb → ℝ} (h0 : nR0.shape = [nb]) (h0' : ∀ b : Fin nb, nR0.data [b.val] = n0 b) :
    ∀ (fuel : ℕ) (x R : Tensor) (J : TBidiag), x.shape = [n * m, nb] → R.shape = [n * m, nb] → OpIs nb m n J (G (flatOf nb (n * m) x)).2 →
      flatOf nb (n * m) R = (G (flatOf nb (n * m) x)).1 → ∃ (x' : Tensor) (i : ℕ), tChunkLoop fn meth rtol atol nR0 fuel x R J = .ok (x', i) ∧ x'.shape = [n * m, nb] ∧
        (flatOf nb (n * m) x', i) = Newton.loop G (fun J R => solve meth J R) (fun x dx => x - dx) (fun r b => some (Newton.rowNorm (r b))) rtol atol (fun b => some (n0 b)) fuel
          (flatOf nb (n * m) x) := by
  intro fuel
  induction fuel with
  | zero => exact fun x R J hx hR hJ _ => ⟨x, 0, rfl, hx, rfl⟩
  | succ fuel ih =>
    intro x R J hx hR hJ eR
    obtain ⟨nR, en, hns, hn'⟩ := norm_flat hR
    obtain ⟨m1, e1, hs1, hp1⟩ := cmp_is (· > ·) (self_is hns) (Rep.num [nb] atol)
    obtain ⟨m2, e2, hs2, hp2⟩ := cmp_is (fun a b => rtol * b < a) (self_is hns) (self_is h0).rep
    rw [eR] at hn'
    have hv : ∀ i, Valid [nb] i → ∃ b : Fin nb, i = [b.val] := by
      intro i hi
      obtain ⟨k, j, rfl, hk, hj⟩ := valid_cons_iff.1 hi
      cases hj
      exact ⟨⟨k, hk⟩, rfl⟩
    have hv' : ∀ b : Fin nb, Valid [nb] [b.val] := fun b => valid_cons.2 ⟨b.isLt, List.Forall₂.nil⟩
    have hany : (anyM m1 ∧ anyM m2) ↔ Newton.notConverged (fun b => some (Newton.rowNorm ((G (flatOf nb (n * m) x)).1 b))) (fun b => some (n0 b)) rtol atol := by
      rw [any_iff hs1 hp1, any_iff hs2 hp2]
      unfold Newton.notConverged
      refine and_congr ?_ ?_
      · constructor
        · rintro ⟨i, hi, h⟩
          obtain ⟨b, rfl⟩ := hv i hi
          refine ⟨b, ?_⟩
          change atol < _
          rw [← hn' b]
          exact h
        · rintro ⟨b, h⟩
          refine ⟨_, hv' b, ?_⟩
          change atol < _
          rw [hn' b]
          exact h
      · constructor
        · rintro ⟨i, hi, h⟩
          obtain ⟨b, rfl⟩ := hv i hi
          refine ⟨b, ?_⟩
          change rtol * n0 b < _
          rw [← hn' b, ← h0' b]
          exact h
        · rintro ⟨b, h⟩
          refine ⟨_, hv' b, ?_⟩
          change rtol * _ < _
          rw [hn' b, h0' b]
          exact h
    have ev : tChunkLoop fn meth rtol atol nR0 (fuel + 1) x R J = open Classical in (if anyM m1 ∧ anyM m2 then TE.bind (inplace (· - ·) x (tSolve meth J R)) fun x' =>
        withRJ (fn x') fun R' J' => match tChunkLoop fn meth rtol atol nR0 fuel x' R' J' with | .error e => .error e | .ok r => .ok (r.1, r.2 + 1) else .ok (x, 0)) := by
      rw [tChunkLoop, en]
      change Mask.bind (cmp (· > ·) nR (num atol)) _ = _
      rw [e1]
      change Mask.bind (cmp (fun a b => rtol * b < a) nR nR0) _ = _
      rw [e2]
      rfl
    rw [ev, Newton.loop]
    by_cases hc : Newton.notConverged (fun b => some (Newton.rowNorm ((G (flatOf nb (n * m) x)).1 b))) (fun b => some (n0 b)) rtol atol
    · rw [if_pos (hany.2 hc), if_pos hc]
      obtain ⟨dx, edx, hdx, vdx⟩ := solve_is hn meth hJ hR
      obtain ⟨x', ex, hx'⟩ := (self_is hx).inplace (· - ·) (self_is hdx).rep
      obtain ⟨R', J', ef, hR', hJ', eR'⟩ := hG x' hx'.1
      have evx : flatOf nb (n * m) x' = flatOf nb (n * m) x - solve meth (G (flatOf nb (n * m) x)).2 (G (flatOf nb (n * m) x)).1 := by
        rw [← eR, ← vdx]
        funext b i
        exact hx'.2 [i.val, b.val] (mk2 i.isLt b.isLt)
      obtain ⟨x'', i, h1, h2, h3⟩ := ih x' R' J' hx'.1 hR' hJ' eR'
      refine ⟨x'', i + 1, ?_, h2, ?_⟩
      · rw [edx, ex]
        simp only [TE.bind_ok]
        rw [ef]
        simp only [withRJ]
        rw [h1]
      · rw [evx] at h3
        rw [← h3]
    · rw [if_neg (fun h => hc (hany.1 h)), if_neg hc]
      exact ⟨x, 0, rfl, hx, rfl⟩

theorem newtonChunk_is (hn : 0 < n) {fn : Tensor → Except String (Tensor × TBidiag)} {G : (Fin nb → Fin (n * m) → ℝ) → (Fin nb → Fin (n * m) → ℝ) × BidiagOp (Fin nb) n m ℝ}
    (hG : ChunkFn nb m n fn G) (meth : SolveMethod) (rtol atol : ℝ) (miter : ℤ) (throwOnFail : Bool) {x : Tensor} (hx : x.shape = [n * m, nb]) :
    let out := Newton.newtonChunk G (fun J R => solve meth J R) (fun x dx => x - dx) (fun r b => some (Newton.rowNorm (r b))) (flatOf nb (n * m) x) rtol atol miter throwOnFail
    (∀ e, out.result = .error e → tNewtonChunk fn meth x rtol atol miter throwOnFail = .error e) ∧
    ∀ z, out.result = .ok z → ∃ x' : Tensor, tNewtonChunk fn meth x rtol atol miter throwOnFail = .ok (x', out.warned) ∧ x'.shape = [n * m, nb] ∧ flatOf nb (n * m) x' = z := by
  obtain ⟨R, J, ef, hR, hJ, eR⟩ := hG x hx
  obtain ⟨nR, en, hns, hn'⟩ := norm_flat hR
  rw [eR] at hn'
  obtain ⟨x', i, h1, h2, h3⟩ := chunkLoop_is hn hG meth rtol atol hns hn' miter.toNat x R J hx hR hJ eR
  have ev : tNewtonChunk fn meth x rtol atol miter throwOnFail =
      if (i : ℤ) = miter then (if throwOnFail then .error "Implicit solve did not succeed." else .ok (x', true)) else .ok (x', false) := by
    unfold tNewtonChunk
    rw [ef]
    simp only [withRJ]
    rw [en]
    simp only [TE.bind_ok]
    rw [h1]
  intro out
  have eo : out = if (i : ℤ) = miter then
      if throwOnFail then { result := .error "Implicit solve did not succeed.", warned := false, iters := i, callerX0 := flatOf nb (n * m) x' }
      else { result := .ok (flatOf nb (n * m) x'), warned := true, iters := i, callerX0 := flatOf nb (n * m) x' }
    else { result := .ok (flatOf nb (n * m) x'), warned := false, iters := i, callerX0 := flatOf nb (n * m) x' } := by
    change Newton.newtonChunk _ _ _ _ _ _ _ _ _ = _
    unfold Newton.newtonChunk
    rw [← h3]
  by_cases c1 : (i : ℤ) = miter
  · rw [if_pos c1] at eo ev
    cases throwOnFail
    · rw [eo, ev]
      exact ⟨fun e he => (by cases he), fun z hz => ⟨x', rfl, h2, by injection hz⟩⟩
    · rw [eo, ev]
      exact ⟨fun e he => (by injection he with he; rw [← he]; rfl), fun z hz => (by cases hz)⟩
  · rw [if_neg c1] at eo ev
    rw [eo, ev]
    exact ⟨fun e he => (by cases he), fun z hz => ⟨x', rfl, h2, by injection hz⟩⟩

/-! ## A block of time steps -/

theorem unflatten_sum {x ys : Tensor} (hx : x.shape = [n * m, nb]) (hys : ys.shape = [m, nb]) :
    ∃ y : Tensor, swapFirst (reshape [m, n, nb] (x : TE)) + expandFirst n (lead (ys : TE)) = (y : TE) ∧ y.shape = [m, nb, n] ∧
      rowsOf nb m n y = fun k => unflatten (flatOf nb (n * m) x) k + fun (b : Fin nb) (j : Fin m) => ys.data [j.val, b.val] := by
  obtain ⟨dy1, e1, h1, v1⟩ := unflatten_is (m := m) (n := n) hx
  obtain ⟨y, ey, hy, vy⟩ := (self_is h1).add_left (Is.expandFirst (S := [m, nb]) n (self_is hys).lead).rep
  refine ⟨y, by rw [e1]; exact ey, hy, ?_⟩
  funext k b j
  refine (vy [j.val, b.val, k.val] (mk3 j.isLt b.isLt k.isLt)).trans ?_
  change dy1.data [j.val, b.val, k.val] + _ = _
  rw [v1 [j.val, b.val, k.val] (mk3 j.isLt b.isLt k.isLt)]
  rfl

theorem blockUpdate_is (hn : 0 < n) {P : Fin nb → Set ℝ} {func : Tensor → Tensor → Except String (Tensor × Tensor)} {F : BFunc (Fin nb) m} (hF : FuncIs nb m P func F) (c : Config)
    {t ts ys g : Tensor} (ht : t.shape = [nb, n]) (hts : ts.shape = [nb]) (hys : ys.shape = [m, nb]) (hg : g.shape = [n * m, nb]) (hP : ∀ k b, timesOf nb n t k b ∈ P b)
    (hPs : ∀ b : Fin nb, ts.data [b.val] ∈ P b) :
    let out := blockUpdate c F (timesOf nb n t) (fun b => ts.data [b.val]) (fun b j => ys.data [j.val, b.val]) (flatOf nb (n * m) g)
    (∀ e, out = .error e → tBlockUpdate c func nb m t ts ys g = .error e) ∧
    ∀ z, out = .ok z → ∃ y : Tensor, tBlockUpdate c func nb m t ts ys g = .ok (y, z.2) ∧ y.shape = [m, nb, n] ∧ rowsOf nb m n y = z.1 := by
  have hC : ChunkFn nb m n (tBlockRJ c.scheme func nb m n t ts ys) (blockRJ c.scheme F (timesOf nb n t) (fun b => ts.data [b.val]) (fun b j => ys.data [j.val, b.val])) := by
    intro x hx
    exact blockRJ_is hF c.scheme ht hts hys hx hP hPs
  obtain ⟨he, hk⟩ := newtonChunk_is hn hC c.method c.rtol c.atol c.miter c.throwOnFail hg
  intro out
  have eo : out = blockUpdate c F (timesOf nb n t) (fun b => ts.data [b.val]) (fun b j => ys.data [j.val, b.val]) (flatOf nb (n * m) g) := rfl
  unfold blockUpdate blockNewton at eo
  unfold tBlockUpdate
  rw [ht]
  simp only [List.getLast?_cons_cons, List.getLast?_singleton]
  generalize Newton.newtonChunk (blockRJ c.scheme F (timesOf nb n t) (fun b => ts.data [b.val]) (fun b j => ys.data [j.val, b.val])) (fun J R => solve c.method J R)
    (fun x dx => x - dx) (fun R b => some (Newton.rowNorm (R b))) (flatOf nb (n * m) g) c.rtol c.atol c.miter c.throwOnFail = o at eo he hk
  rw [eo]
  clear_value out
  clear eo
  cases ho : o.result with
  | error e =>
    refine ⟨fun e' h' => ?_, fun z hz => by cases hz⟩
    rw [he e ho]
    injection h' with h'
    rw [← h']
  | ok z =>
    refine ⟨fun e' h' => (by cases h'), fun z' hz' => ?_⟩
    obtain ⟨x', ex, hx', vx⟩ := hk z ho
    obtain ⟨y, ey, hy, vy⟩ := unflatten_sum (n := n) (m := m) hx' hys
    injection hz' with hz'
    subst hz'
    refine ⟨y, ?_, hy, ?_⟩
    · rw [ex]
      dsimp only
      rw [ey]
      rfl
    · rw [vy, vx]

/-! ## The initial guess -/

theorem guess_is {nt k q : ℕ} {gt : String} {X : Tensor} {p : Partial (Fin nb) m} (hX : X.shape = [m, nb, nt]) (hk : k < nt) (hq : 0 < q)
    (hp : ∀ (j : ℕ) (b : Fin nb) (i : Fin m), j < k → p.get j b i = X.data [i.val, b.val, j]) :
    (∀ e, initialGuess gt nt q p k = .error e → tGuess gt q X k = .error e) ∧
    ∀ g, initialGuess gt nt q p k = .ok g → ∃ G : Tensor, tGuess gt q X k = (G : TE) ∧ G.shape = [g.length * m, nb] ∧
      (g.length = sliceLen nt k q → flatOf nb (sliceLen nt k q * m) G = flatten fun j : Fin (sliceLen nt k q) => g.getD j.val 0) := by
  have kX : Is [m, nb, nt] (X : TE) X.data := self_is hX
  have ks : Is [m, nb, sliceLen nt k q] (firstSlice k (k + q) (X : TE)) fun i => X.data (i.dropLast ++ [k + i.getLastD 0]) := Is.firstSlice (S := [m, nb]) k (k + q) kX
  unfold initialGuess tGuess
  by_cases c1 : gt = "zero"
  · rw [if_pos c1, if_pos c1]
    refine ⟨fun e he => (by cases he), fun g hg => ?_⟩
    injection hg with hg
    obtain ⟨G, e, hG, vG⟩ := flatten_is ks.zerosLike (V := fun _ => 0) (fun _ _ _ => rfl)
    subst hg
    refine ⟨G, e, by rw [List.length_replicate]; exact hG, fun _ => ?_⟩
    rw [vG]
    congr 1
    funext j
    rw [List.getD_eq_getElem _ _ (by simp)]
    simp
  · rw [if_neg c1, if_neg c1]
    by_cases c2 : gt = "previous"
    · rw [if_pos c2, if_pos c2]
      refine ⟨fun e he => (by cases he), fun g hg => ?_⟩
      injection hg with hg
      obtain ⟨s, es, hs, -⟩ := ks
      -- the guess before dropping rows
      have key : ∀ (L : ℕ) (Y : TE) (l : List (BVec (Fin nb) m ℝ)) (f : List ℕ → ℝ), l.length = L → Is [m, nb, L] Y f →
          (∀ (j : ℕ) (b : Fin nb) (i : Fin m), j < L → f [i.val, b.val, j] = l.getD j 0 b i) → g = l.drop (q - sliceLen nt k q) →
          ∃ G : Tensor, (TE.bind Y fun g => flattenFrom1 (swapFirst (firstSlice (q - s.shape.getLastD 0) (g.shape.getLastD 0) (g : TE)))) = (G : TE) ∧ G.shape = [g.length * m, nb] ∧
            (g.length = sliceLen nt k q → flatOf nb (sliceLen nt k q * m) G = flatten fun j : Fin (sliceLen nt k q) => g.getD j.val 0) := by
        intro L Y l f hl hY hf hgl
        obtain ⟨y, rfl, hy, vy⟩ := hY
        have kd : Is [m, nb, L - (q - sliceLen nt k q)] (firstSlice (q - sliceLen nt k q) L (y : TE)) fun i => y.data (i.dropLast ++ [q - sliceLen nt k q + i.getLastD 0]) := by
          have := Is.firstSlice (S := [m, nb]) (q - sliceLen nt k q) L (self_is hy)
          rwa [min_self] at this
        obtain ⟨G, e, hG, vG⟩ := flatten_is kd (V := fun j => l.getD (q - sliceLen nt k q + j.val) 0) (fun j b i => by
          change y.data [i.val, b.val, q - sliceLen nt k q + j.val] = _
          have hj : q - sliceLen nt k q + j.val < L := by have := j.isLt; omega
          rw [vy _ (mk3 i.isLt b.isLt hj)]
          exact hf _ b i hj)
        have hlen : g.length = L - (q - sliceLen nt k q) := by rw [hgl, List.length_drop, hl]
        refine ⟨G, ?_, by rw [hlen]; exact hG, fun h => ?_⟩
        · rw [TE.bind_ok, hs, hy]
          exact e
        · rw [hlen] at h
          rw [h] at vG
          rw [vG]
          congr 1
          funext j
          rw [hgl]
          simp [List.getD_eq_getElem?_getD]
      by_cases c3 : (k : ℤ) - q - 1 < 0
      · rw [if_pos c3]
        rw [if_pos c3] at hg
        rw [es]
        obtain ⟨G, e, hG, vG⟩ := key (sliceLen nt k q) (zerosLike (s : TE)) (List.replicate (sliceLen nt k q) 0) (fun _ => 0) (by simp) (self_is hs).zerosLike (fun j b i hj => by
          rw [List.getD_eq_getElem _ _ (by simpa using hj)]
          simp) hg.symm
        exact ⟨G, e, hG, vG⟩
      · rw [if_neg c3]
        rw [if_neg c3] at hg
        rw [es]
        have hkq : q + 1 ≤ k := by omega
        have ka : Is [m, nb, q] (firstSlice (k - q) k (X : TE)) fun i => X.data (i.dropLast ++ [k - q + i.getLastD 0]) := by
          have := Is.firstSlice (S := [m, nb]) (k - q) k kX
          have h' : min k nt - (k - q) = q := by omega
          rwa [h'] at this
        have kb : Rep [m, nb, q] (lead (first (k - q - 1) (X : TE))) fun i => X.data (i.dropLast ++ [k - q - 1]) := by
          obtain ⟨r, er, hr, vr⟩ := Is.first (S := [m, nb]) (k - q - 1) kX (by omega)
          rw [er]
          have hb : bshape r.shape [m, nb, q] = some [m, nb, q] := by
            rw [hr]
            exact (fits_cons _ _ _ _).2 ⟨.inl rfl, (fits_cons _ _ _ _).2 ⟨.inl rfl, rfl⟩⟩
          refine Rep.lead hb (by rw [hr]; simp) fun i hi => ?_
          obtain ⟨a, b, j, rfl, h1, h2, h3⟩ := valid3 hi
          have hi' : bidx r.shape [a, b, j] = [a, b] := by
            rw [hr]
            exact bidx_self (mk2 h1 h2)
          rw [hi']
          exact vr [a, b] (mk2 h1 h2)
        obtain ⟨G, e, hG, vG⟩ := key q _ ((List.range' (k - q) q).map fun j => p.get j - p.get (k - q - 1)) _ (by simp) (ka.sub_left kb) (fun j b i hj => by
          change X.data [i.val, b.val, k - q + j] - X.data [i.val, b.val, k - q - 1] = _
          rw [List.getD_eq_getElem _ _ (by simpa using hj)]
          simp only [List.getElem_map, List.getElem_range', one_mul]
          rw [← hp _ b i (by omega), ← hp _ b i (by omega)]
          rfl) hg.symm
        exact ⟨G, e, hG, vG⟩
    · rw [if_neg c2, if_neg c2]
      refine ⟨fun e he => ?_, fun g hg => (by cases hg)⟩
      injection he with he
      rw [← he]

/-! ## The loop over the blocks -/

theorem sliceLen_pos {nt k q : ℕ} (hk : k < nt) (hq : 0 < q) : 0 < sliceLen nt k q := by
  unfold sliceLen
  omega

theorem step_is (hnb : 0 < nb) (hm : 0 < m) {P : Fin nb → Set ℝ} {func : Tensor → Tensor → Except String (Tensor × Tensor)} {F : BFunc (Fin nb) m} (hF : FuncIs nb m P func F) (c : Config)
    {nt k q : ℕ} (hk0 : 0 < k) (hk : k < nt) (hq : 0 < q) {t : Tensor} {tf : ℕ → Fin nb → ℝ} (ht : t.shape = [nb, nt]) (htf : ∀ (j : ℕ) (b : Fin nb), j < nt → t.data [b.val, j] = tf j b)
    (hP : ∀ (j : ℕ) (b : Fin nb), j < nt → tf j b ∈ P b) {garbage : List ℕ → ℝ} {X : Tensor} {p : Partial (Fin nb) m} {w : Bool} (hX : Filled nb m nt garbage X p)
    (hs : ∀ j < k, ∃ v, p j = some v) :
    (∀ e, integrateStep c F nt q tf (p, w) k = .error e → ∃ e', tIntegrateStep c func nb m q t (X, w) k = .error e') ∧
    ∀ z, integrateStep c F nt q tf (p, w) k = .ok z → ∃ Y : Tensor, tIntegrateStep c func nb m q t (X, w) k = .ok (Y, z.2) ∧ Filled nb m nt garbage Y z.1 ∧
      ∀ j < min (k + q) nt, ∃ v, z.1 j = some v := by
  have hL := sliceLen_pos hk hq
  obtain ⟨tb, e1, h1, v1⟩ := Is.firstSlice (S := [nb]) k (k + q) (self_is ht)
  obtain ⟨ts, e2, h2, v2⟩ := Is.first (S := [nb]) (k - 1) (self_is ht) (by omega)
  obtain ⟨ys, e3, h3, v3⟩ := Is.first (S := [m, nb]) (k - 1) (self_is hX.shape) (by omega)
  have hg := guess_is (gt := c.guessType) hX.shape hk hq (p := p) fun j b i hj => by
    obtain ⟨v, hv⟩ := hs j hj
    rw [hX.row j v (by omega) hv]
    simp [Partial.get, hv]
  have w1 : timesOf nb (sliceLen nt k q) tb = fun j => tf (k + j.val) := by
    funext j b
    have hj := j.isLt
    unfold sliceLen at hj
    exact (v1 [b.val, j.val] (mk2 b.isLt j.isLt)).trans (htf (k + j.val) b (by omega))
  have w2 : (fun b : Fin nb => ts.data [b.val]) = tf (k - 1) := by
    funext b
    exact (v2 [b.val] (valid_cons.2 ⟨b.isLt, List.Forall₂.nil⟩)).trans (htf _ b (by omega))
  have w3 : (fun (b : Fin nb) (i : Fin m) => ys.data [i.val, b.val]) = p.get (k - 1) := by
    funext b i
    refine (v3 [i.val, b.val] (mk2 i.isLt b.isLt)).trans ?_
    obtain ⟨v, hv⟩ := hs (k - 1) (by omega)
    change X.data [i.val, b.val, k - 1] = _
    rw [hX.row _ v (by omega) hv]
    simp [Partial.get, hv]
  have ev : tIntegrateStep c func nb m q t (X, w) k = TE.bind (tGuess c.guessType q X k) fun g => match tBlockUpdate c func nb m tb ts ys g with
      | .error e => .error e
      | .ok r => TE.bind (setFirstSlice k (k + q) (X : TE) (r.1 : TE)) fun x => .ok (x, w || r.2) := by
    unfold tIntegrateStep
    rw [e1]
    simp only [TE.bind_ok]
    rw [e2]
    simp only [TE.bind_ok]
    rw [e3]
    simp only [TE.bind_ok]
    rfl
  rw [ev]
  unfold integrateStep
  cases hgl : initialGuess c.guessType nt q p k with
  | error e =>
    refine ⟨fun e' _ => ⟨e, ?_⟩, fun z hz => ?_⟩
    · rw [hg.1 e hgl]
      rfl
    · simp only [hgl] at hz
      cases hz
  | ok g =>
    obtain ⟨G, eG, hG, vG⟩ := hg.2 g hgl
    rw [eG]
    simp only [TE.bind_ok, hgl]
    by_cases hlen : g.length = sliceLen nt k q
    · rw [if_pos hlen]
      rw [hlen] at hG
      have hb := blockUpdate_is hL hF c h1 h2 h3 hG (fun j b => by
        rw [w1]
        have := j.isLt
        unfold sliceLen at this
        exact hP _ b (by omega)) (fun b => by
        rw [congrFun w2 b]
        exact hP _ b (by omega))
      dsimp only at hb
      change (∀ e, blockUpdate c F (timesOf nb (sliceLen nt k q) tb) _ _ (flatOf nb (sliceLen nt k q * m) G) = _ → _) ∧ (∀ z, blockUpdate c F (timesOf nb (sliceLen nt k q) tb) _ _ _ = _ → _) at hb
      rw [w1, w2, w3, vG hlen] at hb
      cases ho : blockUpdate c F (fun j : Fin (sliceLen nt k q) => tf (k + j.val)) (tf (k - 1)) (p.get (k - 1)) (flatten fun j : Fin (sliceLen nt k q) => g.getD j.val 0) with
      | error e =>
        refine ⟨fun e' _ => ⟨e, ?_⟩, fun z hz => (by cases hz)⟩
        rw [hb.1 e ho]
      | ok r =>
        refine ⟨fun e' he' => (by cases he'), fun z hz => ?_⟩
        obtain ⟨y, ey, hy, vy⟩ := hb.2 r ho
        injection hz with hz
        subst hz
        obtain ⟨Y, eY, hY, vY⟩ := Is.setFirstSlice (S := [m, nb]) k (k + q) (self_is hX.shape) (self_is hy).rep
        refine ⟨Y, ?_, ⟨hY, ?_, ?_⟩, ?_⟩
        · rw [ey]
          dsimp only
          rw [eY]
          rfl
        · intro j v hj hv b i
          rw [vY [i.val, b.val, j] (mk3 i.isLt b.isLt hj)]
          change (if k ≤ j ∧ j < k + q then y.data [i.val, b.val, j - k] else X.data [i.val, b.val, j]) = _
          dsimp only at hv
          by_cases hjk : k ≤ j ∧ j < k + q
          · have hjl : k ≤ j ∧ j - k < sliceLen nt k q := ⟨hjk.1, by unfold sliceLen; omega⟩
            rw [dif_pos hjl] at hv
            injection hv with hv
            rw [if_pos hjk, ← hv, ← vy]
            rfl
          · have hjl : ¬(k ≤ j ∧ j - k < sliceLen nt k q) := by
              unfold sliceLen
              omega
            rw [dif_neg hjl] at hv
            rw [if_neg hjk]
            exact hX.row j v hj hv b i
        · intro j hj hv b i
          rw [vY [i.val, b.val, j] (mk3 i.isLt b.isLt hj)]
          change (if k ≤ j ∧ j < k + q then y.data [i.val, b.val, j - k] else X.data [i.val, b.val, j]) = _
          dsimp only at hv
          by_cases hjk : k ≤ j ∧ j < k + q
          · have hjl : k ≤ j ∧ j - k < sliceLen nt k q := ⟨hjk.1, by unfold sliceLen; omega⟩
            rw [dif_pos hjl] at hv
            cases hv
          · have hjl : ¬(k ≤ j ∧ j - k < sliceLen nt k q) := by
              unfold sliceLen
              omega
            rw [dif_neg hjl] at hv
            rw [if_neg hjk]
            exact hX.rest j hj hv b i
        · intro j hj
          dsimp only
          by_cases hjk : j < k
          · obtain ⟨v, hv⟩ := hs j hjk
            exact ⟨v, by rw [dif_neg (by omega), hv]⟩
          · exact ⟨_, dif_pos ⟨by omega, by unfold sliceLen; omega⟩⟩
    · rw [if_neg hlen]
      refine ⟨fun e' _ => ?_, fun z hz => (by cases hz)⟩
      refine ⟨"RuntimeError: shape is invalid for input", ?_⟩
      have hf : reshape [m, sliceLen nt k q, nb] (G : TE) = .error "RuntimeError: shape is invalid for input" := by
        refine reshape3_fails hG hnb fun h => hlen ?_
        exact Nat.eq_of_mul_eq_mul_right hm h
      have : tBlockUpdate c func nb m tb ts ys G = .error "RuntimeError: shape is invalid for input" := by
        unfold tBlockUpdate
        have h1' : tb.shape = [nb, sliceLen nt k q] := h1
        rw [h1']
        simp only [List.getLast?_cons_cons, List.getLast?_singleton]
        unfold tNewtonChunk tBlockRJ
        rw [hf]
        rfl
      rw [this]

theorem loop_is (hnb : 0 < nb) (hm : 0 < m) {P : Fin nb → Set ℝ} {func : Tensor → Tensor → Except String (Tensor × Tensor)} {F : BFunc (Fin nb) m} (hF : FuncIs nb m P func F) (c : Config)
    {nt q : ℕ} (hq : 0 < q) {t : Tensor} {tf : ℕ → Fin nb → ℝ} (ht : t.shape = [nb, nt]) (htf : ∀ (j : ℕ) (b : Fin nb), j < nt → t.data [b.val, j] = tf j b)
    (hP : ∀ (j : ℕ) (b : Fin nb), j < nt → tf j b ∈ P b) {garbage : List ℕ → ℝ} :
    ∀ (cnt k : ℕ) (X : Tensor) (p : Partial (Fin nb) m) (w : Bool), 0 < k → (0 < cnt → k + (cnt - 1) * q < nt) → Filled nb m nt garbage X p → (∀ j < min k nt, ∃ v, p j = some v) →
    (∀ e, integrateLoop c F nt q tf (List.range' k cnt q) (p, w) = .error e → ∃ e', tIntegrateLoop c func nb m q t (List.range' k cnt q) (X, w) = .error e') ∧
    ∀ z, integrateLoop c F nt q tf (List.range' k cnt q) (p, w) = .ok z → ∃ Y : Tensor, tIntegrateLoop c func nb m q t (List.range' k cnt q) (X, w) = .ok (Y, z.2) ∧
      Filled nb m nt garbage Y z.1 := by
  intro cnt
  induction cnt with
  | zero =>
    intro k X p w _ _ hX _
    refine ⟨fun e he => (by cases he), fun z hz => ?_⟩
    injection hz with hz
    subst hz
    exact ⟨X, rfl, hX⟩
  | succ cnt ih =>
    intro k X p w hk0 hcnt hX hs
    have hk : k < nt := lt_of_le_of_lt (Nat.le_add_right _ _) (hcnt (Nat.succ_pos _))
    have hst := step_is hnb hm hF c hk0 hk hq ht htf hP (w := w) hX fun j hj => hs j (by omega)
    rw [List.range'_succ]
    unfold integrateLoop tIntegrateLoop
    cases ho : integrateStep c F nt q tf (p, w) k with
    | error e =>
      obtain ⟨e', he'⟩ := hst.1 e ho
      rw [he']
      exact ⟨fun _ _ => ⟨e', rfl⟩, fun z hz => (by cases hz)⟩
    | ok z =>
      obtain ⟨Y, eY, hY, hsY⟩ := hst.2 z ho
      rw [eY]
      refine ih (k + q) Y z.1 z.2 (by omega) (fun hc => ?_) hY hsY
      have := hcnt (Nat.succ_pos _)
      obtain ⟨cn, rfl⟩ : ∃ cn, cnt = cn + 1 := ⟨cnt - 1, by omega⟩
      simp only [Nat.add_sub_cancel] at this ⊢
      rw [Nat.add_mul] at this
      omega

theorem integrate_is (hnb : 0 < nb) (hm : 0 < m) {P : Fin nb → Set ℝ} {func : Tensor → Tensor → Except String (Tensor × Tensor)} {F : BFunc (Fin nb) m} (hF : FuncIs nb m P func F) (c : Config)
    {nt : ℕ} {y0 t : Tensor} {tf : ℕ → Fin nb → ℝ} (ht : t.shape = [nb, nt]) (htf : ∀ (j : ℕ) (b : Fin nb), j < nt → t.data [b.val, j] = tf j b)
    (hP : ∀ (j : ℕ) (b : Fin nb), j < nt → tf j b ∈ P b) (hy : y0.shape = [m, nb]) (garbage : List ℕ → ℝ) (q : ℤ) :
    SameRun nb m nt garbage (tIntegrate c func garbage y0 t q) (integrate c F (fun b j => y0.data [j.val, b.val]) nt tf q) := by
  unfold tIntegrate integrate
  rw [hy, ht]
  simp only [List.getLast?_cons_cons, List.getLast?_singleton]
  by_cases hnt : nt = 0
  · rw [if_pos hnt]
    subst hnt
    exact ⟨"IndexError: index is out of bounds", rfl⟩
  · rw [if_neg hnt]
    obtain ⟨X, eX, hX, vX⟩ := Is.setFirst (S := [m, nb]) (n := nt) (x := ((⟨[m, nb, nt], garbage⟩ : Tensor) : TE)) 0 (self_is rfl) (by omega) (self_is hy).rep
    rw [eX]
    simp only [TE.bind_ok]
    have hfill : Filled nb m nt garbage X fun j => if j = 0 then some (fun b j => y0.data [j.val, b.val]) else none := by
      refine ⟨hX, fun j v hj hv b i => ?_, fun j hj hv b i => ?_⟩
      · rw [vX [i.val, b.val, j] (mk3 i.isLt b.isLt hj)]
        change (if j = 0 then y0.data [i.val, b.val] else garbage [i.val, b.val, j]) = _
        by_cases h0 : j = 0
        · rw [if_pos h0] at hv ⊢
          injection hv with hv
          rw [← hv]
        · rw [if_neg h0] at hv
          cases hv
      · rw [vX [i.val, b.val, j] (mk3 i.isLt b.isLt hj)]
        change (if j = 0 then y0.data [i.val, b.val] else garbage [i.val, b.val, j]) = _
        by_cases h0 : j = 0
        · rw [if_pos h0] at hv
          cases hv
        · rw [if_neg h0]
    unfold blockStarts
    split_ifs with h0 h1
    · exact ⟨_, rfl⟩
    · exact ⟨X, rfl, hfill⟩
    · have hq : 0 < q.toNat := by omega
      generalize hcnt : (nt - 1 + (q.toNat - 1)) / q.toNat = cnt
      have hl := loop_is hnb hm hF c hq ht htf hP (garbage := garbage) cnt 1 X (fun j => if j = 0 then some (fun b j => y0.data [j.val, b.val]) else none) false one_pos (fun hc => by
          have h2 : cnt * q.toNat ≤ nt - 1 + (q.toNat - 1) := by
            rw [← hcnt]
            exact Nat.div_mul_le_self _ _
          obtain ⟨cn, rfl⟩ : ∃ cn, cnt = cn + 1 := ⟨cnt - 1, by omega⟩
          rw [Nat.add_mul] at h2
          rw [Nat.add_sub_cancel]
          omega) hfill (fun j hj => ⟨_, if_pos (by omega)⟩)
      cases ho : integrateLoop c F nt q.toNat tf (List.range' 1 cnt q.toNat) (fun j => if j = 0 then some (fun b j => y0.data [j.val, b.val]) else none, false) with
      | error e =>
        dsimp only
        rw [ho]
        exact hl.1 e ho
      | ok z =>
        dsimp only
        rw [ho]
        exact hl.2 z ho

end Pyoptmat.Spec
