import Verif.Model.TensorAdjoint
import Verif.Proofs.TensorOde

/-! # The adjoint pass as a torch program -/

namespace Pyoptmat.Spec

open Pyoptmat.Tensor Pyoptmat.Chunktime Pyoptmat.Ode

variable {nb m n p : ℕ}

theorem Is.transLast {a b : ℕ} {S : List ℕ} {x : TE} {f : List ℕ → ℝ} (h : Is (a :: b :: S) x f) : Is (b :: a :: S) (Tensor.transLast x) fun i => f (i.tail.headD 0 :: i.headD 0 :: i.tail.tail) := by
  obtain ⟨⟨sh, da⟩, rfl, hs, hf⟩ := h
  obtain rfl : sh = a :: b :: S := hs
  refine ⟨_, rfl, rfl, fun i hi => ?_⟩
  obtain ⟨k, j, rfl, hk, hj⟩ := valid_cons_iff.1 hi
  obtain ⟨k', j', rfl, hk', hj'⟩ := valid_cons_iff.1 hj
  exact hf (k' :: k :: j') (valid_cons.2 ⟨hk', valid_cons.2 ⟨hk, hj'⟩⟩)

theorem Is.flipFirst {S : List ℕ} {n : ℕ} {x : TE} {f : List ℕ → ℝ} (h : Is (S ++ [n]) x f) : Is (S ++ [n]) (Tensor.flipFirst x) fun i => f (i.dropLast ++ [n - 1 - i.getLastD 0]) := by
  obtain ⟨⟨sh, da⟩, rfl, hs, hf⟩ := h
  obtain rfl : sh = S ++ [n] := hs
  refine ⟨⟨S ++ [n], fun i => da (i.dropLast ++ [n - 1 - i.getLastD 0])⟩, ?_, rfl, fun i hi => ?_⟩
  · change (match (S ++ [n]).getLast? with | none => _ | some n => ((⟨S ++ [_], _⟩ : Tensor) : TE)) = _
    rw [List.getLast?_concat]
  · obtain ⟨j, k, rfl, hj, hk⟩ := valid_concat.1 hi
    simp only [List.dropLast_concat]
    exact hf _ (valid_concat.2 ⟨j, _, rfl, hj, by omega⟩)

/-- broadcasting over the times -/
theorem rep_rows {a b n : ℕ} {r : Tensor} (hr : r.shape = [a, b]) : Rep [a, b, n] (r : TE) fun i => r.data i.dropLast := by
  refine ⟨r, rfl, ?_, fun i hi => ?_⟩
  · rw [hr]
    exact (fits_cons _ _ _ _).2 ⟨.inl rfl, (fits_cons _ _ _ _).2 ⟨.inl rfl, rfl⟩⟩
  · obtain ⟨p, q, j, rfl, h1, h2, h3⟩ := valid3 hi
    have hi' : bidx r.shape [p, q, j] = [p, q] := by
      rw [hr]
      exact bidx_self (mk2 h1 h2)
    rw [hi']
    rfl

/-- storing the solved rows below a row of zeros and adding the previous adjoint -/
theorem stored_is {X : TE} {aP : Tensor} (ha : aP.shape = [m, nb]) {mem : Mem (BVec (Fin nb) m ℝ)} (hX : RhsIs nb m n X mem) :
    ∃ a : Tensor, setFirstSlice 1 (n + 1) (full [m, nb, n + 1] 0) (squeezeLast X) + (aP : TE) = (a : TE) ∧ a.shape = [m, nb, n + 1] ∧
      rowsOf nb m (n + 1) a = fun k => stack 0 (fun k : Fin n => mem k) k + fun b j => aP.data [j.val, b.val] := by
  obtain ⟨x, rfl, hx, vx⟩ := hX
  have hz : Is [m, nb, n + 1] (full [m, nb, n + 1] 0) fun _ => 0 := ⟨_, rfl, rfl, fun _ _ => rfl⟩
  have hy : Rep ([m, nb] ++ [min (n + 1) (n + 1) - 1]) (squeezeLast (x : TE)) fun i => x.data (0 :: i) := by
    rw [min_self, Nat.add_sub_cancel]
    exact (squeeze_is (self_is hx)).rep
  obtain ⟨a, ea, hs, hv⟩ := (Is.setFirstSlice (S := [m, nb]) 1 (n + 1) hz hy).add_left (rep_rows (n := n + 1) ha)
  refine ⟨a, ea, hs, ?_⟩
  funext k b j
  refine (hv [j.val, b.val, k.val] (mk3 j.isLt b.isLt k.isLt)).trans ?_
  change (if 1 ≤ k.val ∧ k.val < n + 1 then x.data [0, j.val, b.val, k.val - 1] else 0) + aP.data [j.val, b.val] = _
  refine Fin.cases ?_ (fun k => ?_) k
  · rfl
  · rw [if_pos ⟨by simp, k.succ.isLt⟩]
    have := congrFun (congrFun (vx k.val k.isLt) b) j
    change x.data [0, j.val, b.val, k.val] = _ at this
    simp only [Fin.val_succ, Nat.add_sub_cancel]
    rw [this]
    rfl

theorem updateAdjoint_is (hn : 0 < n) (s : Scheme) (d : Direct) {dt J aP gs : Tensor} (h1 : dt.shape = [nb, n]) (h2 : J.shape = [m, m, nb, n + 1]) (h3 : aP.shape = [m, nb])
    (h4 : gs.shape = [m, nb, n + 1]) :
    ∃ a : Tensor, tUpdateAdjoint s d dt J aP gs = (a : TE) ∧ a.shape = [m, nb, n + 1] ∧
      rowsOf nb m (n + 1) a = updateAdjoint s d (timesOf nb n dt) (blksOf nb m (n + 1) J) (fun b j => aP.data [j.val, b.val]) (rowsOf nb m (n + 1) gs) := by
  have kdt2 : Rep [m, m, nb, n] (unsq (unsq (dt : TE))) fun i => dt.data i.tail.tail := ((self_is h1).rep.unsq m).unsq m
  have kg : Is [1, m, nb, n] (unsq (firstFrom (gs : TE))) fun i => gs.data (i.tail.dropLast ++ [i.tail.getLastD 0 + 1]) := (Is.firstFrom (S := [m, nb]) (n := n + 1) (self_is h4)).unsq
  have ka : Is [1, m, nb, n] (unsq (expandFirst n (lead (aP : TE)))) fun i => aP.data (i.tail.dropLast ++ [0]).dropLast := (Is.expandFirst (S := [m, nb]) n (self_is h3).lead).unsq
  unfold tUpdateAdjoint
  rw [h2]
  cases s with
  | backwardEuler =>
    have kJ : Is [m, m, nb, n] (firstInit (J : TE)) J.data := Is.firstInit (S := [m, m, nb]) (n := n + 1) (self_is h2)
    obtain ⟨dJ, edJ, hdJ, vdJ⟩ := kJ.transLast.mul_left kdt2
    have wdJ : ∀ (k : Fin n) (b : Fin nb) (r c : Fin m), dJ.data [c.val, r.val, b.val, k.val] = (timesOf nb n dt k b • (blksOf nb m (n + 1) J k.castSucc b).transpose) r c := by
      intro k b r c
      refine (vdJ [c.val, r.val, b.val, k.val] (mk4 c.isLt r.isLt b.isLt k.isLt)).trans ?_
      change J.data [r.val, c.val, b.val, k.val] * dt.data [b.val, k.val] = _
      rw [mul_comm]
      rfl
    obtain ⟨A, eA, hA, vA⟩ := (eyes_is m nb n).add_left (self_is hdJ).rep
    obtain ⟨B, eB, hB, vB⟩ := (Is.firstInit (S := [m, m, nb]) (eyes_is m nb n)).neg
    obtain ⟨rhs, er, hr, vr⟩ := kg.add_left ((self_is hdJ).mbmm (kg.sub_left ka.rep)).rep
    have hop : OpIs nb m n ⟨A, B⟩ ⟨fun k b => 1 + timesOf nb n dt k b • (blksOf nb m (n + 1) J k.castSucc b).transpose, fun _ _ => -1⟩ := by
      refine ⟨hA, hB, ?_, ?_⟩
      · funext k b
        ext r c
        refine (vA [c.val, r.val, b.val, k.val] (mk4 c.isLt r.isLt b.isLt k.isLt)).trans ?_
        change (if c.val = r.val then (1 : ℝ) else 0) + dJ.data [c.val, r.val, b.val, k.val] = _
        rw [eye_entry, wdJ]
        rfl
      · funext k b
        ext r c
        refine (vB [c.val, r.val, b.val, k.val] (mk4 c.isLt r.isLt b.isLt k.isLt)).trans ?_
        change -(if c.val = r.val then (1 : ℝ) else 0) = _
        rw [eye_entry]
        rfl
    have hrhs : RhsIs nb m n (rhs : TE) (memOf fun (k : Fin n) b => rowsOf nb m (n + 1) gs k.succ b +
        (timesOf nb n dt k b • (blksOf nb m (n + 1) J k.castSucc b).transpose).mulVec (rowsOf nb m (n + 1) gs k.succ b - fun j => aP.data [j.val, b.val])) := by
      refine ⟨rhs, rfl, hr, fun k hk => ?_⟩
      rw [memOf_apply _ _ hk]
      funext b r
      refine (vr [0, r.val, b.val, k] (mk4 (by omega) r.isLt b.isLt hk)).trans ?_
      change gs.data [r.val, b.val, k + 1] + ∑ q : Fin m, dJ.data [q.val, r.val, b.val, k] * (gs.data [q.val, b.val, k + 1] - aP.data [q.val, b.val]) = _
      change _ = gs.data [r.val, b.val, k + 1] + ∑ q : Fin m, _ * (gs.data [q.val, b.val, k + 1] - aP.data [q.val, b.val])
      congr 1
      refine Finset.sum_congr rfl fun q _ => ?_
      rw [wdJ ⟨k, hk⟩ b r q]
    obtain ⟨a, ea, hs, hv⟩ := stored_is h3 (matvec_is hn d hop hrhs)
    refine ⟨a, ?_, hs, hv⟩
    simp only [Nat.add_sub_cancel]
    rw [edJ]
    simp only [TE.bind_ok]
    rw [eA]
    simp only [TE.bind_ok]
    rw [eB]
    simp only [TE.bind_ok]
    rw [er]
    simp only [TE.bind_ok]
    exact ea
  | forwardEuler =>
    have kJ : Is [m, m, nb, n] (firstFrom (J : TE)) fun i => J.data (i.dropLast ++ [i.getLastD 0 + 1]) := Is.firstFrom (S := [m, m, nb]) (n := n + 1) (self_is h2)
    obtain ⟨dJ, edJ, hdJ, vdJ⟩ := kJ.transLast.mul_left kdt2
    have wdJ : ∀ (k : Fin n) (b : Fin nb) (r c : Fin m), dJ.data [c.val, r.val, b.val, k.val] = (timesOf nb n dt k b • (blksOf nb m (n + 1) J k.succ b).transpose) r c := by
      intro k b r c
      refine (vdJ [c.val, r.val, b.val, k.val] (mk4 c.isLt r.isLt b.isLt k.isLt)).trans ?_
      change J.data [r.val, c.val, b.val, k.val + 1] * dt.data [b.val, k.val] = _
      rw [mul_comm]
      rfl
    obtain ⟨A, eA, hA, vA⟩ := eyes_is m nb n
    obtain ⟨B, eB, hB, vB⟩ := Is.firstFrom (S := [m, m, nb]) ((self_is hdJ).sub_left (eyes_is m nb n).rep)
    obtain ⟨rhs, er, hr, vr⟩ := kg.add_left ((self_is hdJ).mbmm ka.neg).rep
    have hop : OpIs nb m n ⟨A, B⟩ ⟨fun _ _ => 1, fun (k : Fin (n - 1)) b => timesOf nb n dt ⟨k.val + 1, by omega⟩ b • (blksOf nb m (n + 1) J (Fin.succ ⟨k.val + 1, by omega⟩) b).transpose - 1⟩ := by
      refine ⟨hA, hB, ?_, ?_⟩
      · funext k b
        ext r c
        refine (vA [c.val, r.val, b.val, k.val] (mk4 c.isLt r.isLt b.isLt k.isLt)).trans ?_
        exact eye_entry r c
      · funext k b
        ext r c
        refine (vB [c.val, r.val, b.val, k.val] (mk4 c.isLt r.isLt b.isLt k.isLt)).trans ?_
        change dJ.data [c.val, r.val, b.val, k.val + 1] - (if c.val = r.val then (1 : ℝ) else 0) = _
        rw [eye_entry, wdJ ⟨k.val + 1, by omega⟩ b r c]
        rfl
    have hrhs : RhsIs nb m n (rhs : TE) (memOf fun (k : Fin n) b => rowsOf nb m (n + 1) gs k.succ b +
        (timesOf nb n dt k b • (blksOf nb m (n + 1) J k.succ b).transpose).mulVec (-fun j => aP.data [j.val, b.val])) := by
      refine ⟨rhs, rfl, hr, fun k hk => ?_⟩
      rw [memOf_apply _ _ hk]
      funext b r
      refine (vr [0, r.val, b.val, k] (mk4 (by omega) r.isLt b.isLt hk)).trans ?_
      change gs.data [r.val, b.val, k + 1] + ∑ q : Fin m, dJ.data [q.val, r.val, b.val, k] * -aP.data [q.val, b.val] = _
      change _ = gs.data [r.val, b.val, k + 1] + ∑ q : Fin m, _ * -aP.data [q.val, b.val]
      congr 1
      refine Finset.sum_congr rfl fun q _ => ?_
      rw [wdJ ⟨k, hk⟩ b r q]
    obtain ⟨a, ea, hs, hv⟩ := stored_is h3 (matvec_is hn d hop hrhs)
    refine ⟨a, ?_, hs, hv⟩
    simp only [Nat.add_sub_cancel]
    rw [edJ]
    simp only [TE.bind_ok]
    rw [eA]
    simp only [TE.bind_ok]
    rw [← eA, eB]
    simp only [TE.bind_ok]
    rw [er]
    simp only [TE.bind_ok]
    exact ea

theorem accumulate_is {S : ℕ → Prop} {tf : ℕ → Fin nb → ℝ} {yf : ℕ → BVec (Fin nb) m ℝ} {vjp : Tensor → Tensor → Tensor → Except String (Fin p → ℝ)}
    {fp : Fin nb → ℝ → (Fin m → ℝ) → Matrix (Fin m) (Fin p) ℝ} (hV : VjpOn nb m S tf yf vjp fp) (hn : 0 < n) (s : Scheme) (prev : Fin p → ℝ) {t y a g : Tensor} (h1 : t.shape = [nb, n + 1]) (h2 : y.shape = [m, nb, n + 1]) (h3 : a.shape = [m, nb, n + 1]) (h4 : g.shape = [m, nb, n + 1])
    (idx : Fin (n + 1) → ℕ) (hrow : ∀ k, timesOf nb (n + 1) t k = tf (idx k) ∧ rowsOf nb m (n + 1) y k = yf (idx k))
    (hS : match s with | .backwardEuler => ∀ k : Fin n, S (idx k.castSucc) | .forwardEuler => ∀ k : Fin n, S (idx k.succ)) :
    tAccumulate s vjp prev t y a g = .ok (accumulate s fp prev (timesOf nb (n + 1) t) (rowsOf nb m (n + 1) y) (rowsOf nb m (n + 1) a) (rowsOf nb m (n + 1) g)) := by
  have kt : Is [nb, n + 1] (t : TE) t.data := self_is h1
  obtain ⟨dt, ed, hd, vd⟩ := (Is.firstFrom (S := [nb]) (n := n + 1) kt).sub_left (Is.firstInit (S := [nb]) (n := n + 1) kt).rep
  have wd : ∀ (k : Fin n) (b : Fin nb), dt.data [b.val, k.val] = Ode.diff (timesOf nb (n + 1) t) k b := fun k b => vd [b.val, k.val] (mk2 b.isLt k.isLt)
  have hd' : dt.shape = [nb, n] := hd
  obtain ⟨ndt, en, hnd, vn⟩ := (self_is hd').unsq.neg
  have kndt : Rep [m, nb, n] (-unsq (dt : TE)) fun i => -dt.data i.tail := by
    rw [en]
    refine ⟨ndt, rfl, ?_, fun i hi => ?_⟩
    · rw [hnd]
      exact (fits_cons _ _ _ _).2 ⟨.inr rfl, bshape_self _⟩
    · obtain ⟨x, b, j, rfl, hx, hb, hj⟩ := valid3 hi
      have : bidx ndt.shape [x, b, j] = [0, b, j] := by
        rw [hnd]
        change (if 1 = 1 then 0 else x) :: bidx [nb, n] [b, j] = _
        rw [bidx_self (mk2 hb hj)]
        rfl
      rw [this]
      exact vn [0, b, j] (mk3 (by omega) hb hj)
  unfold tAccumulate diffFirst
  rw [ed]
  simp only [TE.bind_ok]
  cases s with
  | backwardEuler =>
    obtain ⟨t', et, ht, vt⟩ := Is.firstInit (S := [nb]) (n := n + 1) kt
    obtain ⟨y', ey, hy, vy⟩ := Is.firstInit (S := [m, nb]) (n := n + 1) (self_is h2)
    obtain ⟨w, ew, hw, vw⟩ := ((Is.firstFrom (S := [m, nb]) (n := n + 1) (self_is h3)).sub_left (Is.firstFrom (S := [m, nb]) (n := n + 1) (self_is h4)).rep).mul_left kndt
    have wt : timesOf nb n t' = fun k => timesOf nb (n + 1) t k.castSucc := by
      funext k b
      exact vt [b.val, k.val] (mk2 b.isLt k.isLt)
    have wy : rowsOf nb m n y' = fun k => rowsOf nb m (n + 1) y k.castSucc := by
      funext k b j
      exact vy [j.val, b.val, k.val] (mk3 j.isLt b.isLt k.isLt)
    have ww : rowsOf nb m n w = fun k b => (-Ode.diff (timesOf nb (n + 1) t) k b) • (rowsOf nb m (n + 1) a k.succ b - rowsOf nb m (n + 1) g k.succ b) := by
      funext k b j
      refine (vw [j.val, b.val, k.val] (mk3 j.isLt b.isLt k.isLt)).trans ?_
      change (a.data [j.val, b.val, k.val + 1] - g.data [j.val, b.val, k.val + 1]) * -dt.data [b.val, k.val] = _
      rw [wd, mul_comm]
      rfl
    rw [et]
    simp only [TE.bind_ok]
    rw [ey]
    simp only [TE.bind_ok]
    rw [ew]
    simp only [TE.bind_ok]
    rw [hV n t' y' w ⟨hn, ht, hy, fun k => ⟨_, hS k, by rw [wt]; exact (hrow _).1, by rw [wy]; exact (hrow _).2⟩⟩ hw, wt, wy, ww]
    rfl
  | forwardEuler =>
    obtain ⟨t', et, ht, vt⟩ := Is.firstFrom (S := [nb]) (n := n + 1) kt
    obtain ⟨y', ey, hy, vy⟩ := Is.firstFrom (S := [m, nb]) (n := n + 1) (self_is h2)
    obtain ⟨w, ew, hw, vw⟩ := (Is.firstInit (S := [m, nb]) (n := n + 1) (self_is h3)).mul_left kndt
    have wt : timesOf nb n t' = fun k => timesOf nb (n + 1) t k.succ := by
      funext k b
      exact vt [b.val, k.val] (mk2 b.isLt k.isLt)
    have wy : rowsOf nb m n y' = fun k => rowsOf nb m (n + 1) y k.succ := by
      funext k b j
      exact vy [j.val, b.val, k.val] (mk3 j.isLt b.isLt k.isLt)
    have ww : rowsOf nb m n w = fun k b => (-Ode.diff (timesOf nb (n + 1) t) k b) • rowsOf nb m (n + 1) a k.castSucc b := by
      funext k b j
      refine (vw [j.val, b.val, k.val] (mk3 j.isLt b.isLt k.isLt)).trans ?_
      change a.data [j.val, b.val, k.val] * -dt.data [b.val, k.val] = _
      rw [wd, mul_comm]
      rfl
    rw [et]
    simp only [TE.bind_ok]
    rw [ey]
    simp only [TE.bind_ok]
    rw [ew]
    simp only [TE.bind_ok]
    rw [hV n t' y' w ⟨hn, ht, hy, fun k => ⟨_, hS k, by rw [wt]; exact (hrow _).1, by rw [wy]; exact (hrow _).2⟩⟩ hw, wt, wy, ww]
    rfl

/-- `x[k-1:k+q]` -/
theorem slice_block {S : List ℕ} {nt k q : ℕ} {x : Tensor} (hx : x.shape = S ++ [nt]) (hk0 : 0 < k) (hk : k < nt) :
    Is (S ++ [sliceLen nt k q + 1]) (firstSlice (k - 1) (k + q) (x : TE)) fun i => x.data (i.dropLast ++ [k - 1 + i.getLastD 0]) := by
  have h := Is.firstSlice (S := S) (k - 1) (k + q) (self_is hx)
  have e : min (k + q) nt - (k - 1) = sliceLen nt k q + 1 := by
    unfold sliceLen
    omega
  rwa [e] at h

/-- `StepRow` counted from the end -/
def FlipRow (s : Scheme) (nt j : ℕ) : Prop :=
  match s with
  | .backwardEuler => j + 1 < nt
  | .forwardEuler => 0 < j ∧ j < nt

theorem rewindStep_is {func : Tensor → Tensor → Except String (Tensor × Tensor)} {f : Func (Fin nb) m}
    {vjp : Tensor → Tensor → Tensor → Except String (Fin p → ℝ)} {fp : Fin nb → ℝ → (Fin m → ℝ) → Matrix (Fin m) (Fin p) ℝ} (s : Scheme) (d : Direct)
    {nt k q : ℕ} (hk0 : 0 < k) (hk : k < nt) (hq : 0 < q) {t y g : Tensor} {tf : ℕ → Fin nb → ℝ} {yf gf : ℕ → BVec (Fin nb) m ℝ} (ht : t.shape = [nb, nt]) (hy : y.shape = [m, nb, nt])
    (hg : g.shape = [m, nb, nt]) (htf : ∀ (j : ℕ) (b : Fin nb), j < nt → t.data [b.val, j] = tf j b) (hyf : ∀ (j : ℕ) (b : Fin nb) (i : Fin m), j < nt → y.data [i.val, b.val, j] = yf j b i)
    (hgf : ∀ (j : ℕ) (b : Fin nb) (i : Fin m), j < nt → g.data [i.val, b.val, j] = gf j b i) (hF : JacOn nb m (· < nt) tf yf func fun b t y => (f b t y).2) (hV : VjpOn nb m (FlipRow s nt) tf yf vjp fp) (r : Fin p → ℝ) {a : Tensor}
    (ha : a.shape = [m, nb]) :
    ∃ a' : Tensor, tRewindStep s d func vjp q t y g (r, a) k = .ok ((rewindStep s d f fp nt q tf yf gf (r, fun b j => a.data [j.val, b.val]) k).1, a') ∧ a'.shape = [m, nb] ∧
      (fun (b : Fin nb) (j : Fin m) => a'.data [j.val, b.val]) = (rewindStep s d f fp nt q tf yf gf (r, fun b j => a.data [j.val, b.val]) k).2 := by
  have hL := sliceLen_pos hk hq
  have hle : ∀ j : Fin (sliceLen nt k q + 1), k - 1 + j.val < nt := by
    intro j
    have := j.isLt
    unfold sliceLen at this
    omega
  obtain ⟨ts, et, hts, vt⟩ := slice_block (S := [nb]) (q := q) ht hk0 hk
  obtain ⟨ys, ey, hys, vy⟩ := slice_block (S := [m, nb]) (q := q) hy hk0 hk
  obtain ⟨gs, eg, hgs, vg⟩ := slice_block (S := [m, nb]) (q := q) hg hk0 hk
  have wt : timesOf nb (sliceLen nt k q + 1) ts = fun j => tf (k - 1 + j.val) := by
    funext j b
    exact (vt [b.val, j.val] (mk2 b.isLt j.isLt)).trans (htf _ b (hle j))
  have wy : rowsOf nb m (sliceLen nt k q + 1) ys = fun j => yf (k - 1 + j.val) := by
    funext j b i
    exact (vy [i.val, b.val, j.val] (mk3 i.isLt b.isLt j.isLt)).trans (hyf _ b i (hle j))
  have wg : rowsOf nb m (sliceLen nt k q + 1) gs = fun j => gf (k - 1 + j.val) := by
    funext j b i
    exact (vg [i.val, b.val, j.val] (mk3 i.isLt b.isLt j.isLt)).trans (hgf _ b i (hle j))
  have hrow : ∀ j : Fin (sliceLen nt k q + 1), timesOf nb (sliceLen nt k q + 1) ts j = tf (k - 1 + j.val) ∧ rowsOf nb m (sliceLen nt k q + 1) ys j = yf (k - 1 + j.val) := by
    rw [wt, wy]
    exact fun j => ⟨rfl, rfl⟩
  have kt : Is [nb, sliceLen nt k q + 1] (ts : TE) ts.data := self_is hts
  obtain ⟨dt, ed, hd, vd⟩ := (Is.firstFrom (S := [nb]) (n := sliceLen nt k q + 1) kt).sub_left (Is.firstInit (S := [nb]) (n := sliceLen nt k q + 1) kt).rep
  have wd : timesOf nb (sliceLen nt k q) dt = Ode.diff fun j : Fin (sliceLen nt k q + 1) => tf (k - 1 + j.val) := by
    rw [← wt]
    funext j b
    exact vd [b.val, j.val] (mk2 b.isLt j.isLt)
  obtain ⟨R, J, ef, hJ, vf⟩ := hF _ ts ys ⟨Nat.succ_pos _, hts, hys, fun j => ⟨_, hle j, (hrow j).1, (hrow j).2⟩⟩
  have vJ : blksOf nb m (sliceLen nt k q + 1) J = fun j b => (f b (tf (k - 1 + j.val) b) (yf (k - 1 + j.val) b)).2 := by
    rw [vf, wt, wy]
  obtain ⟨A, eA, hA, vA⟩ := updateAdjoint_is hL s d hd hJ ha hgs
  rw [wd, vJ, wg] at vA
  have hacc := accumulate_is hV hL s r hts hys hA hgs (fun j => k - 1 + j.val) hrow (by
    cases s with
    | backwardEuler =>
      intro j
      have := hle j.succ
      simp only [Fin.val_succ] at this
      change k - 1 + j.val + 1 < nt
      omega
    | forwardEuler =>
      intro j
      have := hle j.succ
      exact ⟨by simp, this⟩)
  rw [wt, wy, wg, vA] at hacc
  obtain ⟨l, el, hl, vl⟩ := Is.first (S := [m, nb]) (sliceLen nt k q) (self_is hA) (by omega)
  refine ⟨l, ?_, hl, ?_⟩
  · have h0 : (if 0 < p then tAccumulate s vjp r ts ys A gs else .ok r : Except String (Fin p → ℝ)) = .ok (rewindStep s d f fp nt q tf yf gf (r, fun b j => a.data [j.val, b.val]) k).1 := by
      by_cases hp : 0 < p
      · rw [if_pos hp, hacc]
        rfl
      · rw [if_neg hp]
        congr 1
        funext i
        have := i.isLt
        omega
    unfold tRewindStep
    rw [et]
    simp only [TE.bind_ok]
    rw [ey]
    simp only [TE.bind_ok]
    rw [eg]
    simp only [TE.bind_ok]
    rw [ef, withPair_ok]
    unfold diffFirst
    rw [ed]
    simp only [TE.bind_ok]
    rw [eA]
    simp only [TE.bind_ok]
    rw [h0]
    dsimp only
    rw [hA]
    have e1 : [m, nb, sliceLen nt k q + 1].getLastD 0 - 1 = sliceLen nt k q := rfl
    rw [e1, el]
    rfl
  · funext b j
    refine (vl [j.val, b.val] (mk2 j.isLt b.isLt)).trans ?_
    exact congrFun (congrFun (congrFun vA (Fin.last _)) b) j

theorem rewindLoop_is {func : Tensor → Tensor → Except String (Tensor × Tensor)} {f : Func (Fin nb) m}
    {vjp : Tensor → Tensor → Tensor → Except String (Fin p → ℝ)} {fp : Fin nb → ℝ → (Fin m → ℝ) → Matrix (Fin m) (Fin p) ℝ} (s : Scheme) (d : Direct)
    {nt q : ℕ} (hq : 0 < q) {t y g : Tensor} {tf : ℕ → Fin nb → ℝ} {yf gf : ℕ → BVec (Fin nb) m ℝ} (ht : t.shape = [nb, nt]) (hy : y.shape = [m, nb, nt])
    (hg : g.shape = [m, nb, nt]) (htf : ∀ (j : ℕ) (b : Fin nb), j < nt → t.data [b.val, j] = tf j b) (hyf : ∀ (j : ℕ) (b : Fin nb) (i : Fin m), j < nt → y.data [i.val, b.val, j] = yf j b i)
    (hgf : ∀ (j : ℕ) (b : Fin nb) (i : Fin m), j < nt → g.data [i.val, b.val, j] = gf j b i) (hF : JacOn nb m (· < nt) tf yf func fun b t y => (f b t y).2) (hV : VjpOn nb m (FlipRow s nt) tf yf vjp fp) :
    ∀ (ks : List ℕ) (r : Fin p → ℝ) (a : Tensor), (∀ k ∈ ks, 0 < k ∧ k < nt) → a.shape = [m, nb] →
    ∃ a' : Tensor, tRewindLoop s d func vjp q t y g ks (r, a) = .ok ((ks.foldl (rewindStep s d f fp nt q tf yf gf) (r, fun b j => a.data [j.val, b.val])).1, a') ∧ a'.shape = [m, nb] ∧
      (fun (b : Fin nb) (j : Fin m) => a'.data [j.val, b.val]) = (ks.foldl (rewindStep s d f fp nt q tf yf gf) (r, fun b j => a.data [j.val, b.val])).2 := by
  intro ks
  induction ks with
  | nil => exact fun r a _ ha => ⟨a, rfl, ha, rfl⟩
  | cons k ks ih =>
    intro r a hks ha
    obtain ⟨h0, h1⟩ := hks k (by simp)
    obtain ⟨a1, e1, hs1, v1⟩ := rewindStep_is s d h0 h1 hq ht hy hg htf hyf hgf hF hV r ha
    obtain ⟨a2, e2, hs2, v2⟩ := ih (rewindStep s d f fp nt q tf yf gf (r, fun b j => a.data [j.val, b.val]) k).1 a1 (fun k hk => hks k (by simp [hk])) hs1
    rw [v1] at e2 v2
    refine ⟨a2, ?_, hs2, v2⟩
    unfold tRewindLoop
    rw [e1]
    exact e2

theorem CallOn.flip {S : ℕ → Prop} {nt : ℕ} {times : ℕ → Fin nb → ℝ} {Y : ℕ → BVec (Fin nb) m ℝ} {q : ℕ} {t y : Tensor} {S' : ℕ → Prop} (hS : ∀ j, S' j → S (nt - 1 - j))
    (h : CallOn nb m S' (flipRows nt times) (flipRows nt Y) q t y) : CallOn nb m S times Y q t y :=
  ⟨h.pos, h.times_shape, h.states_shape, fun k => by
    obtain ⟨j, h1, h2, h3⟩ := h.rows k
    exact ⟨nt - 1 - j, hS j h1, h2, h3⟩⟩

theorem JacOn.flip {nt : ℕ} (hnt : 0 < nt) {times : ℕ → Fin nb → ℝ} {Y : ℕ → BVec (Fin nb) m ℝ} {func : Tensor → Tensor → Except String (Tensor × Tensor)}
    {J : Fin nb → ℝ → (Fin m → ℝ) → Matrix (Fin m) (Fin m) ℝ} (h : JacOn nb m (· < nt) times Y func J) : JacOn nb m (· < nt) (flipRows nt times) (flipRows nt Y) func J :=
  fun q t y hc => h q t y (hc.flip fun j _ => by omega)

theorem VjpOn.flip {s : Scheme} {nt : ℕ} (hnt : 0 < nt) {times : ℕ → Fin nb → ℝ} {Y : ℕ → BVec (Fin nb) m ℝ} {vjp : Tensor → Tensor → Tensor → Except String (Fin p → ℝ)}
    {fp : Fin nb → ℝ → (Fin m → ℝ) → Matrix (Fin m) (Fin p) ℝ} (h : VjpOn nb m (StepRow s nt) times Y vjp fp) : VjpOn nb m (FlipRow s nt) (flipRows nt times) (flipRows nt Y) vjp fp :=
  fun q t y a hc => h q t y a (hc.flip fun j hj => by
    cases s
    · change j + 1 < nt at hj
      exact ⟨by omega, by omega⟩
    · obtain ⟨h1, h2⟩ : 0 < j ∧ j < nt := hj
      change nt - 1 - j + 1 < nt
      omega)

theorem FuncIs.jacOn {P : Fin nb → Set ℝ} {func : Tensor → Tensor → Except String (Tensor × Tensor)} {f : Func (Fin nb) m} (hF : FuncIs nb m P func f.lift) {S : ℕ → Prop}
    {times : ℕ → Fin nb → ℝ} (hP : ∀ j b, S j → times j b ∈ P b) (Y : ℕ → BVec (Fin nb) m ℝ) : JacOn nb m S times Y func fun b t y => (f b t y).2 := by
  intro q t y hc
  obtain ⟨R, J, h1, -, h2, h3⟩ := hF q t y hc.times_shape hc.states_shape fun k b => by
    obtain ⟨j, hj, e, -⟩ := hc.rows k
    rw [e]
    exact hP j b hj
  exact ⟨R, J, h1, h2, congrArg Prod.snd h3⟩

theorem VjpIs.on {P : Fin nb → Set ℝ} {vjp : Tensor → Tensor → Tensor → Except String (Fin p → ℝ)} {fp : Fin nb → ℝ → (Fin m → ℝ) → Matrix (Fin m) (Fin p) ℝ} (hV : VjpIs nb m P vjp fp) {S : ℕ → Prop}
    {times : ℕ → Fin nb → ℝ} (hP : ∀ j b, S j → times j b ∈ P b) (Y : ℕ → BVec (Fin nb) m ℝ) : VjpOn nb m S times Y vjp fp :=
  fun q t y a hc ha => hV q t y a hc.times_shape hc.states_shape ha fun k b => by
    obtain ⟨j, hj, e, -⟩ := hc.rows k
    rw [e]
    exact hP j b hj

theorem StepRow.lt {s : Scheme} {nt j : ℕ} (h : StepRow s nt j) : j < nt := by
  cases s
  · exact h.2
  · exact Nat.lt_of_succ_lt h

theorem rewind_on {func : Tensor → Tensor → Except String (Tensor × Tensor)} {f : Func (Fin nb) m}
    {vjp : Tensor → Tensor → Tensor → Except String (Fin p → ℝ)} {fp : Fin nb → ℝ → (Fin m → ℝ) → Matrix (Fin m) (Fin p) ℝ} (s : Scheme) (d : Direct)
    {nt : ℕ} (hnt : 0 < nt) {t y g : Tensor} (ht : t.shape = [nb, nt]) (hy : y.shape = [m, nb, nt]) (hg : g.shape = [m, nb, nt])
    (hF : JacOn nb m (· < nt) (fun k b => t.data [b.val, k]) (statesOf nb m y) func fun b t y => (f b t y).2)
    (hV : VjpOn nb m (StepRow s nt) (fun k b => t.data [b.val, k]) (statesOf nb m y) vjp fp) (q : ℤ) :
    (∀ e, rewind s d f fp nt (fun k b => t.data [b.val, k]) (statesOf nb m y) (statesOf nb m g) q = .error e → ∃ e', tRewind s d func vjp t y g q = .error e') ∧
    ∀ grad lam, rewind s d f fp nt (fun k b => t.data [b.val, k]) (statesOf nb m y) (statesOf nb m g) q = .ok (grad, lam) →
      ∃ L : Tensor, tRewind s d func vjp t y g q = .ok (grad, L) ∧ L.shape = [m, nb] ∧ ∀ (b : Fin nb) (j : Fin m), L.data [j.val, b.val] = lam b j := by
  obtain ⟨t', et, ht', vt⟩ := Is.flipFirst (S := [nb]) (self_is ht)
  obtain ⟨y', ey, hy', vy⟩ := Is.flipFirst (S := [m, nb]) (self_is hy)
  obtain ⟨g', eg, hg', vg⟩ := Is.flipFirst (S := [m, nb]) (self_is hg)
  obtain ⟨a0, ea, ha, va⟩ := Is.first (S := [m, nb]) 0 (self_is hg') hnt
  have wa : (fun (b : Fin nb) (j : Fin m) => a0.data [j.val, b.val]) = flipRows nt (statesOf nb m g) 0 := by
    funext b j
    refine (va [j.val, b.val] (mk2 j.isLt b.isLt)).trans ?_
    exact vg [j.val, b.val, 0] (mk3 j.isLt b.isLt hnt)
  have ev : tRewind s d func vjp t y g q = match blockStarts nt q with
      | .error e => .error e
      | .ok starts => tRewindLoop s d func vjp q.toNat t' y' g' starts (0, a0) := by
    unfold tRewind
    rw [et]
    simp only [TE.bind_ok]
    rw [ey]
    simp only [TE.bind_ok]
    rw [eg]
    simp only [TE.bind_ok]
    rw [ea]
    simp only [TE.bind_ok]
    rw [ht']
    rfl
  rw [ev]
  unfold rewind
  cases hst : blockStarts nt q with
  | error e => exact ⟨fun _ _ => ⟨e, rfl⟩, fun _ _ h => (by cases h)⟩
  | ok starts =>
    refine ⟨fun _ h => (by cases h), fun grad lam h => ?_⟩
    have hks : ∀ k ∈ starts, 0 < k ∧ k < nt ∧ 0 < q.toNat := by
      unfold blockStarts at hst
      split_ifs at hst with h0 h1
      · injection hst with hst
        subst hst
        simp
      · injection hst with hst
        subst hst
        intro k hk
        obtain ⟨i, hi, rfl⟩ := List.mem_range'.1 hk
        have hq : 0 < q.toNat := by omega
        refine ⟨by omega, ?_, hq⟩
        have h2 : (nt - 1 + (q.toNat - 1)) / q.toNat * q.toNat ≤ nt - 1 + (q.toNat - 1) := Nat.div_mul_le_self _ _
        have h3 : (i + 1) * q.toNat ≤ (nt - 1 + (q.toNat - 1)) / q.toNat * q.toNat := Nat.mul_le_mul_right _ hi
        rw [Nat.add_mul, one_mul] at h3
        have h4 : q.toNat * i = i * q.toNat := Nat.mul_comm _ _
        omega
    by_cases hemp : starts = []
    · subst hemp
      injection h with h
      obtain ⟨rfl, rfl⟩ := Prod.mk.inj h
      exact ⟨a0, rfl, ha, fun b j => congrFun (congrFun wa b) j⟩
    · obtain ⟨k0, hk0⟩ := List.exists_mem_of_ne_nil _ hemp
      obtain ⟨L, eL, hL, vL⟩ := rewindLoop_is (tf := flipRows nt fun k b => t.data [b.val, k]) (yf := flipRows nt (statesOf nb m y)) (gf := flipRows nt (statesOf nb m g)) s d (hks k0 hk0).2.2
        ht' hy' hg' (fun j b hj => vt [b.val, j] (mk2 b.isLt hj)) (fun j b i hj => vy [i.val, b.val, j] (mk3 i.isLt b.isLt hj)) (fun j b i hj => vg [i.val, b.val, j] (mk3 i.isLt b.isLt hj))
        (hF.flip hnt) (hV.flip hnt) starts 0 a0 (fun k hk => ⟨(hks k hk).1, (hks k hk).2.1⟩) ha
      rw [wa] at eL vL
      injection h with h
      rw [h] at eL vL
      exact ⟨L, eL, hL, fun b j => congrFun (congrFun vL b) j⟩

theorem rewind_is {P : Fin nb → Set ℝ} {func : Tensor → Tensor → Except String (Tensor × Tensor)} {f : Func (Fin nb) m} (hF : FuncIs nb m P func f.lift)
    {vjp : Tensor → Tensor → Tensor → Except String (Fin p → ℝ)} {fp : Fin nb → ℝ → (Fin m → ℝ) → Matrix (Fin m) (Fin p) ℝ} (hV : VjpIs nb m P vjp fp) (s : Scheme) (d : Direct)
    {nt : ℕ} (hnt : 0 < nt) {t y g : Tensor} (ht : t.shape = [nb, nt]) (hy : y.shape = [m, nb, nt]) (hg : g.shape = [m, nb, nt])
    (hP : ∀ (j : ℕ) (b : Fin nb), j < nt → t.data [b.val, j] ∈ P b) (q : ℤ) :
    (∀ e, rewind s d f fp nt (fun k b => t.data [b.val, k]) (statesOf nb m y) (statesOf nb m g) q = .error e → ∃ e', tRewind s d func vjp t y g q = .error e') ∧
    ∀ grad lam, rewind s d f fp nt (fun k b => t.data [b.val, k]) (statesOf nb m y) (statesOf nb m g) q = .ok (grad, lam) →
      ∃ L : Tensor, tRewind s d func vjp t y g q = .ok (grad, L) ∧ L.shape = [m, nb] ∧ ∀ (b : Fin nb) (j : Fin m), L.data [j.val, b.val] = lam b j :=
  rewind_on s d hnt ht hy hg (hF.jacOn hP _) (hV.on (fun j b hj => hP j b hj.lt) _) q

end Pyoptmat.Spec
