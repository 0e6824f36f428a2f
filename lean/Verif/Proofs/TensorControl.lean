import Verif.Proofs.TensorMask
import Verif.Model.TensorControl
import Verif.Model.Control

/-! # The interpolator and the control modes as torch programs -/

namespace Pyoptmat.Spec

open Pyoptmat.Tensor Pyoptmat.Material

/-! ## Operations -/

theorem Is.transpose {a b : ℕ} {x : TE} {f : List ℕ → ℝ} (h : Is [a, b] x f) :
    Is [b, a] (Tensor.transpose x) fun i => f [i.tail.headD 0, i.headD 0] := by
  obtain ⟨⟨sh, da⟩, rfl, hs, hf⟩ := h
  obtain rfl : sh = [a, b] := hs
  refine ⟨⟨[b, a], fun i => da [i.tail.headD 0, i.headD 0]⟩, rfl, rfl, fun i hi => ?_⟩
  obtain ⟨k, j, rfl, hk, hj⟩ := valid_cons_iff.1 hi
  obtain ⟨k', j', rfl, hk', hj'⟩ := valid_cons_iff.1 hj
  exact hf _ (valid_cons.2 ⟨hk', valid_cons.2 ⟨hk, List.Forall₂.nil⟩⟩)

theorem outer_shape (m n : ℕ) (S : List ℕ) : bshape (1 :: n :: S) (m :: 1 :: S) = some (m :: n :: S) := by
  simp only [bshape, bshape_self]
  by_cases h1 : n = 1 <;> by_cases h2 : 1 = m <;> simp [h1, h2] <;> subst h2 <;> simp [h1]

theorem outer_idx {m n l l' : ℕ} {S j : List ℕ} (h : Valid (m :: n :: S) (l :: l' :: j)) :
    bidx (1 :: n :: S) (l :: l' :: j) = 0 :: l' :: j ∧ bidx (m :: 1 :: S) (l :: l' :: j) = l :: 0 :: j := by
  obtain ⟨hl, h'⟩ := valid_cons.1 h
  obtain ⟨hl', hj⟩ := valid_cons.1 h'
  constructor
  · rw [show bidx (1 :: n :: S) (l :: l' :: j) = 0 :: bidx (n :: S) (l' :: j) from rfl, bidx_self h']
  · have h2 : (if m = 1 then 0 else l) = l := by split_ifs <;> omega
    rw [show bidx (m :: 1 :: S) (l :: l' :: j) = (if m = 1 then 0 else l) :: 0 :: bidx S j from rfl, bidx_self hj, h2]

/-- two-sided broadcasting of a column and a row -/
theorem Is.map2_outer {n m : ℕ} {S : List ℕ} {x y : TE} {f g : List ℕ → ℝ} (o : ℝ → ℝ → ℝ) (hx : Is (1 :: n :: S) x f) (hy : Is (m :: 1 :: S) y g) :
    Is (m :: n :: S) (Tensor.map2 o x y) (fun i => o (f (0 :: i.tail)) (g (i.headD 0 :: 0 :: i.tail.tail))) := by
  obtain ⟨a, rfl, ha, hf⟩ := hx
  obtain ⟨b, rfl, hb, hg⟩ := hy
  refine ⟨_, map2_ok _ a b (by rw [ha, hb, outer_shape]), rfl, fun i hi => ?_⟩
  obtain ⟨l, j, rfl, hk, hj⟩ := valid_cons_iff.1 hi
  obtain ⟨l', j', rfl, hk', hj'⟩ := valid_cons_iff.1 hj
  simp only [List.headD_cons, List.tail_cons]
  rw [ha, hb, (outer_idx hi).1, (outer_idx hi).2, hf _ (valid_cons.2 ⟨by omega, hj⟩), hg _ (valid_cons.2 ⟨hk, valid_cons.2 ⟨by omega, hj'⟩⟩)]

/-- comparing a column and a row -/
theorem cmp_outer {n m : ℕ} {S : List ℕ} {x y : TE} {f g : List ℕ → ℝ} (r : ℝ → ℝ → Prop) (hx : Is (1 :: n :: S) x f) (hy : Is (m :: 1 :: S) y g) :
    IsM (m :: n :: S) (cmp r x y) (fun i => r (f (0 :: i.tail)) (g (i.headD 0 :: 0 :: i.tail.tail))) := by
  obtain ⟨⟨sa, a⟩, rfl, hs, hf⟩ := hx
  obtain rfl : sa = 1 :: n :: S := hs
  obtain ⟨⟨sb, b⟩, rfl, hs, hg⟩ := hy
  obtain rfl : sb = m :: 1 :: S := hs
  dsimp only at hf hg
  refine ⟨⟨m :: n :: S, fun i => r (a (bidx (1 :: n :: S) i)) (b (bidx (m :: 1 :: S) i))⟩, ?_, rfl, fun i hi => ?_⟩
  · change (match bshape (1 :: n :: S) (m :: 1 :: S) with | none => _ | some S => _) = _
    rw [outer_shape]
  obtain ⟨l, j, rfl, hk, hj⟩ := valid_cons_iff.1 hi
  obtain ⟨l', j', rfl, hk', hj'⟩ := valid_cons_iff.1 hj
  dsimp only [List.headD_cons, List.tail_cons]
  rw [(outer_idx hi).1, (outer_idx hi).2, hf _ (valid_cons.2 ⟨by omega, hj⟩), hg _ (valid_cons.2 ⟨hk, valid_cons.2 ⟨by omega, hj'⟩⟩)]

theorem cmp_is {S : List ℕ} {x y : TE} {f g : List ℕ → ℝ} (r : ℝ → ℝ → Prop) (hx : Is S x f) (hy : Rep S y g) : IsM S (cmp r x y) fun i => r (f i) (g i) := by
  obtain ⟨⟨sa, a⟩, rfl, hs, hf⟩ := hx
  obtain rfl : sa = S := hs
  obtain ⟨b, rfl, hb, hg⟩ := hy
  refine ⟨⟨sa, fun i => r (a (bidx sa i)) (b.data (bidx b.shape i))⟩, ?_, rfl, fun i hi => ?_⟩
  · change (match bshape sa b.shape with | none => _ | some S => _) = _
    rw [bshape_comm_fits hb]
  · dsimp only at hf ⊢
    rw [bidx_self hi, hf i hi, hg i hi]

theorem orHead_is {S : List ℕ} {n : ℕ} {x y : Except String Mask} {p q : List ℕ → Prop} (hx : IsM ((n + 1) :: S) x p) (hy : IsM S y q) :
    IsM ((n + 1) :: S) (orHead x y) fun i => (i.headD 0 = 0 ∧ (p i ∨ q i.tail)) ∨ (i.headD 0 ≠ 0 ∧ p i) := by
  obtain ⟨⟨sh, da⟩, rfl, hs, hf⟩ := hx
  obtain rfl : sh = (n + 1) :: S := hs
  dsimp only at hf
  have h0 : IsM S (.ok ⟨S, fun i => da (0 :: i)⟩) fun i => p (0 :: i) := ⟨_, rfl, rfl, fun i hi => hf _ (valid_cons.2 ⟨Nat.succ_pos n, hi⟩)⟩
  obtain ⟨r, hr, hs, hp⟩ := logical_is Or h0 hy
  refine ⟨⟨(n + 1) :: S, fun i => (i.headD 0 = 0 ∧ r.data (bidx r.shape i.tail)) ∨ (i.headD 0 ≠ 0 ∧ da i)⟩, ?_, rfl, fun k hk => ?_⟩
  · change Mask.bind (logical Or (.ok ⟨S, fun i => da (0 :: i)⟩) y) _ = _
    rw [hr]
    change (if bshape r.shape S = some S then _ else _) = _
    rw [if_pos (by rw [hs, bshape_self])]
  · obtain ⟨j, i, rfl, hj, hi⟩ := valid_cons_iff.1 hk
    change (j = 0 ∧ r.data (bidx r.shape i)) ∨ (j ≠ 0 ∧ da (j :: i)) ↔ (j = 0 ∧ (p (j :: i) ∨ q i)) ∨ (j ≠ 0 ∧ p (j :: i))
    rw [hs, bidx_self hi, hf _ hk]
    by_cases h : j = 0
    · subst h
      simp [hp i hi]
    · simp [h]

open Classical in
/-- `x[m]` -/
theorem maskSelect_raw {n : ℕ} {S : List ℕ} {x : TE} {m : Except String Mask} {f : List ℕ → ℝ} {p : List ℕ → Prop} (hx : Is (n :: S) x f)
    (hm : IsM (n :: S) m p) {l : List ℝ}
    (el : ((List.range S.prod).flatMap fun q => ((List.range n).filter fun j => decide (p (j :: unflat S q))).map fun j => f (j :: unflat S q)) = l) :
    maskSelect x m = ((⟨[l.length], fun i => l.getD (i.headD 0) 0⟩ : Tensor) : TE) := by
  subst el
  set l := (List.range S.prod).flatMap fun q => ((List.range n).filter fun j => decide (p (j :: unflat S q))).map fun j => f (j :: unflat S q)
  obtain ⟨⟨sh, da⟩, rfl, hs, hf⟩ := hx
  obtain rfl : sh = n :: S := hs
  obtain ⟨⟨sh, dm⟩, rfl, hs, hp⟩ := hm
  obtain rfl : sh = n :: S := hs
  have hl : ((List.range (n :: S).prod).filter fun q => decide (dm (unflat (n :: S) q))).map (fun q => da (unflat (n :: S) q)) = l := by
    rw [select_list n S (fun i => decide (dm i)) da]
    refine List.flatMap_congr fun q hq => ?_
    have hv := unflat_valid (List.mem_range.1 hq)
    have e : (List.range n).filter (fun j => decide (dm (j :: unflat S q))) = (List.range n).filter fun j => decide (p (j :: unflat S q)) :=
      List.filter_congr fun j hj => decide_eq_decide.2 (hp _ (valid_cons.2 ⟨List.mem_range.1 hj, hv⟩))
    rw [e]
    exact List.map_congr_left fun j hj => hf _ (valid_cons.2 ⟨List.mem_range.1 (List.mem_of_mem_filter hj), hv⟩)
  rw [← hl]
  change (if n :: S = n :: S then _ else _) = _
  rw [if_pos rfl]

/-! ## The interpolator -/

/-- a table with `(ntime, nbatch)` entries, one column per test -/
def colT (x : Tensor) (b j : ℕ) : ℝ := x.data [b, j]

section
variable {nb n : ℕ} {times data : Tensor}

/-- the intermediate results of `forward`, for query times that have been transposed -/
theorem interp_parts (hn : 0 < n) (ht : times.shape = [nb, n + 1]) (hd : data.shape = [nb, n + 1]) :
    ∃ F : TInterp, tInterp times data = .ok F ∧ ∀ (q : ℕ) (tt : Tensor) (τ : ℕ → ℕ → ℝ), tt.shape = [q, nb] → (∀ b < nb, ∀ k < q, tt.data [k, b] = τ k b) →
      ∃ off : Tensor, (unsq (tt : TE) - unsqRow (sliceInit F.times)) = (off : TE) ∧
      Is [n, q, nb] (unsqRow F.slopes * (off : TE) + unsqRow (sliceInit F.values))
        (fun i => Interp.poss (colT times (i.tail.tail.headD 0)) (colT data (i.tail.tail.headD 0)) (τ (i.tail.headD 0) (i.tail.tail.headD 0)) (i.headD 0)) ∧
      IsM [n, q, nb] (orHead (logical And (cmp (· ≤ ·) (unsq (tt : TE)) (unsqRow (sliceFrom 1 F.times))) (cmp (· > ·) (unsq (tt : TE)) (unsqRow (sliceInit F.times))))
        (cmp (· = ·) (tt : TE) (unsq (sel 0 F.times)))) (fun i => Interp.loc (colT times (i.tail.tail.headD 0)) (τ (i.tail.headD 0) (i.tail.tail.headD 0)) (i.headD 0)) := by
  have kt : Is [nb, n + 1] (times : TE) times.data := ⟨times, rfl, ht, fun _ _ => rfl⟩
  have kd : Is [nb, n + 1] (data : TE) data.data := ⟨data, rfl, hd, fun _ _ => rfl⟩
  obtain ⟨T, eT, hT⟩ := kt.transpose
  obtain ⟨V, eV, hV⟩ := kd.transpose
  have kT := hT.is
  have kV := hV.is
  obtain ⟨s, es, hs⟩ := (kV.sliceTail.sub_left kV.sliceInit.rep).div_left (kT.sliceTail.sub_left kT.sliceInit.rep).rep
  refine ⟨⟨T, V, s⟩, ?_, ?_⟩
  · unfold tInterp
    rw [eT, eV]
    simp only [TE.bind_ok]
    rw [es]
    rfl
  intro q tt τ hq hτ
  have kq : Is [q, nb] (tt : TE) fun i => τ (i.headD 0) (i.tail.headD 0) := by
    refine ⟨tt, rfl, hq, fun i hi => ?_⟩
    obtain ⟨k, j, rfl, hk, hj⟩ := valid_cons_iff.1 hi
    obtain ⟨k', j', rfl, hk', hj'⟩ := valid_cons_iff.1 hj
    cases hj'
    exact hτ _ hk' _ hk
  obtain ⟨off, eo, ho⟩ := Is.map2_outer (· - ·) kq.unsq kT.sliceInit.unsqRow
  refine ⟨off, eo, ?_, ?_⟩
  · have k1 : Rep [n, q, nb] (unsqRow (s : TE)) fun i => Interp.slope (colT times (i.tail.tail.headD 0)) (colT data (i.tail.tail.headD 0)) (i.headD 0) := by
      obtain ⟨u, eu, hu⟩ := hs.is.unsqRow
      refine ⟨u, eu, ?_, fun i hi => ?_⟩
      · rw [hu.1, fits_cons, fits_cons]
        exact ⟨.inl rfl, .inr rfl, bshape_self _⟩
      obtain ⟨l, j, rfl, hk, hj⟩ := valid_cons_iff.1 hi
      obtain ⟨l', j', rfl, hk', hj'⟩ := valid_cons_iff.1 hj
      rw [hu.1, (outer_idx hi).2, hu.2 _ (valid_cons.2 ⟨hk, valid_cons.2 ⟨by omega, hj'⟩⟩)]
      rfl
    have k2 : Rep [n, q, nb] (unsqRow (sliceInit (V : TE))) fun i => colT data (i.tail.tail.headD 0) (i.headD 0) := by
      obtain ⟨u, eu, hu⟩ := kV.sliceInit.unsqRow
      refine ⟨u, eu, ?_, fun i hi => ?_⟩
      · rw [hu.1, fits_cons, fits_cons]
        exact ⟨.inl rfl, .inr rfl, bshape_self _⟩
      obtain ⟨l, j, rfl, hk, hj⟩ := valid_cons_iff.1 hi
      obtain ⟨l', j', rfl, hk', hj'⟩ := valid_cons_iff.1 hj
      rw [hu.1, (outer_idx hi).2, hu.2 _ (valid_cons.2 ⟨hk, valid_cons.2 ⟨by omega, hj'⟩⟩)]
      rfl
    refine ((Is.mul_right k1 ho.is).add_left k2).congr fun i hi => ?_
    obtain ⟨l, j, rfl, hk, hj⟩ := valid_cons_iff.1 hi
    obtain ⟨l', j', rfl, hk', hj'⟩ := valid_cons_iff.1 hj
    rfl
  · obtain ⟨m, rfl⟩ : ∃ m, n = m + 1 := ⟨n - 1, by omega⟩
    have k0 := cmp_is (· = ·) kq ((kT.sel 0 (by omega)).rep.unsq q)
    refine (orHead_is (logical_is And (cmp_outer (· ≤ ·) kq.unsq kT.sliceTail.unsqRow) (cmp_outer (· > ·) kq.unsq kT.sliceInit.unsqRow)) k0).congr fun i hi => ?_
    obtain ⟨l, j, rfl, hk, hj⟩ := valid_cons_iff.1 hi
    obtain ⟨l', j', rfl, hk', hj'⟩ := valid_cons_iff.1 hj
    simp only [List.tail_cons, List.headD_cons, Interp.loc, colT]
    by_cases h : l = 0
    · subst h; simp
    · simp [h]

open Classical in
/-- two dimensional query times -/
theorem interp2d_list (hn : 0 < n) (ht : times.shape = [nb, n + 1]) (hd : data.shape = [nb, n + 1]) {q : ℕ} {t : Tensor} (hq : t.shape = [nb, q]) :
    let l := (List.range [q, nb].prod).flatMap fun p => Interp.hits n (colT times ((unflat [q, nb] p).tail.headD 0)) (colT data ((unflat [q, nb] p).tail.headD 0))
      (t.data [(unflat [q, nb] p).tail.headD 0, (unflat [q, nb] p).headD 0])
    (l.length = [q, nb].prod → Is [nb, q] (tDataFn times data t) fun i => l.getD (flat [q, nb] [i.tail.headD 0, i.headD 0]) 0) ∧
      (l.length ≠ [q, nb].prod → ∃ e, tDataFn times data t = .error e) := by
  intro l
  obtain ⟨F, hF, H⟩ := interp_parts hn ht hd
  have kq : Is [nb, q] (t : TE) t.data := ⟨t, rfl, hq, fun _ _ => rfl⟩
  obtain ⟨tt, et, htt⟩ := kq.transpose
  obtain ⟨off, eo, h1, h2⟩ := H q tt (fun k b => t.data [b, k]) htt.1 fun b hb k hk => htt.2 [k, b] (valid_cons.2 ⟨hk, valid_cons.2 ⟨hb, List.Forall₂.nil⟩⟩)
  have ev : tDataFn times data t = Tensor.transpose (Tensor.reshape [q, nb] (maskSelect (unsqRow F.slopes * (off : TE) + unsqRow (sliceInit F.values))
      (orHead (logical And (cmp (· ≤ ·) (unsq (tt : TE)) (unsqRow (sliceFrom 1 F.times))) (cmp (· > ·) (unsq (tt : TE)) (unsqRow (sliceInit F.times))))
        (cmp (· = ·) (tt : TE) (unsq (sel 0 F.times)))))) := by
    unfold tDataFn
    rw [hF]
    change F.forward t = _
    unfold TInterp.forward
    have e2 : ¬ t.shape.length = 1 := by rw [hq]; simp
    rw [et]
    simp only [TE.bind_ok, if_neg e2]
    rw [eo]
    simp only [TE.bind_ok]
    rw [htt.1]
  have key := maskSelect_eq h1 h2
  rw [ev]
  constructor
  · intro hl
    refine (key.1 hl).transpose.congr fun i hi => ?_
    rfl
  · intro hl
    obtain ⟨e, he⟩ := key.2 hl
    exact ⟨e, by rw [he]; rfl⟩

/-- the query times are in range -/
def InRange (nb q n : ℕ) (times t : Tensor) : Prop := ∀ b < nb, ∀ k < q, colT times b 0 ≤ t.data [b, k] ∧ t.data [b, k] ≤ colT times b n

theorem interp2d_is (hn : 0 < n) (ht : times.shape = [nb, n + 1]) (hd : data.shape = [nb, n + 1]) (hg : ∀ b < nb, StrictGrid n (colT times b)) {q : ℕ} {t : Tensor}
    (hq : t.shape = [nb, q]) (hr : InRange nb q n times t) :
    Is [nb, q] (tDataFn times data t) fun i => Interp.interpFn n (colT times (i.headD 0)) (colT data (i.headD 0)) (t.data i) := by
  have e : ∀ p ∈ List.range [q, nb].prod, Interp.hits n (colT times ((unflat [q, nb] p).tail.headD 0)) (colT data ((unflat [q, nb] p).tail.headD 0))
      (t.data [(unflat [q, nb] p).tail.headD 0, (unflat [q, nb] p).headD 0]) =
      [Interp.interpFn n (colT times ((unflat [q, nb] p).tail.headD 0)) (colT data ((unflat [q, nb] p).tail.headD 0))
      (t.data [(unflat [q, nb] p).tail.headD 0, (unflat [q, nb] p).headD 0])] := by
    intro p hp
    have hv := unflat_valid (List.mem_range.1 hp)
    obtain ⟨k, j, e1, hk, hj⟩ := valid_cons_iff.1 hv
    obtain ⟨b, j', rfl, hb, hj'⟩ := valid_cons_iff.1 hj
    rw [e1]
    obtain ⟨w, e, e', -⟩ := Interp.hits_in_range hn (hg b hb) (colT data b) (hr b hb k hk).1 (hr b hb k hk).2
    simp only [List.tail_cons, List.headD_cons]
    rw [e, e']
  have e2 := (List.flatMap_congr e).trans (Interp.flatMap_singleton _ _)
  refine ((interp2d_list hn ht hd hq).1 (by rw [e2]; simp)).congr fun i hi => ?_
  obtain ⟨b, j, rfl, hb, hj⟩ := valid_cons_iff.1 hi
  obtain ⟨k, j', rfl, hk, hj'⟩ := valid_cons_iff.1 hj
  cases hj'
  have hv : Valid [q, nb] [k, b] := valid_cons.2 ⟨hk, valid_cons.2 ⟨hb, List.Forall₂.nil⟩⟩
  simp only [List.tail_cons, List.headD_cons]
  rw [e2, List.getD_eq_getElem _ _ (by simpa using flat_lt hv)]
  simp only [List.getElem_map, List.getElem_range, unflat_flat hv]
  rfl

theorem interp2d_refuses (hn : 0 < n) (ht : times.shape = [nb, n + 1]) (hd : data.shape = [nb, n + 1]) (hg : ∀ b < nb, StrictGrid n (colT times b)) {q : ℕ} {t : Tensor}
    (hq : t.shape = [nb, q]) {b k : ℕ} (hb : b < nb) (hk : k < q) (ho : t.data [b, k] < colT times b 0 ∨ colT times b n < t.data [b, k]) :
    ∃ e, tDataFn times data t = .error e := by
  have hv : Valid [q, nb] [k, b] := valid_cons.2 ⟨hk, valid_cons.2 ⟨hb, List.Forall₂.nil⟩⟩
  refine (interp2d_list hn ht hd hq).2 ?_
  have hlt := Interp.flatMap_length_lt (fun p => Interp.hits n (colT times ((unflat [q, nb] p).tail.headD 0)) (colT data ((unflat [q, nb] p).tail.headD 0))
      (t.data [(unflat [q, nb] p).tail.headD 0, (unflat [q, nb] p).headD 0])) 1 (List.range [q, nb].prod)
    (fun p hp => by
      have hv := unflat_valid (List.mem_range.1 hp)
      obtain ⟨k, j, e1, hk, hj⟩ := valid_cons_iff.1 hv
      obtain ⟨b, j', rfl, hb, hj'⟩ := valid_cons_iff.1 hj
      rw [e1]
      exact Interp.hits_length_le (hg b hb) hn _ _)
    ⟨flat [q, nb] [k, b], List.mem_range.2 (flat_lt hv), by
      rw [unflat_flat hv]
      change (Interp.hits n (colT times b) (colT data b) (t.data [b, k])).length < 1
      rw [Interp.hits_out_of_range (hg b hb) _ ho]; simp⟩
  rw [List.length_range, mul_one] at hlt
  exact hlt.ne

/-- one dimensional query times: whatever is selected, in the order of the tests -/
theorem interp1d (hn : 0 < n) (ht : times.shape = [nb, n + 1]) (hd : data.shape = [nb, n + 1]) {t : Tensor} (hq : t.shape = [nb]) :
    let l := (List.range nb).flatMap fun b => Interp.hits n (colT times b) (colT data b) (t.data [b])
    tDataFn times data t = if l.length = 1 then (((⟨[], fun _ => l.getD 0 0⟩ : Tensor)) : TE) else ((⟨[l.length], fun i => l.getD (i.headD 0) 0⟩ : Tensor) : TE) := by
  intro l
  obtain ⟨F, hF, H⟩ := interp_parts hn ht hd
  obtain ⟨sh, da⟩ := t
  obtain rfl : sh = [nb] := hq
  obtain ⟨off, eo, h1, h2⟩ := H 1 ⟨[1, nb], fun i => da i.tail⟩ (fun _ b => da [b]) rfl fun b hb k hk => rfl
  have el : ((List.range [1, nb].prod).flatMap fun q => ((List.range n).filter fun j => open Classical in decide (Interp.loc (colT times ((j :: unflat [1, nb] q).tail.tail.headD 0))
      (da [(j :: unflat [1, nb] q).tail.tail.headD 0]) ((j :: unflat [1, nb] q).headD 0))).map fun j => Interp.poss (colT times ((j :: unflat [1, nb] q).tail.tail.headD 0))
        (colT data ((j :: unflat [1, nb] q).tail.tail.headD 0)) (da [(j :: unflat [1, nb] q).tail.tail.headD 0]) ((j :: unflat [1, nb] q).headD 0)) = l := by
    have e1 : [1, nb].prod = nb := by simp
    rw [e1]
    refine List.flatMap_congr fun p hp => ?_
    have e2 : unflat [1, nb] p = [0, p] := by
      simp [unflat, Nat.mod_one, Nat.mod_eq_of_lt (List.mem_range.1 hp)]
    have gen : ∀ i : List ℕ, i = [0, p] → (((List.range n).filter fun j => open Classical in decide (Interp.loc (colT times ((j :: i).tail.tail.headD 0))
      (da [(j :: i).tail.tail.headD 0]) ((j :: i).headD 0))).map fun j => Interp.poss (colT times ((j :: i).tail.tail.headD 0))
        (colT data ((j :: i).tail.tail.headD 0)) (da [(j :: i).tail.tail.headD 0]) ((j :: i).headD 0)) = Interp.hits n (colT times p) (colT data p) (da [p]) := by
      rintro _ rfl; rfl
    exact gen _ e2
  have key' := maskSelect_raw h1 h2 el
  have ev : tDataFn times data ⟨[nb], da⟩ = Tensor.transpose (Tensor.squeezeLast ((⟨[l.length], fun i => l.getD (i.headD 0) 0⟩ : Tensor) : TE)) := by
    rw [← key']
    unfold tDataFn
    rw [hF]
    change F.forward _ = _
    unfold TInterp.forward
    change TE.bind (unsq (((⟨[1, nb], fun i => da i.tail⟩ : Tensor)) : TE) - unsqRow (sliceInit F.times)) _ = _
    rw [eo]
    rfl
  rw [ev]
  by_cases h : l.length = 1
  · rw [if_pos h, h]
    rfl
  · rw [if_neg h]
    have : Tensor.squeezeLast ((⟨[l.length], fun i => l.getD (i.headD 0) 0⟩ : Tensor) : TE) = ((⟨[l.length], fun i => l.getD (i.headD 0) 0⟩ : Tensor) : TE) := by
      change (match [l.length] with | 1 :: S => _ | _ => _) = _
      split
      · rename_i h'; simp at h'; exact absurd h'.1 h
      · rfl
    rw [this]
    rfl

end

end Pyoptmat.Spec
