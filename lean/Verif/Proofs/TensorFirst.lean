import Verif.Model.TensorOde
import Verif.Proofs.TensorSolve

/-! # Entries of torch expressions: operations on the first dimensions -/

namespace Pyoptmat.Spec

open Pyoptmat.Tensor

theorem valid_concat : ∀ {S i : List ℕ} {n : ℕ}, Valid (S ++ [n]) i ↔ ∃ j k, i = j ++ [k] ∧ Valid S j ∧ k < n
  | [], i, n => by
    constructor
    · intro h
      obtain ⟨k, j, rfl, hk, hj⟩ := valid_cons_iff.1 h
      cases hj
      exact ⟨[], k, rfl, List.Forall₂.nil, hk⟩
    · rintro ⟨j, k, rfl, hj, hk⟩
      cases hj
      exact valid_cons.2 ⟨hk, List.Forall₂.nil⟩
  | s :: S, i, n => by
    constructor
    · intro h
      obtain ⟨k, j, rfl, hk, hj⟩ := valid_cons_iff.1 h
      obtain ⟨j', k', rfl, hj', hk'⟩ := valid_concat.1 hj
      exact ⟨k :: j', k', rfl, valid_cons.2 ⟨hk, hj'⟩, hk'⟩
    · rintro ⟨j, k, rfl, hj, hk⟩
      obtain ⟨k', j', rfl, hk', hj'⟩ := valid_cons_iff.1 hj
      exact valid_cons.2 ⟨hk', valid_concat.2 ⟨j', k, rfl, hj', hk⟩⟩

theorem Is.first {S : List ℕ} {n : ℕ} {x : TE} {f : List ℕ → ℝ} (k : ℕ) (h : Is (S ++ [n]) x f) (hk : k < n) : Is S (Tensor.first k x) fun i => f (i ++ [k]) := by
  obtain ⟨⟨sh, da⟩, rfl, hs, hf⟩ := h
  obtain rfl : sh = S ++ [n] := hs
  refine ⟨⟨S, fun i => da (i ++ [k])⟩, ?_, rfl, fun i hi => hf _ (valid_concat.2 ⟨i, k, rfl, hi, hk⟩)⟩
  change (match (S ++ [n]).getLast? with | none => _ | some n => if k < n then ((⟨(S ++ [_]).dropLast, _⟩ : Tensor) : TE) else _) = _
  rw [List.getLast?_concat, List.dropLast_concat]
  exact if_pos hk

theorem Is.firstFrom {S : List ℕ} {n : ℕ} {x : TE} {f : List ℕ → ℝ} (h : Is (S ++ [n]) x f) :
    Is (S ++ [n - 1]) (Tensor.firstFrom x) fun i => f (i.dropLast ++ [i.getLastD 0 + 1]) := by
  obtain ⟨⟨sh, da⟩, rfl, hs, hf⟩ := h
  obtain rfl : sh = S ++ [n] := hs
  refine ⟨⟨S ++ [n - 1], fun i => da (i.dropLast ++ [i.getLastD 0 + 1])⟩, ?_, rfl, fun i hi => ?_⟩
  · change (match (S ++ [n]).getLast? with | none => _ | some n => ((⟨(S ++ [_]).dropLast ++ [n - 1], _⟩ : Tensor) : TE)) = _
    rw [List.getLast?_concat, List.dropLast_concat]
  · obtain ⟨j, k, rfl, hj, hk⟩ := valid_concat.1 hi
    refine hf _ (valid_concat.2 ⟨j, k + 1, ?_, hj, by omega⟩)
    simp

theorem Is.firstInit {S : List ℕ} {n : ℕ} {x : TE} {f : List ℕ → ℝ} (h : Is (S ++ [n]) x f) : Is (S ++ [n - 1]) (Tensor.firstInit x) f := by
  obtain ⟨⟨sh, da⟩, rfl, hs, hf⟩ := h
  obtain rfl : sh = S ++ [n] := hs
  refine ⟨⟨S ++ [n - 1], da⟩, ?_, rfl, fun i hi => ?_⟩
  · change (match (S ++ [n]).getLast? with | none => _ | some n => ((⟨(S ++ [_]).dropLast ++ [n - 1], _⟩ : Tensor) : TE)) = _
    rw [List.getLast?_concat, List.dropLast_concat]
  · obtain ⟨j, k, rfl, hj, hk⟩ := valid_concat.1 hi
    exact hf _ (valid_concat.2 ⟨j, k, rfl, hj, by omega⟩)

theorem Is.firstSlice {S : List ℕ} {n : ℕ} {x : TE} {f : List ℕ → ℝ} (o e : ℕ) (h : Is (S ++ [n]) x f) :
    Is (S ++ [min e n - o]) (Tensor.firstSlice o e x) fun i => f (i.dropLast ++ [o + i.getLastD 0]) := by
  obtain ⟨⟨sh, da⟩, rfl, hs, hf⟩ := h
  obtain rfl : sh = S ++ [n] := hs
  refine ⟨⟨S ++ [min e n - o], fun i => da (i.dropLast ++ [o + i.getLastD 0])⟩, ?_, rfl, fun i hi => ?_⟩
  · change (match (S ++ [n]).getLast? with | none => _ | some n => ((⟨(S ++ [_]).dropLast ++ [min e n - o], _⟩ : Tensor) : TE)) = _
    rw [List.getLast?_concat, List.dropLast_concat]
  · obtain ⟨j, k, rfl, hj, hk⟩ := valid_concat.1 hi
    refine hf _ (valid_concat.2 ⟨j, o + k, ?_, hj, by omega⟩)
    simp

theorem Is.lead {S : List ℕ} {x : TE} {f : List ℕ → ℝ} (h : Is S x f) : Is (S ++ [1]) (Tensor.lead x) fun i => f i.dropLast := by
  obtain ⟨⟨sh, da⟩, rfl, hs, hf⟩ := h
  obtain rfl : sh = S := hs
  refine ⟨⟨sh ++ [1], fun i => da (i.take sh.length)⟩, rfl, rfl, fun i hi => ?_⟩
  obtain ⟨j, k, rfl, hj, hk⟩ := valid_concat.1 hi
  change da (List.take sh.length (j ++ [k])) = _
  rw [List.take_left' (valid_length hj).symm]
  exact (hf _ hj).trans (by simp)

theorem Is.expandFirst {S : List ℕ} {x : TE} {f : List ℕ → ℝ} (n : ℕ) (h : Is (S ++ [1]) x f) :
    Is (S ++ [n]) (Tensor.expandFirst n x) fun i => f (i.dropLast ++ [0]) := by
  obtain ⟨⟨sh, da⟩, rfl, hs, hf⟩ := h
  obtain rfl : sh = S ++ [1] := hs
  refine ⟨⟨S ++ [n], fun i => da (i.dropLast ++ [0])⟩, ?_, rfl, fun i hi => ?_⟩
  · unfold Tensor.expandFirst
    change (match (S ++ [1]).getLast? with | some 1 => ((⟨(S ++ [_]).dropLast ++ [n], _⟩ : Tensor) : TE) | some k => _ | none => _) = _
    rw [List.getLast?_concat, List.dropLast_concat]
    rfl
  · obtain ⟨j, k, rfl, hj, hk⟩ := valid_concat.1 hi
    refine hf _ (valid_concat.2 ⟨j, 0, ?_, hj, by omega⟩)
    simp

theorem Is.vstack {S : List ℕ} {n m : ℕ} {x y : TE} {f g : List ℕ → ℝ} (hx : Is (S ++ [n]) x f) (hy : Is (S ++ [m]) y g) :
    Is (S ++ [n + m]) (Tensor.vstack x y) fun i => if i.getLastD 0 < n then f i else g (i.dropLast ++ [i.getLastD 0 - n]) := by
  obtain ⟨⟨sa, a⟩, rfl, hsa, hf⟩ := hx
  obtain ⟨⟨sb, b⟩, rfl, hsb, hg⟩ := hy
  obtain rfl : sa = S ++ [n] := hsa
  obtain rfl : sb = S ++ [m] := hsb
  refine ⟨⟨S ++ [n + m], fun i => if i.getLastD 0 < n then a i else b (i.dropLast ++ [i.getLastD 0 - n])⟩, ?_, rfl, fun i hi => ?_⟩
  · change (match (S ++ [n]).getLast?, (S ++ [m]).getLast? with
      | some n, some m => if (S ++ [_]).dropLast = (S ++ [_]).dropLast then ((⟨(S ++ [_]).dropLast ++ [n + m], _⟩ : Tensor) : TE) else _ | _, _ => _) = _
    rw [List.getLast?_concat, List.getLast?_concat, List.dropLast_concat, List.dropLast_concat]
    exact if_pos rfl
  · obtain ⟨j, k, rfl, hj, hk⟩ := valid_concat.1 hi
    have e1 : (j ++ [k]).getLastD 0 = k := by simp
    dsimp only
    rw [e1, List.dropLast_concat]
    split_ifs with h
    · exact hf _ (valid_concat.2 ⟨j, k, rfl, hj, h⟩)
    · exact hg _ (valid_concat.2 ⟨j, k - n, rfl, hj, by omega⟩)

theorem Is.setFirst {S : List ℕ} {n : ℕ} {x y : TE} {f g : List ℕ → ℝ} (k : ℕ) (hx : Is (S ++ [n]) x f) (hk : k < n) (hy : Rep S y g) :
    Is (S ++ [n]) (Tensor.setFirst k x y) fun i => if i.getLastD 0 = k then g i.dropLast else f i := by
  obtain ⟨⟨sa, a⟩, rfl, hsa, hf⟩ := hx
  obtain ⟨b, rfl, hb, hg⟩ := hy
  obtain rfl : sa = S ++ [n] := hsa
  refine ⟨⟨S ++ [n], fun i => if i.getLastD 0 = k then b.data (bidx b.shape i.dropLast) else a i⟩, ?_, rfl, fun i hi => ?_⟩
  · change (match (S ++ [n]).getLast? with | none => _ | some n => if k < n then if bshape b.shape (S ++ [_]).dropLast = some (S ++ [_]).dropLast then _ else _ else _) = _
    rw [List.getLast?_concat, List.dropLast_concat]
    exact (if_pos hk).trans (if_pos hb)
  · obtain ⟨j, l, rfl, hj, hl⟩ := valid_concat.1 hi
    have e1 : (j ++ [l]).getLastD 0 = l := by simp
    dsimp only
    rw [e1, List.dropLast_concat]
    split_ifs with h
    · exact hg _ hj
    · exact hf _ hi

theorem Is.setFirstSlice {S : List ℕ} {n : ℕ} {x y : TE} {f g : List ℕ → ℝ} (o e : ℕ) (hx : Is (S ++ [n]) x f) (hy : Rep (S ++ [min e n - o]) y g) :
    Is (S ++ [n]) (Tensor.setFirstSlice o e x y) fun i => if o ≤ i.getLastD 0 ∧ i.getLastD 0 < e then g (i.dropLast ++ [i.getLastD 0 - o]) else f i := by
  obtain ⟨⟨sa, a⟩, rfl, hsa, hf⟩ := hx
  obtain ⟨b, rfl, hb, hg⟩ := hy
  obtain rfl : sa = S ++ [n] := hsa
  refine ⟨⟨S ++ [n], fun i => if o ≤ i.getLastD 0 ∧ i.getLastD 0 < e then b.data (bidx b.shape (i.dropLast ++ [i.getLastD 0 - o])) else a i⟩, ?_, rfl, fun i hi => ?_⟩
  · change (match (S ++ [n]).getLast? with | none => _ | some n => if bshape b.shape ((S ++ [_]).dropLast ++ [min e n - o]) = some ((S ++ [_]).dropLast ++ [min e n - o]) then _ else _) = _
    rw [List.getLast?_concat, List.dropLast_concat]
    exact if_pos hb
  · obtain ⟨j, l, rfl, hj, hl⟩ := valid_concat.1 hi
    have e1 : (j ++ [l]).getLastD 0 = l := by simp
    dsimp only
    rw [e1, List.dropLast_concat]
    split_ifs with h
    · exact hg _ (valid_concat.2 ⟨j, l - o, rfl, hj, by omega⟩)
    · exact hf _ hi

theorem Is.zerosLike {S : List ℕ} {x : TE} {f : List ℕ → ℝ} (h : Is S x f) : Is S (Tensor.zerosLike x) fun _ => 0 := by
  obtain ⟨t, rfl, hs, hf⟩ := h
  exact ⟨⟨t.shape, fun _ => 0⟩, rfl, hs, fun _ _ => rfl⟩

theorem valid3 {a b c : ℕ} {i : List ℕ} (h : Valid [a, b, c] i) : ∃ p q r, i = [p, q, r] ∧ p < a ∧ q < b ∧ r < c := by
  obtain ⟨p, j, rfl, hp, hj⟩ := valid_cons_iff.1 h
  obtain ⟨q, j', rfl, hq, hj'⟩ := valid_cons_iff.1 hj
  obtain ⟨r, j'', rfl, hr, hj''⟩ := valid_cons_iff.1 hj'
  cases hj''
  exact ⟨p, q, r, rfl, hp, hq, hr⟩

theorem valid2 {a b : ℕ} {i : List ℕ} (h : Valid [a, b] i) : ∃ p q, i = [p, q] ∧ p < a ∧ q < b := by
  obtain ⟨p, j, rfl, hp, hj⟩ := valid_cons_iff.1 h
  obtain ⟨q, j', rfl, hq, hj'⟩ := valid_cons_iff.1 hj
  cases hj'
  exact ⟨p, q, rfl, hp, hq⟩

theorem valid4 {a b c d : ℕ} {i : List ℕ} (h : Valid [a, b, c, d] i) : ∃ p q r s, i = [p, q, r, s] ∧ p < a ∧ q < b ∧ r < c ∧ s < d := by
  obtain ⟨p, j, rfl, hp, hj⟩ := valid_cons_iff.1 h
  obtain ⟨q, r, s, rfl, hq, hr, hs⟩ := valid3 hj
  exact ⟨p, q, r, s, rfl, hp, hq, hr, hs⟩

theorem mk2 {a b p q : ℕ} (hp : p < a) (hq : q < b) : Valid [a, b] [p, q] := valid_cons.2 ⟨hp, valid_cons.2 ⟨hq, List.Forall₂.nil⟩⟩
theorem mk3 {a b c p q r : ℕ} (hp : p < a) (hq : q < b) (hr : r < c) : Valid [a, b, c] [p, q, r] := valid_cons.2 ⟨hp, mk2 hq hr⟩
theorem mk4 {a b c d p q r s : ℕ} (hp : p < a) (hq : q < b) (hr : r < c) (hs : s < d) : Valid [a, b, c, d] [p, q, r, s] := valid_cons.2 ⟨hp, mk3 hq hr hs⟩

theorem Is.swapFirst {a b c : ℕ} {x : TE} {f : List ℕ → ℝ} (h : Is [a, b, c] x f) : Is [a, c, b] (Tensor.swapFirst x) fun i => f [i.getD 0 0, i.getD 2 0, i.getD 1 0] := by
  obtain ⟨⟨sh, da⟩, rfl, hs, hf⟩ := h
  obtain rfl : sh = [a, b, c] := hs
  refine ⟨_, rfl, rfl, fun i hi => ?_⟩
  obtain ⟨p, q, r, rfl, hp, hq, hr⟩ := valid3 hi
  exact hf [p, r, q] (mk3 hp hr hq)

/-- position of an entry after flattening -/
theorem pos_lt {a b p q : ℕ} (hp : p < a) (hq : q < b) : p + a * q < b * a := by
  calc p + a * q < a + a * q := by omega
    _ = a * (q + 1) := by ring
    _ ≤ a * b := Nat.mul_le_mul_left _ hq
    _ = b * a := Nat.mul_comm _ _

theorem unflat2 {N c p r : ℕ} (hp : p < N) (hr : r < c) : unflat [N, c] (p + N * r) = [p, r] := by
  have := unflat_flat (mk2 hp hr)
  simpa [flat] using this

theorem unflat3 {a b c p q r : ℕ} (hp : p < a) (hq : q < b) (hr : r < c) : unflat [a, b, c] (p + a * (q + b * r)) = [p, q, r] := by
  have := unflat_flat (mk3 hp hq hr)
  simpa [flat] using this

/-- `x.reshape(c, b, a)` of a tensor of shape `(c, b * a)` -/
theorem Is.reshape3 {a b c : ℕ} {x : TE} {f : List ℕ → ℝ} (h : Is [b * a, c] x f) :
    Is [a, b, c] (Tensor.reshape [a, b, c] x) fun i => f [i.getD 0 0 + a * i.getD 1 0, i.getD 2 0] := by
  obtain ⟨⟨sh, da⟩, rfl, hs, hf⟩ := h
  obtain rfl : sh = [b * a, c] := hs
  refine ⟨⟨[a, b, c], fun i => da (unflat [b * a, c] (flat [a, b, c] i))⟩, ?_, rfl, fun i hi => ?_⟩
  · change (if [a, b, c].prod = [b * a, c].prod then _ else _) = _
    exact if_pos (by simp; ring)
  · obtain ⟨p, q, r, rfl, hp, hq, hr⟩ := valid3 hi
    have e : flat [a, b, c] [p, q, r] = (p + a * q) + b * a * r := by simp [flat]; ring
    dsimp only
    rw [e, unflat2 (pos_lt hp hq) hr]
    exact hf _ (mk2 (pos_lt hp hq) hr)

/-- a tensor of another size cannot be reshaped -/
theorem reshape3_fails {N a b c : ℕ} {t : Tensor} (h : t.shape = [N, c]) (hc : 0 < c) (hn : N ≠ b * a) :
    Tensor.reshape [a, b, c] (t : TE) = .error "RuntimeError: shape is invalid for input" := by
  change (if [a, b, c].prod = t.shape.prod then _ else _) = _
  rw [if_neg]
  rw [h]
  simp only [List.prod_cons, List.prod_nil, mul_one]
  intro e
  have : c * (b * a) = c * N := by rw [mul_comm c N, ← e]; ring
  exact hn (Nat.eq_of_mul_eq_mul_left hc this).symm

/-- `x.flatten(start_dim=1)` of a tensor of shape `(c, b, a)` -/
theorem Is.flattenFrom1 {a b c : ℕ} {x : TE} {f : List ℕ → ℝ} (h : Is [a, b, c] x f) :
    Is [b * a, c] (Tensor.flattenFrom1 x) fun i => f [i.getD 0 0 % a, i.getD 0 0 / a, i.getD 1 0] := by
  obtain ⟨⟨sh, da⟩, rfl, hs, hf⟩ := h
  obtain rfl : sh = [a, b, c] := hs
  refine ⟨⟨[[a, b].prod, c], fun i => da (unflat [a, b, c] (flat [[a, b].prod, c] i))⟩, ?_, by simp [mul_comm], fun i hi => ?_⟩
  · change (if [[a, b].prod, c].prod = [a, b, c].prod then _ else _) = _
    exact if_pos (by simp; ring)
  · obtain ⟨p, r, rfl, hp, hr⟩ := valid2 hi
    have ha : 0 < a := by rcases Nat.eq_zero_or_pos a with rfl | h <;> simp_all
    have h1 : p % a < a := Nat.mod_lt _ ha
    have h2 : p / a < b := Nat.div_lt_of_lt_mul (by rw [mul_comm]; exact hp)
    have e : flat [[a, b].prod, c] [p, r] = p % a + a * (p / a + b * r) := by
      have := Nat.mod_add_div p a
      simp only [flat, List.prod_cons, List.prod_nil, mul_one, mul_zero, add_zero]
      rw [mul_add, ← add_assoc, this]
      ring
    dsimp only
    rw [e, unflat3 h1 h2 hr]
    exact hf _ (mk3 h1 h2 hr)

end Pyoptmat.Spec
