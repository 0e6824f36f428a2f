import Verif.Proofs.TensorModels
import Verif.Proofs.Interp

/-! # Masks: `PiecewiseScaling` and the interpolator as torch programs -/

namespace Pyoptmat.Spec

open Pyoptmat.Tensor Pyoptmat.Material

/-- the mask expression `x` evaluates, with shape `S` and entries `p` -/
def IsM (S : List ℕ) (x : Except String Mask) (p : List ℕ → Prop) : Prop :=
  ∃ m : Mask, x = .ok m ∧ m.shape = S ∧ ∀ i, Valid S i → (m.data i ↔ p i)

theorem IsM.congr {S : List ℕ} {x : Except String Mask} {p q : List ℕ → Prop} (h : IsM S x p) (e : ∀ i, Valid S i → (p i ↔ q i)) : IsM S x q := by
  obtain ⟨m, hx, hs, hp⟩ := h
  exact ⟨m, hx, hs, fun i hi => (hp i hi).trans (e i hi)⟩

/-! ## Positions -/

theorem flat_lt : ∀ {S i : List ℕ}, Valid S i → flat S i < S.prod
  | [], _, h => by cases h; simp [flat]
  | s :: S, _, h => by
    cases h with
    | @cons _ k _ j h0 h1 =>
      have := flat_lt h1
      rw [List.prod_cons]
      change k + s * flat S j < s * S.prod
      calc k + s * flat S j < s + s * flat S j := by omega
        _ = s * (flat S j + 1) := by ring
        _ ≤ s * S.prod := Nat.mul_le_mul_left _ this

theorem unflat_valid : ∀ {S : List ℕ} {p : ℕ}, p < S.prod → Valid S (unflat S p)
  | [], p, _ => List.Forall₂.nil
  | s :: S, p, h => by
    rw [List.prod_cons] at h
    have hs : 0 < s := Nat.pos_of_ne_zero fun e => by simp [e] at h
    exact List.Forall₂.cons (Nat.mod_lt _ hs) (unflat_valid (Nat.div_lt_of_lt_mul h))

theorem unflat_cons {s : ℕ} {S : List ℕ} {j q : ℕ} (hj : j < s) : unflat (s :: S) (j + s * q) = j :: unflat S q := by
  change (j + s * q) % s :: unflat S ((j + s * q) / s) = _
  rw [Nat.add_mul_mod_self_left, Nat.mod_eq_of_lt hj, Nat.add_mul_div_left _ _ (by omega), Nat.div_eq_of_lt hj, zero_add]

theorem range_mul (n : ℕ) : ∀ P : ℕ, List.range (n * P) = (List.range P).flatMap fun q => (List.range n).map fun j => j + n * q
  | 0 => by simp
  | P + 1 => by
    rw [Nat.mul_succ, List.range_add, range_mul n P, List.range_succ, List.flatMap_append]
    congr 1
    simp [Nat.add_comm]

/-- boolean indexing, one point after the other -/
theorem select_list {α : Type*} (n : ℕ) (S : List ℕ) (p : List ℕ → Bool) (f : List ℕ → α) :
    ((List.range (n :: S).prod).filter fun q => p (unflat (n :: S) q)).map (fun q => f (unflat (n :: S) q)) =
      (List.range S.prod).flatMap fun q => ((List.range n).filter fun j => p (j :: unflat S q)).map fun j => f (j :: unflat S q) := by
  rw [List.prod_cons, range_mul, List.filter_flatMap, List.map_flatMap]
  refine List.flatMap_congr fun q _ => ?_
  rw [List.filter_map, List.map_map]
  have e : ((List.range n).filter ((fun q => p (unflat (n :: S) q)) ∘ fun j => j + n * q)) = (List.range n).filter fun j => p (j :: unflat S q) :=
    List.filter_congr fun j hj => by
      change p (unflat (n :: S) (j + n * q)) = _
      rw [unflat_cons (List.mem_range.1 hj)]
  rw [e]
  refine List.map_congr_left fun j hj => ?_
  change f (unflat (n :: S) (j + n * q)) = _
  rw [unflat_cons (List.mem_range.1 (List.mem_of_mem_filter hj))]

open Classical in
/-- `x[m].reshape(S)` -/
theorem maskSelect_eq {n : ℕ} {S : List ℕ} {x : TE} {m : Except String Mask} {f : List ℕ → ℝ} {p : List ℕ → Prop} (hx : Is (n :: S) x f)
    (hm : IsM (n :: S) m p) :
    let l := (List.range S.prod).flatMap fun q => ((List.range n).filter fun j => decide (p (j :: unflat S q))).map fun j => f (j :: unflat S q)
    (l.length = S.prod → Is S (reshape S (maskSelect x m)) fun i => l.getD (flat S i) 0) ∧
      (l.length ≠ S.prod → ∃ e, reshape S (maskSelect x m) = .error e) := by
  intro l
  obtain ⟨⟨sh, da⟩, rfl, hs, hf⟩ := hx
  obtain rfl : sh = n :: S := hs
  obtain ⟨⟨sh, dm⟩, rfl, hs, hp⟩ := hm
  obtain rfl : sh = n :: S := hs
  have hl : ((List.range (n :: S).prod).filter fun q => decide (dm (unflat (n :: S) q))).map (fun q => da (unflat (n :: S) q)) = l := by
    rw [select_list n S (fun i => decide (dm i)) da]
    refine List.flatMap_congr fun q hq => ?_
    have hv := unflat_valid (List.mem_range.1 hq)
    have e : (List.range n).filter (fun j => decide (dm (j :: unflat S q))) = (List.range n).filter fun j => decide (p (j :: unflat S q)) :=
      List.filter_congr fun j hj => decide_eq_decide.2 (hp _ (valid_cons.2 ⟨List.mem_range.1 hj, hv⟩))
    rw [e]
    exact List.map_congr_left fun j hj => hf _ (valid_cons.2 ⟨List.mem_range.1 (List.mem_of_mem_filter hj), hv⟩)
  have e : maskSelect (Except.ok ⟨n :: S, da⟩) (Except.ok ⟨n :: S, dm⟩) = ((⟨[l.length], fun i => l.getD (i.headD 0) 0⟩ : Tensor) : TE) := by
    rw [← hl]
    change (if n :: S = n :: S then _ else _) = _
    rw [if_pos rfl]
  rw [e]
  constructor
  · intro h
    refine ⟨⟨S, fun i => l.getD ((unflat [l.length] (flat S i)).headD 0) 0⟩, ?_, rfl, fun i hi => ?_⟩
    · change (if S.prod = [l.length].prod then _ else _) = _
      rw [if_pos (by simp [h])]
    · change l.getD (flat S i % l.length) 0 = _
      rw [Nat.mod_eq_of_lt (h ▸ flat_lt hi)]
  · intro h
    refine ⟨_, if_neg ?_⟩
    simpa using fun e => h e.symm

/-! ## Dimensions at the front and at the end -/

theorem valid_snoc {S : List ℕ} {n : ℕ} : ∀ {k : List ℕ}, Valid (S ++ [n]) k → ∃ i j, k = i ++ [j] ∧ Valid S i ∧ j < n := by
  induction S with
  | nil =>
    intro k h
    obtain ⟨j, t, rfl, hj, ht⟩ := valid_cons_iff.1 h
    cases ht
    exact ⟨[], j, rfl, List.Forall₂.nil, hj⟩
  | cons s S ih =>
    intro k h
    obtain ⟨a, t, rfl, ha, ht⟩ := valid_cons_iff.1 h
    obtain ⟨i, j, rfl, hi, hj⟩ := ih ht
    exact ⟨a :: i, j, rfl, valid_cons.2 ⟨ha, hi⟩, hj⟩

theorem Valid.snoc {S i : List ℕ} {n j : ℕ} (hi : Valid S i) (hj : j < n) : Valid (S ++ [n]) (i ++ [j]) := by
  induction hi with
  | nil => exact List.Forall₂.cons hj List.Forall₂.nil
  | cons h _ ih => exact List.Forall₂.cons h ih

theorem Valid.length {S i : List ℕ} (h : Valid S i) : S.length = i.length := List.Forall₂.length_eq h

theorem bshape_ones_append (n : ℕ) : ∀ S : List ℕ, bshape S (List.replicate S.length 1 ++ [n]) = some (S ++ [n])
  | [] => rfl
  | s :: S => by
    simp only [List.length_cons, List.replicate_succ, List.cons_append, bshape, bshape_ones_append n S]
    split_ifs <;> simp_all

theorem bshape_ones : ∀ S : List ℕ, bshape S (List.replicate S.length 1) = some S
  | [] => rfl
  | s :: S => by
    simp only [List.length_cons, List.replicate_succ, bshape, bshape_ones S]
    split_ifs <;> simp_all

theorem bidx_append : ∀ {S i : List ℕ} (j : List ℕ), S.length = i.length → bidx S (i ++ j) = bidx S i
  | [], _, _, _ => rfl
  | s :: S, [], _, h => by simp at h
  | s :: S, k :: i, j, h => by
    simp only [List.cons_append, bidx]
    rw [bidx_append j (by simpa using h)]

theorem bidx_ones_append (n j : ℕ) : ∀ i : List ℕ, bidx (List.replicate i.length 1 ++ [n]) (i ++ [j]) = List.replicate i.length 0 ++ [if n = 1 then 0 else j]
  | [] => rfl
  | k :: i => by
    simp only [List.length_cons, List.replicate_succ, List.cons_append, bidx, bidx_ones_append n j i, if_true]

theorem unsq_iter' (k : ℕ) (t : Tensor) : (Tensor.unsq^[k] (t : TE)) = ((⟨List.replicate k 1 ++ t.shape, fun i => t.data (i.drop k)⟩ : Tensor) : TE) := by
  induction k with
  | zero => rfl
  | succ k ih =>
    rw [Function.iterate_succ_apply', ih]
    change ((⟨1 :: (List.replicate k 1 ++ t.shape), fun i => t.data (i.tail.drop k)⟩ : Tensor) : TE) = _
    simp [List.replicate_succ]

/-- comparing every entry with every entry of a list that has been given trailing dimensions -/
theorem cmp_list {S : List ℕ} {n : ℕ} {x c : TE} {f g : List ℕ → ℝ} (r : ℝ → ℝ → Prop) (hx : Is S x f) (hc : Is [n] c g) :
    IsM (S ++ [n]) (cmp r x (Tensor.unsq^[S.length] c)) fun i => r (f i.dropLast) (g [i.getLastD 0]) := by
  obtain ⟨⟨sh, da⟩, rfl, hs, hf⟩ := hx
  obtain rfl : sh = S := hs
  dsimp only at hf
  obtain ⟨⟨sh', dc⟩, rfl, hs, hg⟩ := hc
  obtain rfl : sh' = [n] := hs
  dsimp only at hg
  rw [unsq_iter']
  refine ⟨⟨sh ++ [n], fun i => r (da (bidx sh i)) (dc ((bidx (List.replicate sh.length 1 ++ [n]) i).drop sh.length))⟩, ?_, rfl, fun k hk => ?_⟩
  · change (match bshape sh (List.replicate sh.length 1 ++ [n]) with | none => _ | some S => _) = _
    rw [bshape_ones_append]
  · obtain ⟨i, j, rfl, hi, hj⟩ := valid_snoc hk
    change r (da (bidx sh (i ++ [j]))) (dc ((bidx (List.replicate sh.length 1 ++ [n]) (i ++ [j])).drop sh.length)) ↔ _
    rw [bidx_append _ hi.length, bidx_self hi, hi.length, bidx_ones_append]
    rw [List.drop_left' (by simp), hf i hi]
    have e : (if n = 1 then 0 else j) = j := by split_ifs <;> omega
    rw [e, hg [j] (valid_cons.2 ⟨hj, List.Forall₂.nil⟩)]
    simp

theorem cmp_scalar {S : List ℕ} {x c : TE} {f : List ℕ → ℝ} {g : List ℕ → ℝ} (r : ℝ → ℝ → Prop) (hx : Is S x f) (hc : Is [] c g) :
    IsM S (cmp r x (Tensor.unsq^[S.length] c)) fun i => r (f i) (g []) := by
  obtain ⟨⟨sh, da⟩, rfl, hs, hf⟩ := hx
  obtain rfl : sh = S := hs
  dsimp only at hf
  obtain ⟨⟨sh', dc⟩, rfl, hs, hg⟩ := hc
  obtain rfl : sh' = [] := hs
  dsimp only at hg
  rw [unsq_iter', List.append_nil]
  refine ⟨⟨sh, fun i => r (da (bidx sh i)) (dc ((bidx (List.replicate sh.length 1) i).drop sh.length))⟩, ?_, rfl, fun i hi => ?_⟩
  · change (match bshape sh (List.replicate sh.length 1) with | none => _ | some S => _) = _
    rw [bshape_ones]
  · change r (da (bidx sh i)) (dc ((bidx (List.replicate sh.length 1) i).drop sh.length)) ↔ _
    rw [bidx_self hi, hf i hi]
    have e : (bidx (List.replicate sh.length 1) i).drop sh.length = [] := by
      rw [List.drop_eq_nil_iff, ]
      have : ∀ (a i : List ℕ), (bidx a i).length ≤ a.length := by
        intro a
        induction a with
        | nil => intro i; simp [bidx]
        | cons x a ih =>
          intro i
          cases i with
          | nil => simp [bidx]
          | cons y i => simpa [bidx] using ih i
      exact (this _ _).trans (by simp)
    rw [e, hg [] List.Forall₂.nil]

theorem logical_is {S : List ℕ} {x y : Except String Mask} {p q : List ℕ → Prop} (o : Prop → Prop → Prop) (hx : IsM S x p) (hy : IsM S y q) :
    IsM S (logical o x y) fun i => o (p i) (q i) := by
  obtain ⟨⟨sh, da⟩, rfl, hs, hf⟩ := hx
  obtain rfl : sh = S := hs
  dsimp only at hf
  obtain ⟨⟨sh', db⟩, rfl, hs, hg⟩ := hy
  obtain rfl : sh' = sh := hs
  dsimp only at hg
  refine ⟨⟨sh', fun i => o (da (bidx sh' i)) (db (bidx sh' i))⟩, ?_, rfl, fun i hi => ?_⟩
  · change (match bshape sh' sh' with | none => _ | some S => _) = _
    rw [bshape_self]
  · change o (da (bidx sh' i)) (db (bidx sh' i)) ↔ _
    rw [bidx_self hi, propext (hf i hi), propext (hg i hi)]

theorem orFirst_is {S : List ℕ} {n : ℕ} {x y : Except String Mask} {p q : List ℕ → Prop} (hx : IsM (S ++ [n + 1]) x p) (hy : IsM S y q) :
    IsM (S ++ [n + 1]) (orFirst x y) fun i => (i.getLastD 0 = 0 ∧ (p i ∨ q i.dropLast)) ∨ (i.getLastD 0 ≠ 0 ∧ p i) := by
  obtain ⟨⟨sh, da⟩, rfl, hs, hf⟩ := hx
  obtain rfl : sh = S ++ [n + 1] := hs
  dsimp only at hf
  have h0 : IsM S (.ok ⟨S, fun i => da (i ++ [0])⟩) fun i => p (i ++ [0]) := ⟨_, rfl, rfl, fun i hi => hf _ (hi.snoc (Nat.succ_pos n))⟩
  obtain ⟨r, hr, hs, hp⟩ := logical_is Or h0 hy
  refine ⟨⟨S ++ [n + 1], fun i => (i.getLastD 0 = 0 ∧ r.data (bidx r.shape i.dropLast)) ∨ (i.getLastD 0 ≠ 0 ∧ da i)⟩, ?_, rfl, fun k hk => ?_⟩
  · have e1 : (S ++ [n + 1]).getLast? = some (n + 1) := by simp
    have e2 : (S ++ [n + 1]).dropLast = S := by simp
    change (match (S ++ [n + 1]).getLast? with | none => _ | some 0 => _ | some (_ + 1) => _) = _
    rw [e1]
    change Mask.bind (logical Or (.ok ⟨(S ++ [n + 1]).dropLast, fun i => da (i ++ [0])⟩) y) _ = _
    rw [e2, hr]
    change (if bshape r.shape S = some S then _ else _) = _
    rw [if_pos (by rw [hs, bshape_self])]
  · obtain ⟨i, j, rfl, hi, hj⟩ := valid_snoc hk
    have e1 : (i ++ [j]).getLastD 0 = j := by simp
    have e2 : (i ++ [j]).dropLast = i := by simp
    change (_ ∧ r.data (bidx r.shape _)) ∨ (_ ∧ da _) ↔ _
    rw [e1, e2, hs, bidx_self hi, hf _ hk]
    by_cases h : j = 0
    · subst h
      simp [hp i hi]
    · simp [h]

theorem movedim_is {S : List ℕ} {n : ℕ} {x : Except String Mask} {p : List ℕ → Prop} (hx : IsM (S ++ [n]) x p) :
    IsM (n :: S) (movedim x) fun i => p (i.tail ++ [i.headD 0]) := by
  obtain ⟨⟨sh, da⟩, rfl, hs, hf⟩ := hx
  obtain rfl : sh = S ++ [n] := hs
  refine ⟨⟨n :: S, fun i => da (i.tail ++ [i.headD 0])⟩, ?_, rfl, fun k hk => ?_⟩
  · change (match (S ++ [n]).getLast? with | none => _ | some n => _) = _
    have e1 : (S ++ [n]).getLast? = some n := by simp
    rw [e1]
    change Except.ok (⟨n :: (S ++ [n]).dropLast, _⟩ : Mask) = _
    simp
  · obtain ⟨j, i, rfl, hj, hi⟩ := valid_cons_iff.1 hk
    exact hf _ (hi.snoc hj)


/-! ## `PiecewiseScaling` -/

theorem bidx_valid : ∀ {a S i : List ℕ}, bshape a S = some S → Valid S i → Valid a (bidx a i)
  | [], _, _, _, _ => List.Forall₂.nil
  | x :: a, [], _, h, _ => absurd h (not_fits_nil x a)
  | x :: a, s :: S, i, h, hi => by
    obtain ⟨k, j, rfl, hk, hj⟩ := valid_cons_iff.1 hi
    rw [fits_cons] at h
    refine valid_cons.2 ⟨?_, bidx_valid h.2 hj⟩
    split_ifs with h1
    · omega
    · rcases h.1 with e | e <;> omega

theorem Is.sliceInit {n : ℕ} {S : List ℕ} {x : TE} {f : List ℕ → ℝ} (h : Is ((n + 1) :: S) x f) : Is (n :: S) (Tensor.sliceInit x) f := by
  obtain ⟨⟨sh, da⟩, rfl, hs, hf⟩ := h
  obtain rfl : sh = (n + 1) :: S := hs
  refine ⟨⟨n :: S, da⟩, rfl, rfl, fun i hi => ?_⟩
  obtain ⟨k, j, rfl, hk, hj⟩ := valid_cons_iff.1 hi
  exact hf _ (valid_cons.2 ⟨by omega, hj⟩)

theorem Is.sliceTail {n : ℕ} {S : List ℕ} {x : TE} {f : List ℕ → ℝ} (h : Is ((n + 1) :: S) x f) :
    Is (n :: S) (Tensor.sliceFrom 1 x) fun i => f ((i.headD 0 + 1) :: i.tail) := by
  rw [Nat.add_comm n 1] at h
  exact (Is.sliceFrom 1 h).congr fun i _ => by rw [Nat.add_comm 1]

/-- `x.unsqueeze(-1) - c` for a list `c` -/
theorem Is.sub_list {n : ℕ} {S : List ℕ} {x c : TE} {f g : List ℕ → ℝ} (hx : Is (1 :: S) x f) (hc : Is [n] c g) :
    Is (n :: S) (x - c) fun i => f (0 :: i.tail) - g [i.headD 0] := by
  obtain ⟨⟨sh, da⟩, rfl, hs, hf⟩ := hx
  obtain rfl : sh = 1 :: S := hs
  obtain ⟨⟨sh', dc⟩, rfl, hs, hg⟩ := hc
  obtain rfl : sh' = [n] := hs
  have hb : bshape (1 :: S) [n] = some (n :: S) := by
    simp only [bshape, bshape_nil_right]
    by_cases h6 : n = 1 <;> simp [h6, Ne.symm]
  refine ⟨_, map2_ok (· - ·) ⟨1 :: S, da⟩ ⟨[n], dc⟩ hb, rfl, fun i hi => ?_⟩
  obtain ⟨k, j, rfl, hk, hj⟩ := valid_cons_iff.1 hi
  change da (bidx (1 :: S) (k :: j)) - dc (bidx [n] (k :: j)) = f (0 :: j) - g [k]
  have e1 : bidx (1 :: S) (k :: j) = 0 :: j := by simp [bidx, bidx_self hj]
  have e2 : bidx [n] (k :: j) = [k] := by
    simp only [bidx]
    congr 1
    split_ifs <;> omega
  rw [e1, e2, ← hf _ (valid_cons.2 ⟨Nat.one_pos, hj⟩), ← hg _ (valid_cons.2 ⟨hk, List.Forall₂.nil⟩)]

/-- `x[None, ...]` of a tensor with at most the leading dimensions of the points -/
theorem Is.lead_rep {n : ℕ} {B S : List ℕ} {x : TE} {f : List ℕ → ℝ} (h : Is (n :: B) x f) (hl : B.length < S.length) (hb : bshape B S = some S) :
    Rep (n :: S) (Tensor.lead x) fun i => f (i.headD 0 :: bidx B i.tail) := by
  obtain ⟨⟨sh, da⟩, rfl, hs, hf⟩ := h
  obtain rfl : sh = n :: B := hs
  refine Rep.lead (t := ⟨n :: B, da⟩) ((fits_cons _ _ _ _).2 ⟨.inl rfl, hb⟩) (by simpa using hl) fun i hi => ?_
  obtain ⟨k, j, rfl, hk, hj⟩ := valid_cons_iff.1 hi
  change da ((if n = 1 then 0 else k) :: bidx B j) = f (k :: bidx B j)
  have : (if n = 1 then 0 else k) = k := by split_ifs <;> omega
  rw [this]
  exact hf _ (valid_cons.2 ⟨hk, bidx_valid hb hj⟩)

open Classical in
/-- `PiecewiseScaling.value` selects, point by point, what the interpolation of the other files selects. -/
theorem piecewise_list {S B : List ℕ} {n : ℕ} {control values T : Tensor} {c : ℕ → ℝ} {v : List ℕ → ℕ → ℝ} {τ : List ℕ → ℝ} (scaleFn scaling : ℝ → ℝ)
    (hn : 0 < n) (hc : control.shape = [n + 1]) (hc' : ∀ j ≤ n, control.data [j] = c j) (hv : values.shape = (n + 1) :: B)
    (hl : B.length < S.length) (hb : bshape B S = some S) (hv' : ∀ i, Valid S i → ∀ j ≤ n, values.data (j :: bidx B i) = v i j) (hT : IsT S T τ) :
    let l := (List.range S.prod).flatMap fun q => Interp.hits n c (fun j => scaleFn (v (unflat S q) j)) (τ (unflat S q))
    (l.length = S.prod → Is S ((tPiecewise control values scaleFn scaling).value T) fun i => l.getD (flat S i) 0) ∧
      (l.length ≠ S.prod → ∃ e, (tPiecewise control values scaleFn scaling).value T = .error e) := by
  intro l
  have kc : Is [n + 1] (control : TE) fun i => c (i.headD 0) := by
    refine ⟨control, rfl, hc, fun i hi => ?_⟩
    obtain ⟨k, j, rfl, hk, hj⟩ := valid_cons_iff.1 hi
    cases hj
    exact hc' k (by omega)
  obtain ⟨vc, evc, hvc⟩ : Is ((n + 1) :: B) (Tensor.map scaleFn (values : TE)) fun i => scaleFn (values.data i) := ⟨_, rfl, hv, fun _ _ => rfl⟩
  have k1 := hvc.is.sliceTail.sub_left hvc.is.sliceInit.rep
  have k2 := kc.sliceTail.sub_left kc.sliceInit.rep
  have k2' : Rep (n :: B) (Tensor.sliceFrom 1 (control : TE) - Tensor.sliceInit (control : TE)) fun i => c (i.headD 0 + 1) - c (i.headD 0) := by
    obtain ⟨t, e, hs, hf⟩ := k2
    refine ⟨t, e, ?_, fun i hi => ?_⟩
    · rw [hs]; exact (fits_cons _ _ _ _).2 ⟨.inl rfl, by cases B <;> rfl⟩
    · obtain ⟨k, j, rfl, hk, hj⟩ := valid_cons_iff.1 hi
      have e2 : bidx [n] (k :: j) = [k] := by
        simp only [bidx]
        congr 1
        split_ifs <;> omega
      rw [hs, e2, hf [k] (valid_cons.2 ⟨hk, List.Forall₂.nil⟩)]
      rfl
  obtain ⟨sl, esl, hsl⟩ := k1.div_left k2'
  obtain ⟨of, eof, hof⟩ := hT.is.unsq.sub_list kc.sliceInit
  have k3 := (Is.mul_right (hsl.is.lead_rep hl hb) hof.is).add_left (hvc.is.sliceInit.lead_rep hl hb)
  obtain ⟨po, epo, hpo⟩ := k3.reshape
  have kf : Is [n] (Tensor.firstFrom (control : TE)) fun i => c (i.headD 0 + 1) := by
    refine ⟨⟨[n], fun i => control.data (i.dropLast ++ [i.getLastD 0 + 1])⟩, ?_, rfl, fun i hi => ?_⟩
    · change (match control.shape.getLast? with | none => _ | some n => _) = _
      rw [hc]
      rfl
    · obtain ⟨k, j, rfl, hk, hj⟩ := valid_cons_iff.1 hi
      cases hj
      exact hc' (k + 1) (by omega)
  have ki : Is [n] (Tensor.firstInit (control : TE)) fun i => c (i.headD 0) := by
    refine ⟨⟨[n], control.data⟩, ?_, rfl, fun i hi => ?_⟩
    · change (match control.shape.getLast? with | none => _ | some n => _) = _
      rw [hc]
      rfl
    · obtain ⟨k, j, rfl, hk, hj⟩ := valid_cons_iff.1 hi
      cases hj
      exact hc' k (by omega)
  have k0 : Is [] (Tensor.first 0 (control : TE)) fun _ => c 0 := by
    refine ⟨⟨[], fun i => control.data (i ++ [0])⟩, ?_, rfl, fun i hi => ?_⟩
    · change (match control.shape.getLast? with | none => _ | some n => _) = _
      rw [hc]
      rfl
    · cases hi
      exact hc' 0 (by omega)
  obtain ⟨m, rfl⟩ : ∃ m, n = m + 1 := ⟨n - 1, by omega⟩
  have km := movedim_is (orFirst_is (logical_is And (cmp_list (· ≤ ·) hT.is kf) (cmp_list (· > ·) hT.is ki)) (cmp_scalar (· = ·) hT.is k0))
  have km' : IsM ((m + 1) :: S) _ fun i => Interp.loc c (τ i.tail) (i.headD 0) := km.congr fun i hi => by
    obtain ⟨j, k, rfl, hj, hk⟩ := valid_cons_iff.1 hi
    simp only [List.tail_cons, List.headD_cons, List.getLastD_concat, List.dropLast_concat, Interp.loc]
    by_cases h : j = 0
    · subst h; simp
    · simp [h]
  have hpo' : IsT ((m + 1) :: S) po fun i => Interp.poss c (fun j => scaleFn (v i.tail j)) (τ i.tail) (i.headD 0) := hpo.congr fun i hi => by
    obtain ⟨j, k, rfl, hj, hk⟩ := valid_cons_iff.1 hi
    simp only [List.tail_cons, List.headD_cons, Interp.poss, Interp.slope]
    rw [hv' _ hk (j + 1) (by omega), hv' _ hk j (by omega)]
  have key := maskSelect_eq hpo'.is km'
  have ev : (tPiecewise control values scaleFn scaling).value T = Tensor.reshape S (Tensor.maskSelect po (movedim (orFirst
      (logical And (cmp (· ≤ ·) T (unsq^[S.length] (firstFrom control))) (cmp (· > ·) T (unsq^[S.length] (firstInit control))))
      (cmp (· = ·) T (unsq^[S.length] (first 0 control)))))) := by
    dsimp only [tPiecewise]
    rw [evc]
    simp only [TE.bind_ok]
    rw [esl]
    simp only [TE.bind_ok]
    rw [eof]
    simp only [TE.bind_ok]
    rw [hof.1, epo, hT.1]
    rfl
  rw [ev]
  exact key

theorem piecewise_is {S B : List ℕ} {n : ℕ} {control values : Tensor} {c : ℕ → ℝ} {v : List ℕ → ℕ → ℝ} (scaleFn scaling : ℝ → ℝ) (hn : 0 < n)
    (hc : control.shape = [n + 1]) (hc' : ∀ j ≤ n, control.data [j] = c j) (hg : StrictGrid n c) (hv : values.shape = (n + 1) :: B)
    (hl : B.length < S.length) (hb : bshape B S = some S) (hv' : ∀ i, Valid S i → ∀ j ≤ n, values.data (j :: bidx B i) = v i j) :
    ParamIs S (Set.Icc (c 0) (c n)) (tPiecewise control values scaleFn scaling) fun i T =>
      scaling (Interp.interpFn n c (fun j => scaleFn (v i j)) T) := by
  intro T τ hT
  have e : ∀ q ∈ List.range S.prod, Interp.hits n c (fun j => scaleFn (v (unflat S q) j)) (τ (unflat S q)) =
      [Interp.interpFn n c (fun j => scaleFn (v (unflat S q) j)) (τ (unflat S q))] := by
    intro q hq
    have := hT.2 _ (unflat_valid (List.mem_range.1 hq))
    obtain ⟨w, e, e', -⟩ := Interp.hits_in_range hn hg (fun j => scaleFn (v (unflat S q) j)) this.1 this.2
    rw [e, e']
  have e2 : ((List.range S.prod).flatMap fun q => Interp.hits n c (fun j => scaleFn (v (unflat S q) j)) (τ (unflat S q))) =
      (List.range S.prod).map fun q => Interp.interpFn n c (fun j => scaleFn (v (unflat S q) j)) (τ (unflat S q)) := by
    rw [← Interp.flatMap_singleton]
    exact List.flatMap_congr e
  have key := (piecewise_list scaleFn scaling hn hc hc' hv hl hb hv' hT.1).1 (by rw [e2]; simp)
  refine Rep.map scaling (key.congr fun i hi => ?_).rep
  rw [e2, List.getD_eq_getElem _ _ (by simpa using flat_lt hi)]
  simp [unflat_flat hi]

theorem piecewise_refuses {S B : List ℕ} {n : ℕ} {control values T : Tensor} {c : ℕ → ℝ} {v : List ℕ → ℕ → ℝ} {τ : List ℕ → ℝ} (scaleFn scaling : ℝ → ℝ)
    (hn : 0 < n) (hc : control.shape = [n + 1]) (hc' : ∀ j ≤ n, control.data [j] = c j) (hg : StrictGrid n c) (hv : values.shape = (n + 1) :: B)
    (hl : B.length < S.length) (hb : bshape B S = some S) (hv' : ∀ i, Valid S i → ∀ j ≤ n, values.data (j :: bidx B i) = v i j) (hT : IsT S T τ)
    {i : List ℕ} (hi : Valid S i) (ho : τ i < c 0 ∨ c n < τ i) : ∃ e, (tPiecewise control values scaleFn scaling).call T = .error e := by
  have hlt := Interp.flatMap_length_lt (fun q => Interp.hits n c (fun j => scaleFn (v (unflat S q) j)) (τ (unflat S q))) 1 (List.range S.prod)
    (fun k _ => Interp.hits_length_le hg hn _ _) ⟨flat S i, List.mem_range.2 (flat_lt hi), by
      rw [unflat_flat hi, Interp.hits_out_of_range hg _ ho]; simp⟩
  rw [List.length_range, mul_one] at hlt
  obtain ⟨e, he⟩ := (piecewise_list scaleFn scaling hn hc hc' hv hl hb hv' hT).2 hlt.ne
  exact ⟨e, by rw [TParam.call, he]; rfl⟩

end Pyoptmat.Spec
