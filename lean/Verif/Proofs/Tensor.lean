import Verif.Spec.TensorMaterial
import Mathlib.Tactic

/-! # Entries of torch expressions -/

namespace Pyoptmat.Spec

open Pyoptmat.Tensor

/-! ## Shapes -/

theorem bshape_self : ∀ S, bshape S S = some S
  | [] => rfl
  | s :: S => by simp [bshape, bshape_self S]

theorem bshape_nil_right : ∀ S, bshape S [] = some S
  | [] => rfl
  | _ :: _ => rfl

theorem fits_cons (x s : ℕ) (a S : List ℕ) : bshape (x :: a) (s :: S) = some (s :: S) ↔ (x = s ∨ x = 1) ∧ bshape a S = some S := by
  simp only [bshape]
  cases h : bshape a S with
  | none => simp
  | some r =>
    simp only [Option.some.injEq]
    split_ifs with h1 h2 h3 <;> simp [*]

theorem not_fits_nil (x : ℕ) (a : List ℕ) : bshape (x :: a) [] ≠ some [] := by simp [bshape]

theorem bidx_self : ∀ {S i : List ℕ}, Valid S i → bidx S i = i
  | [], _, h => by cases h; rfl
  | s :: S, _, h => by
    cases h with
    | cons h0 h1 =>
      simp only [bidx, bidx_self h1]
      split_ifs with h2
      · congr 1; omega
      · rfl

theorem bshape_comm_fits : ∀ {a S : List ℕ}, bshape a S = some S → bshape S a = some S
  | [], S, _ => bshape_nil_right S
  | x :: a, [], h => absurd h (not_fits_nil x a)
  | x :: a, s :: S, h => by
    rw [fits_cons] at h
    simp only [bshape, bshape_comm_fits h.2]
    rcases h.1 with rfl | rfl
    · simp
    · by_cases h1 : s = 1
      · simp [h1]
      · simp [h1]

theorem bidx_idem : ∀ b i, bidx b (bidx b i) = bidx b i
  | [], _ => rfl
  | _ :: _, [] => rfl
  | x :: b, k :: i => by
    simp only [bidx, bidx_idem b i]
    split_ifs <;> rfl

theorem fits_bshape : ∀ {S a b : List ℕ}, bshape a S = some S → bshape b S = some S →
    ∃ c, bshape a b = some c ∧ bshape c S = some S ∧
      ∀ i, Valid S i → bidx a (bidx c i) = bidx a i ∧ bidx b (bidx c i) = bidx b i
  | S, [], b, _, hb => ⟨b, rfl, hb, fun i _ => ⟨rfl, bidx_idem b i⟩⟩
  | S, x :: a, [], ha, _ => ⟨x :: a, rfl, ha, fun i _ => ⟨bidx_idem _ i, rfl⟩⟩
  | [], x :: a, _ :: _, ha, _ => absurd ha (not_fits_nil x a)
  | s :: S, x :: a, y :: b, ha, hb => by
    rw [fits_cons] at ha hb
    obtain ⟨c, h1, h2, h3⟩ := fits_bshape ha.2 hb.2
    refine ⟨(if x = y then x else if x = 1 then y else x) :: c, ?_, ?_, ?_⟩
    · simp only [bshape, h1]
      by_cases g1 : x = y
      · simp [g1]
      · by_cases g2 : x = 1
        · subst g2
          simp only [g1, if_false, if_true]
        · have g3 : y = 1 := by
            rcases ha.1 with h | h <;> rcases hb.1 with h' | h' <;> omega
          simp [g1, g2, g3]
    · rw [fits_cons]
      refine ⟨?_, h2⟩
      split_ifs with g1 g2
      · exact ha.1
      · exact hb.1
      · exact ha.1
    · intro i hi
      cases hi with
      | cons k0 k1 =>
        have := h3 _ k1
        simp only [bidx, this.1, this.2]
        refine ⟨?_, ?_⟩ <;> congr 1 <;> split_ifs <;> first | rfl | omega

theorem valid_cons {s k : ℕ} {S i : List ℕ} : Valid (s :: S) (k :: i) ↔ k < s ∧ Valid S i := by
  unfold Valid
  simp

/-! ## Basic facts -/

theorem IsT.is {S : List ℕ} {t : Tensor} {f : List ℕ → ℝ} (h : IsT S t f) : Is S t f := ⟨t, rfl, h⟩

theorem Is.congr {S : List ℕ} {x : TE} {f g : List ℕ → ℝ} (h : Is S x f) (e : ∀ i, Valid S i → f i = g i) : Is S x g := by
  obtain ⟨t, rfl, hs, hf⟩ := h
  exact ⟨t, rfl, hs, fun i hi => (hf i hi).trans (e i hi)⟩

theorem Rep.congr {S : List ℕ} {x : TE} {f g : List ℕ → ℝ} (h : Rep S x f) (e : ∀ i, Valid S i → f i = g i) : Rep S x g := by
  obtain ⟨t, rfl, hs, hf⟩ := h
  exact ⟨t, rfl, hs, fun i hi => (hf i hi).trans (e i hi)⟩

theorem Is.rep {S : List ℕ} {x : TE} {f : List ℕ → ℝ} (h : Is S x f) : Rep S x f := by
  obtain ⟨t, rfl, hs, hf⟩ := h
  refine ⟨t, rfl, by rw [hs, bshape_self], fun i hi => ?_⟩
  rw [hs, bidx_self hi, hf i hi]

theorem Rep.num (S : List ℕ) (c : ℝ) : Rep S (num c) (fun _ => c) := ⟨⟨[], fun _ => c⟩, rfl, rfl, fun _ _ => rfl⟩

theorem Rep.map {S : List ℕ} {x : TE} {f : List ℕ → ℝ} (g : ℝ → ℝ) (h : Rep S x f) : Rep S (map g x) (fun i => g (f i)) := by
  obtain ⟨t, rfl, hs, hf⟩ := h
  exact ⟨⟨t.shape, fun i => g (t.data i)⟩, rfl, hs, fun i hi => congrArg g (hf i hi)⟩

theorem Is.map {S : List ℕ} {x : TE} {f : List ℕ → ℝ} (g : ℝ → ℝ) (h : Is S x f) : Is S (map g x) (fun i => g (f i)) := by
  obtain ⟨t, rfl, hs, hf⟩ := h
  exact ⟨⟨t.shape, fun i => g (t.data i)⟩, rfl, hs, fun i hi => congrArg g (hf i hi)⟩

theorem map2_ok (o : ℝ → ℝ → ℝ) (a b : Tensor) {S : List ℕ} (h : bshape a.shape b.shape = some S) :
    map2 o (a : TE) (b : TE) = ((⟨S, fun i => o (a.data (bidx a.shape i)) (b.data (bidx b.shape i))⟩ : Tensor) : TE) := by
  change (match bshape a.shape b.shape with
    | none => (Except.error "RuntimeError: sizes of the tensors must match" : TE)
    | some S => ((⟨S, fun i => o (a.data (bidx a.shape i)) (b.data (bidx b.shape i))⟩ : Tensor) : TE)) = _
  rw [h]

theorem Rep.map2 {S : List ℕ} {x y : TE} {f g : List ℕ → ℝ} (o : ℝ → ℝ → ℝ) (hx : Rep S x f) (hy : Rep S y g) :
    Rep S (map2 o x y) (fun i => o (f i) (g i)) := by
  obtain ⟨a, rfl, ha, hf⟩ := hx
  obtain ⟨b, rfl, hb, hg⟩ := hy
  obtain ⟨c, h1, h2, h3⟩ := fits_bshape ha hb
  refine ⟨_, map2_ok o a b h1, h2, fun i hi => ?_⟩
  obtain ⟨k1, k2⟩ := h3 i hi
  simp only [k1, k2, hf i hi, hg i hi]

theorem Is.map2_left {S : List ℕ} {x y : TE} {f g : List ℕ → ℝ} (o : ℝ → ℝ → ℝ) (hx : Is S x f) (hy : Rep S y g) :
    Is S (map2 o x y) (fun i => o (f i) (g i)) := by
  obtain ⟨a, rfl, ha, hf⟩ := hx
  obtain ⟨b, rfl, hb, hg⟩ := hy
  refine ⟨_, map2_ok o a b (by rw [ha]; exact bshape_comm_fits hb), rfl, fun i hi => ?_⟩
  simp only [hg i hi, ha, bidx_self hi, hf i hi]

theorem Is.map2_right {S : List ℕ} {x y : TE} {f g : List ℕ → ℝ} (o : ℝ → ℝ → ℝ) (hx : Rep S x f) (hy : Is S y g) :
    Is S (map2 o x y) (fun i => o (f i) (g i)) := by
  obtain ⟨a, rfl, ha, hf⟩ := hx
  obtain ⟨b, rfl, hb, hg⟩ := hy
  refine ⟨_, map2_ok o a b (by rw [hb]; exact ha), rfl, fun i hi => ?_⟩
  simp only [hf i hi, hb, bidx_self hi, hg i hi]

theorem valid_cons_iff {s : ℕ} {S i : List ℕ} : Valid (s :: S) i ↔ ∃ k j, i = k :: j ∧ k < s ∧ Valid S j := by
  constructor
  · intro h
    cases h with
    | cons h0 h1 => exact ⟨_, _, rfl, h0, h1⟩
  · rintro ⟨k, j, rfl, h0, h1⟩
    exact valid_cons.2 ⟨h0, h1⟩

theorem valid_length {S i : List ℕ} (h : Valid S i) : S.length = i.length := List.Forall₂.length_eq h

theorem IsT.congr {S : List ℕ} {x : Tensor} {f g : List ℕ → ℝ} (h : IsT S x f) (e : ∀ i, Valid S i → f i = g i) : IsT S x g :=
  ⟨h.1, fun i hi => (h.2 i hi).trans (e i hi)⟩

theorem Is.bind {S : List ℕ} {x : TE} {f : List ℕ → ℝ} (h : Is S x f) : ∃ t : Tensor, IsT S t f ∧
    ∀ {α : Type} (g : Tensor → Except String α), TE.bind x g = g t := by
  obtain ⟨t, rfl, ht⟩ := h
  exact ⟨t, ht, fun g => rfl⟩

/-! ## Arithmetic -/

theorem Rep.add {S : List ℕ} {x y : TE} {f g : List ℕ → ℝ} (hx : Rep S x f) (hy : Rep S y g) : Rep S (x + y) (fun i => f i + g i) := hx.map2 _ hy
theorem Rep.sub {S : List ℕ} {x y : TE} {f g : List ℕ → ℝ} (hx : Rep S x f) (hy : Rep S y g) : Rep S (x - y) (fun i => f i - g i) := hx.map2 _ hy
theorem Rep.mul {S : List ℕ} {x y : TE} {f g : List ℕ → ℝ} (hx : Rep S x f) (hy : Rep S y g) : Rep S (x * y) (fun i => f i * g i) := hx.map2 _ hy
theorem Rep.div {S : List ℕ} {x y : TE} {f g : List ℕ → ℝ} (hx : Rep S x f) (hy : Rep S y g) : Rep S (x / y) (fun i => f i / g i) := hx.map2 _ hy
theorem Rep.pow {S : List ℕ} {x y : TE} {f g : List ℕ → ℝ} (hx : Rep S x f) (hy : Rep S y g) : Rep S (pow x y) (fun i => f i ^ g i) := hx.map2 _ hy
theorem Rep.neg {S : List ℕ} {x : TE} {f : List ℕ → ℝ} (hx : Rep S x f) : Rep S (-x) (fun i => -f i) := hx.map _
theorem Is.neg {S : List ℕ} {x : TE} {f : List ℕ → ℝ} (hx : Is S x f) : Is S (-x) (fun i => -f i) := hx.map _
theorem Is.add_left {S : List ℕ} {x y : TE} {f g : List ℕ → ℝ} (hx : Is S x f) (hy : Rep S y g) : Is S (x + y) (fun i => f i + g i) := hx.map2_left _ hy
theorem Is.sub_left {S : List ℕ} {x y : TE} {f g : List ℕ → ℝ} (hx : Is S x f) (hy : Rep S y g) : Is S (x - y) (fun i => f i - g i) := hx.map2_left _ hy
theorem Is.mul_left {S : List ℕ} {x y : TE} {f g : List ℕ → ℝ} (hx : Is S x f) (hy : Rep S y g) : Is S (x * y) (fun i => f i * g i) := hx.map2_left _ hy
theorem Is.div_left {S : List ℕ} {x y : TE} {f g : List ℕ → ℝ} (hx : Is S x f) (hy : Rep S y g) : Is S (x / y) (fun i => f i / g i) := hx.map2_left _ hy
theorem Is.pow_left {S : List ℕ} {x y : TE} {f g : List ℕ → ℝ} (hx : Is S x f) (hy : Rep S y g) : Is S (Tensor.pow x y) (fun i => f i ^ g i) := hx.map2_left _ hy
theorem Is.add_right {S : List ℕ} {x y : TE} {f g : List ℕ → ℝ} (hx : Rep S x f) (hy : Is S y g) : Is S (x + y) (fun i => f i + g i) := Is.map2_right _ hx hy
theorem Is.sub_right {S : List ℕ} {x y : TE} {f g : List ℕ → ℝ} (hx : Rep S x f) (hy : Is S y g) : Is S (x - y) (fun i => f i - g i) := Is.map2_right _ hx hy
theorem Is.mul_right {S : List ℕ} {x y : TE} {f g : List ℕ → ℝ} (hx : Rep S x f) (hy : Is S y g) : Is S (x * y) (fun i => f i * g i) := Is.map2_right _ hx hy
theorem Is.div_right {S : List ℕ} {x y : TE} {f g : List ℕ → ℝ} (hx : Rep S x f) (hy : Is S y g) : Is S (x / y) (fun i => f i / g i) := Is.map2_right _ hx hy
theorem Is.pow_right {S : List ℕ} {x y : TE} {f g : List ℕ → ℝ} (hx : Rep S x f) (hy : Is S y g) : Is S (Tensor.pow x y) (fun i => f i ^ g i) := Is.map2_right _ hx hy

/-! ## New dimensions -/

theorem Rep.unsq (n : ℕ) {S : List ℕ} {x : TE} {f : List ℕ → ℝ} (h : Rep S x f) : Rep (n :: S) (unsq x) (fun i => f i.tail) := by
  obtain ⟨t, rfl, hs, hf⟩ := h
  refine ⟨⟨1 :: t.shape, fun i => t.data i.tail⟩, rfl, (fits_cons _ _ _ _).2 ⟨.inr rfl, hs⟩, fun i hi => ?_⟩
  obtain ⟨k, j, rfl, _, hj⟩ := valid_cons_iff.1 hi
  exact hf j hj

theorem Is.unsq {S : List ℕ} {x : TE} {f : List ℕ → ℝ} (h : Is S x f) : Is (1 :: S) (unsq x) (fun i => f i.tail) := by
  obtain ⟨t, rfl, hs, hf⟩ := h
  refine ⟨⟨1 :: t.shape, fun i => t.data i.tail⟩, rfl, by rw [hs], fun i hi => ?_⟩
  obtain ⟨k, j, rfl, _, hj⟩ := valid_cons_iff.1 hi
  exact hf j hj

theorem Is.unsqRow {n : ℕ} {S : List ℕ} {x : TE} {f : List ℕ → ℝ} (h : Is (n :: S) x f) :
    Is (n :: 1 :: S) (unsqRow x) (fun i => f (i.headD 0 :: i.tail.tail)) := by
  obtain ⟨⟨sh, da⟩, rfl, hs, hf⟩ := h
  obtain rfl : sh = n :: S := hs
  refine ⟨⟨n :: 1 :: S, fun i => da (i.headD 0 :: i.tail.tail)⟩, rfl, rfl, fun i hi => ?_⟩
  obtain ⟨k, j, rfl, hk, hj⟩ := valid_cons_iff.1 hi
  obtain ⟨k', j', rfl, hk', hj'⟩ := valid_cons_iff.1 hj
  exact hf _ (valid_cons.2 ⟨hk, hj'⟩)

theorem bshape_append_one : ∀ {a S : List ℕ}, bshape a S = some S → a.length < S.length → bshape (a ++ [1]) S = some S
  | [], s :: S, _, _ => (fits_cons 1 s [] S).2 ⟨.inr rfl, rfl⟩
  | [], [], _, h => by simp at h
  | x :: a, [], _, h => by simp at h
  | x :: a, s :: S, h, hl => by
    rw [fits_cons] at h
    exact (fits_cons _ _ _ _).2 ⟨h.1, bshape_append_one h.2 (by simpa using hl)⟩

theorem bidx_append_one : ∀ (a i : List ℕ), (bidx (a ++ [1]) i).take a.length = bidx a i
  | [], _ => by simp [bidx]
  | x :: a, [] => by simp [bidx]
  | x :: a, k :: i => by simp [bidx, bidx_append_one a i]

theorem Rep.lead {S : List ℕ} {t : Tensor} {f : List ℕ → ℝ} (hs : bshape t.shape S = some S) (hl : t.shape.length < S.length)
    (hf : ∀ i, Valid S i → t.data (bidx t.shape i) = f i) : Rep S (lead (t : TE)) f := by
  refine ⟨⟨t.shape ++ [1], fun i => t.data (i.take t.shape.length)⟩, rfl, bshape_append_one hs hl, fun i hi => ?_⟩
  change t.data ((bidx (t.shape ++ [1]) i).take t.shape.length) = f i
  rw [bidx_append_one, hf i hi]

/-! ## Selection -/

theorem Is.sel {n : ℕ} {S : List ℕ} {x : TE} {f : List ℕ → ℝ} (k : ℕ) (h : Is (n :: S) x f) (hk : k < n) : Is S (sel k x) (fun i => f (k :: i)) := by
  obtain ⟨⟨sh, da⟩, rfl, hs, hf⟩ := h
  obtain rfl : sh = n :: S := hs
  refine ⟨⟨S, fun i => da (k :: i)⟩, ?_, rfl, fun i hi => hf _ (valid_cons.2 ⟨hk, hi⟩)⟩
  change (if k < n then _ else _) = _
  rw [if_pos hk]

theorem Is.selLast {n : ℕ} {S : List ℕ} {x : TE} {f : List ℕ → ℝ} (h : Is ((n + 1) :: S) x f) : Is S (selLast x) (fun i => f (n :: i)) := by
  obtain ⟨⟨sh, da⟩, rfl, hs, hf⟩ := h
  obtain rfl : sh = (n + 1) :: S := hs
  exact ⟨⟨S, fun i => da (n :: i)⟩, rfl, rfl, fun i hi => hf _ (valid_cons.2 ⟨by omega, hi⟩)⟩

theorem Is.slice {N : ℕ} {S : List ℕ} {x : TE} {f : List ℕ → ℝ} (o n : ℕ) (h : Is (N :: S) x f) (hN : o + n ≤ N) :
    Is (n :: S) (slice o (o + n) x) (fun i => f ((o + i.headD 0) :: i.tail)) := by
  obtain ⟨⟨sh, da⟩, rfl, hs, hf⟩ := h
  obtain rfl : sh = N :: S := hs
  refine ⟨⟨(min (o + n) N - o) :: S, fun i => da ((o + i.headD 0) :: i.tail)⟩, rfl, ?_, fun i hi => ?_⟩
  · change (min (o + n) N - o) :: S = _
    congr 1; omega
  obtain ⟨k, j, rfl, hk, hj⟩ := valid_cons_iff.1 hi
  exact hf _ (valid_cons.2 ⟨by simp; omega, hj⟩)

theorem Is.sliceFrom {n : ℕ} {S : List ℕ} {x : TE} {f : List ℕ → ℝ} (o : ℕ) (h : Is ((o + n) :: S) x f) :
    Is (n :: S) (sliceFrom o x) (fun i => f ((o + i.headD 0) :: i.tail)) := by
  obtain ⟨⟨sh, da⟩, rfl, hs, hf⟩ := h
  obtain rfl : sh = (o + n) :: S := hs
  refine ⟨⟨(o + n - o) :: S, fun i => da ((o + i.headD 0) :: i.tail)⟩, rfl, ?_, fun i hi => ?_⟩
  · change (o + n - o) :: S = _
    congr 1; omega
  obtain ⟨k, j, rfl, hk, hj⟩ := valid_cons_iff.1 hi
  exact hf _ (valid_cons.2 ⟨by simp; omega, hj⟩)

/-! ## Putting together -/

/-- entries of `cat` -/
def catF (n : ℕ) (f g : List ℕ → ℝ) : List ℕ → ℝ
  | [] => 0
  | k :: j => if k < n then f (k :: j) else g ((k - n) :: j)

/-- entries of `catRow` -/
def catRowF (n : ℕ) (f g : List ℕ → ℝ) : List ℕ → ℝ
  | c :: r :: j => if r < n then f (c :: r :: j) else g (c :: (r - n) :: j)
  | _ => 0

/-- entries of `diagEmbed` -/
def diagF (f : List ℕ → ℝ) : List ℕ → ℝ
  | c :: r :: j => if c = r then f (r :: j) else 0
  | _ => 0

/-- entries of `setSlice` -/
def setSliceF (o n : ℕ) (f g : List ℕ → ℝ) : List ℕ → ℝ
  | k :: j => if o ≤ k ∧ k < o + n then g ((k - o) :: j) else f (k :: j)
  | _ => 0

/-- entries of `setBlock` -/
def setBlockF (o n : ℕ) (f g : List ℕ → ℝ) : List ℕ → ℝ
  | c :: r :: j => if (o ≤ c ∧ c < o + n) ∧ (o ≤ r ∧ r < o + n) then g ((c - o) :: (r - o) :: j) else f (c :: r :: j)
  | _ => 0

/-- entries of `setRows` -/
def setRowsF (o n : ℕ) (f g : List ℕ → ℝ) : List ℕ → ℝ
  | c :: r :: j => if o ≤ r ∧ r < o + n then g (c :: (r - o) :: j) else f (c :: r :: j)
  | _ => 0

theorem Is.cat {n m : ℕ} {S : List ℕ} {x y : TE} {f g : List ℕ → ℝ} (hx : Is (n :: S) x f) (hy : Is (m :: S) y g) :
    Is ((n + m) :: S) (cat x y) (catF n f g) := by
  obtain ⟨⟨sa, a⟩, rfl, hsa, hf⟩ := hx
  obtain ⟨⟨sb, b⟩, rfl, hsb, hg⟩ := hy
  obtain rfl : sa = n :: S := hsa
  obtain rfl : sb = m :: S := hsb
  refine ⟨⟨(n + m) :: S, fun i => if i.headD 0 < n then a i else b ((i.headD 0 - n) :: i.tail)⟩, ?_, rfl, fun i hi => ?_⟩
  · change (if S = S then _ else _) = _
    rw [if_pos rfl]
  obtain ⟨k, j, rfl, hk, hj⟩ := valid_cons_iff.1 hi
  change (if k < n then a (k :: j) else b ((k - n) :: j)) = if k < n then f (k :: j) else g ((k - n) :: j)
  by_cases h : k < n
  · rw [if_pos h, if_pos h]
    exact hf _ (valid_cons.2 ⟨h, hj⟩)
  · rw [if_neg h, if_neg h]
    exact hg _ (valid_cons.2 ⟨by omega, hj⟩)

theorem Is.catRow {c n m : ℕ} {S : List ℕ} {x y : TE} {f g : List ℕ → ℝ} (hx : Is (c :: n :: S) x f) (hy : Is (c :: m :: S) y g) :
    Is (c :: (n + m) :: S) (catRow x y) (catRowF n f g) := by
  obtain ⟨⟨sa, a⟩, rfl, hsa, hf⟩ := hx
  obtain ⟨⟨sb, b⟩, rfl, hsb, hg⟩ := hy
  obtain rfl : sa = c :: n :: S := hsa
  obtain rfl : sb = c :: m :: S := hsb
  refine ⟨⟨c :: (n + m) :: S, fun i => if i.tail.headD 0 < n then a i else b (i.headD 0 :: (i.tail.headD 0 - n) :: i.tail.tail)⟩, ?_, rfl,
    fun i hi => ?_⟩
  · change (if c = c ∧ S = S then _ else _) = _
    rw [if_pos ⟨rfl, rfl⟩]
  obtain ⟨k, j, rfl, hk, hj⟩ := valid_cons_iff.1 hi
  obtain ⟨k', j', rfl, hk', hj'⟩ := valid_cons_iff.1 hj
  change (if k' < n then a (k :: k' :: j') else b (k :: (k' - n) :: j')) = if k' < n then f (k :: k' :: j') else g (k :: (k' - n) :: j')
  by_cases h : k' < n
  · rw [if_pos h, if_pos h]
    exact hf _ (valid_cons.2 ⟨hk, valid_cons.2 ⟨h, hj'⟩⟩)
  · rw [if_neg h, if_neg h]
    exact hg _ (valid_cons.2 ⟨hk, valid_cons.2 ⟨by omega, hj'⟩⟩)

theorem Is.sumLast {n : ℕ} {S : List ℕ} {x : TE} {f : List ℕ → ℝ} (h : Is (n :: S) x f) :
    Is S (sumLast x) (fun i => ∑ j : Fin n, f (j.val :: i)) := by
  obtain ⟨⟨sh, da⟩, rfl, hs, hf⟩ := h
  obtain rfl : sh = n :: S := hs
  refine ⟨⟨S, fun i => ∑ j : Fin n, da (j.val :: i)⟩, rfl, rfl, fun i hi => ?_⟩
  change ∑ j : Fin n, da (j.val :: i) = ∑ j : Fin n, f (j.val :: i)
  exact Finset.sum_congr rfl fun j _ => hf (j.val :: i) (valid_cons.2 ⟨j.isLt, hi⟩)

theorem Is.mbmm {k r c : ℕ} {S : List ℕ} {x y : TE} {f g : List ℕ → ℝ} (hx : Is (k :: r :: S) x f) (hy : Is (c :: k :: S) y g) :
    Is (c :: r :: S) (mbmm x y) (fun i => ∑ q : Fin k, f (q.val :: i.tail.headD 0 :: i.tail.tail) * g (i.headD 0 :: q.val :: i.tail.tail)) := by
  obtain ⟨⟨sa, a⟩, rfl, hsa, hf⟩ := hx
  obtain ⟨⟨sb, b⟩, rfl, hsb, hg⟩ := hy
  obtain rfl : sa = k :: r :: S := hsa
  obtain rfl : sb = c :: k :: S := hsb
  refine ⟨⟨c :: r :: S, fun i => ∑ q : Fin (if k = 1 then k else k),
    a ((if k = 1 then 0 else q.val) :: i.tail.headD 0 :: bidx S i.tail.tail) *
      b (i.headD 0 :: (if k = 1 then 0 else q.val) :: bidx S i.tail.tail)⟩, ?_, rfl, fun i hi => ?_⟩
  · change (if k = k ∨ k = 1 ∨ k = 1 then (match bshape S S with | none => _ | some R => _) else _) = _
    rw [if_pos (.inl rfl), bshape_self]
  obtain ⟨l, j, rfl, hk, hj⟩ := valid_cons_iff.1 hi
  obtain ⟨l', j', rfl, hk', hj'⟩ := valid_cons_iff.1 hj
  simp only [List.headD_cons, List.tail_cons]
  rw [bidx_self hj']
  have e : (if k = 1 then k else k) = k := by split_ifs <;> rfl
  refine Fintype.sum_equiv (finCongr e) _ _ fun q => ?_
  have hq : q.val < k := lt_of_lt_of_eq q.isLt e
  have e' : (if k = 1 then 0 else q.val) = q.val := by split_ifs <;> omega
  rw [e']
  exact congrArg₂ (· * ·) (hf _ (valid_cons.2 ⟨hq, valid_cons.2 ⟨hk', hj'⟩⟩)) (hg _ (valid_cons.2 ⟨hk, valid_cons.2 ⟨hq, hj'⟩⟩))

theorem Is.diagEmbed {n : ℕ} {S : List ℕ} {x : TE} {f : List ℕ → ℝ} (h : Is (n :: S) x f) :
    Is (n :: n :: S) (diagEmbed x) (diagF f) := by
  obtain ⟨⟨sh, da⟩, rfl, hs, hf⟩ := h
  obtain rfl : sh = n :: S := hs
  refine ⟨⟨n :: n :: S, fun i => if i.headD 0 = i.tail.headD 0 then da i.tail else 0⟩, rfl, rfl, fun i hi => ?_⟩
  obtain ⟨k, j, rfl, hk, hj⟩ := valid_cons_iff.1 hi
  obtain ⟨k', j', rfl, hk', hj'⟩ := valid_cons_iff.1 hj
  change (if k = k' then da (k' :: j') else 0) = if k = k' then f (k' :: j') else 0
  rw [← hf _ hj]

/-- two-sided broadcasting of a column and a row -/
theorem Is.outer {n m : ℕ} {S : List ℕ} {x y : TE} {f g : List ℕ → ℝ} (hx : Is (1 :: n :: S) x f) (hy : Is (m :: 1 :: S) y g) :
    Is (m :: n :: S) (x * y) (fun i => f (0 :: i.tail) * g (i.headD 0 :: 0 :: i.tail.tail)) := by
  obtain ⟨a, rfl, ha, hf⟩ := hx
  obtain ⟨b, rfl, hb, hg⟩ := hy
  have e : bshape a.shape b.shape = some (m :: n :: S) := by
    rw [ha, hb]
    simp only [bshape, bshape_self]
    by_cases h1 : n = 1 <;> by_cases h2 : 1 = m <;> simp [h1, h2] <;> subst h2 <;> simp [h1]
  refine ⟨_, map2_ok _ a b e, rfl, fun i hi => ?_⟩
  obtain ⟨l, j, rfl, hk, hj⟩ := valid_cons_iff.1 hi
  obtain ⟨l', j', rfl, hk', hj'⟩ := valid_cons_iff.1 hj
  simp only [List.headD_cons, List.tail_cons]
  rw [ha, hb]
  have e1 : bidx (1 :: n :: S) (l :: l' :: j') = 0 :: l' :: j' := by
    have : bidx (n :: S) (l' :: j') = l' :: j' := bidx_self hj
    rw [show bidx (1 :: n :: S) (l :: l' :: j') = 0 :: bidx (n :: S) (l' :: j') from rfl, this]
  have e2 : bidx (m :: 1 :: S) (l :: l' :: j') = l :: 0 :: j' := by
    have h1 : bidx S j' = j' := bidx_self hj'
    have h2 : (if m = 1 then 0 else l) = l := by split_ifs <;> omega
    rw [show bidx (m :: 1 :: S) (l :: l' :: j') = (if m = 1 then 0 else l) :: 0 :: bidx S j' from rfl, h1, h2]
  rw [e1, e2, hf _ (valid_cons.2 ⟨by omega, hj⟩), hg _ (valid_cons.2 ⟨hk, valid_cons.2 ⟨by omega, hj'⟩⟩)]

theorem unflat_flat : ∀ {S i : List ℕ}, Valid S i → unflat S (flat S i) = i
  | [], _, h => by cases h; rfl
  | s :: S, _, h => by
    cases h with
    | @cons _ k _ j h0 h1 =>
      have e1 : (k + s * flat S j) % s = k := by rw [Nat.add_mul_mod_self_left, Nat.mod_eq_of_lt h0]
      have e2 : (k + s * flat S j) / s = flat S j := by
        rw [Nat.add_mul_div_left _ _ (by omega), Nat.div_eq_of_lt h0, zero_add]
      change (k + s * flat S j) % s :: unflat S ((k + s * flat S j) / s) = _
      rw [e1, e2, unflat_flat h1]

theorem Is.reshape {S : List ℕ} {x : TE} {f : List ℕ → ℝ} (h : Is S x f) : Is S (reshape S x) f := by
  obtain ⟨⟨sh, da⟩, rfl, hs, hf⟩ := h
  obtain rfl : sh = S := hs
  refine ⟨⟨sh, fun i => da (unflat sh (flat sh i))⟩, ?_, rfl, fun i hi => ?_⟩
  · change (if sh.prod = sh.prod then _ else _) = _
    rw [if_pos rfl]
  · change da _ = _
    rw [unflat_flat hi]
    exact hf i hi

theorem Is.full (S : List ℕ) (c : ℝ) : Is S (full S c) (fun _ => c) := ⟨⟨S, fun _ => c⟩, rfl, rfl, fun _ _ => rfl⟩

theorem Is.onesLike {S : List ℕ} {x : TE} {f : List ℕ → ℝ} (h : Is S x f) : Is S (onesLike x) (fun _ => 1) := by
  obtain ⟨t, rfl, hs, hf⟩ := h
  exact ⟨⟨t.shape, fun _ => 1⟩, rfl, hs, fun _ _ => rfl⟩

/-! ## Assignments -/

theorem Is.inplace {S : List ℕ} {x y : TE} {f g : List ℕ → ℝ} (o : ℝ → ℝ → ℝ) (hx : Is S x f) (hy : Rep S y g) :
    Is S (inplace o x y) (fun i => o (f i) (g i)) := by
  have h := hx.map2_left o hy
  obtain ⟨a, rfl, ha, hf⟩ := hx
  obtain ⟨b, rfl, hb, hg⟩ := hy
  refine Eq.mpr (congrArg (fun z => Is S z _) ?_) h
  change (if bshape a.shape b.shape = some a.shape then map2 o a b else _) = _
  rw [if_pos (by rw [ha]; exact bshape_comm_fits hb)]

theorem Is.setSlice {N : ℕ} {S : List ℕ} {x y : TE} {f g : List ℕ → ℝ} (o n : ℕ) (hN : o + n ≤ N) (hx : Is (N :: S) x f) (hy : Rep (n :: S) y g) :
    Is (N :: S) (setSlice o n x y) (setSliceF o n f g) := by
  obtain ⟨⟨sa, a⟩, rfl, hsa, hf⟩ := hx
  obtain ⟨b, rfl, hb, hg⟩ := hy
  obtain rfl : sa = N :: S := hsa
  refine ⟨⟨N :: S, fun i => if o ≤ i.headD 0 ∧ i.headD 0 < o + n then b.data (bidx b.shape ((i.headD 0 - o) :: i.tail)) else a i⟩, ?_, rfl,
    fun i hi => ?_⟩
  · change (if bshape b.shape ((min (o + n) N - o) :: S) = some ((min (o + n) N - o) :: S) then _ else _) = _
    rw [if_pos (by rw [show min (o + n) N - o = n by omega]; exact hb)]
  obtain ⟨k, j, rfl, hk, hj⟩ := valid_cons_iff.1 hi
  change (if o ≤ k ∧ k < o + n then b.data (bidx b.shape ((k - o) :: j)) else a (k :: j)) = if o ≤ k ∧ k < o + n then g ((k - o) :: j) else f (k :: j)
  split_ifs with h
  · exact hg _ (valid_cons.2 ⟨by omega, hj⟩)
  · exact hf _ hi

theorem Is.setBlock {N : ℕ} {S : List ℕ} {x y : TE} {f g : List ℕ → ℝ} (o n : ℕ) (hN : o + n ≤ N) (hx : Is (N :: N :: S) x f)
    (hy : Rep (n :: n :: S) y g) : Is (N :: N :: S) (setBlock o n x y) (setBlockF o n f g) := by
  obtain ⟨⟨sa, a⟩, rfl, hsa, hf⟩ := hx
  obtain ⟨b, rfl, hb, hg⟩ := hy
  obtain rfl : sa = N :: N :: S := hsa
  refine ⟨⟨N :: N :: S, fun i => if (o ≤ i.headD 0 ∧ i.headD 0 < o + n) ∧ (o ≤ i.tail.headD 0 ∧ i.tail.headD 0 < o + n) then
        b.data (bidx b.shape ((i.headD 0 - o) :: (i.tail.headD 0 - o) :: i.tail.tail)) else a i⟩, ?_, rfl, fun i hi => ?_⟩
  · change (if bshape b.shape ((min (o + n) N - o) :: (min (o + n) N - o) :: S) = some ((min (o + n) N - o) :: (min (o + n) N - o) :: S) then _ else _) = _
    rw [if_pos (by rw [show min (o + n) N - o = n by omega]; exact hb)]
  obtain ⟨k, j, rfl, hk, hj⟩ := valid_cons_iff.1 hi
  obtain ⟨k', j', rfl, hk', hj'⟩ := valid_cons_iff.1 hj
  change (if (o ≤ k ∧ k < o + n) ∧ (o ≤ k' ∧ k' < o + n) then b.data (bidx b.shape ((k - o) :: (k' - o) :: j')) else a (k :: k' :: j')) =
    if (o ≤ k ∧ k < o + n) ∧ (o ≤ k' ∧ k' < o + n) then g ((k - o) :: (k' - o) :: j') else f (k :: k' :: j')
  split_ifs with h
  · exact hg _ (valid_cons.2 ⟨by omega, valid_cons.2 ⟨by omega, hj'⟩⟩)
  · exact hf _ hi

theorem Is.setRows {N : ℕ} {S : List ℕ} {x y : TE} {f g : List ℕ → ℝ} (o n : ℕ) (hN : o + n ≤ N) (hx : Is (1 :: N :: S) x f)
    (hy : Rep (1 :: n :: S) y g) : Is (1 :: N :: S) (setRows o n x y) (setRowsF o n f g) := by
  obtain ⟨⟨sa, a⟩, rfl, hsa, hf⟩ := hx
  obtain ⟨b, rfl, hb, hg⟩ := hy
  obtain rfl : sa = 1 :: N :: S := hsa
  refine ⟨⟨1 :: N :: S, fun i => if i.headD 0 < 1 ∧ (o ≤ i.tail.headD 0 ∧ i.tail.headD 0 < o + n) then
        b.data (bidx b.shape (i.headD 0 :: (i.tail.headD 0 - o) :: i.tail.tail)) else a i⟩, ?_, rfl, fun i hi => ?_⟩
  · change (if bshape b.shape (min 1 1 :: (min (o + n) N - o) :: S) = some (min 1 1 :: (min (o + n) N - o) :: S) then _ else _) = _
    rw [if_pos (by rw [show min (o + n) N - o = n by omega]; exact hb)]
  obtain ⟨k, j, rfl, hk, hj⟩ := valid_cons_iff.1 hi
  obtain ⟨k', j', rfl, hk', hj'⟩ := valid_cons_iff.1 hj
  change (if k < 1 ∧ (o ≤ k' ∧ k' < o + n) then b.data (bidx b.shape (k :: (k' - o) :: j')) else a (k :: k' :: j')) =
    if o ≤ k' ∧ k' < o + n then g (k :: (k' - o) :: j') else f (k :: k' :: j')
  simp only [hk, true_and]
  split_ifs with h
  · exact hg _ (valid_cons.2 ⟨by omega, valid_cons.2 ⟨by omega, hj'⟩⟩)
  · exact hf _ hi

theorem valid_append : ∀ {A S i : List ℕ}, Valid (A ++ S) i → Valid S (i.drop A.length)
  | [], _, _, h => h
  | a :: A, S, i, h => by
    obtain ⟨k, j, rfl, _, hj⟩ := valid_cons_iff.1 h
    exact valid_append (A := A) hj

theorem Is.maskedCopy {A S : List ℕ} {x z u v : TE} {f g p q : List ℕ → ℝ} (hx : Is (A ++ S) x f) (hz : Is (A ++ S) z g) (hu : Is S u p) (hv : Rep S v q) :
    Is (A ++ S) (maskedCopy x z u v) (fun i => if p (i.drop A.length) > q (i.drop A.length) then g i else f i) := by
  obtain ⟨⟨sa, a⟩, rfl, hsa, hf⟩ := hx
  obtain ⟨⟨sc, c⟩, rfl, hsc, hg⟩ := hz
  obtain ⟨⟨sp, p'⟩, rfl, hsp, hp⟩ := hu
  obtain ⟨b, rfl, hb, hq⟩ := hv
  obtain rfl : sa = A ++ S := hsa
  obtain rfl : sc = A ++ S := hsc
  obtain rfl : sp = S := hsp
  have hl : (A ++ sp).length - sp.length = A.length := by simp
  refine ⟨⟨A ++ sp, fun i => let j := i.drop ((A ++ sp).length - sp.length)
    if p' (bidx sp j) > b.data (bidx b.shape j) then c i else a i⟩, ?_, rfl, fun i hi => ?_⟩
  · change (match bshape sp b.shape with | none => _ | some M => _) = _
    rw [bshape_comm_fits hb]
    change (if _ ∧ (A ++ sp).drop ((A ++ sp).length - sp.length) = sp ∧ sp.length ≤ (A ++ sp).length then _ else _) = _
    rw [if_pos ⟨rfl, by rw [hl]; simp, by simp⟩]
  have hj := valid_append hi
  dsimp only
  have e1 : p' (i.drop A.length) = p (i.drop A.length) := hp _ hj
  have e2 : a i = f i := hf _ hi
  have e3 : c i = g i := hg _ hi
  rw [hl, bidx_self hj, e1, hq _ hj, e2, e3]

end Pyoptmat.Spec
