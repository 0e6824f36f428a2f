import Verif.Model.Chunktime
import Mathlib.Tactic

/-! Helper lemmas: block algebra, Thomas, and parallel cyclic reduction on storages. -/

namespace Pyoptmat.Chunktime

variable {β : Type*} {m : ℕ} {K : Type*} [Field K]

/-- every batch entry of the block is invertible -/
def Inv (A : Blk β m K) : Prop := ∀ b, IsUnit (A b).det

theorem bmv_luSolve {A : Blk β m K} (hA : Inv A) (v : BVec β m K) : bmv A (luSolve A v) = v := by
  funext b
  simp [bmv, luSolve, Matrix.mulVec_mulVec, Matrix.mul_nonsing_inv _ (hA b)]

theorem luSolve_bmv {A : Blk β m K} (hA : Inv A) (v : BVec β m K) : luSolve A (bmv A v) = v := by
  funext b
  simp [bmv, luSolve, Matrix.mulVec_mulVec, Matrix.nonsing_inv_mul _ (hA b)]

theorem luSolve_eq {A : Blk β m K} (hA : Inv A) {x v : BVec β m K} (h : bmv A x = v) :
    luSolve A v = x := by rw [← h, luSolve_bmv hA]

theorem bmv_sub (A : Blk β m K) (x y : BVec β m K) : bmv A (x - y) = bmv A x - bmv A y := by
  funext b; simp [bmv, Matrix.mulVec_sub]

theorem luSolve_sub (A : Blk β m K) (x y : BVec β m K) :
    luSolve A (x - y) = luSolve A x - luSolve A y := by
  funext b; simp [luSolve, Matrix.mulVec_sub]

theorem bmv_bmm (A B : Blk β m K) (x : BVec β m K) : bmv (bmm A B) x = bmv A (bmv B x) := by
  funext b; simp [bmv, bmm, Matrix.mulVec_mulVec]

theorem bmv_luSolveM (A B : Blk β m K) (x : BVec β m K) :
    bmv (luSolveM A B) x = luSolve A (bmv B x) := by
  funext b; simp [bmv, luSolveM, luSolve, Matrix.mulVec_mulVec]

theorem bmv_neg (A : Blk β m K) (x : BVec β m K) : bmv (-A) x = -bmv A x := by
  funext b; simp [bmv, Matrix.neg_mulVec]

/-! ### slice assignment -/

theorem assign_of_not_mem {α : Type*} (mem : Mem α) (cells : List (ℕ × α)) (a : ℕ)
    (h : ∀ c ∈ cells, c.1 ≠ a) : assign mem cells a = mem a := by
  unfold assign
  induction cells generalizing mem with
  | nil => rfl
  | cons c cs ih =>
    simp only [List.foldl_cons]
    rw [ih _ (fun c' hc' => h c' (by simp [hc']))]
    have := h c (by simp)
    simp [Function.update_of_ne this.symm]

theorem assign_of_mem {α : Type*} (mem : Mem α) (cells : List (ℕ × α)) (a : ℕ) (x : α)
    (hx : (a, x) ∈ cells) (h : ∀ c ∈ cells, c.1 = a → c.2 = x) : assign mem cells a = x := by
  unfold assign
  induction cells generalizing mem with
  | nil => simp at hx
  | cons c cs ih =>
    simp only [List.foldl_cons]
    by_cases hin : (a, x) ∈ cs
    · exact ih _ hin (fun c' hc' => h c' (by simp [hc']))
    · have hc : c = (a, x) := by
        rcases List.mem_cons.1 hx with h1 | h1
        · exact h1.symm
        · exact absurd h1 hin
      have hnot : ∀ c' ∈ cs, c'.1 ≠ a := by
        intro c' hc' he
        apply hin
        have := h c' (by simp [hc']) he
        obtain ⟨c1, c2⟩ := c'
        simp at he this
        subst he; subst this; exact hc'
      have := assign_of_not_mem (Function.update mem c.1 c.2) cs a hnot
      unfold assign at this
      rw [this, hc]
      simp

theorem mem_pairs {n0 n p q : ℕ} : (p, q) ∈ pairs n0 n ↔ p < n0 ∧ q < n := by
  simp [pairs]

/-! ### one reduction step in terms of local row numbers -/

/-- the view used in iteration `i` -/
structure ViewAt (w : View) (s i N : ℕ) : Prop where
  off : w.off = s
  n0 : w.n0 = 2 ^ i
  n1 : w.n1 = 2 ^ (N - i)
  s0 : i = 0 ∨ w.s0 = 1
  s1 : w.s1 = 2 ^ i

theorem ViewAt.addr_eq {w : View} {s i N : ℕ} (h : ViewAt w s i N) {p q : ℕ} (hp : p < 2 ^ i) :
    w.addr p q = s + (p + q * 2 ^ i) := by
  unfold View.addr
  rw [h.off, h.s1]
  rcases h.s0 with h0 | h0
  · subst h0
    have : p = 0 := by simpa using hp
    subst this; simp
  · rw [h0]; ring

theorem viewAt_slice (s e N : ℕ) (h : e - s = 2 ^ N) : ViewAt (sliceView s e) s 0 N :=
  ⟨rfl, rfl, by simp [sliceView, h], Or.inl rfl, rfl⟩

theorem viewAt_shift {w : View} {s i N : ℕ} (h : ViewAt w s i N) (hi : i < N) :
    ViewAt (cyclicShift w i) s (i + 1) N := by
  refine ⟨h.off, ?_, ?_, Or.inr rfl, rfl⟩
  · simp [cyclicShift, h.n0, pow_succ]
  · simp only [cyclicShift, h.n1]
    have : N - i = (N - (i + 1)) + 1 := by omega
    rw [this, pow_succ]; simp

theorem local_decomp (d l : ℕ) (hd : 0 < d) : l = l % d + l / d * d ∧ l % d < d :=
  ⟨by rw [Nat.mul_comm]; exact (Nat.mod_add_div l d).symm, Nat.mod_lt _ hd⟩

theorem local_inj {d p q p' q' : ℕ} (hp : p < d) (hp' : p' < d) (h : p + q * d = p' + q' * d) :
    p = p' ∧ q = q' := by
  have hd : 0 < d := by omega
  have h1 : (p + q * d) % d = p := by rw [Nat.add_mul_mod_self_right, Nat.mod_eq_of_lt hp]
  have h2 : (p' + q' * d) % d = p' := by rw [Nat.add_mul_mod_self_right, Nat.mod_eq_of_lt hp']
  have hpp : p = p' := by rw [← h1, ← h2, h]
  subst hpp
  exact ⟨rfl, Nat.eq_of_mul_eq_mul_right hd (by omega)⟩

theorem reduceRhs_apply {vw Bw lw : View} {s i N : ℕ} (hv : ViewAt vw s i N) (hB : ViewAt Bw s i N)
    (hl : ViewAt lw s i N) (hi : i < N) (lu B : Mem (Blk β m K)) (v : Mem (BVec β m K)) (j : ℕ) :
    reduceRhs vw Bw lw lu B v j =
      if s + 2 ^ i ≤ j ∧ j < s + 2 ^ N then
        v j - bmv (B j) (luSolve (lu (j - 2 ^ i)) (v (j - 2 ^ i)))
      else v j := by
  have hd : 0 < 2 ^ i := by positivity
  have hN : 2 ^ (N - i) * 2 ^ i = 2 ^ N := by rw [← pow_add]; congr 1; omega
  have hn1 : 1 ≤ 2 ^ (N - i) := Nat.one_le_two_pow
  have hrange : ∀ p q, p < 2 ^ i → q < 2 ^ (N - i) - 1 →
      s + 2 ^ i ≤ s + (p + (q + 1) * 2 ^ i) ∧ s + (p + (q + 1) * 2 ^ i) < s + 2 ^ N := by
    intro p q hp hq
    have h1 : (q + 2) * 2 ^ i ≤ 2 ^ (N - i) * 2 ^ i := Nat.mul_le_mul_right _ (by omega)
    rw [hN] at h1
    have h2 : (q + 2) * 2 ^ i = q * 2 ^ i + 2 * 2 ^ i := by ring
    have h3 : (q + 1) * 2 ^ i = q * 2 ^ i + 2 ^ i := by ring
    omega
  unfold reduceRhs
  split_ifs with h
  · obtain ⟨h1, h2⟩ := h
    obtain ⟨l, rfl⟩ : ∃ l, j = s + l := ⟨j - s, by omega⟩
    obtain ⟨e1, e2⟩ := local_decomp (2 ^ i) l hd
    set p := l % 2 ^ i
    set q := l / 2 ^ i with hq
    have hq1 : 1 ≤ q := by rw [hq]; exact (Nat.one_le_div_iff hd).2 (by omega)
    have hq2 : q < 2 ^ (N - i) := by
      by_contra hc
      have : 2 ^ (N - i) * 2 ^ i ≤ q * 2 ^ i := Nat.mul_le_mul_right _ (by omega)
      omega
    have hsub : s + l - 2 ^ i = s + (p + (q - 1) * 2 ^ i) := by
      have : q * 2 ^ i = (q - 1) * 2 ^ i + 2 ^ i := by
        conv_lhs => rw [show q = (q - 1) + 1 by omega]
        ring
      omega
    have hq3 : q - 1 + 1 = q := by omega
    apply assign_of_mem
    · rw [List.mem_map]
      refine ⟨(p, q - 1), ?_, ?_⟩
      · rw [mem_pairs, hv.n0, hv.n1]; omega
      · simp only [hv.addr_eq e2, hB.addr_eq e2, hl.addr_eq e2, hq3, ← e1, hsub]
    · rintro c hc hca
      rw [List.mem_map] at hc
      obtain ⟨⟨p', q'⟩, hpq, rfl⟩ := hc
      rw [mem_pairs, hv.n0, hv.n1] at hpq
      simp only [hv.addr_eq hpq.1, hB.addr_eq hpq.1, hl.addr_eq hpq.1] at hca ⊢
      have : p' + (q' + 1) * 2 ^ i = p + q * 2 ^ i := by omega
      obtain ⟨rfl, hqq⟩ := local_inj hpq.1 e2 this
      rw [hca, hsub, show q' = q - 1 by omega]
  · apply assign_of_not_mem
    rintro c hc hca
    rw [List.mem_map] at hc
    obtain ⟨⟨p', q'⟩, hpq, rfl⟩ := hc
    rw [mem_pairs, hv.n0, hv.n1] at hpq
    simp only [hv.addr_eq hpq.1] at hca
    exact h (hca ▸ hrange _ _ hpq.1 hpq.2)

theorem reduceOff_apply {Bw lw : View} {s i N : ℕ} (hB : ViewAt Bw s i N)
    (hl : ViewAt lw s i N) (hi : i < N) (lu B : Mem (Blk β m K)) (j : ℕ) :
    reduceOff Bw lw lu B j =
      if s + 2 ^ (i + 1) ≤ j ∧ j < s + 2 ^ N then
        -bmm (B j) (luSolveM (lu (j - 2 ^ i)) (B (j - 2 ^ i)))
      else B j := by
  have hd : 0 < 2 ^ i := by positivity
  have hN : 2 ^ (N - i) * 2 ^ i = 2 ^ N := by rw [← pow_add]; congr 1; omega
  have hn1 : 1 ≤ 2 ^ (N - i) := Nat.one_le_two_pow
  have h2i : 2 ^ (i + 1) = 2 * 2 ^ i := by rw [pow_succ]; ring
  have hrange : ∀ p q, p < 2 ^ i → q < 2 ^ (N - i) - 2 →
      s + 2 ^ (i + 1) ≤ s + (p + (q + 2) * 2 ^ i) ∧ s + (p + (q + 2) * 2 ^ i) < s + 2 ^ N := by
    intro p q hp hq
    have h1 : (q + 3) * 2 ^ i ≤ 2 ^ (N - i) * 2 ^ i := Nat.mul_le_mul_right _ (by omega)
    rw [hN] at h1
    have h2 : (q + 3) * 2 ^ i = q * 2 ^ i + 3 * 2 ^ i := by ring
    have h3 : (q + 2) * 2 ^ i = q * 2 ^ i + 2 * 2 ^ i := by ring
    omega
  unfold reduceOff
  split_ifs with h
  · obtain ⟨h1, h2⟩ := h
    obtain ⟨l, rfl⟩ : ∃ l, j = s + l := ⟨j - s, by omega⟩
    obtain ⟨e1, e2⟩ := local_decomp (2 ^ i) l hd
    set p := l % 2 ^ i
    set q := l / 2 ^ i with hq
    have hq1 : 2 ≤ q := by rw [hq]; exact (Nat.le_div_iff_mul_le hd).2 (by omega)
    have hq2 : q < 2 ^ (N - i) := by
      by_contra hc
      have : 2 ^ (N - i) * 2 ^ i ≤ q * 2 ^ i := Nat.mul_le_mul_right _ (by omega)
      omega
    have hsub : s + l - 2 ^ i = s + (p + (q - 1) * 2 ^ i) := by
      have : q * 2 ^ i = (q - 1) * 2 ^ i + 2 ^ i := by
        conv_lhs => rw [show q = (q - 1) + 1 by omega]
        ring
      omega
    have hq3 : q - 2 + 2 = q := by omega
    have hq4 : q - 2 + 1 = q - 1 := by omega
    apply assign_of_mem
    · rw [List.mem_map]
      refine ⟨(p, q - 2), ?_, ?_⟩
      · rw [mem_pairs, hB.n0, hB.n1]; omega
      · simp only [hB.addr_eq e2, hl.addr_eq e2, hq3, hq4, ← e1, hsub]
    · rintro c hc hca
      rw [List.mem_map] at hc
      obtain ⟨⟨p', q'⟩, hpq, rfl⟩ := hc
      rw [mem_pairs, hB.n0, hB.n1] at hpq
      simp only [hB.addr_eq hpq.1, hl.addr_eq hpq.1] at hca ⊢
      have : p' + (q' + 2) * 2 ^ i = p + q * 2 ^ i := by omega
      obtain ⟨rfl, hqq⟩ := local_inj hpq.1 e2 this
      rw [hca, hsub, show q' + 1 = q - 1 by omega]
  · apply assign_of_not_mem
    rintro c hc hca
    rw [List.mem_map] at hc
    obtain ⟨⟨p', q'⟩, hpq, rfl⟩ := hc
    rw [mem_pairs, hB.n0, hB.n1] at hpq
    simp only [hB.addr_eq hpq.1] at hca
    exact h (hca ▸ hrange _ _ hpq.1 hpq.2)

/-! ### the chunk invariant -/

/-- Rows of the chunk `[s, s + 2^N)` after `i` iterations, relative to a vector `x`. -/
def RowInv (s i N : ℕ) (A B : Mem (Blk β m K)) (v x : Mem (BVec β m K)) : Prop :=
  ∀ l, l < 2 ^ N →
    if l < 2 ^ i then bmv (A (s + l)) (x (s + l)) = v (s + l)
    else bmv (A (s + l)) (x (s + l)) + bmv (B (s + l)) (x (s + l - 2 ^ i)) = v (s + l)

theorem rowInv_step {s i N : ℕ} {lu B : Mem (Blk β m K)} {v x : Mem (BVec β m K)}
    {vw Bw lw : View} (hv : ViewAt vw s i N) (hB : ViewAt Bw s i N) (hl : ViewAt lw s i N)
    (hi : i < N) (hA : ∀ l, l < 2 ^ N → Inv (lu (s + l)))
    (h : RowInv s i N lu B v x) :
    RowInv s (i + 1) N lu (reduceOff Bw lw lu B) (reduceRhs vw Bw lw lu B v) x := by
  intro l hl'
  have h2i : 2 ^ (i + 1) = 2 * 2 ^ i := by rw [pow_succ]; ring
  have hd : 0 < 2 ^ i := by positivity
  rw [reduceRhs_apply hv hB hl hi, reduceOff_apply hB hl hi]
  have hL := h l hl'
  by_cases h1 : l < 2 ^ i
  · rw [if_pos h1] at hL
    rw [if_pos (show l < 2 ^ (i + 1) by omega),
      if_neg (show ¬(s + 2 ^ i ≤ s + l ∧ s + l < s + 2 ^ N) by omega)]
    exact hL
  · rw [if_neg h1] at hL
    rw [if_pos (show s + 2 ^ i ≤ s + l ∧ s + l < s + 2 ^ N by omega)]
    have hP := h (l - 2 ^ i) (by omega)
    have hinv := hA (l - 2 ^ i) (by omega)
    have e1 : s + (l - 2 ^ i) = s + l - 2 ^ i := by omega
    rw [e1] at hP hinv
    by_cases h2 : l < 2 ^ (i + 1)
    · rw [if_pos h2]
      rw [if_pos (show l - 2 ^ i < 2 ^ i by omega)] at hP
      rw [luSolve_eq hinv hP, ← hL]; simp
    · rw [if_neg h2, if_pos (show s + 2 ^ (i + 1) ≤ s + l ∧ s + l < s + 2 ^ N by omega)]
      rw [if_neg (show ¬ l - 2 ^ i < 2 ^ i by omega)] at hP
      have e2 : s + l - 2 ^ i - 2 ^ i = s + l - 2 ^ (i + 1) := by omega
      rw [e2] at hP
      rw [bmv_neg, bmv_bmm, bmv_luSolveM]
      have hx : luSolve (lu (s + l - 2 ^ i)) (bmv (B (s + l - 2 ^ i)) (x (s + l - 2 ^ (i + 1))))
          = luSolve (lu (s + l - 2 ^ i)) (v (s + l - 2 ^ i)) - x (s + l - 2 ^ i) := by
        have : bmv (B (s + l - 2 ^ i)) (x (s + l - 2 ^ (i + 1)))
            = v (s + l - 2 ^ i) - bmv (lu (s + l - 2 ^ i)) (x (s + l - 2 ^ i)) := by
          rw [← hP]; abel
        rw [this, luSolve_sub, luSolve_bmv hinv]
      rw [hx, bmv_sub, ← hL]; abel

/-- state invariant of the loop of `_solve_block` -/
structure LoopInv (lu : Mem (Blk β m K)) (x : Mem (BVec β m K)) (B0 : Mem (Blk β m K))
    (v0 : Mem (BVec β m K)) (s i N : ℕ) (st : PcrState β m K) : Prop where
  vw : ViewAt st.vw s i N
  Bw : ViewAt st.Bw s i N
  lw : ViewAt st.lw s i N
  rows : RowInv s i N lu st.B st.v x
  vout : ∀ j, (j ≤ s ∨ s + 2 ^ N ≤ j) → st.v j = v0 j
  Bout : ∀ j, (j ≤ s ∨ s + 2 ^ N ≤ j) → st.B j = B0 j

theorem loopInv_step {lu : Mem (Blk β m K)} {x : Mem (BVec β m K)} {B0 : Mem (Blk β m K)}
    {v0 : Mem (BVec β m K)} {s i N : ℕ} {st : PcrState β m K} (hi : i < N)
    (hA : ∀ l, l < 2 ^ N → Inv (lu (s + l))) (h : LoopInv lu x B0 v0 s i N st) :
    LoopInv lu x B0 v0 s (i + 1) N (pcrStep lu st i) := by
  have hd : 0 < 2 ^ i := by positivity
  have hd' : 0 < 2 ^ (i + 1) := by positivity
  refine ⟨viewAt_shift h.vw hi, viewAt_shift h.Bw hi, viewAt_shift h.lw hi,
    rowInv_step h.vw h.Bw h.lw hi hA h.rows, ?_, ?_⟩
  · intro j hj
    show reduceRhs st.vw st.Bw st.lw lu st.B st.v j = _
    rw [reduceRhs_apply h.vw h.Bw h.lw hi, if_neg (by omega)]
    exact h.vout j hj
  · intro j hj
    show reduceOff st.Bw st.lw lu st.B j = _
    rw [reduceOff_apply h.Bw h.lw hi, if_neg (by omega)]
    exact h.Bout j hj

theorem loopInv_all {lu : Mem (Blk β m K)} {x : Mem (BVec β m K)} {B0 : Mem (Blk β m K)}
    {v0 : Mem (BVec β m K)} {s N : ℕ} {st : PcrState β m K}
    (hA : ∀ l, l < 2 ^ N → Inv (lu (s + l))) (h : LoopInv lu x B0 v0 s 0 N st) (i : ℕ)
    (hi : i ≤ N) : LoopInv lu x B0 v0 s i N ((List.range i).foldl (pcrStep lu) st) := by
  induction i with
  | zero => simpa using h
  | succ i ih =>
    rw [List.range_succ, List.foldl_append]
    exact loopInv_step (by omega) hA (ih (by omega))

/-- copying a fully shifted view back onto its own storage changes nothing -/
theorem assign_self {α : Type*} (mem : Mem α) {w : View} {s e N : ℕ} (hw : ViewAt w s N N)
    (he : e = s + 2 ^ N) :
    assign mem ((List.range (e - (s + 1))).map fun q => (s + 1 + q, mem (w.addr (q + 1) 0)))
      = mem := by
  funext j
  by_cases hj : s + 1 ≤ j ∧ j < e
  · apply assign_of_mem
    · rw [List.mem_map]
      refine ⟨j - (s + 1), ?_, ?_⟩
      · simp; omega
      · have : j - (s + 1) + 1 < 2 ^ N := by omega
        rw [hw.addr_eq this]
        have e1 : s + 1 + (j - (s + 1)) = j := by omega
        have e2 : s + (j - (s + 1) + 1 + 0 * 2 ^ N) = j := by omega
        rw [e1, e2]
    · rintro c hc hcj
      rw [List.mem_map] at hc
      obtain ⟨q, hq, rfl⟩ := hc
      simp at hq hcj
      have : q + 1 < 2 ^ N := by omega
      rw [hw.addr_eq this]
      have e2 : s + (q + 1 + 0 * 2 ^ N) = j := by omega
      rw [e2]
  · apply assign_of_not_mem
    rintro c hc hcj
    rw [List.mem_map] at hc
    obtain ⟨q, hq, rfl⟩ := hc
    simp at hq hcj
    omega

/-- Effect of one chunk of PCR. -/
theorem pcrChunk_spec {lu B : Mem (Blk β m K)} {v x : Mem (BVec β m K)} {s e N : ℕ}
    (he : e = s + 2 ^ N) (hA : ∀ l, l < 2 ^ N → Inv (lu (s + l)))
    (h : RowInv s 0 N lu B v x) :
    (∀ j, s ≤ j → j < e → bmv (lu j) (x j) = (pcrChunk lu (B, v) (s, e)).2 j) ∧
    (∀ j, (j < s ∨ e ≤ j) → (pcrChunk lu (B, v) (s, e)).2 j = v j) ∧
    (∀ j, (j < s ∨ e ≤ j) → (pcrChunk lu (B, v) (s, e)).1 j = B j) := by
  have hes : e - s = 2 ^ N := by rw [he]; simp
  have hlog : Nat.log 2 (e - s) = N := by rw [hes]; exact Nat.log_pow (by norm_num) N
  have hinit : LoopInv lu x B v s 0 N
      { B := B, v := v, Bw := sliceView s e, vw := sliceView s e, lw := sliceView s e } :=
    ⟨viewAt_slice s e N hes, viewAt_slice s e N hes, viewAt_slice s e N hes, h,
      fun _ _ => rfl, fun _ _ => rfl⟩
  have hfin := loopInv_all hA hinit N le_rfl
  have hst : solveBlock lu s e B v = (List.range N).foldl (pcrStep lu)
      { B := B, v := v, Bw := sliceView s e, vw := sliceView s e, lw := sliceView s e } := by
    unfold solveBlock; rw [hlog]
  rw [← hst] at hfin
  set st := solveBlock lu s e B v with hstdef
  -- the final self-assignment does not change anything
  have hv : (pcrChunk lu (B, v) (s, e)).2 = st.v := assign_self st.v hfin.vw he
  have hB : (pcrChunk lu (B, v) (s, e)).1 = st.B := assign_self st.B hfin.Bw he
  rw [hv, hB]
  refine ⟨?_, fun j hj => hfin.vout j (by omega), fun j hj => hfin.Bout j (by omega)⟩
  intro j h1 h2
  have := hfin.rows (j - s) (by omega)
  rw [if_pos (by omega)] at this
  rwa [show s + (j - s) = j by omega] at this

/-! ### chaining the chunks -/

/-- `x` solves the system stored in the storages, for rows below `n`. -/
def Sol (n : ℕ) (A B : Mem (Blk β m K)) (v x : Mem (BVec β m K)) : Prop :=
  (0 < n → bmv (A 0) (x 0) = v 0) ∧
  ∀ k, k + 1 < n → bmv (A (k + 1)) (x (k + 1)) + bmv (B k) (x k) = v (k + 1)

/-- Rows below `e` are decoupled, rows from `e` on are as in the original system (`Bp` is padded). -/
structure ChainInv (n e : ℕ) (lu B : Mem (Blk β m K)) (v x : Mem (BVec β m K))
    (st : Mem (Blk β m K) × Mem (BVec β m K)) : Prop where
  done : ∀ j, j < e → bmv (lu j) (x j) = st.2 j
  vrest : ∀ j, e ≤ j → st.2 j = v j
  Brest : ∀ j, e ≤ j → 1 ≤ j → st.1 j = B (j - 1)

theorem chain_first {n N : ℕ} {lu B : Mem (Blk β m K)} {v x : Mem (BVec β m K)}
    (hA : ∀ j, j < n → Inv (lu j)) (hsol : Sol n lu B v x) (hN : 2 ^ N ≤ n) :
    ChainInv n (2 ^ N) lu B v x (pcrChunk lu (padFront B, v) (0, 2 ^ N)) := by
  have hpos : 0 < 2 ^ N := by positivity
  have hrow : RowInv 0 0 N lu (padFront B) v x := by
    intro l hl
    rcases l with _ | l
    · rw [if_pos (by simp)]; simpa using hsol.1 (by omega)
    · rw [if_neg (by simp)]
      have := hsol.2 l (by omega)
      simp only [pow_zero, Nat.zero_add, Nat.add_sub_cancel]
      simpa [padFront] using this
  obtain ⟨h1, h2, h3⟩ := pcrChunk_spec (s := 0) (e := 2 ^ N) (N := N) (by simp)
    (fun l hl => by simpa using hA l (by omega)) hrow
  refine ⟨fun j hj => h1 j (by omega) hj, fun j hj => h2 j (Or.inr hj), fun j hj hj1 => ?_⟩
  rw [h3 j (Or.inr hj)]
  obtain ⟨k, rfl⟩ : ∃ k, j = k + 1 := ⟨j - 1, by omega⟩
  rfl

theorem chain_next {n e N : ℕ} {lu B : Mem (Blk β m K)} {v x : Mem (BVec β m K)}
    {st : Mem (Blk β m K) × Mem (BVec β m K)}
    (hA : ∀ j, j < n → Inv (lu j)) (hsol : Sol n lu B v x) (he : 1 ≤ e)
    (hN : e - 1 + 2 ^ N ≤ n) (h : ChainInv n e lu B v x st) :
    ChainInv n (e - 1 + 2 ^ N) lu B v x (pcrChunk lu st (e - 1, e - 1 + 2 ^ N)) := by
  have hpos : 0 < 2 ^ N := by positivity
  have hrow : RowInv (e - 1) 0 N lu st.1 st.2 x := by
    intro l hl
    rcases l with _ | l
    · rw [if_pos (by simp)]; simpa using h.done (e - 1) (by omega)
    · rw [if_neg (by simp)]
      have e1 : e - 1 + (l + 1) = (e - 1 + l) + 1 := by omega
      rw [h.vrest _ (by omega), h.Brest _ (by omega) (by omega)]
      have := hsol.2 (e - 1 + l) (by omega)
      rw [e1]
      simpa using this
  obtain ⟨h1, h2, h3⟩ := pcrChunk_spec (s := e - 1) (e := e - 1 + 2 ^ N) (N := N) rfl
    (fun l hl => hA _ (by omega)) hrow
  refine ⟨fun j hj => ?_, fun j hj => ?_, fun j hj hj1 => ?_⟩
  · by_cases hje : j < e - 1
    · rw [h2 j (Or.inl hje)]; exact h.done j (by omega)
    · exact h1 j (by omega) hj
  · rw [h2 j (Or.inr hj)]; exact h.vrest j (by omega)
  · rw [h3 j (Or.inr hj)]; exact h.Brest j (by omega) hj1

theorem sz_le {n : ℕ} (h : 0 < n) : sz n ≤ n := Nat.pow_log_le_self 2 (by omega)
theorem sz_pos (n : ℕ) : 0 < sz n := by unfold sz; positivity
theorem sz_pow (n : ℕ) : sz n = 2 ^ Nat.log 2 n := rfl
theorem lt_two_sz (n : ℕ) : n < 2 * sz n := by
  have := Nat.lt_pow_succ_log_self (b := 2) (by norm_num) n
  unfold sz; rw [pow_succ] at this; omega

theorem pow2Loop_zero (e : ℕ) : pow2Loop 0 e = [] := by rw [pow2Loop]; simp
theorem pow2Loop_pos {n : ℕ} (e : ℕ) (h : 0 < n) : pow2Loop n e =
    (e - 1, e - 1 + sz (n + 1)) ::
      pow2Loop (n - (sz (n + 1) - 1)) (e - 1 + sz (n + 1)) := by
  rw [pow2Loop]; simp [h]

/-- end of a chain of chunks starting from end `e` -/
def chainEnd (e : ℕ) (l : List (ℕ × ℕ)) : ℕ := (l.getLastD (0, e)).2

/-- A list of chunks that continues a chain ending at `e`: each starts one row before the previous end
and has a power-of-two length. -/
inductive Chain : ℕ → List (ℕ × ℕ) → ℕ → Prop
  | nil (e) : Chain e [] e
  | cons {e e' : ℕ} {N : ℕ} {l} : 1 ≤ e → Chain (e - 1 + 2 ^ N) l e' →
      Chain e ((e - 1, e - 1 + 2 ^ N) :: l) e'

theorem Chain.le {e e' : ℕ} {l : List (ℕ × ℕ)} (h : Chain e l e') : e ≤ e' := by
  induction h with
  | nil => exact le_rfl
  | @cons e e' N l h1 _ ih => have : 0 < 2 ^ N := by positivity
                              omega

theorem chain_pow2Loop (n : ℕ) : ∀ e, 1 ≤ e → Chain e (pow2Loop n e) (e + n) := by
  induction n using Nat.strong_induction_on with
  | _ n ih =>
    intro e he
    rcases Nat.eq_zero_or_pos n with h | h
    · subst h; rw [pow2Loop_zero]; exact Chain.nil e
    · rw [pow2Loop_pos e h]
      have h2 := two_le_sz (n := n + 1) (by omega)
      have h3 := sz_le (n := n + 1) (by omega)
      have := ih (n - (sz (n + 1) - 1)) (by omega) (e - 1 + sz (n + 1)) (by omega)
      have e1 : e - 1 + sz (n + 1) + (n - (sz (n + 1) - 1)) = e + n := by omega
      rw [e1] at this
      exact Chain.cons he this

theorem chain_foldl {n : ℕ} {lu B : Mem (Blk β m K)} {v x : Mem (BVec β m K)}
    (hA : ∀ j, j < n → Inv (lu j)) (hsol : Sol n lu B v x) {e e' : ℕ} {l : List (ℕ × ℕ)}
    (hc : Chain e l e') (he' : e' ≤ n) : ∀ {st : Mem (Blk β m K) × Mem (BVec β m K)},
    ChainInv n e lu B v x st → ChainInv n e' lu B v x (l.foldl (pcrChunk lu) st) := by
  induction hc with
  | nil => intro st h; exact h
  | @cons e e' N l h1 hc ih =>
    intro st h
    have := hc.le
    exact ih he' (chain_next hA hsol h1 (by omega) h)

/-- PCR returns `x` if `x` solves the system. -/
theorem pcrMatvec_ret {n : ℕ} (hn : 0 < n) {lu B : Mem (Blk β m K)} {v x : Mem (BVec β m K)}
    (hA : ∀ j, j < n → Inv (lu j)) (hsol : Sol n lu B v x) (j : ℕ) (hj : j < n) :
    (pcrMatvec n lu B v).ret j = x j := by
  have hfirst := chain_first hA hsol (N := Nat.log 2 n) (sz_le hn)
  have hch := chain_pow2Loop (n - sz n) (sz n) (sz_pos n)
  have e1 : sz n + (n - sz n) = n := by have := sz_le hn; omega
  rw [e1] at hch
  have := chain_foldl hA hsol hch le_rfl hfirst
  show luSolve (lu j) _ = _
  exact luSolve_eq (hA j hj) (this.done j hj)

/-! ### Thomas -/

/-- rows below `i` hold `x`, the others the right hand side -/
def ThomasInv (i : ℕ) (v x w : Mem (BVec β m K)) : Prop :=
  (∀ j, j < i → w j = x j) ∧ ∀ j, i ≤ j → w j = v j

theorem thomas_range {n : ℕ} {lu B B0 : Mem (Blk β m K)} {v x : Mem (BVec β m K)}
    (hA : ∀ j, j < n → Inv (lu j)) (hsol : Sol n lu B0 v x) (c : ℕ) :
    ∀ (i : ℕ), 1 ≤ i → i + c ≤ n → (∀ j, i ≤ j + 1 → B j = B0 j) → ∀ w : Mem (BVec β m K),
      ThomasInv i v x w → ThomasInv (i + c) v x ((List.range' i c).foldl (thomasStep lu B) w) := by
  induction c with
  | zero => intro i _ _ _ w h; simpa using h
  | succ c ih =>
    intro i hi hic hB w h
    rw [List.range'_succ, List.foldl_cons]
    have := ih (i + 1) (by omega) (by omega) (fun j hj => hB j (by omega)) (thomasStep lu B w i) ?_
    · rwa [show i + 1 + c = i + (c + 1) by omega] at this
    · constructor
      · intro j hj
        unfold thomasStep
        rcases Nat.lt_or_ge j i with h1 | h1
        · rw [Function.update_of_ne (by omega)]; exact h.1 j h1
        · have : j = i := by omega
          subst this
          rw [Function.update_self]
          apply luSolve_eq (hA j (by omega))
          rw [h.1 (j - 1) (by omega), h.2 j le_rfl, hB (j - 1) (by omega)]
          have := hsol.2 (j - 1) (by omega)
          rw [show j - 1 + 1 = j by omega] at this
          rw [← this]; abel
      · intro j hj
        unfold thomasStep
        rw [Function.update_of_ne (by omega)]
        exact h.2 j (by omega)

theorem thomasSolve_eq {n : ℕ} (hn : 0 < n) {lu B : Mem (Blk β m K)} {v x : Mem (BVec β m K)}
    (hA : ∀ j, j < n → Inv (lu j)) (hsol : Sol n lu B v x) :
    ThomasInv n v x (thomasSolve n lu B v) := by
  have h0 : ThomasInv 1 v x (Function.update v 0 (luSolve (lu 0) (v 0))) := by
    constructor
    · intro j hj
      have : j = 0 := by omega
      subst this
      rw [Function.update_self]
      exact luSolve_eq (hA 0 hn) (hsol.1 hn)
    · intro j hj
      rw [Function.update_of_ne (by omega)]
  have := thomas_range hA hsol (n - 1) 1 le_rfl (by omega) (fun _ _ => rfl) _ h0
  rwa [show 1 + (n - 1) = n by omega] at this

/-! ### Hybrid -/

theorem Chain.take {e e' : ℕ} {l : List (ℕ × ℕ)} (h : Chain e l e') (i : ℕ) :
    Chain e (l.take i) (((l.take i).getLastD (0, e)).2) ∧
      ((l.take i).getLastD (0, e)).2 ≤ e' := by
  induction h generalizing i with
  | nil e => simp; exact Chain.nil e
  | @cons e e' N l h1 hc ih =>
    rcases i with _ | i
    · simp
      refine ⟨Chain.nil e, ?_⟩
      have : 0 < 2 ^ N := by positivity
      have := hc.le; omega
    · obtain ⟨h2, h3⟩ := ih i
      rw [List.take_succ_cons]
      have e1 : (((e - 1, e - 1 + 2 ^ N) :: l.take i).getLastD (0, e)).2
          = ((l.take i).getLastD (0, e - 1 + 2 ^ N)).2 := by
        rw [List.getLastD_cons]
        rcases List.eq_nil_or_concat (l.take i) with h | ⟨l', a, h⟩
        · rw [h]; simp
        · rw [h]; simp
      rw [e1]
      exact ⟨Chain.cons h1 h2, h3⟩

/-- what `_pcr_blocks` returns -/
theorem pcrBlocks_cases {n : ℕ} (hn : 0 < n) (ms : ℤ) :
    pcrBlocks n ms = ([], 1) ∨
    ∃ l last, pcrBlocks n ms = ((0, sz n) :: l, last) ∧ Chain (sz n) l last ∧ last ≤ n := by
  unfold pcrBlocks
  simp only
  split_ifs with h
  · left; rfl
  · right
    have hch := chain_pow2Loop (n - sz n) (sz n) (sz_pos n)
    have e1 : sz n + (n - sz n) = n := by have := sz_le hn; omega
    rw [e1] at hch
    simp only [pow2, List.map_cons, List.headD_cons] at h ⊢
    rw [List.findIdx_cons]
    simp only [h, decide_false, cond_false]
    rw [List.take_succ_cons]
    obtain ⟨h2, h3⟩ := hch.take (List.findIdx (fun j => decide (j < ms))
      (List.map (fun se : ℕ × ℕ => (se.2 : ℤ) - se.1) (pow2Loop (n - sz n) (sz n))))
    refine ⟨_, _, rfl, ?_, ?_⟩
    all_goals
      rw [List.getLastD_cons]
      generalize List.take _ _ = tl at h2 h3 ⊢
      rcases List.eq_nil_or_concat tl with h | ⟨l', a, h⟩
      · subst h; simp at h2 h3 ⊢; assumption
      · subst h; simp at h2 h3 ⊢; assumption

theorem Chain.pos {e e' : ℕ} {l : List (ℕ × ℕ)} (h : Chain e l e') (he : 1 ≤ e) : 1 ≤ e' :=
  he.trans h.le

theorem hybrid_tail {n last : ℕ} {lu B : Mem (Blk β m K)} {v x : Mem (BVec β m K)}
    {st : Mem (Blk β m K) × Mem (BVec β m K)} (hlast : 1 ≤ last) (hln : last ≤ n)
    (hA : ∀ j, j < n → Inv (lu j)) (hsol : Sol n lu B v x)
    (h : ∀ j, j < last → bmv (lu j) (x j) = st.2 j) (hv : ∀ j, last ≤ j → st.2 j = v j)
    (hB : ∀ j, last ≤ j → st.1 j = B (j - 1)) :
    ThomasInv n v x ((List.range' last (n - last)).foldl (thomasStep lu fun k => st.1 (k + 1))
      (assign st.2 ((List.range last).map fun k => (k, luSolve (lu k) (st.2 k))))) := by
  have h0 : ThomasInv last v x
      (assign st.2 ((List.range last).map fun k => (k, luSolve (lu k) (st.2 k)))) := by
    constructor
    · intro j hj
      rw [assign_of_mem (x := luSolve (lu j) (st.2 j))]
      · exact luSolve_eq (hA j (by omega)) (h j hj)
      · rw [List.mem_map]; exact ⟨j, by simpa using hj, rfl⟩
      · rintro c hc hcj
        rw [List.mem_map] at hc
        obtain ⟨q, _, rfl⟩ := hc
        simp at hcj; subst hcj; rfl
    · intro j hj
      rw [assign_of_not_mem]
      · exact hv j hj
      · rintro c hc hcj
        rw [List.mem_map] at hc
        obtain ⟨q, hq, rfl⟩ := hc
        simp at hq hcj; omega
  have := thomas_range hA hsol (B := fun k => st.1 (k + 1)) (n - last) last hlast (by omega)
    (fun j hj => by simpa using hB (j + 1) (by omega)) _ h0
  rwa [show last + (n - last) = n by omega] at this

theorem hybridMatvec_ret {n : ℕ} (ms : ℤ) (hn : 0 < n) {lu B : Mem (Blk β m K)}
    {v x : Mem (BVec β m K)} (hA : ∀ j, j < n → Inv (lu j)) (hsol : Sol n lu B v x) (j : ℕ)
    (hj : j < n) : (hybridMatvec ms n lu B v).ret j = x j := by
  unfold hybridMatvec
  simp only
  rcases pcrBlocks_cases hn (ms + 1) with h | ⟨l, last, h, hch, hl⟩
  · rw [h]
    refine (hybrid_tail (x := x) (v := v) (B := B) (st := (padFront B, v)) le_rfl hn hA hsol
      ?_ (fun _ _ => rfl) ?_).1 j hj
    · intro j hj
      have : j = 0 := by omega
      subst this; exact hsol.1 hn
    · intro j hj
      obtain ⟨k, rfl⟩ : ∃ k, j = k + 1 := ⟨j - 1, by omega⟩
      rfl
  · rw [h]
    have hfirst := chain_first hA hsol (N := Nat.log 2 n) (sz_le hn)
    have hci := chain_foldl hA hsol hch hl hfirst
    have hlast := hch.pos (sz_pos n)
    exact (hybrid_tail hlast hl hA hsol hci.done hci.vrest
      (fun j hj => hci.Brest j hj (by omega))).1 j hj

end Pyoptmat.Chunktime
