import Verif.Proofs.Layout

/-! Helper lemmas: what cyclic reduction leaves in the factorization object's off-diagonal blocks. -/

namespace Pyoptmat.Chunktime

variable {β : Type*} {m : ℕ} {K : Type*} [Field K]

/-- rows 1 and 2 of the padded off-diagonal after `i + 1` iterations of the first chunk -/
theorem firstChunk_rows {lu B : Mem (Blk β m K)} {v x : Mem (BVec β m K)} {N : ℕ} (hN : 2 ≤ N)
    {st : PcrState β m K} (hA : ∀ l, l < 2 ^ N → Inv (lu (0 + l)))
    (h : LoopInv lu x B v 0 0 N st) (h0 : st.B = B) (i : ℕ) (hi : i + 1 ≤ N) :
    ((List.range (i + 1)).foldl (pcrStep lu) st).B 1 = B 1 ∧
    ((List.range (i + 1)).foldl (pcrStep lu) st).B 2 = -bmm (B 2) (luSolveM (lu 1) (B 1)) := by
  have h4 : 2 ^ 2 ≤ 2 ^ N := Nat.pow_le_pow_right (by norm_num) hN
  induction i with
  | zero =>
    simp only [List.range_succ, List.range_zero, List.nil_append, List.foldl_cons, List.foldl_nil]
    constructor
    · show reduceOff st.Bw st.lw lu st.B 1 = _
      rw [reduceOff_apply h.Bw h.lw (by omega), if_neg (by simp), h0]
    · show reduceOff st.Bw st.lw lu st.B 2 = _
      rw [reduceOff_apply h.Bw h.lw (by omega), if_pos (by simp; omega), h0]
      simp
  | succ i ih =>
    have hprev := ih (by omega)
    have hl := loopInv_all hA h (i + 1) (by omega)
    rw [List.range_succ, List.foldl_append]
    simp only [List.foldl_cons, List.foldl_nil]
    have h2 : 4 ≤ 2 ^ (i + 1 + 1) := by
      calc 4 = 2 ^ 2 := by norm_num
        _ ≤ _ := Nat.pow_le_pow_right (by norm_num) (by omega)
    constructor
    · show reduceOff _ _ lu _ 1 = _
      rw [reduceOff_apply hl.Bw hl.lw (by omega), if_neg (by omega)]
      exact hprev.1
    · show reduceOff _ _ lu _ 2 = _
      rw [reduceOff_apply hl.Bw hl.lw (by omega), if_neg (by omega)]
      exact hprev.2

theorem first_rows {n N : ℕ} {lu B : Mem (Blk β m K)} {v x : Mem (BVec β m K)}
    (hA : ∀ j, j < n → Inv (lu j)) (hsol : Sol n lu B v x) (hN : 2 ^ N ≤ n) (hN2 : 2 ≤ N) :
    (pcrChunk lu (padFront B, v) (0, 2 ^ N)).1 1 = B 0 ∧
    (pcrChunk lu (padFront B, v) (0, 2 ^ N)).1 2 = -bmm (B 1) (luSolveM (lu 1) (B 0)) := by
  have hpos : 0 < 2 ^ N := by positivity
  have hrow : RowInv 0 0 N lu (padFront B) v x := by
    intro l hl
    rcases l with _ | l
    · rw [if_pos (by simp)]; simpa using hsol.1 (by omega)
    · rw [if_neg (by simp)]
      have := hsol.2 l (by omega)
      simp only [pow_zero, Nat.zero_add, Nat.add_sub_cancel]
      simpa [padFront] using this
  have hA' : ∀ l, l < 2 ^ N → Inv (lu (0 + l)) := fun l hl => by simpa using hA l (by omega)
  have hes : 2 ^ N - 0 = 2 ^ N := by simp
  have hinit : LoopInv lu x (padFront B) v 0 0 N
      { B := padFront B, v := v, Bw := sliceView 0 (2 ^ N), vw := sliceView 0 (2 ^ N),
        lw := sliceView 0 (2 ^ N) } :=
    ⟨viewAt_slice _ _ N hes, viewAt_slice _ _ N hes, viewAt_slice _ _ N hes, hrow,
      fun _ _ => rfl, fun _ _ => rfl⟩
  have hfin := loopInv_all hA' hinit N le_rfl
  have hrows := firstChunk_rows hN2 hA' hinit rfl (N - 1) (by omega)
  rw [show N - 1 + 1 = N by omega] at hrows
  have hst : solveBlock lu 0 (2 ^ N) (padFront B) v = (List.range N).foldl (pcrStep lu)
      { B := padFront B, v := v, Bw := sliceView 0 (2 ^ N), vw := sliceView 0 (2 ^ N),
        lw := sliceView 0 (2 ^ N) } := by
    unfold solveBlock; rw [hes, Nat.log_pow (by norm_num)]
  rw [← hst] at hrows hfin
  have hB : (pcrChunk lu (padFront B, v) (0, 2 ^ N)).1 = (solveBlock lu 0 (2 ^ N) (padFront B) v).B :=
    assign_self _ hfin.Bw (by simp)
  rw [hB]
  exact hrows

theorem chain_rows {n : ℕ} {lu B : Mem (Blk β m K)} {v x : Mem (BVec β m K)}
    (hA : ∀ j, j < n → Inv (lu j)) (hsol : Sol n lu B v x) {e e' : ℕ} {l : List (ℕ × ℕ)}
    (hc : Chain e l e') (he' : e' ≤ n) (he : 4 ≤ e) : ∀ {st : Mem (Blk β m K) × Mem (BVec β m K)},
    ChainInv n e lu B v x st →
      (l.foldl (pcrChunk lu) st).1 1 = st.1 1 ∧ (l.foldl (pcrChunk lu) st).1 2 = st.1 2 := by
  induction hc with
  | nil => intro st h; exact ⟨rfl, rfl⟩
  | @cons e e' N l h1 hc ih =>
    intro st h
    have := hc.le
    have hpos : 0 < 2 ^ N := by positivity
    have hnext := chain_next (N := N) hA hsol h1 (by omega) h
    have hrow : RowInv (e - 1) 0 N lu st.1 st.2 x := by
      intro l hl
      rcases l with _ | l
      · rw [if_pos (by simp)]; simpa using h.done (e - 1) (by omega)
      · rw [if_neg (by simp)]
        have e1 : e - 1 + (l + 1) = (e - 1 + l) + 1 := by omega
        rw [h.vrest _ (by omega), h.Brest _ (by omega) (by omega)]
        have := hsol.2 (e - 1 + l) (by omega)
        rw [e1]
        simpa using this
    obtain ⟨_, _, h3⟩ := pcrChunk_spec (s := e - 1) (e := e - 1 + 2 ^ N) (N := N) rfl
      (fun l hl => hA _ (by omega)) hrow
    have := ih he' (by omega) hnext
    rw [List.foldl_cons, this.1, this.2]
    exact ⟨h3 1 (by omega), h3 2 (by omega)⟩

/-- The off-diagonal left behind by PCR on at least four blocks. -/
theorem pcr_leaves {n : ℕ} (hn : 4 ≤ n) {lu B : Mem (Blk β m K)} {v : Mem (BVec β m K)}
    (hA : ∀ j, j < n → Inv (lu j)) :
    (pcrMatvec n lu B v).B 0 = B 0 ∧
    (pcrMatvec n lu B v).B 1 = -bmm (B 1) (luSolveM (lu 1) (B 0)) := by
  have hsol := sol_subst (B := B) hA v
  have hlog : 2 ≤ Nat.log 2 n := by
    exact Nat.le_log_of_pow_le (by norm_num) (by simpa using hn)
  have hfirst := chain_first hA hsol (N := Nat.log 2 n) (sz_le (by omega))
  have hrows := first_rows hA hsol (N := Nat.log 2 n) (sz_le (by omega)) hlog
  have hch := chain_pow2Loop (n - sz n) (sz n) (sz_pos n)
  have e1 : sz n + (n - sz n) = n := by have := sz_le (n := n) (by omega); omega
  rw [e1] at hch
  have h4 : 4 ≤ sz n := by
    calc 4 = 2 ^ 2 := by norm_num
      _ ≤ _ := Nat.pow_le_pow_right (by norm_num) hlog
  have := chain_rows hA hsol hch le_rfl h4 hfirst
  exact ⟨this.1.trans hrows.1, this.2.trans hrows.2⟩

/-- The off-diagonal left behind by the hybrid method when at least one chunk of four rows is used. -/
theorem hybrid_leaves {n : ℕ} (hn : 4 ≤ n) (ms : ℤ) (hms : ms < sz n) {lu B : Mem (Blk β m K)}
    {v : Mem (BVec β m K)} (hA : ∀ j, j < n → Inv (lu j)) :
    (hybridMatvec ms n lu B v).B 0 = B 0 ∧
    (hybridMatvec ms n lu B v).B 1 = -bmm (B 1) (luSolveM (lu 1) (B 0)) := by
  have hsol := sol_subst (B := B) hA v
  have hlog : 2 ≤ Nat.log 2 n := by
    exact Nat.le_log_of_pow_le (by norm_num) (by simpa using hn)
  have hfirst := chain_first hA hsol (N := Nat.log 2 n) (sz_le (by omega))
  have hrows := first_rows hA hsol (N := Nat.log 2 n) (sz_le (by omega)) hlog
  have h4 : 4 ≤ sz n := by
    calc 4 = 2 ^ 2 := by norm_num
      _ ≤ _ := Nat.pow_le_pow_right (by norm_num) hlog
  have hb : pcrBlocks n (ms + 1) ≠ ([], 1) := by
    unfold pcrBlocks
    simp only [pow2, List.map_cons, List.headD_cons, List.findIdx_cons]
    have : ¬ ((sz n : ℤ) - ((0 : ℕ) : ℤ) < ms + 1) := by push_cast; omega
    rw [if_neg this]
    simp only [this, decide_false, cond_false, List.take_succ_cons]
    simp
  unfold hybridMatvec
  simp only
  rcases pcrBlocks_cases (n := n) (by omega) (ms + 1) with h | ⟨l, last, h, hch, hl⟩
  · exact absurd h hb
  · rw [h]
    have := chain_rows hA hsol hch hl h4 hfirst
    exact ⟨this.1.trans hrows.1, this.2.trans hrows.2⟩

theorem pcrChunk_B_small {lu B : Mem (Blk β m K)} {v : Mem (BVec β m K)} {s e N : ℕ}
    (he : e = s + 2 ^ N) (hN : N ≤ 1) : (pcrChunk lu (B, v) (s, e)).1 = B := by
  have hes : e - s = 2 ^ N := by rw [he]; simp
  have hlog : Nat.log 2 (e - s) = N := by rw [hes]; exact Nat.log_pow (by norm_num) N
  have hw := viewAt_slice s e N hes
  have key : ∀ st : PcrState β m K, st = solveBlock lu s e B v →
      st.B = B ∧ ViewAt st.Bw s N N := by
    rintro st rfl
    unfold solveBlock
    rw [hlog]
    interval_cases N
    · exact ⟨rfl, hw⟩
    · simp only [List.range_one, List.foldl_cons, List.foldl_nil]
      refine ⟨?_, viewAt_shift hw (by omega)⟩
      funext j
      show reduceOff _ _ lu B j = _
      rw [reduceOff_apply hw hw (by omega), if_neg (by omega)]
  obtain ⟨h1, h2⟩ := key _ rfl
  have : (pcrChunk lu (B, v) (s, e)).1 = (solveBlock lu s e B v).B :=
    assign_self (solveBlock lu s e B v).B h2 he
  rw [this, h1]

/-- With at most three blocks PCR does not change the off-diagonal. -/
theorem pcr_B_small {n : ℕ} (hn : 0 < n) (hn3 : n ≤ 3) (lu B : Mem (Blk β m K))
    (v : Mem (BVec β m K)) : (pcrMatvec n lu B v).B = B := by
  have main : ((pow2 n).foldl (pcrChunk lu) (padFront B, v)).1 = padFront B := by
    interval_cases n
    · have : pow2 1 = [(0, 1)] := by simp [pow2, sz, pow2Loop_zero]
      rw [this]
      exact pcrChunk_B_small (N := 0) (by simp) (by simp)
    · have hl2 : Nat.log 2 2 = 1 := by
        rw [Nat.log_eq_iff (by norm_num)]; norm_num
      have : pow2 2 = [(0, 2)] := by
        simp [pow2, sz, pow2Loop_zero, hl2]
      rw [this]
      exact pcrChunk_B_small (N := 1) (by simp) (by simp)
    · have hl3 : Nat.log 2 3 = 1 := by
        rw [Nat.log_eq_iff (by norm_num)]; norm_num
      have : pow2 3 = [(0, 2), (1, 3)] := by
        have hl2' : Nat.log 2 2 = 1 := by
          rw [Nat.log_eq_iff (by norm_num)]; norm_num
        have hl2 : sz 2 = 2 := by simp [sz, hl2']
        simp only [pow2, sz, hl3]
        rw [show (3 - 2 ^ 1) = 1 by norm_num, pow2Loop_pos _ (by norm_num)]
        simp [hl2, pow2Loop_zero]
      rw [this]
      simp only [List.foldl_cons, List.foldl_nil]
      have h1 : (pcrChunk lu (padFront B, v) (0, 2)).1 = padFront B :=
        pcrChunk_B_small (N := 1) (by simp) (by simp)
      have h2 : (pcrChunk lu ((pcrChunk lu (padFront B, v) (0, 2)).1,
        (pcrChunk lu (padFront B, v) (0, 2)).2) (1, 3)).1 = (pcrChunk lu (padFront B, v) (0, 2)).1 :=
        pcrChunk_B_small (N := 1) (by simp) (by simp)
      exact h2.trans h1
  funext k
  show ((pow2 n).foldl (pcrChunk lu) (padFront B, v)).1 (k + 1) = _
  rw [main]
  rfl

end Pyoptmat.Chunktime
