import Verif.Spec.Strided
import Verif.Proofs.Layout

/-! # The element-wise `matvec` refines the block-wise one -/

namespace Pyoptmat.Chunktime

open Pyoptmat.Spec

variable {nb m n : ℕ} {K : Type*} [Field K]

/-! ### positions -/

theorem mul_add_lt {a b i j : ℕ} (hi : i < a) (hj : j < b) : i * b + j < a * b := by
  have : (i + 1) * b ≤ a * b := Nat.mul_le_mul_right b hi
  nlinarith

theorem mul_add_inj {b i j i' j' : ℕ} (hj : j < b) (hj' : j' < b) (h : i * b + j = i' * b + j') : i = i' ∧ j = j' := by
  have := local_inj hj hj' (q := i) (q' := i') (by omega)
  exact ⟨this.2, this.1⟩

/-- Different elements lie at different positions, for rows below `n`. -/
def Inj (n nb m : ℕ) (l : Strides) : Prop := ∀ k k' (b b' : Fin nb) (r r' : Fin m), k < n → k' < n → l.pos k b r = l.pos k' b' r' → k = k' ∧ b = b' ∧ r = r'

theorem inj3 {a b c i j k i' j' k' : ℕ} (hj : j < b) (hj' : j' < b) (hk : k < c) (hk' : k' < c) (h : i * (b * c) + j * c + k = i' * (b * c) + j' * c + k') :
    i = i' ∧ j = j' ∧ k = k' := by
  have h1 := mul_add_lt hj hk
  have h2 := mul_add_lt hj' hk'
  obtain ⟨h3, h4⟩ := mul_add_inj h1 h2 (i := i) (i' := i') (by omega)
  exact ⟨h3, mul_add_inj hk hk' h4⟩

theorem order_inj (o : Order) : Inj n nb m (o.strides n nb m) := by
  intro k k' b b' r r' hk hk' h
  unfold Strides.pos at h
  have e1 := b.isLt
  have e2 := b'.isLt
  have e3 := r.isLt
  have e4 := r'.isLt
  cases o <;> simp only [Order.strides, mul_one] at h
  · obtain ⟨h1, h2, h3⟩ := inj3 (a := n) e1 e2 e3 e4 h
    exact ⟨h1, Fin.ext h2, Fin.ext h3⟩
  · obtain ⟨h1, h2, h3⟩ := inj3 (a := n) e3 e4 e1 e2 (i := k) (i' := k') (by omega)
    exact ⟨h1, Fin.ext h3, Fin.ext h2⟩
  · obtain ⟨h1, h2, h3⟩ := inj3 (a := nb) hk hk' e3 e4 (i := b.val) (i' := b'.val) (by omega)
    exact ⟨h2, Fin.ext h1, Fin.ext h3⟩
  · obtain ⟨h1, h2, h3⟩ := inj3 (a := nb) e3 e4 hk hk' (i := b.val) (i' := b'.val) (by omega)
    exact ⟨h3, Fin.ext h1, Fin.ext h2⟩
  · obtain ⟨h1, h2, h3⟩ := inj3 (a := m) hk hk' e1 e2 (i := r.val) (i' := r'.val) (by omega)
    exact ⟨h2, Fin.ext h3, Fin.ext h1⟩
  · obtain ⟨h1, h2, h3⟩ := inj3 (a := m) e1 e2 hk hk' (i := r.val) (i' := r'.val) (by omega)
    exact ⟨h3, Fin.ext h2, Fin.ext h1⟩

/-! ### reading and writing blocks -/

theorem mem_elems (b : Fin nb) (r : Fin m) : (b, r) ∈ elems nb m := by
  unfold elems
  rw [List.mem_flatMap]
  exact ⟨b, List.mem_finRange b, List.mem_map.2 ⟨r, List.mem_finRange r, rfl⟩⟩

theorem mem_blockCells {a : Fin nb → Fin m → ℕ} {x : BVec (Fin nb) m K} {c : ℕ × K} : c ∈ blockCells a x ↔ ∃ b r, c = (a b r, x b r) := by
  unfold blockCells
  rw [List.mem_map]
  constructor
  · rintro ⟨⟨b, r⟩, -, rfl⟩; exact ⟨b, r, rfl⟩
  · rintro ⟨b, r, rfl⟩; exact ⟨(b, r), mem_elems b r, rfl⟩

theorem assign_append {α : Type*} (v : Mem α) (c c' : List (ℕ × α)) : assign v (c ++ c') = assign (assign v c) c' := by
  unfold assign; rw [List.foldl_append]

/-- The storage `v` holds the rows `x` below `n`. -/
def Holds (n : ℕ) (l : Strides) (v : Mem K) (x : Mem (BVec (Fin nb) m K)) : Prop := ∀ k, k < n → l.get v k = x k

theorem set_holds {l : Strides} (hl : Inj n nb m l) {v : Mem K} {x : Mem (BVec (Fin nb) m K)} (h : Holds n l v x) {i : ℕ} (hi : i < n) (y : BVec (Fin nb) m K) :
    Holds n l (assign v (blockCells (l.pos i) y)) (Function.update x i y) := by
  intro k hk
  funext b r
  unfold Strides.get
  by_cases hki : k = i
  · subst hki
    rw [Function.update_self]
    refine assign_of_mem _ _ _ _ (mem_blockCells.2 ⟨b, r, rfl⟩) ?_
    rintro c hc hcj
    obtain ⟨b', r', rfl⟩ := mem_blockCells.1 hc
    obtain ⟨-, rfl, rfl⟩ := hl _ _ _ _ _ _ hi hi hcj
    rfl
  · rw [Function.update_of_ne hki, assign_of_not_mem]
    · exact congrFun (congrFun (h k hk) b) r
    · rintro c hc hcj
      obtain ⟨b', r', rfl⟩ := mem_blockCells.1 hc
      exact hki (hl _ _ _ _ _ _ hi hk hcj).1.symm

theorem cells_holds {l : Strides} (hl : Inj n nb m l) (cells : List (ℕ × BVec (Fin nb) m K)) : ∀ {v : Mem K} {x : Mem (BVec (Fin nb) m K)}, Holds n l v x →
    (∀ c ∈ cells, c.1 < n) → Holds n l (assign v (cells.flatMap fun c => blockCells (l.pos c.1) c.2)) (assign x cells) := by
  induction cells with
  | nil => intro v x h _; exact h
  | cons c cs ih =>
    intro v x h hc
    rw [List.flatMap_cons, assign_append]
    exact ih (set_holds hl h (hc c List.mem_cons_self) c.2) fun c' h' => hc c' (List.mem_cons_of_mem _ h')

/-! ### Thomas -/

theorem thomas_step_holds {l : Strides} (hl : Inj n nb m l) (lu B : Mem (Blk (Fin nb) m K)) {v : Mem K} {x : Mem (BVec (Fin nb) m K)} (h : Holds n l v x) {i : ℕ} (hi : i < n) :
    Holds n l (eThomasStep l lu B v i) (thomasStep lu B x i) := by
  unfold eThomasStep thomasStep Strides.set
  rw [h i hi, h (i - 1) (by omega)]
  exact set_holds hl h hi _

theorem thomas_loop_holds {l : Strides} (hl : Inj n nb m l) (lu B : Mem (Blk (Fin nb) m K)) (is : List ℕ) : ∀ {v : Mem K} {x : Mem (BVec (Fin nb) m K)}, Holds n l v x →
    (∀ i ∈ is, i < n) → Holds n l (is.foldl (eThomasStep l lu B) v) (is.foldl (thomasStep lu B) x) := by
  induction is with
  | nil => intro v x h _; exact h
  | cons i is ih =>
    intro v x h hi
    exact ih (thomas_step_holds hl lu B h (hi i List.mem_cons_self)) fun j hj => hi j (List.mem_cons_of_mem _ hj)

theorem thomas_holds {l : Strides} (hl : Inj n nb m l) (hn : 0 < n) (lu B : Mem (Blk (Fin nb) m K)) {v : Mem K} {x : Mem (BVec (Fin nb) m K)} (h : Holds n l v x) :
    Holds n l (eThomasSolve l n lu B v) (thomasSolve n lu B x) := by
  unfold eThomasSolve thomasSolve Strides.set
  rw [h 0 hn]
  refine thomas_loop_holds hl lu B _ (set_holds hl h hn _) fun i hi => ?_
  rw [List.mem_range'] at hi
  obtain ⟨j, hj, rfl⟩ := hi
  omega

/-! ### cyclic reduction with time outermost -/

/-- Rows are `nb * m` apart, and the last element of a row lies `nb * m - 1` behind its first. -/
structure Packed (n nb m : ℕ) (l : Strides) : Prop where
  inj : Inj n nb m l
  st : l.st = nb * m
  last : (nb - 1) * l.sb + (m - 1) * l.sr = nb * m - 1

theorem order_packed {o : Order} (hb : 0 < nb) (hm : 0 < m) (h : o.timeOutermost nb m) : Packed n nb m (o.strides n nb m) := by
  refine ⟨order_inj o, ?_, ?_⟩
  · cases o <;> simp only [Order.strides, Order.timeOutermost] at h ⊢
    · exact Nat.mul_comm _ _
    · rw [h, one_mul]
    · rw [h.1, h.2]
    · rw [h, mul_one]
    · rw [h.1, h.2]
  · obtain ⟨c, rfl⟩ : ∃ c, nb = c + 1 := ⟨nb - 1, by omega⟩
    obtain ⟨d, rfl⟩ : ∃ d, m = d + 1 := ⟨m - 1, by omega⟩
    cases o <;> simp only [Order.strides, Order.timeOutermost, Nat.add_sub_cancel] at h ⊢
    · rw [Nat.succ_mul]; omega
    · rw [Nat.mul_comm (c + 1), Nat.succ_mul]; omega
    · obtain rfl : c = 0 := by omega
      omega
    · obtain rfl : c = 0 := by omega
      obtain rfl : d = 0 := by omega
      omega
    · obtain rfl : d = 0 := by omega
      omega
    · obtain rfl : c = 0 := by omega
      obtain rfl : d = 0 := by omega
      omega

/-- the element view of a block view -/
def scaled (c : ℕ) (w : View) : EView := ⟨w.off * c, w.n0, w.n1, w.s0 * c, w.s1 * c⟩

theorem scaled_pos {l : Strides} (hl : l.st = nb * m) (w : View) (p q : ℕ) (b : Fin nb) (r : Fin m) : (scaled (nb * m) w).pos l p q b r = l.pos (w.addr p q) b r := by
  unfold EView.pos Strides.pos View.addr scaled
  dsimp only
  rw [hl]; ring

theorem scaled_get {l : Strides} (hl : l.st = nb * m) (w : View) (v : Mem K) (p q : ℕ) : (scaled (nb * m) w).get l v p q = (l.get v (w.addr p q) : BVec (Fin nb) m K) := by
  funext b r
  unfold EView.get Strides.get
  rw [scaled_pos hl]

theorem slice_scaled {l : Strides} (hl : l.st = nb * m) (s e : ℕ) : eSlice l s e = scaled (nb * m) (sliceView s e) := by
  unfold eSlice scaled sliceView
  dsimp only
  rw [hl, one_mul]

theorem view_lt {w : View} {s i N : ℕ} (hw : ViewAt w s i N) (hi : i ≤ N) (hs : s + 2 ^ N ≤ n) {p q : ℕ} (hp : p < w.n0) (hq : q < w.n1) : w.addr p q < n := by
  rw [hw.n0] at hp
  rw [hw.n1] at hq
  rw [hw.addr_eq hp]
  have h1 := mul_add_lt hq hp
  rw [← pow_add, show N - i + i = N by omega] at h1
  omega

theorem reduce_holds {l : Strides} (hl : Packed n nb m l) {w : View} {s i N : ℕ} (hw : ViewAt w s i N) (hi : i ≤ N) (hs : s + 2 ^ N ≤ n) (Bw lw : View) (lu B : Mem (Blk (Fin nb) m K))
    {v : Mem K} {x : Mem (BVec (Fin nb) m K)} (h : Holds n l v x) :
    Holds n l (eReduceRhs l (scaled (nb * m) w) Bw lw lu B v) (reduceRhs w Bw lw lu B x) := by
  have hlt : ∀ pq ∈ pairs w.n0 (w.n1 - 1), w.addr pq.1 pq.2 < n ∧ w.addr pq.1 (pq.2 + 1) < n := by
    rintro ⟨p, q⟩ hpq
    obtain ⟨h1, h2⟩ := mem_pairs.1 hpq
    exact ⟨view_lt hw hi hs h1 (by omega), view_lt hw hi hs h1 (by omega)⟩
  have := cells_holds hl.inj ((pairs w.n0 (w.n1 - 1)).map fun pq => (w.addr pq.1 (pq.2 + 1),
      x (w.addr pq.1 (pq.2 + 1)) - bmv (B (Bw.addr pq.1 (pq.2 + 1))) (luSolve (lu (lw.addr pq.1 pq.2)) (x (w.addr pq.1 pq.2))))) h (by
    intro c hc
    obtain ⟨pq, hpq, rfl⟩ := List.mem_map.1 hc
    exact (hlt pq hpq).2)
  unfold eReduceRhs reduceRhs
  convert this using 2
  rw [List.flatMap_map]
  change List.flatMap _ (pairs w.n0 (w.n1 - 1)) = _
  refine List.flatMap_congr fun pq hpq => ?_
  rw [scaled_get hl.st, scaled_get hl.st, h _ (hlt pq hpq).1, h _ (hlt pq hpq).2]
  congr 1
  funext b r
  exact scaled_pos hl.st _ _ _ _ _

theorem shift_ok {l : Strides} (hb : 0 < nb) (hm : 0 < m) (hl : Packed n nb m l) {w : View} {s i N : ℕ} (hw : ViewAt w s i N) (hi : i < N) (hs : s + 2 ^ N ≤ n) :
    eShift nb m (n * (nb * m)) l (scaled (nb * m) w) i = .ok (scaled (nb * m) (cyclicShift w i)) := by
  have hw' := viewAt_shift hw hi
  have hc : 0 < nb * m := Nat.mul_pos hb hm
  have e : (⟨(scaled (nb * m) w).off, (scaled (nb * m) w).n0 * 2, (scaled (nb * m) w).n1 / 2, nb * m, 2 ^ (i + 1) * (nb * m)⟩ : EView) = scaled (nb * m) (cyclicShift w i) := by
    unfold scaled cyclicShift
    simp
  unfold eShift
  rw [e]
  dsimp only
  rw [if_neg]
  rintro ⟨h0, h1, -, -, h2⟩
  have h3 := view_lt hw' hi hs (p := (cyclicShift w i).n0 - 1) (q := (cyclicShift w i).n1 - 1) (by unfold scaled at h0; dsimp only at h0; omega) (by unfold scaled at h1; dsimp only at h1; omega)
  unfold View.addr at h3
  have h4 : (scaled (nb * m) (cyclicShift w i)).off + ((scaled (nb * m) (cyclicShift w i)).n0 - 1) * (scaled (nb * m) (cyclicShift w i)).s0 +
      ((scaled (nb * m) (cyclicShift w i)).n1 - 1) * (scaled (nb * m) (cyclicShift w i)).s1 =
      ((cyclicShift w i).off + ((cyclicShift w i).n0 - 1) * (cyclicShift w i).s0 + ((cyclicShift w i).n1 - 1) * (cyclicShift w i).s1) * (nb * m) := by
    unfold scaled; dsimp only; ring
  rw [h4] at h2
  have h5 := hl.last
  have h6 := mul_add_lt h3 (j := nb * m - 1) (b := nb * m) (by omega)
  omega

/-- the element-wise state of a block-wise state -/
structure Sim (n : ℕ) (l : Strides) (e : EState nb m K) (st : PcrState (Fin nb) m K) : Prop where
  B : e.B = st.B
  Bw : e.Bw = st.Bw
  lw : e.lw = st.lw
  vw : e.vw = scaled (nb * m) st.vw
  v : Holds n l e.v st.v

theorem loop_sim {l : Strides} (hb : 0 < nb) (hm : 0 < m) (hl : Packed n nb m l) (lu : Mem (Blk (Fin nb) m K)) {s N : ℕ} (hs : s + 2 ^ N ≤ n) : ∀ (k i : ℕ) {e : EState nb m K} {st : PcrState (Fin nb) m K},
    i + k = N → ViewAt st.vw s i N → Sim n l e st →
      ∃ e', eLoop (ePcrStep (n * (nb * m)) l lu) (List.range' i k) e = .ok e' ∧ Sim n l e' ((List.range' i k).foldl (pcrStep lu) st) ∧
        ViewAt ((List.range' i k).foldl (pcrStep lu) st).vw s N N := by
  intro k
  induction k with
  | zero => intro i e st hi hw h; exact ⟨e, rfl, h, by rw [show N = i by omega]; rw [show N = i by omega] at hw; exact hw⟩
  | succ k ih =>
    intro i e st hi hw h
    rw [List.range'_succ]
    have h1 : Sim n l { B := reduceOff e.Bw e.lw lu e.B, v := eReduceRhs l e.vw e.Bw e.lw lu e.B e.v, vw := scaled (nb * m) (cyclicShift st.vw i), Bw := cyclicShift e.Bw i, lw := cyclicShift e.lw i }
        (pcrStep lu st i) := by
      refine ⟨?_, ?_, ?_, rfl, ?_⟩
      · change reduceOff _ _ _ _ = reduceOff _ _ _ _; rw [h.B, h.Bw, h.lw]
      · change cyclicShift _ _ = cyclicShift _ _; rw [h.Bw]
      · change cyclicShift _ _ = cyclicShift _ _; rw [h.lw]
      · change Holds n l (eReduceRhs l e.vw e.Bw e.lw lu e.B e.v) (reduceRhs st.vw st.Bw st.lw lu st.B st.v)
        rw [h.B, h.Bw, h.lw, h.vw]
        exact reduce_holds hl hw (by omega) hs _ _ _ _ h.v
    obtain ⟨e', h2, h3, h4⟩ := ih (i + 1) (by omega) (viewAt_shift hw (by omega)) h1
    refine ⟨e', ?_, h3, h4⟩
    unfold eLoop ePcrStep
    rw [h.vw, shift_ok hb hm hl hw (by omega) hs]
    rw [h.vw] at h2
    exact h2

theorem chunk_sim {l : Strides} (hb : 0 < nb) (hm : 0 < m) (hl : Packed n nb m l) (lu : Mem (Blk (Fin nb) m K)) {s N : ℕ} (hs : s + 2 ^ N ≤ n) (B : Mem (Blk (Fin nb) m K)) {v : Mem K}
    {x : Mem (BVec (Fin nb) m K)} (h : Holds n l v x) :
    ∃ v', ePcrChunk (n * (nb * m)) l lu (B, v) (s, s + 2 ^ N) = .ok ((pcrChunk lu (B, x) (s, s + 2 ^ N)).1, v') ∧ Holds n l v' (pcrChunk lu (B, x) (s, s + 2 ^ N)).2 := by
  have e0 : s + 2 ^ N - s = 2 ^ N := Nat.add_sub_cancel_left s _
  obtain ⟨e', h1, h2, h3⟩ := loop_sim hb hm hl lu hs N 0 (e := { B := B, v := v, Bw := sliceView s (s + 2 ^ N), vw := eSlice l s (s + 2 ^ N), lw := sliceView s (s + 2 ^ N) })
    (st := { B := B, v := x, Bw := sliceView s (s + 2 ^ N), vw := sliceView s (s + 2 ^ N), lw := sliceView s (s + 2 ^ N) }) (by omega) (viewAt_slice _ _ _ e0)
    ⟨rfl, rfl, rfl, slice_scaled hl.st _ _, h⟩
  have e1 : Nat.log 2 (s + 2 ^ N - s) = N := by rw [e0]; exact Nat.log_pow (by norm_num) N
  unfold ePcrChunk pcrChunk solveBlock
  dsimp only
  rw [e1, List.range_eq_range', h1]
  generalize (List.range' 0 N).foldl (pcrStep lu) _ = st at h2 h3
  refine ⟨assign e'.v ((List.range (s + 2 ^ N - (s + 1))).flatMap fun q => blockCells (nb := nb) (m := m) (l.pos (s + 1 + q)) (e'.vw.get l e'.v (q + 1) 0)), ?_, ?_⟩
  · dsimp only
    rw [h2.B, h2.Bw]
  have hlt : ∀ q ∈ List.range (s + 2 ^ N - (s + 1)), st.vw.addr (q + 1) 0 < n ∧ s + 1 + q < n := by
    intro q hq
    rw [List.mem_range] at hq
    have h4 : q + 1 < 2 ^ N ∧ s + 1 + q < n := by generalize 2 ^ N = M at *; omega
    exact ⟨view_lt h3 le_rfl hs (by rw [h3.n0]; exact h4.1) (by rw [h3.n1]; simp), h4.2⟩
  have := cells_holds hl.inj ((List.range (s + 2 ^ N - (s + 1))).map fun q => (s + 1 + q, st.v (st.vw.addr (q + 1) 0))) h2.v (by
    intro c hc
    obtain ⟨q, hq, rfl⟩ := List.mem_map.1 hc
    exact (hlt q hq).2)
  convert this using 2
  rw [List.flatMap_map]
  refine List.flatMap_congr fun q hq => ?_
  rw [h2.vw, scaled_get hl.st, h2.v _ (hlt q hq).1]

/-- The chunk `c` runs without an exception and does what the block-wise program does. -/
def ChunkOK (n : ℕ) (l : Strides) (lu : Mem (Blk (Fin nb) m K)) (c : ℕ × ℕ) : Prop :=
  ∀ (B : Mem (Blk (Fin nb) m K)) (v : Mem K) (x : Mem (BVec (Fin nb) m K)), Holds n l v x →
    ∃ v', ePcrChunk (n * (nb * m)) l lu (B, v) c = .ok ((pcrChunk lu (B, x) c).1, v') ∧ Holds n l v' (pcrChunk lu (B, x) c).2

/-- The chunk `c` raises. -/
def ChunkErr (n : ℕ) (l : Strides) (lu : Mem (Blk (Fin nb) m K)) (c : ℕ × ℕ) : Prop :=
  ∀ Bv : Mem (Blk (Fin nb) m K) × Mem K, ∃ msg, ePcrChunk (n * (nb * m)) l lu Bv c = .error msg

theorem chain_sim {l : Strides} {lu : Mem (Blk (Fin nb) m K)} (cs : List (ℕ × ℕ)) :
    (∀ c ∈ cs, ChunkOK n l lu c) → ∀ (B : Mem (Blk (Fin nb) m K)) {v : Mem K} {x : Mem (BVec (Fin nb) m K)}, Holds n l v x →
      ∃ v', eLoop (ePcrChunk (n * (nb * m)) l lu) cs (B, v) = .ok ((cs.foldl (pcrChunk lu) (B, x)).1, v') ∧ Holds n l v' (cs.foldl (pcrChunk lu) (B, x)).2 := by
  induction cs with
  | nil => intro _ B v x h; exact ⟨v, rfl, h⟩
  | cons c cs ih =>
    intro hc B v x h
    obtain ⟨v1, h3, h4⟩ := hc _ List.mem_cons_self B v x h
    obtain ⟨v2, h5, h6⟩ := ih (fun c h' => hc c (List.mem_cons_of_mem _ h')) _ h4
    refine ⟨v2, ?_, h6⟩
    unfold eLoop
    rw [h3]
    exact h5

theorem loop_error {σ ι : Type*} {f : σ → ι → Except String σ} {i : ι} (h : ∀ s, ∃ msg, f s i = .error msg) : ∀ (is : List ι) (s : σ), i ∈ is → ∃ msg, eLoop f is s = .error msg := by
  intro is
  induction is with
  | nil => intro s hi; simp at hi
  | cons j js ih =>
    intro s hi
    unfold eLoop
    cases hj : f s j with
    | error e => exact ⟨e, rfl⟩
    | ok s' =>
      rcases List.mem_cons.1 hi with rfl | h'
      · obtain ⟨msg, hm⟩ := h s
        rw [hm] at hj; cases hj
      · exact ih s' h'

theorem Chain.shape {e e' : ℕ} {cs : List (ℕ × ℕ)} (h : Chain e cs e') : ∀ c ∈ cs, ∃ N, c.2 = c.1 + 2 ^ N ∧ c.2 ≤ e' := by
  induction h with
  | nil => intro c hc; simp at hc
  | @cons e e' N l h1 hc ih =>
    intro c hcm
    rcases List.mem_cons.1 hcm with rfl | h2
    · exact ⟨N, rfl, hc.le⟩
    · exact ih c h2

theorem pow2_shape (hn : 0 < n) : ∀ c ∈ pow2 n, ∃ N, c.2 = c.1 + 2 ^ N ∧ c.2 ≤ n := by
  intro c hc
  rcases List.mem_cons.1 hc with rfl | h
  · exact ⟨Nat.log 2 n, (Nat.zero_add _).symm, sz_le hn⟩
  · have hch := chain_pow2Loop (n - sz n) (sz n) (sz_pos n)
    rw [show sz n + (n - sz n) = n by have := sz_le hn; omega] at hch
    exact hch.shape c h

/-! ### the tail of the hybrid method -/

theorem tail_holds {l : Strides} (hl : Inj n nb m l) (lu B : Mem (Blk (Fin nb) m K)) {last : ℕ} (hlast : last ≤ n) {v : Mem K} {x : Mem (BVec (Fin nb) m K)} (h : Holds n l v x) :
    Holds n l ((List.range' last (n - last)).foldl (eThomasStep l lu B) (assign v ((List.range last).flatMap fun k => blockCells (l.pos k) (luSolve (lu k) (l.get v k)))))
      ((List.range' last (n - last)).foldl (thomasStep lu B) (assign x ((List.range last).map fun k => (k, luSolve (lu k) (x k))))) := by
  refine thomas_loop_holds hl lu B _ ?_ fun i hi => ?_
  · have := cells_holds hl ((List.range last).map fun k => (k, luSolve (lu k) (x k))) h (by
      intro c hc
      obtain ⟨k, hk, rfl⟩ := List.mem_map.1 hc
      rw [List.mem_range] at hk
      exact lt_of_lt_of_le hk hlast)
    convert this using 2
    rw [List.flatMap_map]
    refine List.flatMap_congr fun k hk => ?_
    rw [List.mem_range] at hk
    rw [h k (by omega)]
  · rw [List.mem_range'] at hi
    obtain ⟨j, hj, rfl⟩ := hi
    omega

theorem pcrBlocks_shape (hn : 0 < n) (ms : ℤ) : (∀ c ∈ (pcrBlocks n ms).1, ∃ N, c.2 = c.1 + 2 ^ N ∧ c.2 ≤ n) ∧ (pcrBlocks n ms).2 ≤ n := by
  rcases pcrBlocks_cases hn ms with h | ⟨l, last, h, hch, hl⟩
  · rw [h]
    exact ⟨fun c hc => by simp at hc, hn⟩
  · rw [h]
    refine ⟨fun c hc => ?_, hl⟩
    rcases List.mem_cons.1 hc with rfl | h'
    · exact ⟨Nat.log 2 n, (Nat.zero_add _).symm, sz_le hn⟩
    · obtain ⟨N, h1, h2⟩ := hch.shape c h'
      exact ⟨N, h1, h2.trans hl⟩

/-- the chunks of the cyclic reduction -/
def chunksOf (n : ℕ) : Direct → List (ℕ × ℕ)
  | .thomas => []
  | .pcr => pow2 n
  | .hybrid um => (pcrBlocks n (um + 1)).1

theorem chunks_shape (hn : 0 < n) (d : Direct) : ∀ c ∈ chunksOf n d, ∃ N, c.2 = c.1 + 2 ^ N ∧ c.2 ≤ n := by
  cases d with
  | thomas => intro c hc; simp [chunksOf] at hc
  | pcr => exact pow2_shape hn
  | hybrid um => exact (pcrBlocks_shape hn _).1

theorem matvec_sim {l : Strides} (hl : Inj n nb m l) (hn : 0 < n) (d : Direct) {lu : Mem (Blk (Fin nb) m K)} (hc : ∀ c ∈ chunksOf n d, ChunkOK n l lu c) (B : Mem (Blk (Fin nb) m K)) {v : Mem K}
    {x : Mem (BVec (Fin nb) m K)} (h : Holds n l v x) : ∃ r, eMatvec d (n * (nb * m)) l n lu B v = .ok r ∧ ∀ k, k < n → r k = (d.matvec n lu B x).ret k := by
  cases d with
  | thomas => exact ⟨_, rfl, thomas_holds hl hn lu B h⟩
  | pcr =>
    obtain ⟨v', h1, h2⟩ := chain_sim (pow2 n) hc (padFront B) h
    unfold eMatvec
    dsimp only
    rw [h1]
    exact ⟨_, rfl, fun k hk => congrArg (luSolve (lu k)) (h2 k hk)⟩
  | hybrid um =>
    obtain ⟨v', h1, h2⟩ := chain_sim (pcrBlocks n (um + 1)).1 hc (padFront B) h
    unfold eMatvec
    dsimp only
    rw [h1]
    exact ⟨_, rfl, tail_holds hl lu _ (pcrBlocks_shape hn _).2 h2⟩

theorem matvec_err {l : Strides} (d : Direct) {lu : Mem (Blk (Fin nb) m K)} {c : ℕ × ℕ} (hc : c ∈ chunksOf n d) (he : ChunkErr n l lu c) (B : Mem (Blk (Fin nb) m K)) (v : Mem K) :
    ∃ msg, eMatvec d (n * (nb * m)) l n lu B v = .error msg := by
  cases d with
  | thomas => simp [chunksOf] at hc
  | pcr =>
    obtain ⟨msg, h⟩ := loop_error he (pow2 n) (padFront B, v) hc
    refine ⟨msg, ?_⟩
    unfold eMatvec
    dsimp only
    rw [h]
  | hybrid um =>
    obtain ⟨msg, h⟩ := loop_error he (pcrBlocks n (um + 1)).1 (padFront B, v) hc
    refine ⟨msg, ?_⟩
    unfold eMatvec
    dsimp only
    rw [h]

theorem packed_chunk {l : Strides} (hb : 0 < nb) (hm : 0 < m) (hl : Packed n nb m l) (lu : Mem (Blk (Fin nb) m K)) {c : ℕ × ℕ} (hc : ∃ N, c.2 = c.1 + 2 ^ N ∧ c.2 ≤ n) : ChunkOK n l lu c := by
  obtain ⟨s, e⟩ := c
  obtain ⟨N, h1, h2⟩ := hc
  dsimp only at h1 h2
  subst h1
  intro B v x h
  exact chunk_sim hb hm hl lu h2 B h

theorem unit_chunk {l : Strides} (lu : Mem (Blk (Fin nb) m K)) (s : ℕ) : ChunkOK n l lu (s, s + 1) := by
  intro B v x h
  unfold ePcrChunk pcrChunk solveBlock
  simp only [Nat.add_sub_cancel_left, Nat.log_one_right, List.range_zero, Nat.sub_self, eLoop, List.flatMap_nil, List.foldl_nil, List.map_nil]
  exact ⟨v, rfl, h⟩

/-! ### time not outermost -/

/-- Rows overlap: there are at most `nb * m / 2` elements between the beginnings of consecutive rows. -/
structure Mixed (n nb m : ℕ) (l : Strides) : Prop where
  pos : 0 < l.st
  st : 2 * l.st ≤ nb * m
  last : (n - 1) * l.st + (nb - 1) * l.sb + (m - 1) * l.sr = n * (nb * m) - 1

theorem order_mixed {o : Order} (hn : 0 < n) (hb : 0 < nb) (hm : 0 < m) (h : ¬ o.timeOutermost nb m) : Mixed n nb m (o.strides n nb m) := by
  obtain ⟨a, rfl⟩ : ∃ a, n = a + 1 := ⟨n - 1, by omega⟩
  obtain ⟨c, rfl⟩ : ∃ c, nb = c + 1 := ⟨nb - 1, by omega⟩
  obtain ⟨d, rfl⟩ : ∃ d, m = d + 1 := ⟨m - 1, by omega⟩
  refine ⟨?_, ?_, ?_⟩
  · cases o <;> simp only [Order.strides] <;> first | positivity | omega
  · cases o <;> simp only [Order.strides, Order.timeOutermost, not_true_eq_false] at h ⊢
    · have : 1 ≤ c := by omega
      nlinarith
    · rcases Nat.eq_zero_or_pos c with rfl | h'
      · have : d ≠ 0 := fun h0 => h ⟨rfl, by omega⟩
        omega
      · nlinarith
    · have : 1 ≤ d := by omega
      nlinarith
    · rcases Nat.eq_zero_or_pos c with rfl | h'
      · have : d ≠ 0 := fun h0 => h ⟨rfl, by omega⟩
        omega
      · nlinarith
  · have : 0 < (a + 1) * ((c + 1) * (d + 1)) := by positivity
    refine (Nat.sub_eq_of_eq_add ?_).symm
    cases o <;> simp only [Order.strides, Nat.add_sub_cancel] <;> ring

theorem mixed_chunk {l : Strides} (hb : 0 < nb) (hm : 0 < m) (hl : Mixed n nb m l) (lu : Mem (Blk (Fin nb) m K)) {s N : ℕ} (hN : 1 ≤ N) (hn : 0 < n)
    (h : (n - 1) * l.st < s * l.st + (2 ^ N - 1) * (nb * m)) : ChunkErr n l lu (s, s + 2 ^ N) := by
  intro Bv
  have e0 : s + 2 ^ N - s = 2 ^ N := Nat.add_sub_cancel_left s _
  obtain ⟨M, rfl⟩ : ∃ M, N = M + 1 := ⟨N - 1, by omega⟩
  have e1 : Nat.log 2 (2 ^ (M + 1)) = M + 1 := Nat.log_pow (by norm_num) _
  have e2 : 2 ^ (M + 1) / 2 = 2 ^ M := by rw [pow_succ]; simp
  have hM : 0 < 2 ^ M := by positivity
  have hfail : ∃ msg, eShift nb m (n * (nb * m)) l (eSlice l s (s + 2 ^ (M + 1))) 0 = .error msg := by
    unfold eShift eSlice
    dsimp only
    rw [e0, e2]
    refine ⟨_, if_pos ⟨by norm_num, hM, hb, hm, ?_⟩⟩
    have h1 := hl.last
    have h2 : (2 ^ (M + 1) - 1) * (nb * m) = (1 * 2 - 1) * (nb * m) + (2 ^ M - 1) * (2 ^ (0 + 1) * (nb * m)) := by
      obtain ⟨q, hq⟩ : ∃ q, 2 ^ M = q + 1 := ⟨2 ^ M - 1, by omega⟩
      rw [pow_succ, hq, show (q + 1) * 2 - 1 = 2 * q + 1 by omega, Nat.add_sub_cancel]
      ring
    have h3 : 0 < n * (nb * m) := by positivity
    omega
  obtain ⟨msg, hmsg⟩ := hfail
  refine ⟨msg, ?_⟩
  unfold ePcrChunk
  dsimp only
  rw [e0, e1, List.range_succ_eq_map]
  unfold eLoop ePcrStep
  rw [hmsg]

theorem loop_last (n : ℕ) : ∀ e, 0 < n → 1 ≤ e → ∃ s N, (s, s + 2 ^ N) ∈ pow2Loop n e ∧ 1 ≤ N ∧ s + 2 ^ N = e + n := by
  induction n using Nat.strong_induction_on with
  | _ n ih =>
    intro e h he
    rw [pow2Loop_pos e h]
    have h2 := two_le_sz (n := n + 1) (by omega)
    have h3 := sz_le (n := n + 1) (by omega)
    rcases Nat.eq_zero_or_pos (n - (sz (n + 1) - 1)) with h0 | h0
    · refine ⟨e - 1, Nat.log 2 (n + 1), List.mem_cons_self, ?_, ?_⟩
      · exact Nat.log_pos (by norm_num) (by omega)
      · change e - 1 + sz (n + 1) = _
        omega
    · obtain ⟨s, N, h4, h5, h6⟩ := ih (n - (sz (n + 1) - 1)) (by omega) (e - 1 + sz (n + 1)) h0 (by omega)
      exact ⟨s, N, List.mem_cons_of_mem _ h4, h5, by rw [h6]; omega⟩

theorem pow2_last (hn : 2 ≤ n) : ∃ s N, (s, s + 2 ^ N) ∈ pow2 n ∧ 1 ≤ N ∧ s + 2 ^ N = n := by
  rcases Nat.eq_zero_or_pos (n - sz n) with h0 | h0
  · refine ⟨0, Nat.log 2 n, ?_, Nat.log_pos (by norm_num) hn, ?_⟩
    · rw [Nat.zero_add]; exact List.mem_cons_self
    · have := sz_le (n := n) (by omega)
      rw [Nat.zero_add]
      change sz n = n
      omega
  · obtain ⟨s, N, h1, h2, h3⟩ := loop_last (n - sz n) (sz n) h0 (sz_pos n)
    exact ⟨s, N, List.mem_cons_of_mem _ h1, h2, by rw [h3]; have := sz_le (n := n) (by omega); omega⟩

theorem last_chunk_err {l : Strides} (hb : 0 < nb) (hm : 0 < m) (hl : Mixed n nb m l) (lu : Mem (Blk (Fin nb) m K)) {s N : ℕ} (hN : 1 ≤ N) (h : s + 2 ^ N = n) :
    ChunkErr n l lu (s, s + 2 ^ N) := by
  have h2 : 2 ≤ 2 ^ N := by calc 2 = 2 ^ 1 := rfl
    _ ≤ 2 ^ N := Nat.pow_le_pow_right (by norm_num) hN
  refine mixed_chunk hb hm hl lu hN (by omega) ?_
  obtain ⟨q, hq⟩ : ∃ q, 2 ^ N = q + 2 := ⟨2 ^ N - 2, by omega⟩
  rw [← h, hq, show s + (q + 2) - 1 = s + (q + 1) by omega, show q + 2 - 1 = q + 1 by omega, Nat.add_mul]
  have h3 := hl.st
  have h4 := hl.pos
  have : (q + 1) * l.st < (q + 1) * (nb * m) := Nat.mul_lt_mul_of_pos_left (by omega) (by omega)
  omega

theorem chunks_fail {l : Strides} (hb : 0 < nb) (hm : 0 < m) (hl : Mixed n nb m l) (lu : Mem (Blk (Fin nb) m K)) (hn : 2 ≤ n) (d : Direct) (hd : chunksOf n d ≠ []) :
    ∃ c ∈ chunksOf n d, ChunkErr n l lu c := by
  cases d with
  | thomas => exact absurd rfl hd
  | pcr =>
    obtain ⟨s, N, h1, h2, h3⟩ := pow2_last hn
    exact ⟨_, h1, last_chunk_err hb hm hl lu h2 h3⟩
  | hybrid um =>
    unfold chunksOf pcrBlocks at hd ⊢
    dsimp only at hd ⊢
    split_ifs at hd ⊢ with h
    · exact absurd rfl hd
    · have hz : 2 ≤ sz n := two_le_sz hn
      have hz2 := lt_two_sz n
      have hz3 := sz_le (n := n) (by omega)
      simp only [pow2, List.map_cons, List.headD_cons] at h ⊢
      rw [List.findIdx_cons]
      simp only [h, decide_false, cond_false]
      rw [List.take_succ_cons]
      by_cases hlt : n + 1 < 2 * sz n
      · refine ⟨(0, sz n), List.mem_cons_self, ?_⟩
        have := mixed_chunk hb hm hl lu (s := 0) (N := Nat.log 2 n) (Nat.log_pos (by norm_num) hn) (by omega) (by
          change (n - 1) * l.st < 0 * l.st + (sz n - 1) * (nb * m)
          have h3 := hl.st
          have h4 := hl.pos
          have h5 : (sz n - 1) * (2 * l.st) ≤ (sz n - 1) * (nb * m) := Nat.mul_le_mul_left _ h3
          have h6 : (n - 1) * l.st < (2 * (sz n - 1)) * l.st := Nat.mul_lt_mul_of_pos_right (by omega) h4
          have h7 : (2 * (sz n - 1)) * l.st = (sz n - 1) * (2 * l.st) := by ring
          omega)
        rw [Nat.zero_add] at this
        exact this
      · have hn1 : n = 2 * sz n - 1 := by omega
        have e1 : n - sz n + 1 = sz n := by omega
        have e2 : sz (sz n) = sz n := by rw [sz_pow n, sz_pow]; rw [Nat.log_pow (by norm_num)]
        refine ⟨(sz n - 1, sz n - 1 + sz n), List.mem_cons_of_mem _ ?_, ?_⟩
        · rw [pow2Loop_pos _ (by omega), e1, e2, List.map_cons, List.findIdx_cons]
          have h8 : ¬ (((sz n - 1 + sz n : ℕ) : ℤ) - ((sz n - 1 : ℕ) : ℤ) < um + 1) := by push_cast at h ⊢; omega
          simp only [h8, decide_false, cond_false]
          rw [List.take_succ_cons]
          exact List.mem_cons_self
        · exact last_chunk_err hb hm hl lu (s := sz n - 1) (N := Nat.log 2 n) (Nat.log_pos (by norm_num) hn) (by change sz n - 1 + sz n = n; omega)

theorem hybrid_chunks (n : ℕ) (um : ℤ) : (pcrBlocks n (um + 1)).1 = [] ↔ (sz n : ℤ) ≤ um := by
  unfold pcrBlocks
  dsimp only
  split_ifs with h
  · simp only [pow2, List.map_cons, List.headD_cons, CharP.cast_eq_zero, sub_zero] at h
    exact ⟨fun _ => by omega, fun _ => rfl⟩
  · simp only [pow2, List.map_cons, List.headD_cons] at h ⊢
    rw [List.findIdx_cons]
    simp only [h, decide_false, cond_false]
    rw [List.take_succ_cons]
    simp only [CharP.cast_eq_zero, sub_zero] at h
    exact ⟨fun h' => by simp at h', fun h' => by omega⟩

end Pyoptmat.Chunktime
