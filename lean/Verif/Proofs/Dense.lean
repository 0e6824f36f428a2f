import Verif.Proofs.Layout

/-! Helper lemmas: dense and COO conversion. -/

namespace Pyoptmat.Chunktime

variable {β : Type*} {m : ℕ} {K : Type*} [Field K]

theorem in_block_iff {n : ℕ} (r : Fin (n * m)) (i : ℕ) :
    (i * m ≤ r.val ∧ r.val < (i + 1) * m) ↔ r.divNat.val = i := by
  have hm : 0 < m := by
    by_contra h
    have : m = 0 := by omega
    subst this
    exact absurd r.2 (by simp)
  rw [Fin.coe_divNat]
  constructor
  · rintro ⟨h1, h2⟩
    exact Nat.div_eq_of_lt_le h1 h2
  · rintro rfl
    exact ⟨Nat.div_mul_le_self _ _, Nat.lt_succ_mul_div_succ' r.val hm⟩
where
  Nat.lt_succ_mul_div_succ' (a : ℕ) {m : ℕ} (hm : 0 < m) : a < (a / m + 1) * m := by
    have := Nat.lt_div_mul_add (a := a) hm
    rw [Nat.add_mul]; omega

theorem writeBlock_apply {n : ℕ} (A : β → Matrix (Fin (n * m)) (Fin (n * m)) K) (i j : ℕ)
    (blk : Blk β m K) (b : β) (r c : Fin (n * m)) :
    writeBlock A i j blk b r c =
      if r.divNat.val = i ∧ c.divNat.val = j then blk b r.modNat c.modNat else A b r c := by
  unfold writeBlock
  by_cases h : r.divNat.val = i ∧ c.divNat.val = j
  · rw [if_pos h, dif_pos ⟨(in_block_iff r i).2 h.1, (in_block_iff c j).2 h.2⟩]
    obtain ⟨rfl, rfl⟩ := h
    congr 1
    · apply Fin.ext
      simp [Fin.coe_divNat, Fin.coe_modNat, Nat.mod_eq_sub_div_mul]
    · apply Fin.ext
      simp [Fin.coe_divNat, Fin.coe_modNat, Nat.mod_eq_sub_div_mul]
  · rw [if_neg h, dif_neg]
    rintro ⟨h1, h2⟩
    exact h ⟨(in_block_iff r i).1 h1, (in_block_iff c j).1 h2⟩

theorem dense_pos_iff (d : ℤ) (k I J : ℕ) :
    (I = denseRow d k ∧ J = denseCol d k) ↔ ((J : ℤ) - I = d ∧ k = min I J) := by
  unfold denseRow denseCol
  split_ifs with h <;> omega

theorem foldl_writes {n : ℕ} (pos : ℕ → ℕ × ℕ) (val : ℕ → Blk β m K) (ks : List ℕ)
    (A : β → Matrix (Fin (n * m)) (Fin (n * m)) K) (b : β) (r c : Fin (n * m))
    (k0 : ℕ) (huniq : ∀ k, (r.divNat.val = (pos k).1 ∧ c.divNat.val = (pos k).2) → k = k0) :
    (ks.foldl (fun A k => writeBlock A (pos k).1 (pos k).2 (val k)) A) b r c =
      if k0 ∈ ks ∧ (r.divNat.val = (pos k0).1 ∧ c.divNat.val = (pos k0).2)
      then val k0 b r.modNat c.modNat else A b r c := by
  induction ks generalizing A with
  | nil => simp
  | cons k ks ih =>
    rw [List.foldl_cons, ih, writeBlock_apply]
    by_cases hk : r.divNat.val = (pos k).1 ∧ c.divNat.val = (pos k).2
    · have := huniq k hk
      subst this
      simp [hk, -Fin.coe_divNat]
    · by_cases hk0 : r.divNat.val = (pos k0).1 ∧ c.divNat.val = (pos k0).2
      · have hne : k0 ≠ k := by rintro rfl; exact hk hk0
        rw [if_neg hk]
        simp only [List.mem_cons, hne, false_or]
      · simp [hk, hk0, -Fin.coe_divNat]

theorem writeDiag_apply {n : ℕ} (A : β → Matrix (Fin (n * m)) (Fin (n * m)) K)
    (e : ℤ × List (Blk β m K)) (b : β) (r c : Fin (n * m)) :
    writeDiag n A e b r c =
      if ((c.divNat.val : ℤ) - r.divNat.val = e.1) then
        e.2.getD (min r.divNat.val c.divNat.val) 0 b r.modNat c.modNat
      else A b r c := by
  unfold writeDiag
  rw [foldl_writes (pos := fun k => (denseRow e.1 k, denseCol e.1 k)) (val := fun k => e.2.getD k 0)
    (k0 := min r.divNat.val c.divNat.val)]
  · have hr := r.divNat.2
    have hc := c.divNat.2
    by_cases h : (c.divNat.val : ℤ) - r.divNat.val = e.1
    · rw [if_pos h, if_pos]
      refine ⟨?_, ?_⟩
      · rw [List.mem_range]; omega
      · exact (dense_pos_iff e.1 _ _ _).2 ⟨h, rfl⟩
    · rw [if_neg h, if_neg]
      rintro ⟨_, h2⟩
      exact h ((dense_pos_iff e.1 _ _ _).1 h2).1
  · intro k hk
    exact ((dense_pos_iff e.1 _ _ _).1 hk).2

theorem foldl_writeDiag_none {n : ℕ} (es : List (ℤ × List (Blk β m K)))
    (A : β → Matrix (Fin (n * m)) (Fin (n * m)) K) (b : β) (r c : Fin (n * m))
    (h : ∀ e ∈ es, (c.divNat.val : ℤ) - r.divNat.val ≠ e.1) :
    es.foldl (writeDiag n) A b r c = A b r c := by
  induction es generalizing A with
  | nil => rfl
  | cons e es ih =>
    rw [List.foldl_cons, ih _ (fun e' he' => h e' (by simp [he'])), writeDiag_apply,
      if_neg (h e (by simp))]

theorem foldl_writeDiag_some {n : ℕ} (es : List (ℤ × List (Blk β m K)))
    (hd : (es.map Prod.fst).Nodup) (A : β → Matrix (Fin (n * m)) (Fin (n * m)) K) (b : β)
    (r c : Fin (n * m)) (e : ℤ × List (Blk β m K)) (he : e ∈ es)
    (h : (c.divNat.val : ℤ) - r.divNat.val = e.1) :
    es.foldl (writeDiag n) A b r c =
      e.2.getD (min r.divNat.val c.divNat.val) 0 b r.modNat c.modNat := by
  induction es generalizing A with
  | nil => simp at he
  | cons e' es ih =>
    rw [List.foldl_cons]
    rw [List.map_cons, List.nodup_cons] at hd
    rcases List.mem_cons.1 he with rfl | he
    · rw [foldl_writeDiag_none, writeDiag_apply, if_pos h]
      intro e'' he'' hc
      apply hd.1
      rw [← h, hc]
      exact List.mem_map_of_mem he''
    · exact ih hd.2 _ he

theorem mk'_perm (data : List (ℤ × List (Blk β m K))) : (BlockDiag.mk' data).entries.Perm data :=
  List.mergeSort_perm _ _

theorem mk'_nodup {data : List (ℤ × List (Blk β m K))} (h : (data.map Prod.fst).Nodup) :
    ((BlockDiag.mk' data).entries.map Prod.fst).Nodup :=
  ((mk'_perm data).map _).nodup_iff.2 h

theorem nblk_eq {data : List (ℤ × List (Blk β m K))} {n : ℕ} (hne : data ≠ [])
    (hlen : ∀ e ∈ data, e.2.length + e.1.natAbs = n) : (BlockDiag.mk' data).nblk = n := by
  unfold BlockDiag.nblk
  have hp := mk'_perm data
  split
  · next h => rw [h] at hp; exact absurd hp.symm.eq_nil hne
  · next d dat l h =>
      have : (d, dat) ∈ data := hp.mem_iff.1 (by rw [h]; simp)
      exact hlen _ this

theorem dense_eq_bidiagonal {n : ℕ} (op : BidiagOp β n m K) (b : β) :
    op.dense b = Spec.bidiagonalMatrix (fun k => op.A k b) (fun k => op.B k b) := by
  have hp := mk'_perm [((0 : ℤ), List.ofFn op.A), (-1, List.ofFn op.B)]
  have hnd := mk'_nodup (data := [((0 : ℤ), List.ofFn op.A), (-1, List.ofFn op.B)])
    (by simp)
  ext r c
  unfold BidiagOp.dense BidiagOp.toDiag Spec.bidiagonalMatrix
  by_cases h1 : r.divNat = c.divNat
  · rw [if_pos h1, foldl_writeDiag_some _ hnd _ b r c (0, List.ofFn op.A)
      (hp.mem_iff.2 (by simp)) (by simp [h1])]
    rw [← h1]
    simp [List.getD_eq_getElem?_getD, -Fin.coe_divNat]
  · rw [if_neg h1]
    have h1' : r.divNat.val ≠ c.divNat.val := fun h => h1 (Fin.ext h)
    split_ifs with h2
    · rw [foldl_writeDiag_some _ hnd _ b r c (-1, List.ofFn op.B)
        (hp.mem_iff.2 (by simp)) (by simp only; omega)]
      have hlt : c.divNat.val < n - 1 := by have := r.divNat.2; omega
      have : min r.divNat.val c.divNat.val = c.divNat.val := by omega
      rw [this]
      simp [List.getD_eq_getElem?_getD, hlt, -Fin.coe_divNat]
    · rw [foldl_writeDiag_none]
      · rfl
      · intro e he
        have := hp.mem_iff.1 he
        simp at this
        rcases this with rfl | rfl
        · simp only; omega
        · simp only; omega

/-! ### COO -/

theorem cooDenote_append (l l' : List (ℕ × ℕ × (β → K))) (r c : ℕ) (b : β) :
    cooDenote (l ++ l') r c b = cooDenote l r c b + cooDenote l' r c b := by
  simp [cooDenote]

theorem cooDenote_flatMap {α : Type*} (l : List α) (f : α → List (ℕ × ℕ × (β → K))) (r c : ℕ)
    (b : β) : cooDenote (l.flatMap f) r c b = (l.map fun a => cooDenote (f a) r c b).sum := by
  induction l with
  | nil => simp [cooDenote]
  | cons a l ih => simp [cooDenote_append, ih]

theorem sum_filter_ite {α : Type*} (l : List α) (p : α → Prop) [DecidablePred p] (f : α → K) :
    ((l.filter fun a => p a).map f).sum = (l.map fun a => if p a then f a else 0).sum := by
  induction l with
  | nil => simp
  | cons a l ih =>
    by_cases h : p a <;> simp [List.filter_cons, h, ih]

theorem cooBlock_denote {n : ℕ} (d : ℤ) (i : ℕ) (blk : Blk β m K) (r c : Fin (n * m)) (b : β) :
    cooDenote (cooBlock d i blk) r.val c.val b =
      if r.divNat.val = denseRow d i ∧ c.divNat.val = denseCol d i then
        blk b r.modNat c.modNat else 0 := by
  have hm : 0 < m := by
    by_contra h
    have : m = 0 := by omega
    subst this
    exact absurd r.2 (by simp)
  unfold cooDenote cooBlock
  simp only
  rw [sum_filter_ite, List.map_map]
  have hr0 : (if d < 0 then (i + d.natAbs) * m else i * m) = denseRow d i * m := by
    unfold denseRow
    split_ifs with h1 h2 h2
    · rfl
    · omega
    · have : d = 0 := by omega
      subst this; simp
    · rfl
  have hc0 : (if d < 0 then i * m else (i + d.natAbs) * m) = denseCol d i * m := by
    unfold denseCol
    split_ifs with h1 h2 h2
    · rfl
    · omega
    · have : d = 0 := by omega
      subst this; simp
    · rfl
  rw [hr0, hc0]
  have key : ∀ q : Fin (m * m), (q.divNat.val + denseRow d i * m = r.val ∧
      q.modNat.val + denseCol d i * m = c.val) ↔
      ((r.divNat.val = denseRow d i ∧ c.divNat.val = denseCol d i) ∧
        q = finProdFinEquiv (r.modNat, c.modNat)) := by
    intro q
    have hq1 := q.divNat.2
    have hq2 := q.modNat.2
    constructor
    · rintro ⟨h1, h2⟩
      have a1 : r.divNat.val = denseRow d i := by
        rw [Fin.coe_divNat, ← h1, Nat.add_mul_div_right _ _ hm, Nat.div_eq_of_lt hq1]; simp
      have a2 : c.divNat.val = denseCol d i := by
        rw [Fin.coe_divNat, ← h2, Nat.add_mul_div_right _ _ hm, Nat.div_eq_of_lt hq2]; simp
      refine ⟨⟨a1, a2⟩, ?_⟩
      have b1 : q.divNat = r.modNat := by
        apply Fin.ext
        rw [Fin.coe_modNat, ← h1, Nat.add_mul_mod_self_right, Nat.mod_eq_of_lt hq1]
      have b2 : q.modNat = c.modNat := by
        apply Fin.ext
        rw [Fin.coe_modNat c, ← h2, Nat.add_mul_mod_self_right, Nat.mod_eq_of_lt hq2]
      rw [← b1, ← b2]
      exact (finProdFinEquiv.apply_symm_apply q).symm
    · rintro ⟨⟨a1, a2⟩, rfl⟩
      rw [divNat_pair, modNat_pair, ← a1, ← a2]
      simp only [Fin.coe_divNat, Fin.coe_modNat]
      exact ⟨Nat.mod_add_div' _ _, Nat.mod_add_div' _ _⟩
  have : ((List.finRange (m * m)).map ((fun a : ℕ × ℕ × (β → K) =>
      if a.1 = r.val ∧ a.2.1 = c.val then a.2.2 b else 0) ∘ fun q : Fin (m * m) =>
        (q.divNat.val + denseRow d i * m, q.modNat.val + denseCol d i * m,
          fun b => blk b q.divNat q.modNat))).sum =
      ∑ q : Fin (m * m), if (r.divNat.val = denseRow d i ∧ c.divNat.val = denseCol d i) ∧
        q = finProdFinEquiv (r.modNat, c.modNat) then blk b q.divNat q.modNat else 0 := by
    rw [← List.sum_ofFn, List.ofFn_eq_map]
    congr 1
    apply List.map_congr_left
    intro q _
    simp only [Function.comp]
    simp only [key q]
  rw [this]
  by_cases h : r.divNat.val = denseRow d i ∧ c.divNat.val = denseCol d i
  · rw [if_pos h]
    simp only [h, true_and, and_self]
    rw [Finset.sum_ite_eq' Finset.univ]
    simp [divNat_pair, modNat_pair]
  · rw [if_neg h]
    simp only [h, false_and, if_false, Finset.sum_const_zero]

theorem sum_zipIdx_aux {α : Type*} (l : List α) (f : α → K) (k0 s : ℕ) :
    ((l.zipIdx s).map fun bi => if bi.2 = k0 then f bi.1 else 0).sum =
      if s ≤ k0 then ((l[k0 - s]?).map f).getD 0 else 0 := by
  induction l generalizing s with
  | nil => simp
  | cons a l ih =>
    rw [List.zipIdx_cons, List.map_cons, List.sum_cons, ih]
    rcases Nat.lt_trichotomy s k0 with h | h | h
    · rw [if_neg (by simp; omega), if_pos (by omega), if_pos (by omega)]
      have : k0 - s = (k0 - (s + 1)) + 1 := by omega
      rw [this]; simp
    · subst h; simp
    · rw [if_neg (by simp; omega), if_neg (by omega), if_neg (by omega)]; simp

theorem cooDiag_denote {n : ℕ} (e : ℤ × List (Blk β m K)) (r c : Fin (n * m)) (b : β) :
    cooDenote (e.2.zipIdx.flatMap fun bi => cooBlock e.1 bi.2 bi.1) r.val c.val b =
      if (c.divNat.val : ℤ) - r.divNat.val = e.1 then
        e.2.getD (min r.divNat.val c.divNat.val) 0 b r.modNat c.modNat else 0 := by
  rw [cooDenote_flatMap]
  have : ∀ bi : Blk β m K × ℕ, cooDenote (cooBlock e.1 bi.2 bi.1) r.val c.val b =
      if bi.2 = min r.divNat.val c.divNat.val then
        (if (c.divNat.val : ℤ) - r.divNat.val = e.1 then bi.1 b r.modNat c.modNat else 0)
      else 0 := by
    intro bi
    rw [cooBlock_denote]
    simp only [dense_pos_iff]
    by_cases h1 : (c.divNat.val : ℤ) - r.divNat.val = e.1 <;>
      by_cases h2 : bi.2 = min r.divNat.val c.divNat.val <;> simp only [h1, h2, and_self, if_true, if_false,
        and_true, and_false, true_and, false_and]
  rw [List.map_congr_left (fun bi _ => this bi)]
  rw [sum_zipIdx_aux e.2 (fun x => if (c.divNat.val : ℤ) - r.divNat.val = e.1 then
    x b r.modNat c.modNat else 0)]
  simp only [Nat.zero_le, if_true, Nat.sub_zero, List.getD_eq_getElem?_getD]
  split_ifs with h
  · cases e.2[min r.divNat.val c.divNat.val]? <;> simp
  · cases e.2[min r.divNat.val c.divNat.val]? <;> simp

theorem coo_eq_dense {n : ℕ} (es : List (ℤ × List (Blk β m K))) (hd : (es.map Prod.fst).Nodup)
    (r c : Fin (n * m)) (b : β) :
    cooDenote (es.flatMap fun e => e.2.zipIdx.flatMap fun bi => cooBlock e.1 bi.2 bi.1)
      r.val c.val b = es.foldl (writeDiag n) 0 b r c := by
  rw [cooDenote_flatMap]
  simp only [cooDiag_denote]
  by_cases h : ∃ e ∈ es, (c.divNat.val : ℤ) - r.divNat.val = e.1
  · obtain ⟨e, he, hec⟩ := h
    rw [foldl_writeDiag_some es hd _ b r c e he hec]
    induction es with
    | nil => simp at he
    | cons e' es ih =>
      rw [List.map_cons, List.nodup_cons] at hd
      rw [List.map_cons, List.sum_cons]
      rcases List.mem_cons.1 he with rfl | he
      · rw [if_pos hec]
        have : (es.map fun a : ℤ × List (Blk β m K) =>
            if (c.divNat.val : ℤ) - r.divNat.val = a.1 then
            a.2.getD (min r.divNat.val c.divNat.val) 0 b r.modNat c.modNat else 0).sum = 0 := by
          apply List.sum_eq_zero
          intro x hx
          rw [List.mem_map] at hx
          obtain ⟨a, ha, rfl⟩ := hx
          rw [if_neg]
          intro hc
          apply hd.1
          rw [← hec, hc]
          exact List.mem_map_of_mem ha
        rw [this, add_zero]
      · rw [if_neg, zero_add]
        · exact ih hd.2 he
        · intro hc
          apply hd.1
          rw [← hc, hec]
          exact List.mem_map_of_mem he
  · push Not at h
    rw [foldl_writeDiag_none _ _ _ _ _ h]
    apply List.sum_eq_zero
    intro x hx
    rw [List.mem_map] at hx
    obtain ⟨a, ha, rfl⟩ := hx
    rw [if_neg (h a ha)]

end Pyoptmat.Chunktime
