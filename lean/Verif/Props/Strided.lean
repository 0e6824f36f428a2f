import Verif.Proofs.Strided

/-!
# C116: the memory layout of the right hand side of the direct solvers
-/

namespace Pyoptmat.Props

open Pyoptmat.Chunktime Pyoptmat.Spec

variable {n nb m : ℕ} {K : Type*} [Field K]

/-- **C116** (never a wrong answer). Let the right hand side be stored in any order of its dimensions. If `matvec` returns, it returns the unique solution of the block bidiagonal system
(for every direct solver, number of blocks, batch and block size). -/
theorem C116_solution_or_exception (hn : 0 < n) (hb : 0 < nb) (hm : 0 < m) (d : Direct) (o : Order) (A : Fin n → Blk (Fin nb) m K) (B : Fin (n - 1) → Blk (Fin nb) m K)
    (hA : ∀ k b, IsUnit (A k b).det) (v : Mem K) {r : Mem (BVec (Fin nb) m K)} (h : eMatvec d (n * (nb * m)) (o.strides n nb m) n (memOf A) (memOf B) v = .ok r) :
    SolvesBidiagonal A B (fun k b j => v ((o.strides n nb m).pos k b j)) (fun k : Fin n => r k) ∧
      ∀ x, SolvesBidiagonal A B (fun k b j => v ((o.strides n nb m).pos k b j)) x → x = fun k : Fin n => r k := by
  have hh : Holds n (o.strides n nb m) v (memOf fun (k : Fin n) (b : Fin nb) (j : Fin m) => v ((o.strides n nb m).pos k b j)) := by
    intro k hk
    rw [memOf_apply _ _ hk]
    rfl
  have key : ∃ r', eMatvec d (n * (nb * m)) (o.strides n nb m) n (memOf A) (memOf B) v = .ok r' ∧
      ∀ k, k < n → r' k = (d.matvec n (memOf A) (memOf B) (memOf fun (k : Fin n) (b : Fin nb) (j : Fin m) => v ((o.strides n nb m).pos k b j))).ret k := by
    by_cases ho : o.timeOutermost nb m
    · exact matvec_sim (order_inj o) hn d (fun c hc => packed_chunk hb hm (order_packed hb hm ho) _ (chunks_shape hn d c hc)) _ hh
    · by_cases hd : chunksOf n d = []
      · exact matvec_sim (order_inj o) hn d (by rw [hd]; intro c hc; simp at hc) _ hh
      · rcases Nat.lt_or_ge n 2 with h2 | h2
        · refine matvec_sim (order_inj o) hn d (fun c hc => ?_) _ hh
          obtain ⟨s, e⟩ := c
          obtain ⟨N, h3, h4⟩ := chunks_shape hn d _ hc
          dsimp only at h3 h4
          have : 0 < 2 ^ N := by positivity
          have h5 : e = s + 1 := by omega
          rw [h5]
          exact unit_chunk _ s
        · obtain ⟨c, hc, he⟩ := chunks_fail hb hm (order_mixed hn hb hm ho) (memOf A) h2 d hd
          obtain ⟨msg, h3⟩ := matvec_err d hc he (memOf B) v
          rw [h3] at h; cases h
  obtain ⟨r', h1, h2⟩ := key
  rw [h1] at h
  injection h with h
  subst h
  have e : (fun k : Fin n => r' k) = fun k : Fin n => (d.matvec n (memOf A) (memOf B) (memOf fun (k : Fin n) (b : Fin nb) (j : Fin m) => v ((o.strides n nb m).pos k b j))).ret k :=
    funext fun k => h2 k k.isLt
  rw [e]
  exact direct_solves d hn A B _ hA

/-- **C116** (when it returns). `matvec` returns exactly when the method is Thomas, or time is stored outermost, or there is a single block, or the hybrid method uses no cyclic reduction at all
(`min_size` at least the largest power of two not above the number of blocks). In all other cases it raises an exception. -/
theorem C116_returns_iff (hn : 0 < n) (hb : 0 < nb) (hm : 0 < m) (d : Direct) (o : Order) (A : Fin n → Blk (Fin nb) m K) (B : Fin (n - 1) → Blk (Fin nb) m K) (v : Mem K) :
    (∃ r, eMatvec d (n * (nb * m)) (o.strides n nb m) n (memOf A) (memOf B) v = .ok r) ↔
      d = .thomas ∨ o.timeOutermost nb m ∨ n = 1 ∨ ∃ ms : ℤ, d = .hybrid ms ∧ ((2 ^ Nat.log 2 n : ℕ) : ℤ) ≤ ms := by
  have hh : Holds n (o.strides n nb m) v (memOf fun (k : Fin n) (b : Fin nb) (j : Fin m) => v ((o.strides n nb m).pos k b j)) := by
    intro k hk
    rw [memOf_apply _ _ hk]
    rfl
  have hchunks : chunksOf n d = [] ↔ d = .thomas ∨ ∃ ms : ℤ, d = .hybrid ms ∧ ((2 ^ Nat.log 2 n : ℕ) : ℤ) ≤ ms := by
    cases d with
    | thomas => simp [chunksOf]
    | pcr => simp [chunksOf, pow2]
    | hybrid um =>
      change (pcrBlocks n (um + 1)).1 = [] ↔ _
      rw [hybrid_chunks]
      constructor
      · intro h; exact Or.inr ⟨um, rfl, h⟩
      · rintro (h | ⟨ms, h, h'⟩)
        · cases h
        · injection h with h; subst h; exact h'
  constructor
  · rintro ⟨r, h⟩
    by_contra hcon
    push Not at hcon
    obtain ⟨h1, h2, h3, h4⟩ := hcon
    have hd : chunksOf n d ≠ [] := by
      intro h5
      rcases hchunks.1 h5 with h6 | ⟨ms, h6, h7⟩
      · exact h1 h6
      · exact absurd h7 (not_le.2 (h4 ms h6))
    obtain ⟨c, hc, he⟩ := chunks_fail hb hm (order_mixed hn hb hm h2) (memOf A) (by omega) d hd
    obtain ⟨msg, h5⟩ := matvec_err d hc he (memOf B) v
    rw [h5] at h; cases h
  · intro h
    have hok : ∀ c ∈ chunksOf n d, ChunkOK n (o.strides n nb m) (memOf A) c := by
      rcases h with h | h | h | h
      · rw [hchunks.2 (Or.inl h)]; intro c hc; simp at hc
      · exact fun c hc => packed_chunk hb hm (order_packed hb hm h) _ (chunks_shape hn d c hc)
      · intro c hc
        obtain ⟨s, e⟩ := c
        obtain ⟨N, h3, h4⟩ := chunks_shape hn d _ hc
        dsimp only at h3 h4
        have : 0 < 2 ^ N := by positivity
        have h5 : e = s + 1 := by omega
        rw [h5]
        exact unit_chunk _ s
      · rw [hchunks.2 (Or.inr h)]; intro c hc; simp at hc
    obtain ⟨r, h1, -⟩ := matvec_sim (order_inj o) hn d hok (memOf B) hh
    exact ⟨r, h1⟩

/-- **C116** (contiguous storage). For the order in which torch stores new tensors, and which `forward` enforces, `matvec` always returns, and returns the rows that the block-wise program
of C01-C03 returns, entry for entry. So the other theorems about the solvers speak about the program with its strides. -/
theorem C116_contiguous (hn : 0 < n) (hb : 0 < nb) (hm : 0 < m) (d : Direct) (A : Fin n → Blk (Fin nb) m K) (B : Fin (n - 1) → Blk (Fin nb) m K) (x : Fin n → BVec (Fin nb) m K) (v : Mem K)
    (hv : ∀ (k : Fin n) (b : Fin nb) (j : Fin m), v (k.val * (nb * m) + b.val * m + j.val) = x k b j) :
    ∃ r, eMatvec d (n * (nb * m)) ⟨nb * m, m, 1⟩ n (memOf A) (memOf B) v = .ok r ∧ ∀ k, k < n → r k = (d.matvec n (memOf A) (memOf B) (memOf x)).ret k := by
  refine matvec_sim (order_inj .tbr) hn d (fun c hc => packed_chunk hb hm (order_packed (o := .tbr) hb hm trivial) _ (chunks_shape hn d c hc)) _ fun k hk => ?_
  rw [memOf_apply _ _ hk]
  funext b j
  have := hv ⟨k, hk⟩ b j
  simpa [Strides.get, Strides.pos, Order.strides] using this

/-- Non-vacuity and the failure at work: two time steps of two tests stored test by test, as the gradient of a loss of the transposed results is: cyclic reduction raises, Thomas returns the solution. -/
example (v : Mem ℝ) : (¬ ∃ r, eMatvec .pcr (2 * (2 * 1)) (Order.btr.strides 2 2 1) 2 (memOf fun (_ : Fin 2) (_ : Fin 2) => (1 : Matrix (Fin 1) (Fin 1) ℝ))
      (memOf fun (_ : Fin (2 - 1)) (_ : Fin 2) => (-1 : Matrix (Fin 1) (Fin 1) ℝ)) v = .ok r) ∧
    ∃ r, eMatvec .thomas (2 * (2 * 1)) (Order.btr.strides 2 2 1) 2 (memOf fun (_ : Fin 2) (_ : Fin 2) => (1 : Matrix (Fin 1) (Fin 1) ℝ))
      (memOf fun (_ : Fin (2 - 1)) (_ : Fin 2) => (-1 : Matrix (Fin 1) (Fin 1) ℝ)) v = .ok r := by
  constructor
  · rw [C116_returns_iff (by norm_num) (by norm_num) (by norm_num)]
    rintro (h | h | h | ⟨ms, h, -⟩)
    · cases h
    · exact absurd h (by unfold Order.timeOutermost; norm_num)
    · norm_num at h
    · cases h
  · exact (C116_returns_iff (by norm_num) (by norm_num) (by norm_num) _ _ _ _ _).2 (.inl rfl)

/-- Non-vacuity: time outermost with the two other dimensions exchanged is accepted by every method. -/
example (d : Direct) (v : Mem ℝ) : ∃ r, eMatvec d (5 * (3 * 2)) (Order.trb.strides 5 3 2) 5 (memOf fun (_ : Fin 5) (_ : Fin 3) => (1 : Matrix (Fin 2) (Fin 2) ℝ))
      (memOf fun (_ : Fin (5 - 1)) (_ : Fin 3) => (-1 : Matrix (Fin 2) (Fin 2) ℝ)) v = .ok r :=
  (C116_returns_iff (by norm_num) (by norm_num) (by norm_num) _ _ _ _ _).2 (.inr (.inl trivial))

end Pyoptmat.Props
