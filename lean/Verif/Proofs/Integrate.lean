import Verif.Model.Ode
import Verif.Proofs.Newton
import Verif.Proofs.Dense
import Mathlib.Tactic

/-! Helper lemmas: the time loop. -/

namespace Pyoptmat.Ode

open Pyoptmat.Chunktime Pyoptmat.Newton

variable {β : Type*} {m : ℕ}

/-- Number of blocks. -/
def nblocks (nt N : ℕ) : ℕ := (nt - 1 + (N - 1)) / N

theorem blockStarts_pos (nt : ℕ) {n : ℤ} (hn : 0 < n) :
    blockStarts nt n = .ok (List.range' 1 (nblocks nt n.toNat) n.toNat) := by
  unfold blockStarts nblocks
  rw [if_neg (by omega), if_neg (by omega)]

theorem nblocks_lt {nt N i : ℕ} (hN : 0 < N) (hi : i < nblocks nt N) : 1 + i * N < nt := by
  unfold nblocks at hi
  rw [Nat.lt_div_iff_mul_lt hN] at hi
  have : N * i = i * N := Nat.mul_comm _ _
  omega

theorem nblocks_cover {nt N : ℕ} (hN : 0 < N) : nt ≤ 1 + nblocks nt N * N := by
  unfold nblocks
  have := Nat.div_add_mod (nt - 1 + (N - 1)) N
  have h2 := Nat.mod_lt (nt - 1 + (N - 1)) hN
  have : N * ((nt - 1 + (N - 1)) / N) = (nt - 1 + (N - 1)) / N * N := Nat.mul_comm _ _
  omega

/-- every row `1 ≤ j < nt` belongs to exactly one block -/
theorem block_of_row {nt N j : ℕ} (hN : 0 < N) (h1 : 1 ≤ j) (h2 : j < nt) :
    ∃ i < nblocks nt N, 1 + i * N ≤ j ∧ j - (1 + i * N) < sliceLen nt (1 + i * N) N := by
  refine ⟨(j - 1) / N, ?_, ?_, ?_⟩
  · unfold nblocks
    rw [Nat.div_lt_iff_lt_mul hN]
    have := Nat.div_add_mod (nt - 1 + (N - 1)) N
    have h2 := Nat.mod_lt (nt - 1 + (N - 1)) hN
    have : N * ((nt - 1 + (N - 1)) / N) = (nt - 1 + (N - 1)) / N * N := Nat.mul_comm _ _
    omega
  · have := Nat.div_mul_le_self (j - 1) N
    omega
  · unfold sliceLen
    have := Nat.div_add_mod (j - 1) N
    have h2 := Nat.mod_lt (j - 1) hN
    have : N * ((j - 1) / N) = (j - 1) / N * N := Nat.mul_comm _ _
    omega

/-- what is known of block `k` in the final result -/
def BlockOK (c : Config) (f : BFunc β m) (nt N : ℕ) (t : ℕ → β → ℝ) (res : Partial β m) (w : Bool)
    (k : ℕ) : Prop :=
  ∃ (guess : β → Fin (sliceLen nt k N * m) → ℝ) (rows : Fin (sliceLen nt k N) → BVec β m ℝ) (wk : Bool),
    blockUpdate c f (fun j : Fin (sliceLen nt k N) => t (k + j.val)) (t (k - 1)) (res.get (k - 1)) guess
      = .ok (rows, wk) ∧ (w = false → wk = false) ∧ (∀ j, res (k + j.val) = some (rows j)) ∧
    (c.guessType = "zero" → guess = 0)

theorem initialGuess_zero_eq {nt n k : ℕ} {r : Partial β m} :
    initialGuess "zero" nt n r k = .ok (List.replicate (sliceLen nt k n) 0) := by
  simp [initialGuess]

theorem integrateLoop_spec (c : Config) (f : BFunc β m) (nt N : ℕ) (hN : 0 < N) (t : ℕ → β → ℝ)
    (cnt : ℕ) : ∀ (k0 : ℕ) (st : Partial β m × Bool) (res : Partial β m) (w : Bool), 1 ≤ k0 →
    integrateLoop c f nt N t (List.range' k0 cnt N) st = .ok (res, w) →
    (∀ j, j < k0 → res j = st.1 j) ∧ (∀ j, nt ≤ j → res j = st.1 j) ∧ (w = false → st.2 = false) ∧
    ∀ i < cnt, BlockOK c f nt N t res w (k0 + i * N) := by
  induction cnt with
  | zero =>
    intro k0 st res w h1 h
    simp only [List.range'_zero, integrateLoop, Except.ok.injEq] at h
    subst h
    simp
  | succ cnt ih =>
    intro k0 st res w h1 h
    rw [List.range'_succ, integrateLoop] at h
    split at h
    · exact absurd h (by simp)
    · next st' hst =>
      obtain ⟨i1, i2, i3, i4⟩ := ih (k0 + N) st' res w (by omega) h
      unfold integrateStep at hst
      split at hst
      · exact absurd hst (by simp)
      · next g hg =>
        split_ifs at hst with hlen
        split at hst
        · exact absurd hst (by simp)
        · next r hr =>
          simp only [Except.ok.injEq] at hst
          have hlenN : sliceLen nt k0 N ≤ N := by unfold sliceLen; omega
          have hst1 : ∀ j, st'.1 j =
              if h : k0 ≤ j ∧ j - k0 < sliceLen nt k0 N then some (r.1 ⟨j - k0, h.2⟩) else st.1 j := by
            intro j; rw [← hst]
          have hst2 : st'.2 = (st.2 || r.2) := by rw [← hst]
          have hlow : ∀ j, j < k0 → res j = st.1 j := by
            intro j hj
            rw [i1 j (by omega), hst1, dif_neg (by omega)]
          refine ⟨hlow, ?_, ?_, ?_⟩
          · intro j hj
            rw [i2 j hj, hst1, dif_neg]
            rintro ⟨a, b⟩
            unfold sliceLen at b
            omega
          · intro hw
            have := i3 hw
            rw [hst2] at this
            simp at this
            exact this.1
          · intro i hi
            cases i with
            | zero =>
              rw [Nat.zero_mul, Nat.add_zero]
              refine ⟨flatten fun j : Fin (sliceLen nt k0 N) => g.getD j.val 0, r.1, r.2, ?_, ?_, ?_, ?_⟩
              · have : res.get (k0 - 1) = st.1.get (k0 - 1) := by
                  unfold Partial.get
                  rw [hlow _ (by omega)]
                rw [this]
                exact hr
              · intro hw
                have := i3 hw
                rw [hst2] at this
                simp at this
                exact this.2
              · intro j
                rw [i1 _ (by have := j.2; omega), hst1, dif_pos ⟨by omega, by have := j.2; omega⟩]
                congr 2
                ext
                simp
              · intro hz
                rw [hz, initialGuess_zero_eq] at hg
                simp only [Except.ok.injEq] at hg
                subst hg
                funext b e
                simp [flatten, List.getD]
                rw [List.getElem?_replicate]
                split_ifs <;> simp
            | succ i =>
              have := i4 i (by omega)
              have he : k0 + N + i * N = k0 + (i + 1) * N := by ring
              rw [he] at this
              exact this

theorem integrate_spec (c : Config) (f : BFunc β m) (y0 : BVec β m ℝ) (nt : ℕ) (t : ℕ → β → ℝ)
    (n : ℤ) (hn : 0 < n) (res : Partial β m) (w : Bool)
    (h : integrate c f y0 nt t n = .ok (res, w)) :
    0 < nt ∧ res 0 = some y0 ∧ (∀ j, nt ≤ j → res j = none) ∧
    (∀ i < nblocks nt n.toNat, BlockOK c f nt n.toNat t res w (1 + i * n.toNat)) ∧
    ∀ j < nt, ∃ v, res j = some v := by
  unfold integrate at h
  split_ifs at h with hnt
  rw [blockStarts_pos nt hn] at h
  simp only at h
  obtain ⟨h1, h2, h3, h4⟩ := integrateLoop_spec c f nt n.toNat (by omega) t _ 1 _ res w le_rfl h
  refine ⟨by omega, ?_, ?_, h4, ?_⟩
  · rw [h1 0 (by omega)]; simp
  · intro j hj
    rw [h2 j hj]
    simp; omega
  · intro j hj
    rcases Nat.eq_zero_or_pos j with h0 | h0
    · subst h0
      exact ⟨y0, by rw [h1 0 (by omega)]; simp⟩
    · obtain ⟨i, hi, hi1, hi2⟩ := block_of_row (N := n.toNat) (by omega) h0 hj
      obtain ⟨_, rows, _, _, _, hrow, _⟩ := h4 i hi
      have := hrow ⟨_, hi2⟩
      simp only at this
      rw [show 1 + i * n.toNat + (j - (1 + i * n.toNat)) = j by omega] at this
      exact ⟨_, this⟩

/-! ## success of the loop -/

theorem integrateLoop_ok (c : Config) (f : BFunc β m) (nt N : ℕ) (t : ℕ → β → ℝ) (P : Bool → Prop) :
    ∀ (ks : List ℕ) (st : Partial β m × Bool), P st.2 →
    (∀ k ∈ ks, ∀ st : Partial β m × Bool, P st.2 →
      ∃ st', integrateStep c f nt N t st k = .ok st' ∧ P st'.2) →
    ∃ r, integrateLoop c f nt N t ks st = .ok r ∧ P r.2 := by
  intro ks
  induction ks with
  | nil => intro st h _; exact ⟨st, rfl, h⟩
  | cons k ks ih =>
    intro st h hk
    obtain ⟨st', h1, h2⟩ := hk k (by simp) st h
    rw [integrateLoop, h1]
    exact ih st' h2 fun k' hk' => hk k' (List.mem_cons_of_mem _ hk')

/-- the guess has the right number of rows -/
theorem guess_length {gt : String} {nt N : ℕ} (hN : 0 < N) (h : gt = "zero" ∨ (gt = "previous" ∧ N ≤ nt - 1))
    (r : Partial β m) {i : ℕ} (hi : 1 + i * N < nt) :
    ∃ g, initialGuess gt nt N r (1 + i * N) = .ok g ∧ g.length = sliceLen nt (1 + i * N) N := by
  rcases h with h | ⟨h, hle⟩
  · subst h
    rw [initialGuess_zero_eq]
    exact ⟨_, rfl, by simp⟩
  · subst h
    unfold initialGuess
    rw [if_neg (by decide), if_pos rfl]
    refine ⟨_, rfl, ?_⟩
    rw [List.length_drop]
    cases i with
    | zero =>
      rw [if_pos (by push_cast; omega)]
      simp only [List.length_replicate, sliceLen]
      omega
    | succ i =>
      rw [if_neg (by push_cast; nlinarith)]
      simp only [List.length_map, List.length_range', sliceLen]
      have : (i + 1) * N = i * N + N := by ring
      omega

theorem integrate_ok (c : Config) (f : BFunc β m) (y0 : BVec β m ℝ) (nt : ℕ) (hnt : 0 < nt) (t : ℕ → β → ℝ)
    (n : ℤ) (hn : 0 < n) (hg : c.guessType = "zero" ∨ (c.guessType = "previous" ∧ n ≤ (nt : ℤ) - 1))
    (P : Bool → Prop) (hP : P false) (hPor : ∀ a b, P a → P b → P (a || b))
    (hNewton : ∀ k, 1 ≤ k → k < nt → ∀ yS g, ∃ dy,
      (blockNewton c f (fun j : Fin (sliceLen nt k n.toNat) => t (k + j.val)) (t (k - 1)) yS g).result = .ok dy ∧
      P (blockNewton c f (fun j : Fin (sliceLen nt k n.toNat) => t (k + j.val)) (t (k - 1)) yS g).warned) :
    ∃ res w, integrate c f y0 nt t n = .ok (res, w) ∧ P w := by
  have h := integrateLoop_ok c f nt n.toNat t P (List.range' 1 (nblocks nt n.toNat) n.toNat)
    (fun j => if j = 0 then some y0 else none, false) hP ?_
  · obtain ⟨r, h1, h2⟩ := h
    refine ⟨r.1, r.2, ?_, h2⟩
    unfold integrate
    rw [if_neg (by omega), blockStarts_pos nt hn]
    exact h1
  · intro k hk st hst
    obtain ⟨i, hi, rfl⟩ := List.mem_range'.1 hk
    have hlt : 1 + i * n.toNat < nt := nblocks_lt (by omega) hi
    rw [Nat.mul_comm n.toNat i]
    obtain ⟨g, hg1, hg2⟩ := guess_length (gt := c.guessType) (nt := nt) (N := n.toNat) (by omega)
      (by rcases hg with h | ⟨h, h'⟩
          · exact Or.inl h
          · exact Or.inr ⟨h, by omega⟩) st.1 hlt
    unfold integrateStep
    rw [hg1]
    simp only
    rw [if_pos hg2]
    obtain ⟨dy, hd1, hd2⟩ := hNewton (1 + i * n.toNat) (by omega) hlt (st.1.get (1 + i * n.toNat - 1))
      (flatten fun j : Fin (sliceLen nt (1 + i * n.toNat) n.toNat) => g.getD j.val 0)
    unfold blockUpdate
    rw [hd1]
    exact ⟨_, rfl, hPor _ _ hst hd2⟩

end Pyoptmat.Ode
