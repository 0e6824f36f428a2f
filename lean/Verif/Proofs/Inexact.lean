import Verif.Model.Inexact
import Verif.Proofs.Integrate
import Verif.Proofs.Block

/-! Helper lemmas: the time loop in inexact arithmetic. -/

namespace Pyoptmat.Ode

open Pyoptmat.Chunktime Pyoptmat.Newton

variable {β : Type*} {m : ℕ}

theorem integrateLoopWith_exact (c : Config) (f : BFunc β m) (nt n : ℕ) (t : ℕ → β → ℝ) (ks : List ℕ) (st : Partial β m × Bool) :
    integrateLoopWith (exactArith c f) c nt n t ks st = integrateLoop c f nt n t ks st := by
  induction ks generalizing st with
  | nil => rfl
  | cons k ks ih =>
    have e : integrateStepWith (exactArith c f) c nt n t st k = integrateStep c f nt n t st k := by
      unfold integrateStepWith integrateStep
      cases initialGuess c.guessType nt n st.1 k <;> rfl
    rw [integrateLoopWith, integrateLoop, e]
    cases integrateStep c f nt n t st k with
    | error e => rfl
    | ok st' => exact ih st'

/-- what is known of block `k` in the final result -/
def BlockWith (a : Arith β m) (c : Config) (nt N : ℕ) (t : ℕ → β → ℝ) (res : Partial β m) (w : Bool) (k : ℕ) : Prop :=
  ∃ (guess : β → Fin (sliceLen nt k N * m) → ℝ) (rows : Fin (sliceLen nt k N) → BVec β m ℝ) (wk : Bool),
    blockUpdateWith a c (fun j : Fin (sliceLen nt k N) => t (k + j.val)) (t (k - 1)) (res.get (k - 1)) guess
      = .ok (rows, wk) ∧ (w = false → wk = false) ∧ (∀ j, res (k + j.val) = some (rows j)) ∧
    (c.guessType = "zero" → guess = 0)

theorem integrateLoopWith_spec (a : Arith β m) (c : Config) (nt N : ℕ) (hN : 0 < N) (t : ℕ → β → ℝ)
    (cnt : ℕ) : ∀ (k0 : ℕ) (st : Partial β m × Bool) (res : Partial β m) (w : Bool), 1 ≤ k0 →
    integrateLoopWith a c nt N t (List.range' k0 cnt N) st = .ok (res, w) →
    (∀ j, j < k0 → res j = st.1 j) ∧ (∀ j, nt ≤ j → res j = st.1 j) ∧ (w = false → st.2 = false) ∧
    ∀ i < cnt, BlockWith a c nt N t res w (k0 + i * N) := by
  induction cnt with
  | zero =>
    intro k0 st res w h1 h
    simp only [List.range'_zero, integrateLoopWith, Except.ok.injEq] at h
    subst h
    simp
  | succ cnt ih =>
    intro k0 st res w h1 h
    rw [List.range'_succ, integrateLoopWith] at h
    split at h
    · exact absurd h (by simp)
    · next st' hst =>
      obtain ⟨i1, i2, i3, i4⟩ := ih (k0 + N) st' res w (by omega) h
      unfold integrateStepWith at hst
      split at hst
      · exact absurd hst (by simp)
      · next g hg =>
        split_ifs at hst with hlen
        split at hst
        · exact absurd hst (by simp)
        · next r hr =>
          simp only [Except.ok.injEq] at hst
          have hlenN : sliceLen nt k0 N ≤ N := by unfold sliceLen; omega
          have hst1 : ∀ j, st'.1 j =
              if h : k0 ≤ j ∧ j - k0 < sliceLen nt k0 N then some (r.1 ⟨j - k0, h.2⟩) else st.1 j := by
            intro j; rw [← hst]
          have hst2 : st'.2 = (st.2 || r.2) := by rw [← hst]
          have hlow : ∀ j, j < k0 → res j = st.1 j := by
            intro j hj
            rw [i1 j (by omega), hst1, dif_neg (by omega)]
          refine ⟨hlow, ?_, ?_, ?_⟩
          · intro j hj
            rw [i2 j hj, hst1, dif_neg]
            rintro ⟨a, b⟩
            unfold sliceLen at b
            omega
          · intro hw
            have := i3 hw
            rw [hst2] at this
            simp at this
            exact this.1
          · intro i hi
            cases i with
            | zero =>
              rw [Nat.zero_mul, Nat.add_zero]
              refine ⟨flatten fun j : Fin (sliceLen nt k0 N) => g.getD j.val 0, r.1, r.2, ?_, ?_, ?_, ?_⟩
              · have : res.get (k0 - 1) = st.1.get (k0 - 1) := by
                  unfold Partial.get
                  rw [hlow _ (by omega)]
                rw [this]
                exact hr
              · intro hw
                have := i3 hw
                rw [hst2] at this
                simp at this
                exact this.2
              · intro j
                rw [i1 _ (by have := j.2; omega), hst1, dif_pos ⟨by omega, by have := j.2; omega⟩]
                congr 2
                ext
                simp
              · intro hz
                rw [hz, initialGuess_zero_eq] at hg
                simp only [Except.ok.injEq] at hg
                subst hg
                funext b e
                simp [flatten, List.getD]
                rw [List.getElem?_replicate]
                split_ifs <;> simp
            | succ i =>
              have := i4 i (by omega)
              have he : k0 + N + i * N = k0 + (i + 1) * N := by ring
              rw [he] at this
              exact this

theorem integrateWith_spec (a : Arith β m) (c : Config) (y0 : BVec β m ℝ) (nt : ℕ) (t : ℕ → β → ℝ)
    (n : ℤ) (hn : 0 < n) (res : Partial β m) (w : Bool) (h : integrateWith a c y0 nt t n = .ok (res, w)) :
    0 < nt ∧ res 0 = some y0 ∧ ∀ i < nblocks nt n.toNat, BlockWith a c nt n.toNat t res w (1 + i * n.toNat) := by
  unfold integrateWith at h
  split_ifs at h with hnt
  rw [blockStarts_pos nt hn] at h
  simp only at h
  obtain ⟨h1, -, -, h4⟩ := integrateLoopWith_spec a c nt n.toNat (by omega) t _ 1 _ res w le_rfl h
  refine ⟨by omega, ?_, h4⟩
  rw [h1 0 (by omega)]; simp

/-- the Newton loop stops without a warning only when the norms pass the test -/
theorem newton_stops {X Res Jac γ : Type*} (fn : X → Res × Jac) (solve : Jac → Res → X) (sub : X → X → X) (nrm : Res → γ → Option ℝ) (x0 x : X) (rtol atol : ℝ) (miter : ℤ)
    (hm : 0 ≤ miter) (thr : Bool) (hr : (newtonChunk fn solve sub nrm x0 rtol atol miter thr).result = .ok x)
    (hw : (newtonChunk fn solve sub nrm x0 rtol atol miter thr).warned = false) : ¬ notConverged (nrm (fn x).1) (nrm (fn x0).1) rtol atol := by
  obtain ⟨-, -, -, h4⟩ := loop_spec fn solve sub nrm rtol atol (nrm (fn x0).1) miter.toNat x0
  obtain ⟨h1, -⟩ := loop_spec fn solve sub nrm rtol atol (nrm (fn x0).1) miter.toNat x0
  unfold newtonChunk at hr hw
  simp only at hr hw
  split_ifs at hr hw with ha hb
  simp only [Except.ok.injEq] at hr
  rw [← hr]
  exact h4 (by omega)

theorem integrateStepWith_zero (a : Arith β m) (c : Config) (hz : c.guessType = "zero") (nt n : ℕ) (t : ℕ → β → ℝ) (st : Partial β m × Bool) (k : ℕ)
    (r : (Fin (sliceLen nt k n) → BVec β m ℝ) × Bool) (h : blockUpdateWith a c (fun j : Fin (sliceLen nt k n) => t (k + j.val)) (t (k - 1)) (st.1.get (k - 1)) 0 = .ok r) :
    integrateStepWith a c nt n t st k =
      .ok (fun j => if h : k ≤ j ∧ j - k < sliceLen nt k n then some (r.1 ⟨j - k, h.2⟩) else st.1 j, st.2 || r.2) := by
  have hg : (flatten fun j : Fin (sliceLen nt k n) => (List.replicate (sliceLen nt k n) (0 : BVec β m ℝ)).getD j.val 0) = 0 := by
    funext b e
    simp [flatten, List.getD]
    rw [List.getElem?_replicate]
    split_ifs <;> simp
  unfold integrateStepWith
  rw [hz, initialGuess_zero_eq]
  dsimp only
  rw [if_pos (List.length_replicate ..), hg, h]

theorem newtonChunk_of_loop {X Res Jac γ : Type*} {fn : X → Res × Jac} {solve : Jac → Res → X} {sub : X → X → X} {nrm : Res → γ → Option ℝ} {x0 x : X} {rtol atol : ℝ} {miter : ℤ} {thr : Bool} {i : ℕ}
    (h : loop fn solve sub nrm rtol atol (nrm (fn x0).1) miter.toNat x0 = (x, i)) (hi : (i : ℤ) ≠ miter) :
    newtonChunk fn solve sub nrm x0 rtol atol miter thr = { result := .ok x, warned := false, iters := i, callerX0 := x } := by
  unfold newtonChunk
  rw [h]
  dsimp only
  rw [if_neg hi]

theorem blockUpdateWith_of {a : Arith β m} {c : Config} {n : ℕ} {t : Fin n → β → ℝ} {tStart : β → ℝ} {yStart : BVec β m ℝ} {guess dy x0 : β → Fin (n * m) → ℝ} {w : Bool} {i : ℕ}
    (h : blockNewtonWith a c t tStart yStart guess = { result := .ok dy, warned := w, iters := i, callerX0 := x0 }) :
    blockUpdateWith a c t tStart yStart guess = .ok (a.add n dy yStart, w) := by
  unfold blockUpdateWith
  rw [h]

end Pyoptmat.Ode
