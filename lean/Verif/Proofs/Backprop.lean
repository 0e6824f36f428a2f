import Verif.Model.Backprop
import Verif.Proofs.Block
import Verif.Proofs.BlockNewton
import Verif.Props.Newton

/-! Helper lemmas: the recorded integration. -/

namespace Pyoptmat.Ode

open Pyoptmat.Chunktime Pyoptmat.Newton Pyoptmat.Spec

variable {β : Type*} {m : ℕ} (s : Scheme) (meth : SolveMethod) (f : BFunc β m) (y0 : BVec β m ℝ) (nt n : ℕ) (t : ℕ → β → ℝ) (K : ℕ → ℕ)

/-- later blocks do not touch earlier rows -/
theorem recordedLoop_stable (i d j : ℕ) (hj : j < 1 + i * n) : recordedLoop s meth f y0 nt n t K (i + d) j = recordedLoop s meth f y0 nt n t K i j := by
  induction d with
  | zero => rfl
  | succ d ih =>
    rw [← Nat.add_assoc, recordedLoop]
    beta_reduce
    have : i * n ≤ (i + d) * n := Nat.mul_le_mul_right _ (by omega)
    rw [dif_neg (fun h => by have := h.1; omega), ih]

theorem recorded_zero : recordedIntegrate s meth f y0 nt n t K 0 = y0 := by
  unfold recordedIntegrate
  have := recordedLoop_stable s meth f y0 nt n t K 0 ((nt - 1 + (n - 1)) / n) 0 (by omega)
  rw [Nat.zero_add] at this
  rw [this]; rfl

/-- the rows of block `i` -/
theorem recorded_row {i : ℕ} (hi : i < nblocks nt n) (j : Fin (sliceLen nt (1 + i * n) n)) :
    recordedIntegrate s meth f y0 nt n t K (1 + i * n + j.val) =
      recordedBlock s meth f (fun l : Fin (sliceLen nt (1 + i * n) n) => t (1 + i * n + l.val)) (t (i * n)) (recordedIntegrate s meth f y0 nt n t K (i * n)) (K i) j := by
  obtain ⟨d, hd⟩ : ∃ d, (nt - 1 + (n - 1)) / n = i + 1 + d := ⟨nblocks nt n - (i + 1), by change nblocks nt n = _; omega⟩
  unfold recordedIntegrate
  rw [hd]
  have hj : j.val < n := by
    have := j.2
    unfold sliceLen at this
    omega
  rw [recordedLoop_stable s meth f y0 nt n t K (i + 1) d _ (by rw [Nat.succ_mul]; omega), Nat.add_assoc i 1 d, recordedLoop_stable s meth f y0 nt n t K i (1 + d) (i * n) (by omega)]
  rw [recordedLoop]
  beta_reduce
  rw [dif_pos ⟨by omega, by have := j.2; omega⟩]
  congr 1
  ext
  simp

theorem recordedBlock_eq {L : ℕ} (T : Fin L → β → ℝ) (tS : β → ℝ) (yS : BVec β m ℝ) (k : ℕ) :
    recordedBlock s meth f T tS yS k = fun j => unflatten (newtonIterate (blockRJ s f T tS yS) (fun J R => solve meth J R) (fun x dx => x - dx) 0 k) j + yS := rfl

/-- A completed run is the recorded computation with its own numbers of updates. -/
theorem recorded_run (c : Config) (hg : c.guessType = "zero") (hm : 0 ≤ c.miter) (N : ℤ) (hN : 0 < N) (res : Partial β m) (w : Bool)
    (h : integrate c f y0 nt t N = .ok (res, w))
    (hK : ∀ i < nblocks nt N.toNat, K i = (blockNewton c f (fun l : Fin (sliceLen nt (1 + i * N.toNat) N.toNat) => t (1 + i * N.toNat + l.val)) (t (i * N.toNat)) (res.get (i * N.toNat)) 0).iters) :
    ∀ k < nt, res.get k = recordedIntegrate c.scheme c.method f y0 nt N.toNat t K k := by
  have hn : 0 < N.toNat := by omega
  obtain ⟨hnt, h0, -, hb, -⟩ := integrate_spec c f y0 nt t N hN res w h
  intro k
  induction k using Nat.strong_induction_on with
  | _ k ih =>
    intro hk
    rcases Nat.eq_zero_or_pos k with rfl | hpos
    · rw [recorded_zero]; unfold Partial.get; rw [h0]; rfl
    · obtain ⟨i, hi, h1, h2⟩ := block_of_row hn hpos hk
      obtain ⟨guess, rows, wk, e1, -, e3, e4⟩ := hb i hi
      have hgz := e4 hg
      subst hgz
      have ek : k = 1 + i * N.toNat + (⟨k - (1 + i * N.toNat), h2⟩ : Fin (sliceLen nt (1 + i * N.toNat) N.toNat)).val := by simp only; omega
      have r1 := recorded_row c.scheme c.method f y0 nt N.toNat t K hi ⟨k - (1 + i * N.toNat), h2⟩
      rw [← ek, ← ih (i * N.toNat) (by omega) (by omega), hK i hi, recordedBlock_eq] at r1
      rw [r1]
      have r2 := e3 ⟨k - (1 + i * N.toNat), h2⟩
      rw [← ek] at r2
      unfold Partial.get
      rw [r2]
      simp only [Option.getD_some]
      have e5 : 1 + i * N.toNat - 1 = i * N.toNat := by omega
      rw [e5] at e1
      unfold blockUpdate at e1
      have c10 := Props.C10_returns_first_iterate (blockRJ c.scheme f (fun l : Fin (sliceLen nt (1 + i * N.toNat) N.toNat) => t (1 + i * N.toNat + l.val)) (t (i * N.toNat)) (res.get (i * N.toNat)))
        (fun J R => solve c.method J R) (fun x dx => x - dx) (fun R b => rowNorm (R b)) 0 c.rtol c.atol c.miter hm c.throwOnFail
      split at e1
      · exact absurd e1 (by simp)
      · next dy hdy =>
        simp only [Except.ok.injEq, Prod.mk.injEq] at e1
        rw [← e1.1]
        rw [c10.2.1 dy hdy]
        rfl

end Pyoptmat.Ode
