import Mathlib.Data.Real.Basic

/-! # Specification of the processing of test results (independent of the model) -/

namespace Pyoptmat.Spec

/-- `r` is the first of the rows `0 … n - 1` with property `p`. -/
def FirstRow (n : ℕ) (p : ℕ → Prop) (r : ℕ) : Prop := r < n ∧ p r ∧ ∀ s < r, ¬ p s

/-- `v` is the largest of the values `col s` over the rows `s < n` with property `p`, and there is such a row. -/
def MaxOver (n : ℕ) (p : ℕ → Prop) (col : ℕ → ℝ) (v : ℝ) : Prop := (∃ s < n, p s ∧ col s = v) ∧ ∀ s < n, p s → col s ≤ v

/-- What a cyclic test is turned into: every row gets the largest value over the rows of its cycle; rows whose label is not
between 0 and the last label get zero. -/
def CyclicResult (n : ℕ) (label : ℕ → ℤ) (col out : ℕ → ℝ) : Prop :=
  ∀ t < n, (0 ≤ label t → label t ≤ label (n - 1) → MaxOver n (fun s => label s = label t) col (out t)) ∧
    (label t < 0 ∨ label (n - 1) < label t → out t = 0)

/-- What a relaxation or creep test is turned into: the change since the first row with label 1, on the rows with label 1, and zero
elsewhere. -/
def RelaxationResult (n : ℕ) (label : ℕ → ℤ) (col out : ℕ → ℝ) : Prop :=
  ∃ r, FirstRow n (fun s => label s = 1) r ∧ ∀ t < n, (label t = 1 → out t = col t - col r) ∧ (label t ≠ 1 → out t = 0)

/-- What an abstract tensile test is turned into: the value at the first row with label 1 on the rows with label 1, the largest
value of all rows on the rows with label 2, and zero elsewhere. -/
def AbstractTensileResult (n : ℕ) (label : ℕ → ℤ) (col out : ℕ → ℝ) : Prop :=
  ∀ t < n, (label t = 1 → ∃ r, FirstRow n (fun s => label s = 1) r ∧ out t = col r) ∧
    (label t = 2 → MaxOver n (fun _ => True) col (out t)) ∧ (label t ≠ 1 → label t ≠ 2 → out t = 0)

/-- `v` is the height at `t` of the waveform with `n` straight pieces and corners `(x i, y i)`, `i ≤ n`; pieces of length zero do not count. -/
def OnWave (n : ℕ) (x y : ℕ → ℝ) (t v : ℝ) : Prop :=
  ∃ i < n, x i ≤ t ∧ t < x (i + 1) ∧ v = y i + (t - x i) / (x (i + 1) - x i) * (y (i + 1) - y i)

end Pyoptmat.Spec
