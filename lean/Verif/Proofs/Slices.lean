import Verif.Model.Hardening
import Mathlib.Algebra.BigOperators.Fin
import Mathlib.Tactic

/-! Helper lemmas: offsets and slices of superimposed models. -/

namespace Pyoptmat.Material

variable {k : ℕ} {nh : Fin k → ℕ}

/-- row `j` of part `i` in the stacked history -/
def pos (nh : Fin k → ℕ) (i : Fin k) (j : Fin (nh i)) : Fin (∑ i, nh i) := finSigmaFinEquiv ⟨i, j⟩

theorem pos_val (i : Fin k) (j : Fin (nh i)) : (pos nh i j).val = offset nh i + j.val := by
  unfold pos offset
  rw [finSigmaFinEquiv_apply]
  rfl

theorem pos_surj (r : Fin (∑ i, nh i)) : ∃ i j, r = pos nh i j := by
  obtain ⟨⟨i, j⟩, rfl⟩ := finSigmaFinEquiv.surjective r
  exact ⟨i, j, rfl⟩

theorem pos_inj {i i' : Fin k} {j : Fin (nh i)} {j' : Fin (nh i')} (h : pos nh i j = pos nh i' j') :
    (⟨i, j⟩ : (i : Fin k) × Fin (nh i)) = ⟨i', j'⟩ := finSigmaFinEquiv.injective h

theorem slice_pos (h : Fin (∑ i, nh i) → ℝ) (i : Fin k) (j : Fin (nh i)) :
    slice h (offset nh i) (nh i) j = h (pos nh i j) := by
  unfold slice
  have := (pos nh i j).isLt
  rw [pos_val] at this
  rw [dif_pos this]
  congr 1
  ext
  rw [pos_val]

theorem slice_eq (h : Fin (∑ i, nh i) → ℝ) (i : Fin k) :
    slice h (offset nh i) (nh i) = fun j => h (pos nh i j) := funext (slice_pos h i)

theorem in_slice {i i' : Fin k} {j : Fin (nh i)}
    (h : offset nh i' ≤ (pos nh i j).val ∧ (pos nh i j).val - offset nh i' < nh i') : i' = i := by
  have : pos nh i j = pos nh i' ⟨(pos nh i j).val - offset nh i', h.2⟩ := by
    ext; rw [pos_val (i := i')]; dsimp only; omega
  exact (congrArg Sigma.fst (pos_inj this)).symm

theorem writeSlice_self (v : Fin (∑ i, nh i) → ℝ) (i : Fin k) (x : Fin (nh i) → ℝ) (j : Fin (nh i)) :
    writeSlice v (offset nh i) x (pos nh i j) = x j := by
  unfold writeSlice
  rw [dif_pos (by rw [pos_val]; have := j.isLt; omega)]
  congr 1
  ext
  simp [pos_val]

theorem writeSlice_other (v : Fin (∑ i, nh i) → ℝ) {i i' : Fin k} (hi : i' ≠ i) (x : Fin (nh i') → ℝ)
    (j : Fin (nh i)) : writeSlice v (offset nh i') x (pos nh i j) = v (pos nh i j) := by
  unfold writeSlice
  rw [dif_neg fun h => hi (in_slice h)]

theorem fold_writeSlice_aux (x : (i : Fin k) → Fin (nh i) → ℝ) (L : List (Fin k)) (v : Fin (∑ i, nh i) → ℝ)
    (i : Fin k) (j : Fin (nh i)) :
    L.foldl (fun v i => writeSlice v (offset nh i) (x i)) v (pos nh i j) =
      if i ∈ L then x i j else v (pos nh i j) := by
  induction L generalizing v with
  | nil => simp
  | cons a L ih =>
    rw [List.foldl_cons, ih]
    by_cases hL : i ∈ L
    · simp [hL]
    · rw [if_neg hL]
      by_cases ha : a = i
      · subst ha; simp [writeSlice_self]
      · rw [writeSlice_other v ha]
        simp [hL, Ne.symm ha]

theorem fold_writeSlice (x : (i : Fin k) → Fin (nh i) → ℝ) (i : Fin k) (j : Fin (nh i)) :
    (List.finRange k).foldl (fun v i => writeSlice v (offset nh i) (x i)) 0 (pos nh i j) = x i j := by
  rw [fold_writeSlice_aux, if_pos (List.mem_finRange i)]

theorem writeBlock_eq (v : Matrix (Fin (∑ i, nh i)) (Fin (∑ i, nh i)) ℝ) (a : Fin k)
    (x : Matrix (Fin (nh a)) (Fin (nh a)) ℝ) (i i' : Fin k) (j : Fin (nh i)) (j' : Fin (nh i')) :
    writeBlock v (offset nh a) x (pos nh i j) (pos nh i' j') =
      if hh : a = i ∧ a = i' then x (hh.1 ▸ j) (hh.2 ▸ j') else v (pos nh i j) (pos nh i' j') := by
  unfold writeBlock
  by_cases hh : a = i ∧ a = i'
  · obtain ⟨h1, h2⟩ := hh
    subst h1; subst h2
    rw [dif_pos ⟨by rw [pos_val]; have := j.isLt; omega, by rw [pos_val]; have := j'.isLt; omega⟩]
    rw [dif_pos ⟨rfl, rfl⟩]
    congr 1 <;> · ext; simp [pos_val]
  · rw [dif_neg hh, dif_neg]
    intro h
    exact hh ⟨in_slice h.1, in_slice h.2⟩

theorem fold_writeBlock_aux (x : (i : Fin k) → Matrix (Fin (nh i)) (Fin (nh i)) ℝ) (L : List (Fin k))
    (v : Matrix (Fin (∑ i, nh i)) (Fin (∑ i, nh i)) ℝ) (i i' : Fin k) (j : Fin (nh i)) (j' : Fin (nh i')) :
    L.foldl (fun v i => writeBlock v (offset nh i) (x i)) v (pos nh i j) (pos nh i' j') =
      if hh : i = i' ∧ i ∈ L then x i j (hh.1 ▸ j') else v (pos nh i j) (pos nh i' j') := by
  induction L generalizing v with
  | nil => simp
  | cons a L ih =>
    rw [List.foldl_cons, ih]
    by_cases hii : i = i'
    · subst hii
      by_cases hL : i ∈ L
      · simp [hL]
      · rw [dif_neg (by tauto), writeBlock_eq]
        by_cases ha : a = i
        · subst ha; simp
        · rw [dif_neg (by tauto), dif_neg (by simp [hL, Ne.symm ha])]
    · rw [dif_neg (by tauto), writeBlock_eq, dif_neg (by rintro ⟨rfl, h⟩; exact hii h), dif_neg (by tauto)]

theorem fold_writeBlock_self (x : (i : Fin k) → Matrix (Fin (nh i)) (Fin (nh i)) ℝ) (i : Fin k)
    (j j' : Fin (nh i)) :
    (List.finRange k).foldl (fun v i => writeBlock v (offset nh i) (x i)) 0 (pos nh i j) (pos nh i j') =
      x i j j' := by
  rw [fold_writeBlock_aux, dif_pos ⟨rfl, List.mem_finRange i⟩]

theorem fold_writeBlock_other (x : (i : Fin k) → Matrix (Fin (nh i)) (Fin (nh i)) ℝ) {i i' : Fin k} (h : i ≠ i')
    (j : Fin (nh i)) (j' : Fin (nh i')) :
    (List.finRange k).foldl (fun v i => writeBlock v (offset nh i) (x i)) 0 (pos nh i j) (pos nh i' j') = 0 := by
  rw [fold_writeBlock_aux, dif_neg (by tauto)]
  rfl

theorem fold_add (f : Fin k → ℝ) : (List.finRange k).foldl (fun v i => v + f i) 0 = ∑ i, f i := by
  have : ∀ (L : List (Fin k)) (a : ℝ), L.foldl (fun v i => v + f i) a = a + (L.map f).sum := by
    intro L
    induction L with
    | nil => simp
    | cons b L ih => intro a; rw [List.foldl_cons, ih]; simp; ring
  rw [this, zero_add, Fin.sum_univ_def]

theorem sum_pos {M : Type*} [AddCommMonoid M] (f : Fin (∑ i, nh i) → M) : ∑ r, f r = ∑ i, ∑ j, f (pos nh i j) := by
  rw [← finSigmaFinEquiv.sum_comp, Fintype.sum_sigma]
  rfl

end Pyoptmat.Material
