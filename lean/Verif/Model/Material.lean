import Verif.Model.Flow
import Verif.Model.Damage

/-! # Model of `pyoptmat/models.py`: the strain based material models, one batch entry at a time -/

namespace Pyoptmat.Material

/-- The four outputs of `forward(t, y, erate, T)` of a material model with `m` state variables. (models.py:137, 269) -/
structure ModelOut (m : ℕ) where
  /-- `y_dot` -/
  ydot : Fin m → ℝ
  /-- `d_y_dot_d_y` -/
  J : Matrix (Fin m) (Fin m) ℝ
  /-- `d_y_dot_d_erate` -/
  Je : Fin m → ℝ
  /-- `d_y_dot_d_T`, always zero (models.py:133-135, 265-267) -/
  JT : Fin m → ℝ := 0

/-- A strain based model: `forward(t, y, erate, T)`. (models.py:75, 169) -/
abbrev Model (m : ℕ) := ℝ → (Fin m → ℝ) → ℝ → ℝ → ModelOut m

/-- `InelasticModel.forward` (models.py:75-137). The state is `[stress, history]`; `torch.cat` with the stress in
front is `Fin.cons`. -/
noncomputable def inelastic {n : ℕ} (E : ℝ → ℝ) (f : FlowRule n) : Model (n + 1) := fun t y erate T =>
  let stress := y 0
  let h : Fin n → ℝ := fun j => y j.succ
  { ydot := Fin.cons (E T * (erate - f.flow stress h t T erate)) (f.hist stress h t T erate)
    J := Fin.cons
      (Fin.cons (-E T * f.dflow_ds stress h t T erate) (fun j => -E T * f.dflow_dh stress h t T erate j))
      (fun i => Fin.cons (f.dhist_ds stress h t T erate i) (f.dhist_dh stress h t T erate i))
    Je := Fin.cons (E T * (1 - f.dflow_de stress h t T erate)) (f.dhist_de stress h t T erate) }

/-- `torch.cat([stress, history, damage])`. (models.py:194-201) -/
def cat3 {n : ℕ} {α : Type*} (a : α) (b : Fin n → α) (c : α) : Fin (n + 2) → α :=
  Fin.cons a (Fin.snoc b c : Fin (n + 1) → α)

/-- `y[..., 1 : 1 + nhist]` of a state `[stress, history, damage]`. (models.py:186) -/
def midPart {n : ℕ} (y : Fin (n + 2) → ℝ) : Fin n → ℝ := fun j => y j.castSucc.succ

/-- `DamagedInelasticModel.forward` (models.py:169-269). The state is `[stress, history, damage]`. -/
noncomputable def damaged {n : ℕ} (E : ℝ → ℝ) (f : FlowRule n) (dm : Damage) : Model (n + 2) :=
  fun t y erate T =>
  let stress := y 0
  let h : Fin n → ℝ := midPart y
  let d := y (Fin.last (n + 1))
  let se := stress / (1 - d)
  { ydot := cat3 ((1 - d) * E T * (erate - f.flow se h t T erate)) (f.hist se h t T erate)
      (dm.rate se d t T erate)
    J := cat3
      (cat3 (-E T * f.dflow_ds se h t T erate)
        (fun j => -E T * f.dflow_dh se h t T erate j * (1 - d))
        (-E T * (erate - f.flow se h t T erate) - E T * f.dflow_ds se h t T erate * stress / (1 - d)))
      (fun i => cat3 (f.dhist_ds se h t T erate i / (1 - d))
        (f.dhist_dh se h t T erate i)
        (f.dhist_ds se h t T erate i * stress / (1 - d) ^ 2))
      (cat3 (dm.drate_ds se d t T erate / (1 - d)) 0 (dm.drate_dd se d t T erate))
    Je := cat3 (E T * (1 - d) * (1 - f.dflow_de se h t T erate)) (f.dhist_de se h t T erate)
      (dm.drate_de se d t T erate) }

end Pyoptmat.Material
