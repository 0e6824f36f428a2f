import Verif.Model.Hardening

/-! # Model of `pyoptmat/damage.py`, one batch entry at a time -/

namespace Pyoptmat.Material

/-- The interface of a damage model; argument order `s d t T e` as in the code. `damage_rate` returns
`(rate, drate_dd)`. (damage.py:13-19, 31, 45, 60) -/
structure Damage where
  /-- first output of `damage_rate` -/
  rate : ℝ → ℝ → ℝ → ℝ → ℝ → ℝ
  /-- second output of `damage_rate`: derivative with respect to the damage -/
  drate_dd : ℝ → ℝ → ℝ → ℝ → ℝ → ℝ
  /-- `d_damage_rate_d_s` -/
  drate_ds : ℝ → ℝ → ℝ → ℝ → ℝ → ℝ
  /-- `d_damage_rate_d_e` -/
  drate_de : ℝ → ℝ → ℝ → ℝ → ℝ → ℝ

/-- `NoDamage` (damage.py:22-73). -/
noncomputable def noDamage : Damage where
  rate _ _ _ _ _ := 0
  drate_dd _ _ _ _ _ := 0
  drate_ds _ _ _ _ _ := 0
  drate_de _ _ _ _ _ := 0

/-- `HayhurstLeckie` (damage.py:76-147). -/
noncomputable def hayhurstLeckie (A xi phi : ℝ → ℝ) : Damage where
  rate s d _ T _ := (|s| / A T) ^ xi T * (1 - d) ^ (xi T - phi T)
  drate_dd s d _ T _ := -((|s| / A T) ^ xi T) * (1 - d) ^ (xi T - phi T - 1)
  drate_ds s d _ T _ := (|s| / A T) ^ (xi T - 1) * (1 - d) ^ (xi T - phi T) * sgn s
  drate_de _ _ _ _ _ := 0

/-- `ConstantDamage` (damage.py:150-206). -/
noncomputable def constantDamage (R : ℝ → ℝ) : Damage where
  rate _ _ _ T _ := 1 * R T
  drate_dd _ _ _ _ _ := 0
  drate_ds _ _ _ _ _ := 0
  drate_de _ _ _ _ _ := 0

/-- `LarsonMillerDamage` (damage.py:209-285). -/
noncomputable def larsonMiller (C A B : ℝ → ℝ) (eps : ℝ) : Damage where
  rate s d _ T _ := (10 : ℝ) ^ (C T - B T / T) * (|s| * (1 - d)) ^ (-A T / T)
  drate_dd s d _ T _ :=
    (10 : ℝ) ^ (C T - B T / T) * A T * |s| * (|s| * (1 - d)) ^ (-(A T + T) / T) / T
  drate_ds s d _ T _ :=
    -((10 : ℝ) ^ (C T - B T / T)) * A T * (|s| * (1 - d)) ^ (-A T / T) / ((|s| + eps) * T) * sgn s
  drate_de _ _ _ _ _ := 0

end Pyoptmat.Material
