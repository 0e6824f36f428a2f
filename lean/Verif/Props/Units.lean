import Verif.Proofs.UnitsMaterial
import Verif.Spec.Material
import Verif.Spec.Interp

/-!
# C118: results do not depend on the units
-/

namespace Pyoptmat.Props

open Pyoptmat.Chunktime Pyoptmat.Ode Pyoptmat.Material Pyoptmat.Control Pyoptmat.Spec Pyoptmat.Units

variable {β : Type*} {m : ℕ}

/-- Whatever the right hand side (also one that couples times and tests), the scheme, the linear solver, the initial guess, the block size and the
relative tolerance: integrating the problem written in other units, with the absolute tolerance in these units, gives the old results in the new
units, the same warnings and the same exceptions. Linear systems may even be singular. -/
theorem C118_integrator {c : ℝ} (hc : 0 < c) {τ o : β → ℝ} (hτ : ∀ b, 0 < τ b) {F F' : BFunc β m} (nt : ℕ) (t : ℕ → β → ℝ)
    (hF : Rescaled c τ o {r | ∃ j < nt, r = t j} F F') (cfg : Config) (y0 : BVec β m ℝ) (q : ℤ) :
    integrate { cfg with atol := c * cfg.atol } F' (c • y0) nt (fun k b => τ b * t k b + o b) q =
      (integrate cfg F y0 nt t q).map fun r => (fun j => (r.1 j).map (c • ·), r.2) :=
  integrate_units hc hτ hF cfg y0 nt t (fun j hj => ⟨j, hj, rfl⟩) q

/-- With fewer than two times nothing is integrated. -/
theorem integrate_short (cfg : Config) (F : BFunc β m) (y0 : BVec β m ℝ) {nt : ℕ} (hn : nt ≤ 1) (t : ℕ → β → ℝ) (q : ℤ) :
    integrate cfg F y0 nt t q = if nt = 0 then .error "IndexError" else if q = 0 then .error "range() arg 3 must not be zero" else
      .ok (fun j => if j = 0 then some y0 else none, false) := by
  unfold integrate
  by_cases h0 : nt = 0
  · simp [h0]
  · obtain rfl : nt = 1 := by omega
    simp only [h0, if_false]
    unfold blockStarts
    by_cases hq : q = 0
    · simp [hq]
    · by_cases hq' : q < 0
      · simp only [hq, hq', if_true, if_false]; rfl
      · simp only [hq, hq', if_false]
        rw [show (1 - 1 + (q.toNat - 1)) / q.toNat = 0 from Nat.div_eq_of_lt (by omega)]
        rfl

/-- `solve_strain` in other units of stress, time (unit and origin may differ between the tests) and temperature: if the model is the same material
in the new units at the temperatures of the test, the stresses and internal variables are those of the old units, multiplied by `c`. -/
theorem C118_strain {c : ℝ} (hc : 0 < c) {τ o : β → ℝ} (hτ : ∀ b, 0 < τ b) (cfg : Config) (model model' : β → Model m) (nt : ℕ)
    (times strains temps temps' : ℕ → β → ℝ) (hg : ∀ b, StrictGrid (nt - 1) fun k => times k b)
    (hM : ∀ b, ∀ k < nt, ModelRescaled c (τ b) (o b) (temps k b) (temps' k b) (model b) (model' b)) (q : ℤ) :
    solveStrain { cfg with atol := c * cfg.atol } model' nt (fun k b => τ b * times k b + o b) strains temps' q =
      (solveStrain cfg model nt times strains temps q).map fun r => (fun j => (r.1 j).map (c • ·), r.2) := by
  unfold solveStrain
  by_cases hn : nt ≤ 1
  · rw [integrate_short _ _ _ hn, integrate_short _ _ _ hn]
    split_ifs
    · rfl
    · rfl
    · simp only [Except.map]
      congr 2
      funext j
      split_ifs <;> simp
  · push Not at hn
    have h := C118_integrator hc (o := o) hτ (F := Func.lift (strainFunc model nt times strains temps))
      (F' := Func.lift (strainFunc model' nt (fun k b => τ b * times k b + o b) strains temps')) nt times ?_ cfg 0 q
    · rw [smul_zero] at h
      exact h
    · intro n t y ht
      have hg' : ∀ b, StrictGrid (nt - 1) fun k => τ b * times k b + o b := fun b k hk => by
        have := mul_lt_mul_of_pos_left (hg b k hk) (hτ b)
        dsimp only
        linarith
      have key : ∀ (k : Fin n) (b : β), ∃ j < nt, t k b = times j b ∧
          rateFn nt (fun k => τ b * times k b + o b) (fun k => strains k b) (τ b * times j b + o b) =
            rateFn nt (fun k => times k b) (fun k => strains k b) (times j b) / τ b ∧
          dataFn nt (fun k => τ b * times k b + o b) (fun k => temps' k b) (τ b * times j b + o b) = temps' j b ∧
          dataFn nt (fun k => times k b) (fun k => temps k b) (times j b) = temps j b := by
        intro k b
        obtain ⟨j, hj, e⟩ := ht k
        refine ⟨j, hj, by rw [e], ?_, dataFn_grid (hg' b) _ hj hn, dataFn_grid (hg b) _ hj hn⟩
        unfold rateFn
        rw [interpFn_grid (by omega) (hg b) _ (by omega : j ≤ nt - 1)]
        refine (interpFn_grid (by omega) (hg' b) _ (by omega : j ≤ nt - 1)).trans ?_
        unfold rateData
        by_cases h0 : j = 0
        · simp [h0]
        · rw [if_neg h0, if_neg h0, show τ b * times j b + o b - (τ b * times (j - 1) b + o b) = (times j b - times (j - 1) b) * τ b by ring,
            div_div]
      constructor <;> intro k b <;> obtain ⟨j, hj, e1, e2, e3, e4⟩ := key k b
      · change (model' b (τ b * t k b + o b) (c • y k b) (rateFn nt _ _ (τ b * t k b + o b)) (dataFn nt _ _ (τ b * t k b + o b))).ydot =
          (c / τ b) • (model b (t k b) (y k b) (rateFn nt _ _ (t k b)) (dataFn nt _ _ (t k b))).ydot
        rw [e1, e2, e3, e4]
        exact (hM b j hj _ _ _).1
      · change (model' b (τ b * t k b + o b) (c • y k b) (rateFn nt _ _ (τ b * t k b + o b)) (dataFn nt _ _ (τ b * t k b + o b))).J =
          (1 / τ b) • (model b (t k b) (y k b) (rateFn nt _ _ (t k b)) (dataFn nt _ _ (t k b))).J
        rw [e1, e2, e3, e4]
        exact (hM b j hj _ _ _).2.1

/-- The origin of time does not matter for a material that does not age. -/
theorem C118_origin (cfg : Config) (model : β → Model m) (hM : ∀ b t t' y e T, model b t y e T = model b t' y e T) (nt : ℕ)
    (times strains temps : ℕ → β → ℝ) (hg : ∀ b, StrictGrid (nt - 1) fun k => times k b) (o : β → ℝ) (q : ℤ) :
    solveStrain cfg model nt (fun k b => times k b + o b) strains temps q = solveStrain cfg model nt times strains temps q := by
  have h := C118_strain (c := 1) one_pos (τ := fun _ => 1) (o := o) (fun _ => one_pos) cfg model model nt times strains temps temps hg
    (fun b k _ t y e => by
      simp only [one_mul, one_smul, div_one, hM b (t + o b) t, and_self]) q
  simp only [one_mul, one_smul, Option.map_id'] at h
  rw [h]
  cases solveStrain cfg model nt times strains temps q <;> rfl

/-- Hardening laws in other units. Moduli, strengths and thresholds are stresses; `d`, `g` and exponents are pure numbers; the coefficient of static
recovery with exponent `r` is multiplied by `c ^ (1 - r) / τ`. Sums of backstresses inherit the property. -/
theorem C118_hardening {c τ o T T' : ℝ} (hc : 0 < c) (hτ : 0 < τ) :
    (∀ R d R' d' : ℝ → ℝ, R' T' = c * R T → d' T' = d T → HardeningRescaled c τ o T T' (voce R d) (voce R' d')) ∧
    (∀ a b a' b' : ℝ → ℝ, a' T' = c * a T → b' T' = c * b T → HardeningRescaled c τ o T T' (theta0Voce a b) (theta0Voce a' b')) ∧
    (∀ a b R r1 r2 a' b' R' r1' r2' : ℝ → ℝ, a' T' = c * a T → b' T' = c * b T → R' T' = c * R T → r2' T' = r2 T →
      r1' T' = c ^ (1 - r2 T) / τ * r1 T → HardeningRescaled c τ o T T' (theta0Recovery a b R r1 r2) (theta0Recovery a' b' R' r1' r2')) ∧
    HardeningRescaled c τ o T T' noKinematic noKinematic ∧
    (∀ C g b r C' g' b' r' : ℝ → ℝ, C' T' = c * C T → g' T' = g T → r' T' = r T → b' T' = c ^ (1 - r T) / τ * b T →
      HardeningRescaled c τ o T T' (fa C g b r) (fa C' g' b' r')) ∧
    (∀ C g C' g' : ℝ → ℝ, C' T' = c * C T → g' T' = g T → HardeningRescaled c τ o T T' (faNoRecovery C g) (faNoRecovery C' g')) ∧
    (∀ (nk : ℕ) (C g C' g' : Fin nk → ℝ → ℝ), (∀ i, C' i T' = c * C i T) → (∀ i, g' i T' = g i T) →
      HardeningRescaled c τ o T T' (chaboche C g) (chaboche C' g')) ∧
    (∀ (nk : ℕ) (C g b r C' g' b' r' : Fin nk → ℝ → ℝ), (∀ i, C' i T' = c * C i T) → (∀ i, g' i T' = g i T) → (∀ i, r' i T' = r i T) →
      (∀ i, b' i T' = c ^ (1 - r i T) / τ * b i T) → HardeningRescaled c τ o T T' (chabocheRecovery C g b r) (chabocheRecovery C' g' b' r')) ∧
    ∀ (k : ℕ) (nh : Fin k → ℕ) (H H' : (i : Fin k) → Hardening (nh i)), (∀ i, HardeningRescaled c τ o T T' (H i) (H' i)) →
      HardeningRescaled c τ o T T' (superimposedKinematic nh H) (superimposedKinematic nh H') :=
  ⟨fun _ _ _ _ h1 h2 => voce_units hc hτ h1 h2, fun _ _ _ _ h1 h2 => theta0_units hc hτ h1 h2,
    fun _ _ _ _ _ _ _ _ _ _ h1 h2 h3 h4 h5 => theta0Recovery_units hc hτ h1 h2 h3 h4 h5, noKinematic_units,
    fun _ _ _ _ _ _ _ _ h1 h2 h3 h4 => fa_units hc hτ h1 h2 h3 h4, fun _ _ _ _ h1 h2 => faNoRecovery_units hτ h1 h2,
    fun _ _ _ _ _ h1 h2 => chaboche_units hτ h1 h2, fun _ _ _ _ _ _ _ _ _ h1 h2 h3 h4 => chabocheRecovery_units hc hτ h1 h2 h3 h4,
    fun _ nh _ _ h => superKin_units nh h⟩

/-- Flow rules in other units. The viscosity is multiplied by `c * τ ^ (1 / n)`; the reference rates of the Kocks–Mecking rules and of the rate
independent wrapper are rates, the normalized activation energy `k T / (μ b³)` is a pure number. Combinations inherit the property. -/
theorem C118_flow {c τ o T T' : ℝ} (hc : 0 < c) (hτ : 0 < τ) :
    (∀ n eta n' eta' : ℝ → ℝ, n T ≠ 0 → 0 < eta T → n' T' = n T → eta' T' = c * τ ^ (1 / n T) * eta T →
      FlowRescaled c τ o T T' (perfect n eta) (perfect n' eta')) ∧
    (∀ (ni nk : ℕ) (n eta s0 n' eta' s0' : ℝ → ℝ) (iso iso' : Hardening ni) (kin kin' : Hardening nk), n T ≠ 0 → 0 < eta T → n' T' = n T →
      eta' T' = c * τ ^ (1 / n T) * eta T → s0' T' = c * s0 T → HardeningRescaled c τ o T T' iso iso' → HardeningRescaled c τ o T T' kin kin' →
      FlowRescaled c τ o T T' (isoKin n eta s0 iso kin) (isoKin n' eta' s0' iso' kin')) ∧
    (∀ (N : ℕ) (f1 f2 f1' f2' : FlowRule N) (p p' : KMParams) (sf : ℝ), FlowRescaled c τ o T T' f1 f1' → FlowRescaled c τ o T T' f2 f2' →
      p'.g0 = p.g0 → p'.k * T' / (p'.mu T' * p'.b ^ (3 : ℝ)) = p.k * T / (p.mu T * p.b ^ (3 : ℝ)) → p'.eps0 = p.eps0 / τ → p'.eps = p.eps / τ →
      FlowRescaled c τ o T T' (kmSwitch f1 f2 p) (kmSwitch f1' f2' p') ∧ FlowRescaled c τ o T T' (kmSoft f1 f2 p sf) (kmSoft f1' f2' p' sf)) ∧
    (∀ (N : ℕ) (f f' : FlowRule N) (lmbda epsRef : ℝ), FlowRescaled c τ o T T' f f' →
      FlowRescaled c τ o T T' (rateIndependent f lmbda epsRef) (rateIndependent f' lmbda (epsRef / τ))) ∧
    ∀ (k : ℕ) (nh : Fin k → ℕ) (f f' : (i : Fin k) → FlowRule (nh i)), (∀ i, FlowRescaled c τ o T T' (f i) (f' i)) →
      FlowRescaled c τ o T T' (superimposed nh f) (superimposed nh f') :=
  ⟨fun _ _ _ _ h1 h2 h3 h4 => perfect_units hc hτ h1 h2 h3 h4,
    fun _ _ _ _ _ _ _ _ _ _ _ _ h1 h2 h3 h4 h5 h6 h7 => isoKin_units hc hτ ⟨h1, h2, h4, h3, h5, h6, h7⟩,
    fun _ _ _ _ _ _ _ sf h1 h2 h3 h4 h5 h6 => ⟨kmSwitch_units hτ ⟨h3, h4, h5, h6⟩ h1 h2, kmSoft_units hτ ⟨h3, h4, h5, h6⟩ sf h1 h2⟩,
    fun _ _ _ lmbda epsRef h => rateIndependent_units hτ lmbda epsRef h, fun _ nh _ _ h => super_units nh h⟩

/-- Material models in other units. With damage only the unit of time can be changed: the damage in the state has no unit. -/
theorem C118_model {c τ o T T' : ℝ} (hc : 0 < c) (hτ : 0 < τ) {n : ℕ} (E E' : ℝ → ℝ) (f f' : FlowRule n) :
    (E' T' = c * E T → FlowRescaled c τ o T T' f f' → ModelRescaled c τ o T T' (inelastic E f) (inelastic E' f')) ∧
    (∀ D D' : Damage, E' T' = E T → FlowRescaled 1 τ o T T' f f' → DamageRescaled τ o T T' D D' →
      ModelRescaled 1 τ o T T' (damaged E f D) (damaged E' f' D')) ∧
    DamageRescaled τ o T T' noDamage noDamage ∧
    ∀ R R' : ℝ → ℝ, R' T' = R T / τ → DamageRescaled τ o T T' (constantDamage R) (constantDamage R') :=
  ⟨fun h1 h2 => inelastic_units hc hτ h1 h2, fun _ _ h1 h2 h3 => damaged_units hτ h1 h2 h3, noDamage_units, fun _ _ h => constantDamage_units h⟩

/-- The standard viscoplastic material (power law flow, Voce hardening, Chaboche backstresses with static recovery): `solve_strain` with the
parameters converted to the new units of stress, time and temperature gives the converted results. -/
theorem C118_viscoplastic {nk : ℕ} {c : ℝ} (hc : 0 < c) {τ o : β → ℝ} (hτ : ∀ b, 0 < τ b) (ψ : ℝ → ℝ) (cfg : Config) (P : β → VCParams nk) (nt : ℕ)
    (times strains temps : ℕ → β → ℝ) (hg : ∀ b, StrictGrid (nt - 1) fun k => times k b)
    (hP : ∀ b, ∀ k < nt, (P b).n (ψ (temps k b)) ≠ 0 ∧ 0 < (P b).eta (ψ (temps k b))) (q : ℤ) :
    solveStrain { cfg with atol := c * cfg.atol } (fun b => ((P b).inUnits c (τ b) ψ).model) nt (fun k b => τ b * times k b + o b) strains temps q =
      (solveStrain cfg (fun b => (P b).model) nt times strains (fun k b => ψ (temps k b)) q).map
        fun r => (fun j => (r.1 j).map (c • ·), r.2) :=
  C118_strain hc hτ cfg _ _ nt times strains _ temps hg (fun b k hk => inelastic_units hc (hτ b) rfl
    (isoKin_units hc (hτ b) ⟨(hP b k hk).1, (hP b k hk).2, rfl, rfl, rfl, voce_units hc (hτ b) rfl rfl,
      chabocheRecovery_units hc (hτ b) (fun _ => rfl) (fun _ => rfl) (fun _ => rfl) fun _ => rfl⟩)) q

/-- From MPa, seconds and kelvin to pascal, hours and degrees Celsius, any start of the clock. -/
example {nk : ℕ} (cfg : Config) (P : VCParams nk) (hP : ∀ T, 0 < P.n T ∧ 0 < P.eta T) (nt : ℕ)
    (times strains temps : ℕ → β → ℝ) (hg : ∀ b, StrictGrid (nt - 1) fun k => times k b) (start : β → ℝ) (q : ℤ) :
    solveStrain { cfg with atol := 1e6 * cfg.atol } (fun _ => (P.inUnits 1e6 (1 / 3600) fun T => T + 273.15).model) nt
        (fun k b => 1 / 3600 * times k b + start b) strains temps q =
      (solveStrain cfg (fun _ => P.model) nt times strains (fun k b => temps k b + 273.15) q).map
        fun r => (fun j => (r.1 j).map ((1e6 : ℝ) • ·), r.2) :=
  C118_viscoplastic (by norm_num) (fun _ => by norm_num) _ cfg (fun _ => P) nt times strains temps hg
    (fun b k _ => ⟨(hP _).1.ne', (hP _).2⟩) q

/-- A right hand side and its version in other units: linear decay. -/
example : Rescaled (β := Fin 3) (m := 2) 5 (fun _ => 60) (fun _ => 7) Set.univ (Func.lift fun _ _ y => (-y, -1))
    (Func.lift fun _ _ y => (-(1 / 60 : ℝ) • y, -(1 / 60 : ℝ) • 1)) := by
  intro n t y _
  refine ⟨fun k b => ?_, fun k b => ?_⟩
  · funext i
    simp only [Func.lift, Pi.smul_apply, Pi.neg_apply, smul_eq_mul]
    ring
  · ext i j
    simp only [Func.lift, Matrix.smul_apply, Matrix.neg_apply, smul_eq_mul]
    ring

end Pyoptmat.Props
