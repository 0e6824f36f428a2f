import Verif.Proofs.MirrorControl
import Verif.Proofs.TensorHardening
import Verif.Model.Integrator
import Verif.Spec.Material

/-!
# C124: tension and compression are mirror images, exactly
-/

namespace Pyoptmat.Props

open Pyoptmat.Chunktime Pyoptmat.Ode Pyoptmat.Spec Pyoptmat.Material Pyoptmat.Control Pyoptmat.Mirror

variable {β : Type*} {m : ℕ}

/-! ## Changes of state coordinates -/

/-- **C124.** An orthogonal change of the state coordinates of each test (another one for every test, if need be) changes the results, and nothing
else: for every scheme, solver, tolerance, block size and guess strategy, with the same warnings and the same errors. -/
theorem C124_coordinates (U : β → Matrix (Fin m) (Fin m) ℝ) (hU : Orthogonal U) (F F' : BFunc β m) (hF : SameInCoordinates U F F')
    (c : Config) (y0 : BVec β m ℝ) (nt : ℕ) (t : ℕ → β → ℝ) (q : ℤ) :
    integrate c F' (fun b => (U b).mulVec (y0 b)) nt t q =
      (integrate c F y0 nt t q).map fun r => (fun k => (r.1 k).map fun y b => (U b).mulVec (y b), r.2) :=
  integrate_t hU hF c y0 nt t q

/-- A rotation of a two component state, with a rate that depends on the length of the state only: the right hand side is the same in both
coordinates. -/
example : Orthogonal (fun _ : Unit => (!![3 / 5, -4 / 5; 4 / 5, 3 / 5] : Matrix (Fin 2) (Fin 2) ℝ)) ∧
    SameInCoordinates (fun _ : Unit => (!![3 / 5, -4 / 5; 4 / 5, 3 / 5] : Matrix (Fin 2) (Fin 2) ℝ))
      (Func.lift fun _ _ y => (-y, -1)) (Func.lift fun _ _ y => (-y, -1)) := by
  have hU : Orthogonal (fun _ : Unit => (!![3 / 5, -4 / 5; 4 / 5, 3 / 5] : Matrix (Fin 2) (Fin 2) ℝ)) := by
    intro b
    constructor <;> ext i j <;> fin_cases i <;> fin_cases j <;> norm_num [Matrix.mul_apply, Fin.sum_univ_two]
  refine ⟨hU, fun n t y => ?_⟩
  unfold Func.lift
  refine Prod.ext ?_ ?_
  · funext k b
    exact (Matrix.mulVec_neg _ _).symm
  · funext k b
    dsimp only
    rw [Matrix.mul_neg, Matrix.mul_one, Matrix.neg_mul, (hU b).1]

/-- **C124.** The adjoint pass: in the new coordinates the gradient of a loss with respect to the parameters is the same, and its gradient with
respect to the initial state is the old one in the new coordinates (`f` gives the Jacobians, `fp` the derivatives of the rates with respect to the
parameters, `g` the derivatives of the loss with respect to the states). -/
theorem C124_gradients [Fintype β] (U : β → Matrix (Fin m) (Fin m) ℝ) (hU : Orthogonal U) (f f' : Func β m) {p : ℕ}
    (fp fp' : β → ℝ → (Fin m → ℝ) → Matrix (Fin m) (Fin p) ℝ)
    (hf : ∀ b t y, (f' b t ((U b).mulVec y)).2 = U b * (f b t y).2 * (U b).transpose)
    (hp : ∀ b t y, fp' b t ((U b).mulVec y) = U b * fp b t y) (s : Scheme) (d : Direct) (nt : ℕ) (t : ℕ → β → ℝ) (y g : ℕ → BVec β m ℝ) (q : ℤ) :
    rewind s d f' fp' nt t (fun k b => (U b).mulVec (y k b)) (fun k b => (U b).mulVec (g k b)) q =
      (rewind s d f fp nt t y g q).map fun r => (r.1, fun b => (U b).mulVec (r.2 b)) :=
  rewind_t hU hf hp s d nt t y g q

/-- Decay `ẏ = -θ y` of a two component state, its derivative with respect to the rate constant `θ` (here at `θ = 1`), and an exchange of the components with a
change of sign. -/
example : (Orthogonal (fun _ : Unit => (!![0, -1; 1, 0] : Matrix (Fin 2) (Fin 2) ℝ))) ∧
    (∀ (b : Unit) (t : ℝ) (y : Fin 2 → ℝ), ((fun (_ : Unit) (_ : ℝ) (y : Fin 2 → ℝ) => (-y, (-1 : Matrix (Fin 2) (Fin 2) ℝ))) b t
      ((!![0, -1; 1, 0] : Matrix (Fin 2) (Fin 2) ℝ).mulVec y)).2 = !![0, -1; 1, 0] * (-1) * (!![0, -1; 1, 0] : Matrix (Fin 2) (Fin 2) ℝ).transpose) ∧
    ∀ (b : Unit) (t : ℝ) (y : Fin 2 → ℝ), (fun (_ : Unit) (_ : ℝ) (y : Fin 2 → ℝ) => (Matrix.of fun i (_ : Fin 1) => -y i : Matrix (Fin 2) (Fin 1) ℝ)) b t
      ((!![0, -1; 1, 0] : Matrix (Fin 2) (Fin 2) ℝ).mulVec y) = (!![0, -1; 1, 0] : Matrix (Fin 2) (Fin 2) ℝ) * Matrix.of fun i (_ : Fin 1) => -y i := by
  refine ⟨fun b => ⟨?_, ?_⟩, fun b t y => ?_, fun b t y => ?_⟩
  · ext i j; fin_cases i <;> fin_cases j <;> norm_num [Matrix.mul_apply, Fin.sum_univ_two]
  · ext i j; fin_cases i <;> fin_cases j <;> norm_num [Matrix.mul_apply, Fin.sum_univ_two]
  · ext i j; fin_cases i <;> fin_cases j <;> norm_num [Matrix.mul_apply, Fin.sum_univ_two]
  · ext i j; fin_cases i <;> norm_num [Matrix.mul_apply, Matrix.mulVec, dotProduct, Fin.sum_univ_two]

/-! ## The laws of the library -/

/-- **C124.** The isotropic hardening laws: their strength is the same in tension and compression. -/
theorem C124_isotropic (R d tau theta R0 r1 r2 : ℝ → ℝ) :
    HardeningMirrors 1 (fun _ => 1) (voce R d) ∧ HardeningMirrors 1 (fun _ => 1) (theta0Voce tau theta) ∧
      HardeningMirrors 1 (fun _ => 1) (theta0Recovery tau theta R0 r1 r2) :=
  ⟨voce_mirrors R d, theta0_mirrors tau theta, theta0Recovery_mirrors tau theta R0 r1 r2⟩

/-- **C124.** The kinematic hardening laws: their backstresses change sign. -/
theorem C124_kinematic {nk : ℕ} (C g b r : ℝ → ℝ) (Cs gs bs rs : Fin nk → ℝ → ℝ) :
    HardeningMirrors (-1) (fun _ => -1) noKinematic ∧ HardeningMirrors (-1) (fun _ => -1) (fa C g b r) ∧
      HardeningMirrors (-1) (fun _ => -1) (faNoRecovery C g) ∧ HardeningMirrors (-1) (fun _ => -1) (chaboche Cs gs) ∧
      HardeningMirrors (-1) (fun _ => -1) (chabocheRecovery Cs gs bs rs) ∧
      ∀ {k : ℕ} (nh : Fin k → ℕ) (H : (i : Fin k) → Hardening (nh i)), (∀ i, HardeningMirrors (-1) (fun _ => -1) (H i)) →
        HardeningMirrors (-1) (fun _ => -1) (superimposedKinematic nh H) := by
  refine ⟨noKinematic_mirrors, fa_mirrors C g b r, faNoRecovery_mirrors C g, chaboche_mirrors Cs gs, chabocheRecovery_mirrors Cs gs bs rs,
    fun {k} nh H h => superKin_mirrors nh (-1) _ fun i => ?_⟩
  have : slice (fun _ : Fin (∑ i, nh i) => (-1 : ℝ)) (offset nh i) (nh i) = fun _ => -1 := by
    funext j
    unfold slice
    rw [dif_pos]
    have := offset_add_le nh i
    have := j.isLt
    omega
  rw [this]
  exact h i

/-- **C124.** The flow rules: the opposite stress with mirrored internal variables gives the opposite inelastic rate and mirrored rates of the
internal variables, provided the hardening laws or the rules they are made of do so. -/
theorem C124_flow_rules (n eta s0 : ℝ → ℝ) :
    FlowMirrors ![] (perfect n eta) ∧
    (∀ {ni nk : ℕ} (pi : Fin ni → ℝ) (pk : Fin nk → ℝ) (iso : Hardening ni) (kin : Hardening nk), HardeningMirrors 1 pi iso →
      HardeningMirrors (-1) pk kin → FlowMirrors (Fin.append pi pk) (isoKin n eta s0 iso kin)) ∧
    (∀ {k : ℕ} (p : Fin k → ℝ) (f1 f2 : FlowRule k) (q : KMParams) (sf : ℝ), FlowMirrors p f1 → FlowMirrors p f2 →
      FlowMirrors p (kmSwitch f1 f2 q) ∧ FlowMirrors p (kmSoft f1 f2 q sf)) ∧
    (∀ {k : ℕ} (p : Fin k → ℝ) (f : FlowRule k) (lmbda epsRef : ℝ), FlowMirrors p f → FlowMirrors p (rateIndependent f lmbda epsRef)) ∧
    ∀ {k : ℕ} (nh : Fin k → ℕ) (p : Fin (∑ i, nh i) → ℝ) (f : (i : Fin k) → FlowRule (nh i)),
      (∀ i, FlowMirrors (slice p (offset nh i) (nh i)) (f i)) → FlowMirrors p (superimposed nh f) :=
  ⟨perfect_mirrors n eta _, fun _ _ _ _ hi hk => isoKin_mirrors hi hk,
    fun _ _ _ q sf h1 h2 => ⟨kmSwitch_mirrors q h1 h2, kmSoft_mirrors q sf h1 h2⟩, fun _ _ l e h => rateIndependent_mirrors l e h,
    fun nh p _ h => super_mirrors nh p h⟩

/-- **C124.** All damage laws grow at the same rate in tension and in compression. -/
theorem C124_damage (R A xi phi C B : ℝ → ℝ) (eps : ℝ) :
    DamageMirrors noDamage ∧ DamageMirrors (constantDamage R) ∧ DamageMirrors (hayhurstLeckie A xi phi) ∧ DamageMirrors (larsonMiller C A B eps) :=
  ⟨noDamage_mirrors, constantDamage_mirrors R, hayhurstLeckie_mirrors A xi phi, larsonMiller_mirrors C A B eps⟩

/-- **C124.** The material models built of such laws, with and without damage: the stress changes sign, the damage does not. -/
theorem C124_models {k : ℕ} (E : ℝ → ℝ) (p : Fin k → ℝ) (f : FlowRule k) (D : Damage) (hf : FlowMirrors p f) (hD : DamageMirrors D) :
    ModelMirrors (Fin.cons (-1) p) (inelastic E f) ∧ ModelMirrors (cat3 (-1) p 1) (damaged E f D) :=
  ⟨inelastic_mirrors E hf, damaged_mirrors E hf hD⟩

/-! ## Whole analyses -/

open Classical in
/-- The relabelling of a batch that mirrors the tests in `S`. -/
private noncomputable def flipLabel (S : Set β) (p : β → Fin (m + 1) → ℝ) (hp : ∀ b, MirrorSigns (p b)) (b : β) : Relabel (m + 1) where
  sign i := if b ∈ S then p b i else 1
  perm := Equiv.refl _
  unit i := by split_ifs <;> [exact (hp b).unit i; exact Or.inl rfl]

private theorem flip_state (S : Set β) (p : β → Fin (m + 1) → ℝ) (hp : ∀ b, MirrorSigns (p b)) (b : β) (y : Fin (m + 1) → ℝ) :
    (b ∈ S → (flipLabel S p hp b).state y = p b * y) ∧ (b ∉ S → (flipLabel S p hp b).state y = y) := by
  unfold flipLabel Relabel.state
  refine ⟨fun h => ?_, fun h => ?_⟩ <;> funext i <;> simp [h]

private theorem flip_same (S : Set β) (p : β → Fin (m + 1) → ℝ) (hp : ∀ b, MirrorSigns (p b)) (model : β → Model (m + 1))
    (hM : ∀ b, ModelMirrors (p b) (model b)) (b : β) : SameModel (flipLabel S p hp b) (model b) (model b) := by
  intro t y e T
  by_cases h : b ∈ S
  · have h0 : (flipLabel S p hp b).sign 0 = -1 := by simp [flipLabel, h, (hp b).stress]
    rw [((flip_state S p hp b _).1 h), ((flip_state S p hp b _).1 h), ((flip_state S p hp b _).1 h), h0, neg_one_mul]
    refine ⟨(hM b).ydot t y e T, ?_, ?_⟩
    · funext i j
      rw [(hM b).J]
      simp [Relabel.jac, flipLabel, h]
    · rw [(hM b).Je]
      funext i
      simp
  · have h0 : (flipLabel S p hp b).sign 0 = 1 := by simp [flipLabel, h]
    rw [((flip_state S p hp b _).2 h), ((flip_state S p hp b _).2 h), ((flip_state S p hp b _).2 h), h0, one_mul]
    refine ⟨rfl, ?_, ?_⟩
    · funext i j
      simp [Relabel.jac, flipLabel, h]
    · funext i
      simp

private theorem flip_data (S : Set β) (p : β → Fin (m + 1) → ℝ) (hp : ∀ b, MirrorSigns (p b)) (data : ℕ → β → ℝ) :
    (fun k b => (flipLabel S p hp b).sign 0 * data k b) = flipped S data := by
  funext k b
  unfold flipLabel flipped
  by_cases h : b ∈ S
  · simp [h, (hp b).stress]
  · simp [h]

private theorem flip_run (S : Set β) (p : β → Fin (m + 1) → ℝ) (hp : ∀ b, MirrorSigns (p b)) : relRun (flipLabel S p hp) = mirrored S p := by
  funext r
  unfold relRun mirrored
  refine Prod.ext ?_ rfl
  funext k
  dsimp only
  congr 1
  funext y b
  by_cases h : b ∈ S
  · rw [(flip_state S p hp b _).1 h, if_pos h]
  · rw [(flip_state S p hp b _).2 h, if_neg h]

/-- **C124.** `solve_strain` with the opposite strains in any set of tests: those tests give exactly the mirror image of their stresses and internal
variables, the other tests are unaffected, and so are warnings and errors; for every material built of the laws above, every solver setting and
every tolerance. -/
theorem C124_solve_strain (S : Set β) (p : β → Fin (m + 1) → ℝ) (hp : ∀ b, MirrorSigns (p b)) (model : β → Model (m + 1))
    (hM : ∀ b, ModelMirrors (p b) (model b)) (c : Config) (nt : ℕ) (times strains temps : ℕ → β → ℝ) (q : ℤ) :
    solveStrain c model nt times (flipped S strains) temps q = (solveStrain c model nt times strains temps q).map (mirrored S p) := by
  unfold solveStrain
  rw [← flip_run S p hp, ← flip_data S p hp strains]
  exact integrate_rel _ (strainFunc_rel (flipLabel S p hp) (flip_same S p hp model hM) nt times strains temps) c nt times q

/-- **C124.** The same for `solve_stress`: opposite stresses give opposite strains. -/
theorem C124_solve_stress (S : Set β) (p : β → Fin (m + 1) → ℝ) (hp : ∀ b, MirrorSigns (p b)) (model : β → Model (m + 1))
    (hM : ∀ b, ModelMirrors (p b) (model b)) (c : Config) (nt : ℕ) (times stresses temps : ℕ → β → ℝ) (q : ℤ) :
    solveStress c model nt times (flipped S stresses) temps q = (solveStress c model nt times stresses temps q).map (mirrored S p) := by
  unfold solveStress
  rw [← flip_run S p hp, ← flip_data S p hp stresses]
  exact integrate_rel _ (stressFunc_rel (flipLabel S p hp) (fun _ => rfl) (flip_same S p hp model hM) nt times stresses temps) c nt times q

/-- **C124.** The same for `solve_both`, whatever the control labels. -/
theorem C124_solve_both (S : Set β) (p : β → Fin (m + 1) → ℝ) (hp : ∀ b, MirrorSigns (p b)) (model : β → Model (m + 1))
    (hM : ∀ b, ModelMirrors (p b) (model b)) (c : Config) (nt : ℕ) (times temps idata : ℕ → β → ℝ) (control : β → ℝ) (q : ℤ) :
    solveBoth c model nt times temps (flipped S idata) control q = (solveBoth c model nt times temps idata control q).map (mirrored S p) := by
  unfold solveBoth
  rw [← flip_run S p hp, ← flip_data S p hp idata]
  exact integrate_rel _ (bothFunc_rel (flipLabel S p hp) (fun _ => rfl) (flip_same S p hp model hM) nt times idata temps control) c nt times q

theorem run_rel (r : β → Relabel (m + 1)) {F F' : BFunc β (m + 1)} (hF : SameInCoordinates (fun b => relMat (r b)) F F') (i : Integrator)
    (nt : ℕ) (times : ℕ → β → ℝ) : i.run F' nt times = (i.run F nt times).map (relRun r) := by
  have h := fun c => integrate_rel r hF c nt times i.opts.blockSize
  unfold Integrator.run odeint odeintAdjoint
  cases i.useAdjoint with
  | true =>
    simp only [if_true]
    cases makeSolver i.method ["func", "y0", "scheme", "adjoint_params"] i.kw i.opts with
    | error e => rfl
    | ok c => exact h c
  | false =>
    simp only [Bool.false_eq_true, if_false]
    cases makeSolver i.method ["func", "y0", "scheme"] i.kw i.opts with
    | error e => rfl
    | ok c => exact h c

/-- **C124.** The same for a `ModelIntegrator` with any keyword arguments, with and without the adjoint. -/
theorem C124_model_integrator (S : Set β) (p : β → Fin (m + 1) → ℝ) (hp : ∀ b, MirrorSigns (p b)) (model : β → Model (m + 1))
    (hM : ∀ b, ModelMirrors (p b) (model b)) (i : Integrator) (nt : ℕ) (times data temps : ℕ → β → ℝ) (control : β → ℝ) :
    i.strain model nt times (flipped S data) temps = (i.strain model nt times data temps).map (mirrored S p) ∧
    i.stress model nt times (flipped S data) temps = (i.stress model nt times data temps).map (mirrored S p) ∧
    i.both model nt times temps (flipped S data) control = (i.both model nt times temps data control).map (mirrored S p) := by
  rw [← flip_run S p hp, ← flip_data S p hp data]
  exact ⟨run_rel _ (strainFunc_rel (flipLabel S p hp) (flip_same S p hp model hM) nt times data temps) i nt times,
    run_rel _ (stressFunc_rel (flipLabel S p hp) (fun _ => rfl) (flip_same S p hp model hM) nt times data temps) i nt times,
    run_rel _ (bothFunc_rel (flipLabel S p hp) (fun _ => rfl) (flip_same S p hp model hM) nt times data temps control) i nt times⟩

/-- **C124.** For the viscoplastic material with Voce hardening and Chaboche backstresses (with or without static recovery), the mirror image of a state
has the opposite stress, the same isotropic strength and opposite backstresses. -/
theorem C124_voce_chaboche {nk : ℕ} (S : Set β) (P : β → VCParams nk) (c : Config) (nt : ℕ) (times temps idata : ℕ → β → ℝ) (control : β → ℝ) (q : ℤ)
    (res : Partial β (1 + nk + 1)) (w : Bool) (h : solveBoth c (fun b => (P b).model) nt times temps idata control q = .ok (res, w)) :
    ∃ res', solveBoth c (fun b => (P b).model) nt times temps (flipped S idata) control q = .ok (res', w) ∧
      ∀ k b, (b ∈ S → res'.get k b = mirror (res.get k b)) ∧ (b ∉ S → res'.get k b = res.get k b) := by
  classical
  have hp : ∀ b : β, MirrorSigns (Fin.cons (-1) (Fin.append (fun _ : Fin 1 => (1 : ℝ)) fun _ : Fin nk => -1) : Fin (1 + nk + 1) → ℝ) := fun _ => by
    refine ⟨rfl, fun i => ?_⟩
    refine Fin.cases (Or.inr rfl) (fun i => ?_) i
    refine Fin.addCases (fun j => Or.inl ?_) (fun j => Or.inr ?_) i <;> simp
  have hM : ∀ b, ModelMirrors (Fin.cons (-1) (Fin.append (fun _ : Fin 1 => (1 : ℝ)) fun _ : Fin nk => -1)) (P b).model := fun b =>
    inelastic_mirrors _ (isoKin_mirrors (voce_mirrors _ _) (chabocheRecovery_mirrors _ _ _ _))
  refine ⟨_, (C124_solve_both S _ hp _ hM c nt times temps idata control q).trans (by rw [h]; rfl), fun k b => ?_⟩
  have hg : ∀ y : Fin (1 + nk + 1) → ℝ, (Fin.cons (-1) (Fin.append (fun _ : Fin 1 => (1 : ℝ)) fun _ : Fin nk => -1) : Fin (1 + nk + 1) → ℝ) * y =
      mirror y := by
    intro y
    funext i
    refine Fin.cases ?_ (fun i => ?_) i
    · simp [mirror, Fin.ext_iff]
    · refine Fin.addCases (fun j => ?_) (fun j => ?_) i
      · obtain rfl : j = 0 := Subsingleton.elim _ _
        have : (Fin.castAdd nk (0 : Fin 1)).succ = (1 : Fin (1 + nk + 1)) := by
          rw [Fin.ext_iff, Fin.val_one', Nat.mod_eq_of_lt (by omega)]; rfl
        simp only [Pi.mul_apply, Fin.cons_succ, Fin.append_left, one_mul]
        rw [this]
        simp [mirror]
      · have : ((Fin.natAdd 1 j).succ : Fin (1 + nk + 1)) ≠ 1 := by
          rw [Ne, Fin.ext_iff, Fin.val_one', Nat.mod_eq_of_lt (by omega)]
          simp only [Fin.val_succ, Fin.val_natAdd]; omega
        simp [mirror, this]
  constructor
  · intro hb
    change Partial.get (mirrored S _ (res, w)).1 k b = _
    unfold mirrored Partial.get
    dsimp only
    cases res k with
    | none =>
      funext i
      simp [mirror]
    | some y =>
      simp only [Option.map_some, Option.getD_some, if_pos hb]
      exact hg _
  · intro hb
    change Partial.get (mirrored S _ (res, w)).1 k b = _
    unfold mirrored Partial.get
    dsimp only
    cases res k with
    | none => simp
    | some y => simp only [Option.map_some, Option.getD_some, if_neg hb]

/-- A damaged material with Larson-Miller damage, a rate switch and superimposed backstresses meets the hypotheses. -/
example (E n eta s0 R d C g A B D : ℝ → ℝ) (q : KMParams) (eps : ℝ) :
    ∃ p : Fin (1 + 2 + 2) → ℝ, MirrorSigns p ∧
      ModelMirrors p (damaged E (kmSwitch (isoKin n eta s0 (voce R d) (chaboche (fun _ : Fin 2 => C) fun _ => g))
        (isoKin n eta s0 (voce R d) (chaboche (fun _ : Fin 2 => g) fun _ => C)) q) (larsonMiller D A B eps)) := by
  refine ⟨_, ⟨rfl, fun i => ?_⟩, (C124_models E _ _ _ (kmSwitch_mirrors q (isoKin_mirrors (voce_mirrors R d) (chaboche_mirrors _ _))
    (isoKin_mirrors (voce_mirrors R d) (chaboche_mirrors _ _))) (larsonMiller_mirrors D A B eps)).2⟩
  fin_cases i
  · exact Or.inr rfl
  · exact Or.inl rfl
  · exact Or.inr rfl
  · exact Or.inr rfl
  · exact Or.inl rfl

end Pyoptmat.Props
