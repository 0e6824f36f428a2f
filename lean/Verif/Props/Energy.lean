import Verif.Spec.Energy
import Verif.Props.Mixed
import Verif.Props.Flow
import Verif.Props.Hardening

/-!
# Property C96: simulated materials obey the second law
-/

namespace Pyoptmat.Props

open Pyoptmat Pyoptmat.Spec Pyoptmat.Material Pyoptmat.Control Pyoptmat.Interp

/-! ## Kinematic hardening models -/

private theorem sigma_apply {k : ℕ} (nh : Fin k → ℕ) (dψ : (i : Fin k) → (Fin (nh i) → ℝ) → Fin (nh i) → ℝ) (h : Fin (∑ i, nh i) → ℝ)
    (i : Fin k) (j : Fin (nh i)) :
    dψ (finSigmaFinEquiv.symm (finSigmaFinEquiv ⟨i, j⟩)).1
      (fun j' => h (finSigmaFinEquiv ⟨(finSigmaFinEquiv.symm (finSigmaFinEquiv ⟨i, j⟩)).1, j'⟩))
      (finSigmaFinEquiv.symm (finSigmaFinEquiv ⟨i, j⟩)).2 = dψ i (fun j' => h (finSigmaFinEquiv ⟨i, j'⟩)) j := by
  suffices ∀ x : (i : Fin k) × Fin (nh i), x = ⟨i, j⟩ →
      dψ x.1 (fun j' => h (finSigmaFinEquiv ⟨x.1, j'⟩)) x.2 = dψ i (fun j' => h (finSigmaFinEquiv ⟨i, j'⟩)) j from
    this _ (Equiv.symm_apply_apply _ _)
  rintro _ rfl
  rfl

section kin
variable {nk : ℕ}

private theorem spring_convex {c : Fin nk → ℝ} (hc : ∀ i, 0 < c i) (h h' : Fin nk → ℝ) :
    springEnergy c h' - springEnergy c h ≤ (fun i => h' i / c i) ⬝ᵥ (h' - h) := by
  unfold springEnergy dotProduct
  rw [← Finset.sum_sub_distrib]
  refine Finset.sum_le_sum fun i _ => ?_
  have := hc i
  rw [Pi.sub_apply, ← sub_nonneg]
  have e : h' i / c i * (h' i - h i) - (h' i ^ 2 / (2 * c i) - h i ^ 2 / (2 * c i)) = (h' i - h i) ^ 2 / (2 * c i) := by
    field_simp; ring
  rw [e]; positivity

/-- **C96.** `ChabocheHardeningModelRecovery` stores at most `∑ X_i² / (2 C_i)`. -/
theorem C96_chaboche_recovery (C g b r : Fin nk → ℝ → ℝ) (T : ℝ) (hC : ∀ i, 0 < C i T) (hg : ∀ i, 0 ≤ g i T) (hb : ∀ i, 0 ≤ b i T) :
    KinematicEnergy (chabocheRecovery C g b r) (springEnergy fun i => C i T) (fun h i => h i / C i T) T := by
  refine ⟨spring_convex hC, fun s h t ep e => ?_⟩
  simp only [chabocheRecovery, dotProduct]
  rw [Finset.sum_mul]
  refine Finset.sum_le_sum fun i _ => ?_
  have h1 := hC i
  have h2 : 0 ≤ h i / C i T * (g i T * h i * |ep| + b i T * |h i| ^ (r i T - 1) * h i) := by
    have e1 : h i / C i T * (g i T * h i * |ep| + b i T * |h i| ^ (r i T - 1) * h i) =
        (g i T * |ep| + b i T * |h i| ^ (r i T - 1)) * h i ^ 2 / C i T := by field_simp
    rw [e1]
    have h3 := hg i
    have h4 := hb i
    have h5 := Real.rpow_nonneg (abs_nonneg (h i)) (r i T - 1)
    positivity
  have e2 : h i / C i T * (C i T * ep) = h i * ep := by field_simp
  nlinarith

/-- **C96.** `ChabocheHardeningModel`. -/
theorem C96_chaboche (C g : Fin nk → ℝ → ℝ) (T : ℝ) (hC : ∀ i, 0 < C i T) (hg : ∀ i, 0 ≤ g i T) :
    KinematicEnergy (chaboche C g) (springEnergy fun i => C i T) (fun h i => h i / C i T) T := by
  obtain ⟨h1, h2⟩ := C96_chaboche_recovery C g (fun _ _ => 0) (fun _ _ => 1) T hC hg fun _ => le_rfl
  refine ⟨h1, fun s h t ep e => ?_⟩
  have := h2 s h t ep e
  simp only [chabocheRecovery, zero_mul, sub_zero] at this
  exact this

/-- **C96.** `FAKinematicHardeningModel`. -/
theorem C96_fa (C g b r : ℝ → ℝ) (T : ℝ) (hC : 0 < C T) (hg : 0 ≤ g T) (hb : 0 ≤ b T) :
    KinematicEnergy (fa C g b r) (springEnergy fun _ => C T) (fun h i => h i / C T) T := by
  obtain ⟨h1, h2⟩ := C96_chaboche_recovery (nk := 1) (fun _ => C) (fun _ => g) (fun _ => b) (fun _ => r) T (fun _ => hC) (fun _ => hg) fun _ => hb
  refine ⟨h1, fun s h t ep e => ?_⟩
  have := h2 s h t ep e
  simp only [chabocheRecovery, dotProduct, Fin.sum_univ_one] at this
  simp only [fa, dotProduct, Fin.sum_univ_one]
  linarith

/-- **C96.** `FAKinematicHardeningModelNoRecovery`. -/
theorem C96_fa_no_recovery (C g : ℝ → ℝ) (T : ℝ) (hC : 0 < C T) (hg : 0 ≤ g T) :
    KinematicEnergy (faNoRecovery C g) (springEnergy fun _ => C T) (fun h i => h i / C T) T := by
  obtain ⟨h1, h2⟩ := C96_fa C g (fun _ => 0) (fun _ => 1) T hC hg le_rfl
  refine ⟨h1, fun s h t ep e => ?_⟩
  have := h2 s h t ep e
  simp only [fa, zero_mul, sub_zero] at this
  exact this

/-- **C96.** `NoKinematicHardeningModel` stores nothing. -/
theorem C96_no_kinematic (T : ℝ) : KinematicEnergy noKinematic (fun _ => 0) (fun _ _ => 0) T :=
  ⟨fun h h' => by simp, fun s h t ep e => by simp [noKinematic]⟩

/-- **C96.** `SuperimposedKinematicHardening` stores the sum of what its parts store. -/
theorem C96_superimposed_kinematic {k : ℕ} (nh : Fin k → ℕ) (models : (i : Fin k) → Hardening (nh i)) (T : ℝ)
    (ψ : (i : Fin k) → (Fin (nh i) → ℝ) → ℝ) (dψ : (i : Fin k) → (Fin (nh i) → ℝ) → Fin (nh i) → ℝ)
    (hm : ∀ i, KinematicEnergy (models i) (ψ i) (dψ i) T) :
    KinematicEnergy (superimposedKinematic nh models) (fun h => ∑ i, ψ i fun j => h (finSigmaFinEquiv ⟨i, j⟩))
      (fun h r => dψ (finSigmaFinEquiv.symm r).1 (fun j => h (finSigmaFinEquiv ⟨_, j⟩)) (finSigmaFinEquiv.symm r).2) T := by
  constructor
  · intro h h'
    unfold dotProduct
    rw [← Finset.sum_sub_distrib, ← finSigmaFinEquiv.sum_comp, Fintype.sum_sigma]
    refine Finset.sum_le_sum fun i _ => ((hm i).convex _ _).trans (le_of_eq ?_)
    unfold dotProduct
    refine Finset.sum_congr rfl fun j _ => ?_
    beta_reduce
    rw [sigma_apply nh dψ h' i j]; rfl
  · intro s h t ep e
    obtain ⟨h1, h2⟩ := C42_superimposed_kinematic nh models s h t ep T e
    rw [h1, Finset.sum_mul]
    unfold dotProduct
    rw [← finSigmaFinEquiv.sum_comp, Fintype.sum_sigma]
    refine Finset.sum_le_sum fun i _ => le_trans (le_of_eq ?_) ((hm i).power s _ t ep e)
    unfold dotProduct
    refine Finset.sum_congr rfl fun j _ => ?_
    beta_reduce
    rw [sigma_apply nh dψ h i j, h2]

end kin

/-! ## Flow rules -/

/-- **C96.** `PerfectViscoplasticity` stores nothing. -/
theorem C96_perfect (n eta : ℝ → ℝ) (T : ℝ) (heta : 0 < eta T) :
    StoredEnergy (perfect n eta) (fun _ => 0) (fun _ _ => 0) T fun _ _ _ _ => 0 := by
  refine ⟨fun h h' => by simp, fun s h t e => ?_⟩
  simp only [perfect, dotProduct_zero, zero_add]
  have : s * ((|s| / eta T) ^ n T * sgn s) = (|s| / eta T) ^ n T * |s| := by
    rw [← sgn_mul_self s]; ring
  rw [this]
  exact mul_nonneg (Real.rpow_nonneg (div_nonneg (abs_nonneg _) heta.le) _) (abs_nonneg _)

private theorem isoKin_power {ni nk : ℕ} (n eta s0 : ℝ → ℝ) (iso : Hardening ni) (kin : Hardening nk) (T : ℝ) (hn : 0 < n T)
    (heta : 0 < eta T) (s : ℝ) (h : Fin (ni + nk) → ℝ) :
    (s0 T + iso.value (isoPart h)) * |isoKinFlow n eta s0 iso kin s h T| ≤
      (s - kin.value (kinPart h)) * isoKinFlow n eta s0 iso kin s h T := by
  rw [isoKinFlow_eq]
  set u := s - kin.value (kinPart h)
  set w := s0 T + iso.value (isoPart h)
  by_cases hu : |u| ≤ w
  · rw [overflow_of_le hn heta hu]; simp
  · push Not at hu
    simp only [overflow]
    have hm := Real.rpow_nonneg (macaulay_nonneg ((|u| - w) / eta T)) (n T)
    rw [abs_mul, abs_of_nonneg hm]
    have e1 : u * (macaulay ((|u| - w) / eta T) ^ n T * sgn u) = |u| * macaulay ((|u| - w) / eta T) ^ n T := by
      rw [← sgn_mul_self u]; ring
    rw [e1]
    rcases sgn_cases u with ⟨h1, h2⟩ | ⟨h1, h2⟩ | ⟨h1, h2⟩
    · rw [h2]; simp only [abs_neg, abs_one, mul_one]; exact mul_le_mul_of_nonneg_right hu.le hm
    · rw [h2]; simp [h1]
    · rw [h2]; simp only [abs_one, mul_one]; exact mul_le_mul_of_nonneg_right hu.le hm

/-- **C96.** `IsoKinViscoplasticity`, with any isotropic hardening model, stores what its kinematic hardening stores and dissipates at least
`(s0 + isotropic strength) |inelastic rate|`. -/
theorem C96_isokin {ni nk : ℕ} (n eta s0 : ℝ → ℝ) (iso : Hardening ni) (kin : Hardening nk) (T : ℝ) (hn : 0 < n T) (heta : 0 < eta T)
    (ψ : (Fin nk → ℝ) → ℝ) (dψ : (Fin nk → ℝ) → Fin nk → ℝ) (hk : KinematicEnergy kin ψ dψ T) :
    StoredEnergy (isoKin n eta s0 iso kin) (fun h => ψ fun j => h (Fin.natAdd ni j))
      (fun h => Fin.append (fun _ => 0) (dψ fun j => h (Fin.natAdd ni j))) T
      fun s h t e => (s0 T + iso.value fun j => h (Fin.castAdd nk j)) * |(isoKin n eta s0 iso kin).flow s h t T e| := by
  have split : ∀ (v : Fin nk → ℝ) (x : Fin (ni + nk) → ℝ), Fin.append (fun _ : Fin ni => (0 : ℝ)) v ⬝ᵥ x = v ⬝ᵥ fun j => x (Fin.natAdd ni j) := by
    intro v x
    unfold dotProduct
    rw [Fin.sum_univ_add]
    simp
  constructor
  · intro h h'
    rw [split]
    exact hk.convex _ _
  · intro s h t e
    rw [split]
    have h1 := hk.power s (kinPart h) t (isoKinFlow n eta s0 iso kin s h T) e
    have h2 := isoKin_power n eta s0 iso kin T hn heta s h
    have e1 : (fun j => (isoKin n eta s0 iso kin).hist s h t T e (Fin.natAdd ni j)) =
        kin.rate s (kinPart h) t (isoKinFlow n eta s0 iso kin s h T) T e := by
      funext j; simp only [isoKin, Fin.append_right]
    rw [e1]
    change dψ (kinPart h) ⬝ᵥ _ + (s0 T + iso.value (isoPart h)) * |isoKinFlow n eta s0 iso kin s h T| ≤ s * isoKinFlow n eta s0 iso kin s h T
    linarith

/-- **C96.** `SuperimposedFlowRule`: energies and dissipations add. -/
theorem C96_superimposed {k : ℕ} (nh : Fin k → ℕ) (models : (i : Fin k) → FlowRule (nh i)) (T : ℝ)
    (ψ : (i : Fin k) → (Fin (nh i) → ℝ) → ℝ) (dψ : (i : Fin k) → (Fin (nh i) → ℝ) → Fin (nh i) → ℝ)
    (D : (i : Fin k) → ℝ → (Fin (nh i) → ℝ) → ℝ → ℝ → ℝ) (hm : ∀ i, StoredEnergy (models i) (ψ i) (dψ i) T (D i)) :
    StoredEnergy (superimposed nh models) (fun h => ∑ i, ψ i fun j => h (finSigmaFinEquiv ⟨i, j⟩))
      (fun h r => dψ (finSigmaFinEquiv.symm r).1 (fun j => h (finSigmaFinEquiv ⟨_, j⟩)) (finSigmaFinEquiv.symm r).2) T
      fun s h t e => ∑ i, D i s (fun j => h (finSigmaFinEquiv ⟨i, j⟩)) t e := by
  constructor
  · intro h h'
    unfold dotProduct
    rw [← Finset.sum_sub_distrib, ← finSigmaFinEquiv.sum_comp, Fintype.sum_sigma]
    refine Finset.sum_le_sum fun i _ => ((hm i).convex _ _).trans (le_of_eq ?_)
    unfold dotProduct
    refine Finset.sum_congr rfl fun j _ => ?_
    beta_reduce
    rw [sigma_apply nh dψ h' i j]; rfl
  · intro s h t e
    obtain ⟨h1, h2⟩ := C33_sum nh models s h t T e
    rw [h1, Finset.mul_sum]
    unfold dotProduct
    rw [← finSigmaFinEquiv.sum_comp, Fintype.sum_sigma, ← Finset.sum_add_distrib]
    refine Finset.sum_le_sum fun i _ => le_trans (le_of_eq ?_) ((hm i).power s _ t e)
    unfold dotProduct
    congr 1
    refine Finset.sum_congr rfl fun j _ => ?_
    beta_reduce
    rw [sigma_apply nh dψ h i j, h2]

/-- **C96.** `RateIndependentFlowRuleWrapper` stores what the wrapped rule stores. -/
theorem C96_rate_independent {m : ℕ} (base : FlowRule m) (lmbda epsRef : ℝ) (hl : 0 ≤ lmbda) (hl1 : lmbda ≤ 1) (he : 0 < epsRef) (T : ℝ)
    (ψ : (Fin m → ℝ) → ℝ) (dψ : (Fin m → ℝ) → Fin m → ℝ) (D : ℝ → (Fin m → ℝ) → ℝ → ℝ → ℝ) (h : StoredEnergy base ψ dψ T D) :
    StoredEnergy (rateIndependent base lmbda epsRef) ψ dψ T fun s h t e => (1 - lmbda + lmbda * |e| / epsRef) * D s h t e := by
  refine ⟨h.convex, fun s x t e => ?_⟩
  have h1 := h.power s x t e
  have hk : 0 ≤ riScale lmbda epsRef e := by
    unfold riScale
    have : 0 ≤ lmbda * |e| / epsRef := by positivity
    linarith
  have h2 := mul_le_mul_of_nonneg_left h1 hk
  have e1 : dψ x ⬝ᵥ (rateIndependent base lmbda epsRef).hist s x t T e = riScale lmbda epsRef e * (dψ x ⬝ᵥ base.hist s x t T e) := by
    simp only [rateIndependent, dotProduct, Finset.mul_sum]
    refine Finset.sum_congr rfl fun i _ => by ring
  rw [e1]
  change riScale lmbda epsRef e * _ + riScale lmbda epsRef e * _ ≤ s * (riScale lmbda epsRef e * base.flow s x t T e)
  linarith

/-- **C96.** The Kocks-Mecking switch and blend of two rules with a common energy. -/
theorem C96_kocks_mecking {m : ℕ} (m1 m2 : FlowRule m) (p : KMParams) (sf : ℝ) (T : ℝ) (ψ : (Fin m → ℝ) → ℝ) (dψ : (Fin m → ℝ) → Fin m → ℝ)
    (D : ℝ → (Fin m → ℝ) → ℝ → ℝ → ℝ) (h1 : StoredEnergy m1 ψ dψ T D) (h2 : StoredEnergy m2 ψ dψ T D) :
    StoredEnergy (kmSwitch m1 m2 p) ψ dψ T D ∧ StoredEnergy (kmSoft m1 m2 p sf) ψ dψ T D := by
  refine ⟨⟨h1.convex, fun s x t e => ?_⟩, ⟨h1.convex, fun s x t e => ?_⟩⟩
  · simp only [kmSwitch, switchValues]
    split_ifs
    · exact h2.power s x t e
    · exact h1.power s x t e
  · have a : 0 < softF p sf T e := by
      unfold softF; have := Real.neg_one_lt_tanh (sf * (p.g T e - p.g0)); linarith
    have b : softF p sf T e < 1 := by
      unfold softF; have := Real.tanh_lt_one (sf * (p.g T e - p.g0)); linarith
    have q1 := mul_le_mul_of_nonneg_left (h1.power s x t e) (by linarith : 0 ≤ 1 - softF p sf T e)
    have q2 := mul_le_mul_of_nonneg_left (h2.power s x t e) a.le
    simp only [kmSoft, blend]
    rw [dotProduct_add, dotProduct_smul, dotProduct_smul]
    simp only [smul_eq_mul]
    linarith

/-! ## Simulations -/

section sim
variable {β : Type*} {n : ℕ}

private theorem energy_step {f : FlowRule n} {ψ : (Fin n → ℝ) → ℝ} {dψ : (Fin n → ℝ) → Fin n → ℝ} {T : ℝ} {D : ℝ → (Fin n → ℝ) → ℝ → ℝ → ℝ}
    (hψ : StoredEnergy f ψ dψ T D) {E dt s s' e t : ℝ} {h h' : Fin n → ℝ} (hE : 0 < E) (hdt : 0 ≤ dt)
    (h1 : s' - s = dt * (E * (e - f.flow s' h' t T e))) (h2 : ∀ i, h' i - h i = dt * f.hist s' h' t T e i) :
    (s' ^ 2 - s ^ 2) / (2 * E) + (ψ h' - ψ h) + dt * D s' h' t e ≤ s' * (dt * e) := by
  have a1 := hψ.convex h h'
  have a2 : dψ h' ⬝ᵥ (h' - h) = dt * (dψ h' ⬝ᵥ f.hist s' h' t T e) := by
    unfold dotProduct
    rw [Finset.mul_sum]
    refine Finset.sum_congr rfl fun i _ => ?_
    rw [Pi.sub_apply, h2]; ring
  rw [a2] at a1
  have a3 := mul_le_mul_of_nonneg_left (hψ.power s' h' t e) hdt
  have a4 : (s' ^ 2 - s ^ 2) / (2 * E) ≤ s' * (s' - s) / E := by
    rw [← sub_nonneg]
    have : s' * (s' - s) / E - (s' ^ 2 - s ^ 2) / (2 * E) = (s' - s) ^ 2 / (2 * E) := by field_simp; ring
    rw [this]; positivity
  have a5 : s' * (s' - s) / E = s' * (dt * e) - dt * (s' * f.flow s' h' t T e) := by
    rw [h1]; field_simp
  linarith

/-- **C96.** In every backward Euler history of an inelastic model whose flow rule stores an energy `ψ`, the work done on the material up to any
time covers the change of the elastic energy `s² / (2E)`, the change of the stored energy and all the dissipation: no step creates energy. -/
theorem C96_energy (E : ℝ → ℝ) (f : FlowRule n) (erate temp : β → ℝ → ℝ) (nt : ℕ) (t : ℕ → β → ℝ) (y : ℕ → β → Fin (n + 1) → ℝ)
    (hy : IsBackwardEuler (fun b s x => (inelastic E f s x (erate b s) (temp b s)).ydot) nt t y) (b : β)
    (ht : ∀ k, k + 1 < nt → t k b ≤ t (k + 1) b) (E0 : ℝ) (hE0 : 0 < E0) (ψ : (Fin n → ℝ) → ℝ) (dψ : (Fin n → ℝ) → Fin n → ℝ)
    (D : ℕ → ℝ → (Fin n → ℝ) → ℝ → ℝ → ℝ) (hE : ∀ k, k < nt → E (temp b (t k b)) = E0)
    (hψ : ∀ k, k < nt → StoredEnergy f ψ dψ (temp b (t k b)) (D k)) (k : ℕ) (hk : k < nt) :
    ((y k b 0) ^ 2 - (y 0 b 0) ^ 2) / (2 * E0) + (ψ (fun i => y k b i.succ) - ψ fun i => y 0 b i.succ) +
        ∑ j ∈ Finset.range k, (t (j + 1) b - t j b) *
          D (j + 1) (y (j + 1) b 0) (fun i => y (j + 1) b i.succ) (t (j + 1) b) (erate b (t (j + 1) b)) ≤
      ∑ j ∈ Finset.range k, y (j + 1) b 0 * ((t (j + 1) b - t j b) * erate b (t (j + 1) b)) := by
  induction k with
  | zero => simp
  | succ k ih =>
    have ih := ih (by omega)
    have h0 := congrFun (hy k b hk) 0
    have hs : ∀ i : Fin n, y (k + 1) b i.succ = _ := fun i => congrFun (hy k b hk) i.succ
    simp only [inelastic, Pi.add_apply, Pi.smul_apply, smul_eq_mul, Fin.cons_zero, Fin.cons_succ, hE (k + 1) hk] at h0 hs
    have step := energy_step (hψ (k + 1) hk) hE0 (sub_nonneg.2 (ht k hk)) (s := y k b 0) (s' := y (k + 1) b 0)
      (h := fun i => y k b i.succ) (h' := fun i => y (k + 1) b i.succ) (e := erate b (t (k + 1) b)) (t := t (k + 1) b)
      (by linarith) (fun i => by have := hs i; linarith)
    rw [Finset.sum_range_succ, Finset.sum_range_succ]
    have e1 : (y (k + 1) b 0 ^ 2 - y 0 b 0 ^ 2) / (2 * E0) =
        (y (k + 1) b 0 ^ 2 - y k b 0 ^ 2) / (2 * E0) + (y k b 0 ^ 2 - y 0 b 0 ^ 2) / (2 * E0) := by ring
    linarith

variable [Fintype β] [DecidableEq β]

/-- **C96.** `solve_strain` with zero tolerances: in every converged run of an isothermal test from rest, the work done by the recorded stresses on
the prescribed strain increments covers the elastic energy, the stored energy and the dissipation. -/
theorem C96_solve_strain (c : Ode.Config) (hs : c.scheme = .backwardEuler) (hm : 0 ≤ c.miter) (hr : c.rtol = 0) (ha : c.atol = 0)
    (model : β → Model (n + 1)) (nt : ℕ) (times strains temps : ℕ → β → ℝ) (blk : ℤ) (hb : 0 < blk)
    (hg : ∀ b, StrictGrid (nt - 1) fun k => times k b) (res : Ode.Partial β (n + 1))
    (h : solveStrain c model nt times strains temps blk = .ok (res, false)) (b : β) (E : ℝ → ℝ) (f : FlowRule n) (hmod : model b = inelastic E f) (T0 : ℝ)
    (hT : ∀ k, k < nt → temps k b = T0) (hE : 0 < E T0) (ψ : (Fin n → ℝ) → ℝ) (dψ : (Fin n → ℝ) → Fin n → ℝ)
    (D : ℝ → (Fin n → ℝ) → ℝ → ℝ → ℝ) (hψ : StoredEnergy f ψ dψ T0 D) (k : ℕ) (hk : k < nt) :
    let s := fun j => res.get j b 0
    let hist := fun j (i : Fin n) => res.get j b i.succ
    s k ^ 2 / (2 * E T0) + (ψ (hist k) - ψ 0) + ∑ j ∈ Finset.range k, (times (j + 1) b - times j b) *
        D (s (j + 1)) (hist (j + 1)) (times (j + 1) b) ((strains (j + 1) b - strains j b) / (times (j + 1) b - times j b)) ≤
      ∑ j ∈ Finset.range k, s (j + 1) * (strains (j + 1) b - strains j b) := by
  intro s hist
  obtain ⟨e, g0⟩ := strain_lane_backward c hs hm hr ha model nt times strains temps blk hb res h b _ hmod
  rcases Nat.lt_or_ge 1 nt with hnt | hnt
  · have tk : ∀ k, k < nt → dataFn nt (fun k => times k b) (fun k => temps k b) (times k b) = T0 := fun k hk => by
      rw [dataFn_grid (hg b) (fun k => temps k b) hk hnt]; exact hT k hk
    have main := C96_energy (β := Unit) E f (fun _ => rateFn nt (fun k => times k b) fun k => strains k b)
      (fun _ => dataFn nt (fun k => times k b) fun k => temps k b) nt (fun k _ => times k b) (fun k _ => res.get k b) e ()
      (fun k hk => (hg b k (by omega)).le) (E T0) hE ψ dψ (fun _ => D) (fun k hk => by rw [tk k hk])
      (fun k hk => by rw [tk k hk]; exact hψ) k hk
    have rg : ∀ j, j + 1 < nt → (times (j + 1) b - times j b) * rateFn nt (fun k => times k b) (fun k => strains k b) (times (j + 1) b) =
        strains (j + 1) b - strains j b := fun j hj => rateFn_grid (hg b) (fun k => strains k b) hj
    rw [g0] at main
    have z : ψ (fun i => (0 : Fin (n + 1) → ℝ) i.succ) = ψ 0 := rfl
    rw [z] at main
    simp only [Pi.zero_apply, ne_eq, OfNat.ofNat_ne_zero, not_false_eq_true, zero_pow, sub_zero] at main
    refine le_trans (le_of_eq ?_) (main.trans (le_of_eq ?_))
    · congr 1
      refine Finset.sum_congr rfl fun j hj => ?_
      have hj := Finset.mem_range.1 hj
      have hd : times (j + 1) b - times j b ≠ 0 := (sub_pos.2 (hg b j (by omega))).ne'
      rw [← rg j (by omega), mul_div_cancel_left₀ _ hd]
    · refine Finset.sum_congr rfl fun j hj => ?_
      have hj := Finset.mem_range.1 hj
      rw [rg j (by omega)]
  · obtain rfl : k = 0 := by omega
    have : hist 0 = 0 := by funext i; simp [hist, g0]
    simp [s, this, g0]

/-- **C96.** Hence no strain-controlled isothermal test, however it is cycled, extracts work from a material that stores a nonnegative energy,
starts with none and dissipates; and at every time the stress is bounded by the work done. -/
theorem C96_no_energy_created (c : Ode.Config) (hs : c.scheme = .backwardEuler) (hm : 0 ≤ c.miter) (hr : c.rtol = 0) (ha : c.atol = 0)
    (model : β → Model (n + 1)) (nt : ℕ) (times strains temps : ℕ → β → ℝ) (blk : ℤ) (hb : 0 < blk)
    (hg : ∀ b, StrictGrid (nt - 1) fun k => times k b) (res : Ode.Partial β (n + 1))
    (h : solveStrain c model nt times strains temps blk = .ok (res, false)) (b : β) (E : ℝ → ℝ) (f : FlowRule n) (hmod : model b = inelastic E f) (T0 : ℝ)
    (hT : ∀ k, k < nt → temps k b = T0) (hE : 0 < E T0) (ψ : (Fin n → ℝ) → ℝ) (dψ : (Fin n → ℝ) → Fin n → ℝ)
    (hψ : StoredEnergy f ψ dψ T0 fun _ _ _ _ => 0) (hψ0 : ψ 0 = 0) (hpos : ∀ x, 0 ≤ ψ x) (k : ℕ) (hk : k < nt) :
    0 ≤ ∑ j ∈ Finset.range k, res.get (j + 1) b 0 * (strains (j + 1) b - strains j b) ∧
    res.get k b 0 ^ 2 ≤ 2 * E T0 * ∑ j ∈ Finset.range k, res.get (j + 1) b 0 * (strains (j + 1) b - strains j b) := by
  have := C96_solve_strain c hs hm hr ha model nt times strains temps blk hb hg res h b E f hmod T0 hT hE ψ dψ _ hψ k hk
  simp only [hψ0, mul_zero, Finset.sum_const_zero, add_zero, sub_zero] at this
  have hp := hpos fun i : Fin n => res.get k b i.succ
  have h1 : res.get k b 0 ^ 2 / (2 * E T0) ≤ ∑ j ∈ Finset.range k, res.get (j + 1) b 0 * (strains (j + 1) b - strains j b) := by linarith
  refine ⟨le_trans (by positivity) h1, ?_⟩
  rw [div_le_iff₀ (by positivity)] at h1
  linarith

/-- **C96.** The same for a stress-controlled test (in a batch of any materials): the work of the prescribed stresses on the recorded strain increments, up to the tolerance
`1e-10` of the inner solve. -/
theorem C96_solve_stress (c : Ode.Config) (hs : c.scheme = .backwardEuler) (hm : 0 ≤ c.miter) (hr : c.rtol = 0) (ha : c.atol = 0)
    (model : β → Model (n + 1)) (nt : ℕ) (times stresses temps : ℕ → β → ℝ) (blk : ℤ) (hb : 0 < blk)
    (hg : ∀ b, StrictGrid (nt - 1) fun k => times k b)
    (res : Ode.Partial β (n + 1)) (h : solveStress c model nt times stresses temps blk = .ok (res, false)) (b : β) (E : ℝ → ℝ) (f : FlowRule n) (hmod : model b = inelastic E f)
    (hf : ∀ s h t T e, f.flow s h t T e = f.flow s h t T 0) (hd : ∀ s h t T e, f.dflow_de s h t T e = 0)
    (T0 : ℝ) (hT : ∀ k, k < nt → temps k b = T0) (hE : 0 < E T0) (ψ : (Fin n → ℝ) → ℝ) (dψ : (Fin n → ℝ) → Fin n → ℝ)
    (hψ : StoredEnergy f ψ dψ T0 fun _ _ _ _ => 0) (k : ℕ) (hk : k < nt) :
    (stresses k b ^ 2 - stresses 0 b ^ 2) / (2 * E T0) + (ψ (fun i => res.get k b i.succ) - ψ fun i => res.get 0 b i.succ) ≤
      ∑ j ∈ Finset.range k, (stresses (j + 1) b * (res.get (j + 1) b 0 - res.get j b 0) +
        |stresses (j + 1) b| * (times (j + 1) b - times j b) * (1e-10 / E T0)) := by
  induction k with
  | zero => simp
  | succ k ih =>
    have ih := ih (by omega)
    obtain ⟨a1, e, a2, a3⟩ := C78_inelastic_steps c hs hm hr ha model nt times stresses temps blk hb hg res h b E f hmod (fun k hk => by rw [hT k hk]; exact hE.ne') hf hd k hk
    rw [hT (k + 1) hk] at a1 a3
    rw [abs_of_pos hE] at a1
    have hdt : 0 < times (k + 1) b - times k b := sub_pos.2 (hg b k (by omega))
    set dt := times (k + 1) b - times k b
    set σ := stresses (k + 1) b
    set h' : Fin n → ℝ := fun i => res.get (k + 1) b i.succ
    have b1 := hψ.convex (fun i => res.get k b i.succ) h'
    have b2 : dψ h' ⬝ᵥ (h' - fun i => res.get k b i.succ) = dt * (dψ h' ⬝ᵥ f.hist σ h' (times (k + 1) b) T0 e) := by
      unfold dotProduct
      rw [Finset.mul_sum]
      refine Finset.sum_congr rfl fun i _ => ?_
      rw [Pi.sub_apply, a3 i]; ring
    have b3 := mul_le_mul_of_nonneg_left (hψ.power σ h' (times (k + 1) b) e) hdt.le
    rw [hf] at b3
    set F := f.flow σ h' (times (k + 1) b) T0 0
    have b4 : (σ ^ 2 - stresses k b ^ 2) / (2 * E T0) ≤ σ * ((σ - stresses k b) / E T0) := by
      rw [← sub_nonneg]
      have : σ * ((σ - stresses k b) / E T0) - (σ ^ 2 - stresses k b ^ 2) / (2 * E T0) = (σ - stresses k b) ^ 2 / (2 * E T0) := by
        field_simp; ring
      rw [this]; positivity
    have b5 : -(|σ| * dt * (1e-10 / E T0)) ≤ σ * (res.get (k + 1) b 0 - res.get k b 0 - ((σ - stresses k b) / E T0 + dt * F)) := by
      have := mul_le_mul_of_nonneg_left a1 (abs_nonneg σ)
      rw [← abs_mul] at this
      have q := neg_abs_le (σ * (res.get (k + 1) b 0 - res.get k b 0 - ((σ - stresses k b) / E T0 + dt * F)))
      linarith
    rw [Finset.sum_range_succ]
    have e1 : (σ ^ 2 - stresses 0 b ^ 2) / (2 * E T0) =
        (σ ^ 2 - stresses k b ^ 2) / (2 * E T0) + (stresses k b ^ 2 - stresses 0 b ^ 2) / (2 * E T0) := by ring
    rw [e1]
    linarith

end sim

/-- **C96.** The standard material: Voce isotropic and Chaboche kinematic hardening, with static recovery. Its energy is that of springs in the
backstresses, and it dissipates at least `(s0 + R) |inelastic rate|`. -/
theorem C96_voce_chaboche {nk : ℕ} (n eta s0 R d : ℝ → ℝ) (C g bb r : Fin nk → ℝ → ℝ) (T : ℝ) (hn : 0 < n T) (heta : 0 < eta T)
    (hC : ∀ i, 0 < C i T) (hg : ∀ i, 0 ≤ g i T) (hb : ∀ i, 0 ≤ bb i T) :
    StoredEnergy (isoKin n eta s0 (voce R d) (chabocheRecovery C g bb r))
      (fun h => springEnergy (fun i => C i T) fun j => h (Fin.natAdd 1 j))
      (fun h => Fin.append (fun _ => 0) fun j => h (Fin.natAdd 1 j) / C j T) T
      fun s h t e => (s0 T + h (Fin.castAdd nk 0)) * |(isoKin n eta s0 (voce R d) (chabocheRecovery C g bb r)).flow s h t T e| :=
  C96_isokin n eta s0 (voce R d) (chabocheRecovery C g bb r) T hn heta _ _ (C96_chaboche_recovery C g bb r T hC hg hb)

/-- Ordinary parameters meet the hypotheses; the spring energy is zero at rest and nonnegative, and the dissipation is strictly positive when the material
flows. -/
example : (∀ x : Fin 2 → ℝ, 0 ≤ springEnergy (fun i : Fin 2 => (1000 + 100 * i.val : ℝ)) x) ∧
    springEnergy (fun i : Fin 2 => (1000 + 100 * i.val : ℝ)) 0 = 0 ∧
    StoredEnergy (isoKin (fun _ => 5) (fun _ => 300) (fun _ => 50) (voce (fun _ => 100) (fun _ => 10))
        (chabocheRecovery (fun (i : Fin 2) _ => 1000 + 100 * i.val) (fun _ _ => 2) (fun _ _ => 1) (fun _ _ => 3)))
      (fun h => springEnergy (fun i : Fin 2 => (1000 + 100 * i.val : ℝ)) fun j => h (Fin.natAdd 1 j))
      (fun h => Fin.append (fun _ => 0) fun j => h (Fin.natAdd 1 j) / (1000 + 100 * (j.val : ℝ))) 300
      fun s h t e => (50 + h (Fin.castAdd 2 0)) * |(isoKin (fun _ => 5) (fun _ => 300) (fun _ => 50) (voce (fun _ => 100) (fun _ => 10))
        (chabocheRecovery (fun (i : Fin 2) _ => 1000 + 100 * i.val) (fun _ _ => 2) (fun _ _ => 1) (fun _ _ => 3))).flow s h t 300 e| := by
  refine ⟨fun x => Finset.sum_nonneg fun i _ => by positivity, by simp [springEnergy], ?_⟩
  exact C96_voce_chaboche (fun _ => 5) (fun _ => 300) (fun _ => 50) (fun _ => 100) (fun _ => 10) (fun (i : Fin 2) _ => 1000 + 100 * i.val)
    (fun _ _ => 2) (fun _ _ => 1) (fun _ _ => 3) 300 (by norm_num) (by norm_num) (fun i => by positivity) (fun _ => by norm_num) (fun _ => by norm_num)

end Pyoptmat.Props
