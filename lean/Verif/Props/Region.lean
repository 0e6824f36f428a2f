import Verif.Props.StepTolerance
import Verif.Props.Energy
import Verif.Props.Elastic
import Verif.Proofs.MirrorControl
import Verif.Proofs.SmoothFlow

/-!
# C126: with ordinary tolerances, simulated states leave their physical range by at most the accumulated tolerance
-/

namespace Pyoptmat.Props

open Pyoptmat.Control Pyoptmat.Material Pyoptmat.Newton Pyoptmat.Spec Pyoptmat.Ode Pyoptmat.Chunktime Pyoptmat.Solvers

open scoped Matrix

variable {β : Type*} {m : ℕ}

/-- **C123.** `solve_strain` of any model, also one with damage: the increment of every state variable is `Δt` times its rate at the end of the step, up to `δ`. -/
theorem C123_model_strain (c : Config) (hs : c.scheme = .backwardEuler) (hm : 0 ≤ c.miter) (model : β → Model m) (nt : ℕ)
    (times strains temps : ℕ → β → ℝ) (blk : ℤ) (hb : 0 < blk) (hg : ∀ b, StrictGrid (nt - 1) fun k => times k b) (res : Partial β m)
    (h : solveStrain c model nt times strains temps blk = .ok (res, false)) (b : β) (δ : ℝ)
    (hδ : StepTolerance c (Func.lift (strainFunc model nt times strains temps)) nt times res.get b δ) (k : ℕ) (hk : k + 1 < nt) (i : Fin m) :
    let y := res.get
    let dt := times (k + 1) b - times k b
    |y (k + 1) b i - y k b i - dt * (model b (times (k + 1) b) (y (k + 1) b) ((strains (k + 1) b - strains k b) / dt) (temps (k + 1) b)).ydot i| ≤ δ := by
  intro y dt
  have hdt : 0 < dt := sub_pos.2 (hg b k (by omega))
  obtain ⟨k0, N, j, rfl, hj, hN, hd⟩ := C123_step c hm _ 0 nt times blk hb res h b (fun k hk => (hg b k (by omega)).le) δ hδ k hk
  rw [hs] at hd
  simp only [defectB] at hd
  rw [rowRate_lift _ _ _ _ (by omega)] at hd
  have er : rateFn nt (fun k => times k b) (fun k => strains k b) (times (k0 + j + 1) b) = (strains (k0 + j + 1) b - strains (k0 + j) b) / dt := by
    have := rateFn_grid (hg b) (fun k => strains k b) hk
    rw [← this, mul_div_cancel_left₀ _ hdt.ne']
  have eT := dataFn_grid (hg b) (fun k => temps k b) hk (by omega)
  simp only [← Nat.add_assoc, Ode.rate, strainFunc] at hd
  rw [er, eT] at hd
  exact (abs_le_l2 _ i).trans hd

/-- runs start from rest -/
private theorem start_zero (c : Config) (F : BFunc β m) (nt : ℕ) (t : ℕ → β → ℝ) (n : ℤ) (hn : 0 < n) (res : Partial β m) (w : Bool)
    (h : integrate c F 0 nt t n = .ok (res, w)) (b : β) (i : Fin m) : res.get 0 b i = 0 := by
  obtain ⟨-, h0, -⟩ := integrate_spec c F 0 nt t n hn res w h
  simp [Partial.get, h0]

/-- one perturbed implicit step of `x' = x + a (R - x')`, `a ≥ 0` -/
private theorem voce_step {x x' a R Rmax δ ε : ℝ} (ha : 0 ≤ a) (hδ : 0 ≤ δ) (hε : 0 ≤ ε) (hR : 0 ≤ R) (hRm : R ≤ Rmax) (h : |x' - x - a * (R - x')| ≤ δ)
    (h1 : -ε ≤ x) (h2 : x ≤ Rmax + ε) : -(ε + δ) ≤ x' ∧ x' ≤ Rmax + (ε + δ) := by
  obtain ⟨l, u⟩ := abs_le.1 h
  constructor
  · by_contra hc
    push Not at hc
    nlinarith [mul_nonneg ha (by linarith : 0 ≤ R - x')]
  · by_contra hc
    push Not at hc
    nlinarith [mul_nonneg ha (by linarith : 0 ≤ x' - R)]

/-- one perturbed implicit step of `x' = x + dt (C p - g x' |p| - w x')` -/
private theorem back_step {x x' dt C g p w B δ ε : ℝ} (hdt : 0 ≤ dt) (hg : 0 ≤ g) (hC : |C| ≤ B * g) (hw : 0 ≤ w) (hB : 0 ≤ B) (hδ : 0 ≤ δ) (hε : 0 ≤ ε)
    (h : |x' - x - dt * (C * p - g * x' * |p| - w * x')| ≤ δ) (hx : |x| ≤ B + ε) : |x'| ≤ B + (ε + δ) := by
  have h1 : x' * (1 + dt * (g * |p| + w)) = x + dt * (C * p) + (x' - x - dt * (C * p - g * x' * |p| - w * x')) := by ring
  have ha : 0 ≤ dt * (g * |p| + w) := mul_nonneg hdt (add_nonneg (mul_nonneg hg (abs_nonneg _)) hw)
  have h2 : |x'| * (1 + dt * (g * |p| + w)) = |x + dt * (C * p) + (x' - x - dt * (C * p - g * x' * |p| - w * x'))| := by
    rw [← h1, abs_mul, abs_of_nonneg (by linarith : 0 ≤ 1 + dt * (g * |p| + w))]
  have h3 : |x + dt * (C * p) + (x' - x - dt * (C * p - g * x' * |p| - w * x'))| ≤ B + ε + dt * (B * g * |p|) + δ := by
    refine (abs_add_le _ _).trans (add_le_add ((abs_add_le _ _).trans (add_le_add hx ?_)) h)
    rw [abs_mul, abs_of_nonneg hdt, abs_mul]
    exact mul_le_mul_of_nonneg_left (mul_le_mul_of_nonneg_right hC (abs_nonneg _)) hdt
  have h4 : |x'| * (1 + dt * (g * |p| + w)) ≤ (B + (ε + δ)) * (1 + dt * (g * |p| + w)) := by
    have q1 := mul_nonneg hB (mul_nonneg hdt hw)
    have q2 := mul_nonneg (add_nonneg hε hδ) ha
    rw [h2]; nlinarith
  exact le_of_mul_le_mul_right h4 (by linarith)

/-- **C126.** Every strain controlled test of a Voce-Chaboche material (with static recovery), in a batch of any materials with as many history variables, with any
tolerances: after `k` steps the isotropic strength is in `[0, Rmax]` up to `k δ`, each backstress in `[-B_i, B_i]` up to `k δ`, and the stress is bounded by
initial yield stress, saturated strengths and viscous overstress at the largest strain rate up to `(nk + 1) k δ`. `δ` is what the tolerances permit one step to miss. -/
theorem C126_region (c : Config) (hs : c.scheme = .backwardEuler) (hm : 0 ≤ c.miter) {nk : ℕ} (E : β → ℝ → ℝ) (f : β → FlowRule (1 + nk)) (nt : ℕ)
    (times strains temps : ℕ → β → ℝ) (blk : ℤ) (hb : 0 < blk) (hg : ∀ b, StrictGrid (nt - 1) fun k => times k b) (res : Partial β (1 + nk + 1))
    (h : solveStrain c (fun b => inelastic (E b) (f b)) nt times strains temps blk = .ok (res, false)) (b : β) (n eta s0 R d : ℝ → ℝ) (C g bb r : Fin nk → ℝ → ℝ)
    (hf : f b = isoKin n eta s0 (voce R d) (chabocheRecovery C g bb r))
    (hp : ∀ k, k < nt → VCAdmissible (E b) n eta s0 R d C g (temps k b) ∧ ∀ i, 0 ≤ bb i (temps k b))
    (Rmax : ℝ) (hR : ∀ k, k < nt → R (temps k b) ≤ Rmax) (B : Fin nk → ℝ) (hB : ∀ i, 0 ≤ B i)
    (hC : ∀ k i, k < nt → C i (temps k b) ≤ B i * g i (temps k b))
    (emax : ℝ) (hem : 0 ≤ emax) (he : ∀ k, k + 1 < nt → |strains (k + 1) b - strains k b| ≤ emax * (times (k + 1) b - times k b))
    (M : ℝ) (hM : ∀ k, k < nt → s0 (temps k b) + Rmax + ∑ i, B i + eta (temps k b) * emax ^ (1 / n (temps k b)) ≤ M) (δ : ℝ)
    (hδ : StepTolerance c (Func.lift (strainFunc (fun b => inelastic (E b) (f b)) nt times strains temps)) nt times res.get b δ) (k : ℕ) (hk : k < nt) :
    (-(k * δ) ≤ res.get k b 1 ∧ res.get k b 1 ≤ Rmax + k * δ) ∧
    (∀ i : Fin nk, |res.get k b (Fin.natAdd 1 i).succ| ≤ B i + k * δ) ∧
    |res.get k b 0| ≤ M + (nk + 1) * (k * δ) := by
  have hδ0 : 0 ≤ δ := hδ.nonneg
  have z := start_zero c _ nt times blk hb res false h b
  induction k with
  | zero =>
    have hp0 := (hp 0 hk).1
    have r1 := hR 0 hk
    refine ⟨?_, fun i => ?_, ?_⟩
    · rw [z]; have := hp0.R; constructor <;> simp <;> linarith
    · rw [z]; simpa using hB i
    · rw [z]
      have q := hM 0 hk
      have q1 := hp0.s0
      have q2 := hp0.R
      have q3 : 0 ≤ ∑ i, B i := Finset.sum_nonneg fun i _ => hB i
      have q4 : 0 ≤ eta (temps 0 b) * emax ^ (1 / n (temps 0 b)) := mul_nonneg hp0.eta.le (Real.rpow_nonneg hem _)
      simp only [abs_zero, Nat.cast_zero, zero_mul, mul_zero, add_zero]
      linarith
  | succ k ih =>
    obtain ⟨⟨i1, i2⟩, i3, i4⟩ := ih (by omega)
    have hdt := (sub_pos.2 (hg b k (by omega))).le
    have hdt' := sub_pos.2 (hg b k (by omega))
    obtain ⟨ha, hbb⟩ := hp (k + 1) hk
    have st := C123_model_strain c hs hm (fun b => inelastic (E b) (f b)) nt times strains temps blk hb hg res h b δ hδ k hk
    dsimp only at st
    rw [hf] at st
    obtain ⟨o0, o1, o2⟩ := vc_ydot (E b) n eta s0 R d C g bb r (times (k + 1) b) (res.get (k + 1) b)
      ((strains (k + 1) b - strains k b) / (times (k + 1) b - times k b)) (temps (k + 1) b)
    have st0 := st 0
    have st1 := st 1
    have st2 := fun i : Fin nk => st (Fin.natAdd 1 i).succ
    rw [o0] at st0
    rw [o1] at st1
    simp only [o2] at st2
    have he' : |(strains (k + 1) b - strains k b) / (times (k + 1) b - times k b)| ≤ emax := by
      rw [abs_div, abs_of_pos hdt', div_le_iff₀ hdt']; exact he k hk
    have hM' := hM (k + 1) hk
    have hR' := hR (k + 1) hk
    have hC' := fun i => hC (k + 1) i hk
    clear o0 o1 o2 st z hp hM hR hC he hδ h
    generalize res.get (k + 1) b = x at *
    generalize res.get k b = x0 at *
    generalize temps (k + 1) b = T at *
    generalize (strains (k + 1) b - strains k b) / (times (k + 1) b - times k b) = e at *
    generalize times (k + 1) b - times k b = dt at *
    have kd : ((k + 1 : ℕ) : ℝ) * δ = k * δ + δ := by push_cast; ring
    have hkd : 0 ≤ (k : ℝ) * δ := by positivity
    rw [kd]
    generalize (k : ℝ) * δ = ε at *
    have j1 := voce_step (x' := x 1) (x := x0 1) (R := R T) (mul_nonneg hdt (mul_nonneg ha.d (abs_nonneg (vcFlow n eta s0 x T)))) hδ0 hkd ha.R hR'
      (by refine le_of_eq_of_le ?_ st1; congr 1; ring) i1 i2
    have j2 : ∀ i : Fin nk, |x (Fin.natAdd 1 i).succ| ≤ B i + (ε + δ) := fun i =>
      back_step hdt (ha.g i) (by rw [abs_of_nonneg (ha.C i)]; exact hC' i) (mul_nonneg (hbb i) (Real.rpow_nonneg (abs_nonneg _) _)) (hB i) hδ0 hkd (st2 i) (i3 i)
    refine ⟨j1, j2, ?_⟩
    have q3 : |∑ i : Fin nk, x (Fin.natAdd 1 i).succ| ≤ ∑ i, B i + nk * (ε + δ) := by
      refine (Finset.abs_sum_le_sum_abs _ _).trans ((Finset.sum_le_sum fun i _ => j2 i).trans ?_)
      rw [Finset.sum_add_distrib, Finset.sum_const, Finset.card_univ, Fintype.card_fin, nsmul_eq_mul]
    have hB0 : 0 ≤ ∑ i, B i := Finset.sum_nonneg fun i _ => hB i
    obtain ⟨l1, l2⟩ := abs_le.1 q3
    obtain ⟨e1, e2⟩ := abs_le.1 he'
    obtain ⟨m1, m2⟩ := abs_le.1 i4
    obtain ⟨p1, p2⟩ := abs_le.1 st0
    have h0' : 0 ≤ eta T * emax ^ (1 / n T) := mul_nonneg ha.eta.le (Real.rpow_nonneg hem _)
    have hnk : 0 ≤ (nk : ℝ) * δ := by positivity
    have hnk' : 0 ≤ (nk : ℝ) * ε := by positivity
    have key : ∀ u, 0 < u → s0 T + x 1 + eta T * emax ^ (1 / n T) < u → emax ≤ overflow (n T) (eta T) (u, s0 T + x 1) := by
      intro u hu0 hu
      simp only [overflow]
      rw [abs_of_pos hu0, macaulay_of_pos (div_pos (by linarith) ha.eta), sgn_pos hu0, mul_one]
      have h1 : emax ^ (1 / n T) ≤ (u - (s0 T + x 1)) / eta T := by
        rw [le_div_iff₀ ha.eta]; linarith
      have h2 := Real.rpow_le_rpow (Real.rpow_nonneg hem _) h1 ha.n.le
      rwa [← Real.rpow_mul hem, one_div_mul_cancel ha.n.ne', Real.rpow_one] at h2
    have hEdt : 0 ≤ dt * E b T := mul_nonneg hdt ha.E
    have hs0 := ha.s0
    have hR0 := ha.R
    obtain ⟨j11, j12⟩ := j1
    rw [abs_le]
    constructor
    · by_contra hc
      push Not at hc
      have h1 := key (-(x 0 - ∑ i : Fin nk, x (Fin.natAdd 1 i).succ)) (by linarith) (by linarith)
      rw [overflow_neg] at h1
      change emax ≤ -vcFlow n eta s0 x T at h1
      have h2 := mul_nonneg hEdt (by linarith : 0 ≤ e - vcFlow n eta s0 x T)
      linarith
    · by_contra hc
      push Not at hc
      have h1 := key (x 0 - ∑ i : Fin nk, x (Fin.natAdd 1 i).succ) (by linarith) (by linarith)
      change emax ≤ vcFlow n eta s0 x T at h1
      have h2 := mul_nonneg hEdt (by linarith : 0 ≤ vcFlow n eta s0 x T - e)
      linarith

/-- **C126.** Stress controlled tests: isotropic strength and backstresses stay in the same ranges up to `k δ`, whatever stress is applied. -/
theorem C126_region_stress (c : Config) (hs : c.scheme = .backwardEuler) (hm : 0 ≤ c.miter) {nk : ℕ} (model : β → Model (1 + nk + 1)) (nt : ℕ)
    (times stresses temps : ℕ → β → ℝ) (blk : ℤ) (hb : 0 < blk) (hg : ∀ b, StrictGrid (nt - 1) fun k => times k b) (res : Partial β (1 + nk + 1))
    (h : solveStress c model nt times stresses temps blk = .ok (res, false)) (b : β) (E n eta s0 R d : ℝ → ℝ) (C g bb r : Fin nk → ℝ → ℝ)
    (hf : model b = inelastic E (isoKin n eta s0 (voce R d) (chabocheRecovery C g bb r))) (hE : ∀ k, k < nt → E (temps k b) ≠ 0)
    (hp : ∀ k, k < nt → VCAdmissible E n eta s0 R d C g (temps k b) ∧ ∀ i, 0 ≤ bb i (temps k b))
    (Rmax : ℝ) (hR : ∀ k, k < nt → R (temps k b) ≤ Rmax) (B : Fin nk → ℝ) (hB : ∀ i, 0 ≤ B i)
    (hC : ∀ k i, k < nt → C i (temps k b) ≤ B i * g i (temps k b)) (δ : ℝ)
    (hδ : StepTolerance c (stressFunc model nt times stresses temps) nt times res.get b δ) (k : ℕ) (hk : k < nt) :
    (-(k * δ) ≤ res.get k b 1 ∧ res.get k b 1 ≤ Rmax + k * δ) ∧ ∀ i : Fin nk, |res.get k b (Fin.natAdd 1 i).succ| ≤ B i + k * δ := by
  have hδ0 : 0 ≤ δ := hδ.nonneg
  have z := start_zero c _ nt times blk hb res false h b
  induction k with
  | zero =>
    have hp0 := (hp 0 hk).1
    have r1 := hR 0 hk
    refine ⟨?_, fun i => ?_⟩
    · rw [z]; have := hp0.R; constructor <;> simp <;> linarith
    · rw [z]; simpa using hB i
  | succ k ih =>
    obtain ⟨⟨i1, i2⟩, i3⟩ := ih (by omega)
    have hdt := (sub_pos.2 (hg b k (by omega))).le
    obtain ⟨ha, hbb⟩ := hp (k + 1) hk
    obtain ⟨e, -, st, -⟩ := C123_stress c hs hm model nt times stresses temps blk hb hg res h b
      (fun k hk => by rw [hf]; exact rateAffine_inelastic _ _ (fun _ _ _ _ _ => rfl) (fun _ _ _ _ _ => rfl) _ _ _ (hE k hk)) δ hδ k hk
    dsimp only at st
    rw [hf] at st
    obtain ⟨-, o1, o2⟩ := vc_ydot E n eta s0 R d C g bb r (times (k + 1) b) (Function.update (res.get (k + 1) b) 0 (stresses (k + 1) b)) e (temps (k + 1) b)
    have n1 : (1 : Fin (1 + nk + 1)) ≠ 0 := by
      intro hc
      have := congrArg Fin.val hc
      simp at this
    have st1 := st 1 n1
    have st2 := fun i : Fin nk => st (Fin.natAdd 1 i).succ (Fin.succ_ne_zero _)
    rw [o1] at st1
    simp only [o2] at st2
    rw [Function.update_of_ne n1] at st1
    simp only [Function.update_of_ne (Fin.succ_ne_zero _)] at st2
    have hR' := hR (k + 1) hk
    have hC' := fun i => hC (k + 1) i hk
    have kd : ((k + 1 : ℕ) : ℝ) * δ = k * δ + δ := by push_cast; ring
    have hkd : 0 ≤ (k : ℝ) * δ := by positivity
    rw [kd]
    generalize vcFlow n eta s0 _ _ = p at st1 st2
    refine ⟨voce_step (x' := res.get (k + 1) b 1) (x := res.get k b 1) (R := R (temps (k + 1) b)) (mul_nonneg hdt (mul_nonneg ha.d (abs_nonneg p))) hδ0 hkd ha.R hR'
      (by refine le_of_eq_of_le ?_ st1; congr 1; ring) i1 i2, fun i => ?_⟩
    exact back_step hdt (ha.g i) (by rw [abs_of_nonneg (ha.C i)]; exact hC' i) (mul_nonneg (hbb i) (Real.rpow_nonneg (abs_nonneg _) _)) (hB i) hδ0 hkd (st2 i) (i3 i)

/-- **C126.** Energy balance with any tolerances: in every isothermal strain controlled test from rest, the work of the recorded stresses on the prescribed strain
increments covers the elastic energy, the stored energy and the dissipation up to `δ (|stress| / E + ∑ |dψ|)` per step. -/
theorem C126_energy (c : Config) (hs : c.scheme = .backwardEuler) (hm : 0 ≤ c.miter) {n : ℕ} (E : β → ℝ → ℝ) (f : β → FlowRule n) (nt : ℕ)
    (times strains temps : ℕ → β → ℝ) (blk : ℤ) (hb : 0 < blk) (hg : ∀ b, StrictGrid (nt - 1) fun k => times k b) (res : Partial β (n + 1))
    (h : solveStrain c (fun b => inelastic (E b) (f b)) nt times strains temps blk = .ok (res, false)) (b : β) (T0 : ℝ) (hT : ∀ k, k < nt → temps k b = T0)
    (hE : 0 < E b T0) (ψ : (Fin n → ℝ) → ℝ) (dψ : (Fin n → ℝ) → Fin n → ℝ) (D : ℝ → (Fin n → ℝ) → ℝ → ℝ → ℝ) (hψ : StoredEnergy (f b) ψ dψ T0 D) (δ : ℝ)
    (hδ : StepTolerance c (Func.lift (strainFunc (fun b => inelastic (E b) (f b)) nt times strains temps)) nt times res.get b δ) (k : ℕ) (hk : k < nt) :
    let s := fun j => res.get j b 0
    let hist := fun j (i : Fin n) => res.get j b i.succ
    s k ^ 2 / (2 * E b T0) + (ψ (hist k) - ψ 0) + ∑ j ∈ Finset.range k, (times (j + 1) b - times j b) *
        D (s (j + 1)) (hist (j + 1)) (times (j + 1) b) ((strains (j + 1) b - strains j b) / (times (j + 1) b - times j b)) ≤
      ∑ j ∈ Finset.range k, (s (j + 1) * (strains (j + 1) b - strains j b) + δ * (|s (j + 1)| / E b T0 + ∑ i, |dψ (hist (j + 1)) i|)) := by
  intro s hist
  have z := start_zero c _ nt times blk hb res false h b
  induction k with
  | zero =>
    have : hist 0 = 0 := by funext i; exact z i.succ
    simp [s, z, this]
  | succ k ih =>
    have ih := ih (by omega)
    obtain ⟨p1, p2⟩ := C123_strain c hs hm E f nt times strains temps blk hb hg res h b δ hδ k hk
    rw [hT (k + 1) hk] at p1 p2
    rw [Finset.sum_range_succ, Finset.sum_range_succ]
    have hdt := (sub_pos.2 (hg b k (by omega))).le
    have pw := hψ.power (s (k + 1)) (hist (k + 1)) (times (k + 1) b) ((strains (k + 1) b - strains k b) / (times (k + 1) b - times k b))
    have cv := hψ.convex (hist k) (hist (k + 1))
    change |s (k + 1) - s k - E b T0 * ((strains (k + 1) b - strains k b) - (times (k + 1) b - times k b) * (f b).flow (s (k + 1)) (hist (k + 1)) (times (k + 1) b) T0
      ((strains (k + 1) b - strains k b) / (times (k + 1) b - times k b)))| ≤ δ at p1
    change ∀ i, |hist (k + 1) i - hist k i - (times (k + 1) b - times k b) * (f b).hist (s (k + 1)) (hist (k + 1)) (times (k + 1) b) T0
      ((strains (k + 1) b - strains k b) / (times (k + 1) b - times k b)) i| ≤ δ at p2
    generalize (strains (k + 1) b - strains k b) / (times (k + 1) b - times k b) = e at *
    generalize times (k + 1) b - times k b = dt at *
    generalize (f b).flow (s (k + 1)) (hist (k + 1)) (times (k + 1) b) T0 e = w at *
    generalize (f b).hist (s (k + 1)) (hist (k + 1)) (times (k + 1) b) T0 e = v at *
    generalize D (s (k + 1)) (hist (k + 1)) (times (k + 1) b) e = D1 at *
    generalize strains (k + 1) b - strains k b = de at *
    have c1 : dψ (hist (k + 1)) ⬝ᵥ (hist (k + 1) - hist k) ≤ dt * (dψ (hist (k + 1)) ⬝ᵥ v) + δ * ∑ i, |dψ (hist (k + 1)) i| := by
      simp only [dotProduct, Finset.mul_sum, Pi.sub_apply]
      rw [← Finset.sum_add_distrib]
      refine Finset.sum_le_sum fun i _ => ?_
      have q := mul_le_mul_of_nonneg_left (p2 i) (abs_nonneg (dψ (hist (k + 1)) i))
      rw [← abs_mul] at q
      have := (le_abs_self _).trans q
      linarith
    have c2 : s (k + 1) ^ 2 / (2 * E b T0) - s k ^ 2 / (2 * E b T0) ≤ s (k + 1) * (de - dt * w) + δ * (|s (k + 1)| / E b T0) := by
      have q := mul_le_mul_of_nonneg_left p1 (abs_nonneg (s (k + 1)))
      rw [← abs_mul] at q
      have q := (le_abs_self _).trans q
      have q2 := sq_nonneg (s (k + 1) - s k)
      have e1 : s (k + 1) * (de - dt * w) + δ * (|s (k + 1)| / E b T0) - (s (k + 1) ^ 2 / (2 * E b T0) - s k ^ 2 / (2 * E b T0)) =
          (2 * (|s (k + 1)| * δ - s (k + 1) * (s (k + 1) - s k - E b T0 * (de - dt * w))) + (s (k + 1) - s k) ^ 2) / (2 * E b T0) := by
        field_simp
        ring
      have : 0 ≤ (2 * (|s (k + 1)| * δ - s (k + 1) * (s (k + 1) - s k - E b T0 * (de - dt * w))) + (s (k + 1) - s k) ^ 2) / (2 * E b T0) :=
        div_nonneg (by linarith) (by linarith)
      linarith
    have c3 := mul_le_mul_of_nonneg_left pw hdt
    linarith

/-- **C126.** Hence, if the material stores a nonnegative energy and starts with none, no isothermal strain controlled test extracts more work than the tolerances
account for, and the stress is bounded by the work done. -/
theorem C126_no_energy_created (c : Config) (hs : c.scheme = .backwardEuler) (hm : 0 ≤ c.miter) {n : ℕ} (E : β → ℝ → ℝ) (f : β → FlowRule n) (nt : ℕ)
    (times strains temps : ℕ → β → ℝ) (blk : ℤ) (hb : 0 < blk) (hg : ∀ b, StrictGrid (nt - 1) fun k => times k b) (res : Partial β (n + 1))
    (h : solveStrain c (fun b => inelastic (E b) (f b)) nt times strains temps blk = .ok (res, false)) (b : β) (T0 : ℝ) (hT : ∀ k, k < nt → temps k b = T0)
    (hE : 0 < E b T0) (ψ : (Fin n → ℝ) → ℝ) (dψ : (Fin n → ℝ) → Fin n → ℝ) (hψ : StoredEnergy (f b) ψ dψ T0 fun _ _ _ _ => 0) (hψ0 : ψ 0 = 0)
    (hpos : ∀ x, 0 ≤ ψ x) (δ : ℝ)
    (hδ : StepTolerance c (Func.lift (strainFunc (fun b => inelastic (E b) (f b)) nt times strains temps)) nt times res.get b δ) (k : ℕ) (hk : k < nt) :
    let s := fun j => res.get j b 0
    let missed := ∑ j ∈ Finset.range k, δ * (|s (j + 1)| / E b T0 + ∑ i, |dψ (fun i : Fin n => res.get (j + 1) b i.succ) i|)
    let work := ∑ j ∈ Finset.range k, s (j + 1) * (strains (j + 1) b - strains j b)
    0 ≤ work + missed ∧ s k ^ 2 ≤ 2 * E b T0 * (work + missed) := by
  intro s missed work
  have main := C126_energy c hs hm E f nt times strains temps blk hb hg res h b T0 hT hE ψ dψ _ hψ δ hδ k hk
  dsimp only at main
  simp only [mul_zero, Finset.sum_const_zero, add_zero, hψ0, sub_zero, Finset.sum_add_distrib] at main
  have p := hpos fun i => res.get k b i.succ
  have q : 0 ≤ s k ^ 2 / (2 * E b T0) := by positivity
  have e1 : s k ^ 2 / (2 * E b T0) ≤ work + missed := by
    simp only [work, missed, s, Finset.sum_add_distrib, Finset.mul_sum] at main ⊢
    linarith
  refine ⟨by linarith, ?_⟩
  rw [div_le_iff₀ (by positivity)] at e1
  linarith

private theorem damaged_last {n : ℕ} (E : ℝ → ℝ) (f : FlowRule n) (dm : Damage) (t : ℝ) (y : Fin (n + 2) → ℝ) (e T : ℝ) :
    (damaged E f dm t y e T).ydot (Fin.last (n + 1)) =
      dm.rate (y 0 / (1 - y (Fin.last (n + 1)))) (y (Fin.last (n + 1))) t T e := by
  simp only [damaged]; rw [cat3_last]

/-- **C126.** Damage never decreases by more than `δ` in a step, in strain controlled tests that have not failed, with any damage model of nonnegative rate. -/
theorem C126_damage (c : Config) (hs : c.scheme = .backwardEuler) (hm : 0 ≤ c.miter) {n : ℕ} (E : β → ℝ → ℝ) (f : β → FlowRule n) (dm : β → Damage) (nt : ℕ)
    (times strains temps : ℕ → β → ℝ) (blk : ℤ) (hb : 0 < blk) (hg : ∀ b, StrictGrid (nt - 1) fun k => times k b) (res : Partial β (n + 2))
    (h : solveStrain c (fun b => damaged (E b) (f b) (dm b)) nt times strains temps blk = .ok (res, false)) (b : β)
    (hdm : ∀ s d t T e, d < 1 → 0 ≤ (dm b).rate s d t T e) (δ : ℝ)
    (hδ : StepTolerance c (Func.lift (strainFunc (fun b => damaged (E b) (f b) (dm b)) nt times strains temps)) nt times res.get b δ) (k : ℕ) (hk : k + 1 < nt)
    (hlt : res.get (k + 1) b (Fin.last (n + 1)) < 1) : res.get k b (Fin.last (n + 1)) - δ ≤ res.get (k + 1) b (Fin.last (n + 1)) := by
  have st := C123_model_strain c hs hm _ nt times strains temps blk hb hg res h b δ hδ k hk (Fin.last (n + 1))
  dsimp only at st
  rw [damaged_last] at st
  have h1 := mul_nonneg (sub_pos.2 (hg b k (by omega))).le (hdm (res.get (k + 1) b 0 / (1 - res.get (k + 1) b (Fin.last (n + 1)))) _ (times (k + 1) b) (temps (k + 1) b)
    ((strains (k + 1) b - strains k b) / (times (k + 1) b - times k b)) hlt)
  have := (abs_le.1 st).1
  linarith

/-- **C126.** Creep rupture: in a stress controlled test held at stress `s` and temperature `T`, of a material with Larson-Miller damage, the recorded damage after
`k` steps is the elapsed time over the rupture time `t_r` of the correlation `T (C + log₁₀ t_r) = A log₁₀|s| + B`, up to `k δ`, until failure. -/
theorem C126_rupture (c : Config) (hs : c.scheme = .backwardEuler) (hm : 0 ≤ c.miter) {n : ℕ} (model : β → Model (n + 2)) (nt : ℕ)
    (times stresses temps : ℕ → β → ℝ) (blk : ℤ) (hb : 0 < blk) (hg : ∀ b, StrictGrid (nt - 1) fun k => times k b) (res : Partial β (n + 2))
    (h : solveStress c model nt times stresses temps blk = .ok (res, false))
    (b : β) (hA : ∀ k, k < nt → RateAffine (model b) (times k b) (Function.update (res.get k b) 0 (stresses k b)) (temps k b))
    (E : ℝ → ℝ) (f : FlowRule n) (C A B : ℝ → ℝ) (eps : ℝ) (hmod : model b = damaged E f (larsonMiller C A B eps)) (s T tr : ℝ) (hs0 : s ≠ 0) (hT : T ≠ 0)
    (htr : 0 < tr) (hr : T * (C T + Real.logb 10 tr) = A T * Real.logb 10 |s| + B T)
    (hold : ∀ k, k < nt → stresses k b = s ∧ temps k b = T) (δ : ℝ)
    (hδ : StepTolerance c (stressFunc model nt times stresses temps) nt times res.get b δ) (k : ℕ) (hk : k < nt)
    (hlt : ∀ j, j ≤ k → res.get j b (Fin.last (n + 1)) < 1) : |res.get k b (Fin.last (n + 1)) - (times k b - times 0 b) / tr| ≤ k * δ := by
  have hrate : ∀ d : ℝ, d < 1 → ∀ τ e, (larsonMiller C A B eps).rate (s / (1 - d)) d τ T e = 1 / tr := by
    intro d hd τ e
    have h1 : 0 < 1 - d := by linarith
    have hsp := abs_pos.2 hs0
    have h2 : |s / (1 - d)| * (1 - d) = |s| := by
      rw [abs_div, abs_of_pos h1, div_mul_cancel₀ _ h1.ne']
    change (10 : ℝ) ^ (C T - B T / T) * (|s / (1 - d)| * (1 - d)) ^ (-A T / T) = _
    rw [h2]
    have h3 : |s| = (10 : ℝ) ^ Real.logb 10 |s| := (Real.rpow_logb (by norm_num) (by norm_num) hsp).symm
    have h4 : tr = (10 : ℝ) ^ Real.logb 10 tr := (Real.rpow_logb (by norm_num) (by norm_num) htr).symm
    have h5 : (|s| : ℝ) ^ (-A T / T) = (10 : ℝ) ^ (Real.logb 10 |s| * (-A T / T)) := by
      conv_lhs => rw [h3]
      rw [← Real.rpow_mul (by norm_num)]
    rw [h5, ← Real.rpow_add (by norm_num), one_div]
    conv_rhs => rw [h4]
    rw [← Real.rpow_neg (by norm_num)]
    congr 1
    have h6 : Real.logb 10 tr = (A T * Real.logb 10 |s| + B T) / T - C T := by
      rw [← hr]; field_simp; ring
    rw [h6]; field_simp; ring
  have z := start_zero c _ nt times blk hb res false h b
  induction k with
  | zero => rw [z]; simp
  | succ k ih =>
    have ih := ih (by omega) fun j hj => hlt j (by omega)
    obtain ⟨e, -, st, -⟩ := C123_stress c hs hm model nt times stresses temps blk hb hg res h b hA δ hδ k hk
    have hl : Fin.last (n + 1) ≠ 0 := Fin.last_pos.ne'
    have st := st (Fin.last (n + 1)) hl
    dsimp only at st
    rw [hmod, damaged_last, Function.update_self, Function.update_of_ne hl, (hold (k + 1) hk).1, (hold (k + 1) hk).2, hrate _ (hlt (k + 1) le_rfl)] at st
    have e1 : res.get (k + 1) b (Fin.last (n + 1)) - (times (k + 1) b - times 0 b) / tr =
        (res.get (k + 1) b (Fin.last (n + 1)) - res.get k b (Fin.last (n + 1)) - (times (k + 1) b - times k b) * (1 / tr)) +
          (res.get k b (Fin.last (n + 1)) - (times k b - times 0 b) / tr) := by ring
    rw [e1]
    refine (abs_add_le _ _).trans ((add_le_add st ih).trans (le_of_eq ?_))
    push_cast; ring

/-- Non-vacuity of `C126_region`: a tension test of a material with one backstress, with static recovery (`E = 100`, `s0 = 10`, `R = 100`, `C = 1000`, `g = 2`), strained
by `1/100` per unit of time: the bound of the stress is `10 + 100 + 500 + 300 (1/100)^(1/5)`. -/
example : ∃ res, solveStrain (β := Unit) { scheme := .backwardEuler, method := .direct .pcr, rtol := 0, atol := 0, miter := 7, throwOnFail := false, guessType := "zero" }
      (fun _ => inelastic (fun _ => 100) (isoKin (fun _ => 5) (fun _ => 300) (fun _ => 10) (voce (fun _ => 100) (fun _ => 10))
        (chabocheRecovery (nback := 1) (fun _ _ => 1000) (fun _ _ => 2) (fun _ _ => 0) fun _ _ => 1))) 5 (fun k _ => k) (fun k _ => k / 100) (fun _ _ => 300) 1 = .ok (res, false) ∧
    res.get 4 () 0 = 4 ∧ ∀ k, k < 5 → |res.get k () 0| ≤ 10 + 100 + 500 + 300 * (1 / 100) ^ (1 / 5 : ℝ) := by
  obtain ⟨res, h1, h2⟩ := C72_elastic_always_solved (β := Unit)
    { scheme := .backwardEuler, method := .direct .pcr, rtol := 0, atol := 0, miter := 7, throwOnFail := false, guessType := "zero" } rfl rfl rfl (by norm_num) rfl
    (fun _ _ => 100) (fun _ _ => 5) (fun _ _ => 300) (fun _ _ => 10) (fun _ _ => 100) (fun _ _ => 10)
    (fun _ (_ : Fin 1) _ => 1000) (fun _ _ _ => 2) 5 (by norm_num) (fun k _ => (k : ℝ)) (fun k _ => k / 100) (fun _ _ => 300)
    (by intro b k hk; push_cast; linarith) (by intros; norm_num) 1 (by norm_num) (fun k _ => (k : ℝ)) (by
      intro k b
      induction k with
      | zero => simp
      | succ k ih => rw [Finset.sum_range_succ, ← ih]; push_cast; ring) (by
      intro j k b hj _
      rw [abs_of_nonneg (by positivity)]
      have : (j : ℝ) ≤ 4 := by exact_mod_cast (by omega : j ≤ 4)
      linarith)
  rw [chaboche_eq_recovery _ _ fun _ _ => 1] at h1
  refine ⟨res, h1, by rw [(h2 4 () (by norm_num)).1]; norm_num, fun k hk => ?_⟩
  have := (C126_region _ rfl (by norm_num) (fun _ _ => 100) (fun _ => isoKin (fun _ => 5) (fun _ => 300) (fun _ => 10) (voce (fun _ => 100) (fun _ => 10))
        (chabocheRecovery (nback := 1) (fun _ _ => 1000) (fun _ _ => 2) (fun _ _ => 0) fun _ _ => 1)) 5 (fun k _ => (k : ℝ)) (fun k _ => k / 100) (fun _ _ => 300) 1 (by norm_num)
    (by intro b k hk; push_cast; linarith) res h1 () _ _ _ _ _ _ _ _ _ rfl (by
      intro k hk
      refine ⟨⟨?_, ?_, ?_, ?_, ?_, ?_, fun i => ?_, fun i => ?_⟩, fun i => ?_⟩ <;> norm_num) 100 (by intros; norm_num) (fun _ => 500) (by intros; norm_num)
    (by intros; norm_num) (1 / 100) (by norm_num) (by
      intro k hk
      push_cast
      rw [abs_of_nonneg (by ring_nf; norm_num)]
      exact le_of_eq (by ring)) (10 + 100 + 500 + 300 * (1 / 100) ^ (1 / 5 : ℝ)) (by intros; simp) 0 ⟨le_rfl, le_rfl, Or.inl rfl⟩ k hk).2.2
  simpa using this

/-- Non-vacuity of `C126_energy`: a cubic creep law with all default options. -/
example : ∃ (c : Config) (res : Partial Unit (0 + 1)) (δ : ℝ), c.rtol = 1e-6 ∧ c.atol = 1e-8 ∧ c.miter = 100 ∧
    solveStrain c (fun _ => inelastic (fun _ => 1) (perfect (fun _ => 3) (fun _ => 1))) 3 (fun k (_ : Unit) => (k : ℝ)) (fun k _ => 1 * k) (fun _ _ => 300) 1 =
      .ok (res, false) ∧
    ∀ k, k < 3 → res.get k () 0 ^ 2 ≤ 2 * (∑ j ∈ Finset.range k, res.get (j + 1) () 0 * (1 * ((j + 1 : ℕ) : ℝ) - 1 * j) +
      ∑ j ∈ Finset.range k, δ * |res.get (j + 1) () 0|) := by
  let c : Config := { scheme := .backwardEuler, method := .direct .thomas, rtol := 1e-6, atol := 1e-8, miter := 100, throwOnFail := true, guessType := "zero" }
  obtain ⟨res, h, -⟩ := C100_defaults c rfl rfl rfl rfl _ _ _ 3 (by norm_num) _ _ _ 1 (by norm_num) _ _ _ _
    (norton_witness 1 1 4 (by norm_num) (by norm_num) (by norm_num) (by norm_num)) (by norm_num)
  obtain ⟨G, hG⟩ := (C123_tolerance_exists c (Func.lift (strainFunc (fun _ => inelastic (fun _ => 1) (perfect (fun _ => 3) (fun _ => 1))) 3
    (fun k (_ : Unit) => (k : ℝ)) (fun k _ => 1 * k) (fun _ _ => 300))) 3 (fun k _ => (k : ℝ)) res.get ()).2 rfl (by norm_num [c]) (by norm_num [c])
  refine ⟨c, res, max c.atol (c.rtol * (G * ((2 : ℕ) - (0 : ℕ)))), rfl, rfl, rfl, h, fun k hk => ?_⟩
  have := (C126_no_energy_created c rfl (by norm_num [c]) (fun _ => fun _ => 1) (fun _ => perfect (fun _ => 3) (fun _ => 1)) 3 _ _ _ 1 (by norm_num)
    (by intro b k hk; push_cast; linarith) res h () 300 (by intros; rfl) one_pos (fun _ => 0) (fun _ _ => 0) (C96_perfect _ _ 300 one_pos) rfl (fun _ => le_rfl) _ hG k hk).2
  simpa using this

/-- A material that damages at rate one, whatever the stress: `LarsonMillerDamage` with `A = B = C = 0`, `E = 100`, no inelastic flow. -/
private noncomputable def ageing : Model 2 :=
  damaged (n := 0) (fun _ => 100) { flow := fun _ _ _ _ _ => 0, dflow_ds := fun _ _ _ _ _ => 0, hist := fun _ _ _ _ _ => 0, dhist_dh := fun _ _ _ _ _ => 0 }
    (larsonMiller (fun _ => 0) (fun _ => 0) (fun _ => 0) 0)

private theorem ageing_func (nt : ℕ) (times temps : ℕ → Unit → ℝ) (n : ℕ) (t : Fin n → Unit → ℝ) (y : Fin n → BVec Unit 2 ℝ) :
    stressFunc (m := 1) (fun _ : Unit => ageing) nt times (fun _ _ => 10) temps n t y = (fun _ _ => ![0, 1], 0) := by
  have hr : ∀ (b : Unit) (s : ℝ), rateFn nt (fun k => times k b) (fun _ => 10) s = 0 := by
    intro b s
    have e : rateData (fun k => times k b) (fun _ => (10 : ℝ)) = fun k => 0 * (0 : ℝ) := by funext k; simp [rateData]
    unfold rateFn
    rw [e]
    exact (Mirror.interpFn_scale _ _ (fun _ => 0) 0 s).trans (zero_mul _)
  have hsol : ∀ cs cT tt : Fin n × Unit → ℝ, (stressSolve (m := 1) (β := Fin n × Unit) (fun _ => ageing) (fun _ => 0) cs cT tt fun p => y p.1 p.2).x = 0 := by
    intro cs cT tt
    unfold stressSolve newtonRaphson
    dsimp only
    change (loop _ _ _ _ _ _ _ (99 + 1) _).1 = 0
    unfold loop
    rw [if_neg]
    rintro ⟨⟨p, hp⟩, -⟩
    unfold gtAtol at hp
    simp only [stressRJ, ageing, damaged, cat3, rowNorm_one] at hp
    norm_num at hp
  have hout : ∀ cs cT tt yy, stressOut (m := 1) ageing cs cT tt yy 0 = (![0, 1], 0) := by
    intro cs cT tt yy
    refine Prod.ext ?_ ?_
    · funext i
      fin_cases i
      · simp [stressOut]
      · simp [stressOut, ageing, damaged, cat3, larsonMiller, Fin.snoc]
    · ext i j
      fin_cases i <;> fin_cases j <;> simp [stressOut, stressJac, ageing, damaged, cat3, larsonMiller, Fin.snoc]
  refine Prod.ext ?_ ?_
  · funext k b
    simp only [stressFunc, stressForward, hr]
    rw [hsol]
    exact congrArg Prod.fst (hout _ _ _ _)
  · funext k b
    simp only [stressFunc, stressForward, hr]
    rw [hsol]
    exact congrArg Prod.snd (hout _ _ _ _)

/-- Non-vacuity of `C126_rupture`: the rupture time of this material is one; after three steps of `1/8` the recorded damage is `3/8`. -/
example : ∃ res : Partial Unit 2,
    solveStress (m := 1) { scheme := .backwardEuler, method := .direct .thomas, rtol := 0, atol := 0, miter := 5, throwOnFail := true, guessType := "zero" } (fun _ : Unit => ageing) 5
      (fun k _ => (k : ℝ) / 8) (fun _ _ => 10) (fun _ _ => 300) 2 = .ok (res, false) ∧ res.get 3 () 1 = 3 / 8 := by
  let c : Config := { scheme := .backwardEuler, method := .direct .thomas, rtol := 0, atol := 0, miter := 5, throwOnFail := true, guessType := "zero" }
  obtain ⟨res, h, h0, hy⟩ := C18_linear_integrate_exact (β := Unit) (m := 2) c rfl rfl rfl (by norm_num [c]) (fun _ _ => 0) (fun _ _ => ![0, 1]) 0 5 (by norm_num)
    (fun k _ => (k : ℝ) / 8) 2 (by norm_num) (Or.inl rfl) (by intros; simp)
  have hF : stressFunc (m := 1) (fun _ : Unit => ageing) 5 (fun k _ => (k : ℝ) / 8) (fun _ _ => 10) (fun _ _ => 300) =
      Func.lift fun (b : Unit) t y => ((0 : Matrix (Fin 2) (Fin 2) ℝ).mulVec y + ![0, 1], 0) := by
    funext n t y
    rw [ageing_func]
    refine Prod.ext ?_ rfl
    funext k b
    simp [Func.lift]
  have hsol : solveStress (m := 1) c (fun _ : Unit => ageing) 5 (fun k _ => (k : ℝ) / 8) (fun _ _ => 10) (fun _ _ => 300) 2 = .ok (res, false) := by
    unfold solveStress
    rw [hF]
    exact h
  have hd : ∀ k, k < 5 → res.get k () 1 = k / 8 := by
    intro k
    induction k with
    | zero => intro _; simp [Partial.get, h0]
    | succ k ih =>
      intro hk
      have := congrFun (hy k () hk) 1
      rw [this]
      simp only [Pi.add_apply, Pi.smul_apply, smul_eq_mul, ih (by omega), Matrix.zero_mulVec, zero_add, Matrix.cons_val_one, Matrix.cons_val_fin_one]
      push_cast; ring
  refine ⟨res, hsol, ?_⟩
  have key := C126_rupture c rfl (by norm_num [c]) (n := 0) (fun _ : Unit => ageing) 5 (fun k _ => (k : ℝ) / 8) (fun _ _ => 10) (fun _ _ => 300) 2 (by norm_num)
    (by intro b k hk; push_cast; linarith) res hsol () (by
      intro k hk
      refine rateAffine_damaged _ _ _ (fun _ _ _ _ _ => rfl) (fun _ _ _ _ _ => rfl) _ _ _ (by norm_num) ?_
      rw [Function.update_of_ne (by simp)]
      have := hd k hk
      change res.get k () 1 ≠ 1
      rw [this]
      have : (k : ℝ) ≤ 4 := by exact_mod_cast (by omega : k ≤ 4)
      intro hc
      linarith) _ _ _ _ _ _ rfl 10 300 1 (by norm_num) (by norm_num) one_pos (by simp) (fun _ _ => ⟨rfl, rfl⟩) 0 ⟨le_rfl, le_rfl, Or.inl rfl⟩ 3 (by norm_num) (by
      intro j hj
      change res.get j () 1 < 1
      rw [hd j (by omega)]
      have : (j : ℝ) ≤ 3 := by exact_mod_cast hj
      linarith)
  have key : |res.get 3 () 1 - (((3 : ℕ) : ℝ) / 8 - ((0 : ℕ) : ℝ) / 8) / 1| ≤ (3 : ℕ) * 0 := key
  rw [mul_zero] at key
  have := abs_nonpos_iff.1 key
  push_cast at this
  linarith

end Pyoptmat.Props
