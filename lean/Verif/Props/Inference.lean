import Verif.Model.Inference
import Verif.Props.Histories
import Verif.Proofs.SmoothFlow
import Verif.Props.Region
import Verif.Props.Elastic
import Verif.Props.Hardening
import Verif.Props.Temperature
import Mathlib.Analysis.Calculus.Deriv.Add
import Mathlib.Analysis.Calculus.Deriv.Mul
import Mathlib.Tactic.NormNum
import Mathlib.Tactic.Positivity

/-!
# C134: the models built by the inference examples are physical for every value of the parameters
-/

namespace Pyoptmat.Props

open Pyoptmat Pyoptmat.Spec Pyoptmat.Material Pyoptmat.Control Pyoptmat.Interp Pyoptmat.Scaling Pyoptmat.Temperature Pyoptmat.Inference

variable {β : Type*}

private theorem unit_eq (p x T : ℝ) : unit p x T = min (max x 0) 1 * p + p / 2 := by
  simp only [unit, forward, constantValue, boundedScaleFunction, clamp]; ring

/-- **C134.** The scaled parameters of the examples: whatever the number handed to `make_model`, the physical parameter is within 50 % of the true one; one half stands for the truth; between 0 and 1 it is
proportional to `1/2 + x`, outside it stops at the limits. -/
theorem C134_scaled (p x T : ℝ) (hp : 0 < p) :
    (p / 2 ≤ unit p x T ∧ unit p x T ≤ 3 / 2 * p) ∧ unit p (1 / 2) T = p ∧
    (0 ≤ x → x ≤ 1 → unit p x T = (1 / 2 + x) * p) ∧ (x ≤ 0 → unit p x T = p / 2) ∧ (1 ≤ x → unit p x T = 3 / 2 * p) := by
  simp only [unit_eq]
  have h0 : 0 ≤ min (max x 0) 1 := le_min (le_max_right _ _) zero_le_one
  have h1 : min (max x 0) 1 ≤ 1 := min_le_right _ _
  refine ⟨⟨by nlinarith, by nlinarith⟩, by norm_num; ring, fun a b => ?_, fun a => ?_, fun a => ?_⟩
  · rw [max_eq_left a, min_eq_left b]; ring
  · rw [max_eq_right a]; norm_num
  · rw [max_eq_left (by linarith), min_eq_right a]; ring

/-- **C134.** Inside the range the parameter has the constant sensitivity `p`; outside the gradient vanishes, so gradient descent never brings a parameter back that has left the range. -/
theorem C134_scaled_gradient (p x T : ℝ) :
    (0 < x → x < 1 → HasDerivAt (fun x => unit p x T) p x) ∧ ((x < 0 ∨ 1 < x) → HasDerivAt (fun x => unit p x T) 0 x) := by
  constructor
  · intro h0 h1
    have h : HasDerivAt (fun x : ℝ => x * p + p / 2) p x := by simpa using ((hasDerivAt_id x).mul_const p).add_const (p / 2)
    refine h.congr_of_eventuallyEq ?_
    filter_upwards [Ioo_mem_nhds h0 h1] with z hz
    rw [unit_eq, max_eq_left hz.1.le, min_eq_left hz.2.le]
  · rintro (h | h)
    · refine (hasDerivAt_const x (p / 2)).congr_of_eventuallyEq ?_
      filter_upwards [Iio_mem_nhds h] with z hz
      rw [unit_eq, max_eq_right (le_of_lt hz)]; norm_num
    · refine (hasDerivAt_const x (p + p / 2)).congr_of_eventuallyEq ?_
      filter_upwards [Ioi_mem_nhds h] with z hz
      rw [unit_eq, max_eq_left (le_of_lt (lt_trans zero_lt_one hz)), min_eq_right (le_of_lt hz)]; ring

example : (unit 200 (-3) 0 = 100 ∧ unit 200 (1 / 4) 0 = 150) ∧ HasDerivAt (fun x => unit 200 x 0) 0 (-3) :=
  ⟨⟨by rw [(C134_scaled 200 (-3) 0 (by norm_num)).2.2.2.1 (by norm_num)]; norm_num,
    by rw [(C134_scaled 200 (1 / 4) 0 (by norm_num)).2.2.1 (by norm_num) (by norm_num)]; norm_num⟩,
   (C134_scaled_gradient 200 (-3) 0).2 (by norm_num)⟩

/-- **C134.** With all numbers one half, the models are the true ones. -/
theorem C134_truth :
    (tensionModel ⟨1 / 2, 1 / 2, 1 / 2, 1 / 2, 1 / 2, 1 / 2⟩ = inelastic (fun _ => 150000) (isoKin (fun _ => 7) (fun _ => 300) (fun _ => 50) (voce (fun _ => 200) fun _ => 5) noKinematic)) ∧
    (creepFatigueModel ⟨1 / 2, 1 / 2, 1 / 2, 1 / 2, 1 / 2, 1 / 2⟩ (fun _ => 1 / 2) (fun _ => 1 / 2) =
      inelastic (fun _ => 150000) (isoKin (fun _ => 7) (fun _ => 300) (fun _ => 50) (voce (fun _ => 200) fun _ => 5)
        (chaboche ![fun _ => 10000, fun _ => 5000, fun _ => 500] ![fun _ => 200, fun _ => 150, fun _ => 5]))) := by
  have e : ∀ p : ℝ, unit p (1 / 2) = fun _ => p := fun p => by
    funext T; rw [unit_eq]; norm_num; ring
  simp only [tensionModel, creepFatigueModel, truth, e]
  refine ⟨trivial, ?_⟩
  congr 3 <;> funext i <;> fin_cases i <;> rfl

/-- **C134.** Between 0 and 1 each number moves its own parameter, from half to one and a half times the truth. -/
theorem C134_model (p : Params) (h : ∀ x ∈ [p.E, p.n, p.eta, p.s0, p.R, p.d], 0 ≤ x ∧ x ≤ 1) (C g : Fin 3 → ℝ) (hC : ∀ i, (0 ≤ C i ∧ C i ≤ 1) ∧ 0 ≤ g i ∧ g i ≤ 1) :
    (tensionModel p = inelastic (fun _ => (1 / 2 + p.E) * 150000) (isoKin (fun _ => (1 / 2 + p.n) * 7) (fun _ => (1 / 2 + p.eta) * 300) (fun _ => (1 / 2 + p.s0) * 50)
      (voce (fun _ => (1 / 2 + p.R) * 200) fun _ => (1 / 2 + p.d) * 5) noKinematic)) ∧
    creepFatigueModel p C g = inelastic (fun _ => (1 / 2 + p.E) * 150000) (isoKin (fun _ => (1 / 2 + p.n) * 7) (fun _ => (1 / 2 + p.eta) * 300) (fun _ => (1 / 2 + p.s0) * 50)
      (voce (fun _ => (1 / 2 + p.R) * 200) fun _ => (1 / 2 + p.d) * 5)
      (chaboche ![fun _ => (1 / 2 + C 0) * 10000, fun _ => (1 / 2 + C 1) * 5000, fun _ => (1 / 2 + C 2) * 500]
        ![fun _ => (1 / 2 + g 0) * 200, fun _ => (1 / 2 + g 1) * 150, fun _ => (1 / 2 + g 2) * 5])) := by
  have e : ∀ q x : ℝ, 0 ≤ x ∧ x ≤ 1 → unit q x = fun _ => (1 / 2 + x) * q := fun q x hx => by
    funext T; rw [unit_eq, max_eq_left hx.1, min_eq_left hx.2]; ring
  simp only [tensionModel, creepFatigueModel, truth, e _ _ (h p.E (by simp)), e _ _ (h p.n (by simp)), e _ _ (h p.eta (by simp)), e _ _ (h p.s0 (by simp)), e _ _ (h p.R (by simp)),
    e _ _ (h p.d (by simp)), fun i => e (CTrue i) (C i) (hC i).1, fun i => e (gTrue i) (g i) (hC i).2]
  refine ⟨trivial, ?_⟩
  congr 3 <;> funext i <;> fin_cases i <;> rfl

theorem noKinematic_eq_chaboche (C g : Fin 0 → ℝ → ℝ) : noKinematic = chaboche C g := by
  unfold noKinematic chaboche
  congr
  all_goals first
    | (funext h; exact Subsingleton.elim (α := Fin 0 → ℝ) _ _)
    | (funext a b c d e f; exact Subsingleton.elim (α := Fin 0 → ℝ) _ _)
    | (funext a b c d e f; exact Subsingleton.elim (α := Matrix (Fin 0) (Fin 0) ℝ) _ _)
    | (funext h; simp)

/-- What the examples rely on: a test simulated with exactly solved backward Euler steps exists and is unique. -/
private theorem exists_unique_of {m : ℕ} {f : β → ℝ → (Fin m → ℝ) → Fin m → ℝ} {nt : ℕ} {t : ℕ → β → ℝ} {y0 : β → Fin m → ℝ}
    (h : (∃ y : ℕ → β → Fin m → ℝ, y 0 = y0 ∧ IsBackwardEuler f nt t y) ∧
      ∀ y y' : ℕ → β → Fin m → ℝ, y 0 = y0 → y' 0 = y0 → IsBackwardEuler f nt t y → IsBackwardEuler f nt t y' → ∀ k, k < nt → y k = y' k) :
    ∃ y : ℕ → β → Fin m → ℝ, (y 0 = y0 ∧ IsBackwardEuler f nt t y) ∧
      ∀ y' : ℕ → β → Fin m → ℝ, y' 0 = y0 → IsBackwardEuler f nt t y' → ∀ k, k < nt → y' k = y k := by
  obtain ⟨⟨y, h0, hy⟩, h2⟩ := h
  exact ⟨y, ⟨h0, hy⟩, fun y' h0' hy' k hk => h2 y' y h0' h0 hy' hy k hk⟩

private theorem rpow_le_max {e n : ℝ} (he : 0 ≤ e) (hn : 1 ≤ n) : e ^ (1 / n) ≤ max 1 e := by
  have hn0 : 0 < n := by linarith
  rcases le_total e 1 with h | h
  · exact (Real.rpow_le_one he h (by positivity)).trans (le_max_left _ _)
  · exact (Real.rpow_le_rpow_of_exponent_le h (by rw [div_le_one hn0]; exact hn) : e ^ (1 / n) ≤ e ^ (1 : ℝ)).trans
      (by rw [Real.rpow_one]; exact le_max_right _ _)

/-- The stress bound for constant parameters. -/
private theorem vc_bound {nk : ℕ} (E n eta s0 R d : ℝ → ℝ) (C g : Fin nk → ℝ → ℝ) (erate temp : β → ℝ → ℝ)
    (nt : ℕ) (t : ℕ → β → ℝ) (ht : ∀ k b, k + 1 < nt → t k b ≤ t (k + 1) b) (y : ℕ → β → Fin (1 + nk + 1) → ℝ) (h0 : y 0 = 0)
    (hy : IsBackwardEuler (fun b s x => (inelastic E (isoKin n eta s0 (voce R d) (chaboche C g)) s x (erate b s) (temp b s)).ydot) nt t y)
    (hp : ∀ k b, k < nt → VCAdmissible E n eta s0 R d C g (temp b (t k b))) (hn : ∀ k b, k < nt → 1 ≤ n (temp b (t k b)))
    (S Rmax H emax : ℝ) (B : Fin nk → ℝ) (hS : ∀ k b, k < nt → s0 (temp b (t k b)) ≤ S) (hR : ∀ k b, k < nt → R (temp b (t k b)) ≤ Rmax)
    (hH : ∀ k b, k < nt → eta (temp b (t k b)) ≤ H) (hC : ∀ k b i, k < nt → C i (temp b (t k b)) ≤ B i * g i (temp b (t k b)))
    (hB : ∀ i, 0 ≤ B i) (hR0 : 0 ≤ Rmax) (hM0 : 0 ≤ S + Rmax + ∑ i, B i + H * max 1 emax)
    (he : ∀ k b, k < nt → |erate b (t k b)| ≤ emax) (k b) (hk : k < nt) :
    |y k b 0| ≤ S + Rmax + ∑ i, B i + H * max 1 emax ∧ (0 ≤ y k b 1 ∧ y k b 1 ≤ Rmax) ∧ ∀ i : Fin nk, |y k b (Fin.natAdd 1 i).succ| ≤ B i := by
  have hy' : IsBackwardEuler (fun b s x =>
      (inelastic E (isoKin n eta s0 (voce R d) (chabocheRecovery C g (fun _ _ => 0) fun _ _ => 1)) s x (erate b s) (temp b s)).ydot) nt t y := by
    intro k b hk
    exact (hy k b hk).trans (by beta_reduce; rw [chaboche_as_recovery])
  have z : ∀ b i, y 0 b i = 0 := fun b i => by rw [h0]; rfl
  refine ⟨C73_stress_bound E n eta s0 R d C g (fun _ _ => 0) (fun _ _ => 1) erate temp nt t ht y hy' (fun k b hk => ⟨hp k b hk, fun _ => le_rfl⟩)
    Rmax hR B hC emax he _ (fun k b hk => ?_) (fun b => ?_) k b hk, ?_, fun i => ?_⟩
  · have h1 := hS k b hk
    have h2 := (hp k b hk).eta
    have h3 := rpow_le_max ((abs_nonneg _).trans (he k b hk)) (hn k b hk)
    have h4 : eta (temp b (t k b)) * emax ^ (1 / n (temp b (t k b))) ≤ H * max 1 emax :=
      mul_le_mul (hH k b hk) h3 (Real.rpow_nonneg ((abs_nonneg _).trans (he k b hk)) _) (h2.le.trans (hH k b hk))
    linarith
  · refine ⟨by rw [z, abs_zero]; exact hM0, by rw [z]; exact ⟨le_rfl, hR0⟩, fun i => by rw [z, abs_zero]; exact hB i⟩
  · exact C39_voce_range E n eta s0 R d (chaboche C g) erate temp nt t ht y hy Rmax (fun k b hk => (hp k b hk).d)
      (fun k b hk => ⟨(hp k b hk).R, hR k b hk⟩) (fun b => by rw [z]; exact ⟨le_rfl, hR0⟩) k b hk
  · exact C40_recovery E n eta s0 (voce R d) C g (fun _ _ => 0) (fun _ _ => 1) erate temp nt t ht y hy' i (B i)
      (fun k b hk => by rw [abs_of_nonneg ((hp k b hk).C i)]; exact hC k b i hk) (fun k b hk => (hp k b hk).g i) (fun _ _ _ => le_rfl)
      (fun b => by rw [z, abs_zero]; exact hB i) k b hk

private theorem unit_range {p : ℝ} (hp : 0 < p) (x T : ℝ) : p / 2 ≤ unit p x T ∧ unit p x T ≤ 3 / 2 * p := (C134_scaled p x T hp).1

private theorem params_adm (p : Params) {nk : ℕ} (C g : Fin nk → ℝ → ℝ) (T : ℝ) (hC : ∀ i, 0 ≤ C i T) (hg : ∀ i, 0 ≤ g i T) :
    VCAdmissible (unit truth.E p.E) (unit truth.n p.n) (unit truth.eta p.eta) (unit truth.s0 p.s0) (unit truth.R p.R) (unit truth.d p.d) C g T := by
  refine ⟨?_, ?_, ?_, ?_, ?_, ?_, hC, hg⟩
  · exact le_trans (by norm_num [truth]) (unit_range (by norm_num [truth]) p.E T).1
  · exact lt_of_lt_of_le (by norm_num [truth]) (unit_range (by norm_num [truth]) p.n T).1
  · exact lt_of_lt_of_le (by norm_num [truth]) (unit_range (by norm_num [truth]) p.eta T).1
  · exact le_trans (by norm_num [truth]) (unit_range (by norm_num [truth]) p.s0 T).1
  · exact le_trans (by norm_num [truth]) (unit_range (by norm_num [truth]) p.R T).1
  · exact le_trans (by norm_num [truth]) (unit_range (by norm_num [truth]) p.d T).1

private theorem params_le (p : Params) (T : ℝ) : 1 ≤ unit truth.n p.n T ∧ unit truth.s0 p.s0 T ≤ 75 ∧ unit truth.R p.R T ≤ 300 ∧ unit truth.eta p.eta T ≤ 450 :=
  ⟨le_trans (by norm_num [truth]) (unit_range (by norm_num [truth]) p.n T).1, (unit_range (by norm_num [truth]) p.s0 T).2.trans (by norm_num [truth]),
   (unit_range (by norm_num [truth]) p.R T).2.trans (by norm_num [truth]), (unit_range (by norm_num [truth]) p.eta T).2.trans (by norm_num [truth])⟩

/-- **C134.** The tension example: whatever numbers the optimizer or the sampler hands to `make_model` (also far outside 0 to 1), for every strain and temperature history and every sequence of times, the
implicit scheme has exactly one solution from the unloaded state, its stress stays within `375 + 450 max(1, emax)` for strain rates up to `emax`, and its isotropic strength within 0 and 300. -/
theorem C134_tension (p : Params) (erate temp : β → ℝ → ℝ) (nt : ℕ) (t : ℕ → β → ℝ) (ht : ∀ k b, k + 1 < nt → t k b ≤ t (k + 1) b) :
    (∃ y : ℕ → β → Fin (1 + 0 + 1) → ℝ, (y 0 = 0 ∧ IsBackwardEuler (fun b s x => (tensionModel p s x (erate b s) (temp b s)).ydot) nt t y) ∧
      ∀ y' : ℕ → β → Fin (1 + 0 + 1) → ℝ, y' 0 = 0 → IsBackwardEuler (fun b s x => (tensionModel p s x (erate b s) (temp b s)).ydot) nt t y' → ∀ k, k < nt → y' k = y k) ∧
    ∀ y : ℕ → β → Fin (1 + 0 + 1) → ℝ, y 0 = 0 → IsBackwardEuler (fun b s x => (tensionModel p s x (erate b s) (temp b s)).ydot) nt t y →
      ∀ emax, (∀ k b, k < nt → |erate b (t k b)| ≤ emax) → ∀ k b, k < nt → |y k b 0| ≤ 375 + 450 * max 1 emax ∧ 0 ≤ y k b 1 ∧ y k b 1 ≤ 300 := by
  have adm := fun T => params_adm p (nk := 0) (fun i => i.elim0) (fun i => i.elim0) T (fun i => i.elim0) fun i => i.elim0
  unfold tensionModel
  rw [noKinematic_eq_chaboche (fun i => i.elim0) fun i => i.elim0]
  constructor
  · exact exists_unique_of (C74_history _ _ _ _ _ _ _ _ erate temp nt t ht (unit truth.R p.R 0) (fun i => i.elim0) (fun k b _ => ⟨adm _, rfl, fun i => i.elim0⟩) 0
      fun b => ⟨⟨le_rfl, (adm 0).R⟩, fun i => i.elim0⟩)
  · intro y h0 hy emax he k b hk
    have h := vc_bound _ _ _ _ _ _ _ _ erate temp nt t ht y h0 hy (fun k b _ => adm _) (fun k b _ => (params_le p _).1) 75 300 450 emax (fun i => i.elim0)
      (fun k b _ => (params_le p _).2.1) (fun k b _ => (params_le p _).2.2.1) (fun k b _ => (params_le p _).2.2.2) (fun k b i => i.elim0) (fun i => i.elim0)
      (by norm_num) (by have := le_max_left 1 emax; simp only [Finset.univ_eq_empty, Finset.sum_empty]; linarith) he k b hk
    simp only [Finset.univ_eq_empty, Finset.sum_empty] at h
    exact ⟨by linarith [h.1], h.2.1⟩

/-- **C134.** The creep-fatigue example likewise: the backstresses stay within 150, 100 and 300, and the stress within `925 + 450 max(1, emax)`. -/
theorem C134_creep_fatigue (p : Params) (C g : Fin 3 → ℝ) (erate temp : β → ℝ → ℝ) (nt : ℕ) (t : ℕ → β → ℝ) (ht : ∀ k b, k + 1 < nt → t k b ≤ t (k + 1) b) :
    (∃ y : ℕ → β → Fin (1 + 3 + 1) → ℝ, (y 0 = 0 ∧ IsBackwardEuler (fun b s x => (creepFatigueModel p C g s x (erate b s) (temp b s)).ydot) nt t y) ∧
      ∀ y' : ℕ → β → Fin (1 + 3 + 1) → ℝ, y' 0 = 0 → IsBackwardEuler (fun b s x => (creepFatigueModel p C g s x (erate b s) (temp b s)).ydot) nt t y' →
        ∀ k, k < nt → y' k = y k) ∧
    ∀ y : ℕ → β → Fin (1 + 3 + 1) → ℝ, y 0 = 0 → IsBackwardEuler (fun b s x => (creepFatigueModel p C g s x (erate b s) (temp b s)).ydot) nt t y →
      ∀ emax, (∀ k b, k < nt → |erate b (t k b)| ≤ emax) → ∀ k b, k < nt →
        |y k b 0| ≤ 925 + 450 * max 1 emax ∧ (0 ≤ y k b 1 ∧ y k b 1 ≤ 300) ∧ |y k b 2| ≤ 150 ∧ |y k b 3| ≤ 100 ∧ |y k b 4| ≤ 300 := by
  have hCt : ∀ i, 0 < CTrue i := by intro i; fin_cases i <;> norm_num [CTrue]
  have hgt : ∀ i, 0 < gTrue i := by intro i; fin_cases i <;> norm_num [gTrue]
  have c1 := fun i T => unit_range (hCt i) (C i) T
  have g1 := fun i T => unit_range (hgt i) (g i) T
  have g0 : ∀ i T, 0 < unit (gTrue i) (g i) T := fun i T => lt_of_lt_of_le (by have := hgt i; positivity) (g1 i T).1
  have c0 : ∀ i T, 0 ≤ unit (CTrue i) (C i) T := fun i T => le_trans (by have := hCt i; positivity) (c1 i T).1
  have adm := fun T => params_adm p (fun i => unit (CTrue i) (C i)) (fun i => unit (gTrue i) (g i)) T (fun i => c0 i T) fun i => (g0 i T).le
  have hsum : ∑ i, (![150, 100, 300] : Fin 3 → ℝ) i = 550 := by
    rw [Fin.sum_univ_three, show (![150, 100, 300] : Fin 3 → ℝ) 2 = 300 from rfl]; norm_num
  unfold creepFatigueModel
  constructor
  · refine exists_unique_of (C74_history _ _ _ _ _ _ _ _ erate temp nt t ht (unit truth.R p.R 0) (fun i => unit (CTrue i) (C i) 0 / unit (gTrue i) (g i) 0)
      (fun k b _ => ⟨adm _, rfl, fun i => ?_⟩) 0 fun b => ⟨⟨le_rfl, (adm 0).R⟩, fun i => ?_⟩)
    · exact (div_mul_cancel₀ _ (g0 i 0).ne').symm
    · rw [show |(0 : β → Fin (1 + 3 + 1) → ℝ) b (Fin.natAdd 1 i).succ| = 0 from abs_zero]
      exact div_nonneg (c0 i 0) (g0 i 0).le
  · intro y h0 hy emax he k b hk
    have h := vc_bound _ _ _ _ _ _ _ _ erate temp nt t ht y h0 hy (fun k b _ => adm _) (fun k b _ => (params_le p _).1) 75 300 450 emax ![150, 100, 300]
      (fun k b _ => (params_le p _).2.1) (fun k b _ => (params_le p _).2.2.1) (fun k b _ => (params_le p _).2.2.2) (fun k b i _ => ?_) (fun i => ?_)
      (by norm_num) (by have := le_max_left 1 emax; rw [hsum]; linarith) he k b hk
    · rw [hsum] at h
      obtain ⟨h1, h2, h3⟩ := h
      refine ⟨?_, h2, h3 0, h3 1, h3 2⟩
      linarith
    · refine (c1 i _).2.trans (le_trans ?_ (mul_le_mul_of_nonneg_left (g1 i _).1 ?_)) <;> fin_cases i <;> norm_num [CTrue, gTrue]
    · fin_cases i <;> norm_num

/-- not vacuous: a sample with numbers far outside the range -/
example : (fun (_ : Unit) (_ : ℝ) => (1e-3 : ℝ)) () 0 ≤ 1 ∧ ∀ k : ℕ, ∀ _ : Unit, k + 1 < 10 → (k : ℝ) ≤ ((k + 1 : ℕ) : ℝ) :=
  ⟨by norm_num, fun k _ _ => by push_cast; linarith⟩

private theorem shear_pos {T : ℝ} (h1 : 773 ≤ T) (h2 : T ≤ 1074) : 0 < shear T ∧ shear T ≤ 83662 ∧ 0 < youngs T := by
  have e1 : shear T = ((-2.19888172e-05 * T + 2.87205489e-02) * T + -3.80960476e+01) * T + 8.36615078e+04 := by
    simp only [shear, poly, polynomialValue, List.foldl_cons, List.foldl_nil, Except.toOption, Option.getD]; ring
  have e2 : youngs T = ((-5.76107011e-05 * T + 7.52478382e-02) * T + -9.98116448e+01) * T + 2.19193150e+05 := by
    simp only [youngs, poly, polynomialValue, List.foldl_cons, List.foldl_nil, Except.toOption, Option.getD]; ring
  have a : 0 ≤ (T - 773) * (1074 - T) := mul_nonneg (by linarith) (by linarith)
  have b : 0 ≤ T * ((T - 773) * (1074 - T)) := mul_nonneg (by linarith) a
  rw [e1, e2]
  refine ⟨?_, ?_, ?_⟩ <;> norm_num <;> nlinarith

private theorem theta0_ydot {n eta s0 E tau theta : ℝ → ℝ} {T : ℝ} (h : tau T ≠ 0) (t : ℝ) (y : Fin (1 + 0 + 1) → ℝ) (e : ℝ) :
    (inelastic E (isoKin n eta s0 (theta0Voce tau theta) noKinematic) t y e T).ydot =
      (inelastic E (isoKin n eta s0 (voce tau fun T => theta T / tau T) noKinematic) t y e T).ydot := by
  have e2 := fun s h' t ep e => (C41_theta0_is_voce tau theta s h' t ep T e h).2.2.1
  have e1 : (theta0Voce tau theta).value = (voce tau fun T => theta T / tau T).value := rfl
  simp only [inelastic, isoKin, isoKinFlow, e1, e2]

/-- **C134.** The temperature-dependent example, for tests at constant temperatures between 773 and 1074 K (the example uses 773 to 1073 K): for all samples of `A` and `B` whatsoever, `H ≥ 0`, `tau0 > 0` and
`Q > 0`, the implicit scheme has exactly one solution from the unloaded state, and the isotropic strength stays within its saturation value `tau0 (1 - exp(-Q/T))`
and the stress within that plus `83662 exp(B) max(1, emax)`. -/
theorem C134_temperature (A B H tau0 Q : ℝ) (hH : 0 ≤ H) (htau : 0 < tau0) (hQ : 0 < Q) (erate : β → ℝ → ℝ) (temp : β → ℝ)
    (hT : ∀ b, 773 ≤ temp b ∧ temp b ≤ 1074) (nt : ℕ) (t : ℕ → β → ℝ) (ht : ∀ k b, k + 1 < nt → t k b ≤ t (k + 1) b) :
    (∃ y : ℕ → β → Fin (1 + 0 + 1) → ℝ, (y 0 = 0 ∧ IsBackwardEuler (fun b s x => (trueModel A B H tau0 Q s x (erate b s) (temp b)).ydot) nt t y) ∧
      ∀ y' : ℕ → β → Fin (1 + 0 + 1) → ℝ, y' 0 = 0 → IsBackwardEuler (fun b s x => (trueModel A B H tau0 Q s x (erate b s) (temp b)).ydot) nt t y' →
        ∀ k, k < nt → y' k = y k) ∧
    ∀ y : ℕ → β → Fin (1 + 0 + 1) → ℝ, y 0 = 0 → IsBackwardEuler (fun b s x => (trueModel A B H tau0 Q s x (erate b s) (temp b)).ydot) nt t y →
      ∀ emax, (∀ k b, k < nt → |erate b (t k b)| ≤ emax) → ∀ k b, k < nt →
        |y k b 0| ≤ tau0 * (1 - Real.exp (-Q / temp b)) + 83662 * Real.exp B * max 1 emax ∧ 0 ≤ y k b 1 ∧ y k b 1 ≤ tau0 * (1 - Real.exp (-Q / temp b)) := by
  have hpos : ∀ {T}, 773 ≤ T → 0 < inverseArrheniusValue tau0 Q T ∧ inverseArrheniusValue tau0 Q T ≤ tau0 := by
    intro T h
    have h1 : Real.exp (-Q / T) < 1 := by rw [Real.exp_lt_one_iff]; exact div_neg_of_neg_of_pos (by linarith) (by linarith)
    have h2 := Real.exp_pos (-Q / T)
    unfold inverseArrheniusValue
    exact ⟨mul_pos htau (by linarith), by nlinarith⟩
  have hn : ∀ {T}, 1 ≤ kmRateValue A shear burgers boltzmann 20 T := fun {T} => ((C53_clipped A shear burgers boltzmann 20 T).1 (by norm_num)).1
  have heta : ∀ {T}, 773 ≤ T → T ≤ 1074 → 0 < kmViscosityValue A B shear eps0 burgers boltzmann T ∧
      kmViscosityValue A B shear eps0 burgers boltzmann T ≤ 83662 * Real.exp B := by
    intro T h1 h2
    obtain ⟨s1, s2, -⟩ := shear_pos h1 h2
    have hk := ((C53_clipped A shear burgers boltzmann 1000 T).1 (by norm_num)).1
    have he : (1 : ℝ) ≤ eps0 := by norm_num [eps0]
    have q1 : eps0 ^ (-1 / kmRateValue A shear burgers boltzmann 1000 T) ≤ 1 :=
      Real.rpow_le_one_of_one_le_of_nonpos he (div_nonpos_of_nonpos_of_nonneg (by norm_num) (by linarith))
    have q0 : 0 < eps0 ^ (-1 / kmRateValue A shear burgers boltzmann 1000 T) := Real.rpow_pos_of_pos (by linarith) _
    have hB := Real.exp_pos B
    simp only [kmViscosityValue, forward]
    refine ⟨by positivity, ?_⟩
    calc Real.exp B * shear T * eps0 ^ (-1 / kmRateValue A shear burgers boltzmann 1000 T)
        ≤ Real.exp B * shear T * 1 := mul_le_mul_of_nonneg_left q1 (by positivity)
      _ ≤ 83662 * Real.exp B := by nlinarith
  have adm : ∀ {T}, 773 ≤ T → T ≤ 1074 → VCAdmissible (nk := 0) youngs (kmRateValue A shear burgers boltzmann 20) (kmViscosityValue A B shear eps0 burgers boltzmann)
      (constantValue (fun p => p) 0) (inverseArrheniusValue tau0 Q) (fun T => shearValue (fun p => p) H shear T / inverseArrheniusValue tau0 Q T)
      (fun i => i.elim0) (fun i => i.elim0) T := by
    intro T h1 h2
    obtain ⟨s1, s2, s3⟩ := shear_pos h1 h2
    exact ⟨s3.le, lt_of_lt_of_le one_pos hn, (heta h1 h2).1, le_rfl, (hpos h1).1.le, div_nonneg (mul_nonneg hH s1.le) (hpos h1).1.le, fun i => i.elim0, fun i => i.elim0⟩
  have key : ∀ y : ℕ → β → Fin (1 + 0 + 1) → ℝ, IsBackwardEuler (fun b s x => (trueModel A B H tau0 Q s x (erate b s) (temp b)).ydot) nt t y ↔
      IsBackwardEuler (fun b s x => (inelastic youngs (isoKin (kmRateValue A shear burgers boltzmann 20) (kmViscosityValue A B shear eps0 burgers boltzmann)
        (constantValue (fun p => p) 0) (voce (inverseArrheniusValue tau0 Q) fun T => shearValue (fun p => p) H shear T / inverseArrheniusValue tau0 Q T)
        (chaboche (fun i : Fin 0 => i.elim0) fun i => i.elim0)) s x (erate b s) ((fun b (_ : ℝ) => temp b) b s)).ydot) nt t y := by
    intro y
    rw [← noKinematic_eq_chaboche]
    refine forall_congr' fun k => forall_congr' fun b => imp_congr_right fun _ => ?_
    beta_reduce
    unfold trueModel
    rw [theta0_ydot (hpos (hT b).1).1.ne']
  simp only [key]
  constructor
  · -- one test at a time: the saturation strength depends on the temperature of the test
    classical
    have one := fun b : β => exists_unique_of (C74_history (β := Unit) youngs (kmRateValue A shear burgers boltzmann 20) (kmViscosityValue A B shear eps0 burgers boltzmann)
      (constantValue (fun p => p) 0) (inverseArrheniusValue tau0 Q) (fun T => shearValue (fun p => p) H shear T / inverseArrheniusValue tau0 Q T)
      (fun i : Fin 0 => i.elim0) (fun i => i.elim0) (fun _ => erate b) (fun _ _ => temp b) nt (fun k _ => t k b) (fun k _ hk => ht k b hk)
      (inverseArrheniusValue tau0 Q (temp b)) (fun i => i.elim0) (fun k _ _ => ⟨adm (hT b).1 (hT b).2, rfl, fun i => i.elim0⟩) 0
      fun _ => ⟨⟨le_rfl, (hpos (hT b).1).1.le⟩, fun i => i.elim0⟩)
    choose Y hY using one
    refine ⟨fun k b => Y b k (), ⟨?_, fun k b hk => (hY b).1.2 k () hk⟩, fun y' h0 hy' k hk => ?_⟩
    · funext b
      exact congrFun (hY b).1.1 ()
    · funext b
      exact congrFun ((hY b).2 (fun k _ => y' k b) (funext fun _ => congrFun h0 b) (fun k _ hk => hy' k b hk) k hk) ()
  · intro y h0 hy emax he k b hk
    have h := vc_bound (β := Unit) _ _ _ _ _ _ _ _ (fun _ => erate b) (fun _ _ => temp b) nt (fun k _ => t k b) (fun k _ hk => ht k b hk) (fun k _ => y k b)
      (funext fun _ => congrFun h0 b) (fun k _ hk => hy k b hk) (fun k _ _ => adm (hT b).1 (hT b).2) (fun k _ _ => hn) 0 (inverseArrheniusValue tau0 Q (temp b)) (83662 * Real.exp B) emax
      (fun i => i.elim0) (fun k _ _ => le_rfl) (fun k _ _ => le_rfl) (fun k _ _ => (heta (hT b).1 (hT b).2).2) (fun k _ i => i.elim0) (fun i => i.elim0)
      (hpos (hT b).1).1.le (by
        have := le_max_left 1 emax; have := Real.exp_pos B; have := (hpos (hT b).1).1; simp only [Finset.univ_eq_empty, Finset.sum_empty]; positivity) (fun k _ hk => he k b hk) k () hk
    simp only [Finset.univ_eq_empty, Finset.sum_empty] at h
    unfold inverseArrheniusValue at h
    exact ⟨by linarith [h.1], h.2.1⟩

/-- not vacuous: the true parameters of the example, at 900 K and the strain rate 1e-3 -/
example : ∃ y : ℕ → Unit → Fin (1 + 0 + 1) → ℝ, IsBackwardEuler (fun _ s x => (trueModel (-3.35) (-3.23) 0.1 1000 800 s x 1e-3 900).ydot) 5 (fun k _ => k) y ∧
    ∀ k < 5, |y k () 0| ≤ 1000 + 83662 * Real.exp (-3.23) := by
  have h := C134_temperature (β := Unit) (-3.35) (-3.23) 0.1 1000 800 (by norm_num) (by norm_num) (by norm_num) (fun _ _ => 1e-3) (fun _ => 900) (fun _ => by norm_num) 5
    (fun k _ => k) (fun k _ _ => by push_cast; linarith)
  obtain ⟨⟨y, ⟨h0, hy⟩, -⟩, h2⟩ := h
  refine ⟨y, hy, fun k hk => ?_⟩
  have := (h2 y h0 hy 1 (fun _ _ _ => by norm_num [abs_of_pos]) k () hk).1
  rw [max_self, mul_one] at this
  have := Real.exp_pos (-800 / 900)
  linarith

/-! ## C135: the data of the inference examples -/

/-- **C135.** `generate_input`: every test starts unstrained at time zero, reaches `emax` in equal strain increments, and has its own constant strain rate: time times rate is strain. Times increase. -/
theorem C135_input (erates : β → ℝ) (emax : ℝ) (ntime : ℕ) (hn : 2 ≤ ntime) (b : β) (hr : 0 < erates b) (he : 0 < emax) :
    let times := fun k => (generateInput erates emax ntime).1 k b
    let strains := fun k => (generateInput erates emax ntime).2 k b
    (times 0 = 0 ∧ strains 0 = 0) ∧ strains (ntime - 1) = emax ∧ (∀ k, erates b * times k = strains k) ∧
    (∀ k, strains (k + 1) - strains k = emax / ((ntime : ℝ) - 1)) ∧ StrictGrid (ntime - 1) times ∧
    ∀ k, (strains (k + 1) - strains k) / (times (k + 1) - times k) = erates b := by
  have hN : (0 : ℝ) < (ntime : ℝ) - 1 := by
    have : (2 : ℝ) ≤ (ntime : ℝ) := by exact_mod_cast hn
    linarith
  have e : ∀ k : ℕ, Experiments.linspace 0 emax ntime k = k * (emax / ((ntime : ℝ) - 1)) := fun k => by
    unfold Experiments.linspace; rw [if_neg (by omega)]; ring
  have hd : 0 < emax / ((ntime : ℝ) - 1) := div_pos he hN
  have inc : ∀ k : ℕ, (k + 1 : ℕ) * (emax / ((ntime : ℝ) - 1)) - k * (emax / ((ntime : ℝ) - 1)) = emax / ((ntime : ℝ) - 1) := fun k => by push_cast; ring
  simp only [generateInput, e]
  refine ⟨⟨by simp, by simp⟩, ?_, fun k => mul_div_cancel₀ _ hr.ne', inc, fun k _ => ?_, fun k => ?_⟩
  · rw [Nat.cast_sub (by omega)]; push_cast; field_simp
  · refine div_lt_div_of_pos_right ?_ hr
    linarith [inc k]
  · rw [← sub_div, inc, div_div_eq_mul_div, mul_div_cancel_left₀ _ hd.ne']

/-- **C135.** These are the strain-rate controlled tests of `make_tension_tests`, all up to the same strain. -/
theorem C135_tension_tests (erates temps : ℕ → ℝ) (emax : ℝ) (ntime : ℕ) :
    generateInput erates emax ntime = ((Experiments.makeTensionTests erates temps (fun _ => emax) ntime).times, (Experiments.makeTensionTests erates temps (fun _ => emax) ntime).loads) := by
  refine Prod.ext (funext fun k => funext fun b => ?_) rfl
  simp only [generateInput, Experiments.makeTensionTests, Experiments.linspace]
  split_ifs <;> ring

/-- **C134.** The tension example as it is run, with whatever tolerances: for every sample of the parameters the data generated by `solve_strain` stay in the physical range, test by test, up to the `δ` per step
that the tolerances permit a step to miss. -/
theorem C134_tension_run (c : Ode.Config) (hs : c.scheme = .backwardEuler) (hm : 0 ≤ c.miter) (p : Params) (erates : β → ℝ)
    (hr : ∀ b, 0 < erates b) (emax : ℝ) (he : 0 < emax) (ntime : ℕ) (hn : 2 ≤ ntime) (temps : ℕ → β → ℝ) (blk : ℤ) (hb : 0 < blk) (res : Ode.Partial β (1 + 0 + 1))
    (h : solveStrain c (fun _ => tensionModel p) ntime (generateInput erates emax ntime).1 (generateInput erates emax ntime).2 temps blk = .ok (res, false))
    (b : β) (δ : ℝ) (hδ : StepTolerance c (Ode.Func.lift (strainFunc (fun _ => tensionModel p) ntime (generateInput erates emax ntime).1 (generateInput erates emax ntime).2 temps)) ntime
      (generateInput erates emax ntime).1 res.get b δ) (k : ℕ) (hk : k < ntime) :
    |res.get k b 0| ≤ 375 + 450 * max 1 (erates b) + k * δ ∧ -(k * δ) ≤ res.get k b 1 ∧ res.get k b 1 ≤ 300 + k * δ := by
  have adm := fun T => params_adm p (nk := 0) (fun i => i.elim0) (fun i => i.elim0) T (fun i => i.elim0) fun i => i.elim0
  unfold tensionModel at h hδ
  rw [noKinematic_eq_chaboche (fun i => i.elim0) fun i => i.elim0, chaboche_eq_recovery _ _ fun _ _ => 1] at h hδ
  have q := C126_region c hs hm _ _ ntime _ _ temps blk hb (fun b => (C135_input erates emax ntime hn b (hr b) he).2.2.2.2.1) res h b _ _ _ _ _ _ _ _ _ rfl
    (fun k _ => ⟨adm _, fun i => i.elim0⟩) 300 (fun k _ => (params_le p _).2.2.1) (fun i => i.elim0) (fun i => i.elim0) (fun k i => i.elim0) (erates b) (hr b).le
    (fun k hk => ?_) (375 + 450 * max 1 (erates b)) (fun k _ => ?_) δ hδ k hk
  · have := q.2.2
    norm_num at this
    exact ⟨this, q.1⟩
  · obtain ⟨-, -, hts, -, hg, -⟩ := C135_input erates emax ntime hn b (hr b) he
    have h1 := hg k (by omega)
    beta_reduce at h1 hts
    rw [← hts (k + 1), ← hts k, ← mul_sub, abs_of_nonneg (mul_nonneg (hr b).le (sub_nonneg.2 h1.le))]
  · obtain ⟨a1, a2, a3, a4⟩ := params_le p (temps k b)
    have h2 := rpow_le_max (hr b).le a1
    have h3 : unit truth.eta p.eta (temps k b) * erates b ^ (1 / unit truth.n p.n (temps k b)) ≤ 450 * max 1 (erates b) :=
      mul_le_mul a4 h2 (Real.rpow_nonneg (hr b).le _) (by norm_num)
    simp only [Finset.univ_eq_empty, Finset.sum_empty]
    linarith

/-- not vacuous: the true material, strained by 3e-4 in four times, is run exactly -/
example : ∃ res : Ode.Partial Unit (1 + 0 + 1),
    solveStrain { scheme := .backwardEuler, method := .direct .pcr, rtol := 0, atol := 0, miter := 7, throwOnFail := false, guessType := "zero" }
      (fun _ => tensionModel ⟨1 / 2, 1 / 2, 1 / 2, 1 / 2, 1 / 2, 1 / 2⟩) 4 (generateInput (fun _ => 1) 3e-4 4).1 (generateInput (fun _ => 1) 3e-4 4).2 (fun _ _ => 0) 1 = .ok (res, false) ∧
    res.get 3 () 0 = 45 ∧ ∀ k, k < 4 → res.get k () 1 ≤ 300 := by
  obtain ⟨-, -, -, hinc, hg, -⟩ := C135_input (fun _ : Unit => (1 : ℝ)) 3e-4 4 (by norm_num) () (by norm_num) (by norm_num)
  obtain ⟨res, h1, h2⟩ := C72_elastic_always_solved (β := Unit)
    { scheme := .backwardEuler, method := .direct .pcr, rtol := 0, atol := 0, miter := 7, throwOnFail := false, guessType := "zero" } rfl rfl rfl (by norm_num) rfl
    (fun _ _ => 150000) (fun _ _ => 7) (fun _ _ => 300) (fun _ _ => 50) (fun _ _ => 200) (fun _ _ => 5)
    (fun _ (i : Fin 0) => i.elim0) (fun _ i => i.elim0) 4 (by norm_num) (generateInput (fun _ => 1) 3e-4 4).1 (generateInput (fun _ => 1) 3e-4 4).2 (fun _ _ => 0)
    (fun _ => hg) (by intros; norm_num) 1 (by norm_num) (fun k _ => 15 * k) (by
      intro k b
      induction k with
      | zero => simp
      | succ k ih => rw [Finset.sum_range_succ, ← ih, hinc]; push_cast; ring) (by
      intro j k b hj _
      rw [abs_of_nonneg (by positivity)]
      have : (j : ℝ) ≤ 3 := by exact_mod_cast (by omega : j ≤ 3)
      linarith)
  rw [← noKinematic_eq_chaboche] at h1
  rw [← C134_truth.1] at h1
  refine ⟨res, h1, by rw [(h2 3 () (by norm_num)).1]; norm_num, fun k hk => ?_⟩
  have := (C134_tension_run _ rfl (by norm_num) _ (fun _ => 1) (fun _ => one_pos) 3e-4 (by norm_num) 4 (by norm_num) _ 1 (by norm_num) res h1 () 0 ⟨le_rfl, le_rfl, Or.inl rfl⟩ k hk).2.2
  simpa using this

/-- **C135.** `flatten` puts entry `(i, j)` at position `i * b + j`. -/
theorem C135_flatten {α : Type*} {a b : ℕ} (x : Fin a → Fin b → α) (i : Fin a) (j : Fin b) (c : Fin (a * b)) (hc : c.val = i.val * b + j.val) : flatten x c = x i j := by
  have : c = finProdFinEquiv (i, j) := by
    ext; rw [hc]; simp [finProdFinEquiv]; ring
  rw [this]; simp [flatten]

/-- **C135.** `downsample` keeps, of every strain rate, the first `nkeep` samples (all if there are fewer), the rates in order; `load_subset_data` does the same for the data with separate dimensions. -/
theorem C135_downsample {α : Type*} (nkeep nrates nsamples : ℕ) (data : Fin (nrates * nsamples) → α) (i j : ℕ) (hi : i < nrates) (hj : j < min nkeep nsamples)
    (c : Fin (nrates * min nkeep nsamples)) (hc : c.val = i * min nkeep nsamples + j) (d : Fin (nrates * nsamples)) (hd : d.val = i * nsamples + j) :
    downsample nkeep nrates nsamples data c = data d := by
  unfold downsample
  rw [C135_flatten _ ⟨i, hi⟩ ⟨j, hj⟩ c hc]
  refine congrArg data (Fin.ext ?_)
  rw [hd]; simp [finProdFinEquiv]; ring

/-- **C135.** Loading a subset of the samples is downsampling the flattened table. -/
theorem C135_load_subset {α : Type*} (nkeep nrates nsamples : ℕ) (x : Fin nrates → Fin nsamples → α) :
    loadSubset nkeep x = downsample nkeep nrates nsamples (flatten x) := by
  unfold loadSubset downsample
  congr 1
  funext i
  congr 1
  funext j
  simp [flatten]

private theorem regroup {m n x y : ℕ} (hm : 0 < m) (hmn : m ≤ n) (h : x < y) : x % m + n * (x / m) < y % m + n * (y / m) := by
  have l1 := Nat.mod_lt x hm
  have a1 := Nat.div_add_mod x m
  have a2 := Nat.div_add_mod y m
  rcases lt_or_eq_of_le (Nat.div_le_div_right (c := m) h.le) with h' | h'
  · have : n * (x / m + 1) ≤ n * (y / m) := Nat.mul_le_mul_left _ h'
    rw [Nat.mul_add, Nat.mul_one] at this
    omega
  · rw [h'] at a1 ⊢; omega

/-- **C135.** All arrays are thinned out alike and in order: there is one increasing list of positions, those of samples less than `nkeep`, whatever the array. So times, strains, stresses, cycles and labels still
belong together. -/
theorem C135_alike (nkeep nrates nsamples : ℕ) : ∃ φ : Fin (nrates * min nkeep nsamples) → Fin (nrates * nsamples), StrictMono φ ∧
    (∀ d, (∃ c, φ c = d) ↔ d.val % nsamples < nkeep) ∧ ∀ (α : Type) (data : Fin (nrates * nsamples) → α), downsample nkeep nrates nsamples data = fun c => data (φ c) := by
  have pos : ∀ _ : Fin (nrates * min nkeep nsamples), 0 < min nkeep nsamples := fun c => by
    have h := c.isLt
    generalize min nkeep nsamples = m at *
    rcases Nat.eq_zero_or_pos m with rfl | h'
    · omega
    · exact h'
  refine ⟨downsample nkeep nrates nsamples id, fun c c' hcc => ?_, fun d => ⟨?_, fun hd => ?_⟩, fun α data => rfl⟩
  · simp only [downsample, flatten, upTo, id]
    rw [Fin.lt_def] at hcc ⊢
    simp only [finProdFinEquiv, Equiv.coe_fn_mk, Equiv.coe_fn_symm_mk, Fin.coe_divNat, Fin.coe_modNat]
    exact regroup (pos c) (min_le_right _ _) hcc
  · rintro ⟨c, rfl⟩
    simp only [downsample, flatten, upTo, id, finProdFinEquiv, Equiv.coe_fn_mk, Equiv.coe_fn_symm_mk, Fin.coe_divNat, Fin.coe_modNat]
    have l1 := Nat.mod_lt c.val (pos c)
    have h1 : min nkeep nsamples ≤ nkeep := min_le_left _ _
    have h2 : min nkeep nsamples ≤ nsamples := min_le_right _ _
    rw [Nat.add_mul_mod_self_left, Nat.mod_eq_of_lt (by omega)]
    omega
  · have hlt : d.val < nsamples * nrates := d.isLt.trans_eq (Nat.mul_comm _ _)
    have hns : 0 < nsamples := Nat.pos_of_mul_pos_right (Nat.zero_lt_of_lt hlt)
    have hi : d.val / nsamples < nrates := Nat.div_lt_of_lt_mul hlt
    have hj : d.val % nsamples < min nkeep nsamples := lt_min hd (Nat.mod_lt _ hns)
    have hc : d.val / nsamples * min nkeep nsamples + d.val % nsamples < nrates * min nkeep nsamples := by
      have : (d.val / nsamples + 1) * min nkeep nsamples ≤ nrates * min nkeep nsamples := Nat.mul_le_mul_right _ hi
      rw [Nat.add_mul, Nat.one_mul] at this
      omega
    refine ⟨⟨_, hc⟩, ?_⟩
    exact C135_downsample nkeep nrates nsamples id _ _ hi hj _ rfl d (by have := Nat.div_add_mod d.val nsamples; rw [Nat.mul_comm] at this; exact this.symm)

/-- two rates, three samples, two of them kept -/
example : downsample 2 2 3 ![10, 11, 12, 20, 21, 22] = ![10, 11, 20, 21] := by
  funext c
  fin_cases c <;> rfl

end Pyoptmat.Props
