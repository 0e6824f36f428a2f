import Verif.Proofs.Histories
import Mathlib.Analysis.SpecialFunctions.Log.NegMulLog
import Mathlib.Analysis.SpecialFunctions.Pow.Deriv
import Mathlib.Analysis.SpecialFunctions.Pow.Continuity
import Mathlib.Analysis.Calculus.ContDiff.Basic

/-!
# Lemmas: the viscoplastic rate is continuously differentiable in parameters and state together
-/

namespace Pyoptmat

open Topology Filter Material Spec

/-- Derivative of `z₊ ^ a`, jointly in `a` and `z`. -/
private noncomputable def posPowD (x : ℝ × ℝ) : ℝ × ℝ →L[ℝ] ℝ :=
  (max x.2 0 ^ (x.1 - 1) * (max x.2 0 * Real.log (max x.2 0))) • ContinuousLinearMap.fst ℝ ℝ ℝ + (x.1 * max x.2 0 ^ (x.1 - 1)) • ContinuousLinearMap.snd ℝ ℝ ℝ

private theorem powPred_continuousAt (x : ℝ × ℝ) (h : 1 < x.1) : ContinuousAt (fun x : ℝ × ℝ => max x.2 0 ^ (x.1 - 1)) x := by
  have h1 : ContinuousAt (fun x : ℝ × ℝ => max x.2 0) x := (continuous_snd.max continuous_const).continuousAt
  have h2 : ContinuousAt (fun x : ℝ × ℝ => x.1 - 1) x := (continuous_fst.sub continuous_const).continuousAt
  exact h1.rpow h2 (Or.inr (by linarith))

private theorem posPowD_continuousAt (x : ℝ × ℝ) (h : 1 < x.1) : ContinuousAt posPowD x := by
  have h1 : ContinuousAt (fun x : ℝ × ℝ => max x.2 0) x := (continuous_snd.max continuous_const).continuousAt
  have h3 : ContinuousAt (fun x : ℝ × ℝ => max x.2 0 * Real.log (max x.2 0)) x := ContinuousAt.comp (g := fun w : ℝ => w * Real.log w) Real.continuous_mul_log.continuousAt h1
  exact (((powPred_continuousAt x h).mul h3).smul continuousAt_const).add ((continuousAt_fst.mul (powPred_continuousAt x h)).smul continuousAt_const)

private theorem posPow_hasFDerivAt (x : ℝ × ℝ) (h : 1 < x.1) : HasFDerivAt (fun x : ℝ × ℝ => max x.2 0 ^ x.1) (posPowD x) x := by
  rcases lt_trichotomy x.2 0 with hz | hz | hz
  · have e : ∀ᶠ y : ℝ × ℝ in 𝓝 x, max y.2 0 ^ y.1 = 0 := by
      filter_upwards [continuousAt_snd.eventually (gt_mem_nhds hz), continuousAt_fst.eventually (lt_mem_nhds h)] with y hy hy1
      rw [max_eq_right (le_of_lt hy), Real.zero_rpow (by linarith)]
    have hD : posPowD x = 0 := by
      rw [posPowD, max_eq_right hz.le, Real.zero_rpow (by linarith)]
      simp
    rw [hD]
    exact (hasFDerivAt_const (0 : ℝ) x).congr_of_eventuallyEq e
  · have hD : posPowD x = 0 := by
      rw [posPowD, hz, max_self, Real.zero_rpow (by linarith)]
      simp
    rw [hD, hasFDerivAt_iff_isLittleO_nhds_zero]
    have e0 : (max x.2 0 : ℝ) ^ x.1 = 0 := by rw [hz, max_self, Real.zero_rpow (by linarith)]
    have hc : Tendsto (fun v : ℝ × ℝ => max (x + v).2 0 ^ ((x + v).1 - 1)) (𝓝 0) (𝓝 0) := by
      have h1 : ContinuousAt (fun v : ℝ × ℝ => x + v) 0 := (continuous_const.add continuous_id).continuousAt
      have := (ContinuousAt.comp (f := fun v : ℝ × ℝ => x + v) (g := fun x : ℝ × ℝ => max x.2 0 ^ (x.1 - 1)) (x := 0)
        (by rw [add_zero]; exact powPred_continuousAt x h) h1).tendsto
      simp only [Function.comp_def, add_zero, hz, max_self, Real.zero_rpow (show x.1 - 1 ≠ 0 by linarith)] at this
      exact this
    have hlo : (fun v : ℝ × ℝ => max (x + v).2 0 ^ ((x + v).1 - 1) * v.2) =o[𝓝 0] fun v => v := by
      have h1 : (fun v : ℝ × ℝ => max (x + v).2 0 ^ ((x + v).1 - 1)) =o[𝓝 0] fun _ => (1 : ℝ) := (Asymptotics.isLittleO_one_iff ℝ).2 hc
      have h2 : (fun v : ℝ × ℝ => v.2) =O[𝓝 0] fun v => ‖v‖ := (Asymptotics.isBigO_of_le _ fun v => by
        rw [norm_norm]; exact norm_snd_le v)
      have := h1.mul_isBigO h2
      simp only [one_mul] at this
      exact this.of_norm_right
    refine Asymptotics.IsLittleO.congr' (f₁ := fun v : ℝ × ℝ => max (x + v).2 0 ^ ((x + v).1 - 1) * max v.2 0) ?_ ?_ EventuallyEq.rfl
    · refine (Asymptotics.isBigO_of_le _ fun v => ?_).trans_isLittleO hlo
      rw [norm_mul, norm_mul]
      refine mul_le_mul_of_nonneg_left ?_ (norm_nonneg _)
      rw [Real.norm_eq_abs, Real.norm_eq_abs, abs_of_nonneg (le_max_right _ _)]
      exact max_le (le_abs_self _) (abs_nonneg _)
    · have hev : ∀ᶠ v : ℝ × ℝ in 𝓝 0, 1 < (x + v).1 := by
        have h1 : ContinuousAt (fun v : ℝ × ℝ => (x + v).1) 0 := (continuous_fst.comp (continuous_const.add continuous_id)).continuousAt
        exact h1.eventually (lt_mem_nhds (by simpa using h))
      filter_upwards [hev] with v hv
      have e1 : (x + v).2 = v.2 := by simp [hz]
      rw [e1, e0, ContinuousLinearMap.zero_apply, sub_zero, sub_zero]
      rcases le_or_gt v.2 0 with hv2 | hv2
      · rw [max_eq_right hv2, mul_zero, Real.zero_rpow (by linarith)]
      · rw [max_eq_left hv2.le, Real.rpow_sub_one hv2.ne', div_mul_cancel₀ _ hv2.ne']
  · have e : (fun y : ℝ × ℝ => max y.2 0 ^ y.1) =ᶠ[𝓝 x] fun y => y.2 ^ y.1 := by
      filter_upwards [continuousAt_snd.eventually (lt_mem_nhds hz)] with y hy
      rw [max_eq_left (le_of_lt hy)]
    have h1 := (Real.hasStrictFDerivAt_rpow_of_pos (x.2, x.1) hz).hasFDerivAt
    have h2 : HasFDerivAt (fun y : ℝ × ℝ => (y.2, y.1)) ((ContinuousLinearMap.snd ℝ ℝ ℝ).prod (ContinuousLinearMap.fst ℝ ℝ ℝ)) x :=
      ((ContinuousLinearMap.snd ℝ ℝ ℝ).prod (ContinuousLinearMap.fst ℝ ℝ ℝ)).hasFDerivAt
    have h3 := HasFDerivAt.comp (g := fun y : ℝ × ℝ => y.1 ^ y.2) x h1 h2
    refine (HasFDerivAt.congr_of_eventuallyEq h3 e).congr_fderiv (ContinuousLinearMap.ext fun v => ?_)
    simp only [posPowD, max_eq_left hz.le]
    simp
    rw [Real.rpow_sub_one hz.ne']
    field_simp
    ring

/-- `z₊ ^ a` is continuously differentiable in `(a, z)` for exponents above one. -/
theorem posPow_contDiffAt (x : ℝ × ℝ) (h : 1 < x.1) : ContDiffAt ℝ 1 (fun x : ℝ × ℝ => max x.2 0 ^ x.1) x := by
  rw [contDiffAt_one_iff]
  refine ⟨posPowD, {y | 1 < y.1}, continuousAt_fst.eventually (lt_mem_nhds h), fun y hy => (posPowD_continuousAt y hy).continuousWithinAt, fun y hy => posPow_hasFDerivAt y hy⟩

variable {X : Type*} [NormedAddCommGroup X] [NormedSpace ℝ X]

theorem posPow_comp {a z : X → ℝ} {x : X} (ha : ContDiffAt ℝ 1 a x) (hz : ContDiffAt ℝ 1 z x) (h : 1 < a x) :
    ContDiffAt ℝ 1 (fun x => max (z x) 0 ^ a x) x :=
  ContDiffAt.comp (g := fun x : ℝ × ℝ => max x.2 0 ^ x.1) x (posPow_contDiffAt (a x, z x) h) (ha.prodMk hz)

theorem overflow_posPow {n eta u w : ℝ} (hn : 0 < n) (heta : 0 < eta) (hw : 0 ≤ w) :
    overflow n eta (u, w) = max ((u - w) / eta) 0 ^ n - max ((-u - w) / eta) 0 ^ n ∧
    |overflow n eta (u, w)| = max ((u - w) / eta) 0 ^ n + max ((-u - w) / eta) 0 ^ n := by
  have key : ∀ u, w < u → overflow n eta (u, w) = max ((u - w) / eta) 0 ^ n ∧ max ((-u - w) / eta) 0 ^ n = 0 := by
    intro u h
    rw [overflow_of_gt heta hw h, max_eq_left (div_nonneg (by linarith) heta.le),
      max_eq_right (div_nonpos_of_nonpos_of_nonneg (by linarith) heta.le), Real.zero_rpow hn.ne']
    exact ⟨rfl, rfl⟩
  have hnn : ∀ z : ℝ, 0 ≤ max z 0 ^ n := fun z => Real.rpow_nonneg (le_max_right _ _) _
  rcases lt_or_ge w u with h | h
  · obtain ⟨h1, h2⟩ := key u h
    rw [h1, h2, abs_of_nonneg (hnn _)]
    simp
  · rcases lt_or_ge w (-u) with h' | h'
    · obtain ⟨h1, h2⟩ := key (-u) h'
      rw [overflow_neg] at h1
      rw [neg_neg] at h2
      have h3 : overflow n eta (u, w) = -max ((-u - w) / eta) 0 ^ n := by linarith
      rw [h3, h2, abs_neg, abs_of_nonneg (hnn _)]
      simp
    · rw [overflow_of_le hn heta (abs_le.2 ⟨by linarith, h⟩), max_eq_right (div_nonpos_of_nonpos_of_nonneg (by linarith) heta.le),
        max_eq_right (div_nonpos_of_nonpos_of_nonneg (by linarith) heta.le), Real.zero_rpow hn.ne']
      simp

private theorem overflow_both {n eta u w : X → ℝ} {x : X} (hn : ContDiffAt ℝ 1 n x) (he : ContDiffAt ℝ 1 eta x) (hu : ContDiffAt ℝ 1 u x) (hw : ContDiffAt ℝ 1 w x)
    (n1 : 1 < n x) (e0 : 0 < eta x) (w0 : ∀ᶠ y in 𝓝 x, 0 ≤ w y) :
    ContDiffAt ℝ 1 (fun x => overflow (n x) (eta x) (u x, w x)) x ∧ ContDiffAt ℝ 1 (fun x => |overflow (n x) (eta x) (u x, w x)|) x := by
  have a := posPow_comp hn ((hu.sub hw).div he e0.ne') n1
  have b := posPow_comp hn ((hu.neg.sub hw).div he e0.ne') n1
  have ev : ∀ᶠ y in 𝓝 x, 1 < n y ∧ 0 < eta y ∧ 0 ≤ w y :=
    (hn.continuousAt.eventually (lt_mem_nhds n1)).and ((he.continuousAt.eventually (lt_mem_nhds e0)).and w0)
  refine ⟨(a.sub b).congr_of_eventuallyEq ?_, (a.add b).congr_of_eventuallyEq ?_⟩
  · filter_upwards [ev] with y ⟨h1, h2, h3⟩
    exact (overflow_posPow (by linarith) h2 h3).1
  · filter_upwards [ev] with y ⟨h1, h2, h3⟩
    exact (overflow_posPow (by linarith) h2 h3).2

/-- the overstress function, composed with smooth parameters, stress and strength -/
theorem overflow_contDiffAt {n eta u w : X → ℝ} {x : X} (hn : ContDiffAt ℝ 1 n x) (he : ContDiffAt ℝ 1 eta x) (hu : ContDiffAt ℝ 1 u x) (hw : ContDiffAt ℝ 1 w x)
    (n1 : 1 < n x) (e0 : 0 < eta x) (w0 : ∀ᶠ y in 𝓝 x, 0 ≤ w y) :
    ContDiffAt ℝ 1 (fun x => overflow (n x) (eta x) (u x, w x)) x := (overflow_both hn he hu hw n1 e0 w0).1

theorem abs_overflow_contDiffAt {n eta u w : X → ℝ} {x : X} (hn : ContDiffAt ℝ 1 n x) (he : ContDiffAt ℝ 1 eta x) (hu : ContDiffAt ℝ 1 u x) (hw : ContDiffAt ℝ 1 w x)
    (n1 : 1 < n x) (e0 : 0 < eta x) (w0 : ∀ᶠ y in 𝓝 x, 0 ≤ w y) :
    ContDiffAt ℝ 1 (fun x => |overflow (n x) (eta x) (u x, w x)|) x := (overflow_both hn he hu hw n1 e0 w0).2

/-- the static recovery term -/
theorem recovery_contDiffAt {r z : X → ℝ} {x : X} (hr : ContDiffAt ℝ 1 r x) (hz : ContDiffAt ℝ 1 z x) (r1 : 1 < r x) :
    ContDiffAt ℝ 1 (fun x => |z x| ^ (r x - 1) * z x) x := by
  refine ((posPow_comp hr hz r1).sub (posPow_comp hr hz.neg r1)).congr_of_eventuallyEq ?_
  filter_upwards [hr.continuousAt.eventually (lt_mem_nhds r1)] with y hy
  have hy : 1 < r y := hy
  rcases lt_trichotomy (z y) 0 with h | h | h
  · rw [abs_of_neg h, max_eq_right h.le, max_eq_left (by linarith), Real.zero_rpow (by linarith), Real.rpow_sub_one (by linarith)]
    have h0 : z y ≠ 0 := h.ne
    field_simp
    ring
  · simp [h, Real.zero_rpow (show r y ≠ 0 by linarith)]
  · rw [abs_of_pos h, max_eq_left h.le, max_eq_right (by linarith), Real.zero_rpow (show r y ≠ 0 by linarith), Real.rpow_sub_one h.ne']
    field_simp
    ring

namespace Material

variable {nk : ℕ}

/-- The rates of the Voce–Chaboche material with static recovery depend continuously differentiably on everything. -/
theorem vc_contDiffAt (E n eta s0 R d : X → ℝ → ℝ) (C g bb r : X → Fin nk → ℝ → ℝ) (t T : ℝ) (e : X → ℝ) (y : X → Fin (1 + nk + 1) → ℝ) (x : X)
    (hE : ContDiffAt ℝ 1 (fun x => E x T) x) (hn : ContDiffAt ℝ 1 (fun x => n x T) x) (heta : ContDiffAt ℝ 1 (fun x => eta x T) x)
    (hs : ContDiffAt ℝ 1 (fun x => s0 x T) x) (hR : ContDiffAt ℝ 1 (fun x => R x T) x) (hd : ContDiffAt ℝ 1 (fun x => d x T) x)
    (hC : ∀ i, ContDiffAt ℝ 1 (fun x => C x i T) x) (hg : ∀ i, ContDiffAt ℝ 1 (fun x => g x i T) x)
    (hb : ∀ i, ContDiffAt ℝ 1 (fun x => bb x i T) x) (hr : ∀ i, ContDiffAt ℝ 1 (fun x => r x i T) x) (he : ContDiffAt ℝ 1 e x) (hy : ContDiffAt ℝ 1 y x)
    (n1 : 1 < n x T) (e0 : 0 < eta x T) (w0 : 0 < s0 x T + y x 1) (r1 : ∀ i, 1 < r x i T) :
    ContDiffAt ℝ 1 (fun x => (inelastic (E x) (isoKin (n x) (eta x) (s0 x) (voce (R x) (d x)) (chabocheRecovery (C x) (g x) (bb x) (r x))) t (y x) (e x) T).ydot) x := by
  have hyi : ∀ i, ContDiffAt ℝ 1 (fun x => y x i) x := contDiffAt_pi.1 hy
  have hu : ContDiffAt ℝ 1 (fun x => y x 0 - ∑ i : Fin nk, y x (Fin.natAdd 1 i).succ) x := (hyi 0).sub (ContDiffAt.sum fun i _ => hyi _)
  have hw : ContDiffAt ℝ 1 (fun x => s0 x T + y x 1) x := hs.add (hyi 1)
  have ew : ∀ᶠ z in 𝓝 x, 0 ≤ s0 z T + y z 1 := by
    filter_upwards [hw.continuousAt.eventually (lt_mem_nhds w0)] with z hz using le_of_lt hz
  have hp : ContDiffAt ℝ 1 (fun x => vcFlow (n x) (eta x) (s0 x) (y x) T) x := overflow_contDiffAt hn heta hu hw n1 e0 ew
  have ha : ContDiffAt ℝ 1 (fun x => |vcFlow (n x) (eta x) (s0 x) (y x) T|) x := abs_overflow_contDiffAt hn heta hu hw n1 e0 ew
  rw [contDiffAt_pi]
  intro j
  refine cases_vc ?_ ?_ (fun i => ?_) j
  · refine (hE.mul (he.sub hp)).congr_of_eventuallyEq (Eventually.of_forall fun z => ?_)
    exact (vc_ydot (E z) (n z) (eta z) (s0 z) (R z) (d z) (C z) (g z) (bb z) (r z) t (y z) (e z) T).1
  · refine ((hd.mul (hR.sub (hyi 1))).mul ha).congr_of_eventuallyEq (Eventually.of_forall fun z => ?_)
    exact (vc_ydot (E z) (n z) (eta z) (s0 z) (R z) (d z) (C z) (g z) (bb z) (r z) t (y z) (e z) T).2.1
  · refine ((((hC i).mul hp).sub (((hg i).mul (hyi (Fin.natAdd 1 i).succ)).mul ha)).sub ((hb i).mul (recovery_contDiffAt (hr i) (hyi (Fin.natAdd 1 i).succ) (r1 i)))).congr_of_eventuallyEq
      (Eventually.of_forall fun z => ?_)
    refine ((vc_ydot (E z) (n z) (eta z) (s0 z) (R z) (d z) (C z) (g z) (bb z) (r z) t (y z) (e z) T).2.2 i).trans ?_
    simp only [Pi.sub_apply, Pi.mul_apply]
    ring

private theorem sum_vc (a : Fin (1 + nk + 1) → ℝ) : ∑ j, a j = a 0 + (a 1 + ∑ i : Fin nk, a (Fin.natAdd 1 i).succ) := by
  rw [Fin.sum_univ_succ, Fin.sum_univ_add, one_eq_iso]
  simp

/-- The Jacobian of the material applied to a direction `v`; `df` is the change of the inelastic rate. -/
theorem vc_J_mulVec (E n eta s0 R d : ℝ → ℝ) (C g bb r : Fin nk → ℝ → ℝ) (t : ℝ) (y : Fin (1 + nk + 1) → ℝ) (e T : ℝ) (v : Fin (1 + nk + 1) → ℝ) :
    let o := inelastic E (isoKin n eta s0 (voce R d) (chabocheRecovery C g bb r)) t y e T
    let u := y 0 - ∑ i : Fin nk, y (Fin.natAdd 1 i).succ
    let F := n T * macaulay ((|u| - s0 T - y 1) / eta T) ^ (n T - 1) / eta T
    let p := vcFlow n eta s0 y T
    let df := F * (v 0 - ∑ i : Fin nk, v (Fin.natAdd 1 i).succ - sgn u * v 1)
    o.J.mulVec v 0 = -E T * df ∧ o.J.mulVec v 1 = -d T * |p| * v 1 + d T * (R T - y 1) * sgn p * df ∧
    ∀ i : Fin nk, o.J.mulVec v (Fin.natAdd 1 i).succ = -(g i T * |p| + bb i T * r i T * |y (Fin.natAdd 1 i).succ| ^ (r i T - 1)) * v (Fin.natAdd 1 i).succ +
      (C i T - g i T * y (Fin.natAdd 1 i).succ * sgn p) * df := by
  intro o u F p df
  have hp : isoKinFlow n eta s0 (voce R d) (chabocheRecovery C g bb r) (y 0) (fun j => y j.succ) T = p := by
    simp only [p]
    rw [isoKinFlow_eq, vcFlow, one_eq_iso]; rfl
  have hds : isoKinDs n eta s0 (voce R d) (chabocheRecovery C g bb r) (y 0) (fun j => y j.succ) T = F := by
    simp only [F, u]
    rw [one_eq_iso]; rfl
  have hdi : isoKinDiso n eta s0 (voce R d) (chabocheRecovery C g bb r) (y 0) (fun j => y j.succ) T = -F * sgn u := by
    rw [← hds]
    simp only [isoKinDs, isoKinDiso, u, chabocheRecovery, kinPart]
    ring
  have hdk : isoKinDkin n eta s0 (voce R d) (chabocheRecovery C g bb r) (y 0) (fun j => y j.succ) T = -F := by
    rw [← hds]
    simp only [isoKinDs, isoKinDkin]
    ring
  refine ⟨?_, ?_, fun i => ?_⟩
  · rw [Matrix.mulVec, dotProduct, sum_vc]
    rw [one_eq_iso]
    simp only [o, inelastic, isoKin, Fin.cons_zero, Fin.cons_succ, Fin.append_left, Fin.append_right, hds, hdi, hdk]
    simp only [voce, chabocheRecovery, df]
    rw [one_eq_iso]
    simp only [mul_one, mul_sub, Finset.mul_sum, mul_neg, neg_mul, neg_neg, Finset.sum_neg_distrib, Finset.sum_sub_distrib, sub_neg_eq_add]
    simp only [← mul_assoc]
    ring
  · rw [Matrix.mulVec, dotProduct, sum_vc]
    rw [one_eq_iso]
    simp only [o, inelastic, isoKin, Fin.cons_zero, Fin.cons_succ, Fin.append_left, Fin.append_right, hds, hdi, hdk, hp]
    simp only [voce, chabocheRecovery, df, isoPart]
    rw [one_eq_iso]
    have e0 : (!![-d T * 1 * |p|] : Matrix (Fin 1) (Fin 1) ℝ) 0 0 = -d T * 1 * |p| := rfl
    rw [e0]
    simp only [Pi.zero_apply, mul_one, ← Finset.mul_sum]
    ring
  · rw [Matrix.mulVec, dotProduct, sum_vc]
    rw [one_eq_iso]
    simp only [o, inelastic, isoKin, Fin.cons_zero, Fin.cons_succ, Fin.append_left, Fin.append_right, hds, hdi, hdk, hp]
    simp only [voce, chabocheRecovery, df, kinPart]
    rw [one_eq_iso]
    simp only [Pi.zero_apply, mul_one, add_mul, Finset.sum_add_distrib, ← Finset.mul_sum, Matrix.add_apply, Matrix.diagonal_apply, ite_mul, zero_mul, Finset.sum_ite_eq, Finset.mem_univ, if_true]
    ring

/-- A direction that a step of size `dt` does not see is zero: the only property of the first row used is `v 0 = -k df` with `k ≥ 0`. -/
private theorem vc_kernel (n eta s0 R d : ℝ → ℝ) (C g bb r : Fin nk → ℝ → ℝ) (y : Fin (1 + nk + 1) → ℝ) (T dt k : ℝ) (v : Fin (1 + nk + 1) → ℝ)
    (hdt : 0 ≤ dt) (hk : 0 ≤ k) (hn : 1 < n T) (heta : 0 < eta T) (hs : 0 ≤ s0 T) (hd : 0 ≤ d T) (hg : ∀ i, 0 ≤ g i T) (hb : ∀ i, 0 ≤ bb i T) (hr : ∀ i, 0 ≤ r i T)
    (hy : VCState R C g T y) (df : ℝ)
    (hdf : df = (n T * macaulay ((|y 0 - ∑ i : Fin nk, y (Fin.natAdd 1 i).succ| - s0 T - y 1) / eta T) ^ (n T - 1) / eta T) *
      (v 0 - ∑ i : Fin nk, v (Fin.natAdd 1 i).succ - sgn (y 0 - ∑ i : Fin nk, y (Fin.natAdd 1 i).succ) * v 1))
    (h0 : v 0 = -k * df)
    (h1 : v 1 = dt * (-d T * |vcFlow n eta s0 y T| * v 1 + d T * (R T - y 1) * sgn (vcFlow n eta s0 y T) * df))
    (h2 : ∀ i : Fin nk, v (Fin.natAdd 1 i).succ = dt * (-(g i T * |vcFlow n eta s0 y T| + bb i T * r i T * |y (Fin.natAdd 1 i).succ| ^ (r i T - 1)) * v (Fin.natAdd 1 i).succ +
      (C i T - g i T * y (Fin.natAdd 1 i).succ * sgn (vcFlow n eta s0 y T)) * df)) : v = 0 := by
  set u := y 0 - ∑ i : Fin nk, y (Fin.natAdd 1 i).succ with hu
  set F := n T * macaulay ((|u| - s0 T - y 1) / eta T) ^ (n T - 1) / eta T with hF
  set p := vcFlow n eta s0 y T with hp
  have hw : 0 ≤ s0 T + y 1 := add_nonneg hs hy.1.1
  have hm : ∀ x, 0 ≤ macaulay x := fun x => by
    rcases lt_or_ge 0 x with h | h
    · rw [macaulay_of_pos h]; exact h.le
    · rw [macaulay_of_nonpos h]
  have hF0 : 0 ≤ F := div_nonneg (mul_nonneg (by linarith) (Real.rpow_nonneg (hm _) _)) heta.le
  -- the sign of the flow is that of the driving stress, where the slope is not zero
  have hsg : F = 0 ∨ sgn p = sgn u ∧ |sgn u| ≤ 1 ∧ sgn u * sgn u = 1 := by
    rcases le_or_gt (|u|) (s0 T + y 1) with h | h
    · left
      rw [hF, macaulay_of_nonpos (div_nonpos_of_nonpos_of_nonneg (by linarith) heta.le), Real.zero_rpow (by linarith)]
      simp
    · right
      rcases lt_or_ge 0 u with h' | h'
      · rw [abs_of_pos h'] at h
        have : 0 < p := overflow_pos heta hw h
        rw [sgn_pos this, sgn_pos h']
        norm_num
      · rw [abs_of_nonpos h'] at h
        have h3 : u < 0 := by linarith
        have : p < 0 := overflow_lt_neg heta hw (by linarith)
        rw [sgn_neg this, sgn_neg h3]
        norm_num
  have hdf0 : df = 0 := by
    rcases hsg with h | ⟨hpu, hu1, huu⟩
    · rw [hdf, h, zero_mul]
    · have ha : 0 ≤ |p| := abs_nonneg p
      have D1 : 0 < 1 + dt * (d T * |p|) := by have := mul_nonneg hdt (mul_nonneg hd ha); linarith
      have e1 : sgn u * v 1 = dt * (d T * (R T - y 1)) / (1 + dt * (d T * |p|)) * df := by
        rw [hpu] at h1
        have h1' : v 1 * (1 + dt * (d T * |p|)) = dt * (d T * (R T - y 1)) * sgn u * df := by linear_combination h1
        field_simp
        calc sgn u * v 1 * (1 + dt * d T * |p|) = sgn u * (v 1 * (1 + dt * (d T * |p|))) := by ring
          _ = (sgn u * sgn u) * (dt * (d T * (R T - y 1)) * df) := by rw [h1']; ring
          _ = _ := by rw [huu]; ring
      have e2 : ∀ i : Fin nk, ∃ c, 0 ≤ c ∧ v (Fin.natAdd 1 i).succ = c * df := by
        intro i
        set x := y (Fin.natAdd 1 i).succ with hx
        have hq : 0 ≤ g i T * |p| + bb i T * r i T * |x| ^ (r i T - 1) :=
          add_nonneg (mul_nonneg (hg i) ha) (mul_nonneg (mul_nonneg (hb i) (hr i)) (Real.rpow_nonneg (abs_nonneg _) _))
        have D2 : 0 < 1 + dt * (g i T * |p| + bb i T * r i T * |x| ^ (r i T - 1)) := by have := mul_nonneg hdt hq; linarith
        have hnum : 0 ≤ C i T - g i T * x * sgn u := by
          have h3 : g i T * x * sgn u ≤ |x| * g i T := by
            calc g i T * x * sgn u ≤ |g i T * x * sgn u| := le_abs_self _
              _ = |x| * g i T * |sgn u| := by rw [abs_mul, abs_mul, abs_of_nonneg (hg i)]; ring
              _ ≤ |x| * g i T * 1 := mul_le_mul_of_nonneg_left hu1 (mul_nonneg (abs_nonneg _) (hg i))
              _ = _ := mul_one _
          linarith [hy.2 i]
        refine ⟨dt * (C i T - g i T * x * sgn u) / (1 + dt * (g i T * |p| + bb i T * r i T * |x| ^ (r i T - 1))), div_nonneg (mul_nonneg hdt hnum) D2.le, ?_⟩
        have h3 := h2 i
        rw [hpu] at h3
        rw [div_mul_eq_mul_div, eq_div_iff D2.ne']
        linear_combination h3
      choose c hc hce using e2
      have h1c : 0 ≤ dt * (d T * (R T - y 1)) / (1 + dt * (d T * |p|)) := div_nonneg (mul_nonneg hdt (mul_nonneg hd (by linarith [hy.1.2]))) D1.le
      have hs2 : ∑ i : Fin nk, v (Fin.natAdd 1 i).succ = (∑ i, c i) * df := by
        rw [Finset.sum_mul]; exact Finset.sum_congr rfl fun i _ => hce i
      have hsum : 0 ≤ ∑ i, c i := Finset.sum_nonneg fun i _ => hc i
      rw [h0, hs2, e1] at hdf
      have h4 : df * (1 + F * (k + ∑ i, c i + dt * (d T * (R T - y 1)) / (1 + dt * (d T * |p|)))) = 0 := by linear_combination hdf
      rcases mul_eq_zero.1 h4 with h5 | h5
      · exact h5
      · exfalso
        have := mul_nonneg hF0 (show 0 ≤ k + ∑ i, c i + dt * (d T * (R T - y 1)) / (1 + dt * (d T * |p|)) by linarith)
        linarith
  have ha : 0 ≤ |p| := abs_nonneg p
  funext j
  refine cases_vc ?_ ?_ (fun i => ?_) j
  · rw [h0, hdf0]; simp
  · rw [hdf0] at h1
    have : v 1 * (1 + dt * (d T * |p|)) = 0 := by linear_combination h1
    rcases mul_eq_zero.1 this with h | h
    · exact h
    · have := mul_nonneg hdt (mul_nonneg hd ha); linarith
  · have h3 := h2 i
    rw [hdf0] at h3
    have hq : 0 ≤ g i T * |p| + bb i T * r i T * |y (Fin.natAdd 1 i).succ| ^ (r i T - 1) :=
      add_nonneg (mul_nonneg (hg i) ha) (mul_nonneg (mul_nonneg (hb i) (hr i)) (Real.rpow_nonneg (abs_nonneg _) _))
    have : v (Fin.natAdd 1 i).succ * (1 + dt * (g i T * |p| + bb i T * r i T * |y (Fin.natAdd 1 i).succ| ^ (r i T - 1))) = 0 := by linear_combination h3
    rcases mul_eq_zero.1 this with h | h
    · exact h
    · have := mul_nonneg hdt hq; linarith

/-- The matrix of an implicit step is invertible at every admissible state. -/
theorem vc_step_det (E n eta s0 R d : ℝ → ℝ) (C g bb r : Fin nk → ℝ → ℝ) (t dt : ℝ) (y : Fin (1 + nk + 1) → ℝ) (e T : ℝ)
    (hdt : 0 ≤ dt) (hp : VCAdmissible E n eta s0 R d C g T) (hn : 1 < n T) (hb : ∀ i, 0 ≤ bb i T) (hr : ∀ i, 0 ≤ r i T) (hy : VCState R C g T y) :
    IsUnit (1 - dt • (inelastic E (isoKin n eta s0 (voce R d) (chabocheRecovery C g bb r)) t y e T).J).det := by
  rw [isUnit_iff_ne_zero]
  intro hdet
  obtain ⟨v, hv, h⟩ := Matrix.exists_mulVec_eq_zero_iff.2 hdet
  apply hv
  have hv' : v = dt • (inelastic E (isoKin n eta s0 (voce R d) (chabocheRecovery C g bb r)) t y e T).J.mulVec v := by
    rw [Matrix.sub_mulVec, Matrix.one_mulVec, Matrix.smul_mulVec, sub_eq_zero] at h
    exact h
  obtain ⟨a0, a1, a2⟩ := vc_J_mulVec E n eta s0 R d C g bb r t y e T v
  refine vc_kernel n eta s0 R d C g bb r y T dt (dt * E T) v hdt (mul_nonneg hdt hp.E) hn hp.eta hp.s0 hp.d hp.g hb hr hy _ rfl ?_ ?_ (fun i => ?_)
  · refine (congrFun hv' 0).trans ?_
    rw [Pi.smul_apply, a0, smul_eq_mul]
    ring
  · refine (congrFun hv' 1).trans ?_
    rw [Pi.smul_apply, a1, smul_eq_mul]
  · refine (congrFun hv' _).trans ?_
    rw [Pi.smul_apply, a2, smul_eq_mul]

/-- The history block of an implicit step under stress control is invertible at every admissible state. -/
theorem vc_hist_det (n eta s0 R d : ℝ → ℝ) (C g bb r : Fin nk → ℝ → ℝ) (t dt s : ℝ) (h : Fin (1 + nk) → ℝ) (e T : ℝ)
    (hdt : 0 ≤ dt) (hp : VCAdmissible (fun _ => 0) n eta s0 R d C g T) (hn : 1 < n T) (hb : ∀ i, 0 ≤ bb i T) (hr : ∀ i, 0 ≤ r i T)
    (hy : VCState R C g T (Fin.cons s h)) :
    IsUnit (1 - dt • (isoKin n eta s0 (voce R d) (chabocheRecovery C g bb r)).dhist_dh s h t T e).det := by
  rw [isUnit_iff_ne_zero]
  intro hdet
  obtain ⟨v, hv, h'⟩ := Matrix.exists_mulVec_eq_zero_iff.2 hdet
  apply hv
  have hv' : v = dt • ((isoKin n eta s0 (voce R d) (chabocheRecovery C g bb r)).dhist_dh s h t T e).mulVec v := by
    rw [Matrix.sub_mulVec, Matrix.one_mulVec, Matrix.smul_mulVec, sub_eq_zero] at h'
    exact h'
  have hrow : ∀ j, ((isoKin n eta s0 (voce R d) (chabocheRecovery C g bb r)).dhist_dh s h t T e).mulVec v j =
      (inelastic (fun _ => 0) (isoKin n eta s0 (voce R d) (chabocheRecovery C g bb r)) t (Fin.cons s h) e T).J.mulVec (Fin.cons 0 v) j.succ := by
    intro j
    rw [Matrix.mulVec, Matrix.mulVec, dotProduct, dotProduct, Fin.sum_univ_succ]
    simp only [inelastic, Fin.cons_zero, Fin.cons_succ, mul_zero, zero_add]
  obtain ⟨-, a1, a2⟩ := vc_J_mulVec (fun _ => 0) n eta s0 R d C g bb r t (Fin.cons s h) e T (Fin.cons 0 v)
  have hz : (Fin.cons 0 v : Fin (1 + nk + 1) → ℝ) = 0 := by
    refine vc_kernel n eta s0 R d C g bb r (Fin.cons s h) T dt 0 (Fin.cons 0 v) hdt le_rfl hn hp.eta hp.s0 hp.d hp.g hb hr hy _ rfl ?_ ?_ (fun i => ?_)
    · simp
    · rw [← a1]
      conv_lhs => rw [one_eq_iso]
      conv_rhs => rw [one_eq_iso]
      rw [Fin.cons_succ, ← hrow]
      exact congrFun hv' _
    · rw [← a2, Fin.cons_succ, ← hrow]
      exact congrFun hv' _
  funext j
  have := congrFun hz j.succ
  simpa using this

theorem chaboche_eq_recovery (C g : Fin nk → ℝ → ℝ) (r : Fin nk → ℝ → ℝ) : chaboche C g = chabocheRecovery C g (fun _ _ => 0) r := by
  unfold chaboche chabocheRecovery
  congr
  · funext s h t ep T e i; simp
  · funext s h t ep T e; simp

end Material

end Pyoptmat
