import Verif.Props.Mixed
import Verif.Props.Flow

/-!
# Property C97: tension, relaxation and creep of a material with isotropic and kinematic hardening
-/

namespace Pyoptmat.Props

open Pyoptmat Pyoptmat.Spec Pyoptmat.Material Pyoptmat.Control Pyoptmat.Interp

variable {β : Type*} {nk : ℕ}

/-! ## One step -/

section step
variable {n eta s0 Rs d a dt s s' δ Q Q' p : ℝ} {C g X X' : Fin nk → ℝ}

private theorem abs_mul_le {x c r : ℝ} (hc : 0 ≤ c) (h : |x| * c ≤ r) : -r ≤ x * c ∧ x * c ≤ r := by
  rw [← abs_le, abs_mul, abs_of_nonneg hc]; exact h

/-- the history variables stay admissible -/
private theorem adm_hist (hdt : 0 ≤ dt) (hd : 0 ≤ d) (hg : ∀ i, 0 ≤ g i)
    (e1 : Q' = Q + dt * (d * (Rs - Q') * |p|)) (e2 : ∀ i, X' i = X i + dt * (C i * p - g i * X' i * |p|))
    (hQ : 0 ≤ Q ∧ Q ≤ Rs) (hX : ∀ i, |X i| * g i ≤ C i) :
    (Q ≤ Q' ∧ Q' ≤ Rs) ∧ ∀ i, |X' i| * g i ≤ C i := by
  constructor
  · have h2 : 0 ≤ dt * (d * |p|) := mul_nonneg hdt (mul_nonneg hd (abs_nonneg _))
    have h3 : (Rs - Q') * (1 + dt * (d * |p|)) = Rs - Q := by linear_combination -e1
    have h4 : 0 ≤ Rs - Q' := by
      by_contra hc
      push Not at hc
      nlinarith [hQ.2]
    refine ⟨?_, by linarith⟩
    have := mul_nonneg h2 h4
    linarith
  · intro i
    have h1 := e2 i
    have hgi := hg i
    have hXi := abs_mul_le hgi (hX i)
    have h2 : 0 ≤ dt * (g i * |p|) := mul_nonneg hdt (mul_nonneg hgi (abs_nonneg _))
    have h3 : X' i * g i * (1 + dt * (g i * |p|)) = X i * g i + dt * (g i * (C i * p)) := by linear_combination g i * h1
    have hp := abs_le.1 (le_refl |p|)
    have hC : 0 ≤ C i := (mul_nonneg (abs_nonneg _) hgi).trans (hX i)
    have h5 : dt * (g i * (C i * p)) ≤ C i * (dt * (g i * |p|)) := by
      have := mul_nonneg (mul_nonneg hdt (mul_nonneg hgi hC)) (sub_nonneg.2 (le_abs_self p))
      linarith
    have h6 : -(C i * (dt * (g i * |p|))) ≤ dt * (g i * (C i * p)) := by
      have := mul_nonneg (mul_nonneg hdt (mul_nonneg hgi hC)) (by linarith [neg_abs_le p] : 0 ≤ p + |p|)
      linarith
    have h7 : |X' i * g i| ≤ C i := by
      rw [abs_le]
      constructor
      · by_contra hc
        push Not at hc
        nlinarith
      · by_contra hc
        push Not at hc
        nlinarith
    rwa [abs_mul, abs_of_nonneg hgi] at h7

/-- one step with non-negative driving increment `δ` from a state in tension -/
private theorem tension_step (hn : 0 < n) (heta : 0 < eta) (hs0 : 0 ≤ s0) (hdt : 0 ≤ dt) (hd : 0 ≤ d) (hg : ∀ i, 0 ≤ g i) (ha : 0 ≤ a)
    (hδ : 0 ≤ δ) (hp : p = overflow n eta (s' - ∑ i, X' i, s0 + Q')) (e0 : s' = s + δ - a * p)
    (e1 : Q' = Q + dt * (d * (Rs - Q') * |p|)) (e2 : ∀ i, X' i = X i + dt * (C i * p - g i * X' i * |p|))
    (hQ : 0 ≤ Q ∧ Q ≤ Rs) (hX : ∀ i, |X i| * g i ≤ C i) (hu : ∑ i, X i ≤ s) :
    0 ≤ p ∧ (∀ i, X i ≤ X' i) ∧ ∑ i, X' i ≤ s' ∧
    (δ ≤ a * p → s' - ∑ i, X' i ≤ s - ∑ i, X i ∧ p ≤ overflow n eta (s - ∑ i, X i, s0 + Q)) ∧
    (s0 + Q ≤ s - ∑ i, X i → s0 + Q' ≤ s' - ∑ i, X' i) ∧
    (δ = 0 → s - ∑ i, X i ≤ s0 + Q → p = 0) ∧
    (p = 0 → Q' = Q ∧ ∀ i, X' i = X i) := by
  obtain ⟨⟨q1, q2⟩, x1⟩ := adm_hist hdt hd hg e1 e2 hQ hX
  have hw : 0 ≤ s0 + Q' := by linarith [hQ.1]
  have hsum : ∑ i, X' i = ∑ i, X i + dt * ∑ i, (C i * p - g i * X' i * |p|) := by
    rw [Finset.mul_sum, ← Finset.sum_add_distrib]
    exact Finset.sum_congr rfl fun i _ => e2 i
  have hxb : ∀ i, -(C i) ≤ g i * X' i ∧ g i * X' i ≤ C i := by
    intro i
    have := abs_mul_le (hg i) (x1 i)
    constructor <;> nlinarith [this.1, this.2]
  have hp0 : 0 ≤ p := by
    by_contra hc
    push Not at hc
    have h1 : 0 < overflow n eta (-(s' - ∑ i, X' i), s0 + Q') := by rw [overflow_neg, ← hp]; linarith
    rw [overflow_pos_iff hn heta hw] at h1
    have h2 : ∑ i, (C i * p - g i * X' i * |p|) ≤ 0 := by
      refine Finset.sum_nonpos fun i _ => ?_
      rw [abs_of_neg hc]
      have := mul_nonneg (by linarith [(hxb i).1] : 0 ≤ C i + g i * X' i) (by linarith : 0 ≤ -p)
      linarith
    have h3 := mul_nonneg hdt (by linarith : 0 ≤ -∑ i, (C i * p - g i * X' i * |p|))
    have h4 := mul_nonneg ha (by linarith : 0 ≤ -p)
    linarith
  have hinc : ∀ i, 0 ≤ C i * p - g i * X' i * |p| := by
    intro i
    rw [abs_of_nonneg hp0]
    have := mul_nonneg (by linarith [(hxb i).2] : 0 ≤ C i - g i * X' i) hp0
    linarith
  have hS : 0 ≤ dt * ∑ i, (C i * p - g i * X' i * |p|) := mul_nonneg hdt (Finset.sum_nonneg fun i _ => hinc i)
  have hfroz : p = 0 → Q' = Q ∧ ∀ i, X' i = X i := by
    intro h
    refine ⟨by rw [e1, h]; simp, fun i => by rw [e2 i, h]; simp⟩
  have hdec : δ ≤ a * p → s' - ∑ i, X' i ≤ s - ∑ i, X i := by intro h; linarith
  have hpos : 0 < p → s0 + Q' < s' - ∑ i, X' i := fun h => by rwa [hp, overflow_pos_iff hn heta hw] at h
  have hu' : ∑ i, X' i ≤ s' := by
    rcases hp0.eq_or_lt with h | h
    · obtain ⟨-, hx⟩ := hfroz h.symm
      rw [Finset.sum_congr rfl fun i _ => hx i, e0, ← h]; linarith
    · linarith [hpos h]
  have hw0 : 0 ≤ s0 + Q := by linarith [hQ.1]
  refine ⟨hp0, fun i => ?_, hu', fun h => ⟨hdec h, ?_⟩, fun h => ?_, fun hz h => ?_, hfroz⟩
  · have := mul_nonneg hdt (hinc i); linarith [e2 i]
  · rcases hp0.eq_or_lt with h0 | h0
    · rw [← h0]
      rcases le_or_gt (s - ∑ i, X i) (s0 + Q) with h1 | h1
      · rw [overflow_of_le hn heta (by rw [abs_of_nonneg (by linarith)]; exact h1)]
      · exact (overflow_pos heta hw0 h1).le
    · have h1 := hpos h0
      have h2 := hdec h
      rw [hp, overflow_of_gt heta hw h1, overflow_of_gt heta hw0 (by linarith)]
      refine Real.rpow_le_rpow (div_nonneg (by linarith) heta.le) ?_ hn.le
      gcongr
  · rcases hp0.eq_or_lt with h0 | h0
    · obtain ⟨hq, hx⟩ := hfroz h0.symm
      rw [hq, Finset.sum_congr rfl fun i _ => hx i, e0, ← h0]; linarith
    · exact (hpos h0).le
  · by_contra hc
    have h0 : 0 < p := lt_of_le_of_ne hp0 (Ne.symm hc)
    have h1 := hpos h0
    have h2 := hdec (by rw [hz]; exact mul_nonneg ha hp0)
    linarith

end step

/-! ## Histories under strain control -/

private theorem vc_flow_eq (n eta s0 R d : ℝ → ℝ) (C g : Fin nk → ℝ → ℝ) (y : Fin (1 + nk + 1) → ℝ) (t T e : ℝ) :
    (isoKin n eta s0 (voce R d) (chaboche C g)).flow (y 0) (fun j => y j.succ) t T e =
      overflow (n T) (eta T) (y 0 - ∑ i : Fin nk, y (Fin.natAdd 1 i).succ, s0 T + y 1) := by
  change isoKinFlow n eta s0 (voce R d) (chaboche C g) (y 0) (fun j => y j.succ) T = _
  rw [isoKinFlow_eq, one_eq_iso]; rfl

private theorem be_rows {E n eta s0 R d : ℝ → ℝ} {C g : Fin nk → ℝ → ℝ} {erate temp : β → ℝ → ℝ} {nt : ℕ} {t : ℕ → β → ℝ}
    {y : ℕ → β → Fin (1 + nk + 1) → ℝ}
    (hy : IsBackwardEuler (fun b s x => (inelastic E (isoKin n eta s0 (voce R d) (chaboche C g)) s x (erate b s) (temp b s)).ydot) nt t y)
    {k : ℕ} {b : β} (hk : k + 1 < nt) {T : ℝ} (hT : temp b (t (k + 1) b) = T) {p : ℝ}
    (hp : p = overflow (n T) (eta T) (y (k + 1) b 0 - ∑ i : Fin nk, y (k + 1) b (Fin.natAdd 1 i).succ, s0 T + y (k + 1) b 1)) :
    y (k + 1) b 0 = y k b 0 + (t (k + 1) b - t k b) * E T * erate b (t (k + 1) b) - (t (k + 1) b - t k b) * E T * p ∧
    y (k + 1) b 1 = y k b 1 + (t (k + 1) b - t k b) * (d T * (R T - y (k + 1) b 1) * |p|) ∧
    ∀ i : Fin nk, y (k + 1) b (Fin.natAdd 1 i).succ = y k b (Fin.natAdd 1 i).succ + (t (k + 1) b - t k b) *
      (C i T * p - g i T * y (k + 1) b (Fin.natAdd 1 i).succ * |p|) := by
  have h := hy k b hk
  beta_reduce at h
  rw [chaboche_as_recovery, vc_step_iff, hT] at h
  obtain ⟨h0, h1, h2⟩ := h
  unfold vcFlow at h0 h1 h2
  rw [← hp] at h0 h1 h2
  refine ⟨by rw [h0]; ring, h1, fun i => ?_⟩
  have := h2 i
  simp only [zero_mul, sub_zero] at this
  exact this

private theorem vcState_all {E n eta s0 R d : ℝ → ℝ} {C g : Fin nk → ℝ → ℝ} {erate temp : β → ℝ → ℝ} {nt : ℕ} {t : ℕ → β → ℝ}
    {y : ℕ → β → Fin (1 + nk + 1) → ℝ} {b : β} {T : ℝ} (ht : ∀ k, k + 1 < nt → t k b ≤ t (k + 1) b)
    (hy : IsBackwardEuler (fun b s x => (inelastic E (isoKin n eta s0 (voce R d) (chaboche C g)) s x (erate b s) (temp b s)).ydot) nt t y)
    (hT : ∀ k, k < nt → temp b (t k b) = T) (hp : VCAdmissible E n eta s0 R d C g T) (h0 : VCState R C g T (y 0 b)) (k : ℕ) (hk : k < nt) :
    VCState R C g T (y k b) := by
  induction k with
  | zero => exact h0
  | succ k ih =>
    obtain ⟨i1, i2⟩ := ih (by omega)
    obtain ⟨-, e1, e2⟩ := be_rows hy hk (hT (k + 1) hk) rfl
    obtain ⟨⟨q1, q2⟩, x1⟩ := adm_hist (sub_nonneg.2 (ht k hk)) hp.d hp.g e1 e2 i1 i2
    exact ⟨⟨i1.1.trans q1, q2⟩, x1⟩

/-- **C97.** Tension at constant (or increasing) strain rate, isothermal, from rest: at every time the inelastic rate is between zero and the applied
rate, so the stress never drops; the backstresses never drop, and the stress never falls below their sum. No softening is possible, whatever the
parameters and step sizes. -/
theorem C97_tension (E n eta s0 R d : ℝ → ℝ) (C g : Fin nk → ℝ → ℝ) (erate temp : β → ℝ → ℝ) (nt : ℕ) (t : ℕ → β → ℝ)
    (y : ℕ → β → Fin (1 + nk + 1) → ℝ)
    (hy : IsBackwardEuler (fun b s x => (inelastic E (isoKin n eta s0 (voce R d) (chaboche C g)) s x (erate b s) (temp b s)).ydot) nt t y)
    (b : β) (ht : ∀ k, k + 1 < nt → t k b ≤ t (k + 1) b) (T : ℝ) (hT : ∀ k, k < nt → temp b (t k b) = T)
    (hp : VCAdmissible E n eta s0 R d C g T) (h0 : y 0 b = 0) (he0 : 0 ≤ erate b (t 0 b))
    (he : ∀ k, k + 1 < nt → erate b (t k b) ≤ erate b (t (k + 1) b)) (k : ℕ) (hk : k + 1 < nt) :
    let flow := fun k => (isoKin n eta s0 (voce R d) (chaboche C g)).flow (y k b 0) (fun j => y k b j.succ) (t k b) T (erate b (t k b))
    y k b 0 ≤ y (k + 1) b 0 ∧ (0 ≤ flow (k + 1) ∧ flow (k + 1) ≤ erate b (t (k + 1) b)) ∧
    (∀ i : Fin nk, y k b (Fin.natAdd 1 i).succ ≤ y (k + 1) b (Fin.natAdd 1 i).succ) ∧
    ∑ i : Fin nk, y (k + 1) b (Fin.natAdd 1 i).succ ≤ y (k + 1) b 0 := by
  intro flow
  have hfl : ∀ k, flow k = overflow (n T) (eta T) (y k b 0 - ∑ i : Fin nk, y k b (Fin.natAdd 1 i).succ, s0 T + y k b 1) :=
    fun k => vc_flow_eq n eta s0 R d C g (y k b) (t k b) T _
  have hst := vcState_all ht hy hT hp ⟨by rw [h0]; exact ⟨le_rfl, hp.R⟩, fun i => by rw [h0]; simpa using hp.C i⟩
  have he' : ∀ k, k < nt → 0 ≤ erate b (t k b) := by
    intro k
    induction k with
    | zero => intro _; exact he0
    | succ k ih => intro hk; exact (ih (by omega)).trans (he k hk)
  have step : ∀ k, k + 1 < nt → ∑ i : Fin nk, y k b (Fin.natAdd 1 i).succ ≤ y k b 0 → flow k ≤ erate b (t k b) →
      (0 ≤ flow (k + 1) ∧ flow (k + 1) ≤ erate b (t (k + 1) b)) ∧
      (∀ i : Fin nk, y k b (Fin.natAdd 1 i).succ ≤ y (k + 1) b (Fin.natAdd 1 i).succ) ∧
      ∑ i : Fin nk, y (k + 1) b (Fin.natAdd 1 i).succ ≤ y (k + 1) b 0 := by
    intro k hk hu hf
    obtain ⟨e0, e1, e2⟩ := be_rows hy hk (hT (k + 1) hk) (hfl (k + 1))
    have hdt := sub_nonneg.2 (ht k hk)
    have ha : 0 ≤ (t (k + 1) b - t k b) * E T := mul_nonneg hdt hp.E
    obtain ⟨a1, a2, a3, a4, -⟩ := tension_step hp.n hp.eta hp.s0 hdt hp.d hp.g ha (mul_nonneg ha (he' (k + 1) hk)) (hfl (k + 1)) e0 e1 e2
      (hst k (by omega)).1 (hst k (by omega)).2 hu
    refine ⟨⟨a1, ?_⟩, a2, a3⟩
    by_contra hc
    push Not at hc
    have := (a4 (mul_le_mul_of_nonneg_left hc.le ha)).2
    rw [← hfl k] at this
    linarith [he k hk]
  have inv : ∀ k, k < nt → ∑ i : Fin nk, y k b (Fin.natAdd 1 i).succ ≤ y k b 0 ∧ flow k ≤ erate b (t k b) := by
    intro k
    induction k with
    | zero =>
      intro _
      refine ⟨by rw [h0]; simp, ?_⟩
      rw [hfl, overflow_of_le hp.n hp.eta (by rw [h0]; simpa using hp.s0)]; exact he0
    | succ k ih =>
      intro hk
      obtain ⟨i1, i2⟩ := ih (by omega)
      obtain ⟨a1, -, a3⟩ := step k hk i1 i2
      exact ⟨a3, a1.2⟩
  obtain ⟨i1, i2⟩ := inv k (by omega)
  obtain ⟨a1, a2, a3⟩ := step k hk i1 i2
  obtain ⟨e0, -, -⟩ := be_rows hy hk (hT (k + 1) hk) (hfl (k + 1))
  refine ⟨?_, a1, a2, a3⟩
  have ha : 0 ≤ (t (k + 1) b - t k b) * E T := mul_nonneg (sub_nonneg.2 (ht k hk)) hp.E
  have := mul_nonneg ha (sub_nonneg.2 a1.2)
  linarith

/-- **C97.** Relaxation: from the time `k0` to the time `k1` of an isothermal test the strain is held, the stress being at least the sum of the backstresses at
`k0`. Then during the hold the stress never rises, the backstresses and the isotropic strength never drop, the stress never falls below the backstress, and
the inelastic rate is non-negative and never rises. If the stress starts outside the elastic range it never falls into it, `s ≥ X + s0 + R`; if it
starts in the elastic range nothing changes any more. -/
theorem C97_relaxation (E n eta s0 R d : ℝ → ℝ) (C g : Fin nk → ℝ → ℝ) (erate temp : β → ℝ → ℝ) (nt : ℕ) (t : ℕ → β → ℝ)
    (y : ℕ → β → Fin (1 + nk + 1) → ℝ)
    (hy : IsBackwardEuler (fun b s x => (inelastic E (isoKin n eta s0 (voce R d) (chaboche C g)) s x (erate b s) (temp b s)).ydot) nt t y)
    (b : β) (ht : ∀ k, k + 1 < nt → t k b ≤ t (k + 1) b) (T : ℝ) (hT : ∀ k, k < nt → temp b (t k b) = T)
    (hp : VCAdmissible E n eta s0 R d C g T) (h0 : VCState R C g T (y 0 b)) (k0 k1 : ℕ) (hk1 : k1 < nt)
    (hold : ∀ k, k0 < k → k ≤ k1 → erate b (t k b) = 0) (hstart : ∑ i : Fin nk, y k0 b (Fin.natAdd 1 i).succ ≤ y k0 b 0)
    (k : ℕ) (hk0 : k0 ≤ k) (hk : k < k1) :
    let flow := fun k => (isoKin n eta s0 (voce R d) (chaboche C g)).flow (y k b 0) (fun j => y k b j.succ) (t k b) T 0
    let back := fun k => ∑ i : Fin nk, y k b (Fin.natAdd 1 i).succ
    (y (k + 1) b 0 ≤ y k b 0 ∧ y k b 1 ≤ y (k + 1) b 1 ∧
      ∀ i : Fin nk, y k b (Fin.natAdd 1 i).succ ≤ y (k + 1) b (Fin.natAdd 1 i).succ) ∧
    back (k + 1) ≤ y (k + 1) b 0 ∧ (0 ≤ flow (k + 1) ∧ flow (k + 1) ≤ flow k) ∧
    (back k0 + s0 T + y k0 b 1 ≤ y k0 b 0 → back (k + 1) + s0 T + y (k + 1) b 1 ≤ y (k + 1) b 0) ∧
    (y k0 b 0 ≤ back k0 + s0 T + y k0 b 1 → y (k + 1) b = y k0 b) := by
  intro flow back
  have hfl : ∀ k, flow k = overflow (n T) (eta T) (y k b 0 - back k, s0 T + y k b 1) :=
    fun k => vc_flow_eq n eta s0 R d C g (y k b) (t k b) T _
  have hst := vcState_all ht hy hT hp h0
  have step : ∀ k, k0 ≤ k → k < k1 → back k ≤ y k b 0 →
      (y (k + 1) b 0 ≤ y k b 0 ∧ y k b 1 ≤ y (k + 1) b 1 ∧
        ∀ i : Fin nk, y k b (Fin.natAdd 1 i).succ ≤ y (k + 1) b (Fin.natAdd 1 i).succ) ∧
      back (k + 1) ≤ y (k + 1) b 0 ∧ (0 ≤ flow (k + 1) ∧ flow (k + 1) ≤ flow k) ∧
      (back k + s0 T + y k b 1 ≤ y k b 0 → back (k + 1) + s0 T + y (k + 1) b 1 ≤ y (k + 1) b 0) ∧
      (y k b 0 ≤ back k + s0 T + y k b 1 → y (k + 1) b = y k b) := by
    intro k hk0 hk hu
    have hk' : k + 1 < nt := by omega
    obtain ⟨e0, e1, e2⟩ := be_rows hy hk' (hT (k + 1) hk') (hfl (k + 1))
    rw [hold (k + 1) (by omega) (by omega)] at e0
    have hdt := sub_nonneg.2 (ht k hk')
    have ha : 0 ≤ (t (k + 1) b - t k b) * E T := mul_nonneg hdt hp.E
    obtain ⟨a1, a2, a3, a4, a5, a6, a7⟩ := tension_step hp.n hp.eta hp.s0 hdt hp.d hp.g ha (mul_nonneg ha le_rfl) (hfl (k + 1)) e0 e1 e2
      (hst k (by omega)).1 (hst k (by omega)).2 hu
    have hf := mul_nonneg ha a1
    obtain ⟨b1, b2⟩ := a4 (by rw [mul_zero]; exact hf)
    have hq := (adm_hist hdt hp.d hp.g e1 e2 (hst k (by omega)).1 (hst k (by omega)).2).1.1
    refine ⟨⟨by rw [e0]; linarith, hq, a2⟩, a3, ⟨a1, by rw [hfl k]; exact b2⟩, fun h => ?_, fun h => ?_⟩
    · have := a5 (by change s0 T + y k b 1 ≤ y k b 0 - back k; linarith)
      change s0 T + y (k + 1) b 1 ≤ y (k + 1) b 0 - back (k + 1) at this
      linarith
    · have hz := a6 (mul_zero _) (by change y k b 0 - back k ≤ s0 T + y k b 1; linarith)
      obtain ⟨q, x⟩ := a7 hz
      funext j
      refine cases_vc ?_ q x j
      rw [e0, hz]; ring
  have inv : ∀ k, k0 ≤ k → k ≤ k1 → back k ≤ y k b 0 ∧ (back k0 + s0 T + y k0 b 1 ≤ y k0 b 0 → back k + s0 T + y k b 1 ≤ y k b 0) ∧
      (y k0 b 0 ≤ back k0 + s0 T + y k0 b 1 → y k b = y k0 b) := by
    intro k hk0
    induction k, hk0 using Nat.le_induction with
    | base => intro _; exact ⟨hstart, id, fun _ => rfl⟩
    | succ k hk0 ih =>
      intro hk
      obtain ⟨i1, i2, i3⟩ := ih (by omega)
      obtain ⟨-, a2, -, a4, a5⟩ := step k hk0 hk i1
      refine ⟨a2, fun h => a4 (i2 h), fun h => ?_⟩
      have e := i3 h
      rw [a5, e]
      change y k b 0 ≤ ∑ i : Fin nk, y k b (Fin.natAdd 1 i).succ + s0 T + y k b 1
      rw [e]; exact h
  obtain ⟨i1, i2, i3⟩ := inv k hk0 hk.le
  obtain ⟨a1, a2, a3, -, -⟩ := step k hk0 hk i1
  obtain ⟨-, j2, j3⟩ := inv (k + 1) (by omega) hk
  exact ⟨a1, a2, a3, j2, j3⟩

/-- Non-vacuity: a material with one backstress pulled for one second at rate 1 (far beyond its elastic limit) and then held for two seconds has a backward Euler history; in it
the stress rises in the first step and does not rise in the next two, and stays above the backstress. -/
example : ∃ y : ℕ → Unit → Fin (1 + 1 + 1) → ℝ, y 0 () = 0 ∧ IsBackwardEuler (fun b s x =>
      (inelastic (fun _ => 100) (isoKin (fun _ => 5) (fun _ => 300) (fun _ => 10) (voce (fun _ => 100) (fun _ => 10))
        (chaboche (fun _ _ => 1000) (fun _ _ => 2))) s x ((fun _ s => if s ≤ 1 then 1 else 0) b s) ((fun _ _ => 300) b s)).ydot) 4 (fun k _ => k) y ∧
    0 ≤ y 1 () 0 ∧ y 2 () 0 ≤ y 1 () 0 ∧ y 3 () 0 ≤ y 2 () 0 ∧ y 3 () (Fin.natAdd 1 0).succ ≤ y 3 () 0 := by
  have hadm : VCAdmissible (nk := 1) (fun _ => 100) (fun _ => 5) (fun _ => 300) (fun _ => 10) (fun _ => 100) (fun _ => 10)
      (fun _ _ => 1000) (fun _ _ => 2) 300 := by
    refine ⟨?_, ?_, ?_, ?_, ?_, ?_, fun i => ?_, fun i => ?_⟩ <;> norm_num
  obtain ⟨⟨y, hy0, hy⟩, -⟩ := C74_history (β := Unit) (nk := 1) (fun _ => 100) (fun _ => 5) (fun _ => 300) (fun _ => 10) (fun _ => 100)
    (fun _ => 10) (fun _ _ => 1000) (fun _ _ => 2) (fun _ s => if s ≤ 1 then 1 else 0) (fun _ _ => 300) 4 (fun k _ => k)
    (by intro k b _; simp) 100 (fun _ => 500) (fun k b _ => ⟨hadm, rfl, fun i => by norm_num⟩) 0 (by intro b; norm_num)
  have h0 : y 0 () = 0 := by rw [hy0]; rfl
  have hy2 : IsBackwardEuler (fun b s x =>
      (inelastic (fun _ => 100) (isoKin (fun _ => 5) (fun _ => 300) (fun _ => 10) (voce (fun _ => 100) (fun _ => 10))
        (chaboche (fun _ _ => 1000) (fun _ _ => 2))) s x ((fun _ s => if s ≤ 1 then 1 else 0) b s) ((fun _ _ => 300) b s)).ydot) 2 (fun k _ => k) y :=
    fun k b hk => hy k b (by omega)
  obtain ⟨t1, -, -, t4⟩ := C97_tension (fun _ => 100) (fun _ => 5) (fun _ => 300) (fun _ => 10) (fun _ => 100) (fun _ => 10)
    (fun (_ : Fin 1) _ => 1000) (fun _ _ => 2) (fun _ s => if s ≤ 1 then 1 else 0) (fun _ _ => 300) 2 (fun k _ => k) y hy2 ()
    (by intro k _; simp) 300 (fun _ _ => rfl) hadm h0 (by norm_num) (by intro k hk; obtain rfl : k = 0 := by omega
                                                                        norm_num) 0 (by norm_num)
  have rel := fun k h1 h2 => C97_relaxation (fun _ => 100) (fun _ => 5) (fun _ => 300) (fun _ => 10) (fun _ => 100) (fun _ => 10)
    (fun (_ : Fin 1) _ => 1000) (fun _ _ => 2) (fun _ s => if s ≤ 1 then 1 else 0) (fun _ _ => 300) 4 (fun k _ => k) y hy ()
    (by intro k _; simp) 300 (fun _ _ => rfl) hadm (by rw [h0]; exact ⟨⟨le_rfl, by norm_num⟩, fun i => by norm_num⟩) 1 3 (by norm_num)
    (by intro k hk _
        have : ¬ ((k : ℝ) ≤ 1) := by push Not; exact_mod_cast hk
        simp [this]) t4 k h1 h2
  obtain ⟨⟨r1, -⟩, -⟩ := rel 1 le_rfl (by norm_num)
  obtain ⟨⟨r2, -⟩, r3, -⟩ := rel 2 (by norm_num) (by norm_num)
  beta_reduce at r3
  rw [Fin.sum_univ_one] at r3
  rw [h0] at t1
  exact ⟨y, h0, hy, t1, r1, r2, r3⟩

/-! ## Creep under stress control -/

section creep
variable [Fintype β] [DecidableEq β]

/-- **C97.** A simulated tension test (`solve_strain`, zero tolerances, no warning, isothermal) with strain rates that are not negative and do not decrease from interval to interval
gives a stress-strain curve that never drops. -/
theorem C97_solve_strain_tension (c : Ode.Config) (hs : c.scheme = .backwardEuler) (hm : 0 ≤ c.miter) (hr : c.rtol = 0) (ha : c.atol = 0)
    (model : β → Model (1 + nk + 1)) (nt : ℕ) (times strains temps : ℕ → β → ℝ) (blk : ℤ) (hb : 0 < blk)
    (hg : ∀ b, StrictGrid (nt - 1) fun k => times k b) (res : Ode.Partial β (1 + nk + 1))
    (h : solveStrain c model nt times strains temps blk = .ok (res, false)) (b : β) (E n eta s0 R d : ℝ → ℝ) (C g : Fin nk → ℝ → ℝ)
    (hmod : model b = inelastic E (isoKin n eta s0 (voce R d) (chaboche C g))) (T : ℝ) (hT : ∀ k, k < nt → temps k b = T) (hp : VCAdmissible E n eta s0 R d C g T)
    (h0 : 1 < nt → strains 0 b ≤ strains 1 b)
    (he : ∀ k, k + 2 < nt → (strains (k + 1) b - strains k b) / (times (k + 1) b - times k b) ≤
      (strains (k + 2) b - strains (k + 1) b) / (times (k + 2) b - times (k + 1) b)) (k : ℕ) (hk : k + 1 < nt) :
    res.get k b 0 ≤ res.get (k + 1) b 0 ∧
    res.get (k + 1) b 0 - res.get k b 0 ≤ E T * (strains (k + 1) b - strains k b) := by
  obtain ⟨e, g0⟩ := strain_lane_backward c hs hm hr ha model nt times strains temps blk hb res h b _ hmod
  have tk : ∀ k, k < nt → dataFn nt (fun k => times k b) (fun k => temps k b) (times k b) = T := fun k hk => by
    rw [dataFn_grid (hg b) (fun k => temps k b) hk (by omega)]; exact hT k hk
  have rg : ∀ j, j + 1 < nt → rateFn nt (fun k => times k b) (fun k => strains k b) (times (j + 1) b) =
      (strains (j + 1) b - strains j b) / (times (j + 1) b - times j b) := fun j hj => by
    rw [← rateFn_grid (hg b) (fun k => strains k b) hj, mul_div_cancel_left₀ _ (sub_pos.2 (hg b j (by omega))).ne']
  have r0 : rateFn nt (fun k => times k b) (fun k => strains k b) (times 0 b) = 0 := by
    unfold rateFn
    rw [interpFn_grid (by omega) (hg b) _ (by omega)]
    simp [rateData]
  obtain ⟨a1, ⟨a2, a3⟩, -⟩ := C97_tension E n eta s0 R d C g (fun _ => rateFn nt (fun k => times k b) fun k => strains k b)
    (fun _ => dataFn nt (fun k => times k b) fun k => temps k b) nt (fun k _ => times k b) (fun k _ => res.get k b) e () (fun k hk => (hg b k (by omega)).le) T tk hp
    g0 (by beta_reduce; rw [r0])
    (by
      intro k hk
      beta_reduce
      rw [rg k hk]
      cases k with
      | zero => rw [r0]; exact div_nonneg (sub_nonneg.2 (h0 hk)) (sub_pos.2 (hg b 0 (by omega))).le
      | succ k => rw [rg k (by omega)]; exact he k hk) k hk
  refine ⟨a1, ?_⟩
  obtain ⟨e0, -, -⟩ := be_rows (T := T) (b := ()) e hk (tk (k + 1) hk) (vc_flow_eq n eta s0 R d C g (res.get (k + 1) b) (times (k + 1) b) T
    (rateFn nt (fun k => times k b) (fun k => strains k b) (times (k + 1) b)))
  have q := rateFn_grid (hg b) (fun k => strains k b) hk
  have hdt : 0 ≤ times (k + 1) b - times k b := (sub_pos.2 (hg b k (by omega))).le
  have := mul_nonneg (mul_nonneg hdt hp.E) a2
  have q' : (times (k + 1) b - times k b) * E T * rateFn nt (fun k => times k b) (fun k => strains k b) (times (k + 1) b) =
      E T * (strains (k + 1) b - strains k b) := by rw [← q]; ring
  rw [q'] at e0
  beta_reduce at this
  linarith

/-- **C97.** Creep: `solve_stress` with zero tolerances, no warning, isothermal; the stress is held from the time `k0` to the time `k1`, at least at the level of
the backstresses. Then at every time of the hold: the strain increment is the inelastic rate times the time increment, up to the
tolerance of the inner solve; the inelastic rate is non-negative and never rises (primary creep only); the backstresses and the isotropic strength never drop and the backstress never exceeds the stress;
and if the stress is in the elastic range at `k0`, there is no creep at all and no change of the history variables. -/
theorem C97_creep (c : Ode.Config) (hs : c.scheme = .backwardEuler) (hm : 0 ≤ c.miter) (hr : c.rtol = 0) (ha : c.atol = 0)
    (model : β → Model (1 + nk + 1)) (nt : ℕ) (times stresses temps : ℕ → β → ℝ) (blk : ℤ) (hb : 0 < blk)
    (hg : ∀ b, StrictGrid (nt - 1) fun k => times k b) (res : Ode.Partial β (1 + nk + 1))
    (h : solveStress c model nt times stresses temps blk = .ok (res, false)) (b : β) (E n eta s0 R d : ℝ → ℝ) (C g : Fin nk → ℝ → ℝ)
    (hmod : model b = inelastic E (isoKin n eta s0 (voce R d) (chaboche C g))) (hE : ∀ k, k < nt → E (temps k b) ≠ 0)
    (T : ℝ) (hT : ∀ k, k < nt → temps k b = T) (hp : VCAdmissible E n eta s0 R d C g T)
    (k0 k1 : ℕ) (hk1 : k1 < nt) (σ : ℝ) (hold : ∀ k, k0 ≤ k → k ≤ k1 → stresses k b = σ)
    (hstart : ∑ i : Fin nk, res.get k0 b (Fin.natAdd 1 i).succ ≤ σ) (k : ℕ) (hk0 : k0 ≤ k) (hk : k < k1) :
    let y := res.get
    let flow := fun k => (isoKin n eta s0 (voce R d) (chaboche C g)).flow σ (fun j => y k b j.succ) (times k b) T 0
    let back := fun k => ∑ i : Fin nk, y k b (Fin.natAdd 1 i).succ
    |y (k + 1) b 0 - y k b 0 - (times (k + 1) b - times k b) * flow (k + 1)| ≤ (times (k + 1) b - times k b) * (1e-10 / E T) ∧
    (0 ≤ flow (k + 1) ∧ flow (k + 1) ≤ flow k) ∧ back (k + 1) ≤ σ ∧
    (y k b 1 ≤ y (k + 1) b 1 ∧ ∀ i : Fin nk, y k b (Fin.natAdd 1 i).succ ≤ y (k + 1) b (Fin.natAdd 1 i).succ) ∧
    (σ ≤ back k0 + s0 T + y k0 b 1 → flow (k + 1) = 0 ∧ ∀ j : Fin (1 + nk), y (k + 1) b j.succ = y k0 b j.succ) := by
  intro y flow back
  set f := isoKin n eta s0 (voce R d) (chaboche C g) with hf
  have flow_eq : ∀ (s : ℝ) (k : ℕ) (t e : ℝ), f.flow s (fun j => y k b j.succ) t T e =
      overflow (n T) (eta T) (s - back k, s0 T + y k b 1) := by
    intro s k t e
    have := vc_flow_eq n eta s0 R d C g (Fin.cons s fun j => y k b j.succ) t T e
    simp only [Fin.cons_zero, Fin.cons_succ, one_eq_iso] at this
    rw [hf, this, one_eq_iso]
  -- the rows of a step at any stress
  have rows : ∀ k, k + 1 < nt →
      |y (k + 1) b 0 - y k b 0 - ((stresses (k + 1) b - stresses k b) / E T + (times (k + 1) b - times k b) *
        f.flow (stresses (k + 1) b) (fun j => y (k + 1) b j.succ) (times (k + 1) b) T 0)| ≤ (times (k + 1) b - times k b) * (1e-10 / |E T|) ∧
      (y (k + 1) b 1 = y k b 1 + (times (k + 1) b - times k b) * (d T * (R T - y (k + 1) b 1) *
        |overflow (n T) (eta T) (stresses (k + 1) b - back (k + 1), s0 T + y (k + 1) b 1)|)) ∧
      ∀ i : Fin nk, y (k + 1) b (Fin.natAdd 1 i).succ = y k b (Fin.natAdd 1 i).succ + (times (k + 1) b - times k b) *
        (C i T * overflow (n T) (eta T) (stresses (k + 1) b - back (k + 1), s0 T + y (k + 1) b 1) -
          g i T * y (k + 1) b (Fin.natAdd 1 i).succ *
            |overflow (n T) (eta T) (stresses (k + 1) b - back (k + 1), s0 T + y (k + 1) b 1)|) := by
    intro k hk
    obtain ⟨a1, e, a2, a3⟩ := C78_inelastic_steps c hs hm hr ha model nt times stresses temps blk hb hg res h b E f hmod hE
      (fun _ _ _ _ _ => rfl) (fun _ _ _ _ _ => rfl) k hk
    rw [hT (k + 1) hk] at a1 a3
    refine ⟨a1, ?_, fun i => ?_⟩
    · have h1 := a3 (Fin.castAdd nk 0)
      have h2 : f.hist (stresses (k + 1) b) (fun j => res.get (k + 1) b j.succ) (times (k + 1) b) T e (Fin.castAdd nk 0) =
          d T * (R T - y (k + 1) b 1) * |f.flow (stresses (k + 1) b) (fun j => y (k + 1) b j.succ) (times (k + 1) b) T 0| := by
        rw [one_eq_iso, hf]
        simp only [isoKin, Fin.append_left]
        rfl
      rw [h2, flow_eq, ← one_eq_iso] at h1
      linarith
    · have h1 := a3 (Fin.natAdd 1 i)
      have h2 : f.hist (stresses (k + 1) b) (fun j => res.get (k + 1) b j.succ) (times (k + 1) b) T e (Fin.natAdd 1 i) =
          C i T * f.flow (stresses (k + 1) b) (fun j => y (k + 1) b j.succ) (times (k + 1) b) T 0 - g i T * y (k + 1) b (Fin.natAdd 1 i).succ *
            |f.flow (stresses (k + 1) b) (fun j => y (k + 1) b j.succ) (times (k + 1) b) T 0| := by
        rw [hf]
        simp only [isoKin, Fin.append_right]
        rfl
      rw [h2, flow_eq] at h1
      linarith
  have hdt : ∀ k, k + 1 < nt → 0 ≤ times (k + 1) b - times k b := fun k hk => (sub_pos.2 (hg b k (by omega))).le
  have g0 : y 0 = 0 := by
    obtain ⟨-, f2⟩ := C14_every_time_filled c _ _ nt times blk hb res false h
    change res.get 0 = 0
    unfold Ode.Partial.get; rw [f2]; rfl
  have hst : ∀ k, k < nt → VCState R C g T (y k b) := by
    intro k
    induction k with
    | zero => intro _; rw [g0]; exact ⟨⟨le_rfl, hp.R⟩, fun i => by simpa using hp.C i⟩
    | succ k ih =>
      intro hk
      obtain ⟨i1, i2⟩ := ih (by omega)
      obtain ⟨-, e1, e2⟩ := rows k hk
      obtain ⟨⟨q1, q2⟩, x1⟩ := adm_hist (hdt k hk) hp.d hp.g e1 e2 i1 i2
      exact ⟨⟨i1.1.trans q1, q2⟩, x1⟩
  have hET : 0 < E T := by
    refine lt_of_le_of_ne hp.E (Ne.symm ?_)
    rw [← hT 0 (by omega)]; exact hE 0 (by omega)
  have hfl : ∀ k, flow k = overflow (n T) (eta T) (σ - back k, s0 T + y k b 1) := fun k => flow_eq σ k _ _
  have step : ∀ k, k0 ≤ k → k < k1 → back k ≤ σ →
      (0 ≤ flow (k + 1) ∧ flow (k + 1) ≤ flow k) ∧ back (k + 1) ≤ σ ∧
      (y k b 1 ≤ y (k + 1) b 1 ∧ ∀ i : Fin nk, y k b (Fin.natAdd 1 i).succ ≤ y (k + 1) b (Fin.natAdd 1 i).succ) ∧
      (σ ≤ back k + s0 T + y k b 1 → flow (k + 1) = 0 ∧ ∀ j : Fin (1 + nk), y (k + 1) b j.succ = y k b j.succ) := by
    intro k hk0 hk hu
    have hk' : k + 1 < nt := by omega
    obtain ⟨-, e1, e2⟩ := rows k hk'
    rw [hold (k + 1) (by omega) (by omega), ← hfl (k + 1)] at e1
    have e2' : ∀ i : Fin nk, y (k + 1) b (Fin.natAdd 1 i).succ = y k b (Fin.natAdd 1 i).succ + (times (k + 1) b - times k b) *
        (C i T * flow (k + 1) - g i T * y (k + 1) b (Fin.natAdd 1 i).succ * |flow (k + 1)|) := by
      intro i
      have := e2 i
      rw [hold (k + 1) (by omega) (by omega), ← hfl (k + 1)] at this
      exact this
    obtain ⟨a1, a2, a3, a4, -, a6, a7⟩ := tension_step (a := 0) (δ := 0) (s := σ) (s' := σ) hp.n hp.eta hp.s0 (hdt k hk') hp.d hp.g le_rfl le_rfl
      (hfl (k + 1)) (by ring) e1 e2' (hst k (by omega)).1 (hst k (by omega)).2 hu
    have hq := (adm_hist (hdt k hk') hp.d hp.g e1 e2' (hst k (by omega)).1 (hst k (by omega)).2).1.1
    refine ⟨⟨a1, by rw [hfl k]; exact (a4 (by rw [zero_mul])).2⟩, a3, ⟨hq, a2⟩, fun h => ?_⟩
    have hz := a6 rfl (by change σ - back k ≤ s0 T + y k b 1; linarith)
    obtain ⟨q, x⟩ := a7 hz
    refine ⟨hz, fun j => ?_⟩
    refine Fin.addCases (fun j => ?_) (fun j => x j) j
    obtain rfl : j = 0 := Subsingleton.elim _ _
    rw [← one_eq_iso]; exact q
  have inv : ∀ k, k0 ≤ k → k ≤ k1 → back k ≤ σ ∧
      (σ ≤ back k0 + s0 T + y k0 b 1 → ∀ j : Fin (1 + nk), y k b j.succ = y k0 b j.succ) := by
    intro k hk0
    induction k, hk0 using Nat.le_induction with
    | base => intro _; exact ⟨hstart, fun _ _ => rfl⟩
    | succ k hk0 ih =>
      intro hk
      obtain ⟨i1, i2⟩ := ih (by omega)
      obtain ⟨-, a2, -, a4⟩ := step k hk0 hk i1
      refine ⟨a2, fun h j => ?_⟩
      have e := i2 h
      rw [(a4 ?_).2 j, e j]
      have eb : back k = back k0 := Finset.sum_congr rfl fun i _ => e _
      have e1 : y k b 1 = y k0 b 1 := by rw [one_eq_iso]; exact e _
      rw [eb, e1]; exact h
  obtain ⟨i1, i2⟩ := inv k hk0 hk.le
  obtain ⟨a1, a2, a3, a4⟩ := step k hk0 hk i1
  obtain ⟨-, j2⟩ := inv (k + 1) (by omega) hk
  refine ⟨?_, a1, a2, a3, fun h => ⟨?_, j2 h⟩⟩
  · have := (rows k (by omega)).1
    rw [hold (k + 1) (by omega) (by omega), hold k hk0 (by omega), sub_self, zero_div, zero_add, abs_of_pos hET] at this
    exact this
  · have e := i2 h
    refine (a4 ?_).1
    have eb : back k = back k0 := Finset.sum_congr rfl fun i _ => e _
    have e1 : y k b 1 = y k0 b 1 := by rw [one_eq_iso]; exact e _
    rw [eb, e1]; exact h

end creep

end Pyoptmat.Props
