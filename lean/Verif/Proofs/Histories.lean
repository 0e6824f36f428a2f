import Verif.Proofs.Models
import Verif.Proofs.IsoKin
import Verif.Proofs.FlowRules
import Verif.Proofs.Superimposed
import Mathlib.Topology.Order.IntermediateValue

/-! Helper lemmas: one implicit step of the Voce-Chaboche and of the perfectly viscoplastic model. -/

namespace Pyoptmat.Material

open Filter Topology

/-! ### The overstress function -/

theorem overflow_neg (n eta u w : ℝ) : overflow n eta (-u, w) = -overflow n eta (u, w) := by
  simp only [overflow, abs_neg]
  rcases sgn_cases u with ⟨h, hs⟩ | ⟨h, hs⟩ | ⟨h, hs⟩
  · rw [hs, sgn_pos (by linarith)]; ring
  · simp [h]
  · rw [hs, sgn_neg (by linarith)]; ring

theorem overflow_of_le {n eta u w : ℝ} (hn : 0 < n) (heta : 0 < eta) (h : |u| ≤ w) : overflow n eta (u, w) = 0 := by
  simp only [overflow]
  rw [macaulay_of_nonpos (div_nonpos_of_nonpos_of_nonneg (by linarith) heta.le), Real.zero_rpow hn.ne', zero_mul]

theorem overflow_of_gt {n eta u w : ℝ} (heta : 0 < eta) (hw : 0 ≤ w) (h : w < u) :
    overflow n eta (u, w) = ((u - w) / eta) ^ n := by
  simp only [overflow]
  rw [abs_of_pos (by linarith), macaulay_of_pos (div_pos (by linarith) heta), sgn_pos (by linarith), mul_one]

theorem overflow_pos {n eta u w : ℝ} (heta : 0 < eta) (hw : 0 ≤ w) (h : w < u) : 0 < overflow n eta (u, w) := by
  rw [overflow_of_gt heta hw h]; exact Real.rpow_pos_of_pos (div_pos (by linarith) heta) _

theorem overflow_lt_neg {n eta u w : ℝ} (heta : 0 < eta) (hw : 0 ≤ w) (h : u < -w) : overflow n eta (u, w) < 0 := by
  have := overflow_pos (n := n) heta hw (by linarith : w < -u)
  rw [overflow_neg] at this; linarith

theorem overflow_pos_iff {n eta u w : ℝ} (hn : 0 < n) (heta : 0 < eta) (hw : 0 ≤ w) :
    0 < overflow n eta (u, w) ↔ w < u := by
  constructor
  · intro h
    by_contra hc
    rcases lt_or_ge u (-w) with h1 | h1
    · exact absurd h (overflow_lt_neg heta hw h1).le.not_gt
    · rw [overflow_of_le hn heta (abs_le.2 ⟨h1, not_lt.1 hc⟩)] at h; exact lt_irrefl _ h
  · exact overflow_pos heta hw

/-- `p` is the flow at `(u, w)` for positive `p` iff the overstress is `η p^{1/n}` -/
theorem overflow_eq_iff {n eta u w p : ℝ} (hn : 0 < n) (heta : 0 < eta) (hw : 0 ≤ w) (hp : 0 < p) :
    overflow n eta (u, w) = p ↔ u - w = eta * p ^ (1 / n) := by
  constructor
  · intro h
    have h1 : w < u := (overflow_pos_iff hn heta hw).1 (h ▸ hp)
    rw [overflow_of_gt heta hw h1] at h
    have h2 : 0 ≤ (u - w) / eta := (div_pos (by linarith) heta).le
    rw [← h, ← Real.rpow_mul h2, mul_one_div_cancel hn.ne', Real.rpow_one]
    field_simp
  · intro h
    have h0 : 0 < p ^ (1 / n) := Real.rpow_pos_of_pos hp _
    have h1 : w < u := by have := mul_pos heta h0; linarith
    rw [overflow_of_gt heta hw h1, h, mul_div_cancel_left₀ _ heta.ne', ← Real.rpow_mul hp.le,
      one_div_mul_cancel hn.ne', Real.rpow_one]

/-! ### The scalar equation of an implicit step -/

/-- positive solutions: at most one -/
theorem pos_unique {n eta : ℝ} (hn : 0 < n) (heta : 0 < eta) {u w : ℝ → ℝ} (hw : ∀ p, 0 ≤ w p)
    (ha : ∀ p q, 0 ≤ p → p ≤ q → u q - w q ≤ u p - w p) {p q : ℝ} (hp : 0 < p) (hq : 0 < q)
    (h1 : overflow n eta (u p, w p) = p) (h2 : overflow n eta (u q, w q) = q) : p = q := by
  rw [overflow_eq_iff hn heta (hw _) hp] at h1
  rw [overflow_eq_iff hn heta (hw _) hq] at h2
  have key : ∀ {p q : ℝ}, 0 < p → u p - w p = eta * p ^ (1 / n) → u q - w q = eta * q ^ (1 / n) → ¬ p < q := by
    intro p q hp h1 h2 hlt
    have h3 := ha p q hp.le hlt.le
    have h4 : p ^ (1 / n) < q ^ (1 / n) := Real.rpow_lt_rpow hp.le hlt (by positivity)
    have := mul_lt_mul_of_pos_left h4 heta
    linarith
  rcases lt_trichotomy p q with h | h | h
  · exact absurd h (key hp h1 h2)
  · exact h
  · exact absurd h (key hq h2 h1)

/-- a positive solution exists iff the state at `p = 0` is beyond the upper yield point -/
theorem pos_iff {n eta : ℝ} (hn : 0 < n) (heta : 0 < eta) {u w : ℝ → ℝ} (hw : ∀ p, 0 ≤ w p) (hu : Continuous u)
    (hwc : Continuous w) (ha : ∀ p q, 0 ≤ p → p ≤ q → u q - w q ≤ u p - w p) :
    (∃ p, 0 < p ∧ overflow n eta (u p, w p) = p) ↔ w 0 < u 0 := by
  constructor
  · rintro ⟨p, hp, h⟩
    rw [overflow_eq_iff hn heta (hw _) hp] at h
    have h1 := ha 0 p le_rfl hp.le
    have h2 := mul_pos heta (Real.rpow_pos_of_pos hp (1 / n))
    linarith
  · intro h
    -- an upper bound of the solution
    set q : ℝ := ((u 0 - w 0) / eta) ^ n with hq
    have hq0 : 0 < q := Real.rpow_pos_of_pos (div_pos (by linarith) heta) _
    have hqe : eta * q ^ (1 / n) = u 0 - w 0 := by
      rw [hq, ← Real.rpow_mul (div_pos (by linarith) heta).le, mul_one_div_cancel hn.ne', Real.rpow_one]
      field_simp
    have hc : ContinuousOn (fun p : ℝ => eta * p ^ (1 / n) - (u p - w p)) (Set.Icc 0 q) := by
      refine ((continuous_const.mul (Real.continuous_rpow_const (by positivity))).sub (hu.sub hwc)).continuousOn
    have h0 : (fun p : ℝ => eta * p ^ (1 / n) - (u p - w p)) 0 ≤ 0 := by
      simp only []
      rw [Real.zero_rpow (by positivity)]; linarith
    have h1 : 0 ≤ (fun p : ℝ => eta * p ^ (1 / n) - (u p - w p)) q := by
      simp only []
      have := ha 0 q le_rfl hq0.le
      linarith
    obtain ⟨p, ⟨hp0, hpq⟩, hp⟩ := intermediate_value_Icc hq0.le hc ⟨h0, h1⟩
    simp only [] at hp
    have hpp : 0 < p := by
      rcases hp0.lt_or_eq with h' | h'
      · exact h'
      · rw [← h', Real.zero_rpow (by positivity)] at hp; linarith
    exact ⟨p, hpp, (overflow_eq_iff hn heta (hw _) hpp).2 (by linarith)⟩

/-- The scalar equation `p = overflow (u p, w p)` has exactly one solution when flowing in either direction reduces the overstress. -/
theorem scalar_unique {n eta : ℝ} (hn : 0 < n) (heta : 0 < eta) {u w : ℝ → ℝ} (hw : ∀ p, 0 ≤ w p) (hu : Continuous u)
    (hwc : Continuous w) (ha : ∀ p q, 0 ≤ p → p ≤ q → u q - w q ≤ u p - w p)
    (hb : ∀ p q, 0 ≤ p → p ≤ q → -u (-q) - w (-q) ≤ -u (-p) - w (-p)) :
    ∃! p, overflow n eta (u p, w p) = p := by
  -- the reflected problem
  have hw' : ∀ p, 0 ≤ w (-p) := fun p => hw _
  have hu' : Continuous fun p => -u (-p) := (hu.comp continuous_neg).neg
  have hwc' : Continuous fun p => w (-p) := hwc.comp continuous_neg
  have i1 := pos_iff hn heta hw hu hwc ha
  have i2 := pos_iff hn heta hw' hu' hwc' hb
  have refl : ∀ p, overflow n eta (-u (-p), w (-p)) = p ↔ overflow n eta (u (-p), w (-p)) = -p := by
    intro p; rw [overflow_neg]; constructor <;> intro h <;> linarith
  have zero_iff : overflow n eta (u 0, w 0) = 0 ↔ |u 0| ≤ w 0 := by
    constructor
    · intro h
      rw [abs_le]
      constructor
      · by_contra hc
        exact absurd h (overflow_lt_neg heta (hw 0) (not_le.1 hc)).ne
      · by_contra hc
        exact absurd h (overflow_pos heta (hw 0) (not_le.1 hc)).ne'
    · exact overflow_of_le hn heta
  have hw0 := hw 0
  -- which case each solution belongs to
  have cls : ∀ p, overflow n eta (u p, w p) = p →
      (0 < p ∧ w 0 < u 0) ∨ (p = 0 ∧ |u 0| ≤ w 0) ∨ (p < 0 ∧ w 0 < -u 0) := by
    intro p hp
    rcases lt_trichotomy p 0 with h | h | h
    · refine Or.inr (Or.inr ⟨h, ?_⟩)
      have := i2.1 ⟨-p, by linarith, (refl _).2 (by rw [neg_neg]; exact hp)⟩
      simpa using this
    · rw [h] at hp; exact Or.inr (Or.inl ⟨h, zero_iff.1 hp⟩)
    · exact Or.inl ⟨h, i1.1 ⟨p, h, hp⟩⟩
  have huniq : ∀ p q, overflow n eta (u p, w p) = p → overflow n eta (u q, w q) = q → p = q := by
    intro p q hp hq
    rcases cls p hp with ⟨a, a'⟩ | ⟨a, a'⟩ | ⟨a, a'⟩ <;> rcases cls q hq with ⟨b, b'⟩ | ⟨b, b'⟩ | ⟨b, b'⟩
    · exact pos_unique hn heta hw ha a b hp hq
    · have := (abs_le.1 b').2; linarith
    · linarith
    · have := (abs_le.1 a').2; linarith
    · rw [a, b]
    · have := (abs_le.1 a').1; linarith
    · linarith
    · have := (abs_le.1 b').1; linarith
    · have := pos_unique hn heta (u := fun p => -u (-p)) hw' hb (p := -p) (q := -q) (by linarith) (by linarith)
        ((refl _).2 (by rw [neg_neg]; exact hp)) ((refl _).2 (by rw [neg_neg]; exact hq))
      linarith
  rcases lt_or_ge (w 0) (u 0) with h | h
  · obtain ⟨p, _, hp⟩ := i1.2 h
    exact ⟨p, hp, fun q hq => huniq q p hq hp⟩
  · rcases lt_or_ge (w 0) (-u 0) with h' | h'
    · obtain ⟨p, _, hp⟩ := i2.2 (by simpa using h')
      exact ⟨-p, (refl _).1 hp, fun q hq => huniq q (-p) hq ((refl _).1 hp)⟩
    · have h0 := zero_iff.2 (abs_le.2 ⟨by linarith, h⟩)
      exact ⟨0, h0, fun q hq => huniq q 0 hq h0⟩

/-! ### Linear-fractional updates -/

/-- the solution `x` of `x = x0 + a (c p - g x |p|)` -/
noncomputable def mob (x0 a c g p : ℝ) : ℝ := (x0 + a * (c * p)) / (1 + a * (g * |p|))

theorem mob_den {a g : ℝ} (ha : 0 ≤ a) (hg : 0 ≤ g) (p : ℝ) : 0 < 1 + a * (g * |p|) := by
  have := mul_nonneg ha (mul_nonneg hg (abs_nonneg p)); linarith

theorem mob_iff {x x0 a c g p : ℝ} (ha : 0 ≤ a) (hg : 0 ≤ g) :
    x = x0 + a * (c * p - g * x * |p|) ↔ x = mob x0 a c g p := by
  rw [mob, eq_div_iff (mob_den ha hg p).ne']
  constructor <;> intro h <;> linear_combination h

theorem mob_continuous {x0 a c g : ℝ} (ha : 0 ≤ a) (hg : 0 ≤ g) : Continuous (mob x0 a c g) := by
  unfold mob
  refine Continuous.div (by fun_prop) (by fun_prop) fun p => (mob_den ha hg p).ne'

theorem mob_mono {x0 a c g : ℝ} (ha : 0 ≤ a) (hg : 0 ≤ g) (h : x0 * g ≤ c) {p q : ℝ} (hp : 0 ≤ p) (hpq : p ≤ q) :
    mob x0 a c g p ≤ mob x0 a c g q := by
  unfold mob
  rw [div_le_div_iff₀ (mob_den ha hg p) (mob_den ha hg q), abs_of_nonneg hp, abs_of_nonneg (hp.trans hpq)]
  nlinarith [mul_nonneg ha (mul_nonneg (sub_nonneg.2 h) (sub_nonneg.2 hpq))]

theorem mob_neg (x0 a c g p : ℝ) : mob x0 a c g (-p) = -mob (-x0) a c g p := by
  unfold mob; rw [abs_neg, ← neg_div]; congr 1; ring

/-! ### The rows of a step -/

variable {nk : ℕ}

/-- row of the isotropic variable -/
theorem one_eq_iso : (1 : Fin (1 + nk + 1)) = (Fin.castAdd nk (0 : Fin 1)).succ := by ext; simp

/-- every row of the state `[stress, iso, kin]` -/
@[elab_as_elim] theorem cases_vc {motive : Fin (1 + nk + 1) → Prop} (h0 : motive 0) (h1 : motive 1)
    (h2 : ∀ i : Fin nk, motive (Fin.natAdd 1 i).succ) (j) : motive j := by
  refine Fin.cases h0 (fun j => ?_) j
  refine Fin.addCases (fun j => ?_) (fun j => h2 j) j
  obtain rfl : j = 0 := Subsingleton.elim _ _
  rw [← one_eq_iso]; exact h1

/-- the plastic strain rate of a state `[stress, iso, kin]` with summed backstresses -/
noncomputable def vcFlow (n eta s0 : ℝ → ℝ) (y : Fin (1 + nk + 1) → ℝ) (T : ℝ) : ℝ :=
  overflow (n T) (eta T) (y 0 - ∑ i : Fin nk, y (Fin.natAdd 1 i).succ, s0 T + y 1)

theorem vc_ydot (E n eta s0 R d : ℝ → ℝ) (C g bb r : Fin nk → ℝ → ℝ) (t : ℝ) (y : Fin (1 + nk + 1) → ℝ) (e T : ℝ) :
    let o := (inelastic E (isoKin n eta s0 (voce R d) (chabocheRecovery C g bb r)) t y e T).ydot
    let p := vcFlow n eta s0 y T
    o 0 = E T * (e - p) ∧ o 1 = d T * (R T - y 1) * |p| ∧
      ∀ i : Fin nk, o (Fin.natAdd 1 i).succ = C i T * p - g i T * y (Fin.natAdd 1 i).succ * |p| -
        bb i T * |y (Fin.natAdd 1 i).succ| ^ (r i T - 1) * y (Fin.natAdd 1 i).succ := by
  have hp : isoKinFlow n eta s0 (voce R d) (chabocheRecovery C g bb r) (y 0) (fun j => y j.succ) T = vcFlow n eta s0 y T := by
    rw [isoKinFlow_eq, vcFlow, one_eq_iso]; rfl
  refine ⟨?_, ?_, fun i => ?_⟩
  · simp only [inelastic, isoKin, Fin.cons_zero, hp]
  · rw [one_eq_iso]
    simp only [inelastic, isoKin, Fin.cons_succ, Fin.append_left, hp]
    rfl
  · simp only [inelastic, isoKin, Fin.cons_succ, Fin.append_right, hp]
    rfl

theorem chaboche_as_recovery (E n eta s0 R d : ℝ → ℝ) (C g : Fin nk → ℝ → ℝ) (t : ℝ) (y : Fin (1 + nk + 1) → ℝ) (e T : ℝ) :
    (inelastic E (isoKin n eta s0 (voce R d) (chaboche C g)) t y e T).ydot =
      (inelastic E (isoKin n eta s0 (voce R d) (chabocheRecovery C g (fun _ _ => 0) fun _ _ => 1)) t y e T).ydot := by
  funext j
  refine Fin.cases ?_ (fun j => ?_) j
  · rfl
  · refine Fin.addCases (fun j => ?_) (fun j => ?_) j
    · simp only [inelastic, isoKin, Fin.cons_succ, Fin.append_left]; rfl
    · simp only [inelastic, isoKin, Fin.cons_succ, Fin.append_right]
      simp only [chaboche, chabocheRecovery, zero_mul, sub_zero]
      rfl

/-- rows of one implicit step -/
theorem vc_step_iff (E n eta s0 R d : ℝ → ℝ) (C g bb r : Fin nk → ℝ → ℝ) (t dt : ℝ) (y y' : Fin (1 + nk + 1) → ℝ) (e T : ℝ) :
    y' = y + dt • (inelastic E (isoKin n eta s0 (voce R d) (chabocheRecovery C g bb r)) t y' e T).ydot ↔
      let p := vcFlow n eta s0 y' T
      y' 0 = y 0 + dt * (E T * (e - p)) ∧ y' 1 = y 1 + dt * (d T * (R T - y' 1) * |p|) ∧
        ∀ i : Fin nk, y' (Fin.natAdd 1 i).succ = y (Fin.natAdd 1 i).succ + dt * (C i T * p -
          g i T * y' (Fin.natAdd 1 i).succ * |p| -
          bb i T * |y' (Fin.natAdd 1 i).succ| ^ (r i T - 1) * y' (Fin.natAdd 1 i).succ) := by
  obtain ⟨h0, h1, h2⟩ := vc_ydot E n eta s0 R d C g bb r t y' e T
  constructor
  · intro h
    refine ⟨?_, ?_, fun i => ?_⟩
    · rw [← h0]; exact congrFun h 0
    · rw [← h1]; exact congrFun h 1
    · rw [← h2]; exact congrFun h _
  · rintro ⟨a0, a1, a2⟩
    funext j
    rw [Pi.add_apply, Pi.smul_apply, smul_eq_mul]
    refine cases_vc ?_ ?_ (fun i => ?_) j
    · rw [h0]; exact a0
    · rw [h1]; exact a1
    · rw [h2]; exact a2 i

/-- **One implicit step of the Voce-Chaboche model has exactly one solution** from an admissible state. -/
theorem vc_step_unique (E n eta s0 R d : ℝ → ℝ) (C g : Fin nk → ℝ → ℝ) (t dt : ℝ) (y : Fin (1 + nk + 1) → ℝ) (e T : ℝ)
    (hdt : 0 ≤ dt) (hE : 0 ≤ E T) (hn : 0 < n T) (heta : 0 < eta T) (hs0 : 0 ≤ s0 T) (hd : 0 ≤ d T)
    (hg : ∀ i, 0 ≤ g i T) (hr0 : 0 ≤ y 1) (hr1 : y 1 ≤ R T)
    (hx : ∀ i : Fin nk, |y (Fin.natAdd 1 i).succ| * g i T ≤ C i T) :
    ∃! y', y' = y + dt • (inelastic E (isoKin n eta s0 (voce R d) (chaboche C g)) t y' e T).ydot := by
  -- the state as a function of the plastic strain rate
  let S : ℝ → ℝ := fun p => y 0 + dt * (E T * (e - p))
  let Q : ℝ → ℝ := fun p => mob (y 1) dt (d T * R T) (d T) |p|
  let X : Fin nk → ℝ → ℝ := fun i p => mob (y (Fin.natAdd 1 i).succ) dt (C i T) (g i T) p
  let Y : ℝ → Fin (1 + nk + 1) → ℝ := fun p => Fin.cons (S p) (Fin.append (fun _ : Fin 1 => Q p) fun i => X i p)
  have Y0 : ∀ p, Y p 0 = S p := fun p => rfl
  have Y1 : ∀ p, Y p 1 = Q p := fun p => by rw [one_eq_iso]; simp only [Y, Fin.cons_succ, Fin.append_left]
  have Y2 : ∀ p i, Y p (Fin.natAdd 1 i).succ = X i p := fun p i => by simp only [Y, Fin.cons_succ, Fin.append_right]
  let u : ℝ → ℝ := fun p => S p - ∑ i, X i p
  let w : ℝ → ℝ := fun p => s0 T + Q p
  have hR : 0 ≤ R T := hr0.trans hr1
  have hflow : ∀ p, vcFlow n eta s0 (Y p) T = overflow (n T) (eta T) (u p, w p) := by
    intro p; simp only [vcFlow, Y0, Y1, Y2, u, w]
  -- solutions are the `Y p` with `p` solving the scalar equation
  have hsol : ∀ y', y' = y + dt • (inelastic E (isoKin n eta s0 (voce R d) (chaboche C g)) t y' e T).ydot ↔
      y' = Y (vcFlow n eta s0 y' T) := by
    intro y'
    rw [chaboche_as_recovery, vc_step_iff]
    generalize vcFlow n eta s0 y' T = p
    dsimp only
    have e1 : y' 1 = y 1 + dt * (d T * (R T - y' 1) * |p|) ↔ y' 1 = Q p := by
      simp only [Q]
      rw [← mob_iff hdt hd, abs_abs]
      constructor <;> intro h <;> linear_combination h
    have e2 : ∀ i : Fin nk, (y' (Fin.natAdd 1 i).succ = y (Fin.natAdd 1 i).succ + dt * (C i T * p -
          g i T * y' (Fin.natAdd 1 i).succ * |p| - 0 * |y' (Fin.natAdd 1 i).succ| ^ ((1 : ℝ) - 1) *
          y' (Fin.natAdd 1 i).succ)) ↔ y' (Fin.natAdd 1 i).succ = X i p := by
      intro i
      simp only [X]
      rw [← mob_iff hdt (hg i), zero_mul, zero_mul, sub_zero]
    constructor
    · rintro ⟨a0, a1, a2⟩
      funext j
      refine cases_vc ?_ ?_ (fun i => ?_) j
      · rw [Y0]; exact a0
      · rw [Y1]; exact e1.1 a1
      · rw [Y2]; exact (e2 i).1 (a2 i)
    · intro h
      refine ⟨?_, e1.2 ?_, fun i => (e2 i).2 ?_⟩
      · exact congrFun h 0
      · rw [← Y1]; exact congrFun h 1
      · rw [← Y2]; exact congrFun h _
  have hQc : Continuous Q := (mob_continuous hdt hd).comp continuous_abs
  have hXc : ∀ i, Continuous (X i) := fun i => mob_continuous hdt (hg i)
  have hQm : ∀ p q, 0 ≤ p → p ≤ q → Q p ≤ Q q := by
    intro p q hp hpq
    simp only [Q]
    rw [abs_of_nonneg hp, abs_of_nonneg (hp.trans hpq)]
    refine mob_mono hdt hd ?_ hp hpq
    nlinarith
  have hS : ∀ p q, p ≤ q → S q ≤ S p := by
    intro p q hpq
    have := mul_nonneg hdt (mul_nonneg hE (sub_nonneg.2 hpq))
    simp only [S]; nlinarith
  have hw0 : ∀ p, 0 ≤ w p := by
    intro p
    refine add_nonneg hs0 (div_nonneg ?_ (mob_den hdt hd _).le)
    exact add_nonneg hr0 (mul_nonneg hdt (mul_nonneg (mul_nonneg hd hR) (abs_nonneg _)))
  have hQn : ∀ p, Q (-p) = Q p := fun p => by simp only [Q, abs_neg]
  obtain ⟨p, hp, hpu⟩ := scalar_unique hn heta hw0 (u := u) (by fun_prop) (by fun_prop)
    (by
      intro p q hp hpq
      have h1 : ∑ i, X i p ≤ ∑ i, X i q := Finset.sum_le_sum fun i _ =>
        mob_mono hdt (hg i) ((mul_le_mul_of_nonneg_right (le_abs_self _) (hg i)).trans (hx i)) hp hpq
      have h2 := hQm p q hp hpq
      have h3 := hS p q hpq
      simp only [u, w]; linarith)
    (by
      intro p q hp hpq
      have h1 : ∑ i, -X i (-p) ≤ ∑ i, -X i (-q) := Finset.sum_le_sum fun i _ => by
        simp only [X, mob_neg, neg_neg]
        exact mob_mono hdt (hg i) ((mul_le_mul_of_nonneg_right (neg_le_abs _) (hg i)).trans (hx i)) hp hpq
      rw [Finset.sum_neg_distrib, Finset.sum_neg_distrib] at h1
      have h2 := hQm p q hp hpq
      have h3 := hS (-q) (-p) (by linarith)
      simp only [u, w, hQn]; linarith)
  refine ⟨Y p, (hsol _).2 ?_, fun y' hy' => ?_⟩
  · rw [hflow, hp]
  · have h1 := (hsol _).1 hy'
    have h2 : overflow (n T) (eta T) (u (vcFlow n eta s0 y' T), w (vcFlow n eta s0 y' T)) = vcFlow n eta s0 y' T := by
      rw [← hflow]; conv_rhs => rw [h1]
    rw [h1, hpu _ h2]

end Pyoptmat.Material
