import Mathlib.Topology.Order.IntermediateValue
import Mathlib.Topology.Instances.Real.Lemmas
import Mathlib.Analysis.SpecialFunctions.Pow.Continuity
import Mathlib.Analysis.Convex.SpecificFunctions.Basic
import Mathlib.Tactic

/-! Helper lemmas: monotone convergence of Newton's method on a chain of implicit scalar steps with a convex, increasing resistance. -/

namespace Pyoptmat.Proofs

/-- a convex increasing resistance with its slope; `N` bounds how much the slope exceeds the secant -/
structure ConvexResistance (g g' : ℝ → ℝ) (N : ℝ) : Prop where
  zero : g 0 = 0
  cont : ContinuousOn g (Set.Ici 0)
  slope : ∀ x, 0 ≤ x → 0 ≤ g' x
  tangent : ∀ x y, 0 ≤ x → 0 ≤ y → g x + g' x * (y - x) ≤ g y
  growth : ∀ x z, 0 ≤ z → z ≤ x → g' x * (x - z) ≤ N * (g x - g z)

variable {g g' : ℝ → ℝ} {N : ℝ}

theorem ConvexResistance.nonneg (h : ConvexResistance g g' N) {x : ℝ} (hx : 0 ≤ x) : 0 ≤ g x := by
  have h1 := h.tangent 0 x le_rfl hx
  have := mul_nonneg (h.slope 0 le_rfl) hx
  rw [h.zero, sub_zero] at h1
  linarith

theorem ConvexResistance.step_exists (h : ConvexResistance g g' N) {dt c : ℝ} (hdt : 0 ≤ dt) (hc : 0 ≤ c) : ∃ x, 0 ≤ x ∧ x + dt * g x = c := by
  have hcont : ContinuousOn (fun x => x + dt * g x) (Set.Icc 0 c) := continuousOn_id.add (continuousOn_const.mul (h.cont.mono Set.Icc_subset_Ici_self))
  have := intermediate_value_Icc hc hcont
  obtain ⟨x, hx, e⟩ := this (show c ∈ Set.Icc _ _ by
    beta_reduce
    rw [h.zero]
    have := mul_nonneg hdt (h.nonneg hc)
    constructor <;> linarith)
  exact ⟨x, hx.1, e⟩

section chain
variable {n : ℕ} {t a : ℕ → ℝ} {G G' : ℕ → ℝ → ℝ} {s : ℝ}

/-- the exact solution of the chain -/
theorem chain_exists (ht : ∀ k < n, t k ≤ t (k + 1)) (ha : ∀ k < n, 0 ≤ a k) (hs : 0 ≤ s) (hG : ∀ k < n, ConvexResistance (G k) (G' k) N) :
    ∃ z : ℕ → ℝ, z 0 = s ∧ (∀ k ≤ n, 0 ≤ z k) ∧ ∀ k < n, z (k + 1) - z k = (t (k + 1) - t k) * (a k - G k (z (k + 1))) := by
  have step : ∀ (k : ℕ) (c : ℝ), ∃ x, k < n → 0 ≤ c → 0 ≤ x ∧ x + (t (k + 1) - t k) * G k x = c + (t (k + 1) - t k) * a k := by
    intro k c
    by_cases hk : k < n ∧ 0 ≤ c
    · obtain ⟨x, h1, h2⟩ := (hG k hk.1).step_exists (sub_nonneg.2 (ht k hk.1)) (c := c + (t (k + 1) - t k) * a k) (by
        have := mul_nonneg (sub_nonneg.2 (ht k hk.1)) (ha k hk.1)
        linarith [hk.2])
      exact ⟨x, fun _ _ => ⟨h1, h2⟩⟩
    · exact ⟨0, fun h1 h2 => absurd ⟨h1, h2⟩ hk⟩
  choose F hF using step
  let z : ℕ → ℝ := fun k => Nat.rec s (fun k c => F k c) k
  have pos : ∀ k ≤ n, 0 ≤ z k := by
    intro k
    induction k with
    | zero => intro _; exact hs
    | succ k ih => intro hk; exact (hF k (z k) (by omega) (ih (by omega))).1
  refine ⟨z, rfl, pos, fun k hk => ?_⟩
  have := (hF k (z k) hk (pos k hk.le)).2
  change F k (z k) - z k = _ * (a k - G k (F k (z k)))
  linarith

/-- the elastic stress -/
def elasticSum (s : ℝ) (t a : ℕ → ℝ) (k : ℕ) : ℝ := s + ∑ i ∈ Finset.range k, (t (i + 1) - t i) * a i

theorem elasticSum_succ (s : ℝ) (t a : ℕ → ℝ) (k : ℕ) : elasticSum s t a (k + 1) = elasticSum s t a k + (t (k + 1) - t k) * a k := by
  rw [elasticSum, elasticSum, Finset.sum_range_succ]; ring

theorem elasticSum_mono (ht : ∀ k < n, t k ≤ t (k + 1)) (ha : ∀ k < n, 0 ≤ a k) {i j : ℕ} (hij : i ≤ j) (hj : j ≤ n) : elasticSum s t a i ≤ elasticSum s t a j := by
  induction j, hij using Nat.le_induction with
  | base => exact le_rfl
  | succ j hij ih =>
    rw [elasticSum_succ]
    have := mul_nonneg (sub_nonneg.2 (ht j (by omega))) (ha j (by omega))
    linarith [ih (by omega)]

theorem elasticSum_zero (s : ℝ) (t a : ℕ → ℝ) : elasticSum s t a 0 = s := by simp [elasticSum]

end chain

section batch
variable {β : Type*} {n : ℕ} {t a : β → ℕ → ℝ} {G G' : β → ℕ → ℝ → ℝ} {s : β → ℝ}

/-- monotone convergence of the Newton iterates -/
theorem monotone_newton (ht : ∀ b, ∀ k < n, t b k ≤ t b (k + 1)) (ha : ∀ b, ∀ k < n, 0 ≤ a b k) (hs : ∀ b, 0 ≤ s b) (hN : 1 ≤ N) (hG : ∀ b, ∀ k < n, ConvexResistance (G b k) (G' b k) N)
    {x : ℕ → β → ℕ → ℝ} (hx0 : ∀ b k, x 0 b k = s b) (hx : ∀ j b, x j b 0 = s b)
    (hrec : ∀ j, (∀ b, ∀ k < n, 0 ≤ x j b (k + 1)) → ∀ b, ∀ k < n, x (j + 1) b (k + 1) - x (j + 1) b k =
      (t b (k + 1) - t b k) * (a b k - G b k (x j b (k + 1)) - G' b k (x j b (k + 1)) * (x (j + 1) b (k + 1) - x j b (k + 1))))
    {z : β → ℕ → ℝ} (hz0 : ∀ b, z b 0 = s b) (hzp : ∀ b, ∀ k ≤ n, 0 ≤ z b k) (hz : ∀ b, ∀ k < n, z b (k + 1) - z b k = (t b (k + 1) - t b k) * (a b k - G b k (z b (k + 1)))) (j : ℕ) :
    (∀ b, ∀ k ≤ n, 0 ≤ x j b k ∧ x j b k ≤ elasticSum (s b) (t b) (a b) k) ∧
    ∀ b, ∀ k ≤ n, z b k ≤ x (j + 1) b k ∧ x (j + 1) b k ≤ elasticSum (s b) (t b) (a b) k ∧ x (j + 1) b k - z b k ≤ (1 - 1 / N) ^ j * elasticSum (s b) (t b) (a b) n := by
  have hN0 : 0 < N := by linarith
  have hθ : 0 ≤ 1 - 1 / N := by
    rw [sub_nonneg, div_le_one hN0]; exact hN
  have hU : ∀ b, 0 ≤ elasticSum (s b) (t b) (a b) n := by
    intro b
    have := elasticSum_mono (s := s b) (ht b) (ha b) (Nat.zero_le n) le_rfl
    rw [elasticSum_zero] at this
    linarith [hs b]
  -- one update keeps the iterates above the solution and below the elastic stress
  have one : ∀ j, (∀ b, ∀ k ≤ n, 0 ≤ x j b k ∧ x j b k ≤ elasticSum (s b) (t b) (a b) k) → ∀ b, ∀ k ≤ n, z b k ≤ x (j + 1) b k ∧ x (j + 1) b k ≤ elasticSum (s b) (t b) (a b) k := by
    intro j hj b k
    induction k with
    | zero => intro _; rw [hz0, hx, elasticSum_zero]; exact ⟨le_rfl, le_rfl⟩
    | succ k ih =>
      intro hk
      obtain ⟨i1, i2⟩ := ih (by omega)
      have r := hrec j (fun b k hk => (hj b (k + 1) (by omega)).1) b k (by omega)
      have e := hz b k (by omega)
      obtain ⟨X0, Xu⟩ := hj b (k + 1) hk
      have tg := (hG b k (by omega)).tangent _ _ X0 (hzp b (k + 1) hk)
      have sl := (hG b k (by omega)).slope _ X0
      have gn := (hG b k (by omega)).nonneg X0
      have hd := sub_nonneg.2 (ht b k (by omega))
      rw [elasticSum_succ] at Xu ⊢
      generalize t b (k + 1) - t b k = h at *
      generalize x j b (k + 1) = X at *
      generalize x (j + 1) b (k + 1) = Y at *
      generalize z b (k + 1) = z' at *
      generalize G b k X = gX at *
      generalize G b k z' = gz at *
      generalize G' b k X = D at *
      have hD : 0 ≤ h * D := mul_nonneg hd sl
      constructor
      · by_contra hc
        push Not at hc
        have h1 := mul_le_mul_of_nonneg_left tg hd
        nlinarith
      · by_contra hc
        push Not at hc
        have := mul_nonneg hd gn
        nlinarith
  induction j with
  | zero =>
    have h0 : ∀ b, ∀ k ≤ n, 0 ≤ x 0 b k ∧ x 0 b k ≤ elasticSum (s b) (t b) (a b) k := by
      intro b k hk
      rw [hx0]
      refine ⟨hs b, ?_⟩
      have := elasticSum_mono (s := s b) (ht b) (ha b) (Nat.zero_le k) hk
      rwa [elasticSum_zero] at this
    refine ⟨h0, fun b k hk => ?_⟩
    obtain ⟨a1, a2⟩ := one 0 h0 b k hk
    refine ⟨a1, a2, ?_⟩
    rw [pow_zero, one_mul]
    have := elasticSum_mono (s := s b) (ht b) (ha b) hk le_rfl
    linarith [hzp b k hk]
  | succ j ih =>
    obtain ⟨-, ih⟩ := ih
    have hj : ∀ b, ∀ k ≤ n, 0 ≤ x (j + 1) b k ∧ x (j + 1) b k ≤ elasticSum (s b) (t b) (a b) k := fun b k hk => ⟨(hzp b k hk).trans (ih b k hk).1, (ih b k hk).2.1⟩
    refine ⟨hj, fun b k hk => ⟨(one (j + 1) hj b k hk).1, (one (j + 1) hj b k hk).2, ?_⟩⟩
    have hB : 0 ≤ (1 - 1 / N) ^ j * elasticSum (s b) (t b) (a b) n := mul_nonneg (pow_nonneg hθ _) (hU b)
    rw [pow_succ, mul_right_comm]
    replace ih := ih b
    generalize (1 - 1 / N) ^ j * elasticSum (s b) (t b) (a b) n = B at *
    induction k with
    | zero => rw [hz0, hx, sub_self]; exact mul_nonneg hB hθ
    | succ k ihk =>
      have i2 := ihk (by omega)
      have r := hrec (j + 1) (fun b k hk => (hj b (k + 1) (by omega)).1) b k (by omega)
      have e := hz b k (by omega)
      obtain ⟨X0, Xu⟩ := hj b (k + 1) hk
      obtain ⟨X1, -, X2⟩ := ih (k + 1) hk
      have gr := (hG b k (by omega)).growth _ _ (hzp b (k + 1) hk) X1
      have sl := (hG b k (by omega)).slope _ X0
      have hd := sub_nonneg.2 (ht b k (by omega))
      generalize t b (k + 1) - t b k = h at *
      generalize x (j + 1) b (k + 1) = X at *
      generalize x (j + 1 + 1) b (k + 1) = Y at *
      generalize x (j + 1 + 1) b k = Yp at *
      generalize z b (k + 1) = z' at *
      generalize z b k = zp at *
      generalize G b k X = gX at *
      generalize G b k z' = gz at *
      generalize G' b k X = D at *
      have hD : 0 ≤ h * D := mul_nonneg hd sl
      have h1 : (1 / N) * (D * (X - z')) ≤ gX - gz := by
        rw [one_div, inv_mul_le_iff₀ hN0]; exact gr
      have h2 := mul_le_mul_of_nonneg_left h1 hd
      have h3 : (1 + h * D) * (Y - z') ≤ B * (1 - 1 / N) + (1 - 1 / N) * (h * D) * (X - z') := by nlinarith
      have h4 := mul_le_mul_of_nonneg_left X2 (mul_nonneg hθ hD)
      have h5 : (1 + h * D) * (Y - z') ≤ (1 + h * D) * (B * (1 - 1 / N)) := by nlinarith
      exact le_of_mul_le_mul_left h5 (by linarith)

/-- what is left of the steps after some updates, and where the iterates are -/
theorem monotone_newton_defect (ht : ∀ b, ∀ k < n, t b k ≤ t b (k + 1)) (ha : ∀ b, ∀ k < n, 0 ≤ a b k) (hs : ∀ b, 0 ≤ s b) (hN : 1 ≤ N) (hG : ∀ b, ∀ k < n, ConvexResistance (G b k) (G' b k) N)
    {x : ℕ → β → ℕ → ℝ} (hx0 : ∀ b k, x 0 b k = s b) (hx : ∀ j b, x j b 0 = s b)
    (hrec : ∀ j, (∀ b, ∀ k < n, 0 ≤ x j b (k + 1)) → ∀ b, ∀ k < n, x (j + 1) b (k + 1) - x (j + 1) b k =
      (t b (k + 1) - t b k) * (a b k - G b k (x j b (k + 1)) - G' b k (x j b (k + 1)) * (x (j + 1) b (k + 1) - x j b (k + 1))))
    {L : ℝ} (b : β) (hL : ∀ k < n, ∀ y, 0 ≤ y → y ≤ elasticSum (s b) (t b) (a b) n → G' b k y ≤ L) (hL0 : 0 ≤ L) (j : ℕ) :
    (∀ k ≤ n, 0 ≤ x j b k ∧ x j b k ≤ elasticSum (s b) (t b) (a b) k) ∧
    ∑ k ∈ Finset.range n, |x (j + 1) b (k + 1) - x (j + 1) b k - (t b (k + 1) - t b k) * (a b k - G b k (x (j + 1) b (k + 1)))| ≤
      (1 - 1 / N) ^ j * elasticSum (s b) (t b) (a b) n * (1 + L * (t b n - t b 0)) := by
  choose z hz0 hzp hz using fun b => chain_exists (ht b) (ha b) (hs b) (hG b)
  have main := monotone_newton ht ha hs hN hG hx0 hx hrec hz0 hzp hz j
  have main' := monotone_newton ht ha hs hN hG hx0 hx hrec hz0 hzp hz (j + 1)
  refine ⟨main.1 b, ?_⟩
  set B := (1 - 1 / N) ^ j * elasticSum (s b) (t b) (a b) n with hB
  have row : ∀ k ∈ Finset.range n, |x (j + 1) b (k + 1) - x (j + 1) b k - (t b (k + 1) - t b k) * (a b k - G b k (x (j + 1) b (k + 1)))| ≤
      ((x (j + 1) b (k + 1) - z b (k + 1)) - (x (j + 1) b k - z b k)) + (t b (k + 1) - t b k) * (L * B) := by
    intro k hk
    have hk := Finset.mem_range.1 hk
    have r := hrec j (fun b k hk => (main.1 b (k + 1) (by omega)).1) b k hk
    have X0 := (main.1 b (k + 1) hk).1
    obtain ⟨Y0, Yu⟩ := main'.1 b (k + 1) hk
    obtain ⟨Y1, -, Y2⟩ := main.2 b (k + 1) hk
    have hd := sub_nonneg.2 (ht b k hk)
    have tg := (hG b k hk).tangent _ _ X0 Y0
    have tg2 := (hG b k hk).tangent _ _ Y0 (hzp b (k + 1) hk)
    have lip := hL k hk _ Y0 (Yu.trans (elasticSum_mono (ht b) (ha b) (show k + 1 ≤ n by omega) le_rfl))
    have e := hz b k hk
    have l1 : G' b k (x (j + 1) b (k + 1)) * (x (j + 1) b (k + 1) - z b (k + 1)) ≤ L * B :=
      (mul_le_mul_of_nonneg_right lip (sub_nonneg.2 Y1)).trans (mul_le_mul_of_nonneg_left Y2 hL0)
    rw [abs_of_nonneg]
    · have : G b k (x (j + 1) b (k + 1)) - G b k (z b (k + 1)) ≤ L * B := by linarith
      have := mul_le_mul_of_nonneg_left this hd
      linarith
    · rw [r, ← mul_sub]
      exact mul_nonneg hd (by linarith)
  refine (Finset.sum_le_sum row).trans ?_
  rw [Finset.sum_add_distrib, Finset.sum_range_sub (fun k => x (j + 1) b k - z b k), ← Finset.sum_mul, Finset.sum_range_sub (t b), hx, hz0, sub_self, sub_zero]
  have := (main.2 b n le_rfl).2.2
  linarith

end batch

/-- the power law resistance -/
theorem power_resistance {E n eta N : ℝ} (hE : 0 ≤ E) (hn : 1 ≤ n) (hnN : n ≤ N) (heta : 0 < eta) :
    ConvexResistance (fun x => E * (x / eta) ^ n) (fun x => E * (n * (x / eta) ^ (n - 1) / eta)) N := by
  have key : ∀ x z, 0 ≤ z → 0 ≤ x → n * (x / eta) ^ (n - 1) / eta * (x - z) = n * (x / eta) ^ (n - 1) * (x / eta) - n * ((x / eta) ^ (n - 1) * (z / eta)) := by
    intro x z _ _; field_simp
  have pw : ∀ x, 0 ≤ x → (x / eta) ^ (n - 1) * (x / eta) = (x / eta) ^ n := by
    intro x hx
    rcases (div_nonneg hx heta.le).eq_or_lt with q | q
    · rw [← q, mul_zero, Real.zero_rpow (by linarith)]
    · conv_lhs => rhs; rw [← Real.rpow_one (x / eta)]
      rw [← Real.rpow_add q]; congr 1; ring
  refine ⟨?_, ?_, fun x hx => ?_, fun x y hx hy => ?_, fun x z hz hzx => ?_⟩
  · rw [zero_div, Real.zero_rpow (by linarith), mul_zero]
  · exact continuousOn_const.mul ((continuousOn_id.div_const eta).rpow_const fun _ _ => Or.inr (by linarith))
  · have : 0 ≤ (x / eta) ^ (n - 1) := Real.rpow_nonneg (div_nonneg hx heta.le) _
    have : 0 ≤ n := by linarith
    positivity
  · rw [mul_assoc, ← mul_add]
    refine mul_le_mul_of_nonneg_left ?_ hE
    rw [show y - x = -(x - y) by ring, mul_neg, key x y hy hx, mul_assoc, pw x hx]
    have a0 := div_nonneg hx heta.le
    have b0 := div_nonneg hy heta.le
    generalize x / eta = u at *
    generalize y / eta = v at *
    rcases a0.eq_or_lt with q | q
    · rw [← q, Real.zero_rpow (by linarith)]
      rcases hn.eq_or_lt with p | p
      · rw [← p]; simp
      · rw [Real.zero_rpow (by linarith)]; have := Real.rpow_nonneg b0 n; simpa using this
    · -- Bernoulli
      have h1 := one_add_mul_self_le_rpow_one_add (s := v / u - 1) (by have := div_nonneg b0 q.le; linarith) hn
      rw [add_sub_cancel, Real.div_rpow b0 q.le] at h1
      have hp := Real.rpow_pos_of_pos q n
      rw [le_div_iff₀ hp] at h1
      have h2 : u ^ n * (v / u) = u ^ (n - 1) * v := by
        rw [Real.rpow_sub_one q.ne']; field_simp
      nlinarith
  · have hx := hz.trans hzx
    have hN0 : 0 ≤ N := by linarith
    rw [← mul_sub, mul_left_comm, mul_assoc]
    refine mul_le_mul_of_nonneg_left ?_ hE
    rw [key x z hz hx, mul_assoc, pw x hx, ← mul_sub]
    have hzz := pw z hz
    have h1 : (z / eta) ^ (n - 1) ≤ (x / eta) ^ (n - 1) := Real.rpow_le_rpow (div_nonneg hz heta.le) (by gcongr) (by linarith)
    have h2 := mul_le_mul_of_nonneg_right h1 (div_nonneg hz heta.le)
    have h3 : (z / eta) ^ n ≤ (x / eta) ^ n := Real.rpow_le_rpow (div_nonneg hz heta.le) (by gcongr) (by linarith)
    refine (mul_le_mul_of_nonneg_left (by linarith : (x / eta) ^ n - (x / eta) ^ (n - 1) * (z / eta) ≤ (x / eta) ^ n - (z / eta) ^ n) (by linarith)).trans ?_
    exact mul_le_mul_of_nonneg_right hnN (by linarith)

end Pyoptmat.Proofs
