import Verif.Proofs.Superimposed
import Verif.Proofs.FlowRules
import Verif.Proofs.IsoKin

/-!
# Properties C29-C36: flow rules

`FlowExact` (in `Spec/Material.lean`) says that the six reported derivatives are the Fréchet derivatives of the inelastic rate
and of the history rate with respect to stress, history and total strain rate.
-/

namespace Pyoptmat.Props

open Pyoptmat.Spec Pyoptmat.Material Filter Topology

/-! ## C29 -/

/-- **C29.** The blocks `offsets[i] : offsets[i] + nhist_per[i]` of a composed model partition its `sum(nhist_per)` rows: every row
is in exactly one block, at exactly one place. -/
theorem C29_blocks_partition {k : ℕ} (nh : Fin k → ℕ) (r : ℕ) (hr : r < ∑ i, nh i) :
    ∃! p : (i : Fin k) × Fin (nh i), r = offset nh p.1 + p.2.val := by
  obtain ⟨i, j, h⟩ := pos_surj (nh := nh) ⟨r, hr⟩
  refine ⟨⟨i, j⟩, ?_, ?_⟩
  · have := congrArg Fin.val h
    rw [pos_val] at this
    exact this
  · rintro ⟨i', j'⟩ h'
    dsimp only at h'
    have : pos nh i' j' = pos nh i j := by
      rw [← h]; ext; rw [pos_val]; exact h'.symm
    exact pos_inj this

/-- **C29.** No block reaches beyond the last row. -/
theorem C29_blocks_inside {k : ℕ} (nh : Fin k → ℕ) (i : Fin k) : offset nh i + nh i ≤ ∑ i, nh i := by
  rcases Nat.eq_zero_or_pos (nh i) with h | h
  · have h1 : offset nh i = ∑ j ∈ Finset.univ.filter (· < i), nh j := by
      unfold offset
      refine Finset.sum_bij (fun j _ => ⟨j.val, by omega⟩) ?_ ?_ ?_ ?_
      · intro j _; rw [Finset.mem_filter]; exact ⟨Finset.mem_univ _, Fin.lt_def.2 j.isLt⟩
      · intro a _ b _ hab; ext; simpa using congrArg Fin.val hab
      · intro b hb
        simp only [Finset.mem_filter, Finset.mem_univ, true_and, Fin.lt_def] at hb
        exact ⟨⟨b.val, hb⟩, Finset.mem_univ _, rfl⟩
      · intro _ _; rfl
    rw [h, h1, Nat.add_zero]
    exact Finset.sum_le_sum_of_subset (Finset.filter_subset _ _)
  · have := (pos nh i ⟨nh i - 1, by omega⟩).isLt
    rw [pos_val] at this
    dsimp only at this
    omega

/-- **C29.** The offsets are the running sums: the first is 0, the next starts where the previous block ends. -/
theorem C29_offsets_consecutive {k : ℕ} (nh : Fin (k + 1) → ℕ) :
    offset nh 0 = 0 ∧ ∀ i : Fin k, offset nh i.succ = offset nh i.castSucc + nh i.castSucc := by
  refine ⟨by simp [offset], fun i => ?_⟩
  unfold offset
  exact Fin.sum_univ_castSucc (fun j : Fin (i.val + 1) => nh ⟨j.val, by omega⟩)

/-- **C29.** The constructors of the two Kocks-Mecking rules accept exactly the pairs of rules with equally many internal
variables. -/
theorem C29_size_check (build : {n : ℕ} → FlowRule n → FlowRule n → FlowRule n) (m1 m2 : (n : ℕ) × FlowRule n) :
    (∃ r, checkSizes build m1 m2 = .ok r) ↔ m1.1 = m2.1 := by
  unfold checkSizes
  split_ifs with h
  · simp [h]
  · simp [Ne.symm h]

/-- **C29.** What they build from rules of equal size. -/
theorem C29_size_check_ok (build : {n : ℕ} → FlowRule n → FlowRule n → FlowRule n) {n : ℕ} (m1 m2 : FlowRule n) :
    checkSizes build ⟨n, m1⟩ ⟨n, m2⟩ = .ok ⟨n, build m1 m2⟩ := by
  simp [checkSizes]

example : offset ![2, 0, 3] 2 = 2 ∧ (∑ i, (![2, 0, 3] : Fin 3 → ℕ) i) = 5 := by decide

/-! ## C30 -/

/-- **C30.** The inelastic rate of perfect viscoplasticity vanishes exactly at zero stress and otherwise has the sign of the stress.
(`0 ≤ n` because torch's `0 ** n` is infinite for negative `n`, and the product with `sign(0) = 0` is then NaN.) -/
theorem C30_sign (n eta : ℝ → ℝ) (s : ℝ) (h : Fin 0 → ℝ) (t T e : ℝ) (heta : 0 < eta T) (_hn : 0 ≤ n T) :
    ((perfect n eta).flow s h t T e = 0 ↔ s = 0) ∧ (0 < (perfect n eta).flow s h t T e ↔ 0 < s) ∧
      ((perfect n eta).flow s h t T e < 0 ↔ s < 0) := by
  change ((|s| / eta T) ^ n T * sgn s = 0 ↔ _) ∧ (0 < (|s| / eta T) ^ n T * sgn s ↔ _) ∧
    ((|s| / eta T) ^ n T * sgn s < 0 ↔ _)
  rcases sgn_cases s with ⟨h, hs⟩ | ⟨h, hs⟩ | ⟨h, hs⟩
  · have : 0 < (|s| / eta T) ^ n T := Real.rpow_pos_of_pos (div_pos (abs_pos.2 h.ne) heta) _
    rw [hs]
    refine ⟨⟨fun h => by linarith, fun h => by linarith⟩, ⟨fun h => by linarith, fun h => by linarith⟩,
      ⟨fun _ => h, fun _ => by linarith⟩⟩
  · rw [hs]; simp [h]
  · have : 0 < (|s| / eta T) ^ n T := Real.rpow_pos_of_pos (div_pos (abs_pos.2 h.ne') heta) _
    rw [hs]
    refine ⟨⟨fun h => by linarith, fun h => by linarith⟩, ⟨fun _ => h, fun _ => by linarith⟩,
      ⟨fun h => by linarith, fun h => by linarith⟩⟩

/-- **C30.** Inelastic deformation dissipates: `flow · stress ≥ 0`. -/
theorem C30_dissipative (n eta : ℝ → ℝ) (s : ℝ) (h : Fin 0 → ℝ) (t T e : ℝ) (heta : 0 < eta T) (hn : 0 ≤ n T) :
    0 ≤ (perfect n eta).flow s h t T e * s := by
  obtain ⟨h0, h1, h2⟩ := C30_sign n eta s h t T e heta hn
  rcases lt_trichotomy s 0 with hs | hs | hs
  · exact (mul_pos_of_neg_of_neg (h2.2 hs) hs).le
  · simp [hs]
  · exact (mul_pos (h1.2 hs) hs).le

/-- **C30.** The magnitude is the power law `(|s|/η)^n` for `s ≠ 0`. -/
theorem C30_power_law (n eta : ℝ → ℝ) (s : ℝ) (h : Fin 0 → ℝ) (t T e : ℝ) (heta : 0 < eta T) (hs : s ≠ 0) :
    |(perfect n eta).flow s h t T e| = (|s| / eta T) ^ n T := by
  change |(|s| / eta T) ^ n T * sgn s| = _
  have : 0 < (|s| / eta T) ^ n T := Real.rpow_pos_of_pos (div_pos (abs_pos.2 hs) heta) _
  rcases sgn_cases s with ⟨h, h'⟩ | ⟨h, h'⟩ | ⟨h, h'⟩
  · rw [h', mul_neg_one, abs_neg, abs_of_pos this]
  · exact absurd h hs
  · rw [h', mul_one, abs_of_pos this]

/-- **C30.** The reported derivatives are exact. -/
theorem C30_exact (n eta : ℝ → ℝ) (s : ℝ) (h : Fin 0 → ℝ) (t T e : ℝ) (heta : 0 < eta T) (hs : s ≠ 0 ∨ 1 ≤ n T) :
    FlowExact (perfect n eta) s h t T e := perfect_exact n eta s h t T e heta hs

example : FlowExact (perfect (fun T => 1 + T) (fun _ => 100)) 0 (fun i => i.elim0) 0 2 1 :=
  C30_exact _ _ _ _ _ _ _ (by norm_num) (Or.inr (by norm_num))

/-! ## C31, C32 -/

/-- **C32.** No flow inside or on the yield surface, flow outside it. -/
theorem C32_yield {ni nk : ℕ} (n eta s0 : ℝ → ℝ) (iso : Hardening ni) (kin : Hardening nk) (s : ℝ)
    (h : Fin (ni + nk) → ℝ) (t T e : ℝ) (heta : 0 < eta T) (hn : 0 < n T)
    (hw : 0 ≤ s0 T + iso.value (isoPart h)) :
    (isoKin n eta s0 iso kin).flow s h t T e = 0 ↔
      |s - kin.value (kinPart h)| ≤ s0 T + iso.value (isoPart h) := by
  change isoKinFlow n eta s0 iso kin s h T = 0 ↔ _
  rw [isoKinFlow_eq]
  unfold overflow
  dsimp only
  constructor
  · intro h0
    by_contra hc
    push Not at hc
    have hpos : 0 < (|s - kin.value (kinPart h)| - (s0 T + iso.value (isoPart h))) / eta T :=
      div_pos (sub_pos.2 hc) heta
    rw [macaulay_of_pos hpos] at h0
    have h1 := Real.rpow_pos_of_pos hpos (n T)
    have h2 : sgn (s - kin.value (kinPart h)) ≠ 0 := by
      have : s - kin.value (kinPart h) ≠ 0 := abs_pos.1 (lt_of_le_of_lt hw hc)
      rcases sgn_cases (s - kin.value (kinPart h)) with ⟨_, h'⟩ | ⟨h', _⟩ | ⟨_, h'⟩
      · rw [h']; norm_num
      · exact absurd h' this
      · rw [h']; norm_num
    exact mul_ne_zero h1.ne' h2 h0
  · intro hle
    have : (|s - kin.value (kinPart h)| - (s0 T + iso.value (isoPart h))) / eta T ≤ 0 :=
      div_nonpos_of_nonpos_of_nonneg (by linarith) heta.le
    rw [macaulay_of_nonpos this, Real.zero_rpow hn.ne', zero_mul]

/-- **C32.** Outside the yield surface the inelastic rate is the overstress power law in the direction of `s - x`. -/
theorem C32_outside {ni nk : ℕ} (n eta s0 : ℝ → ℝ) (iso : Hardening ni) (kin : Hardening nk) (s : ℝ)
    (h : Fin (ni + nk) → ℝ) (t T e : ℝ) (heta : 0 < eta T) (hw : 0 ≤ s0 T + iso.value (isoPart h))
    (hy : s0 T + iso.value (isoPart h) < |s - kin.value (kinPart h)|) :
    (isoKin n eta s0 iso kin).flow s h t T e =
        ((|s - kin.value (kinPart h)| - s0 T - iso.value (isoPart h)) / eta T) ^ n T *
          (if 0 < s - kin.value (kinPart h) then 1 else -1) ∧
      0 < (isoKin n eta s0 iso kin).flow s h t T e * (s - kin.value (kinPart h)) := by
  have hpos : 0 < (|s - kin.value (kinPart h)| - (s0 T + iso.value (isoPart h))) / eta T :=
    div_pos (sub_pos.2 hy) heta
  have h1 := Real.rpow_pos_of_pos hpos (n T)
  have hne : s - kin.value (kinPart h) ≠ 0 := abs_pos.1 (lt_of_le_of_lt hw hy)
  have hfl : (isoKin n eta s0 iso kin).flow s h t T e =
      ((|s - kin.value (kinPart h)| - (s0 T + iso.value (isoPart h))) / eta T) ^ n T *
        sgn (s - kin.value (kinPart h)) := by
    change isoKinFlow n eta s0 iso kin s h T = _
    rw [isoKinFlow_eq]
    unfold overflow
    dsimp only
    rw [macaulay_of_pos hpos]
  rw [hfl, sub_sub]
  rcases sgn_cases (s - kin.value (kinPart h)) with ⟨h', hs⟩ | ⟨h', _⟩ | ⟨h', hs⟩
  · rw [hs, if_neg (by linarith)]
    refine ⟨rfl, ?_⟩
    rw [mul_neg_one, neg_mul, ← mul_neg]
    exact mul_pos h1 (neg_pos.2 h')
  · exact absurd h' hne
  · rw [hs, if_pos h']
    refine ⟨rfl, ?_⟩
    rw [mul_one]
    exact mul_pos h1 h'

/-- **C31.** All derivatives reported by the flow rule are exact when those of the hardening models are, outside the yield surface
for every exponent and everywhere for `n > 1`. -/
theorem C31_exact {ni nk : ℕ} (n eta s0 : ℝ → ℝ) (iso : Hardening ni) (kin : Hardening nk) (s : ℝ)
    (h : Fin (ni + nk) → ℝ) (t T e : ℝ) (heta : 0 < eta T)
    (hi : HardeningExact iso s (isoPart h) t ((isoKin n eta s0 iso kin).flow s h t T e) T e)
    (hk : HardeningExact kin s (kinPart h) t ((isoKin n eta s0 iso kin).flow s h t T e) T e)
    (hw : 0 ≤ s0 T + iso.value (isoPart h))
    (hy : 1 < n T ∨ s0 T + iso.value (isoPart h) < |s - kin.value (kinPart h)|) :
    FlowExact (isoKin n eta s0 iso kin) s h t T e := isoKin_exact n eta s0 iso kin s h t T e heta hi hk hw hy

/-- **C31.** In particular for Voce and Chaboche hardening with any number of backstresses, elastic or plastic. -/
theorem C31_voce_chaboche {nk : ℕ} (n eta s0 R d : ℝ → ℝ) (C g : Fin nk → ℝ → ℝ) (s : ℝ) (h : Fin (1 + nk) → ℝ)
    (t T e : ℝ) (heta : 0 < eta T) (hn : 1 < n T) (hw : 0 ≤ s0 T + h 0) :
    FlowExact (isoKin n eta s0 (voce R d) (chaboche C g)) s h t T e :=
  C31_exact _ _ _ _ _ _ _ _ _ _ heta (voce_exact ..) (chaboche_exact ..) hw (Or.inl hn)

example : FlowExact (isoKin (fun T => 2 + T) (fun _ => 50) (fun _ => 10) (voce (fun _ => 100) (fun _ => 2))
    (chaboche (nback := 2) (fun i _ => i.val) (fun _ T => T))) 3 (fun _ => 1) 0 1 7 :=
  C31_voce_chaboche _ _ _ _ _ _ _ _ _ _ _ _ (by norm_num) (by norm_num) (by norm_num)

/-- **C31.** The exponent condition is needed: with `n = 1` the derivative reported strictly inside the yield surface is `1/η`, but the
inelastic rate is zero in a whole neighbourhood. -/
theorem C31_linear_elastic_wrong {ni nk : ℕ} (n eta s0 : ℝ → ℝ) (iso : Hardening ni) (kin : Hardening nk) (s : ℝ)
    (h : Fin (ni + nk) → ℝ) (t T e : ℝ) (heta : 0 < eta T) (hn : n T = 1)
    (hel : |s - kin.value (kinPart h)| < s0 T + iso.value (isoPart h)) :
    (isoKin n eta s0 iso kin).dflow_ds s h t T e = 1 / eta T ∧
      (∀ᶠ s' in 𝓝 s, (isoKin n eta s0 iso kin).flow s' h t T e = 0) ∧
      ¬ FlowExact (isoKin n eta s0 iso kin) s h t T e := by
  have hd : (isoKin n eta s0 iso kin).dflow_ds s h t T e = 1 / eta T := by
    change isoKinDs n eta s0 iso kin s h T = _
    unfold isoKinDs
    simp only [hn, sub_self, Real.rpow_zero, mul_one]
  have hz : ∀ᶠ s' in 𝓝 s, (isoKin n eta s0 iso kin).flow s' h t T e = 0 := by
    have hc : ContinuousAt (fun s' : ℝ => |s' - kin.value (kinPart h)|) s := by fun_prop
    filter_upwards [hc.eventually_lt continuousAt_const hel] with s' hs'
    exact (C32_yield n eta s0 iso kin s' h t T e heta (by rw [hn]; norm_num)
      (le_trans (abs_nonneg _) hel.le)).2 hs'.le
  refine ⟨hd, hz, fun hx => ?_⟩
  have h1 : HasDerivAt (fun s' => (isoKin n eta s0 iso kin).flow s' h t T e)
      ((isoKin n eta s0 iso kin).dflow_ds s h t T e) s := by
    have hl : HasFDerivAt (fun s' : ℝ => (s', h, e)) (ContinuousLinearMap.inl ℝ ℝ ((Fin (ni + nk) → ℝ) × ℝ)) s :=
      hasFDerivAt_prodMk_left s (h, e)
    have h2 := HasFDerivAt.comp s hx.flow hl
    have h3 := h2.hasDerivAt
    refine h3.congr_deriv ?_
    simp [row3_apply]
  have h2 := h1.unique ((hasDerivAt_const s (0 : ℝ)).congr_of_eventuallyEq hz)
  rw [hd] at h2
  exact (one_div_pos.2 heta).ne' h2

example : |(1 : ℝ) - (chaboche (nback := 1) (fun _ _ => 1) (fun _ _ => 1)).value (fun _ => 2)| <
    (fun _ : ℝ => (5 : ℝ)) 0 + (voce (fun _ => 1) (fun _ => 1)).value (fun _ => 1) := by
  norm_num [chaboche, voce]

/-! ## C33 -/

/-- **C33.** The inelastic rate of a superposition is the sum of the parts' rates, and the history row `j` of part `i` evolves by part
`i`; each part sees only its own rows. -/
theorem C33_sum {k : ℕ} (nh : Fin k → ℕ) (models : (i : Fin k) → FlowRule (nh i)) (s : ℝ)
    (h : Fin (∑ i, nh i) → ℝ) (t T e : ℝ) :
    (superimposed nh models).flow s h t T e =
        ∑ i, (models i).flow s (fun j => h (finSigmaFinEquiv ⟨i, j⟩)) t T e ∧
    ∀ i j, (superimposed nh models).hist s h t T e (finSigmaFinEquiv ⟨i, j⟩) =
      (models i).hist s (fun j => h (finSigmaFinEquiv ⟨i, j⟩)) t T e j := by
  constructor
  · refine (fold_add _).trans ?_
    simp only [slice_eq]; rfl
  · intro i j
    refine (fold_writeSlice (fun i => (models i).hist s (slice h (offset nh i) (nh i)) t T e) i j).trans ?_
    simp only [slice_eq]; rfl

/-- **C33.** All derivatives are exact where the parts' derivatives are. -/
theorem C33_exact {k : ℕ} (nh : Fin k → ℕ) (models : (i : Fin k) → FlowRule (nh i)) (s : ℝ)
    (h : Fin (∑ i, nh i) → ℝ) (t T e : ℝ)
    (hm : ∀ i, FlowExact (models i) s (fun j => h (finSigmaFinEquiv ⟨i, j⟩)) t T e) :
    FlowExact (superimposed nh models) s h t T e :=
  superimposed_exact models s h t T e fun i => by rw [slice_eq]; exact hm i

example : FlowExact (superimposed (k := 2) ![0, 3]
    (Fin.cons (perfect (fun _ => 3) (fun _ => 100)) (Fin.cons
      (isoKin (fun T => 2 + T) (fun _ => 50) (fun _ => 10) (voce (fun _ => 100) (fun _ => 2))
        (chaboche (nback := 2) (fun i _ => i.val) (fun _ T => T))) finZeroElim))) 3 (fun _ => 1) 0 1 7 := by
  refine C33_exact (k := 2) ![0, 3] _ _ _ _ _ _ fun i => ?_
  fin_cases i
  · exact C30_exact _ _ _ _ _ _ _ (by norm_num) (Or.inl (by norm_num))
  · exact C31_voce_chaboche _ _ _ _ _ _ _ _ _ _ _ _ (by norm_num) (by norm_num) (by norm_num)

/-! ## C34 -/

/-- **C34.** The wrapper multiplies the inelastic rate and every history rate by `1 - λ + λ|e|/ε_ref`. -/
theorem C34_scale {n : ℕ} (base : FlowRule n) (lmbda epsRef s : ℝ) (h : Fin n → ℝ) (t T e : ℝ) :
    (rateIndependent base lmbda epsRef).flow s h t T e =
        (1 - lmbda + lmbda * |e| / epsRef) * base.flow s h t T e ∧
      ∀ i, (rateIndependent base lmbda epsRef).hist s h t T e i =
        (1 - lmbda + lmbda * |e| / epsRef) * base.hist s h t T e i := ⟨rfl, fun _ => rfl⟩

/-- **C34.** With `λ = 1` loading `c` times faster makes every rate `c` times larger, if the base rule ignores the strain rate: the
response per unit of strain does not depend on the speed of loading. -/
theorem C34_speed_invariant {n : ℕ} (base : FlowRule n) (epsRef s : ℝ) (h : Fin n → ℝ) (t T e c : ℝ) (hc : 0 ≤ c)
    (hb : ∀ e e', base.flow s h t T e = base.flow s h t T e') (hb' : ∀ e e', base.hist s h t T e = base.hist s h t T e') :
    (rateIndependent base 1 epsRef).flow s h t T (c * e) = c * (rateIndependent base 1 epsRef).flow s h t T e ∧
      (rateIndependent base 1 epsRef).hist s h t T (c * e) = c • (rateIndependent base 1 epsRef).hist s h t T e := by
  have hs : riScale 1 epsRef (c * e) = c * riScale 1 epsRef e := by
    unfold riScale
    rw [abs_mul, abs_of_nonneg hc]; ring
  constructor
  · change riScale 1 epsRef (c * e) * base.flow s h t T (c * e) = c * (riScale 1 epsRef e * base.flow s h t T e)
    rw [hs, hb (c * e) e]; ring
  · funext i
    change riScale 1 epsRef (c * e) * base.hist s h t T (c * e) i = c * (riScale 1 epsRef e * base.hist s h t T e i)
    rw [hs, hb' (c * e) e]; ring

/-- **C34.** With `λ = 0` the wrapper changes nothing. -/
theorem C34_lambda_zero {n : ℕ} (base : FlowRule n) (epsRef s : ℝ) (h : Fin n → ℝ) (t T e : ℝ) :
    let w := rateIndependent base 0 epsRef
    w.flow s h t T e = base.flow s h t T e ∧ w.dflow_ds s h t T e = base.dflow_ds s h t T e ∧
    w.dflow_dh s h t T e = base.dflow_dh s h t T e ∧ w.dflow_de s h t T e = base.dflow_de s h t T e ∧
    w.hist s h t T e = base.hist s h t T e ∧ w.dhist_dh s h t T e = base.dhist_dh s h t T e ∧
    w.dhist_ds s h t T e = base.dhist_ds s h t T e ∧ w.dhist_de s h t T e = base.dhist_de s h t T e := by
  have h0 : riScale 0 epsRef e = 1 := by simp [riScale]
  have h1 : riDScale 0 epsRef e = 0 := by simp [riDScale]
  refine ⟨?_, ?_, ?_, ?_, ?_, ?_, ?_, ?_⟩ <;> simp [rateIndependent, h0, h1]

/-- **C34.** All derivatives, also with respect to the strain rate, are exact at non-zero strain rates. -/
theorem C34_exact {n : ℕ} (base : FlowRule n) (lmbda epsRef s : ℝ) (h : Fin n → ℝ) (t T e : ℝ) (he : e ≠ 0)
    (hb : FlowExact base s h t T e) : FlowExact (rateIndependent base lmbda epsRef) s h t T e :=
  rateIndependent_exact base lmbda epsRef s h t T he hb

example : FlowExact (rateIndependent (perfect (fun _ => 3) (fun _ => 100)) 0.5 1e-3) 20 (fun i => i.elim0) 0 300 (-2) :=
  C34_exact _ _ _ _ _ _ _ _ (by norm_num) (C30_exact _ _ _ _ _ _ _ (by norm_num) (Or.inl (by norm_num)))

/-- The strain rate of `IsoKin` and perfect viscoplasticity is not read unless a hardening model reads it (C34's hypothesis). -/
example (n eta : ℝ → ℝ) (s : ℝ) (h : Fin 0 → ℝ) (t T : ℝ) :
    ∀ e e', (perfect n eta).flow s h t T e = (perfect n eta).flow s h t T e' := fun _ _ => rfl

/-! ## C35 -/

/-- **C35.** Every output of the hard switch is the output of model 1 when `g ≤ g0`, of model 2 when `g > g0`, where
`g = k T / (μ b³) · ln(ε₀ / (|e| + eps))`. -/
theorem C35_switch {n : ℕ} (m1 m2 : FlowRule n) (p : KMParams) (s : ℝ) (h : Fin n → ℝ) (t T e : ℝ) :
    let w := kmSwitch m1 m2 p
    let m := if p.k * T / (p.mu T * p.b ^ (3 : ℝ)) * Real.log (p.eps0 / (|e| + p.eps)) ≤ p.g0 then m1 else m2
    w.flow s h t T e = m.flow s h t T e ∧ w.dflow_ds s h t T e = m.dflow_ds s h t T e ∧
    w.dflow_dh s h t T e = m.dflow_dh s h t T e ∧ w.dflow_de s h t T e = m.dflow_de s h t T e ∧
    w.hist s h t T e = m.hist s h t T e ∧ w.dhist_dh s h t T e = m.dhist_dh s h t T e ∧
    w.dhist_ds s h t T e = m.dhist_ds s h t T e ∧ w.dhist_de s h t T e = m.dhist_de s h t T e := by
  intro w m
  by_cases hg : p.k * T / (p.mu T * p.b ^ (3 : ℝ)) * Real.log (p.eps0 / (|e| + p.eps)) ≤ p.g0
  · have hm : m = m1 := if_pos hg
    have hs : ∀ {α : Type} (v1 v2 : α), switchValues p v1 v2 T e = v1 := fun v1 v2 => if_neg (not_lt.2 hg)
    rw [hm]
    refine ⟨?_, ?_, ?_, ?_, ?_, ?_, ?_, ?_⟩ <;> exact hs _ _
  · have hm : m = m2 := if_neg hg
    have hs : ∀ {α : Type} (v1 v2 : α), switchValues p v1 v2 T e = v2 := fun v1 v2 => if_pos (not_le.1 hg)
    rw [hm]
    refine ⟨?_, ?_, ?_, ?_, ?_, ?_, ?_, ?_⟩ <;> exact hs _ _

/-- **C35.** Off the threshold the reported derivatives are exact if those of the selected rule are. -/
theorem C35_exact {n : ℕ} (m1 m2 : FlowRule n) (p : KMParams) (s : ℝ) (h : Fin n → ℝ) (t T e : ℝ)
    (h0 : p.eps0 ≠ 0) (heps : 0 < p.eps) (hg : p.g T e ≠ p.g0)
    (hm : if p.g T e < p.g0 then FlowExact m1 s h t T e else FlowExact m2 s h t T e) :
    FlowExact (kmSwitch m1 m2 p) s h t T e := kmSwitch_exact m1 m2 p s h t T e h0 heps hg hm

example : FlowExact (kmSwitch (perfect (fun _ => 3) (fun _ => 100))
    (rateIndependent (perfect (fun _ => 7) (fun _ => 10)) 0.99 1e-3)
    ⟨-1, fun _ => 1, 1, 1, 1, 1⟩) 20 (fun i => i.elim0) 0 0 (-2) := by
  have hg : (⟨-1, fun _ => 1, 1, 1, 1, 1⟩ : KMParams).g 0 (-2) = 0 := by simp [KMParams.g]
  refine C35_exact _ _ _ _ _ _ _ _ (by norm_num) (by norm_num) (by rw [hg]; norm_num) ?_
  rw [hg, if_neg (by norm_num)]
  exact C34_exact _ _ _ _ _ _ _ _ (by norm_num) (C30_exact _ _ _ _ _ _ _ (by norm_num) (Or.inl (by norm_num)))

/-! ## C36 -/

/-- **C36.** The rates of the soft rule are `(1-f)·(model 1) + f·(model 2)` with one weight `0 < f < 1` for the inelastic rate and all
history rates; `f = 1/2` at `g = g0`. -/
theorem C36_convex {n : ℕ} (m1 m2 : FlowRule n) (p : KMParams) (sf s : ℝ) (h : Fin n → ℝ) (t T e : ℝ) :
    ∃ f : ℝ, 0 < f ∧ f < 1 ∧ (p.g T e = p.g0 → f = 1 / 2) ∧
      (kmSoft m1 m2 p sf).flow s h t T e = (1 - f) * m1.flow s h t T e + f * m2.flow s h t T e ∧
      ∀ i, (kmSoft m1 m2 p sf).hist s h t T e i = (1 - f) * m1.hist s h t T e i + f * m2.hist s h t T e i := by
  refine ⟨softF p sf T e, ?_, ?_, ?_, rfl, fun i => rfl⟩
  · have := Real.neg_one_lt_tanh (sf * (p.g T e - p.g0)); unfold softF; linarith
  · have := Real.tanh_lt_one (sf * (p.g T e - p.g0)); unfold softF; linarith
  · intro hg
    simp [softF, hg]

/-- **C36.** The weight of model 2 increases strictly with the activation energy `g` (for a positive steepness `sf`), over all
temperatures and strain rates. -/
theorem C36_monotone (p : KMParams) (sf : ℝ) (hsf : 0 < sf) (T e T' e' : ℝ) :
    softF p sf T e < softF p sf T' e' ↔ p.g T e < p.g T' e' := by
  have hm : StrictMono Real.tanh := strictMono_of_deriv_pos fun x => by
    rw [(tanh_deriv x).deriv]
    have := Real.cosh_pos x
    positivity
  unfold softF
  constructor
  · intro h
    have h1 := hm.lt_iff_lt.1 (by linarith : Real.tanh (sf * (p.g T e - p.g0)) < Real.tanh (sf * (p.g T' e' - p.g0)))
    have := (mul_lt_mul_iff_right₀ hsf).1 h1
    linarith
  · intro h
    have h1 := hm ((mul_lt_mul_iff_right₀ hsf).2 (by linarith : p.g T e - p.g0 < p.g T' e' - p.g0))
    linarith

/-- **C36.** The reported derivatives, also with respect to the strain rate, are exact at non-zero strain rates. -/
theorem C36_exact {n : ℕ} (m1 m2 : FlowRule n) (p : KMParams) (sf s : ℝ) (h : Fin n → ℝ) (t T e : ℝ)
    (he : e ≠ 0) (h0 : p.eps0 ≠ 0) (heps : 0 ≤ p.eps) (hm1 : FlowExact m1 s h t T e)
    (hm2 : FlowExact m2 s h t T e) : FlowExact (kmSoft m1 m2 p sf) s h t T e :=
  kmSoft_exact m1 m2 p sf s h t T he h0 heps hm1 hm2

example : FlowExact (kmSoft (perfect (fun _ => 3) (fun _ => 100))
    (rateIndependent (perfect (fun _ => 7) (fun _ => 10)) 0.99 1e-3)
    ⟨1, fun _ => 1, 1, 1, 1, 1⟩ 50) 20 (fun i => i.elim0) 0 300 (-2) :=
  C36_exact _ _ _ _ _ _ _ _ _ (by norm_num) (by norm_num) (by norm_num)
    (C30_exact _ _ _ _ _ _ _ (by norm_num) (Or.inl (by norm_num)))
    (C34_exact _ _ _ _ _ _ _ _ (by norm_num) (C30_exact _ _ _ _ _ _ _ (by norm_num) (Or.inl (by norm_num))))

end Pyoptmat.Props
