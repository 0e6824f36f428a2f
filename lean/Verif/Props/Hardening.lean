import Verif.Proofs.Superimposed
import Verif.Proofs.FlowRules

/-!
# Properties C37, C38, C41, C42 and C48: hardening models and the scalar helpers

`HardeningExact` (in `Spec/Material.lean`) says that the reported derivatives are the Fréchet derivatives of the rate and
of the value.
-/

namespace Pyoptmat.Props

open Pyoptmat.Spec Pyoptmat.Material Filter Topology

/-- **C37.** Voce: exact at every point. -/
theorem C37_voce (R d : ℝ → ℝ) (s : ℝ) (h : Fin 1 → ℝ) (t ep T e : ℝ) :
    HardeningExact (voce R d) s h t ep T e := voce_exact R d s h t ep T e

/-- **C37.** Theta0-Voce: exact at every point. -/
theorem C37_theta0_voce (tau theta : ℝ → ℝ) (s : ℝ) (h : Fin 1 → ℝ) (t ep T e : ℝ) :
    HardeningExact (theta0Voce tau theta) s h t ep T e := theta0Voce_exact tau theta s h t ep T e

/-- **C37.** Theta0-Voce with static recovery: exact wherever the recovery term is differentiable (away from the recovery
threshold, or everywhere if its exponent is at least 1). -/
theorem C37_theta0_recovery (tau theta R0 r1 r2 : ℝ → ℝ) (s : ℝ) (h : Fin 1 → ℝ) (t ep T e : ℝ)
    (hr : h 0 ≠ R0 T ∨ 1 ≤ r2 T) : HardeningExact (theta0Recovery tau theta R0 r1 r2) s h t ep T e :=
  theta0Recovery_exact tau theta R0 r1 r2 s h t ep T e hr

/-- **C38.** No kinematic hardening. -/
theorem C38_none (s : ℝ) (h : Fin 0 → ℝ) (t ep T e : ℝ) : HardeningExact noKinematic s h t ep T e :=
  noKinematic_exact s h t ep T e

/-- **C38.** Frederick-Armstrong with static recovery. -/
theorem C38_fa (C g b r : ℝ → ℝ) (s : ℝ) (h : Fin 1 → ℝ) (t ep T e : ℝ) (hr : h 0 ≠ 0 ∨ 1 ≤ r T) :
    HardeningExact (fa C g b r) s h t ep T e := fa_exact C g b r s h t ep T e hr

/-- **C38.** Frederick-Armstrong with the constructor's defaults `b = 0`, `r = 1`, everywhere. -/
theorem C38_fa_default (C g : ℝ → ℝ) (s : ℝ) (h : Fin 1 → ℝ) (t ep T e : ℝ) :
    HardeningExact (fa C g (fun _ => 0) (fun _ => 1)) s h t ep T e := fa_exact _ _ _ _ s h t ep T e (Or.inr le_rfl)

/-- **C38.** Frederick-Armstrong without recovery. -/
theorem C38_fa_no_recovery (C g : ℝ → ℝ) (s : ℝ) (h : Fin 1 → ℝ) (t ep T e : ℝ) :
    HardeningExact (faNoRecovery C g) s h t ep T e := faNoRecovery_exact C g s h t ep T e

/-- **C38.** Chaboche with any number of backstresses. -/
theorem C38_chaboche {n : ℕ} (C g : Fin n → ℝ → ℝ) (s : ℝ) (h : Fin n → ℝ) (t ep T e : ℝ) :
    HardeningExact (chaboche C g) s h t ep T e := chaboche_exact C g s h t ep T e

/-- **C38.** Chaboche with static recovery. -/
theorem C38_chaboche_recovery {n : ℕ} (C g b r : Fin n → ℝ → ℝ) (s : ℝ) (h : Fin n → ℝ) (t ep T e : ℝ)
    (hr : ∀ i, h i ≠ 0 ∨ 1 ≤ r i T) : HardeningExact (chabocheRecovery C g b r) s h t ep T e :=
  chabocheRecovery_exact C g b r s h t ep T e hr

/-- **C38.** Superposition of any list of kinematic models (each seeing its own rows) is exact where its parts are. -/
theorem C38_superimposed {k : ℕ} (nh : Fin k → ℕ) (models : (i : Fin k) → Hardening (nh i)) (s : ℝ)
    (h : Fin (∑ i, nh i) → ℝ) (t ep T e : ℝ)
    (hm : ∀ i, HardeningExact (models i) s (fun j => h (pos nh i j)) t ep T e) :
    HardeningExact (superimposedKinematic nh models) s h t ep T e :=
  superimposedKinematic_exact models s h t ep T e fun i => by rw [slice_eq]; exact hm i

/-- A superposition of three different models meets the hypotheses, also at zero inelastic rate. -/
example (ep : ℝ) : HardeningExact (superimposedKinematic (k := 3) ![1, 2, 0]
    (Fin.cons (fa (fun T => T) (fun _ => 2) (fun _ => 3) (fun _ => 2))
      (Fin.cons (chaboche (fun i _ => i.val) (fun _ T => T ^ 2)) (Fin.cons noKinematic finZeroElim))))
    1 (fun r => r.val) 0 ep 300 5 := by
  refine C38_superimposed (k := 3) ![1, 2, 0] _ _ _ _ _ _ _ fun i => ?_
  fin_cases i
  · exact C38_fa _ _ _ _ _ _ _ _ _ _ (Or.inr (by norm_num))
  · exact C38_chaboche _ _ _ _ _ _ _ _
  · exact C38_none _ _ _ _ _ _

/-- The predicate is not trivially true: a Voce model whose reported history derivative has the wrong sign is refuted. -/
example : ¬ HardeningExact { voce (fun _ => 1) (fun _ => 1) with drate_dh := fun _ _ _ ep _ _ => !![|ep|] }
    0 (fun _ => 0) 0 1 0 0 := by
  intro hx
  have h1 := (hx.rate one_ne_zero 0).unique ((C37_voce (fun _ => 1) (fun _ => 1) 0 (fun _ => 0) 0 1 0 0).rate
    one_ne_zero 0)
  have h2 := congrArg (fun L => L ((0, fun _ => 1, 0), 0)) h1
  simp [voce, dotProduct] at h2
  norm_num at h2

/-- **C41.** `Theta0VoceIsotropicHardeningModel(tau, theta)` is `VoceIsotropicHardeningModel(R = tau, d = theta / tau)`:
same value, rate and all derivatives, at every temperature where `tau ≠ 0`. -/
theorem C41_theta0_is_voce (tau theta : ℝ → ℝ) (s : ℝ) (h : Fin 1 → ℝ) (t ep T e : ℝ) (hT : tau T ≠ 0) :
    let a := theta0Voce tau theta
    let b := voce tau (fun T => theta T / tau T)
    a.value h = b.value h ∧ a.dvalue h = b.dvalue h ∧ a.rate s h t ep T e = b.rate s h t ep T e ∧
    a.drate_ds s h t ep T e = b.drate_ds s h t ep T e ∧ a.drate_dh s h t ep T e = b.drate_dh s h t ep T e ∧
    a.drate_dep s h t ep T e = b.drate_dep s h t ep T e ∧ a.drate_de s h t ep T e = b.drate_de s h t ep T e := by
  refine ⟨rfl, rfl, ?_, rfl, ?_, ?_, rfl⟩
  · funext i; simp only [theta0Voce, voce]; field_simp
  · ext i j; simp only [theta0Voce, voce]; simp [neg_div]
  · funext i; simp only [theta0Voce, voce]; field_simp

example : (fun T : ℝ => T + 1) 1 ≠ 0 := by norm_num

/-- **C42.** The backstress of a superposition is the sum of the parts' backstresses, each computed from its own rows; row `j`
of part `i` evolves by the rate of part `i` at its own rows. -/
theorem C42_superimposed_kinematic {k : ℕ} (nh : Fin k → ℕ) (models : (i : Fin k) → Hardening (nh i)) (s : ℝ)
    (h : Fin (∑ i, nh i) → ℝ) (t ep T e : ℝ) :
    (superimposedKinematic nh models).value h = ∑ i, (models i).value (fun j => h (finSigmaFinEquiv ⟨i, j⟩)) ∧
    ∀ i j, (superimposedKinematic nh models).rate s h t ep T e (finSigmaFinEquiv ⟨i, j⟩) =
      (models i).rate s (fun j => h (finSigmaFinEquiv ⟨i, j⟩)) t ep T e j := by
  constructor
  · refine (fold_add _).trans ?_
    simp only [slice_eq]; rfl
  · intro i j
    refine (fold_writeSlice (fun i => (models i).rate s (slice h (offset nh i) (nh i)) t ep T e) i j).trans ?_
    simp only [slice_eq]; rfl

/-- **C42.** Hence changing the rows of the other parts does not change the rates of part `i`. -/
theorem C42_independence {k : ℕ} (nh : Fin k → ℕ) (models : (i : Fin k) → Hardening (nh i)) (s : ℝ)
    (h h' : Fin (∑ i, nh i) → ℝ) (t ep T e : ℝ) (i : Fin k)
    (hh : ∀ j, h (finSigmaFinEquiv ⟨i, j⟩) = h' (finSigmaFinEquiv ⟨i, j⟩)) (j : Fin (nh i)) :
    (superimposedKinematic nh models).rate s h t ep T e (finSigmaFinEquiv ⟨i, j⟩) =
      (superimposedKinematic nh models).rate s h' t ep T e (finSigmaFinEquiv ⟨i, j⟩) := by
  rw [(C42_superimposed_kinematic nh models s h t ep T e).2, (C42_superimposed_kinematic nh models s h' t ep T e).2]
  simp only [hh]

/-- **C48.** The step function. -/
theorem C48_heaviside (x : ℝ) : heaviside x = if x < 0 then 0 else if x = 0 then 1 / 2 else 1 := by
  unfold heaviside
  rcases sgn_cases x with ⟨h, hs⟩ | ⟨h, hs⟩ | ⟨h, hs⟩
  · simp [hs, h]
  · simp [h]
  · rw [hs, if_neg (by linarith), if_neg h.ne']; norm_num

/-- **C48.** The Macaulay bracket is the positive part. -/
theorem C48_macaulay (x : ℝ) : macaulay x = max x 0 := macaulay_eq x

/-- **C48.** Away from zero `heaviside` is the derivative of `macaulay`, and there is no derivative at zero. -/
theorem C48_derivative (x : ℝ) : HasDerivAt macaulay (heaviside x) x ↔ x ≠ 0 := by
  constructor
  · rintro h rfl
    have h1 : HasDerivWithinAt macaulay 0 (Set.Iic 0) 0 :=
      (hasDerivWithinAt_const (0 : ℝ) (Set.Iic 0) (0 : ℝ)).congr (fun y hy => macaulay_of_nonpos hy)
        (macaulay_of_nonpos le_rfl)
    have h2 := h.hasDerivWithinAt (s := Set.Iic 0)
    have h3 := (uniqueDiffWithinAt_Iic (0 : ℝ)).eq_deriv _ h1 h2
    rw [C48_heaviside] at h3
    simp at h3
  · intro hx
    rcases lt_or_gt_of_ne hx with h | h
    · rw [C48_heaviside, if_pos h]
      refine (hasDerivAt_const x (0 : ℝ)).congr_of_eventuallyEq ?_
      filter_upwards [eventually_lt_nhds h] with y hy
      exact macaulay_of_nonpos hy.le
    · rw [C48_heaviside, if_neg (by linarith), if_neg hx]
      refine (hasDerivAt_id x).congr_of_eventuallyEq ?_
      filter_upwards [eventually_gt_nhds h] with y hy
      exact macaulay_of_pos hy

end Pyoptmat.Props
