import Verif.Proofs.Slices
import Verif.Proofs.Hardening

/-! Helper lemmas: superimposed kinematic hardening and flow rules. -/

namespace Pyoptmat.Material

open Pyoptmat.Spec Pyoptmat.Ode Filter Topology Asymptotics

variable {k : ℕ} {nh : Fin k → ℕ}

/-- the rows of part `i` -/
noncomputable def partCLM (nh : Fin k → ℕ) (i : Fin k) : (Fin (∑ i, nh i) → ℝ) →L[ℝ] (Fin (nh i) → ℝ) :=
  ContinuousLinearMap.pi fun j => ContinuousLinearMap.proj (pos nh i j)

theorem partCLM_apply (i : Fin k) (h : Fin (∑ i, nh i) → ℝ) : partCLM nh i h = slice h (offset nh i) (nh i) := by
  funext j; rw [slice_pos]; rfl

/-- part `i` of the history together with stress and rate -/
noncomputable def part3 (nh : Fin k → ℕ) (i : Fin k) :
    ℝ × (Fin (∑ i, nh i) → ℝ) × ℝ →L[ℝ] ℝ × (Fin (nh i) → ℝ) × ℝ :=
  (ContinuousLinearMap.fst ℝ ℝ _).prod
    (((partCLM nh i).comp ((ContinuousLinearMap.fst ℝ _ ℝ).comp (ContinuousLinearMap.snd ℝ ℝ _))).prod
      ((ContinuousLinearMap.snd ℝ _ ℝ).comp (ContinuousLinearMap.snd ℝ ℝ _)))

theorem part3_apply (i : Fin k) (x : ℝ × (Fin (∑ i, nh i) → ℝ) × ℝ) :
    part3 nh i x = (x.1, slice x.2.1 (offset nh i) (nh i), x.2.2) := by
  simp [part3, partCLM_apply]

/-- with the inelastic rate -/
noncomputable def part4 (nh : Fin k → ℕ) (i : Fin k) :
    (ℝ × (Fin (∑ i, nh i) → ℝ) × ℝ) × ℝ →L[ℝ] (ℝ × (Fin (nh i) → ℝ) × ℝ) × ℝ :=
  ((part3 nh i).comp (ContinuousLinearMap.fst ℝ _ ℝ)).prod (ContinuousLinearMap.snd ℝ _ ℝ)

theorem part4_apply (i : Fin k) (x : (ℝ × (Fin (∑ i, nh i) → ℝ) × ℝ) × ℝ) :
    part4 nh i x = ((x.1.1, slice x.1.2.1 (offset nh i) (nh i), x.1.2.2), x.2) := by
  simp [part4, part3_apply]

/-- A row of a block diagonal matrix dotted with the history. -/
theorem dot_block (v : Fin (∑ i, nh i) → ℝ) (i : Fin k) (w : Fin (nh i) → ℝ)
    (h1 : ∀ j, v (pos nh i j) = w j) (h2 : ∀ i' ≠ i, ∀ j, v (pos nh i' j) = 0) (x : Fin (∑ i, nh i) → ℝ) :
    v ⬝ᵥ x = w ⬝ᵥ slice x (offset nh i) (nh i) := by
  unfold dotProduct
  rw [sum_pos, Finset.sum_eq_single i]
  · refine Finset.sum_congr rfl fun j _ => ?_
    rw [h1, slice_pos]
  · intro i' _ hi
    refine Finset.sum_eq_zero fun j _ => ?_
    rw [h2 i' hi, zero_mul]
  · simp

theorem dot_cat (v : Fin (∑ i, nh i) → ℝ) (w : (i : Fin k) → Fin (nh i) → ℝ)
    (h1 : ∀ i j, v (pos nh i j) = w i j) (x : Fin (∑ i, nh i) → ℝ) :
    v ⬝ᵥ x = ∑ i, w i ⬝ᵥ slice x (offset nh i) (nh i) := by
  unfold dotProduct
  rw [sum_pos]
  refine Finset.sum_congr rfl fun i _ => Finset.sum_congr rfl fun j _ => ?_
  rw [h1, slice_pos]

theorem superimposedKinematic_exact (models : (i : Fin k) → Hardening (nh i)) (s : ℝ) (h : Fin (∑ i, nh i) → ℝ)
    (t ep T e : ℝ) (hm : ∀ i, HardeningExact (models i) s (slice h (offset nh i) (nh i)) t ep T e) :
    HardeningExact (superimposedKinematic nh models) s h t ep T e := by
  refine ⟨?_, ?_, ?_⟩
  · have h1 : (superimposedKinematic nh models).value =
        fun h => ∑ i, (models i).value (slice h (offset nh i) (nh i)) := by
      funext h; exact fold_add _
    rw [h1]
    refine (HasFDerivAt.fun_sum fun i (_ : i ∈ Finset.univ) => HasFDerivAt.comp h (g := (models i).value)
      (f := fun x => slice x (offset nh i) (nh i)) (hm i).value
      (((partCLM nh i).hasFDerivAt (x := h)).congr_of_eventuallyEq
        (Eventually.of_forall fun x => (partCLM_apply i x).symm))).congr_fderiv ?_
    refine ContinuousLinearMap.ext fun x => ?_
    simp only [ContinuousLinearMap.sum_apply, ContinuousLinearMap.comp_apply, dotCLM_apply, partCLM_apply]
    rw [dot_cat ((superimposedKinematic nh models).dvalue h)
      (fun i => (models i).dvalue (slice h (offset nh i) (nh i)))
      (fun i j => fold_writeSlice (fun i => (models i).dvalue (slice h (offset nh i) (nh i))) i j)]
  · intro hep r
    obtain ⟨i, j, rfl⟩ := pos_surj r
    have h1 : ∀ x : (ℝ × (Fin (∑ i, nh i) → ℝ) × ℝ) × ℝ,
        (superimposedKinematic nh models).rate x.1.1 x.1.2.1 t x.2 T x.1.2.2 (pos nh i j) =
        (models i).rate x.1.1 (slice x.1.2.1 (offset nh i) (nh i)) t x.2 T x.1.2.2 j := fun x =>
      fold_writeSlice (fun i => (models i).rate x.1.1 (slice x.1.2.1 (offset nh i) (nh i)) t x.2 T x.1.2.2) i j
    simp only [h1]
    have h2 := (hm i).rate hep j
    rw [← part4_apply i ((s, h, e), ep)] at h2
    have h3 := h2.comp ((s, h, e), ep) (part4 nh i).hasFDerivAt
    refine (h3.congr_of_eventuallyEq (Eventually.of_forall fun x => ?_)).congr_fderiv ?_
    · simp [part4_apply]
    · refine ContinuousLinearMap.ext fun x => ?_
      simp only [ContinuousLinearMap.comp_apply, row4_apply, part4_apply]
      rw [dot_block ((superimposedKinematic nh models).drate_dh s h t ep T e (pos nh i j)) i
        ((models i).drate_dh s (slice h (offset nh i) (nh i)) t ep T e j)
        (fun j' => fold_writeBlock_self (fun i => (models i).drate_dh s (slice h (offset nh i) (nh i)) t ep T e) i j j')
        (fun i' hi j' => fold_writeBlock_other
          (fun i => (models i).drate_dh s (slice h (offset nh i) (nh i)) t ep T e) (Ne.symm hi) j j')]
      rw [show (superimposedKinematic nh models).drate_ds s h t ep T e (pos nh i j) = _ from
        fold_writeSlice (fun i => (models i).drate_ds s (slice h (offset nh i) (nh i)) t ep T e) i j,
        show (superimposedKinematic nh models).drate_de s h t ep T e (pos nh i j) = _ from
        fold_writeSlice (fun i => (models i).drate_de s (slice h (offset nh i) (nh i)) t ep T e) i j,
        show (superimposedKinematic nh models).drate_dep s h t ep T e (pos nh i j) = _ from
        fold_writeSlice (fun i => (models i).drate_dep s (slice h (offset nh i) (nh i)) t ep T e) i j]
  · rintro rfl r
    obtain ⟨i, j, rfl⟩ := pos_surj r
    have h1 : ∀ (s e ep : ℝ) (h : Fin (∑ i, nh i) → ℝ),
        (superimposedKinematic nh models).rate s h t ep T e (pos nh i j) =
        (models i).rate s (slice h (offset nh i) (nh i)) t ep T e j := fun s e ep h =>
      fold_writeSlice (fun i => (models i).rate s (slice h (offset nh i) (nh i)) t ep T e) i j
    simp only [h1]
    obtain ⟨h2, h4⟩ := (hm i).rate_zero rfl j
    constructor
    · rw [← part3_apply i (s, h, e)] at h2
      have h3 := h2.comp (s, h, e) (part3 nh i).hasFDerivAt
      refine (h3.congr_of_eventuallyEq (Eventually.of_forall fun x => ?_)).congr_fderiv ?_
      · simp [part3_apply]
      · refine ContinuousLinearMap.ext fun x => ?_
        simp only [ContinuousLinearMap.comp_apply, row3_apply, part3_apply]
        rw [dot_block ((superimposedKinematic nh models).drate_dh s h t 0 T e (pos nh i j)) i
          ((models i).drate_dh s (slice h (offset nh i) (nh i)) t 0 T e j)
          (fun j' => fold_writeBlock_self (fun i => (models i).drate_dh s (slice h (offset nh i) (nh i)) t 0 T e) i j j')
          (fun i' hi j' => fold_writeBlock_other
            (fun i => (models i).drate_dh s (slice h (offset nh i) (nh i)) t 0 T e) (Ne.symm hi) j j')]
        rw [show (superimposedKinematic nh models).drate_ds s h t 0 T e (pos nh i j) = _ from
          fold_writeSlice (fun i => (models i).drate_ds s (slice h (offset nh i) (nh i)) t 0 T e) i j,
          show (superimposedKinematic nh models).drate_de s h t 0 T e (pos nh i j) = _ from
          fold_writeSlice (fun i => (models i).drate_de s (slice h (offset nh i) (nh i)) t 0 T e) i j]
    · have ht : Tendsto (part4 nh i) (𝓝 ((s, h, e), 0)) (𝓝 ((s, slice h (offset nh i) (nh i), e), 0)) := by
        have := (part4 nh i).continuous.continuousAt (x := ((s, h, e), (0 : ℝ)))
        rwa [ContinuousAt, part4_apply] at this
      have h5 := h4.comp_tendsto ht
      refine h5.congr (fun x => ?_) (fun x => ?_) <;> simp [part4_apply]

theorem superimposed_exact (models : (i : Fin k) → FlowRule (nh i)) (s : ℝ) (h : Fin (∑ i, nh i) → ℝ)
    (t T e : ℝ) (hm : ∀ i, FlowExact (models i) s (slice h (offset nh i) (nh i)) t T e) :
    FlowExact (superimposed nh models) s h t T e := by
  refine ⟨?_, ?_⟩
  · have h1 : ∀ x : ℝ × (Fin (∑ i, nh i) → ℝ) × ℝ, (superimposed nh models).flow x.1 x.2.1 t T x.2.2 =
        ∑ i, (models i).flow x.1 (slice x.2.1 (offset nh i) (nh i)) t T x.2.2 := fun x => fold_add _
    simp only [h1]
    refine (HasFDerivAt.fun_sum (u := Finset.univ)
      (A' := fun i => (row3 ((models i).dflow_ds s (slice h (offset nh i) (nh i)) t T e)
        ((models i).dflow_dh s (slice h (offset nh i) (nh i)) t T e)
        ((models i).dflow_de s (slice h (offset nh i) (nh i)) t T e)).comp (part3 nh i))
      fun i _ => ?_).congr_fderiv ?_
    · have h2 := (hm i).flow
      rw [← part3_apply i (s, h, e)] at h2
      have h3 := h2.comp (s, h, e) (part3 nh i).hasFDerivAt
      refine h3.congr_of_eventuallyEq (Eventually.of_forall fun x => ?_)
      simp [part3_apply]
    · refine ContinuousLinearMap.ext fun x => ?_
      simp only [ContinuousLinearMap.sum_apply, ContinuousLinearMap.comp_apply, row3_apply, part3_apply]
      rw [dot_cat ((superimposed nh models).dflow_dh s h t T e)
        (fun i => (models i).dflow_dh s (slice h (offset nh i) (nh i)) t T e)
        (fun i j => fold_writeSlice (fun i => (models i).dflow_dh s (slice h (offset nh i) (nh i)) t T e) i j),
        show (superimposed nh models).dflow_ds s h t T e = _ from fold_add _,
        show (superimposed nh models).dflow_de s h t T e = _ from fold_add _, Finset.sum_mul, Finset.sum_mul,
        Finset.sum_add_distrib, Finset.sum_add_distrib]
  · intro r
    obtain ⟨i, j, rfl⟩ := pos_surj r
    have h1 : ∀ x : ℝ × (Fin (∑ i, nh i) → ℝ) × ℝ,
        (superimposed nh models).hist x.1 x.2.1 t T x.2.2 (pos nh i j) =
        (models i).hist x.1 (slice x.2.1 (offset nh i) (nh i)) t T x.2.2 j := fun x =>
      fold_writeSlice (fun i => (models i).hist x.1 (slice x.2.1 (offset nh i) (nh i)) t T x.2.2) i j
    simp only [h1]
    have h2 := (hm i).hist j
    rw [← part3_apply i (s, h, e)] at h2
    have h3 := h2.comp (s, h, e) (part3 nh i).hasFDerivAt
    refine (h3.congr_of_eventuallyEq (Eventually.of_forall fun x => ?_)).congr_fderiv ?_
    · simp [part3_apply]
    · refine ContinuousLinearMap.ext fun x => ?_
      simp only [ContinuousLinearMap.comp_apply, row3_apply, part3_apply]
      rw [dot_block ((superimposed nh models).dhist_dh s h t T e (pos nh i j)) i
        ((models i).dhist_dh s (slice h (offset nh i) (nh i)) t T e j)
        (fun j' => fold_writeBlock_self (fun i => (models i).dhist_dh s (slice h (offset nh i) (nh i)) t T e) i j j')
        (fun i' hi j' => fold_writeBlock_other
          (fun i => (models i).dhist_dh s (slice h (offset nh i) (nh i)) t T e) (Ne.symm hi) j j')]
      rw [show (superimposed nh models).dhist_ds s h t T e (pos nh i j) = _ from
        fold_writeSlice (fun i => (models i).dhist_ds s (slice h (offset nh i) (nh i)) t T e) i j,
        show (superimposed nh models).dhist_de s h t T e (pos nh i j) = _ from
        fold_writeSlice (fun i => (models i).dhist_de s (slice h (offset nh i) (nh i)) t T e) i j]

end Pyoptmat.Material
