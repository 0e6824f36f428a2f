import Verif.Spec.Loss
import Mathlib.Analysis.Calculus.FDeriv.Pi
import Mathlib.Analysis.Calculus.Deriv.Abs

/-!
# C127: gradients of any loss, through the conversion of the results
-/

namespace Pyoptmat.Props

open Pyoptmat Pyoptmat.Tensor Pyoptmat.Spec Pyoptmat.Control Pyoptmat.Material Pyoptmat.Ode Pyoptmat.Newton Pyoptmat.Experiments Filter Topology

variable {β : Type*} [Fintype β] {m p nt nb : ℕ}

/-- chain rule behind C127 -/
private theorem loss_chain {y : (Fin p → ℝ) → (β → Fin m → ℝ) → ℕ → β → Fin m → ℝ} {Y g : ℕ → β → Fin m → ℝ} {p0 : Fin p → ℝ} {loss : (Fin nt → β → Fin m → ℝ) → ℝ}
    {grad : Fin p → ℝ} {lam : β → Fin m → ℝ} (h1 : y p0 (Y 0) = Y)
    (hd : ∀ k < nt, ∀ b, DifferentiableAt ℝ (fun v : (Fin p → ℝ) × (β → Fin m → ℝ) => y v.1 v.2 k b) (p0, Y 0))
    (hg : HasFDerivAt (fun v : (Fin p → ℝ) × (β → Fin m → ℝ) => ∑ k ∈ Finset.range nt, ∑ b, g k b ⬝ᵥ y v.1 v.2 k b) (totalGrad grad lam) (p0, Y 0))
    (hl : OutputGradient nt loss Y g) :
    ∃ D : (Fin p → ℝ) × (β → Fin m → ℝ) →L[ℝ] ℝ,
      HasFDerivAt (fun v : (Fin p → ℝ) × (β → Fin m → ℝ) => loss fun k => y v.1 v.2 k) D (p0, Y 0) ∧ ∀ dq dx, D (dq, dx) = grad ⬝ᵥ dq + ∑ b, lam b ⬝ᵥ dx b := by
  obtain ⟨D, hD, hDd⟩ := hl
  refine ⟨totalGrad grad lam, ?_, fun dq dx => totalGrad_apply ..⟩
  have hy : DifferentiableAt ℝ (fun (v : (Fin p → ℝ) × (β → Fin m → ℝ)) (k : Fin nt) => y v.1 v.2 k) (p0, Y 0) :=
    differentiableAt_pi.2 fun k => differentiableAt_pi.2 fun b => hd k k.isLt b
  have hY : (fun k : Fin nt => Y k) = (fun (v : (Fin p → ℝ) × (β → Fin m → ℝ)) (k : Fin nt) => y v.1 v.2 k) (p0, Y 0) := by
    funext k
    change Y k = y p0 (Y 0) k
    rw [h1]
  rw [hY] at hD
  have hc := HasFDerivAt.comp (p0, Y 0) hD hy.hasFDerivAt
  have hlin : HasFDerivAt (fun v : (Fin p → ℝ) × (β → Fin m → ℝ) => D fun k : Fin nt => y v.1 v.2 k) (D.comp (fderiv ℝ (fun (v : (Fin p → ℝ) × (β → Fin m → ℝ)) (k : Fin nt) => y v.1 v.2 k) (p0, Y 0))) (p0, Y 0) :=
    HasFDerivAt.comp (p0, Y 0) D.hasFDerivAt hy.hasFDerivAt
  have he : (fun v : (Fin p → ℝ) × (β → Fin m → ℝ) => D fun k : Fin nt => y v.1 v.2 k) = fun v => ∑ k ∈ Finset.range nt, ∑ b, g k b ⬝ᵥ y v.1 v.2 k b := by
    funext v
    rw [hDd]
    exact Fin.sum_univ_eq_sum_range (fun k => ∑ b, g k b ⬝ᵥ y v.1 v.2 k b) nt
  rw [he] at hlin
  exact hc.congr_fderiv (hlin.unique hg)

/-- **C127** (any loss). Whenever `rewind` returns the exact gradient of linear functionals of the states, it returns the exact gradient of every loss: hand it the gradient of the loss with respect to the recorded states, and what it returns
is the gradient of the loss with respect to the parameters and the initial states. -/
theorem C127_any_loss {rate : (Fin p → ℝ) → β → ℝ → (Fin m → ℝ) → Fin m → ℝ} {t : ℕ → β → ℝ} {Y : ℕ → β → Fin m → ℝ} {p0 : Fin p → ℝ} {g : ℕ → β → Fin m → ℝ}
    {grad : Fin p → ℝ} {lam : β → Fin m → ℝ} (h : IsGradient rate nt t Y p0 g grad lam) (loss : (Fin nt → β → Fin m → ℝ) → ℝ) (hl : OutputGradient nt loss Y g) :
    IsLossGradient (fun q z => IsBackwardEuler (rate q) nt t z) nt Y p0 loss grad lam := by
  obtain ⟨y, h1, h2, h3, h4, h5, h6⟩ := h
  exact ⟨y, h1, h2, h3, h4, loss_chain h1 h5 h6 hl⟩

/-- **C127** (any loss, ordinary tolerances). The same for the gradients of C114, after runs whose states miss the scheme by what the tolerances allow. -/
theorem C127_any_loss_inexact {s : Scheme} {rate : (Fin p → ℝ) → β → ℝ → (Fin m → ℝ) → Fin m → ℝ} {t : ℕ → β → ℝ} {Y : ℕ → β → Fin m → ℝ} {p0 : Fin p → ℝ} {g : ℕ → β → Fin m → ℝ}
    {grad : Fin p → ℝ} {lam : β → Fin m → ℝ} (h : IsFrozenGradient s rate nt t Y p0 g grad lam) (loss : (Fin nt → β → Fin m → ℝ) → ℝ) (hl : OutputGradient nt loss Y g) :
    IsLossGradient (fun q z => ∀ k b, k + 1 < nt → stepDefect s (rate q) t z k b = stepDefect s (rate p0) t Y k b) nt Y p0 loss grad lam := by
  obtain ⟨y, h1, h2, h3, h4, h5, h6⟩ := h
  exact ⟨y, h1, h2, h3, h4, loss_chain h1 h5 h6 hl⟩

omit [Fintype β] in
/-- **C127** (the gradient exists). Every loss that is differentiable at the recorded states has a gradient to hand over. -/
theorem C127_output_gradient [Fintype β] [DecidableEq β] (loss : (Fin nt → β → Fin m → ℝ) → ℝ) (Y : ℕ → β → Fin m → ℝ) (h : DifferentiableAt ℝ loss fun k => Y k) : ∃ g, OutputGradient nt loss Y g := by
  set D := fderiv ℝ loss fun k : Fin nt => Y k with hDdef
  refine ⟨fun k b j => if hk : k < nt then D (Pi.single ⟨k, hk⟩ (Pi.single b (Pi.single j 1))) else 0, D, h.hasFDerivAt, fun d => ?_⟩
  have e : d = ∑ k, ∑ b, ∑ j, d k b j • (Pi.single k (Pi.single b (Pi.single j (1 : ℝ))) : Fin nt → β → Fin m → ℝ) := by
    funext k b j
    simp only [Finset.sum_apply, Pi.smul_apply, smul_eq_mul]
    rw [Finset.sum_eq_single k, Finset.sum_eq_single b, Finset.sum_eq_single j]
    · simp
    · intro j' _ hj
      simp [Pi.single_eq_of_ne (Ne.symm hj)]
    · simp
    · intro b' _ hb
      simp [Pi.single_eq_of_ne (Ne.symm hb)]
    · simp
    · intro k' _ hk
      simp [Pi.single_eq_of_ne (Ne.symm hk)]
    · simp
  conv_lhs => rw [e]
  simp only [map_sum, map_smul, smul_eq_mul, dotProduct]
  refine Finset.sum_congr rfl fun k _ => Finset.sum_congr rfl fun b _ => Finset.sum_congr rfl fun j _ => ?_
  rw [dif_pos k.isLt, mul_comm]

/-! ## `convert_results` as part of the loss -/

omit [Fintype β] in
/-- a maximum that is attained once is locally one of the values -/
private theorem max_smooth (P : Fin nt → Prop) (b : Fin nb) (f : (Fin nt → Fin nb → ℝ) → ℝ) (hf : ∀ R, (∃ s, P s ∧ R s b = f R) ∧ ∀ s, P s → R s b ≤ f R)
    (R0 : Fin nt → Fin nb → ℝ) (hu : UniqueMax nt P fun s => R0 s b) : DifferentiableAt ℝ f R0 := by
  obtain ⟨⟨s, hs, es⟩, hm⟩ := hf R0
  have lt : ∀ r, P r → r ≠ s → R0 r b < R0 s b := by
    intro r hr hrs
    refine lt_of_le_of_ne ((hm r hr).trans es.ge) fun e => hrs (hu r s hr hs ?_ ?_)
    · intro q hq
      exact (hm q hq).trans (es.ge.trans e.ge)
    · intro q hq
      exact (hm q hq).trans es.ge
  have cont : ∀ r, Continuous fun R : Fin nt → Fin nb → ℝ => R r b := fun r => (continuous_apply b).comp (continuous_apply r)
  have ev : ∀ᶠ R in 𝓝 R0, f R = R s b := by
    have h1 : ∀ᶠ R : Fin nt → Fin nb → ℝ in 𝓝 R0, ∀ r, P r → r ≠ s → R r b < R s b := by
      refine eventually_all.2 fun r => ?_
      by_cases h : P r ∧ r ≠ s
      · filter_upwards [(cont r).continuousAt.eventually_lt (cont s).continuousAt (lt r h.1 h.2)] with R hR _ _
        exact hR
      · exact Eventually.of_forall fun R h1 h2 => absurd ⟨h1, h2⟩ h
    filter_upwards [h1] with R hR
    obtain ⟨⟨r, hr, er⟩, hM⟩ := hf R
    by_cases h : r = s
    · rw [← er, h]
    · exact absurd (hR r hr h) (not_lt.2 ((hM s hs).trans er.ge))
  have hd : DifferentiableAt ℝ (fun R : Fin nt → Fin nb → ℝ => R s b) R0 := differentiableAt_pi.1 (differentiableAt_pi.1 differentiableAt_id s) b
  exact hd.congr_of_eventuallyEq ev

omit [Fintype β] in
/-- a maximum that is attained twice has a kink -/
private theorem max_kink (P : Fin nt → Prop) (b : Fin nb) (f : (Fin nt → Fin nb → ℝ) → ℝ) (hf : ∀ R, (∃ s, P s ∧ R s b = f R) ∧ ∀ s, P s → R s b ≤ f R)
    (R0 : Fin nt → Fin nb → ℝ) (hd : DifferentiableAt ℝ f R0) : UniqueMax nt P fun s => R0 s b := by
  classical
  intro s s' hs hs' h1 h2
  by_contra hne
  obtain ⟨⟨r0, hr0, er0⟩, hM0⟩ := hf R0
  have e1 : R0 s b = f R0 := le_antisymm (hM0 s hs) (er0 ▸ h1 r0 hr0)
  have e2 : R0 s' b = f R0 := le_antisymm (hM0 s' hs') (er0 ▸ h2 r0 hr0)
  let δ : Fin nt → Fin nb → ℝ := Pi.single s (Pi.single b 1)
  have hδ : ∀ r, δ r b = if r = s then 1 else 0 := by
    intro r
    by_cases h : r = s
    · rw [h, if_pos rfl]
      simp [δ]
    · rw [if_neg h]
      simp [δ, Pi.single_eq_of_ne h]
  have hval : ∀ h : ℝ, f (R0 + h • δ) = f R0 + max h 0 := by
    intro h
    have hv : ∀ r, (R0 + h • δ) r b = R0 r b + (if r = s then h else 0) := by
      intro r
      rw [Pi.add_apply, Pi.add_apply, Pi.smul_apply, Pi.smul_apply, hδ, smul_eq_mul]
      split <;> simp
    obtain ⟨⟨r, hr, er⟩, hM⟩ := hf (R0 + h • δ)
    refine le_antisymm ?_ ?_
    · rw [← er, hv]
      refine add_le_add (hM0 r hr) ?_
      split
      · exact le_max_left ..
      · exact le_max_right ..
    · have a1 := hM s hs
      have a2 := hM s' hs'
      rw [hv, if_pos rfl, e1] at a1
      rw [hv, if_neg (Ne.symm hne), e2] at a2
      rcases le_total h 0 with h0 | h0
      · rw [max_eq_right h0]; exact a2
      · rw [max_eq_left h0]; exact a1
  have hline : DifferentiableAt ℝ (fun h : ℝ => R0 + h • δ) 0 := (differentiableAt_id.smul_const δ).const_add R0
  have hd' : DifferentiableAt ℝ f ((fun h : ℝ => R0 + h • δ) 0) := by
    have : (fun h : ℝ => R0 + h • δ) 0 = R0 := by simp
    rw [this]
    exact hd
  have hmax : DifferentiableAt ℝ (fun h : ℝ => f (R0 + h • δ)) 0 := DifferentiableAt.comp (0 : ℝ) hd' hline
  have : DifferentiableAt ℝ (fun h : ℝ => 2 * (f (R0 + h • δ) - f R0) - h) 0 := ((hmax.sub_const _).const_mul 2).sub differentiableAt_id
  refine not_differentiableAt_abs_zero (this.congr_of_eventuallyEq (Eventually.of_forall fun h => ?_))
  change |h| = 2 * (f (R0 + h • δ) - f R0) - h
  rw [hval]
  rcases le_total h 0 with h0 | h0
  · rw [max_eq_right h0, abs_of_nonpos h0]; ring
  · rw [max_eq_left h0, abs_of_nonneg h0]; ring

omit [Fintype β] in
private theorem converted_spec (hnt : 0 < nt) (garbage : ℕ → ℕ → ℝ) (cycles : ℕ → ℕ → ℤ) (types : ℕ → ℤ) (hg : GoodLabels nt nb cycles types) (R : Fin nt → Fin nb → ℝ) (b : Fin nb) :
    (types b = 0 ∨ types b = 6 → ∀ t, converted nt nb garbage cycles types R t b = R t b) ∧
    (types b = 1 ∨ types b = 3 → ∀ l, Leader nb types (types b) l → ∃ r : Fin nt, FirstRow nt (fun s => cycles s l = 1) r ∧ ∀ t : Fin nt,
      (cycles t l = 1 → converted nt nb garbage cycles types R t b = R t b - R r b) ∧ (cycles t l ≠ 1 → converted nt nb garbage cycles types R t b = 0)) ∧
    (types b = 2 ∨ types b = 4 → ∀ l, Leader nb types (types b) l → ∀ t : Fin nt,
      (0 ≤ cycles t l → cycles t l ≤ cycles (nt - 1) l → (∃ s : Fin nt, cycles s l = cycles t l ∧ R s b = converted nt nb garbage cycles types R t b) ∧
        ∀ s : Fin nt, cycles s l = cycles t l → R s b ≤ converted nt nb garbage cycles types R t b) ∧
      (cycles t l < 0 ∨ cycles (nt - 1) l < cycles t l → converted nt nb garbage cycles types R t b = 0)) ∧
    (types b = 5 → ∀ t : Fin nt, (cycles t b = 1 → ∃ r : Fin nt, FirstRow nt (fun s => cycles s b = 1) r ∧ converted nt nb garbage cycles types R t b = R r b) ∧
      (cycles t b = 2 → (∃ s : Fin nt, True ∧ R s b = converted nt nb garbage cycles types R t b) ∧ ∀ s : Fin nt, True → R s b ≤ converted nt nb garbage cycles types R t b) ∧
      (cycles t b ≠ 1 → cycles t b ≠ 2 → converted nt nb garbage cycles types R t b = 0)) ∧
    (types b < 0 ∨ 6 < types b → ∀ t : Fin nt, converted nt nb garbage cycles types R t b = garbage t b) := by
  obtain ⟨out, ho, h⟩ := (C63_dispatch nt nb hnt garbage (fun t b => if h : t < nt ∧ b < nb then R ⟨t, h.1⟩ ⟨b, h.2⟩ else 0) cycles types).1 hg
  have e : ∀ t : Fin nt, converted nt nb garbage cycles types R t b = out t b := by
    intro t
    unfold converted
    rw [ho]
  have er : ∀ t (ht : t < nt), (if h : t < nt ∧ b.val < nb then R ⟨t, h.1⟩ ⟨b.val, h.2⟩ else 0) = R ⟨t, ht⟩ b := fun t ht => dif_pos ⟨ht, b.isLt⟩
  obtain ⟨h1, h2, h3, h4, h5⟩ := h b b.isLt
  refine ⟨fun a t => ?_, fun a l hl => ?_, fun a l hl t => ⟨fun b1 b2 => ?_, fun b1 => ?_⟩, fun a t => ⟨fun b1 => ?_, fun b1 => ?_, fun b1 b2 => ?_⟩, fun a t => ?_⟩
  · rw [e, h1 a t, er t t.isLt]
  · obtain ⟨r, hr, hs⟩ := h2 a l hl
    refine ⟨⟨r, hr.1⟩, hr, fun t => ⟨fun c => ?_, fun c => ?_⟩⟩
    · have := (hs t t.isLt).1 c
      beta_reduce at this
      rw [er t t.isLt, er r hr.1] at this
      rw [e, this]
    · exact (e t).trans ((hs t t.isLt).2 c)
  · obtain ⟨⟨s, hs, c1, c2⟩, hm⟩ := (h3 a l hl t t.isLt).1 b1 b2
    beta_reduce at c2
    rw [er s hs] at c2
    refine ⟨⟨⟨s, hs⟩, c1, by rw [e, c2]⟩, fun s hs => ?_⟩
    have := hm s s.isLt hs
    beta_reduce at this
    rw [er s s.isLt] at this
    rw [e]
    exact this
  · exact (e t).trans ((h3 a l hl t t.isLt).2 b1)
  · obtain ⟨r, hr, c⟩ := (h4 a t t.isLt).1 b1
    beta_reduce at c
    rw [er r hr.1] at c
    exact ⟨⟨r, hr.1⟩, hr, by rw [e, c]⟩
  · obtain ⟨⟨s, hs, c1, c2⟩, hm⟩ := (h4 a t t.isLt).2.1 b1
    beta_reduce at c2
    rw [er s hs] at c2
    refine ⟨⟨⟨s, hs⟩, trivial, by rw [e, c2]⟩, fun s _ => ?_⟩
    have := hm s s.isLt trivial
    beta_reduce at this
    rw [er s s.isLt] at this
    rw [e]
    exact this
  · exact (e t).trans ((h4 a t t.isLt).2.2 b1 b2)
  · rw [e, h5 a t]

omit [Fintype β] in
/-- **C127** (conversion). With labels that `convert_results` accepts, the conversion of the results is differentiable exactly at the results without ties: for every other result the maximum of a cycle, or the ultimate
strength of an abstract tensile test, has a kink there and no gradient exists. -/
theorem C127_conversion (hnt : 0 < nt) (garbage : ℕ → ℕ → ℝ) (cycles : ℕ → ℕ → ℤ) (types : ℕ → ℤ) (hg : GoodLabels nt nb cycles types) (R : Fin nt → Fin nb → ℝ) :
    DifferentiableAt ℝ (converted nt nb garbage cycles types) R ↔ NoTies nt nb cycles types R := by
  have spec := converted_spec hnt garbage cycles types hg
  have entry : DifferentiableAt ℝ (converted nt nb garbage cycles types) R ↔ ∀ t b, DifferentiableAt ℝ (fun R => converted nt nb garbage cycles types R t b) R := by
    rw [differentiableAt_pi]
    exact forall_congr' fun t => differentiableAt_pi
  have hcoord : ∀ (s : Fin nt) (b : Fin nb), DifferentiableAt ℝ (fun R : Fin nt → Fin nb → ℝ => R s b) R := fun s b => differentiableAt_pi.1 (differentiableAt_pi.1 differentiableAt_id s) b
  rw [entry]
  have huniq : ∀ {n : ℕ} {P : ℕ → Prop} {r r' : ℕ}, FirstRow n P r → FirstRow n P r' → r = r' := by
    intro n P r r' h h'
    rcases lt_trichotomy r r' with hlt | rfl | hlt
    · exact absurd h.2.1 (h'.2.2 r hlt)
    · rfl
    · exact absurd h'.2.1 (h.2.2 r' hlt)
  constructor
  · intro h b
    refine ⟨fun hb l hl i h0 h1 => ?_, fun hb hs => ?_⟩
    · obtain ⟨t, ht, et⟩ := hg.2 (types b) l hb hl i h0 h1
      subst et
      exact max_kink (fun s : Fin nt => cycles s l = cycles t l) b (fun R => converted nt nb garbage cycles types R ⟨t, ht⟩ b)
        (fun R => ((spec R b).2.2.1 hb l hl ⟨t, ht⟩).1 h0 h1) R (h ⟨t, ht⟩ b)
    · obtain ⟨t, ht, et⟩ := hs
      exact max_kink (fun _ : Fin nt => True) b (fun R => converted nt nb garbage cycles types R ⟨t, ht⟩ b) (fun R => ((spec R b).2.2.2.1 hb ⟨t, ht⟩).2.1 et) R (h ⟨t, ht⟩ b)
  · intro h t b
    by_cases c0 : types b = 0 ∨ types b = 6
    · have : (fun R => converted nt nb garbage cycles types R t b) = fun R => R t b := funext fun R => (spec R b).1 c0 t
      rw [this]
      exact hcoord t b
    by_cases c1 : types b = 1 ∨ types b = 3
    · obtain ⟨l, hl⟩ : ∃ l, Leader nb types (types b) l := by
        classical
        have hex : ∃ l, l < nb ∧ types l = types b := ⟨b, b.isLt, rfl⟩
        exact ⟨Nat.find hex, (Nat.find_spec hex).1, (Nat.find_spec hex).2, fun s hs hc => Nat.find_min hex hs ⟨hs.trans (Nat.find_spec hex).1, hc⟩⟩
      obtain ⟨r, hr, -⟩ := (spec R b).2.1 c1 l hl
      by_cases ct : cycles t l = 1
      · have : (fun R => converted nt nb garbage cycles types R t b) = fun R => R t b - R r b := funext fun R => by
          obtain ⟨r', hr', hs⟩ := (spec R b).2.1 c1 l hl
          obtain rfl : r = r' := Fin.ext (huniq hr hr')
          exact (hs t).1 ct
        rw [this]
        exact (hcoord t b).sub (hcoord r b)
      · have : (fun R => converted nt nb garbage cycles types R t b) = fun _ => 0 := funext fun R => by
          obtain ⟨r', hr', hs⟩ := (spec R b).2.1 c1 l hl
          exact (hs t).2 ct
        rw [this]
        exact differentiableAt_const _
    by_cases c2 : types b = 2 ∨ types b = 4
    · obtain ⟨l, hl⟩ : ∃ l, Leader nb types (types b) l := by
        classical
        have hex : ∃ l, l < nb ∧ types l = types b := ⟨b, b.isLt, rfl⟩
        exact ⟨Nat.find hex, (Nat.find_spec hex).1, (Nat.find_spec hex).2, fun s hs hc => Nat.find_min hex hs ⟨hs.trans (Nat.find_spec hex).1, hc⟩⟩
      by_cases ct : 0 ≤ cycles t l ∧ cycles t l ≤ cycles (nt - 1) l
      · exact max_smooth (fun s : Fin nt => cycles s l = cycles t l) b _ (fun R => ((spec R b).2.2.1 c2 l hl t).1 ct.1 ct.2) R ((h b).1 c2 l hl _ ct.1 ct.2)
      · have ct' : cycles t l < 0 ∨ cycles (nt - 1) l < cycles t l := by omega
        have : (fun R => converted nt nb garbage cycles types R t b) = fun _ => 0 := funext fun R => ((spec R b).2.2.1 c2 l hl t).2 ct'
        rw [this]
        exact differentiableAt_const _
    by_cases c5 : types b = 5
    · by_cases t1 : cycles t b = 1
      · obtain ⟨r, hr, -⟩ := ((spec R b).2.2.2.1 c5 t).1 t1
        have : (fun R => converted nt nb garbage cycles types R t b) = fun R => R r b := funext fun R => by
          obtain ⟨r', hr', hs⟩ := ((spec R b).2.2.2.1 c5 t).1 t1
          obtain rfl : r = r' := Fin.ext (huniq hr hr')
          exact hs
        rw [this]
        exact hcoord r b
      by_cases t2 : cycles t b = 2
      · exact max_smooth (fun _ : Fin nt => True) b _ (fun R => ((spec R b).2.2.2.1 c5 t).2.1 t2) R ((h b).2 c5 ⟨t, t.isLt, t2⟩)
      · have : (fun R => converted nt nb garbage cycles types R t b) = fun _ => 0 := funext fun R => ((spec R b).2.2.2.1 c5 t).2.2 t1 t2
        rw [this]
        exact differentiableAt_const _
    · have : (fun R => converted nt nb garbage cycles types R t b) = fun _ => garbage t b := funext fun R => (spec R b).2.2.2.2 (by omega) t
      rw [this]
      exact differentiableAt_const _

/-- What `DeterministicModel` returns, as a function of the recorded states: the conversion of their first component. -/
noncomputable def predicted (nt nb : ℕ) (garbage : ℕ → ℕ → ℝ) (cycles : ℕ → ℕ → ℤ) (types : ℕ → ℤ) (H : Fin nt → Fin nb → Fin (m + 1) → ℝ) : Fin nt → Fin nb → ℝ :=
  converted nt nb garbage cycles types fun t b => H t b 0

omit [Fintype β] in
/-- **C127** (gradient of the training loss). A loss of what `DeterministicModel` returns that is differentiable there has a gradient with respect to the recorded states, if there are no ties; its components other than the first are zero. -/
theorem C127_training_output (hnt : 0 < nt) (garbage : ℕ → ℕ → ℝ) (cycles : ℕ → ℕ → ℤ) (types : ℕ → ℤ) (hg : GoodLabels nt nb cycles types) (Y : ℕ → Fin nb → Fin (m + 1) → ℝ)
    (hties : NoTies nt nb cycles types fun t b => Y t b 0) (L : (Fin nt → Fin nb → ℝ) → ℝ) (hL : DifferentiableAt ℝ L (predicted nt nb garbage cycles types fun k => Y k)) :
    ∃ g, OutputGradient nt (fun H => L (predicted nt nb garbage cycles types H)) Y g ∧ ∀ k < nt, ∀ b j, j ≠ 0 → g k b j = 0 := by
  have h0 : DifferentiableAt ℝ (fun (H : Fin nt → Fin nb → Fin (m + 1) → ℝ) t b => H t b 0) fun k => Y k :=
    differentiableAt_pi.2 fun t => differentiableAt_pi.2 fun b => differentiableAt_pi.1 (differentiableAt_pi.1 (differentiableAt_pi.1 differentiableAt_id t) b) 0
  have h1 : DifferentiableAt ℝ (converted nt nb garbage cycles types) ((fun (H : Fin nt → Fin nb → Fin (m + 1) → ℝ) t b => H t b 0) fun k => Y k) := (C127_conversion hnt garbage cycles types hg _).2 hties
  have h2 : DifferentiableAt ℝ (fun R => L (converted nt nb garbage cycles types R)) ((fun (H : Fin nt → Fin nb → Fin (m + 1) → ℝ) t b => H t b 0) fun k => Y k) := DifferentiableAt.comp _ hL h1
  have h3 : DifferentiableAt ℝ (fun H => L (predicted nt nb garbage cycles types H)) (fun k => Y k) := DifferentiableAt.comp (g := fun R => L (converted nt nb garbage cycles types R)) _ h2 h0
  obtain ⟨g, D, hD, hDd⟩ := C127_output_gradient _ Y h3
  refine ⟨g, ⟨D, hD, hDd⟩, fun k hk b j hj => ?_⟩
  have hc := HasFDerivAt.comp (g := fun R => L (converted nt nb garbage cycles types R)) (fun k : Fin nt => Y k) h2.hasFDerivAt h0.hasFDerivAt
  have hDe := hD.unique hc
  let d : Fin nt → Fin nb → Fin (m + 1) → ℝ := Pi.single ⟨k, hk⟩ (Pi.single b (Pi.single j 1))
  let P0 : (Fin nt → Fin nb → Fin (m + 1) → ℝ) →L[ℝ] (Fin nt → Fin nb → ℝ) :=
    ContinuousLinearMap.pi fun t => ContinuousLinearMap.pi fun b => (ContinuousLinearMap.proj (R := ℝ) (φ := fun _ : Fin (m + 1) => ℝ) 0).comp ((ContinuousLinearMap.proj (R := ℝ) (φ := fun _ : Fin nb => Fin (m + 1) → ℝ) b).comp
      (ContinuousLinearMap.proj (R := ℝ) (φ := fun _ : Fin nt => Fin nb → Fin (m + 1) → ℝ) t))
  have hP0 : fderiv ℝ (fun (H : Fin nt → Fin nb → Fin (m + 1) → ℝ) t b => H t b 0) (fun k => Y k) = P0 := P0.hasFDerivAt.fderiv
  have hd0 : P0 d = 0 := by
    funext t b'
    change d t b' 0 = 0
    by_cases ht : t = ⟨k, hk⟩
    · subst ht
      by_cases hb : b' = b
      · subst hb
        simp [d, Pi.single_eq_of_ne (Ne.symm hj)]
      · simp [d, Pi.single_eq_of_ne hb]
    · simp [d, Pi.single_eq_of_ne ht]
  have hz : D d = 0 := by
    rw [hDe, ContinuousLinearMap.comp_apply, hP0, hd0, map_zero]
  rw [hDd, Finset.sum_eq_single ⟨k, hk⟩, Finset.sum_eq_single b] at hz
  · simpa [d, dotProduct, Pi.single_apply] using hz
  · intro b' _ hb
    simp [d, Pi.single_eq_of_ne hb]
  · simp
  · intro t _ ht
    simp [d, Pi.single_eq_of_ne ht]
  · simp

section tensors

variable {nk : ℕ} {D : Set ℝ} {times data temps control : Tensor} {M : Tensor → Tensor → Tensor → Tensor → Except String TOut}

/-- **C127** (training). A batch with any mixture of strain and stress controlled tests is simulated with `solve_both` as in C113, the first component of the states is converted by `convert_results`, a loss `L` of the predictions is formed, and
the adjoint pass is started with the gradient `G` of that loss with respect to the states. What comes out is the exact gradient of the loss of the predictions with respect to the material parameters and the initial states. -/
theorem C127_training (hnb : 0 < nb) (P : ℕ → (Fin p → ℝ) → VCParams nk) (p0 : Fin p → ℝ) (hM : ∀ q, ModelIs [nb, q] D M fun i => (P (i.headD 0) p0).model) (h : Tests nb nt D times data temps)
    (hcontrol : control.shape = [nb]) (c : Config)
    (hs : c.scheme = .backwardEuler) (hi : 0 ≤ c.miter) (hr : c.rtol = 0) (ha : c.atol = 0) (garbage : List ℕ → ℝ) (q q' : ℤ) (hq : 0 < q) (hq' : 0 < q') {Y G : Tensor}
    (hY : tSolveBoth c M (1 + nk + 1) garbage times temps data control q = .ok (Y, false)) (hG : G.shape = [1 + nk + 1, nb, nt])
    (hP : ∀ k < nt, ∀ b < nb, (P b p0).Smooth (temps.data [b, k])) (hd : ∀ k < nt, ∀ b < nb, VCParams.DiffAt (P b) p0 (temps.data [b, k])) (hE : ∀ k < nt, ∀ b < nb, (P b p0).E (temps.data [b, k]) ≠ 0)
    (R0 : ℕ → ℝ) (B : ℕ → Fin nk → ℝ) (hR0 : ∀ b < nb, 0 ≤ R0 b) (hB0 : ∀ b < nb, ∀ i, 0 ≤ B b i) (hR : ∀ k < nt, ∀ b < nb, (P b p0).R (temps.data [b, k]) = R0 b)
    (hC : ∀ k < nt, ∀ b < nb, ∀ i, (P b p0).C i (temps.data [b, k]) = B b i * (P b p0).g i (temps.data [b, k]))
    (hmov : (∃ b < nb, control.data [b] = 1) → Moving (fun b : Fin nb => (P b.val p0).E) (fun b => (P b.val p0).flowRule) nt (fun k (b : Fin nb) => times.data [b.val, k]) (fun k b => data.data [b.val, k]) (fun k b => temps.data [b.val, k])
      (statesOf nb (1 + nk + 1) Y))
    (d : Chunktime.Direct) {vjp : Tensor → Tensor → Tensor → Except String (Fin p → ℝ)} (rate base T : Fin nb → ℝ → ℝ)
    (hrate : rate = fun b => rateFn nt (fun k => times.data [b.val, k]) fun k => data.data [b.val, k]) (hbase : base = fun b => dataFn nt (fun k => times.data [b.val, k]) fun k => data.data [b.val, k])
    (hT : T = fun b => dataFn nt (fun k => times.data [b.val, k]) fun k => temps.data [b.val, k])
    (hV : RecordedVjp nb nt (fun b q => (P b.val q).model) p0 rate base T (fun b => control.data [b.val]) (fun k b => times.data [b.val, k]) (statesOf nb (1 + nk + 1) Y) vjp)
    (mem : ℕ → ℕ → ℝ) (cycles : ℕ → ℕ → ℤ) (types : ℕ → ℤ) (L : (Fin nt → Fin nb → ℝ) → ℝ)
    (hL : OutputGradient nt (fun H => L (predicted nt nb mem cycles types H)) (statesOf nb (1 + nk + 1) Y) (statesOf nb (1 + nk + 1) G)) :
    ∃ (grad : Fin p → ℝ) (lam : Tensor), tRewind .backwardEuler d (tBothFunc M times temps data control) vjp times Y G q' = .ok (grad, lam) ∧ lam.shape = [1 + nk + 1, nb] ∧
      IsLossGradient (fun q z => IsBackwardEuler (fun b t y => mixedRates (P b.val q).E (P b.val q).flowRule (control.data [b.val]) (rate b t) (base b t) (T b t) t y) nt (fun k b => times.data [b.val, k]) z) nt
        (statesOf nb (1 + nk + 1) Y) p0 (fun H => L (predicted nt nb mem cycles types H)) grad fun b j => lam.data [j.val, b.val] := by
  obtain ⟨grad, lam, h1, h2, h3⟩ := C113_both hnb P p0 hM h hcontrol c hs hi hr ha garbage q q' hq hq' hY hG hP hd hE R0 B hR0 hB0 hR hC hmov d rate base T hrate hbase hT hV
  exact ⟨grad, lam, h1, h2, C127_any_loss h3 _ hL⟩

/-- **C127** (training, ordinary tolerances). The same after a run with any tolerances (as in C114): the gradient of the loss of the predictions, the remaining defects of the steps being kept fixed. -/
theorem C127_training_inexact (hnb : 0 < nb) (P : ℕ → (Fin p → ℝ) → VCParams nk) (p0 : Fin p → ℝ) (hM : ∀ q, ModelIs [nb, q] D M fun i => (P (i.headD 0) p0).model) (h : Tests nb nt D times data temps)
    (hcontrol : control.shape = [nb]) (c : Config)
    (hs : c.scheme = .backwardEuler) (hi : 0 ≤ c.miter) (garbage : List ℕ → ℝ) (q q' : ℤ) (hq : 0 < q) (hq' : 0 < q') {Y G : Tensor}
    (hY : tSolveBoth c M (1 + nk + 1) garbage times temps data control q = .ok (Y, false)) (hG : G.shape = [1 + nk + 1, nb, nt])
    (hP : ∀ k < nt, ∀ b < nb, (P b p0).Smooth (temps.data [b, k])) (hd : ∀ k < nt, ∀ b < nb, VCParams.DiffAt (P b) p0 (temps.data [b, k])) (hE : ∀ k < nt, ∀ b < nb, (P b p0).E (temps.data [b, k]) ≠ 0)
    (hst : ∀ k < nt, ∀ b : Fin nb, VCState (P b.val p0).R (P b.val p0).C (P b.val p0).g (temps.data [b.val, k]) (statesOf nb (1 + nk + 1) Y k b))
    (hmov : (∃ b < nb, control.data [b] = 1) → Moving (fun b : Fin nb => (P b.val p0).E) (fun b => (P b.val p0).flowRule) nt (fun k (b : Fin nb) => times.data [b.val, k]) (fun k b => data.data [b.val, k]) (fun k b => temps.data [b.val, k])
      (statesOf nb (1 + nk + 1) Y))
    (d : Chunktime.Direct) {vjp : Tensor → Tensor → Tensor → Except String (Fin p → ℝ)} (rate base T : Fin nb → ℝ → ℝ)
    (hrate : rate = fun b => rateFn nt (fun k => times.data [b.val, k]) fun k => data.data [b.val, k]) (hbase : base = fun b => dataFn nt (fun k => times.data [b.val, k]) fun k => data.data [b.val, k])
    (hT : T = fun b => dataFn nt (fun k => times.data [b.val, k]) fun k => temps.data [b.val, k])
    (hV : RecordedVjp nb nt (fun b q => (P b.val q).model) p0 rate base T (fun b => control.data [b.val]) (fun k b => times.data [b.val, k]) (statesOf nb (1 + nk + 1) Y) vjp)
    (mem : ℕ → ℕ → ℝ) (cycles : ℕ → ℕ → ℤ) (types : ℕ → ℤ) (L : (Fin nt → Fin nb → ℝ) → ℝ)
    (hL : OutputGradient nt (fun H => L (predicted nt nb mem cycles types H)) (statesOf nb (1 + nk + 1) Y) (statesOf nb (1 + nk + 1) G)) :
    let meant := fun (q : Fin p → ℝ) (b : Fin nb) t (y : Fin (1 + nk + 1) → ℝ) => mixedRates (P b.val q).E (P b.val q).flowRule (control.data [b.val]) (rate b t) (base b t) (T b t) t y
    ∃ (grad : Fin p → ℝ) (lam : Tensor), tRewind .backwardEuler d (tBothFunc M times temps data control) vjp times Y G q' = .ok (grad, lam) ∧ lam.shape = [1 + nk + 1, nb] ∧
      IsLossGradient (fun q z => ∀ k b, k + 1 < nt → stepDefect .backwardEuler (meant q) (fun k b => times.data [b.val, k]) z k b =
          stepDefect .backwardEuler (meant p0) (fun k b => times.data [b.val, k]) (statesOf nb (1 + nk + 1) Y) k b) nt
        (statesOf nb (1 + nk + 1) Y) p0 (fun H => L (predicted nt nb mem cycles types H)) grad fun b j => lam.data [j.val, b.val] := by
  intro meant
  obtain ⟨⟨grad, lam, h1, h2, h3⟩, -⟩ := C114_both hnb P p0 hM h hcontrol c hs hi garbage q q' hq hq' hY hG hP hd hE hst hmov d rate base T hrate hbase hT hV
  exact ⟨grad, lam, h1, h2, C127_any_loss_inexact h3 _ hL⟩

end tensors

/-! ## Non-vacuity -/

/-- The decay equation `y' = p y` at `p = -1` with five times, and the squared distance of the states to the values `5, 5, …`: its gradient is `2 (y - 5)`, and with it `rewind` returns the exact gradient of the loss. -/
example : ∃ grad lam, rewind .backwardEuler .pcr (fun _ _ y => (fun _ => -1 * y 0, !![-1])) (fun _ _ y => !![y 0]) 5 (fun k (_ : Unit) => (k : ℝ)) (fun k _ _ => (1 / 2 : ℝ) ^ k)
      (fun k _ _ => 2 * ((1 / 2 : ℝ) ^ k - 5)) 3 = .ok (grad, lam) ∧
    IsLossGradient (fun q z => IsBackwardEuler (fun _ _ y _ => q 0 * y 0) 5 (fun k (_ : Unit) => (k : ℝ)) z) 5 (fun k _ _ => (1 / 2 : ℝ) ^ k) (fun _ : Fin 1 => -1)
      (fun H => ∑ k, (H k () 0 - 5) ^ 2) grad lam := by
  obtain ⟨y, h1, h2, h3, h4, grad, lam, h5, h6⟩ := C83_backward (β := Unit) (m := 1) (p := 1) .pcr (fun q _ _ y _ => q 0 * y 0)
    (fun _ _ _ => !![-1]) (fun _ _ y => !![y 0]) 5 (by norm_num) (fun k _ => (k : ℝ)) (fun k _ _ => (1 / 2 : ℝ) ^ k)
    (fun _ => -1) 3 (by norm_num) (fun k _ _ => 2 * ((1 / 2 : ℝ) ^ k - 5)) (by
      intro k b _
      funext i
      simp only [Pi.add_apply, Pi.smul_apply, smul_eq_mul]
      rw [pow_succ]
      push_cast
      ring) (by
      intro k _ b
      rw [isUnit_iff_ne_zero, Matrix.det_fin_one]
      simp) (fun k _ b => ex_strict (fun _ => -1) (fun _ => (1 / 2 : ℝ) ^ k))
  refine ⟨grad, lam, h5, C127_any_loss (rate := fun q _ _ y _ => q 0 * y 0) (g := fun k _ _ => 2 * ((1 / 2 : ℝ) ^ k - 5)) ⟨y, h1, h2, h3, h4, h6⟩ _ ?_⟩
  let pr : Fin 5 → (Fin 5 → Unit → Fin 1 → ℝ) →L[ℝ] ℝ := fun k => (ContinuousLinearMap.proj (R := ℝ) (φ := fun _ : Fin 1 => ℝ) 0).comp
    ((ContinuousLinearMap.proj (R := ℝ) (φ := fun _ : Unit => Fin 1 → ℝ) ()).comp (ContinuousLinearMap.proj (R := ℝ) (φ := fun _ : Fin 5 => Unit → Fin 1 → ℝ) k))
  refine ⟨∑ k : Fin 5, (2 * ((1 / 2 : ℝ) ^ (k : ℕ) - 5)) • pr k, HasFDerivAt.fun_sum fun k _ => ?_, fun d => ?_⟩
  · have := ((pr k).hasFDerivAt (x := fun (k : Fin 5) _ _ => (1 / 2 : ℝ) ^ (k : ℕ))).sub_const (5 : ℝ) |>.pow 2
    refine this.congr_fderiv ?_
    ext d
    simp [pr]
  · simp [pr, ContinuousLinearMap.sum_apply, dotProduct]

/-- `NoTies` and its failure: a cyclic test with two cycles of two rows each. With the values 1, 3, 2, 5 there are no ties, and the conversion is differentiable; with 3, 3, 2, 5 it is not. -/
example : let cycles : ℕ → ℕ → ℤ := fun t _ => if t < 2 then 0 else 1
    GoodLabels 4 1 cycles (fun _ => 2) ∧ DifferentiableAt ℝ (converted 4 1 (fun _ _ => 17) cycles fun _ => 2) (fun t _ => ![1, 3, 2, 5] t) ∧
      ¬ DifferentiableAt ℝ (converted 4 1 (fun _ _ => 17) cycles fun _ => 2) (fun t _ => ![3, 3, 2, 5] t) := by
  intro cycles
  have hg : GoodLabels 4 1 cycles (fun _ => 2) := by
    refine ⟨fun i l hi hl => ?_, fun i l hi hl j h0 h1 => ?_⟩
    · have : (2 : ℤ) = i := hl.2.1
      omega
    · have h1' : j ≤ 1 := h1
      obtain rfl | rfl : j = 0 ∨ j = 1 := by omega
      · exact ⟨0, by norm_num, by simp [cycles]⟩
      · exact ⟨2, by norm_num, by simp [cycles]⟩
  refine ⟨hg, (C127_conversion (by norm_num) _ _ _ hg _).2 fun b => ⟨fun _ l _ i _ _ s s' hs hs' m1 m2 => ?_, fun h => by cases h⟩, fun hc => ?_⟩
  · have e : (s : ℕ) < 2 ↔ (s' : ℕ) < 2 := by
      simp only [cycles] at hs hs'
      split_ifs at hs hs' <;> omega
    have a1 := m1 s' hs'
    have a2 := m2 s hs
    fin_cases s <;> fin_cases s' <;> simp_all <;> linarith
  · have hl : Leader 1 (fun _ => 2) 2 0 := ⟨by norm_num, rfl, fun s hs => by omega⟩
    have := ((C127_conversion (by norm_num) _ _ _ hg _).1 hc 0).1 (Or.inl rfl) 0 hl 0 le_rfl (by simp [cycles]) 0 1 (by simp [cycles]) (by simp [cycles])
      (fun r hr => by fin_cases r <;> simp_all [cycles]) (fun r hr => by fin_cases r <;> simp_all [cycles])
    simp at this

end Pyoptmat.Props
