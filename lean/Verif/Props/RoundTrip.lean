import Verif.Props.Mixed
import Verif.Props.Elastic
import Verif.Props.Inference

/-!
# Property C136: from strains to stresses and back

`examples/structural-material-models/stress_strain_control.py`: simulate strain controlled tests, feed the stresses they return to `solve_stress` (or, together with the strain controlled
tests, to `solve_both`), and get the strains back.
-/

namespace Pyoptmat.Props

open Pyoptmat Pyoptmat.Control Pyoptmat.Material Pyoptmat.Solvers Pyoptmat.Spec Pyoptmat.Ode Pyoptmat.Chunktime

variable {β β' : Type*} {nk : ℕ}

/-- The isotropic-kinematic rule with Voce and Chaboche hardening does not look at the strain rate. -/
theorem vc_hist_rate (n eta s0 R d : ℝ → ℝ) (C g : Fin nk → ℝ → ℝ) (s : ℝ) (h : Fin (1 + nk) → ℝ) (t T e e' : ℝ) :
    (isoKin n eta s0 (voce R d) (chaboche C g)).hist s h t T e = (isoKin n eta s0 (voce R d) (chaboche C g)).hist s h t T e' := rfl

/-- One step of the internal variables at a prescribed stress has one solution at most. -/
theorem vc_frozen_unique (n eta s0 R d : ℝ → ℝ) (C g : Fin nk → ℝ → ℝ) (t dt s T e e' : ℝ) (h0 h h' : Fin (1 + nk) → ℝ) (hdt : 0 ≤ dt)
    (hp : VCAdmissible (fun _ => 0) n eta s0 R d C g T) (hr : 0 ≤ h0 (Fin.castAdd nk 0) ∧ h0 (Fin.castAdd nk 0) ≤ R T)
    (hx : ∀ i : Fin nk, |h0 (Fin.natAdd 1 i)| * g i T ≤ C i T)
    (h1 : ∀ i, h i - h0 i = dt * (isoKin n eta s0 (voce R d) (chaboche C g)).hist s h t T e i)
    (h2 : ∀ i, h' i - h0 i = dt * (isoKin n eta s0 (voce R d) (chaboche C g)).hist s h' t T e' i) : h = h' := by
  have step : ∀ (z : Fin (1 + nk) → ℝ) (e'' : ℝ), (∀ i, z i - h0 i = dt * (isoKin n eta s0 (voce R d) (chaboche C g)).hist s z t T e'' i) →
      (Fin.cons s z : Fin (1 + nk + 1) → ℝ) = (Fin.cons s h0 : Fin (1 + nk + 1) → ℝ) +
        dt • (inelastic (fun _ => 0) (isoKin n eta s0 (voce R d) (chaboche C g)) t (Fin.cons s z) 0 T).ydot := by
    intro z e'' hz
    funext i
    refine Fin.cases ?_ (fun j => ?_) i
    · simp [inelastic]
    · have := hz j
      rw [vc_hist_rate _ _ _ _ _ _ _ _ _ _ _ e'' 0] at this
      simp only [inelastic, Pi.add_apply, Pi.smul_apply, smul_eq_mul, Fin.cons_succ, Fin.cons_zero]
      linarith
  have hu := C74_step (fun _ => 0) n eta s0 R d C g t dt (Fin.cons s h0 : Fin (1 + nk + 1) → ℝ) 0 T hdt hp
    (by rw [one_eq_iso]; simpa using hr) (fun i => by simpa using hx i)
  have := hu.unique (step h e h1) (step h' e' h2)
  funext j
  have := congrFun this j.succ
  simpa using this

/-- Two histories of one test: `y` under strain control, `z` under control by the stresses of `y`. -/
theorem round_trip_core (E n eta s0 R d : ℝ → ℝ) (C g : Fin nk → ℝ → ℝ) (nt : ℕ) (times strains temps : ℕ → ℝ)
    (hg : ∀ k, k + 1 < nt → times k < times (k + 1)) (R0 : ℝ) (B : Fin nk → ℝ)
    (hp : ∀ k, k < nt → VCAdmissible E n eta s0 R d C g (temps k) ∧ E (temps k) ≠ 0 ∧ R (temps k) = R0 ∧ ∀ i, C i (temps k) = B i * g i (temps k))
    (hR0 : 0 ≤ R0) (hB : ∀ i, 0 ≤ B i) (y z : ℕ → Fin (1 + nk + 1) → ℝ) (y0 : y 0 = 0) (z0 : z 0 = 0) (rate : ℕ → ℝ)
    (hrate : ∀ k, k + 1 < nt → (times (k + 1) - times k) * rate (k + 1) = strains (k + 1) - strains k)
    (hy : ∀ k, k + 1 < nt → y (k + 1) = y k + (times (k + 1) - times k) •
      (inelastic E (isoKin n eta s0 (voce R d) (chaboche C g)) (times (k + 1)) (y (k + 1)) (rate (k + 1)) (temps (k + 1))).ydot)
    (hz : ∀ k, k + 1 < nt → |z (k + 1) 0 - z k 0 - ((y (k + 1) 0 - y k 0) / E (temps (k + 1)) + (times (k + 1) - times k) *
        (isoKin n eta s0 (voce R d) (chaboche C g)).flow (y (k + 1) 0) (fun j => z (k + 1) j.succ) (times (k + 1)) (temps (k + 1)) 0)| ≤
          (times (k + 1) - times k) * (1e-10 / |E (temps (k + 1))|) ∧
      ∃ e, ∀ i : Fin (1 + nk), z (k + 1) i.succ - z k i.succ = (times (k + 1) - times k) *
        (isoKin n eta s0 (voce R d) (chaboche C g)).hist (y (k + 1) 0) (fun j => z (k + 1) j.succ) (times (k + 1)) (temps (k + 1)) e i) :
    ∀ k, k < nt → (∀ j, j ≠ 0 → z k j = y k j) ∧
      |z k 0 - (strains k - strains 0)| ≤ ∑ j ∈ Finset.range k, (times (j + 1) - times j) * (1e-10 / |E (temps (j + 1))|) := by
  have hle : ∀ k b, k + 1 < nt → (fun (k : ℕ) (_ : Unit) => times k) k b ≤ (fun (k : ℕ) (_ : Unit) => times k) (k + 1) b := fun k _ hk => (hg k hk).le
  -- the strain controlled history stays admissible
  have adm : ∀ k, k < nt → (0 ≤ y k 1 ∧ y k 1 ≤ R0) ∧ ∀ i : Fin nk, |y k (Fin.natAdd 1 i).succ| ≤ B i := by
    intro k
    induction k with
    | zero =>
      intro _
      rw [y0]
      exact ⟨⟨le_rfl, hR0⟩, fun i => by simpa using hB i⟩
    | succ k ih =>
      intro hk
      obtain ⟨hr, hx⟩ := ih (by omega)
      obtain ⟨ha, -, hR, hC⟩ := hp (k + 1) hk
      have hbe : IsBackwardEuler (β := Unit) (fun _ s x => (inelastic E (isoKin n eta s0 (voce R d) (chaboche C g)) s x
          ((fun _ _ => rate (k + 1)) () s) ((fun _ _ => temps (k + 1)) () s)).ydot) 2 (fun j _ => times (k + j)) (fun j _ => y (k + j)) := by
        intro j _ hj
        obtain rfl : j = 0 := by omega
        exact hy k hk
      have hτ : ∀ j b, j + 1 < 2 → (fun (j : ℕ) (_ : Unit) => times (k + j)) j b ≤ (fun (j : ℕ) (_ : Unit) => times (k + j)) (j + 1) b := by
        intro j _ hj
        obtain rfl : j = 0 := by omega
        exact (hg k hk).le
      refine ⟨?_, fun i => ?_⟩
      · exact C39_voce_range E n eta s0 R d (chaboche C g) (fun _ _ => rate (k + 1)) (fun _ _ => temps (k + 1)) 2 _ hτ _ hbe R0 (fun _ _ _ => ha.d)
          (fun _ _ _ => ⟨ha.R, hR.le⟩) (fun _ => hr) 1 () (by norm_num)
      · exact C40_chaboche E n eta s0 (voce R d) C g (fun _ _ => rate (k + 1)) (fun _ _ => temps (k + 1)) 2 _ hτ _ hbe i (B i)
          (fun _ _ _ => by rw [abs_of_nonneg (ha.C i)]; exact (hC i).le) (fun _ _ _ => ha.g i) (fun _ => hx i) 1 () (by norm_num)
  intro k
  induction k with
  | zero =>
    intro _
    rw [y0, z0]
    simp
  | succ k ih =>
    intro hk
    obtain ⟨ihh, ihs⟩ := ih (by omega)
    obtain ⟨hr, hx⟩ := adm k (by omega)
    obtain ⟨ha, hE, hR, hC⟩ := hp (k + 1) hk
    obtain ⟨hz1, e, hz2⟩ := hz k hk
    have hdt := sub_pos.2 (hg k hk)
    have hyk := hy k hk
    have heq : (fun j : Fin (1 + nk) => z (k + 1) j.succ) = fun j => y (k + 1) j.succ := by
      refine vc_frozen_unique n eta s0 R d C g (times (k + 1)) _ (y (k + 1) 0) (temps (k + 1)) e (rate (k + 1)) (fun j => y k j.succ) _ _ hdt.le
        ⟨le_rfl, ha.n, ha.eta, ha.s0, ha.R, ha.d, ha.C, ha.g⟩ ?_ (fun i => ?_) (fun i => ?_) (fun i => ?_)
      · rw [one_eq_iso] at hr
        rw [hR]
        exact hr
      · rw [hC i]; exact mul_le_mul_of_nonneg_right (hx i) (ha.g i)
      · have := hz2 i
        rw [ihh _ (Fin.succ_ne_zero i)] at this
        exact this
      · have := congrFun hyk i.succ
        simp only [inelastic, Pi.add_apply, Pi.smul_apply, smul_eq_mul, Fin.cons_succ] at this
        linarith
    refine ⟨fun j hj => ?_, ?_⟩
    · obtain ⟨i, rfl⟩ := Fin.exists_succ_eq.2 hj
      exact congrFun heq i
    · rw [Finset.sum_range_succ]
      rw [heq] at hz1
      have h0 := congrFun hyk 0
      simp only [inelastic, Pi.add_apply, Pi.smul_apply, smul_eq_mul, Fin.cons_zero] at h0
      have hfl : (isoKin n eta s0 (voce R d) (chaboche C g)).flow (y (k + 1) 0) (fun j => y (k + 1) j.succ) (times (k + 1)) (temps (k + 1)) (rate (k + 1)) =
          (isoKin n eta s0 (voce R d) (chaboche C g)).flow (y (k + 1) 0) (fun j => y (k + 1) j.succ) (times (k + 1)) (temps (k + 1)) 0 := rfl
      rw [hfl] at h0
      set F := (isoKin n eta s0 (voce R d) (chaboche C g)).flow (y (k + 1) 0) (fun j => y (k + 1) j.succ) (times (k + 1)) (temps (k + 1)) 0
      have h1 : (y (k + 1) 0 - y k 0) / E (temps (k + 1)) + (times (k + 1) - times k) * F = strains (k + 1) - strains k := by
        rw [← hrate k hk, h0]
        field_simp
        ring
      rw [h1] at hz1
      calc |z (k + 1) 0 - (strains (k + 1) - strains 0)|
          = |(z (k + 1) 0 - z k 0 - (strains (k + 1) - strains k)) + (z k 0 - (strains k - strains 0))| := by ring_nf
        _ ≤ _ := (abs_add_le _ _).trans (by linarith)

/-- **C136.** Strain control, then stress control. A strain controlled run of backward Euler (zero tolerances of the time integrator, no warning) in which test `b` has a Voce-Chaboche material; then
a stress controlled run, possibly of another batch, with other solver options and another block size, in which test `b'` has the same material, times and temperatures and is
driven by the stresses the first run returned for `b`. The second run goes through the same internal variables, and its strain is the recorded one (counted from the first
recorded strain), up to the tolerance of the strain rate: `Σ Δt · 1e-10 / |E|`. -/
theorem C136_there_and_back (c c' : Config) (hs : c.scheme = .backwardEuler) (hs' : c'.scheme = .backwardEuler) (hm : 0 ≤ c.miter) (hm' : 0 ≤ c'.miter)
    (hr : c.rtol = 0) (ha : c.atol = 0) (hr' : c'.rtol = 0) (ha' : c'.atol = 0) (model : β → Model (1 + nk + 1)) (model' : β' → Model (1 + nk + 1)) (nt : ℕ)
    (times strains temps : ℕ → β → ℝ) (times' stresses' temps' : ℕ → β' → ℝ) (blk blk' : ℤ) (hb : 0 < blk) (hb' : 0 < blk')
    (hg' : ∀ b, StrictGrid (nt - 1) fun k => times' k b) (res : Partial β (1 + nk + 1)) (res' : Partial β' (1 + nk + 1))
    (h : solveStrain c model nt times strains temps blk = .ok (res, false))
    (h' : solveStress c' model' nt times' stresses' temps' blk' = .ok (res', false)) (b : β) (b' : β')
    (hsame : ∀ k, k < nt → times' k b' = times k b ∧ temps' k b' = temps k b ∧ stresses' k b' = res.get k b 0)
    (E n eta s0 R d : ℝ → ℝ) (C g : Fin nk → ℝ → ℝ) (hmod : model b = inelastic E (isoKin n eta s0 (voce R d) (chaboche C g)))
    (hmod' : model' b' = inelastic E (isoKin n eta s0 (voce R d) (chaboche C g))) (R0 : ℝ) (B : Fin nk → ℝ)
    (hp : ∀ k, k < nt → VCAdmissible E n eta s0 R d C g (temps k b) ∧ E (temps k b) ≠ 0 ∧ R (temps k b) = R0 ∧ ∀ i, C i (temps k b) = B i * g i (temps k b))
    (hR0 : 0 ≤ R0) (hB : ∀ i, 0 ≤ B i) (k : ℕ) (hk : k < nt) :
    (∀ j, j ≠ 0 → res'.get k b' j = res.get k b j) ∧
    |res'.get k b' 0 - (strains k b - strains 0 b)| ≤ ∑ j ∈ Finset.range k, (times (j + 1) b - times j b) * (1e-10 / |E (temps (j + 1) b)|) := by
  have hgb : ∀ k, k + 1 < nt → times k b < times (k + 1) b := by
    intro k hk
    have := hg' b' k (by omega)
    simp only [(hsame k (by omega)).1, (hsame (k + 1) hk).1] at this
    exact this
  have hgS : StrictGrid (nt - 1) fun k => times k b := fun k hk => hgb k (by omega)
  obtain ⟨e, y0⟩ := strain_lane_backward c hs hm hr ha model nt times strains temps blk hb res h b _ hmod
  have z0 : res'.get 0 b' = 0 := by
    have := (C14_every_time_filled c' _ _ nt times' blk' hb' res' false h').2
    simp only [Partial.get]; rw [this]; rfl
  refine round_trip_core E n eta s0 R d C g nt (fun k => times k b) (fun k => strains k b) (fun k => temps k b) hgb R0 B hp hR0 hB
    (fun k => res.get k b) (fun k => res'.get k b') y0 z0 (fun k => rateFn nt (fun k => times k b) (fun k => strains k b) (times k b))
    (fun k hk => rateFn_grid hgS (fun k => strains k b) hk) (fun k hk => ?_) (fun k hk => ?_) k hk
  · have := e k () hk
    beta_reduce at this
    rw [dataFn_grid hgS (fun k => temps k b) hk (by omega)] at this
    exact this
  · obtain ⟨q1, w, -, q2⟩ := C78_inelastic_steps c' hs' hm' hr' ha' model' nt times' stresses' temps' blk' hb' hg' res' h' b' E _ hmod'
      (fun k hk => by rw [(hsame k hk).2.1]; exact (hp k hk).2.1) (fun _ _ _ _ _ => rfl) (fun _ _ _ _ _ => rfl) k hk
    obtain ⟨s1, s2, s3⟩ := hsame k (by omega)
    obtain ⟨t1, t2, t3⟩ := hsame (k + 1) hk
    simp only [s1, s3, t1, t2, t3] at q1 q2
    exact ⟨q1, w, q2⟩

/-- **C136.** The materials of the example, without kinematic hardening (`NoKinematicHardeningModel`). -/
theorem C136_no_kinematic (c c' : Config) (hs : c.scheme = .backwardEuler) (hs' : c'.scheme = .backwardEuler) (hm : 0 ≤ c.miter) (hm' : 0 ≤ c'.miter)
    (hr : c.rtol = 0) (ha : c.atol = 0) (hr' : c'.rtol = 0) (ha' : c'.atol = 0) (E n eta s0 R d : ℝ → ℝ) (nt : ℕ)
    (times strains temps : ℕ → β → ℝ) (blk blk' : ℤ) (hb : 0 < blk) (hb' : 0 < blk') (hg : ∀ b, StrictGrid (nt - 1) fun k => times k b)
    (res res' : Partial β (1 + 0 + 1)) (R0 : ℝ)
    (hp : ∀ k b, k < nt → 0 < E (temps k b) ∧ 0 < n (temps k b) ∧ 0 < eta (temps k b) ∧ 0 ≤ s0 (temps k b) ∧ 0 ≤ d (temps k b) ∧ R (temps k b) = R0) (hR0 : 0 ≤ R0)
    (h : solveStrain c (fun _ => inelastic E (isoKin n eta s0 (voce R d) noKinematic)) nt times strains temps blk = .ok (res, false))
    (h' : solveStress c' (fun _ => inelastic E (isoKin n eta s0 (voce R d) noKinematic)) nt times (fun k b => res.get k b 0) temps blk' = .ok (res', false))
    (k : ℕ) (b : β) (hk : k < nt) :
    res'.get k b 1 = res.get k b 1 ∧
    |res'.get k b 0 - (strains k b - strains 0 b)| ≤ ∑ j ∈ Finset.range k, (times (j + 1) b - times j b) * (1e-10 / E (temps (j + 1) b)) := by
  rw [noKinematic_eq_chaboche (fun i => i.elim0) fun i => i.elim0] at h h'
  obtain ⟨q1, q2⟩ := C136_there_and_back c c' hs hs' hm hm' hr ha hr' ha' _ _ nt times strains temps times _ temps blk blk' hb hb' hg res res' h h' b b
    (fun k _ => ⟨rfl, rfl, rfl⟩) E n eta s0 R d _ _ rfl rfl R0 (fun i => i.elim0) (fun k hk => by
      obtain ⟨h1, h2, h3, h4, h5, h6⟩ := hp k b hk
      exact ⟨⟨h1.le, h2, h3, h4, h6 ▸ hR0, h5, fun i => i.elim0, fun i => i.elim0⟩, h1.ne', h6, fun i => i.elim0⟩) hR0 (fun i => i.elim0) k hk
  refine ⟨q1 1 (by decide), q2.trans_eq (Finset.sum_congr rfl fun j hj => ?_)⟩
  rw [abs_of_pos (hp (j + 1) b (by have := Finset.mem_range.1 hj; omega)).1]

/-- **C136.** The same with `solve_both`: a test labelled 0 (strains) of the mixed batch reproduces the strain controlled run exactly, and a test labelled 1 that is driven by the stresses of the strain
controlled run retraces it as in `C136_there_and_back`, whatever the other tests of the mixed batch are. -/
theorem C136_both_at_once (c c' : Config) (hs : c.scheme = .backwardEuler) (hs' : c'.scheme = .backwardEuler) (hm : 0 ≤ c.miter) (hm' : 0 ≤ c'.miter)
    (hr : c.rtol = 0) (ha : c.atol = 0) (hr' : c'.rtol = 0) (ha' : c'.atol = 0) (model : β → Model (1 + nk + 1)) (model' : β' → Model (1 + nk + 1)) (nt : ℕ)
    (times strains temps : ℕ → β → ℝ) (times' temps' idata' : ℕ → β' → ℝ) (control : β' → ℝ) (blk blk' : ℤ) (hb : 0 < blk) (hb' : 0 < blk')
    (hg' : ∀ b, StrictGrid (nt - 1) fun k => times' k b) (res : Partial β (1 + nk + 1)) (res' : Partial β' (1 + nk + 1))
    (h : solveStrain c model nt times strains temps blk = .ok (res, false))
    (h' : solveBoth c' model' nt times' temps' idata' control blk' = .ok (res', false)) (b : β) (b' : β')
    (hsame : ∀ k, k < nt → times' k b' = times k b ∧ temps' k b' = temps k b)
    (E n eta s0 R d : ℝ → ℝ) (C g : Fin nk → ℝ → ℝ) (hmod : model b = inelastic E (isoKin n eta s0 (voce R d) (chaboche C g)))
    (hmod' : model' b' = inelastic E (isoKin n eta s0 (voce R d) (chaboche C g))) (R0 : ℝ) (B : Fin nk → ℝ)
    (hp : ∀ k, k < nt → VCAdmissible E n eta s0 R d C g (temps k b) ∧ E (temps k b) ≠ 0 ∧ R (temps k b) = R0 ∧ ∀ i, C i (temps k b) = B i * g i (temps k b))
    (hR0 : 0 ≤ R0) (hB : ∀ i, 0 ≤ B i) (k : ℕ) (hk : k < nt) :
    (control b' = 0 → (∀ k, k < nt → idata' k b' = strains k b) → res'.get k b' = res.get k b) ∧
    (control b' = 1 → (∀ k, k < nt → idata' k b' = res.get k b 0) → (∀ j, j ≠ 0 → res'.get k b' j = res.get k b j) ∧
      |res'.get k b' 0 - (strains k b - strains 0 b)| ≤ ∑ j ∈ Finset.range k, (times (j + 1) b - times j b) * (1e-10 / |E (temps (j + 1) b)|)) := by
  have hgb : ∀ k, k + 1 < nt → times k b < times (k + 1) b := by
    intro k hk
    have := hg' b' k (by omega)
    simp only [(hsame k (by omega)).1, (hsame (k + 1) hk).1] at this
    exact this
  have hgS : StrictGrid (nt - 1) fun k => times k b := fun k hk => hgb k (by omega)
  obtain ⟨e, y0⟩ := strain_lane_backward c hs hm hr ha model nt times strains temps blk hb res h b _ hmod
  have z0 : res'.get 0 b' = 0 := by
    have := (C14_every_time_filled c' _ _ nt times' blk' hb' res' false h').2
    simp only [Partial.get]; rw [this]; rfl
  have hstep : ∀ k, k + 1 < nt → res.get (k + 1) b = res.get k b + (times (k + 1) b - times k b) •
      (inelastic E (isoKin n eta s0 (voce R d) (chaboche C g)) (times (k + 1) b) (res.get (k + 1) b)
        (rateFn nt (fun k => times k b) (fun k => strains k b) (times (k + 1) b)) (temps (k + 1) b)).ydot := by
    intro k hk
    have := e k () hk
    beta_reduce at this
    rw [dataFn_grid hgS (fun k => temps k b) hk (by omega)] at this
    exact this
  obtain ⟨u0, u1, -⟩ := C79_both_steps c' hs' hm' hr' ha' model' nt times' temps' idata' control blk' hb' hg' res' h' b'
  constructor
  · intro h0 hd
    have hstep' := u0 h0
    rcases Nat.lt_or_ge 1 nt with h1 | h1
    · refine congrFun ((C74_history (β := Unit) E n eta s0 R d C g (fun _ => rateFn nt (fun k => times k b) fun k => strains k b)
        (fun _ => dataFn nt (fun k => times k b) fun k => temps k b) nt (fun k _ => times k b) (fun k _ hk => (hgb k hk).le) R0 B (fun k _ hk => ?_) 0
        (fun _ => ⟨⟨le_rfl, hR0⟩, fun i => by simpa using hB i⟩)).2 (fun k _ => res'.get k b') (fun k _ => res.get k b) (funext fun _ => z0) (funext fun _ => y0)
        (fun k _ hk => ?_) e k hk) ()
      · beta_reduce
        rw [dataFn_grid hgS (fun k => temps k b) hk h1]
        exact ⟨(hp k hk).1, (hp k hk).2.2⟩
      · have q := hstep' k hk
        simp only [hmod', (hsame k (by omega)).1, (hsame (k + 1) hk).1, (hsame (k + 1) hk).2, hd k (by omega), hd (k + 1) hk] at q
        beta_reduce
        rw [dataFn_grid hgS (fun k => temps k b) hk (by omega)]
        have hr := rateFn_grid hgS (fun k => strains k b) hk
        beta_reduce at hr
        rw [← hr, mul_div_cancel_left₀ _ (sub_pos.2 (hgb k hk)).ne'] at q
        exact q
    · obtain rfl : k = 0 := by omega
      rw [z0, y0]
  · intro h1 hd
    refine round_trip_core E n eta s0 R d C g nt (fun k => times k b) (fun k => strains k b) (fun k => temps k b) hgb R0 B hp hR0 hB
      (fun k => res.get k b) (fun k => res'.get k b') y0 z0 (fun k => rateFn nt (fun k => times k b) (fun k => strains k b) (times k b))
      (fun k hk => rateFn_grid hgS (fun k => strains k b) hk) hstep (fun k hk => ?_) k hk
    obtain ⟨w, q1, q2, q3⟩ := u1 h1 (fun k hk => by
      rw [hmod', (hsame k hk).2]
      exact rateAffine_inelastic _ _ (fun _ _ _ _ _ => rfl) (fun _ _ _ _ _ => rfl) _ _ _ (hp k hk).2.1) k hk
    have hu : (fun j : Fin (1 + nk) => Function.update (res'.get (k + 1) b') 0 (res.get (k + 1) b 0) j.succ) = fun j => res'.get (k + 1) b' j.succ := by
      funext j; rw [Function.update_of_ne (Fin.succ_ne_zero j)]
    simp only [hmod', (hsame k (by omega)).1, (hsame (k + 1) hk).1, (hsame (k + 1) hk).2, hd k (by omega), hd (k + 1) hk, inelastic, Fin.cons_zero,
      Function.update_self, hu] at q1 q2 q3
    have hdt := sub_pos.2 (hgb k hk)
    have hE := (hp (k + 1) hk).2.1
    constructor
    · rw [q1]
      have hfl : (isoKin n eta s0 (voce R d) (chaboche C g)).flow (res.get (k + 1) b 0) (fun j => res'.get (k + 1) b' j.succ) (times (k + 1) b) (temps (k + 1) b) w =
          (isoKin n eta s0 (voce R d) (chaboche C g)).flow (res.get (k + 1) b 0) (fun j => res'.get (k + 1) b' j.succ) (times (k + 1) b) (temps (k + 1) b) 0 := rfl
      rw [hfl] at q3
      set F := (isoKin n eta s0 (voce R d) (chaboche C g)).flow (res.get (k + 1) b 0) (fun j => res'.get (k + 1) b' j.succ) (times (k + 1) b) (temps (k + 1) b) 0
      set EE := E (temps (k + 1) b)
      set dt := times (k + 1) b - times k b
      have e1 : dt * w - ((res.get (k + 1) b 0 - res.get k b 0) / EE + dt * F) =
          dt * ((EE * (w - F) - (res.get (k + 1) b 0 - res.get k b 0) / dt) / EE) := by
        field_simp
        ring
      rw [e1, abs_mul, abs_of_pos hdt, abs_div]
      exact mul_le_mul_of_nonneg_left (div_le_div_of_nonneg_right q3 (abs_nonneg _)) hdt.le
    · refine ⟨w, fun i => ?_⟩
      have := q2 i.succ (Fin.succ_ne_zero i)
      simpa [inelastic] using this

/-- In elastic states the stress controlled model returns the elastic strain rate, no hardening and a zero Jacobian. -/
theorem elastic_stress_block [Nonempty β] (E n eta s0 R d : β → ℝ → ℝ) (C g : β → Fin nk → ℝ → ℝ) (nt : ℕ) (times stresses temps : ℕ → β → ℝ)
    (hgr : ∀ b, StrictGrid (nt - 1) fun k => times k b) (hn : ∀ k b, k < nt → E b (temps k b) ≠ 0 ∧ 1 < n b (temps k b) ∧ 0 < eta b (temps k b))
    (hel : ∀ k b, k < nt → |stresses k b| ≤ s0 b (temps k b))
    (hrate : ∀ k b, k + 1 < nt → 1e-10 * (times (k + 1) b - times k b) < |stresses (k + 1) b - stresses k b|)
    (k N : ℕ) (y : Fin (N + 1) → BVec β (1 + nk + 1) ℝ) (hN : 0 < N) (hk : k + N < nt) (hy : ∀ i b, ∀ j, j ≠ 0 → y i b j = 0) :
    let model : β → Model (1 + nk + 1) := fun b => inelastic (E b) (isoKin (n b) (eta b) (s0 b) (voce (R b) (d b)) (chaboche (C b) (g b)))
    ∀ p, ((stressForward (β := Fin (N + 1) × β) (fun p => model p.2) (fun p => rateFn nt (fun k => times k p.2) fun k => stresses k p.2)
        (fun p => dataFn nt (fun k => times k p.2) fun k => stresses k p.2) (fun p => dataFn nt (fun k => times k p.2) fun k => temps k p.2)
        (fun p => times (k + p.1.val) p.2) (fun p => y p.1 p.2)).1 p,
      (stressForward (β := Fin (N + 1) × β) (fun p => model p.2) (fun p => rateFn nt (fun k => times k p.2) fun k => stresses k p.2)
        (fun p => dataFn nt (fun k => times k p.2) fun k => stresses k p.2) (fun p => dataFn nt (fun k => times k p.2) fun k => temps k p.2)
        (fun p => times (k + p.1.val) p.2) (fun p => y p.1 p.2)).2 p) =
      (Fin.cons (rateFn nt (fun k => times k p.2) (fun k => stresses k p.2) (times (k + p.1.val) p.2) / E p.2 (temps (k + p.1.val) p.2)) 0, 0) := by
      intro model p
      have hT : ∀ (i : Fin (N + 1)) b, dataFn nt (fun k => times k b) (fun k => temps k b) (times (k + i.val) b) = temps (k + i.val) b := fun i b =>
        dataFn_grid (hgr b) (fun k => temps k b) (by have := i.2; omega) (by omega)
      have hS : ∀ (i : Fin (N + 1)) b, dataFn nt (fun k => times k b) (fun k => stresses k b) (times (k + i.val) b) = stresses (k + i.val) b := fun i b =>
        dataFn_grid (hgr b) (fun k => stresses k b) (by have := i.2; omega) (by omega)
      have flat : ∀ (p : Fin (N + 1) × β) (e : ℝ),
          (model p.2 (times (k + p.1.val) p.2) (imposed (stresses (k + p.1.val) p.2) (y p.1 p.2)) e (temps (k + p.1.val) p.2)).ydot = Fin.cons (E p.2 (temps (k + p.1.val) p.2) * e) 0 ∧
          (model p.2 (times (k + p.1.val) p.2) (imposed (stresses (k + p.1.val) p.2) (y p.1 p.2)) e (temps (k + p.1.val) p.2)).J = 0 := by
        intro p e
        have hlt : k + p.1.val < nt := by have := p.1.2; omega
        refine elastic_flat (E p.2) (n p.2) (eta p.2) (s0 p.2) (R p.2) (d p.2) (C p.2) (g p.2) _ e _ (hn _ p.2 hlt).2.1 (hn _ p.2 hlt).2.2 _ ?_ ?_
        · simpa [imposed] using hel _ p.2 hlt
        · intro j hj
          simp only [imposed]
          rw [Function.update_of_ne hj]
          exact hy p.1 p.2 j hj
      have key := C26_affine_exact (β := Fin (N + 1) × β) (fun p => model p.2)
        (fun p => rateFn nt (fun k => times k p.2) (fun k => stresses k p.2) (times (k + p.1.val) p.2))
        (fun p => stresses (k + p.1.val) p.2) (fun p => temps (k + p.1.val) p.2) (fun p => times (k + p.1.val) p.2) (fun p => y p.1 p.2)
        (fun p => E p.2 (temps (k + p.1.val) p.2)) (fun p => (hn _ p.2 (by have := p.1.2; omega)).1)
        (fun p e => by simp [model, inelastic, isoKin]) (fun p e => by
          have a1 := (flat p e).1
          have a2 := (flat p 0).1
          simp only [imposed] at a1 a2
          rw [a1, a2]
          simp)
      have hx : ∀ p : Fin (N + 1) × β, (stressSolve (fun p : Fin (N + 1) × β => model p.2)
          (fun p => rateFn nt (fun k => times k p.2) (fun k => stresses k p.2) (times (k + p.1.val) p.2))
          (fun p => stresses (k + p.1.val) p.2) (fun p => temps (k + p.1.val) p.2) (fun p => times (k + p.1.val) p.2) (fun p => y p.1 p.2)).x p 0 =
          rateFn nt (fun k => times k p.2) (fun k => stresses k p.2) (times (k + p.1.val) p.2) / E p.2 (temps (k + p.1.val) p.2) := by
        have h0 : ∀ p : Fin (N + 1) × β, (model p.2 (times (k + p.1.val) p.2) (Function.update (y p.1 p.2) 0 (stresses (k + p.1.val) p.2)) 0 (temps (k + p.1.val) p.2)).ydot 0 = 0 := by
          intro p
          have := (flat p 0).1
          simp only [imposed] at this
          rw [this]; simp
        obtain ⟨-, q2, q3⟩ := key
        simp only [h0, sub_zero] at q2 q3
        rcases q2 with q2 | q2
        · exact q2
        · exfalso
          let b0 : β := Classical.arbitrary β
          have q := q3 (⟨1, by omega⟩, b0)
          rw [q2, zero_sub, abs_neg, abs_div] at q
          have hE := abs_pos.2 (hn (k + 1) b0 (by omega)).1
          dsimp only at q
          rw [div_le_div_iff_of_pos_right hE] at q
          have hrg := rateFn_grid (hgr b0) (fun k => stresses k b0) (k := k) (by omega)
          have hdt : 0 < times (k + 1) b0 - times k b0 := sub_pos.2 (hgr b0 k (by omega))
          have hlt := hrate k b0 (by omega)
          rw [← hrg, abs_mul, abs_of_pos hdt, mul_comm] at hlt
          have := lt_of_mul_lt_mul_left hlt hdt.le
          linarith
      have hout : ∀ p : Fin (N + 1) × β, stressOut (model p.2) (stresses (k + p.1.val) p.2) (temps (k + p.1.val) p.2) (times (k + p.1.val) p.2) (y p.1 p.2)
          (rateFn nt (fun k => times k p.2) (fun k => stresses k p.2) (times (k + p.1.val) p.2) / E p.2 (temps (k + p.1.val) p.2)) =
          (Fin.cons (rateFn nt (fun k => times k p.2) (fun k => stresses k p.2) (times (k + p.1.val) p.2) / E p.2 (temps (k + p.1.val) p.2)) 0, 0) := by
        intro p
        obtain ⟨f1, f2⟩ := flat p (rateFn nt (fun k => times k p.2) (fun k => stresses k p.2) (times (k + p.1.val) p.2) / E p.2 (temps (k + p.1.val) p.2))
        simp only [stressOut]
        refine Prod.ext ?_ ?_
        · simp only [f1]
          funext i
          refine Fin.cases ?_ (fun i => ?_) i
          · simp
          · rw [Function.update_of_ne (Fin.succ_ne_zero i)]; simp
        · funext i j
          simp only [stressJac, f2]
          split_ifs <;> simp
      simp only [stressForward, hT, hS]
      rw [hx p]
      exact hout p

/-- **C136.** Elastic stress controlled tests are always solved: tests with their own Voce-Chaboche materials, every recorded stress within every initial yield stress met during the test, and every
stress rate above the tolerance `1e-10` of the solver for the strain rate (below it the solver keeps its initial guess zero). `solve_stress` returns the elastic strains `Σ Δσ_j / E(T_j)` and no hardening. -/
theorem C136_elastic_stress_solved (c : Config) (hs : c.scheme = .backwardEuler) (hr : c.rtol = 0) (ha : c.atol = 0) (hm : 2 ≤ c.miter) (hg : c.guessType = "zero") [Nonempty β]
    (E n eta s0 R d : β → ℝ → ℝ) (C g : β → Fin nk → ℝ → ℝ) (nt : ℕ) (hnt : 1 < nt) (times stresses temps : ℕ → β → ℝ) (hgr : ∀ b, StrictGrid (nt - 1) fun k => times k b)
    (hn : ∀ k b, k < nt → E b (temps k b) ≠ 0 ∧ 1 < n b (temps k b) ∧ 0 < eta b (temps k b)) (blk : ℤ) (hb : 0 < blk)
    (hel : ∀ k b, k < nt → |stresses k b| ≤ s0 b (temps k b))
    (hrate : ∀ k b, k + 1 < nt → 1e-10 * (times (k + 1) b - times k b) < |stresses (k + 1) b - stresses k b|) :
    ∃ res, solveStress c (fun b => inelastic (E b) (isoKin (n b) (eta b) (s0 b) (voce (R b) (d b)) (chaboche (C b) (g b)))) nt times stresses temps blk = .ok (res, false) ∧
      ∀ k b, k < nt → res.get k b 0 = ∑ j ∈ Finset.range k, (stresses (j + 1) b - stresses j b) / E b (temps (j + 1) b) ∧ ∀ j, j ≠ 0 → res.get k b j = 0 := by
  let model : β → Model (1 + nk + 1) := fun b => inelastic (E b) (isoKin (n b) (eta b) (s0 b) (voce (R b) (d b)) (chaboche (C b) (g b)))
  let X : ℕ → β → ℝ := fun k b => ∑ j ∈ Finset.range k, (stresses (j + 1) b - stresses j b) / E b (temps (j + 1) b)
  obtain ⟨res, h1, h2⟩ := integrate_flatB c hs hr ha hm hg (stressFunc model nt times stresses temps) nt (by omega) blk hb times
    (fun b => {y | ∀ j, j ≠ 0 → y j = 0})
    (fun k b => Fin.cons (rateFn nt (fun k => times k b) (fun k => stresses k b) (times k b) / E b (temps k b)) 0)
    (by
      intro k N y hN hk hy
      have q := elastic_stress_block E n eta s0 R d C g nt times stresses temps hgr hn hel hrate k N y hN hk hy
      refine Prod.ext ?_ ?_
      · funext i b
        exact congrArg Prod.fst (q (i, b))
      · funext i b
        exact congrArg Prod.snd (q (i, b)))
    (fun k b => Fin.cons (X k b) 0)
    (by
      intro k b _ j hj
      obtain ⟨j, rfl⟩ := Fin.exists_succ_eq.2 hj
      simp)
    (by
      intro k b hk
      funext i
      refine Fin.cases ?_ (fun i => ?_) i
      · simp only [Fin.cons_zero, Pi.add_apply, Pi.smul_apply, smul_eq_mul, X]
        rw [Finset.sum_range_succ]
        have := rateFn_grid (hgr b) (fun k => stresses k b) hk
        beta_reduce at this
        rw [← this]
        ring
      · simp)
  refine ⟨res, ?_, fun k b hk => ?_⟩
  · unfold solveStress
    have h0 : (0 : β → Fin (1 + nk + 1) → ℝ) = fun b => Fin.cons (X 0 b) 0 := by
      funext b i
      refine Fin.cases ?_ (fun i => ?_) i
      · simp [X]
      · simp
    rw [h0]; exact h1
  · rw [h2 k hk]
    refine ⟨rfl, fun j hj => ?_⟩
    obtain ⟨j, rfl⟩ := Fin.exists_succ_eq.2 hj
    rfl

/-- **C136.** Elastic mixed batches are always solved: tests with their own Voce-Chaboche materials, labelled 0 or 1; the recorded stresses, and the elastically computed stresses `S` of the tests labelled
0, stay within the initial yield stresses. (The solver for the strain rate also runs, and its result is dropped, on the tests labelled 0, with their strains in place of stresses: hence the assumptions on all `idata`.) -/
theorem C136_elastic_both_solved (c : Config) (hs : c.scheme = .backwardEuler) (hr : c.rtol = 0) (ha : c.atol = 0) (hm : 2 ≤ c.miter) (hg : c.guessType = "zero") [Nonempty β]
    (E n eta s0 R d : β → ℝ → ℝ) (C g : β → Fin nk → ℝ → ℝ) (nt : ℕ) (hnt : 1 < nt) (times temps idata : ℕ → β → ℝ) (control : β → ℝ)
    (hc : ∀ b, control b = 0 ∨ control b = 1) (hgr : ∀ b, StrictGrid (nt - 1) fun k => times k b)
    (hn : ∀ k b, k < nt → E b (temps k b) ≠ 0 ∧ 1 < n b (temps k b) ∧ 0 < eta b (temps k b)) (blk : ℤ) (hb : 0 < blk)
    (hel : ∀ k b, k < nt → |idata k b| ≤ s0 b (temps k b))
    (hrate : ∀ k b, k + 1 < nt → 1e-10 * (times (k + 1) b - times k b) < |idata (k + 1) b - idata k b|) (S : ℕ → β → ℝ)
    (hS : ∀ k b, S k b = ∑ j ∈ Finset.range k, E b (temps (j + 1) b) * (idata (j + 1) b - idata j b))
    (hel0 : ∀ j k b, control b = 0 → j < nt → k < nt → |S j b| ≤ s0 b (temps k b)) :
    ∃ res, solveBoth c (fun b => inelastic (E b) (isoKin (n b) (eta b) (s0 b) (voce (R b) (d b)) (chaboche (C b) (g b)))) nt times temps idata control blk = .ok (res, false) ∧
      ∀ k b, k < nt → (control b = 0 → res.get k b 0 = S k b) ∧
        (control b = 1 → res.get k b 0 = ∑ j ∈ Finset.range k, (idata (j + 1) b - idata j b) / E b (temps (j + 1) b)) ∧ ∀ j, j ≠ 0 → res.get k b j = 0 := by
  classical
  let model : β → Model (1 + nk + 1) := fun b => inelastic (E b) (isoKin (n b) (eta b) (s0 b) (voce (R b) (d b)) (chaboche (C b) (g b)))
  let X : ℕ → β → ℝ := fun k b => if control b = 0 then S k b else ∑ j ∈ Finset.range k, (idata (j + 1) b - idata j b) / E b (temps (j + 1) b)
  obtain ⟨res, h1, h2⟩ := integrate_flatB c hs hr ha hm hg (bothFunc model nt times idata temps control) nt (by omega) blk hb times
    (fun b => {y | (control b = 0 → ∀ k, k < nt → |y 0| ≤ s0 b (temps k b)) ∧ ∀ j, j ≠ 0 → y j = 0})
    (fun k b => Fin.cons (if control b = 0 then E b (temps k b) * rateFn nt (fun k => times k b) (fun k => idata k b) (times k b)
      else rateFn nt (fun k => times k b) (fun k => idata k b) (times k b) / E b (temps k b)) 0)
    (by
      intro k N y hN hk hy
      have q := elastic_stress_block E n eta s0 R d C g nt times idata temps hgr hn hel hrate k N y hN hk fun i b => (hy i b).2
      have sel : ∀ p : Fin (N + 1) × β, _ := fun p => C27_selection (β := Fin (N + 1) × β) (fun p => model p.2)
        (fun p => rateFn nt (fun k => times k p.2) fun k => idata k p.2)
        (fun p => dataFn nt (fun k => times k p.2) fun k => idata k p.2) (fun p => dataFn nt (fun k => times k p.2) fun k => temps k p.2)
        (fun p => control p.2) (fun p => times (k + p.1.val) p.2) (fun p => y p.1 p.2) p
      have hout : ∀ (i : Fin (N + 1)) (b : β), ((bothFunc model nt times idata temps control (N + 1) (fun i => times (k + i.val)) y).1 i b,
          (bothFunc model nt times idata temps control (N + 1) (fun i => times (k + i.val)) y).2 i b) =
          (Fin.cons (if control b = 0 then E b (temps (k + i.val) b) * rateFn nt (fun k => times k b) (fun k => idata k b) (times (k + i.val) b)
            else rateFn nt (fun k => times k b) (fun k => idata k b) (times (k + i.val) b) / E b (temps (k + i.val) b)) 0, 0) := by
        intro i b
        have hlt : k + i.val < nt := by have := i.2; omega
        simp only [bothFunc]
        rcases hc b with h0 | h0
        · rw [((sel (i, b)).1 h0).1, ((sel (i, b)).1 h0).2, if_pos h0]
          dsimp only
          rw [dataFn_grid (hgr b) (fun k => temps k b) hlt hnt]
          obtain ⟨e1, e2⟩ := elastic_flat (E b) (n b) (eta b) (s0 b) (R b) (d b) (C b) (g b) (times (k + i.val) b)
            (rateFn nt (fun k => times k b) (fun k => idata k b) (times (k + i.val) b)) (temps (k + i.val) b)
            (hn _ b hlt).2.1 (hn _ b hlt).2.2 (y i b) ((hy i b).1 h0 _ hlt) (hy i b).2
          exact Prod.ext e1 e2
        · have h0' : control b ≠ 0 := by rw [h0]; norm_num
          rw [((sel (i, b)).2.1 h0).1, ((sel (i, b)).2.1 h0).2, if_neg h0']
          exact q (i, b)
      refine Prod.ext ?_ ?_
      · funext i b
        exact congrArg Prod.fst (hout i b)
      · funext i b
        exact congrArg Prod.snd (hout i b))
    (fun k b => Fin.cons (X k b) 0)
    (by
      intro k b hk
      refine ⟨fun h0 i hi => ?_, fun j hj => ?_⟩
      · simp only [Fin.cons_zero, X, if_pos h0]
        exact hel0 k i b h0 hk hi
      · obtain ⟨j, rfl⟩ := Fin.exists_succ_eq.2 hj
        simp)
    (by
      intro k b hk
      have hr := rateFn_grid (hgr b) (fun k => idata k b) hk
      beta_reduce at hr
      funext i
      refine Fin.cases ?_ (fun i => ?_) i
      · simp only [Fin.cons_zero, Pi.add_apply, Pi.smul_apply, smul_eq_mul, X]
        by_cases h0 : control b = 0
        · rw [if_pos h0, if_pos h0, if_pos h0, hS, hS, Finset.sum_range_succ, ← hr]
          ring
        · rw [if_neg h0, if_neg h0, if_neg h0, Finset.sum_range_succ, ← hr]
          ring
      · simp)
  refine ⟨res, ?_, fun k b hk => ?_⟩
  · unfold solveBoth
    have h0 : (0 : β → Fin (1 + nk + 1) → ℝ) = fun b => Fin.cons (X 0 b) 0 := by
      funext b i
      refine Fin.cases ?_ (fun i => ?_) i
      · simp [X, hS]
      · simp
    rw [h0]; exact h1
  · rw [h2 k hk]
    refine ⟨fun h0 => by simp [X, h0], fun h0 => by simp [X, h0], fun j hj => ?_⟩
    obtain ⟨j, rfl⟩ := Fin.exists_succ_eq.2 hj
    rfl

/-- Non-vacuity of C136: a test is pulled to strain `k / 100` (elastically, `E = 100`), one step at a time with PCR; the stresses it returns, `k`, drive a stress controlled test, and, together with the strains, a
mixed batch, both with blocks of three and Thomas' algorithm; both runs succeed, and the stress controlled tests return the strain, here `3 / 100` at `k = 3`. -/
example : ∃ res res' res'',
    let M : Model (1 + 1 + 1) := inelastic (fun _ => 100) (isoKin (fun _ => 5) (fun _ => 300) (fun _ => 10) (voce (fun _ => 100) (fun _ => 10))
      (chaboche (nback := 1) (fun _ _ => 1000) (fun _ _ => 2)))
    let c : Config := { scheme := .backwardEuler, method := .direct .pcr, rtol := 0, atol := 0, miter := 50, throwOnFail := true, guessType := "zero" }
    let c' : Config := { scheme := .backwardEuler, method := .direct .thomas, rtol := 0, atol := 0, miter := 50, throwOnFail := true, guessType := "zero" }
    solveStrain (β := Unit) c (fun _ => M) 5 (fun k _ => k) (fun k _ => k / 100) (fun _ _ => 300) 1 = .ok (res, false) ∧
    solveStress (β := Unit) c' (fun _ => M) 5 (fun k _ => k) (fun k _ => k) (fun _ _ => 300) 3 = .ok (res', false) ∧
    solveBoth (β := Bool) c' (fun _ => M) 5 (fun k _ => k) (fun _ _ => 300) (fun k b => if b then k else k / 100) (fun b => if b then 1 else 0) 3 = .ok (res'', false) ∧
    |res'.get 3 () 0 - 3 / 100| ≤ 3e-12 ∧ res''.get 3 false = res.get 3 () ∧ |res''.get 3 true 0 - 3 / 100| ≤ 3e-12 := by
  set M : Model (1 + 1 + 1) := inelastic (fun _ => 100) (isoKin (fun _ => 5) (fun _ => 300) (fun _ => 10) (voce (fun _ => 100) (fun _ => 10))
      (chaboche (nback := 1) (fun _ _ => 1000) (fun _ _ => 2))) with hM
  set c : Config := { scheme := .backwardEuler, method := .direct .pcr, rtol := 0, atol := 0, miter := 50, throwOnFail := true, guessType := "zero" } with hc
  set c' : Config := { scheme := .backwardEuler, method := .direct .thomas, rtol := 0, atol := 0, miter := 50, throwOnFail := true, guessType := "zero" } with hc'
  have grid : StrictGrid (5 - 1) fun k => (k : ℝ) := by intro k _; push_cast; linarith
  have five : ∀ k : ℕ, k < 5 → (k : ℝ) ≤ 4 := fun k hk => by exact_mod_cast Nat.lt_succ_iff.1 hk
  obtain ⟨res, h1, e1⟩ := C72_elastic_always_solved (β := Unit) c rfl rfl rfl (by norm_num [hc]) rfl (fun _ _ => 100) (fun _ _ => 5) (fun _ _ => 300) (fun _ _ => 10) (fun _ _ => 100) (fun _ _ => 10)
    (fun _ (_ : Fin 1) _ => 1000) (fun _ _ _ => 2) 5 (by norm_num) (fun k _ => (k : ℝ)) (fun k _ => (k : ℝ) / 100) (fun _ _ => 300)
    (fun _ => grid) (by intros; norm_num) 1 (by norm_num) (fun k _ => (k : ℝ)) (by
      intro k b
      induction k with
      | zero => simp
      | succ k ih => rw [Finset.sum_range_succ, ← ih]; push_cast; ring) (by
      intro j k b hj _
      rw [Nat.abs_cast]
      linarith [five j hj])
  obtain ⟨res', h2, -⟩ := C136_elastic_stress_solved (β := Unit) c' rfl rfl rfl (by norm_num [hc']) rfl (fun _ _ => 100) (fun _ _ => 5) (fun _ _ => 300) (fun _ _ => 10) (fun _ _ => 100) (fun _ _ => 10)
    (fun _ (_ : Fin 1) _ => 1000) (fun _ _ _ => 2) 5 (by norm_num) (fun k _ => (k : ℝ)) (fun k _ => (k : ℝ)) (fun _ _ => 300)
    (fun _ => grid) (by intros; norm_num) 3 (by norm_num) (by
      intro k b hk
      rw [Nat.abs_cast]
      linarith [five k hk]) (by
      intro k b _
      push_cast
      rw [add_sub_cancel_left]
      norm_num)
  obtain ⟨res'', h3, -⟩ := C136_elastic_both_solved (β := Bool) c' rfl rfl rfl (by norm_num [hc']) rfl (fun _ _ => 100) (fun _ _ => 5) (fun _ _ => 300) (fun _ _ => 10) (fun _ _ => 100) (fun _ _ => 10)
    (fun _ (_ : Fin 1) _ => 1000) (fun _ _ _ => 2) 5 (by norm_num) (fun k _ => (k : ℝ)) (fun _ _ => 300) (fun k b => if b then (k : ℝ) else k / 100) (fun b => if b then 1 else 0)
    (by intro b; cases b <;> simp) (fun _ => grid) (by intros; norm_num) 3 (by norm_num) (by
      intro k b hk
      have := five k hk
      have h0 : (0 : ℝ) ≤ k := Nat.cast_nonneg k
      cases b
      · simp only [Bool.false_eq_true, if_false]
        rw [abs_of_nonneg (by positivity)]
        linarith
      · simp only [if_true]
        rw [abs_of_nonneg h0]
        linarith) (by
      intro k b _
      push_cast
      cases b
      · simp only [Bool.false_eq_true, if_false]
        rw [← sub_div, add_sub_cancel_left]
        norm_num
      · simp only [if_true]
        rw [add_sub_cancel_left]
        norm_num) (fun k b => if b then 100 * (k : ℝ) else k) (by
      intro k b
      induction k with
      | zero => simp
      | succ k ih =>
        rw [Finset.sum_range_succ, ← ih]
        cases b
        · simp only [Bool.false_eq_true, if_false]; push_cast; ring
        · simp only [if_true]; push_cast; ring) (by
      intro j k b h0 hj _
      cases b
      · simp only [Bool.false_eq_true, if_false]
        rw [Nat.abs_cast]
        linarith [five j hj]
      · simp at h0)
  have adm : ∀ k, k < 5 → VCAdmissible (fun _ => 100) (fun _ => 5) (fun _ => 300) (fun _ => 10) (fun _ => 100) (fun _ => 10) (fun (_ : Fin 1) (_ : ℝ) => 1000) (fun _ _ => 2)
      ((fun (_ : ℕ) (_ : Unit) => (300 : ℝ)) k ()) ∧ (fun _ : ℝ => (100 : ℝ)) ((fun (_ : ℕ) (_ : Unit) => (300 : ℝ)) k ()) ≠ 0 ∧
      (fun _ : ℝ => (100 : ℝ)) ((fun (_ : ℕ) (_ : Unit) => (300 : ℝ)) k ()) = 100 ∧
      ∀ i : Fin 1, (fun (_ : Fin 1) (_ : ℝ) => (1000 : ℝ)) i ((fun (_ : ℕ) (_ : Unit) => (300 : ℝ)) k ()) =
        (fun _ : Fin 1 => (500 : ℝ)) i * (fun (_ : Fin 1) (_ : ℝ) => (2 : ℝ)) i ((fun (_ : ℕ) (_ : Unit) => (300 : ℝ)) k ()) := fun k _ =>
    ⟨⟨by norm_num, by norm_num, by norm_num, by norm_num, by norm_num, by norm_num, fun _ => by norm_num, fun _ => by norm_num⟩, by norm_num, rfl, fun _ => by norm_num⟩
  have r1 := C136_there_and_back c c' rfl rfl (by norm_num [hc]) (by norm_num [hc']) rfl rfl rfl rfl _ _ 5 _ _ _ _ _ _ 1 3 (by norm_num) (by norm_num) (fun _ => grid) res res' h1 h2 () ()
    (fun k hk => ⟨rfl, rfl, ((e1 k () hk).1).symm⟩) _ _ _ _ _ _ _ _ rfl rfl 100 (fun _ => 500) adm (by norm_num) (fun _ => by norm_num) 3 (by norm_num)
  have r2 := C136_both_at_once c c' rfl rfl (by norm_num [hc]) (by norm_num [hc']) rfl rfl rfl rfl _ _ 5 _ _ _ _ _ _ _ 1 3 (by norm_num) (by norm_num) (fun _ => grid) res res'' h1 h3 () false
    (fun k hk => ⟨rfl, rfl⟩) _ _ _ _ _ _ _ _ rfl rfl 100 (fun _ => 500) adm (by norm_num) (fun _ => by norm_num) 3 (by norm_num)
  have r3 := C136_both_at_once c c' rfl rfl (by norm_num [hc]) (by norm_num [hc']) rfl rfl rfl rfl _ _ 5 _ _ _ _ _ _ _ 1 3 (by norm_num) (by norm_num) (fun _ => grid) res res'' h1 h3 () true
    (fun k hk => ⟨rfl, rfl⟩) _ _ _ _ _ _ _ _ rfl rfl 100 (fun _ => 500) adm (by norm_num) (fun _ => by norm_num) 3 (by norm_num)
  refine ⟨res, res', res'', h1, h2, h3, ?_, r2.1 (by simp) (fun k hk => by simp), ?_⟩
  · have := r1.2
    norm_num [Finset.sum_range_succ] at this
    norm_num
    exact this
  · have := (r3.2 (by simp) (fun k hk => by simpa using ((e1 k () hk).1).symm)).2
    norm_num [Finset.sum_range_succ] at this
    norm_num
    exact this

end Pyoptmat.Props
