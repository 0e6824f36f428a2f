import Mathlib.Analysis.Calculus.ContDiff.Comp
import Mathlib.Analysis.Calculus.ContDiff.Operations
import Mathlib.Analysis.Calculus.ContDiff.RCLike
import Mathlib.Analysis.Calculus.FDeriv.Prod
import Mathlib.Analysis.Calculus.FDeriv.Add

/-! Helper lemmas: derivatives of the iterates of a fixed-point iteration that converges superlinearly. -/

namespace Pyoptmat.Spec

open Filter Topology

variable {Z X : Type*} [NormedAddCommGroup Z] [NormedSpace ℝ Z] [NormedAddCommGroup X] [NormedSpace ℝ X]

/-- iterates depending on parameters -/
def paramIter (Phi : Z × X → X) (x0 : Z → X) : ℕ → Z → X
  | 0, z => x0 z
  | k + 1, z => Phi (z, paramIter Phi x0 k z)

theorem paramIter_contDiffAt {Phi : Z × X → X} {x0 : Z → X} {zs : Z} (h0 : ContDiffAt ℝ 1 x0 zs) (hk : ∀ k, ContDiffAt ℝ 1 Phi (zs, paramIter Phi x0 k zs)) (k : ℕ) :
    ContDiffAt ℝ 1 (paramIter Phi x0 k) zs := by
  induction k with
  | zero => exact h0
  | succ k ih => exact ContDiffAt.comp (g := Phi) (f := fun z => (z, paramIter Phi x0 k z)) zs (hk k) (contDiffAt_id.prodMk ih)

/-- a geometric recursion with a small constant -/
theorem geometric_le {e : ℕ → ℝ} {eta C : ℝ} (h0 : 0 ≤ eta) (h1 : eta ≤ 1 / 2) (hC : 0 ≤ C) (h : ∀ k, e (k + 1) ≤ eta * (C + e k)) (he : ∀ k, 0 ≤ e k) (k : ℕ) :
    e k ≤ (1 / 2) ^ k * e 0 + 2 * eta * C := by
  induction k with
  | zero => simp; positivity
  | succ k ih =>
    refine (h k).trans ?_
    have h2 : 0 ≤ (1 / 2 : ℝ) ^ k * e 0 := mul_nonneg (by positivity) (he 0)
    rw [pow_succ]
    nlinarith [mul_nonneg h0 hC, mul_le_mul_of_nonneg_left ih h0, mul_nonneg (mul_nonneg h0 hC) (sub_nonneg.2 h1), mul_nonneg h2 (sub_nonneg.2 h1)]

/-- If the iterates converge at `zs` and the iteration map does not depend on the iterate to first order at the limit, then near `zs` all late iterates are close to the limit, differentiable, and their
derivatives are close to that of the limit. -/
theorem paramIter_limit {Phi : Z × X → X} {x0 : Z → X} {zs : Z} {xs : X} {D : Z →L[ℝ] X} (h0 : ContDiffAt ℝ 1 x0 zs) (hk : ∀ k, ContDiffAt ℝ 1 Phi (zs, paramIter Phi x0 k zs))
    (hs : ContDiffAt ℝ 1 Phi (zs, xs)) (hfix : Phi (zs, xs) = xs) (hD : HasFDerivAt Phi (D.coprod (0 : X →L[ℝ] X)) (zs, xs)) (hconv : Tendsto (fun k => paramIter Phi x0 k zs) atTop (𝓝 xs))
    {eps : ℝ} (heps : 0 < eps) :
    ∃ N : ℕ, ∀ᶠ z in 𝓝 zs, ∀ k ≥ N, DifferentiableAt ℝ (paramIter Phi x0 k) z ∧ ‖paramIter Phi x0 k z - xs‖ < eps ∧ ‖fderiv ℝ (paramIter Phi x0 k) z - D‖ < eps := by
  set C : ℝ := 1 + ‖D‖ with hC
  have hC0 : 0 < C := by positivity
  set eta : ℝ := min (1 / 2) (eps / (8 * C)) with heta
  have eta0 : 0 < eta := by positivity
  have eta1 : eta ≤ 1 / 2 := min_le_left _ _
  have eta2 : 2 * eta * C ≤ eps / 4 := by
    have : eta ≤ eps / (8 * C) := min_le_right _ _
    have h2 := mul_le_mul_of_nonneg_right this hC0.le
    have h3 : eps / (8 * C) * C = eps / 8 := by field_simp
    nlinarith
  have hDe : fderiv ℝ Phi (zs, xs) = D.coprod (0 : X →L[ℝ] X) := hD.fderiv
  -- a neighbourhood of the limit
  have e1 : ∀ᶠ w in 𝓝 (zs, xs), DifferentiableAt ℝ Phi w := (hs.eventually (by simp)).mono fun w hw => hw.differentiableAt (by simp)
  have e2 : ∀ᶠ w in 𝓝 (zs, xs), ‖fderiv ℝ Phi w - D.coprod (0 : X →L[ℝ] X)‖ < eta := by
    have c : ContinuousAt (fderiv ℝ Phi) (zs, xs) := (hs.fderiv_right (m := 0) (by simp)).continuousAt
    have := (Metric.tendsto_nhds.1 c) eta eta0
    refine this.mono fun w hw => ?_
    rwa [dist_eq_norm, hDe] at hw
  have e3 : ∀ᶠ w : (Z × X) × (Z × X) in 𝓝 ((zs, xs), (zs, xs)), ‖Phi w.1 - Phi w.2 - (D.coprod (0 : X →L[ℝ] X)) (w.1 - w.2)‖ ≤ eta * ‖w.1 - w.2‖ := by
    have st := hs.hasStrictFDerivAt (by simp)
    rw [hDe] at st
    exact st.isLittleO.def eta0
  obtain ⟨d1, d1pos, hd1⟩ := Metric.eventually_nhds_iff.1 (e1.and e2)
  obtain ⟨d2, d2pos, hd2⟩ := Metric.eventually_nhds_iff.1 e3
  set del : ℝ := min (min d1 d2) eps with hdel
  have del0 : 0 < del := by positivity
  have del1 : del ≤ d1 := (min_le_left _ _).trans (min_le_left _ _)
  have del2 : del ≤ d2 := (min_le_left _ _).trans (min_le_right _ _)
  have del3 : del ≤ eps := min_le_right _ _
  -- from which update on
  obtain ⟨N0, hN0⟩ := (Metric.tendsto_atTop.1 hconv) del del0
  have hN0' := hN0 N0 le_rfl
  have cN := paramIter_contDiffAt h0 hk N0
  set M : ℝ := ‖fderiv ℝ (paramIter Phi x0 N0) zs - D‖ + 1 with hM
  have M0 : 0 < M := by positivity
  obtain ⟨j0, hj0⟩ := exists_pow_lt_of_lt_one (show 0 < eps / (4 * M) by positivity) (show (1 / 2 : ℝ) < 1 by norm_num)
  -- the neighbourhood of `zs`
  have z1 : ∀ᶠ z in 𝓝 zs, dist z zs < del := Metric.eventually_nhds_iff.2 ⟨del, del0, fun _ h => h⟩
  have z2 : ∀ᶠ z in 𝓝 zs, ‖paramIter Phi x0 N0 z - xs‖ < del := by
    have := cN.continuousAt.eventually (p := fun x => dist x (paramIter Phi x0 N0 zs) < del - dist (paramIter Phi x0 N0 zs) xs) (Metric.eventually_nhds_iff.2 ⟨del - dist (paramIter Phi x0 N0 zs) xs, by linarith, fun _ h => h⟩)
    refine this.mono fun z hz => ?_
    rw [← dist_eq_norm]
    exact (dist_triangle _ (paramIter Phi x0 N0 zs) _).trans_lt (by linarith)
  have z3 : ∀ᶠ z in 𝓝 zs, ‖Phi (z, xs) - xs‖ < del / 2 := by
    have c : ContinuousAt (fun z => Phi (z, xs)) zs := ContinuousAt.comp (g := Phi) (f := fun z => (z, xs)) hs.continuousAt (by fun_prop)
    have := c.eventually (p := fun x => dist x (Phi (zs, xs)) < del / 2) (Metric.eventually_nhds_iff.2 ⟨del / 2, by linarith, fun _ h => h⟩)
    refine this.mono fun z hz => ?_
    rwa [hfix, dist_eq_norm] at hz
  have z4 : ∀ᶠ z in 𝓝 zs, DifferentiableAt ℝ (paramIter Phi x0 N0) z := (cN.eventually (by simp)).mono fun w hw => hw.differentiableAt (by simp)
  have z5 : ∀ᶠ z in 𝓝 zs, ‖fderiv ℝ (paramIter Phi x0 N0) z - D‖ < M := by
    have c : ContinuousAt (fun z => ‖fderiv ℝ (paramIter Phi x0 N0) z - D‖) zs := ((cN.fderiv_right (m := 0) (by simp)).continuousAt.sub continuousAt_const).norm
    exact c.eventually_lt continuousAt_const (by rw [hM]; linarith)
  refine ⟨N0 + j0, ?_⟩
  filter_upwards [z1, z2, z3, z4, z5] with z hz1 hz2 hz3 hz4 hz5
  have inball : ∀ x, ‖x - xs‖ < del → dist ((z, x) : Z × X) (zs, xs) < del := by
    intro x hx
    rw [Prod.dist_eq]
    exact max_lt hz1 (by rw [dist_eq_norm]; exact hx)
  -- the iterates stay in the ball
  have stay : ∀ j, ‖paramIter Phi x0 (N0 + j) z - xs‖ < del := by
    intro j
    induction j with
    | zero => exact hz2
    | succ j ih =>
      set x := paramIter Phi x0 (N0 + j) z with hx
      have a := inball x ih
      have b := inball xs (by rw [sub_self, norm_zero]; exact del0)
      have := hd2 (y := ((z, x), (z, xs))) (by rw [Prod.dist_eq]; exact max_lt (a.trans_le del2) (b.trans_le del2))
      simp only [Prod.mk_sub_mk, sub_self, ContinuousLinearMap.coprod_apply, map_zero, ContinuousLinearMap.zero_apply, add_zero, sub_zero, Prod.norm_mk, norm_zero] at this
      rw [max_eq_right (norm_nonneg _)] at this
      have e : paramIter Phi x0 (N0 + (j + 1)) z - xs = (Phi (z, x) - Phi (z, xs)) + (Phi (z, xs) - xs) := by
        rw [← Nat.add_assoc, paramIter]; abel
      rw [e]
      have h5 : eta * ‖x - xs‖ ≤ 1 / 2 * del := mul_le_mul eta1 ih.le (norm_nonneg _) (by norm_num)
      exact (norm_add_le _ _).trans_lt (by linarith)
  -- the derivatives
  have dstep : ∀ j, DifferentiableAt ℝ (paramIter Phi x0 (N0 + j)) z → HasFDerivAt (paramIter Phi x0 (N0 + (j + 1)))
      ((fderiv ℝ Phi (z, paramIter Phi x0 (N0 + j) z)).comp ((ContinuousLinearMap.id ℝ Z).prod (fderiv ℝ (paramIter Phi x0 (N0 + j)) z))) z := by
    intro j hj
    have a := (hd1 ((inball _ (stay j)).trans_le del1)).1.hasFDerivAt
    have b : HasFDerivAt (fun z => (z, paramIter Phi x0 (N0 + j) z)) ((ContinuousLinearMap.id ℝ Z).prod (fderiv ℝ (paramIter Phi x0 (N0 + j)) z)) z := (hasFDerivAt_id z).prodMk hj.hasFDerivAt
    exact HasFDerivAt.comp (g := Phi) z a b
  have diff : ∀ j, DifferentiableAt ℝ (paramIter Phi x0 (N0 + j)) z := by
    intro j
    induction j with
    | zero => exact hz4
    | succ j ih => exact (dstep j ih).differentiableAt
  have recur : ∀ j, ‖fderiv ℝ (paramIter Phi x0 (N0 + (j + 1))) z - D‖ ≤ eta * (C + ‖fderiv ℝ (paramIter Phi x0 (N0 + j)) z - D‖) := by
    intro j
    set Dk := fderiv ℝ (paramIter Phi x0 (N0 + j)) z with hDk
    have e : fderiv ℝ (paramIter Phi x0 (N0 + (j + 1))) z - D = (fderiv ℝ Phi (z, paramIter Phi x0 (N0 + j) z) - D.coprod (0 : X →L[ℝ] X)).comp ((ContinuousLinearMap.id ℝ Z).prod Dk) := by
      rw [(dstep j (diff j)).fderiv, ContinuousLinearMap.sub_comp]
      congr 1
      ext v
      simp
    rw [e]
    refine (ContinuousLinearMap.opNorm_comp_le _ _).trans ?_
    have h1 : ‖(ContinuousLinearMap.id ℝ Z).prod Dk‖ ≤ C + ‖Dk - D‖ := by
      have i2 : ‖Dk‖ ≤ ‖D‖ + ‖Dk - D‖ := by
        have := norm_add_le D (Dk - D)
        rwa [add_sub_cancel] at this
      have i3 := norm_nonneg D
      have i4 := norm_nonneg (Dk - D)
      refine ContinuousLinearMap.opNorm_le_bound _ (by rw [hC]; linarith) fun v => ?_
      rw [ContinuousLinearMap.prod_apply, Prod.norm_mk]
      refine max_le ?_ ?_
      · rw [ContinuousLinearMap.id_apply]
        exact le_mul_of_one_le_left (norm_nonneg _) (by rw [hC]; linarith)
      · refine (Dk.le_opNorm v).trans (mul_le_mul_of_nonneg_right ?_ (norm_nonneg _))
        rw [hC]; linarith
    exact mul_le_mul (hd1 ((inball _ (stay j)).trans_le del1)).2.le h1 (norm_nonneg _) eta0.le
  intro k hk'
  obtain ⟨j, rfl⟩ : ∃ j, k = N0 + j := ⟨k - N0, by omega⟩
  refine ⟨diff j, (stay j).trans_le del3, ?_⟩
  have g := geometric_le (e := fun j => ‖fderiv ℝ (paramIter Phi x0 (N0 + j)) z - D‖) eta0.le eta1 hC0.le recur (fun _ => norm_nonneg _) j
  beta_reduce at g
  refine g.trans_lt ?_
  have p1 : ((1 : ℝ) / 2) ^ j ≤ (1 / 2) ^ j0 := pow_le_pow_of_le_one (by norm_num) (by norm_num) (by omega)
  have p2 : ((1 : ℝ) / 2) ^ j * ‖fderiv ℝ (paramIter Phi x0 (N0 + 0)) z - D‖ ≤ (eps / (4 * M)) * M :=
    mul_le_mul (p1.trans hj0.le) hz5.le (norm_nonneg _) (by positivity)
  have p3 : eps / (4 * M) * M = eps / 4 := by field_simp
  linarith

end Pyoptmat.Spec

namespace Pyoptmat.Spec

open Filter Topology

variable {Z X V : Type*} [NormedAddCommGroup Z] [NormedSpace ℝ Z] [NormedAddCommGroup X] [NormedSpace ℝ X] [NormedAddCommGroup V] [NormedSpace ℝ V]

/-- all numbers of updates large -/
def manyUpdates : Filter (ℕ → ℕ) := ⨅ N : ℕ, 𝓟 {K | ∀ i, N ≤ K i}

theorem manyUpdates_iff {P : (ℕ → ℕ) → Prop} : (∀ᶠ K in manyUpdates, P K) ↔ ∃ N, ∀ K : ℕ → ℕ, (∀ i, N ≤ K i) → P K := by
  have hb : manyUpdates.HasBasis (fun _ : ℕ => True) fun N => {K : ℕ → ℕ | ∀ i, N ≤ K i} :=
    hasBasis_iInf_principal (fun a b => ⟨max a b, fun K hK i => (le_max_left a b).trans (hK i), fun K hK i => (le_max_right a b).trans (hK i)⟩)
  rw [hb.eventually_iff]
  simp

theorem manyUpdates_tendsto (i : ℕ) : Tendsto (fun K : ℕ → ℕ => K i) manyUpdates atTop :=
  tendsto_atTop.2 fun N => manyUpdates_iff.2 ⟨N, fun _ hK => hK i⟩

theorem paramIter_tendsto {Phi : Z × X → X} {x0 : Z → X} {zs : Z} {xs : X} {D : Z →L[ℝ] X} (h0 : ContDiffAt ℝ 1 x0 zs) (hk : ∀ k, ContDiffAt ℝ 1 Phi (zs, paramIter Phi x0 k zs))
    (hs : ContDiffAt ℝ 1 Phi (zs, xs)) (hfix : Phi (zs, xs) = xs) (hD : HasFDerivAt Phi (D.coprod (0 : X →L[ℝ] X)) (zs, xs)) (hconv : Tendsto (fun k => paramIter Phi x0 k zs) atTop (𝓝 xs)) :
    (∀ᶠ kz : ℕ × Z in atTop ×ˢ 𝓝 zs, DifferentiableAt ℝ (paramIter Phi x0 kz.1) kz.2) ∧ Tendsto (fun kz : ℕ × Z => paramIter Phi x0 kz.1 kz.2) (atTop ×ˢ 𝓝 zs) (𝓝 xs) ∧
      Tendsto (fun kz : ℕ × Z => fderiv ℝ (paramIter Phi x0 kz.1) kz.2) (atTop ×ˢ 𝓝 zs) (𝓝 D) := by
  have key : ∀ eps > 0, ∀ᶠ kz : ℕ × Z in atTop ×ˢ 𝓝 zs, DifferentiableAt ℝ (paramIter Phi x0 kz.1) kz.2 ∧ ‖paramIter Phi x0 kz.1 kz.2 - xs‖ < eps ∧ ‖fderiv ℝ (paramIter Phi x0 kz.1) kz.2 - D‖ < eps := by
    intro eps heps
    obtain ⟨N, hN⟩ := paramIter_limit h0 hk hs hfix hD hconv heps
    refine Filter.eventually_prod_iff.2 ⟨fun k => N ≤ k, eventually_ge_atTop N, _, hN, fun {k} hk {z} hz => hz _ hk⟩
  refine ⟨(key 1 one_pos).mono fun _ h => h.1, Metric.tendsto_nhds.2 fun eps heps => (key eps heps).mono fun _ h => ?_, Metric.tendsto_nhds.2 fun eps heps => (key eps heps).mono fun _ h => ?_⟩
  · rw [dist_eq_norm]; exact h.2.1
  · rw [dist_eq_norm]; exact h.2.2

/-- with many updates: differentiable, and values and derivatives tend to those of `s` -/
structure GoodLimit (S : (ℕ → ℕ) → V → X) (s : V → X) (v0 : V) : Prop where
  diff : ∀ᶠ K in manyUpdates, DifferentiableAt ℝ (S K) v0
  lim : Tendsto (fun K => S K v0) manyUpdates (𝓝 (s v0))
  sdiff : DifferentiableAt ℝ s v0
  dlim : Tendsto (fun K => fderiv ℝ (S K) v0) manyUpdates (𝓝 (fderiv ℝ s v0))

/-- one more block -/
theorem GoodLimit.block {Q W : Type*} [NormedAddCommGroup Q] [NormedSpace ℝ Q] [NormedAddCommGroup W] [NormedSpace ℝ W] {S : (ℕ → ℕ) → V → W} {s : V → W} {v0 : V} (g : GoodLimit S s v0)
    (pr : V →L[ℝ] Q) {Phi Psi : (Q × W) × X → X} {x0 : Q × W → X} {x : V → X} {D : (Q × W) →L[ℝ] X} (i : ℕ)
    (h0 : ContDiffAt ℝ 1 x0 (pr v0, s v0)) (hk : ∀ k, ContDiffAt ℝ 1 Phi ((pr v0, s v0), paramIter Phi x0 k (pr v0, s v0))) (hs : ContDiffAt ℝ 1 Phi ((pr v0, s v0), x v0))
    (hfix : Phi ((pr v0, s v0), x v0) = x v0) (hD : HasFDerivAt Phi (D.coprod (0 : X →L[ℝ] X)) ((pr v0, s v0), x v0)) (hD' : HasFDerivAt Psi (D.coprod (0 : X →L[ℝ] X)) ((pr v0, s v0), x v0))
    (hconv : Tendsto (fun k => paramIter Phi x0 k (pr v0, s v0)) atTop (𝓝 (x v0))) (hx : DifferentiableAt ℝ x v0) (hfix' : ∀ᶠ v in 𝓝 v0, Psi ((pr v, s v), x v) = x v) :
    GoodLimit (fun K v => paramIter Phi x0 (K i) (pr v, S K v)) x v0 := by
  obtain ⟨a1, a2, a3⟩ := paramIter_tendsto h0 hk hs hfix hD hconv
  have hz : Tendsto (fun K : ℕ → ℕ => (K i, ((pr v0, S K v0) : Q × W))) manyUpdates (atTop ×ˢ 𝓝 (pr v0, s v0)) :=
    (manyUpdates_tendsto i).prodMk (by rw [nhds_prod_eq]; exact tendsto_const_nhds.prodMk g.lim)
  have dz : ∀ K, DifferentiableAt ℝ (S K) v0 → HasFDerivAt (fun v => ((pr v, S K v) : Q × W)) (pr.prod (fderiv ℝ (S K) v0)) v0 := fun K h => pr.hasFDerivAt.prodMk h.hasFDerivAt
  have dc : ∀ᶠ K in manyUpdates, HasFDerivAt (fun v => paramIter Phi x0 (K i) (pr v, S K v))
      ((fderiv ℝ (paramIter Phi x0 (K i)) (pr v0, S K v0)).comp (pr.prod (fderiv ℝ (S K) v0))) v0 := by
    filter_upwards [g.diff, hz.eventually a1] with K hK h
    exact HasFDerivAt.comp (g := paramIter Phi x0 (K i)) (f := fun v => ((pr v, S K v) : Q × W)) v0 h.hasFDerivAt (dz K hK)
  have ex : fderiv ℝ x v0 = D.comp (pr.prod (fderiv ℝ s v0)) := by
    have b1 : HasFDerivAt (fun v => (((pr v, s v), x v) : (Q × W) × X)) ((pr.prod (fderiv ℝ s v0)).prod (fderiv ℝ x v0)) v0 := (pr.hasFDerivAt.prodMk g.sdiff.hasFDerivAt).prodMk hx.hasFDerivAt
    have b2 := HasFDerivAt.comp (g := Psi) v0 hD' b1
    have b3 := b2.congr_of_eventuallyEq (f₁ := x) (hfix'.mono fun v hv => hv.symm)
    rw [b3.fderiv]
    ext v
    simp
  refine ⟨dc.mono fun K h => h.differentiableAt, a2.comp hz, hx, ?_⟩
  rw [ex]
  have c1 : Tendsto (fun K => (fderiv ℝ (paramIter Phi x0 (K i)) (pr v0, S K v0)).comp (pr.prod (fderiv ℝ (S K) v0))) manyUpdates (𝓝 (D.comp (pr.prod (fderiv ℝ s v0)))) := by
    have e1 := a3.comp hz
    have e2 : Tendsto (fun K => pr.prod (fderiv ℝ (S K) v0)) manyUpdates (𝓝 (pr.prod (fderiv ℝ s v0))) := by
      have e : ∀ A : V →L[ℝ] W, pr.prod A = (ContinuousLinearMap.inl ℝ Q W).comp pr + (ContinuousLinearMap.inr ℝ Q W).comp A := by
        intro A
        ext v <;> simp
      simp only [e]
      refine tendsto_const_nhds.add ?_
      exact (((ContinuousLinearMap.compL ℝ V W (Q × W)) (ContinuousLinearMap.inr ℝ Q W)).continuous.tendsto _).comp g.dlim
    exact (isBoundedBilinearMap_comp (𝕜 := ℝ) (E := V) (F := Q × W) (G := X)).continuous.tendsto (D, pr.prod (fderiv ℝ s v0)) |>.comp (by rw [nhds_prod_eq]; exact e1.prodMk e2)
  exact c1.congr' (dc.mono fun K h => h.fderiv.symm)

theorem GoodLimit.clm {W : Type*} [NormedAddCommGroup W] [NormedSpace ℝ W] {S : (ℕ → ℕ) → V → X} {s : V → X} {v0 : V} (g : GoodLimit S s v0) (L : X →L[ℝ] W) :
    GoodLimit (fun K v => L (S K v)) (fun v => L (s v)) v0 := by
  have e : ∀ {u : V → X}, DifferentiableAt ℝ u v0 → HasFDerivAt (fun v => L (u v)) (L.comp (fderiv ℝ u v0)) v0 := fun h => HasFDerivAt.comp (g := L) v0 L.hasFDerivAt h.hasFDerivAt
  refine ⟨g.diff.mono fun K h => (e h).differentiableAt, (L.continuous.tendsto _).comp g.lim, (e g.sdiff).differentiableAt, ?_⟩
  rw [(e g.sdiff).fderiv]
  have := (((ContinuousLinearMap.compL ℝ V X W) L).continuous.tendsto _).comp g.dlim
  exact this.congr' (g.diff.mono fun K h => (e h).fderiv.symm)

theorem GoodLimit.sum {ι : Type*} (r : Finset ι) {S : ι → (ℕ → ℕ) → V → X} {s : ι → V → X} {v0 : V} (g : ∀ i ∈ r, GoodLimit (S i) (s i) v0) :
    GoodLimit (fun K v => ∑ i ∈ r, S i K v) (fun v => ∑ i ∈ r, s i v) v0 := by
  have d : ∀ᶠ K in manyUpdates, ∀ i ∈ r, DifferentiableAt ℝ (S i K) v0 := (Filter.eventually_all_finset r).2 fun i hi => (g i hi).diff
  refine ⟨d.mono fun K h => DifferentiableAt.fun_sum h, tendsto_finsetSum _ fun i hi => (g i hi).lim, DifferentiableAt.fun_sum fun i hi => (g i hi).sdiff, ?_⟩
  rw [fderiv_fun_sum fun i hi => (g i hi).sdiff]
  exact (tendsto_finsetSum _ fun i hi => (g i hi).dlim).congr' (d.mono fun K h => (fderiv_fun_sum h).symm)

theorem GoodLimit.const {s : V → X} {v0 : V} (h : DifferentiableAt ℝ s v0) : GoodLimit (fun _ => s) s v0 :=
  ⟨Eventually.of_forall fun _ => h, tendsto_const_nhds, h, tendsto_const_nhds⟩

end Pyoptmat.Spec
