import Verif.Proofs.TensorHardening

/-! # The torch programs of the flow rules act point by point -/

namespace Pyoptmat.Spec

open Pyoptmat.Tensor Pyoptmat.Material

theorem TE.bind_ok {α : Type} (t : Tensor) (f : Tensor → Except String α) : TE.bind (Except.ok t) f = f t := rfl

theorem withPair_ok {α : Type} (a b : Tensor) (f : Tensor → Tensor → Except String α) : withPair (.ok (a, b)) f = f a b := rfl

theorem pair_is {S S' : List ℕ} {x y : TE} {f g : List ℕ → ℝ} (hx : Is S x f) (hy : Is S' y g) :
    ∃ a b, pair x y = .ok (a, b) ∧ IsT S a f ∧ IsT S' b g := by
  obtain ⟨a, rfl, ha⟩ := hx
  obtain ⟨b, rfl, hb⟩ := hy
  exact ⟨a, b, rfl, ha, hb⟩

theorem pair_vec {S : List ℕ} {n : ℕ} {x y : TE} {f : List ℕ → Fin n → ℝ} {g : List ℕ → Matrix (Fin n) (Fin n) ℝ} (hx : Vec S x f) (hy : Mat S y g) :
    ∃ a b, pair x y = .ok (a, b) ∧ VecT S a f ∧ MatT S b g := by
  obtain ⟨a, rfl, ha⟩ := hx
  obtain ⟨b, rfl, hb⟩ := hy
  exact ⟨a, b, rfl, ha, hb⟩

theorem full_like {S : List ℕ} {s : Tensor} {σ : List ℕ → ℝ} (h : IsT S s σ) (c : ℝ) : Is S (Tensor.full s.shape c) fun _ => c := by
  rw [h.1]
  exact Is.full S c

/-- the zero of the base class (flowrules.py:43-61) -/
theorem row_zero {S : List ℕ} {D : Set ℝ} {n : ℕ} (a : FlowArgs S D n) : Mat (n := 1) (m := n) S (Tensor.full (a.h.shape.headD 0 :: 1 :: a.s.shape) 0) fun _ _ _ => 0 := by
  rw [a.hh.1, a.hs.1]
  exact mat_full 0

theorem perfect_is {S : List ℕ} {D : Set ℝ} {n eta : TParam} {n' eta' : List ℕ → ℝ → ℝ} (hn : ParamIs S D n n') (he : ParamIs S D eta eta') :
    FlowIs S D (tPerfect n eta) fun i => perfect (n' i) (eta' i) where
  nhist := rfl
  flow a := by
    have h1 := hn.at a.hT
    have h2 := he.at a.hT
    have h3 := a.hs.is
    eapply pair_is
    · eapply Is.congr
      · tensI
      · intros; rfl
    · eapply Is.congr
      · tensI
      · intros; rfl
  dflow_dh a := row_zero a
  dflow_de a := full_like a.hs 0
  hist a := by
    have hm : Mat (n := 0) (m := 0) S (Tensor.full (a.h.shape.headD 0 :: a.h.shape) 0) fun _ _ _ => 0 := by
      rw [a.hh.1]
      exact mat_full 0
    exact pair_vec (g := fun _ => 0) (vec_full_like a.hh 0) hm
  dhist_ds a := vec_full_like a.hh 0
  dhist_de a := vec_full_like a.hh 0

/-! ## Isotropic and kinematic hardening -/

theorem isoPart_is {S : List ℕ} {ni nk : ℕ} {h : Tensor} {η : List ℕ → Fin (ni + nk) → ℝ} (hh : VecT S h η) :
    Vec S (Tensor.slice 0 ni h) fun i => isoPart (η i) := by
  have h1 := Is.slice 0 ni hh.isT.is (by omega)
  rw [Nat.zero_add] at h1
  refine Vec.of_is h1 fun i hi j => ?_
  change vecF η ((0 + j.val) :: i) = _
  rw [Nat.zero_add]
  exact vecF_cons η (Fin.castAdd nk j) i

theorem kinPart_is {S : List ℕ} {ni nk : ℕ} {h : Tensor} {η : List ℕ → Fin (ni + nk) → ℝ} (hh : VecT S h η) :
    Vec S (Tensor.sliceFrom ni h) fun i => kinPart (η i) :=
  Vec.of_is (Is.sliceFrom ni hh.isT.is) fun i _ j => vecF_cons η (Fin.natAdd ni j) i

theorem kinPart_is' {S : List ℕ} {ni nk : ℕ} {h : Tensor} {η : List ℕ → Fin (ni + nk) → ℝ} (hh : VecT S h η) :
    Vec S (Tensor.slice ni (ni + nk) h) fun i => kinPart (η i) :=
  Vec.of_is (Is.slice ni nk hh.isT.is le_rfl) fun i _ j => vecF_cons η (Fin.natAdd ni j) i

theorem Vec.append {S : List ℕ} {n m : ℕ} {x y : TE} {v : List ℕ → Fin n → ℝ} {w : List ℕ → Fin m → ℝ} (hx : Vec S x v) (hy : Vec S y w) :
    Vec S (Tensor.cat x y) fun i => Fin.append (v i) (w i) := by
  refine Vec.of_is (hx.is.cat hy.is) fun i _ j => ?_
  refine Fin.addCases (fun j => ?_) (fun j => ?_) j
  · change (if j.val < n then vecF v (j.val :: i) else _) = _
    rw [if_pos j.isLt, Fin.append_left, vecF_cons]
  · change (if n + j.val < n then _ else vecF w ((n + j.val - n) :: i)) = _
    rw [if_neg (by omega), Fin.append_right, Nat.add_sub_cancel_left, vecF_cons]

theorem Mat.append {S : List ℕ} {k n m : ℕ} {x y : TE} {v : List ℕ → Fin k → Fin n → ℝ} {w : List ℕ → Fin k → Fin m → ℝ} (hx : Mat S x v) (hy : Mat S y w) :
    Mat S (Tensor.cat x y) fun i r => Fin.append (v i r) (w i r) := by
  refine Mat.of_is (hx.is.cat hy.is) fun i _ r j => ?_
  refine Fin.addCases (fun j => ?_) (fun j => ?_) j
  · change (if j.val < n then matF v (j.val :: r.val :: i) else _) = _
    rw [if_pos j.isLt, Fin.append_left, matF_cons]
  · change (if n + j.val < n then _ else matF w ((n + j.val - n) :: r.val :: i)) = _
    rw [if_neg (by omega), Fin.append_right, Nat.add_sub_cancel_left, matF_cons]

theorem Mat.appendRow {S : List ℕ} {k n m : ℕ} {x y : TE} {v : List ℕ → Fin n → Fin k → ℝ} {w : List ℕ → Fin m → Fin k → ℝ} (hx : Mat S x v)
    (hy : Mat S y w) : Mat S (Tensor.catRow x y) fun i => Fin.append (v i) (w i) := by
  refine Mat.of_is (hx.is.catRow hy.is) fun i _ r c => ?_
  refine Fin.addCases (fun j => ?_) (fun j => ?_) r
  · change (if j.val < n then matF v (c.val :: j.val :: i) else _) = _
    rw [if_pos j.isLt, Fin.append_left, matF_cons]
  · change (if n + j.val < n then _ else matF w (c.val :: (n + j.val - n) :: i)) = _
    rw [if_neg (by omega), Fin.append_right, Nat.add_sub_cancel_left, matF_cons]

/-- the pieces of the history and their hardening values, as tensors -/
theorem isoKin_parts {S : List ℕ} {D : Set ℝ} {ni nk : ℕ} {iso kin : THardening} {I : List ℕ → Hardening ni} {K : List ℕ → Hardening nk}
    (hI : HardeningIs S D iso I) (hK : HardeningIs S D kin K) {h : Tensor} {η : List ℕ → Fin (ni + nk) → ℝ} (hh : VecT S h η) :
    ∃ hi hk hk' ih kh kh' : Tensor, Tensor.slice 0 iso.nhist h = (hi : TE) ∧ Tensor.sliceFrom iso.nhist h = (hk : TE) ∧
      Tensor.slice iso.nhist (iso.nhist + kin.nhist) h = (hk' : TE) ∧ iso.value hi = (ih : TE) ∧ kin.value hk = (kh : TE) ∧ kin.value hk' = (kh' : TE) ∧
      VecT S hi (fun i => isoPart (η i)) ∧ VecT S hk (fun i => kinPart (η i)) ∧
      IsT S ih (fun i => (I i).value (isoPart (η i))) ∧ IsT S kh (fun i => (K i).value (kinPart (η i))) ∧
      IsT S kh' (fun i => (K i).value (kinPart (η i))) := by
  obtain ⟨hi, e1, h1⟩ := isoPart_is hh
  obtain ⟨hk, e2, h2⟩ := kinPart_is hh
  obtain ⟨hk', e3, h3⟩ := kinPart_is' hh
  obtain ⟨ih, e4, h4⟩ := hI.value _ _ h1
  obtain ⟨kh, e5, h5⟩ := hK.value _ _ h2
  obtain ⟨kh', e6, h6⟩ := hK.value _ _ h3
  exact ⟨hi, hk, hk', ih, kh, kh', hI.nhist ▸ e1, hI.nhist ▸ e2, hI.nhist ▸ hK.nhist ▸ e3, e4, e5, e6, h1, h2, h4, h5, h6⟩

section IsoKin

variable {S : List ℕ} {D : Set ℝ} {ni nk : ℕ} {p : TIsoKin} {n eta s0 : List ℕ → ℝ → ℝ} {I : List ℕ → Hardening ni} {K : List ℕ → Hardening nk}
  (hn : ParamIs S D p.n n) (he : ParamIs S D p.eta eta) (h0 : ParamIs S D p.s0 s0) (hI : HardeningIs S D p.iso I) (hK : HardeningIs S D p.kin K)

include hn he h0 hI hK

theorem isoKin_flow (a : FlowArgs S D (ni + nk)) : ∃ f df, p.flow a.s a.h a.T = .ok (f, df) ∧
    IsT S f (fun i => isoKinFlow (n i) (eta i) (s0 i) (I i) (K i) (a.σ i) (a.η i) (a.τ i)) ∧
    IsT S df (fun i => isoKinDs (n i) (eta i) (s0 i) (I i) (K i) (a.σ i) (a.η i) (a.τ i)) := by
  obtain ⟨hi, hk, hk', ih, kh, kh', e1, e2, e3, e4, e5, e6, k1, k2, k3, k4, k5⟩ := isoKin_parts hI hK a.hh
  have h1 := hn.at a.hT
  have h2 := he.at a.hT
  have h3 := h0.at a.hT
  have h4 := a.hs.is
  have h5 := k3.is
  have h6 := k4.is
  simp only [TIsoKin.flow, e1, e2, e4, e5, TE.bind_ok, TIsoKin.over]
  eapply pair_is
  · eapply Is.congr
    · tensI
    · intros; rfl
  · eapply Is.congr
    · tensI
    · intros; rfl

theorem isoKin_diso (a : FlowArgs S D (ni + nk)) :
    Is S (p.diso a.s a.h a.T) (fun i => isoKinDiso (n i) (eta i) (s0 i) (I i) (K i) (a.σ i) (a.η i) (a.τ i)) := by
  obtain ⟨hi, hk, hk', ih, kh, kh', e1, e2, e3, e4, e5, e6, k1, k2, k3, k4, k5⟩ := isoKin_parts hI hK a.hh
  have h1 := hn.at a.hT
  have h2 := he.at a.hT
  have h3 := h0.at a.hT
  have h4 := a.hs.is
  have h5 := k3.is
  have h6 := k5.is
  simp only [TIsoKin.diso, e1, e3, e4, e6, TE.bind_ok, TIsoKin.over]
  eapply Is.congr
  · tensI
  · intros; rfl

theorem isoKin_dkin (a : FlowArgs S D (ni + nk)) :
    Is S (p.dkin a.s a.h a.T) (fun i => isoKinDkin (n i) (eta i) (s0 i) (I i) (K i) (a.σ i) (a.η i) (a.τ i)) := by
  obtain ⟨hi, hk, hk', ih, kh, kh', e1, e2, e3, e4, e5, e6, k1, k2, k3, k4, k5⟩ := isoKin_parts hI hK a.hh
  have h1 := hn.at a.hT
  have h2 := he.at a.hT
  have h3 := h0.at a.hT
  have h4 := a.hs.is
  have h5 := k3.is
  have h6 := k5.is
  simp only [TIsoKin.dkin, e1, e3, e4, e6, TE.bind_ok, TIsoKin.over]
  eapply Is.congr
  · tensI
  · intros; rfl

omit hn he h0 hI hK in
/-- `mbmm(col, mbmm(x[..., None, None], row[..., None, :]))` -/
theorem chain_is {k m : ℕ} {col x row : TE} {c : List ℕ → Fin k → ℝ} {f : List ℕ → ℝ} {r : List ℕ → Fin m → ℝ}
    (hc : Mat (m := 1) S col fun i j _ => c i j) (hx : Is S x f) (hr : Vec S row r) :
    Mat S (mbmm col (mbmm (Tensor.unsq (Tensor.unsq x)) (Tensor.unsqRow row))) fun i a b => c i a * (f i * r i b) := by
  refine Mat.of_is (hc.is.mbmm (hx.unsq.unsq.mbmm hr.is.unsqRow)) fun i _ a b => ?_
  simp only [List.tail_cons, List.headD_cons, Finset.univ_unique, Fin.default_eq_zero, Finset.sum_singleton]
  rw [show ((0 : Fin 1) : ℕ) = ((0 : Fin 1)).val from rfl, matF_cons, vecF_cons]

omit hn he h0 hI hK in
/-- `col * x[..., None, None] * row[..., None, :]` -/
theorem outer_is {k m : ℕ} {col x row : TE} {c : List ℕ → Fin k → ℝ} {f : List ℕ → ℝ} {r : List ℕ → Fin m → ℝ}
    (hc : Mat (m := 1) S col fun i j _ => c i j) (hx : Is S x f) (hr : Vec S row r) :
    Mat S (col * Tensor.unsq (Tensor.unsq x) * Tensor.unsqRow row) fun i a b => c i a * f i * r i b := by
  refine Mat.of_is (Is.outer (hc.is.mul_left ((hx.rep.unsq k).unsq 1)) hr.is.unsqRow) fun i _ a b => ?_
  change matF _ (((0 : Fin 1) : ℕ) :: a.val :: i) * f i * vecF r (b.val :: i) = _
  rw [matF_cons, vecF_cons]

omit hn he h0 hI hK in
/-- `mbmm(col, x[..., None, None])[..., 0]` -/
theorem column_is {k : ℕ} {col x : TE} {c : List ℕ → Fin k → ℝ} {f : List ℕ → ℝ} (hc : Mat (m := 1) S col fun i j _ => c i j) (hx : Is S x f) :
    Vec S (Tensor.sel 0 (mbmm col (Tensor.unsq (Tensor.unsq x)))) fun i a => c i a * f i := by
  refine Vec.of_is ((hc.is.mbmm hx.unsq.unsq).sel 0 one_pos) fun i _ a => ?_
  simp only [List.tail_cons, List.headD_cons, Finset.univ_unique, Fin.default_eq_zero, Finset.sum_singleton]
  rw [show ((0 : Fin 1) : ℕ) = ((0 : Fin 1)).val from rfl, matF_cons]

omit hn he h0 hI hK in
theorem Vec.add {k : ℕ} {x y : TE} {v w : List ℕ → Fin k → ℝ} (hx : Vec S x v) (hy : Vec S y w) : Vec S (x + y) fun i j => v i j + w i j :=
  Vec.of_is (hx.is.add_left hy.is.rep) fun i _ j => by rw [vecF_cons, vecF_cons]

omit hn he h0 hI hK in
theorem Mat.add {k m : ℕ} {x y : TE} {v w : List ℕ → Fin k → Fin m → ℝ} (hx : Mat S x v) (hy : Mat S y w) : Mat S (x + y) fun i r c => v i r c + w i r c :=
  Mat.of_is (hx.is.add_left hy.is.rep) fun i _ r c => by rw [matF_cons, matF_cons]

omit hn he h0 hI hK in
theorem Vec.unsq_mul {k : ℕ} {x y : TE} {f : List ℕ → ℝ} {w : List ℕ → Fin k → ℝ} (hx : Rep S x f) (hy : Vec S y w) :
    Vec S (Tensor.unsq x * y) fun i j => f i * w i j :=
  Vec.of_is (Is.mul_right (hx.unsq k) hy.is) fun i _ j => by rw [vecF_cons]; rfl

theorem isoKin_is : FlowIs S D (tIsoKin p) fun i => isoKin (n i) (eta i) (s0 i) (I i) (K i) := by
  refine ⟨by rw [← hI.nhist, ← hK.nhist]; rfl, fun a => isoKin_flow hn he h0 hI hK a, fun a => ?_, fun a => full_like a.hs 0, fun a => ?_,
    fun a => ?_, fun a => ?_⟩
  all_goals obtain ⟨hi, hk, hk', ih, kh, kh', e1, e2, e3, e4, e5, e6, k1, k2, k3, k4, k5⟩ := isoKin_parts hI hK a.hh
  all_goals have d1 := isoKin_diso hn he h0 hI hK a
  all_goals have d2 := isoKin_dkin hn he h0 hI hK a
  all_goals obtain ⟨f, df, ef, hf, hdf⟩ := isoKin_flow hn he h0 hI hK a
  · dsimp only [tIsoKin]
    simp only [e1, e2, TE.bind_ok]
    have h1 := (Vec.unsq_mul d1.rep (hI.dvalue _ _ k1)).append (Vec.unsq_mul d2.rep (hK.dvalue _ _ k2))
    exact Mat.of_is h1.is.unsqRow fun i _ r c => vecF_cons _ c i
  · have r1 := hI.rate (a.part hi _ k1) f _ hf
    have r2 := hK.rate (a.part hk _ k2) f _ hf
    have r3 := hI.drate_dep (a.part hi _ k1) f _ hf
    have r4 := hK.drate_dep (a.part hk _ k2) f _ hf
    have r5 := hI.drate_dh (a.part hi _ k1) f _ hf
    have r6 := hK.drate_dh (a.part hk _ k2) f _ hf
    dsimp only [tIsoKin]
    simp only [ef, withPair_ok, e1, e2, TE.bind_ok]
    exact pair_vec (r1.append r2) (Mat.appendRow
      (Mat.append (Mat.add r5 (chain_is r3 d1 (hI.dvalue _ _ k1))) (outer_is r3 d2 (hK.dvalue _ _ k2)))
      (Mat.append (chain_is r4 d1 (hI.dvalue _ _ k1)) (Mat.add r6 (chain_is r4 d2 (hK.dvalue _ _ k2)))))
  · have r1 := hI.drate_ds (a.part hi _ k1) f _ hf
    have r2 := hK.drate_ds (a.part hk _ k2) f _ hf
    have r3 := hI.drate_dep (a.part hi _ k1) f _ hf
    have r4 := hK.drate_dep (a.part hk _ k2) f _ hf
    dsimp only [tIsoKin]
    simp only [ef, withPair_ok, e1, e2, TE.bind_ok]
    exact (Vec.add r1 (column_is r3 hdf.is)).append (Vec.add r2 (column_is r4 hdf.is))
  · have r1 := hI.drate_de (a.part hi _ k1) f _ hf
    have r2 := hK.drate_de (a.part hk _ k2) f _ hf
    dsimp only [tIsoKin]
    simp only [ef, withPair_ok, e1, e2, TE.bind_ok]
    exact r1.append r2

end IsoKin

/-! ## Rate independent wrapper -/

theorem scale_is {S : List ℕ} {l r e : Tensor} {l' r' ε : List ℕ → ℝ} (hl : Rep S l l') (hr : Rep S r r') (he : IsT S e ε) :
    Is S (tScale l r e) fun i => riScale (l' i) (r' i) (ε i) := by
  have h := he.is
  unfold tScale
  eapply Is.congr
  · tensI
  · intros; rfl

theorem dscale_is {S : List ℕ} {l r e : Tensor} {l' r' ε : List ℕ → ℝ} (hl : Rep S l l') (hr : Rep S r r') (he : IsT S e ε) :
    Is S (tDScale l r e) fun i => riDScale (l' i) (r' i) (ε i) := by
  have h := he.is
  unfold tDScale
  eapply Is.congr
  · tensI
  · intros; rfl

theorem rateIndependent_is {S : List ℕ} {D : Set ℝ} {n : ℕ} {F : TFlowRule} {L : List ℕ → FlowRule n} {l r : Tensor} {l' r' : List ℕ → ℝ} (hF : FlowIs S D F L)
    (hl : Rep S l l') (hr : Rep S r r') : FlowIs S D (tRateIndependent F l r) fun i => rateIndependent (L i) (l' i) (r' i) := by
  refine ⟨hF.nhist, fun a => ?_, fun a => ?_, fun a => ?_, fun a => ?_, fun a => ?_, fun a => ?_⟩
  all_goals have h1 := scale_is hl hr a.he
  all_goals have h2 := dscale_is hl hr a.he
  all_goals obtain ⟨f, df, ef, hf, hdf⟩ := hF.flow a
  all_goals obtain ⟨g, dg, eg, hg, hdg⟩ := hF.hist a
  all_goals dsimp only [tRateIndependent]
  all_goals try simp only [ef, eg, withPair_ok]
  · exact pair_is (h1.mul_left hf.is.rep) (h1.mul_left hdf.is.rep)
  · refine Mat.of_is ((hF.dflow_dh a).is.mul_left ((h1.rep.unsq 1).unsq n)) fun i _ r c => ?_
    exact congrArg (· * _) (matF_cons _ r c i)
  · exact ((hF.dflow_de a).mul_left h1.rep).add_left (hf.is.mul_left h2.rep).rep
  · refine pair_vec (Vec.unsq_mul h1.rep ⟨g, rfl, hg⟩) (g := fun i => riScale (l' i) (r' i) (a.ε i) • (L i).dhist_dh (a.σ i) (a.η i) (a.θ i) (a.τ i) (a.ε i)) ?_
    refine Mat.of_is (Is.mul_right ((h1.rep.unsq n).unsq n) hdg.isT.is) fun i _ r c => ?_
    exact congrArg (_ * ·) (matF_cons _ r c i)
  · exact Vec.unsq_mul h1.rep (hF.dhist_ds a)
  · refine Vec.of_is (((hF.dhist_de a).is.mul_left (h1.rep.unsq n)).add_left (hg.isT.is.mul_left (h2.rep.unsq n)).rep) fun i _ j => ?_
    change vecF _ (j.val :: i) * _ + vecF _ (j.val :: i) * _ = _
    rw [vecF_cons, vecF_cons]
    rfl

/-! ## Superposition -/

theorem superimposed_is {S : List ℕ} {D : Set ℝ} {k : ℕ} (nh : Fin k → ℕ) (models : Fin k → TFlowRule) (L : (i : Fin k) → List ℕ → FlowRule (nh i))
    (hm : ∀ i, FlowIs S D (models i) (L i)) : FlowIs S D (tSuperimposed models) fun p => superimposed nh fun i => L i p := by
  obtain rfl : nh = fun i => (models i).nhist := funext fun i => (hm i).nhist.symm
  refine ⟨rfl, fun a => ?_, fun a => ?_, fun a => ?_, fun a => ?_, fun a => ?_, fun a => ?_⟩
  · refine pair_is (fold_is _ (fun i p => (L i p).flow (a.σ p) (Material.slice (a.η p) (offset _ i) _) (a.θ p) (a.τ p) (a.ε p)) (fun i => ?_)
      (full_like a.hs 0)) (fold_is _ (fun i p => (L i p).dflow_ds (a.σ p) (Material.slice (a.η p) (offset _ i) _) (a.θ p) (a.τ p) (a.ε p)) (fun i => ?_)
      (full_like a.hs 0))
    all_goals obtain ⟨t, ht, hb⟩ := TE.bind_vec (hs_is _ i a.hh)
    all_goals obtain ⟨f, df, ef, hf, hdf⟩ := (hm i).flow (a.part t _ ht)
    · refine ⟨f, (hb _).trans ?_, hf⟩
      rw [show (models i).flow_rate a.s t a.t a.T a.e = _ from ef]
      rfl
    · refine ⟨df, (hb _).trans ?_, hdf⟩
      rw [show (models i).flow_rate a.s t a.t a.T a.e = _ from ef]
      rfl
  · refine fold_row _ _ (fun i p => (L i p).dflow_dh (a.σ p) (Material.slice (a.η p) (offset _ i) _) (a.θ p) (a.τ p) (a.ε p)) (fun i => ?_) (row_zero a)
    obtain ⟨t, ht, hb⟩ := TE.bind_vec (hs_is _ i a.hh)
    exact hb (fun hi => (models i).dflow_dhist a.s hi a.t a.T a.e) ▸ (hm i).dflow_dh (a.part t _ ht)
  · refine fold_is _ (fun i p => (L i p).dflow_de (a.σ p) (Material.slice (a.η p) (offset _ i) _) (a.θ p) (a.τ p) (a.ε p)) (fun i => ?_) (full_like a.he 0)
    obtain ⟨t, ht, hb⟩ := TE.bind_vec (hs_is _ i a.hh)
    exact hb (fun hi => (models i).dflow_derate a.s hi a.t a.T a.e) ▸ (hm i).dflow_de (a.part t _ ht)
  · refine pair_vec (fold_vec _ _ (fun i p => (L i p).hist (a.σ p) (Material.slice (a.η p) (offset _ i) _) (a.θ p) (a.τ p) (a.ε p)) (fun i => ?_)
      (vec_full_like a.hh 0)) (fold_mat _ _ (fun i p => (L i p).dhist_dh (a.σ p) (Material.slice (a.η p) (offset _ i) _) (a.θ p) (a.τ p) (a.ε p)) (fun i => ?_) ?_)
    · obtain ⟨t, ht, hb⟩ := TE.bind_vec (hs_is _ i a.hh)
      obtain ⟨f, df, ef, hf, hdf⟩ := (hm i).hist (a.part t _ ht)
      refine ⟨f, (hb _).trans ?_, hf⟩
      rw [show (models i).history_rate a.s t a.t a.T a.e = _ from ef]
      rfl
    · obtain ⟨t, ht, hb⟩ := TE.bind_vec (hs_is _ i a.hh)
      obtain ⟨f, df, ef, hf, hdf⟩ := (hm i).hist (a.part t _ ht)
      refine ⟨df, (hb _).trans ?_, hdf⟩
      rw [show (models i).history_rate a.s t a.t a.T a.e = _ from ef]
      rfl
    · rw [a.hh.1]
      exact mat_full 0
  · refine fold_vec _ _ (fun i p => (L i p).dhist_ds (a.σ p) (Material.slice (a.η p) (offset _ i) _) (a.θ p) (a.τ p) (a.ε p)) (fun i => ?_) (vec_full_like a.hh 0)
    obtain ⟨t, ht, hb⟩ := TE.bind_vec (hs_is _ i a.hh)
    exact hb (fun hi => (models i).dhist_dstress a.s hi a.t a.T a.e) ▸ (hm i).dhist_ds (a.part t _ ht)
  · refine fold_vec _ _ (fun i p => (L i p).dhist_de (a.σ p) (Material.slice (a.η p) (offset _ i) _) (a.θ p) (a.τ p) (a.ε p)) (fun i => ?_) (vec_full_like a.hh 0)
    obtain ⟨t, ht, hb⟩ := TE.bind_vec (hs_is _ i a.hh)
    exact hb (fun hi => (models i).dhist_derate a.s hi a.t a.T a.e) ▸ (hm i).dhist_de (a.part t _ ht)

/-! ## Kocks–Mecking -/

theorem g_is {S : List ℕ} {D : Set ℝ} {p : TKM} {P : List ℕ → KMParams} (hp : KMIs S D p P) {T e : Tensor} {τ ε : List ℕ → ℝ} (hT : TempT S D T τ) (he : IsT S e ε) :
    Is S (p.g T e) fun i => (P i).g (τ i) (ε i) := by
  have h1 := hT.1.is
  have h2 := he.is
  have h3 := hp.mu T τ hT
  have h4 := hp.b
  have h5 := hp.eps0
  have h6 := hp.k
  have h7 := hp.eps
  unfold TKM.g
  eapply Is.congr
  · tensI
  · intros; rfl

theorem dg_is {S : List ℕ} {D : Set ℝ} {p : TKM} {P : List ℕ → KMParams} (hp : KMIs S D p P) {T e : Tensor} {τ ε : List ℕ → ℝ} (hT : TempT S D T τ) (he : IsT S e ε) :
    Is S (p.dg T e) fun i => (P i).dg (τ i) (ε i) := by
  have h1 := hT.1.is
  have h2 := he.is
  have h3 := hp.mu T τ hT
  have h4 := hp.b
  have h5 := hp.eps0
  have h6 := hp.k
  have h7 := hp.eps
  unfold TKM.dg
  eapply Is.congr
  · tensI
  · intros; rfl

theorem f_is {S : List ℕ} {D : Set ℝ} {p : TKM} {P : List ℕ → KMParams} (hp : KMIs S D p P) {sf T e : Tensor} {sf' τ ε : List ℕ → ℝ} (hs : Rep S sf sf')
    (hT : TempT S D T τ) (he : IsT S e ε) : Is S (p.f sf T e) fun i => softF (P i) (sf' i) (τ i) (ε i) := by
  have h1 := g_is hp hT he
  have h4 := hp.g0
  unfold TKM.f
  eapply Is.congr
  · tensI
  · intros; rfl

theorem df_is {S : List ℕ} {D : Set ℝ} {p : TKM} {P : List ℕ → KMParams} (hp : KMIs S D p P) {sf T e : Tensor} {sf' τ ε : List ℕ → ℝ} (hs : Rep S sf sf')
    (hT : TempT S D T τ) (he : IsT S e ε) : Is S (p.df sf T e) fun i => softDF (P i) (sf' i) (τ i) (ε i) := by
  have h1 := g_is hp hT he
  have h2 := (dg_is hp hT he).rep
  have h1' := h1.rep
  have h4 := hp.g0
  unfold TKM.df
  generalize p.dg T e = x at h2
  eapply Is.congr
  · tensI
  · intros; rfl

section KM

variable {S : List ℕ} {D : Set ℝ} {p : TKM} {P : List ℕ → KMParams} (hp : KMIs S D p P) {T e : Tensor} {τ ε : List ℕ → ℝ} (hT : TempT S D T τ) (he : IsT S e ε)

include hp hT he

theorem switch_is {x y : TE} {f g : List ℕ → ℝ} (hx : Is S x f) (hy : Is S y g) : Is S (p.switch x y T e) fun i => switchValues (P i) (f i) (g i) (τ i) (ε i) :=
  Is.maskedCopy (A := []) hx hy (g_is hp hT he) hp.g0

theorem switch_vec {n : ℕ} {x y : TE} {f g : List ℕ → Fin n → ℝ} (hx : Vec S x f) (hy : Vec S y g) :
    Vec S (p.switch x y T e) fun i => switchValues (P i) (f i) (g i) (τ i) (ε i) := by
  refine Vec.of_is (Is.maskedCopy (A := [n]) hx.is hy.is (g_is hp hT he) hp.g0) fun i _ j => ?_
  change (if (P i).g (τ i) (ε i) > (P i).g0 then vecF g (j.val :: i) else vecF f (j.val :: i)) = _
  rw [vecF_cons, vecF_cons, switchValues]
  split_ifs <;> rfl

theorem switch_mat {n m : ℕ} {x y : TE} {f g : List ℕ → Fin n → Fin m → ℝ} (hx : Mat S x f) (hy : Mat S y g) :
    Mat S (p.switch x y T e) fun i => switchValues (P i) (f i) (g i) (τ i) (ε i) := by
  refine Mat.of_is (Is.maskedCopy (A := [m, n]) hx.is hy.is (g_is hp hT he) hp.g0) fun i _ r c => ?_
  change (if (P i).g (τ i) (ε i) > (P i).g0 then matF g (c.val :: r.val :: i) else matF f (c.val :: r.val :: i)) = _
  rw [matF_cons, matF_cons, switchValues]
  split_ifs <;> rfl

variable {sf : Tensor} {sf' : List ℕ → ℝ} (hs : Rep S sf sf')

include hs

omit hp hT he hs in
theorem unsq_iter (k : ℕ) (t : Tensor) : ∃ u : Tensor, (Tensor.unsq^[k] (t : TE)) = (u : TE) ∧ u.shape = List.replicate k 1 ++ t.shape := by
  induction k with
  | zero => exact ⟨t, rfl, rfl⟩
  | succ k ih =>
    obtain ⟨u, hu, hs⟩ := ih
    rw [Function.iterate_succ_apply', hu]
    exact ⟨⟨1 :: u.shape, fun i => u.data i.tail⟩, rfl, by simp [hs, List.replicate_succ]⟩

theorem blend_is {x y : TE} {f g : List ℕ → ℝ} (hx : Is S x f) (hy : Is S y g) : Is S (p.blend sf x y T e) fun i => blend (P i) (sf' i) (f i) (g i) (τ i) (ε i) := by
  have hf := f_is hp hs hT he
  obtain ⟨t, rfl, ht⟩ := hx
  obtain ⟨u, hu, hu'⟩ := hf
  have e0 : t.shape.length - u.shape.length = 0 := by rw [ht.1, hu'.1]; simp
  simp only [TKM.blend, hu, TE.bind_ok, e0, Function.iterate_zero, id]
  have h1 := ht.is
  have h2 := hu'.is
  eapply Is.congr
  · tensI
  · intros; rfl

theorem blend_vec {n : ℕ} {x y : TE} {f g : List ℕ → Fin n → ℝ} (hx : Vec S x f) (hy : Vec S y g) :
    Vec S (p.blend sf x y T e) fun i => blend (P i) (sf' i) (f i) (g i) (τ i) (ε i) := by
  have hf := f_is hp hs hT he
  obtain ⟨t, rfl, ht⟩ := hx
  obtain ⟨u, hu, hu'⟩ := hf
  have e0 : t.shape.length - u.shape.length = 1 := by rw [ht.1, hu'.1]; simp
  simp only [TKM.blend, hu, TE.bind_ok, e0, Function.iterate_one]
  have h1 := ht.isT.is
  have h2 := hy.is
  have h3 := hu'.is.rep.unsq n
  eapply Vec.of_is
  · tensI
  · intro i _ j
    rw [vecF_cons, vecF_cons]
    rfl

theorem blend_mat {n m : ℕ} {x y : TE} {f g : List ℕ → Fin n → Fin m → ℝ} (hx : Mat S x f) (hy : Mat S y g) :
    Mat S (p.blend sf x y T e) fun i => blend (P i) (sf' i) (f i) (g i) (τ i) (ε i) := by
  have hf := f_is hp hs hT he
  obtain ⟨t, rfl, ht⟩ := hx
  obtain ⟨u, hu, hu'⟩ := hf
  have e0 : t.shape.length - u.shape.length = 2 := by rw [ht.1, hu'.1]; simp only [List.length_cons]; omega
  simp only [TKM.blend, hu, TE.bind_ok, e0, Function.iterate_succ, Function.iterate_zero, Function.comp, id]
  have h1 := ht.isT.is
  have h2 := hy.is
  have h3 := (hu'.is.rep.unsq n).unsq m
  eapply Mat.of_is
  · tensI
  · intro i _ r c
    rw [matF_cons, matF_cons]
    rfl

end KM

theorem kmSwitch_is {S : List ℕ} {D : Set ℝ} {n : ℕ} {F1 F2 : TFlowRule} {L1 L2 : List ℕ → FlowRule n} {p : TKM} {P : List ℕ → KMParams} (h1 : FlowIs S D F1 L1)
    (h2 : FlowIs S D F2 L2) (hp : KMIs S D p P) : FlowIs S D (tKmSwitch F1 F2 p) fun i => kmSwitch (L1 i) (L2 i) (P i) := by
  refine ⟨h1.nhist, fun a => ?_, fun a => ?_, fun a => switch_is hp a.hT a.he (h1.dflow_de a) (h2.dflow_de a), fun a => ?_,
    fun a => switch_vec hp a.hT a.he (h1.dhist_ds a) (h2.dhist_ds a), fun a => switch_vec hp a.hT a.he (h1.dhist_de a) (h2.dhist_de a)⟩
  · obtain ⟨f1, d1, e1, hf1, hd1⟩ := h1.flow a
    obtain ⟨f2, d2, e2, hf2, hd2⟩ := h2.flow a
    dsimp only [tKmSwitch]
    simp only [e1, e2, withPair_ok]
    exact pair_is (switch_is hp a.hT a.he hf1.is hf2.is) (switch_is hp a.hT a.he hd1.is hd2.is)
  · refine Mat.congr (switch_mat hp a.hT a.he (h1.dflow_dh a) (h2.dflow_dh a)) fun i _ => ?_
    funext r c
    simp only [switchValues, kmSwitch]
    split_ifs <;> rfl
  · obtain ⟨f1, d1, e1, hf1, hd1⟩ := h1.hist a
    obtain ⟨f2, d2, e2, hf2, hd2⟩ := h2.hist a
    dsimp only [tKmSwitch]
    simp only [e1, e2, withPair_ok]
    exact pair_vec (switch_vec hp a.hT a.he ⟨_, rfl, hf1⟩ ⟨_, rfl, hf2⟩) (switch_mat hp a.hT a.he ⟨_, rfl, hd1⟩ ⟨_, rfl, hd2⟩)

theorem kmSoft_is {S : List ℕ} {D : Set ℝ} {n : ℕ} {F1 F2 : TFlowRule} {L1 L2 : List ℕ → FlowRule n} {p : TKM} {P : List ℕ → KMParams} {sf : Tensor} {sf' : List ℕ → ℝ}
    (h1 : FlowIs S D F1 L1) (h2 : FlowIs S D F2 L2) (hp : KMIs S D p P) (hs : Rep S sf sf') :
    FlowIs S D (tKmSoft F1 F2 p sf) fun i => kmSoft (L1 i) (L2 i) (P i) (sf' i) := by
  refine ⟨h1.nhist, fun a => ?_, fun a => blend_mat hp a.hT a.he hs (h1.dflow_dh a) (h2.dflow_dh a), fun a => ?_, fun a => ?_,
    fun a => blend_vec hp a.hT a.he hs (h1.dhist_ds a) (h2.dhist_ds a), fun a => ?_⟩
  · obtain ⟨f1, d1, e1, hf1, hd1⟩ := h1.flow a
    obtain ⟨f2, d2, e2, hf2, hd2⟩ := h2.flow a
    dsimp only [tKmSoft]
    simp only [e1, e2, withPair_ok]
    exact pair_is (blend_is hp a.hT a.he hs hf1.is hf2.is) (blend_is hp a.hT a.he hs hd1.is hd2.is)
  · obtain ⟨f1, d1, e1, hf1, hd1⟩ := h1.flow a
    obtain ⟨f2, d2, e2, hf2, hd2⟩ := h2.flow a
    dsimp only [tKmSoft]
    simp only [e1, e2, withPair_ok]
    exact (blend_is hp a.hT a.he hs (h1.dflow_de a) (h2.dflow_de a)).add_left
      ((df_is hp hs a.hT a.he).mul_left (hf2.is.sub_left hf1.is.rep).rep).rep
  · obtain ⟨f1, d1, e1, hf1, hd1⟩ := h1.hist a
    obtain ⟨f2, d2, e2, hf2, hd2⟩ := h2.hist a
    dsimp only [tKmSoft]
    simp only [e1, e2, withPair_ok]
    exact pair_vec (blend_vec hp a.hT a.he hs ⟨_, rfl, hf1⟩ ⟨_, rfl, hf2⟩)
      (g := fun i => blend (P i) (sf' i) ((L1 i).dhist_dh (a.σ i) (a.η i) (a.θ i) (a.τ i) (a.ε i)) ((L2 i).dhist_dh (a.σ i) (a.η i) (a.θ i) (a.τ i) (a.ε i)) (a.τ i) (a.ε i))
      (blend_mat hp a.hT a.he hs ⟨_, rfl, hd1⟩ ⟨_, rfl, hd2⟩)
  · obtain ⟨f1, d1, e1, hf1, hd1⟩ := h1.hist a
    obtain ⟨f2, d2, e2, hf2, hd2⟩ := h2.hist a
    dsimp only [tKmSoft]
    simp only [e1, e2, withPair_ok]
    have k1 := (blend_vec hp a.hT a.he hs (h1.dhist_de a) (h2.dhist_de a)).is
    refine Vec.of_is (k1.add_left ((hf2.isT.is.sub_left hf1.isT.is.rep).mul_left ((df_is hp hs a.hT a.he).rep.unsq n)).rep) fun i _ j => ?_
    simp only [vecF_cons]
    rfl

end Pyoptmat.Spec
