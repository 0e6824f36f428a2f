import Verif.Proofs.TensorFlow

/-! # The torch programs of the damage models and of the material models act point by point -/

namespace Pyoptmat.Spec

open Pyoptmat.Tensor Pyoptmat.Material

/-! ## Damage -/

theorem noDamage_is {S : List ℕ} {D : Set ℝ} : DamageIs S D tNoDamage fun _ => noDamage where
  rate s σ d δ t θ T τ e ε hs hd ht hT he := pair_is (full_like hs 0) (full_like hs 0)
  drate_ds s σ d δ t θ T τ e ε hs hd ht hT he := full_like hs 0
  drate_de s σ d δ t θ T τ e ε hs hd ht hT he := full_like he 0

theorem hayhurstLeckie_is {S : List ℕ} {D : Set ℝ} {A xi phi : TParam} {A' xi' phi' : List ℕ → ℝ → ℝ} (hA : ParamIs S D A A') (hx : ParamIs S D xi xi')
    (hp : ParamIs S D phi phi') : DamageIs S D (tHayhurstLeckie A xi phi) fun i => hayhurstLeckie (A' i) (xi' i) (phi' i) where
  rate s σ d δ t θ T τ e ε hs hd ht hT he := by
    have h1 := hA.at hT
    have h2 := hx.at hT
    have h3 := hp.at hT
    have h4 := hs.is
    have h5 := hd.is
    eapply pair_is
    · eapply Is.congr
      · tensI
      · intros; rfl
    · eapply Is.congr
      · tensI
      · intros; rfl
  drate_ds s σ d δ t θ T τ e ε hs hd ht hT he := by
    have h1 := hA.at hT
    have h2 := hx.at hT
    have h3 := hp.at hT
    have h4 := hs.is
    have h5 := hd.is
    eapply Is.congr
    · dsimp only [tHayhurstLeckie]
      tensI
    · intros; rfl
  drate_de s σ d δ t θ T τ e ε hs hd ht hT he := full_like he 0

theorem constantDamage_is {S : List ℕ} {D : Set ℝ} {R : TParam} {R' : List ℕ → ℝ → ℝ} (hR : ParamIs S D R R') :
    DamageIs S D (tConstantDamage R) fun i => constantDamage (R' i) where
  rate s σ d δ t θ T τ e ε hs hd ht hT he := pair_is ((full_like hs 1).mul_left (hR.at hT)) (full_like hd 0)
  drate_ds s σ d δ t θ T τ e ε hs hd ht hT he := full_like hs 0
  drate_de s σ d δ t θ T τ e ε hs hd ht hT he := full_like he 0

theorem larsonMiller_is {S : List ℕ} {D : Set ℝ} {C A B : TParam} {C' A' B' : List ℕ → ℝ → ℝ} (hC : ParamIs S D C C') (hA : ParamIs S D A A')
    (hB : ParamIs S D B B') (eps : ℝ) : DamageIs S D (tLarsonMiller C A B eps) fun i => larsonMiller (C' i) (A' i) (B' i) eps where
  rate s σ d δ t θ T τ e ε hs hd ht hT he := by
    have h1 := hC.at hT
    have h2 := hA.at hT
    have h3 := hB.at hT
    have h4 := hs.is
    have h5 := hd.is
    have h6 := hT.1.is
    eapply pair_is
    · eapply Is.congr
      · tensI
      · intros; rfl
    · eapply Is.congr
      · tensI
      · intros; rfl
  drate_ds s σ d δ t θ T τ e ε hs hd ht hT he := by
    have h1 := hC.at hT
    have h2 := hA.at hT
    have h3 := hB.at hT
    have h4 := hs.is
    have h5 := hd.is
    have h6 := hT.1.is
    eapply Is.congr
    · dsimp only [tLarsonMiller]
      tensI
    · intros; rfl
  drate_de s σ d δ t θ T τ e ε hs hd ht hT he := full_like he 0

/-! ## Models -/

theorem Vec.cons {S : List ℕ} {n : ℕ} {x y : TE} {f : List ℕ → ℝ} {w : List ℕ → Fin n → ℝ} (hx : Is S x f) (hy : Vec S y w) :
    Vec S (Tensor.cat (Tensor.unsq x) y) fun i => (Fin.cons (f i) (w i) : Fin (n + 1) → ℝ) := by
  have h := hx.unsq.cat hy.is
  rw [Nat.add_comm] at h
  refine Vec.of_is h fun i _ j => ?_
  refine Fin.cases ?_ (fun j => ?_) j
  · rfl
  · exact vecF_cons w j i

theorem Vec.snoc {S : List ℕ} {n : ℕ} {x y : TE} {f : List ℕ → ℝ} {w : List ℕ → Fin n → ℝ} (hx : Vec S x w) (hy : Is S y f) :
    Vec S (Tensor.cat x (Tensor.unsq y)) fun i => (Fin.snoc (w i) (f i) : Fin (n + 1) → ℝ) := by
  refine Vec.of_is (hx.is.cat hy.unsq) fun i _ j => ?_
  refine Fin.lastCases ?_ (fun j => ?_) j
  · change (if n < n then _ else f i) = _
    rw [if_neg (by omega), Fin.snoc_last]
  · change (if j.val < n then vecF w (j.val :: i) else _) = _
    rw [if_pos j.isLt, vecF_cons, Fin.snoc_castSucc]

theorem Mat.consCol {S : List ℕ} {k n : ℕ} {x y : TE} {v : List ℕ → Fin k → ℝ} {w : List ℕ → Fin k → Fin n → ℝ} (hx : Mat (m := 1) S x fun i r _ => v i r)
    (hy : Mat S y w) : Mat S (Tensor.cat x y) fun i r => (Fin.cons (v i r) (w i r) : Fin (n + 1) → ℝ) := by
  have h := hx.is.cat hy.is
  rw [Nat.add_comm] at h
  refine Mat.of_is h fun i _ r j => ?_
  refine Fin.cases ?_ (fun j => ?_) j
  · exact matF_cons (fun i r (_ : Fin 1) => v i r) r 0 i
  · exact matF_cons w r j i

theorem Mat.snocCol {S : List ℕ} {k n : ℕ} {x y : TE} {v : List ℕ → Fin k → ℝ} {w : List ℕ → Fin k → Fin n → ℝ} (hx : Mat S x w)
    (hy : Mat (m := 1) S y fun i r _ => v i r) : Mat S (Tensor.cat x y) fun i r => (Fin.snoc (w i r) (v i r) : Fin (n + 1) → ℝ) := by
  refine Mat.of_is (hx.is.cat hy.is) fun i _ r j => ?_
  refine Fin.lastCases ?_ (fun j => ?_) j
  · change (if n < n then _ else matF _ ((n - n) :: r.val :: i)) = _
    rw [if_neg (by omega), Fin.snoc_last, Nat.sub_self]
    exact matF_cons (fun i r (_ : Fin 1) => v i r) r 0 i
  · change (if j.val < n then matF w (j.val :: r.val :: i) else _) = _
    rw [if_pos j.isLt, matF_cons, Fin.snoc_castSucc]

theorem Mat.consRow {S : List ℕ} {k n : ℕ} {x y : TE} {v : List ℕ → Fin k → ℝ} {w : List ℕ → Fin n → Fin k → ℝ} (hx : Mat (n := 1) S x fun i _ => v i)
    (hy : Mat S y w) : Mat S (Tensor.catRow x y) fun i => (Fin.cons (v i) (w i) : Fin (n + 1) → Fin k → ℝ) := by
  have h := hx.is.catRow hy.is
  rw [Nat.add_comm] at h
  refine Mat.of_is h fun i _ r c => ?_
  refine Fin.cases ?_ (fun j => ?_) r
  · exact matF_cons (fun i (_ : Fin 1) => v i) 0 c i
  · exact matF_cons w j c i

theorem Mat.snocRow {S : List ℕ} {k n : ℕ} {x y : TE} {v : List ℕ → Fin k → ℝ} {w : List ℕ → Fin n → Fin k → ℝ} (hx : Mat S x w)
    (hy : Mat (n := 1) S y fun i _ => v i) : Mat S (Tensor.catRow x y) fun i => (Fin.snoc (w i) (v i) : Fin (n + 1) → Fin k → ℝ) := by
  refine Mat.of_is (hx.is.catRow hy.is) fun i _ r c => ?_
  refine Fin.lastCases ?_ (fun j => ?_) r
  · change (if n < n then _ else matF _ (c.val :: (n - n) :: i)) = _
    rw [if_neg (by omega), Fin.snoc_last, Nat.sub_self]
    exact matF_cons (fun i (_ : Fin 1) => v i) 0 c i
  · change (if j.val < n then matF w (c.val :: j.val :: i) else _) = _
    rw [if_pos j.isLt, matF_cons, Fin.snoc_castSucc]

/-- `x[..., None]` of vectors: one column -/
theorem Vec.col {S : List ℕ} {n : ℕ} {x : TE} {v : List ℕ → Fin n → ℝ} (h : Vec S x v) : Mat (m := 1) S (Tensor.unsq x) fun i r _ => v i r :=
  Mat.of_is h.is.unsq fun i _ r _ => vecF_cons v r i

/-- `x[..., None, :]` of vectors: one row -/
theorem Vec.row {S : List ℕ} {n : ℕ} {x : TE} {v : List ℕ → Fin n → ℝ} (h : Vec S x v) : Mat (n := 1) S (Tensor.unsqRow x) fun i _ => v i :=
  Mat.of_is h.is.unsqRow fun i _ _ c => vecF_cons v c i

/-- `x[..., None, None]` -/
theorem Is.one {S : List ℕ} {x : TE} {f : List ℕ → ℝ} (h : Is S x f) : Mat (n := 1) (m := 1) S (Tensor.unsq (Tensor.unsq x)) fun i _ _ => f i :=
  Mat.of_is h.unsq.unsq fun _ _ _ _ => rfl

theorem outputs_is {S : List ℕ} {m : ℕ} {a b c d : TE} {L : List ℕ → ModelOut m} (ha : Vec S a fun i => (L i).ydot) (hb : Mat S b fun i => (L i).J)
    (hc : Vec S c fun i => (L i).Je) (hd : Vec S d fun i => (L i).JT) : ∃ o : TOut, outputs a b c d = .ok o ∧ VecT S o.ydot (fun i => (L i).ydot) ∧
      MatT S o.J (fun i => (L i).J) ∧ VecT S o.Je (fun i => (L i).Je) ∧ VecT S o.JT (fun i => (L i).JT) := by
  obtain ⟨a, rfl, ha⟩ := ha
  obtain ⟨b, rfl, hb⟩ := hb
  obtain ⟨c, rfl, hc⟩ := hc
  obtain ⟨d, rfl, hd⟩ := hd
  exact ⟨⟨a, b, c, d⟩, rfl, ha, hb, hc, hd⟩

theorem inelastic_is {S : List ℕ} {D : Set ℝ} {n : ℕ} {E : TParam} {E' : List ℕ → ℝ → ℝ} {F : TFlowRule} {L : List ℕ → FlowRule n} (hE : ParamIs S D E E')
    (hF : FlowIs S D F L) : ModelIs S D (tInelastic E F) fun i => inelastic (E' i) (L i) := by
  intro t θ y v e ε T τ ht hy he hT
  obtain ⟨s, es, hs⟩ : Is S (Tensor.sel 0 (y : TE)) fun i => v i 0 :=
    (Is.sel 0 hy.isT.is (Nat.succ_pos n)).congr fun i _ => vecF_cons v 0 i
  obtain ⟨h, eh, hh⟩ : Vec (n := n) S (Tensor.sliceFrom 1 (y : TE)) fun i j => v i j.succ := by
    have h1 : Is ((1 + n) :: S) (y : TE) (vecF v) := by rw [Nat.add_comm 1 n]; exact hy.isT.is
    refine Vec.of_is (Is.sliceFrom 1 h1) fun i _ j => ?_
    change vecF v ((1 + j.val) :: i) = _
    rw [Nat.add_comm 1 j.val]
    exact vecF_cons v j.succ i
  let a : FlowArgs S D n := ⟨s, h, t, T, e, fun i => v i 0, fun i j => v i j.succ, θ, τ, ε, hs, hh, ht, hT, he⟩
  obtain ⟨f, df, ef, hf, hdf⟩ := hF.flow a
  obtain ⟨r, dr, er, hr, hdr⟩ := hF.hist a
  have kE := hE.at hT
  have k1 := hF.dflow_dh a
  have k2 := hF.dflow_de a
  have k3 := hF.dhist_ds a
  have k4 := hF.dhist_de a
  dsimp only [a] at ef er k1 k2 k3 k4
  simp only [tInelastic, es, eh, TE.bind_ok, ef, er, withPair_ok]
  refine outputs_is (L := fun i => inelastic (E' i) (L i) (θ i) (v i) (ε i) (τ i)) ?_ ?_ ?_ ?_
  · exact Vec.cons (Is.mul_right kE (he.is.sub_left hf.is.rep)) ⟨r, rfl, hr⟩
  · refine Mat.consRow (Mat.consCol (Is.one (Is.mul_right kE.neg hdf.is))
      (w := fun i _ c => -E' i (τ i) * (L i).dflow_dh (v i 0) (fun j => v i j.succ) (θ i) (τ i) (ε i) c) ?_) (Mat.consCol k3.col ⟨dr, rfl, hdr⟩)
    exact Mat.of_is (Is.mul_right ((kE.unsq 1).unsq n).neg k1.is) fun i _ r c => congrArg (_ * ·) (matF_cons _ r c i)
  · exact Vec.cons (Is.mul_right kE (Is.sub_right (Rep.num S 1) k2)) k4
  · exact vec_full_like hy 0

theorem damaged_is {S : List ℕ} {D : Set ℝ} {n : ℕ} {E : TParam} {E' : List ℕ → ℝ → ℝ} {F : TFlowRule} {L : List ℕ → FlowRule n} {X : TDamage} {DL : List ℕ → Damage}
    (hE : ParamIs S D E E') (hF : FlowIs S D F L) (hD : DamageIs S D X DL) : ModelIs S D (tDamaged E F X) fun i => damaged (E' i) (L i) (DL i) := by
  intro t θ y v e ε T τ ht hy he hT
  obtain ⟨s, es, hs⟩ : Is S (Tensor.sel 0 (y : TE)) fun i => v i 0 :=
    (Is.sel 0 hy.isT.is (Nat.succ_pos _)).congr fun i _ => vecF_cons v 0 i
  obtain ⟨h, eh, hh⟩ : Vec (n := n) S (Tensor.slice 1 (1 + F.nhist) (y : TE)) fun i => midPart (v i) := by
    rw [hF.nhist]
    refine Vec.of_is (Is.slice 1 n hy.isT.is (by omega)) fun i _ j => ?_
    change vecF v ((1 + j.val) :: i) = _
    rw [Nat.add_comm 1 j.val]
    exact vecF_cons v j.castSucc.succ i
  obtain ⟨d, ed, hd⟩ : Is S (Tensor.selLast (y : TE)) fun i => v i (Fin.last (n + 1)) :=
    (Is.selLast hy.isT.is).congr fun i _ => vecF_cons v (Fin.last (n + 1)) i
  have h1d : Is S (num 1 - (d : TE)) fun i => 1 - v i (Fin.last (n + 1)) := Is.sub_right (Rep.num S 1) hd.is
  obtain ⟨se, ese, hse⟩ : Is S ((s : TE) / (num 1 - (d : TE))) fun i => v i 0 / (1 - v i (Fin.last (n + 1))) := hs.is.div_left h1d.rep
  let a : FlowArgs S D n := ⟨se, h, t, T, e, fun i => v i 0 / (1 - v i (Fin.last (n + 1))), fun i => midPart (v i), θ, τ, ε, hse, hh, ht, hT, he⟩
  obtain ⟨f, df, ef, hf, hdf⟩ := hF.flow a
  obtain ⟨r, dr, er, hr, hdr⟩ := hF.hist a
  obtain ⟨w, dw, ew, hw, hdw⟩ := hD.rate se _ d _ t _ T _ e _ hse hd ht hT he
  have w1 := hD.drate_ds se _ d _ t _ T _ e _ hse hd ht hT he
  have w2 := hD.drate_de se _ d _ t _ T _ e _ hse hd ht hT he
  have kE := hE.at hT
  have k1 := hF.dflow_dh a
  have k2 := hF.dflow_de a
  have k3 := hF.dhist_ds a
  have k4 := hF.dhist_de a
  dsimp only [a] at ef er k1 k2 k3 k4
  simp only [tDamaged, es, eh, ed, ese, TE.bind_ok, ef, er, ew, withPair_ok]
  refine outputs_is (L := fun i => damaged (E' i) (L i) (DL i) (θ i) (v i) (ε i) (τ i)) ?_ ?_ ?_ ?_
  · exact Vec.cons ((h1d.mul_left kE).mul_left (he.is.sub_left hf.is.rep).rep) (Vec.snoc ⟨r, rfl, hr⟩ hw.is)
  · refine Mat.consRow (Mat.consCol (Is.one (Is.mul_right kE.neg hdf.is)) (Mat.snocCol
        (w := fun i _ c => -E' i (τ i) * (L i).dflow_dh (v i 0 / (1 - v i (Fin.last (n + 1)))) (midPart (v i)) (θ i) (τ i) (ε i) c *
          (1 - v i (Fin.last (n + 1)))) ?_ (Is.one ?_)))
      (Mat.snocRow (Mat.consCol (Vec.col ?_) (Mat.snocCol ⟨dr, rfl, hdr⟩ (Vec.col ?_)))
        (Mat.consCol (Is.one (w1.div_left h1d.rep)) (Mat.snocCol (Vec.row (vec_full_like hh 0)) (Is.one hdw.is))))
    · exact Mat.of_is ((Is.mul_right ((kE.unsq 1).unsq n).neg k1.is).mul_left ((h1d.rep.unsq 1).unsq n)) fun i _ r c =>
        congrArg (_ * · * _) (matF_cons _ r c i)
    · exact (Is.mul_right kE.neg (he.is.sub_left hf.is.rep)).sub_left ((((Is.mul_right kE hdf.is).mul_left hs.is.rep).div_left h1d.rep).rep)
    · exact Vec.of_is (k3.is.div_left (h1d.rep.unsq n)) fun i _ j => congrArg (· / _) (vecF_cons _ j i)
    · refine Vec.of_is ((k3.is.mul_left (hs.is.rep.unsq n)).div_left (((Rep.num _ 1).sub (hd.is.rep.unsq n)).pow (Rep.num _ 2))) fun i _ j => ?_
      change vecF _ (j.val :: i) * _ / (_ : ℝ) ^ (2 : ℝ) = _
      rw [vecF_cons, Real.rpow_two]
      rfl
  · exact Vec.cons ((Is.mul_right kE h1d).mul_left (Is.sub_right (Rep.num S 1) k2).rep) (Vec.snoc k4 w2)
  · exact vec_full_like hy 0

end Pyoptmat.Spec
