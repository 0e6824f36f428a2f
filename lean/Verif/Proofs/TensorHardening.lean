import Verif.Proofs.Tensor
import Verif.Proofs.Slices

/-! # The torch programs of the temperature parameters and hardening models act point by point -/

namespace Pyoptmat.Spec

open Pyoptmat.Tensor Pyoptmat.Material

/-! ## Vectors and matrices -/

/-- the entries of a tensor of vectors -/
noncomputable def vecF {n : ℕ} (v : List ℕ → Fin n → ℝ) : List ℕ → ℝ
  | [] => 0
  | k :: i => if h : k < n then v i ⟨k, h⟩ else 0

/-- the entries of a tensor of matrices -/
noncomputable def matF {n m : ℕ} (M : List ℕ → Fin n → Fin m → ℝ) : List ℕ → ℝ
  | c :: r :: i => if h : r < n ∧ c < m then M i ⟨r, h.1⟩ ⟨c, h.2⟩ else 0
  | _ => 0

theorem vecF_cons {n : ℕ} (v : List ℕ → Fin n → ℝ) (j : Fin n) (i : List ℕ) : vecF v (j.val :: i) = v i j := by
  simp [vecF]

theorem vecF_cons' {n : ℕ} (v : List ℕ → Fin n → ℝ) {k : ℕ} (hk : k < n) (i : List ℕ) : vecF v (k :: i) = v i ⟨k, hk⟩ := by
  simp [vecF, hk]

theorem matF_cons {n m : ℕ} (M : List ℕ → Fin n → Fin m → ℝ) (r : Fin n) (c : Fin m) (i : List ℕ) : matF M (c.val :: r.val :: i) = M i r c := by
  simp [matF]

theorem VecT.isT {S : List ℕ} {n : ℕ} {t : Tensor} {v : List ℕ → Fin n → ℝ} (h : VecT S t v) : IsT (n :: S) t (vecF v) := by
  refine ⟨h.1, fun i hi => ?_⟩
  obtain ⟨k, j, rfl, hk, hj⟩ := valid_cons_iff.1 hi
  rw [vecF_cons' v hk, ← h.2 j hj ⟨k, hk⟩]

theorem Vec.is {S : List ℕ} {n : ℕ} {x : TE} {v : List ℕ → Fin n → ℝ} (h : Vec S x v) : Is (n :: S) x (vecF v) := by
  obtain ⟨t, rfl, ht⟩ := h
  exact ht.isT.is

theorem MatT.isT {S : List ℕ} {n m : ℕ} {t : Tensor} {M : List ℕ → Fin n → Fin m → ℝ} (h : MatT S t M) : IsT (m :: n :: S) t (matF M) := by
  refine ⟨h.1, fun i hi => ?_⟩
  obtain ⟨k, j, rfl, hk, hj⟩ := valid_cons_iff.1 hi
  obtain ⟨k', j', rfl, hk', hj'⟩ := valid_cons_iff.1 hj
  exact (h.2 j' hj' ⟨k', hk'⟩ ⟨k, hk⟩).trans (matF_cons M ⟨k', hk'⟩ ⟨k, hk⟩ j').symm

theorem Mat.is {S : List ℕ} {n m : ℕ} {x : TE} {M : List ℕ → Fin n → Fin m → ℝ} (h : Mat S x M) : Is (m :: n :: S) x (matF M) := by
  obtain ⟨t, rfl, ht⟩ := h
  exact ht.isT.is

theorem IsT.vec {S : List ℕ} {n : ℕ} {t : Tensor} {f : List ℕ → ℝ} {v : List ℕ → Fin n → ℝ} (h : IsT (n :: S) t f)
    (e : ∀ i, Valid S i → ∀ j : Fin n, f (j.val :: i) = v i j) : VecT S t v :=
  ⟨h.1, fun i hi j => (h.2 _ (valid_cons.2 ⟨j.isLt, hi⟩)).trans (e i hi j)⟩

theorem IsT.mat {S : List ℕ} {n m : ℕ} {t : Tensor} {f : List ℕ → ℝ} {M : List ℕ → Fin n → Fin m → ℝ} (h : IsT (m :: n :: S) t f)
    (e : ∀ i, Valid S i → ∀ (r : Fin n) (c : Fin m), f (c.val :: r.val :: i) = M i r c) : MatT S t M :=
  ⟨h.1, fun i hi r c => (h.2 _ (valid_cons.2 ⟨c.isLt, valid_cons.2 ⟨r.isLt, hi⟩⟩)).trans (e i hi r c)⟩

theorem Vec.of_is {S : List ℕ} {n : ℕ} {x : TE} {f : List ℕ → ℝ} {v : List ℕ → Fin n → ℝ} (h : Is (n :: S) x f)
    (e : ∀ i, Valid S i → ∀ j : Fin n, f (j.val :: i) = v i j) : Vec S x v := by
  obtain ⟨t, rfl, ht⟩ := h
  exact ⟨t, rfl, ht.vec e⟩

theorem Mat.of_is {S : List ℕ} {n m : ℕ} {x : TE} {f : List ℕ → ℝ} {M : List ℕ → Fin n → Fin m → ℝ} (h : Is (m :: n :: S) x f)
    (e : ∀ i, Valid S i → ∀ (r : Fin n) (c : Fin m), f (c.val :: r.val :: i) = M i r c) : Mat S x M := by
  obtain ⟨t, rfl, ht⟩ := h
  exact ⟨t, rfl, ht.mat e⟩


/-- builds the entries of an expression of a known shape from the facts about its parts in the context -/
syntax "tensI" : tactic

/-- builds the entries of an expression from the facts about its parts in the context -/
macro "tens" : tactic => `(tactic| repeat' (first
  | assumption
  | exact Rep.num _ _
  | eapply Rep.neg
  | eapply Rep.map
  | eapply Rep.add
  | eapply Rep.sub
  | eapply Rep.mul
  | eapply Rep.div
  | eapply Rep.pow
  | eapply Rep.unsq
  | (eapply Is.rep; tensI)))

macro_rules
  | `(tactic| tensI) => `(tactic| first
    | assumption
    | exact Is.full _ _
    | (eapply Is.neg; tensI)
    | (eapply Is.map; tensI)
    | (eapply Is.unsq; tensI)
    | (eapply Is.onesLike; tensI)
    | (eapply Is.add_left <;> [tensI; tens])
    | (eapply Is.add_right <;> [tens; tensI])
    | (eapply Is.sub_left <;> [tensI; tens])
    | (eapply Is.sub_right <;> [tens; tensI])
    | (eapply Is.mul_left <;> [tensI; tens])
    | (eapply Is.mul_right <;> [tens; tensI])
    | (eapply Is.div_left <;> [tensI; tens])
    | (eapply Is.div_right <;> [tens; tensI])
    | (eapply Is.pow_left <;> [tensI; tens])
    | (eapply Is.pow_right <;> [tens; tensI]))

theorem ParamIs.at {S : List ℕ} {D : Set ℝ} {p : TParam} {P : List ℕ → ℝ → ℝ} (h : ParamIs S D p P) {T : Tensor} {τ : List ℕ → ℝ} (hT : TempT S D T τ) :
    Rep S (p.call T) fun i => P i (τ i) := h T τ hT

/-! ## Temperature parameters -/

theorem constant_is {S : List ℕ} {D : Set ℝ} {x : Tensor} {c : List ℕ → ℝ} (pScale scaling : ℝ → ℝ) (h : Rep S x c) :
    ParamIs S D (tConstant x pScale scaling) fun i T => Temperature.forward scaling (Temperature.constantValue pScale (c i)) T :=
  fun _ _ _ => (h.map pScale).map scaling

theorem shear_is {S : List ℕ} {D : Set ℝ} {A : Tensor} {a : List ℕ → ℝ} {mu : TParam} {M : List ℕ → ℝ → ℝ} (AScale scaling : ℝ → ℝ) (hA : Rep S A a)
    (hmu : ParamIs S D mu M) :
    ParamIs S D (tShear A mu AScale scaling) fun i T => Temperature.forward scaling (Temperature.shearValue AScale (a i) (M i)) T := by
  intro T τ hT
  have h := hmu.at hT
  exact ((hA.map AScale).mul h).map scaling

theorem shearExp_is {S : List ℕ} {D : Set ℝ} {A : Tensor} {a : List ℕ → ℝ} {mu : TParam} {M : List ℕ → ℝ → ℝ} (AScale scaling : ℝ → ℝ) (hA : Rep S A a)
    (hmu : ParamIs S D mu M) :
    ParamIs S D (tShearExp A mu AScale scaling) fun i T => Temperature.forward scaling (Temperature.shearExpValue AScale (a i) (M i)) T := by
  intro T τ hT
  have h := hmu.at hT
  exact (((hA.map AScale).map Real.exp).mul h).map scaling

theorem mts_is {S : List ℕ} {D : Set ℝ} {tau0 g0 q p k b : Tensor} {tau0' g0' q' p' k' b' : List ℕ → ℝ} {mu : TParam} {M : List ℕ → ℝ → ℝ}
    (tau0Scale g0Scale qScale pScale scaling : ℝ → ℝ) (h1 : Rep S tau0 tau0') (h2 : Rep S g0 g0') (h3 : Rep S q q') (h4 : Rep S p p')
    (h5 : Rep S k k') (h6 : Rep S b b') (hmu : ParamIs S D mu M) :
    ParamIs S D (tMts tau0 g0 q p k b mu tau0Scale g0Scale qScale pScale scaling) fun i T => Temperature.forward scaling
      (Temperature.mtsValue (tau0Scale (tau0' i)) (g0Scale (g0' i)) (qScale (q' i)) (pScale (p' i)) (k' i) (b' i) (M i)) T := by
  intro T τ hT
  have h := hmu.at hT
  have hT' := hT.1.is.rep
  refine Rep.map scaling ?_
  eapply Rep.congr
  · dsimp only [tMts]
    tens
  · intro i hi; rfl

theorem kmRate_is {S : List ℕ} {D : Set ℝ} {A b k : Tensor} {a b' k' : List ℕ → ℝ} {mu : TParam} {M : List ℕ → ℝ → ℝ} (AScale : ℝ → ℝ) (cutoff : ℝ)
    (scaling : ℝ → ℝ) (hA : Rep S A a) (hb : Rep S b b') (hk : Rep S k k') (hmu : ParamIs S D mu M) :
    ParamIs S D (tKmRate A mu b k AScale cutoff scaling) fun i T =>
      Temperature.forward scaling (Temperature.kmRateValue (AScale (a i)) (M i) (b' i) (k' i) cutoff) T := by
  intro T τ hT
  have h := hmu.at hT
  have hT' := hT.1.is.rep
  refine Rep.map scaling ?_
  eapply Rep.congr
  · dsimp only [tKmRate]
    tens
  · intro i hi; rfl

theorem kmViscosity_is {S : List ℕ} {D : Set ℝ} {A B eps0 b k : Tensor} {a B' eps0' b' k' : List ℕ → ℝ} {mu : TParam} {M : List ℕ → ℝ → ℝ}
    (AScale BScale scaling : ℝ → ℝ) (hA : Rep S A a) (hB : Rep S B B') (he : Rep S eps0 eps0') (hb : Rep S b b') (hk : Rep S k k')
    (hmu : ParamIs S D mu M) :
    ParamIs S D (tKmViscosity A B mu eps0 b k AScale BScale scaling) fun i T => Temperature.forward scaling
      (Temperature.kmViscosityValue (AScale (a i)) (BScale (B' i)) (M i) (eps0' i) (b' i) (k' i)) T := by
  intro T τ hT
  have h := hmu.at hT
  have hn := (kmRate_is AScale 1000 (fun x => x) hA hb hk hmu).at hT
  refine Rep.map scaling ?_
  eapply Rep.congr
  · dsimp only [tKmViscosity]
    tens
  · intro i hi; rfl

theorem arrhenius_is {S : List ℕ} {D : Set ℝ} {A Q : Tensor} {a q : List ℕ → ℝ} (AScale QScale scaling : ℝ → ℝ) (hA : Rep S A a) (hQ : Rep S Q q) :
    ParamIs S D (tArrhenius A Q AScale QScale scaling) fun i T => Temperature.forward scaling (Temperature.arrheniusValue (AScale (a i)) (QScale (q i))) T := by
  intro T τ hT
  have hT' := hT.1.is.rep
  refine Rep.map scaling ?_
  eapply Rep.congr
  · dsimp only [tArrhenius]
    tens
  · intro i hi; rfl

theorem inverseArrhenius_is {S : List ℕ} {D : Set ℝ} {A Q : Tensor} {a q : List ℕ → ℝ} (AScale QScale scaling : ℝ → ℝ) (hA : Rep S A a) (hQ : Rep S Q q) :
    ParamIs S D (tInverseArrhenius A Q AScale QScale scaling) fun i T =>
      Temperature.forward scaling (Temperature.inverseArrheniusValue (AScale (a i)) (QScale (q i))) T := by
  intro T τ hT
  have hT' := hT.1.is.rep
  refine Rep.map scaling ?_
  eapply Rep.congr
  · dsimp only [tInverseArrhenius]
    tens
  · intro i hi; rfl

theorem polynomial_is {S : List ℕ} {D : Set ℝ} {coefs : Tensor} {n : ℕ} {c : ℕ → List ℕ → ℝ} (scaleFn scaling : ℝ → ℝ)
    (hn : coefs.shape.getLast? = some (n + 1)) (hc : ∀ j ≤ n, Rep S (firstIndex j coefs) (c j)) :
    ParamIs S D (tPolynomial coefs scaleFn scaling) fun i T => Temperature.forward scaling
      (fun T => (List.range n).foldl (fun res j => res * T + scaleFn (c (j + 1) i)) (0 + scaleFn (c 0 i))) T := by
  intro T τ hT
  refine Rep.map scaling ?_
  have ha : ∀ j ≤ n, Rep S ((firstIndex j ⟨coefs.shape, fun i => scaleFn (coefs.data i)⟩ : Tensor) : TE) fun i => scaleFn (c j i) := by
    intro j hj
    obtain ⟨t, ht, h1, h2⟩ := hc j hj
    obtain rfl : firstIndex j coefs = t := by injection ht
    exact ⟨_, rfl, h1, fun i hi => congrArg scaleFn (h2 i hi)⟩
  have key : ∀ (l : List ℕ) (x : TE) (f : List ℕ → ℝ), (∀ j ∈ l, j < n) → Is S x f →
      Is S (l.foldl (fun res j => inplace (· + ·) (inplace (· * ·) res T)
        ((firstIndex (j + 1) ⟨coefs.shape, fun i => scaleFn (coefs.data i)⟩ : Tensor) : TE)) x)
        fun i => l.foldl (fun res j => res * τ i + scaleFn (c (j + 1) i)) (f i) := by
    intro l
    induction l with
    | nil => exact fun x f _ h => h
    | cons j l ih =>
      intro x f hl h
      simp only [List.foldl_cons]
      exact ih _ _ (fun k hk => hl k (List.mem_cons_of_mem _ hk))
        ((h.inplace (· * ·) hT.1.is.rep).inplace (· + ·) (ha (j + 1) (hl j List.mem_cons_self)))
  have e : (tPolynomial coefs scaleFn scaling).value T =
      (List.range n).foldl (fun res j => inplace (· + ·) (inplace (· * ·) res T)
        ((firstIndex (j + 1) ⟨coefs.shape, fun i => scaleFn (coefs.data i)⟩ : Tensor) : TE))
        (Tensor.full T.shape 0 + ((firstIndex 0 ⟨coefs.shape, fun i => scaleFn (coefs.data i)⟩ : Tensor) : TE)) := by
    change (match coefs.shape.getLast? with
      | none => _ | some 0 => _ | some (n + 1) => _) = _
    rw [hn]
  rw [e]
  refine (key _ _ _ (fun j hj => List.mem_range.1 hj) (Is.add_left (hT.1.1 ▸ Is.full S 0) (ha 0 (Nat.zero_le _)))).rep

/-! ## Hardening models -/

theorem h0_is {S : List ℕ} {h : Tensor} {η : List ℕ → Fin 1 → ℝ} (hh : VecT S h η) : Is S (h0 h) fun i => η i 0 :=
  (Is.sel 0 hh.isT.is one_pos).congr fun i _ => vecF_cons η 0 i

theorem vec_full {S : List ℕ} {n : ℕ} (c : ℝ) : Vec (n := n) S (Tensor.full (n :: S) c) fun _ _ => c :=
  Vec.of_is (Is.full _ _) fun _ _ _ => rfl

theorem mat_full {S : List ℕ} {n m : ℕ} (c : ℝ) : Mat (n := n) (m := m) S (Tensor.full (m :: n :: S) c) fun _ _ _ => c :=
  Mat.of_is (Is.full _ _) fun _ _ _ _ => rfl

theorem vec_full_like {S : List ℕ} {n : ℕ} {h : Tensor} {η : List ℕ → Fin n → ℝ} (hh : VecT S h η) (c : ℝ) :
    Vec (n := n) S (Tensor.full h.shape c) fun _ _ => c := by
  rw [hh.1]
  exact vec_full c

theorem unsq_vec {S : List ℕ} {x : TE} {f : List ℕ → ℝ} {v : List ℕ → Fin 1 → ℝ} (h : Is S x f) (e : ∀ i, Valid S i → ∀ j, f i = v i j) :
    Vec S (Tensor.unsq x) v := Vec.of_is h.unsq fun i hi j => e i hi j

theorem unsq_mat {S : List ℕ} {x : TE} {f : List ℕ → ℝ} {v : List ℕ → Fin 1 → Fin 1 → ℝ} (h : Is S x f)
    (e : ∀ i, Valid S i → ∀ r c, f i = v i r c) : Mat S (Tensor.unsq (Tensor.unsq x)) v := Mat.of_is h.unsq.unsq fun i hi r c => e i hi r c

theorem voce_is {S : List ℕ} {D : Set ℝ} {R d : TParam} {R' d' : List ℕ → ℝ → ℝ} (hR : ParamIs S D R R') (hd : ParamIs S D d d') :
    HardeningIs S D (tVoce R d) fun i => voce (R' i) (d' i) where
  nhist := rfl
  value h η hh := h0_is hh
  dvalue h η hh := by
    change Vec S (Tensor.full (1 :: h.shape.tail) 1) _
    rw [hh.1]
    exact vec_full 1
  rate a ep π hp := by
    have h1 := h0_is a.hh
    have h2 := hR.at a.hT
    have h3 := hd.at a.hT
    have h4 := hp.is
    eapply unsq_vec
    · tensI
    · intros; rfl
  drate_ds a ep π hp := vec_full_like a.hh 0
  drate_dh a ep π hp := by
    have h1 := h0_is a.hh
    have h3 := hd.at a.hT
    have h4 := hp.is
    refine unsq_mat (Is.mul_right (h3.neg.mul h1.onesLike.rep) (h4.map abs)) ?_
    intro i hi r c
    obtain rfl : r = 0 := Subsingleton.elim _ _
    obtain rfl : c = 0 := Subsingleton.elim _ _
    rfl
  drate_dep a ep π hp := by
    have h1 := h0_is a.hh
    have h2 := hR.at a.hT
    have h3 := hd.at a.hT
    have h4 := hp.is
    exact unsq_mat (Is.mul_right (h3.mul (h2.sub h1.rep)) (h4.map sgn)) fun _ _ _ _ => rfl
  drate_de a ep π hp := vec_full_like a.hh 0

theorem dvalue_one {S : List ℕ} {n : ℕ} {h : Tensor} {η : List ℕ → Fin n → ℝ} (hh : VecT S h η) :
    Vec (n := n) S (Tensor.full (n :: h.shape.tail) 1) fun _ _ => 1 := by
  rw [hh.1]
  exact vec_full 1

/-- a one by one matrix -/
theorem unsq_mat1 {S : List ℕ} {x : TE} {f : List ℕ → ℝ} {v : List ℕ → Matrix (Fin 1) (Fin 1) ℝ} (h : Is S x f)
    (e : ∀ i, Valid S i → f i = v i 0 0) : Mat S (Tensor.unsq (Tensor.unsq x)) v :=
  unsq_mat h fun i hi r c => by
    obtain rfl : r = 0 := Subsingleton.elim _ _
    obtain rfl : c = 0 := Subsingleton.elim _ _
    exact e i hi

theorem theta0Voce_is {S : List ℕ} {D : Set ℝ} {tau theta : TParam} {tau' theta' : List ℕ → ℝ → ℝ} (hR : ParamIs S D tau tau') (hd : ParamIs S D theta theta') :
    HardeningIs S D (tTheta0Voce tau theta) fun i => theta0Voce (tau' i) (theta' i) where
  nhist := rfl
  value h η hh := h0_is hh
  dvalue h η hh := dvalue_one hh
  rate a ep π hp := by
    have h1 := h0_is a.hh
    have h2 := hR.at a.hT
    have h3 := hd.at a.hT
    have h4 := hp.is
    eapply unsq_vec
    · tensI
    · intros; rfl
  drate_ds a ep π hp := vec_full_like a.hh 0
  drate_dh a ep π hp := by
    have h1 := h0_is a.hh
    have h2 := hR.at a.hT
    have h3 := hd.at a.hT
    have h4 := hp.is
    eapply unsq_mat1
    · tensI
    · intros; rfl
  drate_dep a ep π hp := by
    have h1 := h0_is a.hh
    have h2 := hR.at a.hT
    have h3 := hd.at a.hT
    have h4 := hp.is
    eapply unsq_mat
    · tensI
    · intros; rfl
  drate_de a ep π hp := vec_full_like a.hh 0

theorem theta0Recovery_is {S : List ℕ} {D : Set ℝ} {tau theta R0 r1 r2 : TParam} {tau' theta' R0' r1' r2' : List ℕ → ℝ → ℝ} (hR : ParamIs S D tau tau')
    (hd : ParamIs S D theta theta') (h0 : ParamIs S D R0 R0') (hr1 : ParamIs S D r1 r1') (hr2 : ParamIs S D r2 r2') :
    HardeningIs S D (tTheta0Recovery tau theta R0 r1 r2) fun i => theta0Recovery (tau' i) (theta' i) (R0' i) (r1' i) (r2' i) where
  nhist := rfl
  value h η hh := h0_is hh
  dvalue h η hh := dvalue_one hh
  rate a ep π hp := by
    have h1 := h0_is a.hh
    have h2 := hR.at a.hT
    have h3 := hd.at a.hT
    have h4 := hp.is
    have h5 := h0.at a.hT
    have h6 := hr1.at a.hT
    have h7 := hr2.at a.hT
    eapply unsq_vec
    · tensI
    · intros; rfl
  drate_ds a ep π hp := vec_full_like a.hh 0
  drate_dh a ep π hp := by
    have h1 := h0_is a.hh
    have h2 := hR.at a.hT
    have h3 := hd.at a.hT
    have h4 := hp.is
    have h5 := h0.at a.hT
    have h6 := hr1.at a.hT
    have h7 := hr2.at a.hT
    eapply Mat.of_is
    · dsimp only [tTheta0Recovery]
      tensI
    · intro i hi r c
      obtain rfl : r = 0 := Subsingleton.elim _ _
      obtain rfl : c = 0 := Subsingleton.elim _ _
      rfl
  drate_dep a ep π hp := by
    have h1 := h0_is a.hh
    have h2 := hR.at a.hT
    have h3 := hd.at a.hT
    have h4 := hp.is
    eapply unsq_mat
    · tensI
    · intros; rfl
  drate_de a ep π hp := vec_full_like a.hh 0

theorem noKinematic_is {S : List ℕ} {D : Set ℝ} : HardeningIs S D tNoKinematic fun _ => noKinematic where
  nhist := rfl
  value h η hh := by
    change Is S (Tensor.full h.shape.tail 0) _
    rw [hh.1]
    exact Is.full S 0
  dvalue h η hh := by
    change Vec S (Tensor.full (0 :: h.shape.tail) 0) _
    rw [hh.1]
    exact vec_full 0
  rate a ep π hp := vec_full_like a.hh 0
  drate_ds a ep π hp := vec_full_like a.hh 0
  drate_dh a ep π hp := by
    change Mat S (Tensor.full (0 :: 0 :: a.h.shape.tail) 0) _
    rw [a.hh.1]
    exact mat_full 0
  drate_dep a ep π hp := by
    change Mat S (Tensor.full (1 :: 0 :: a.h.shape.tail) 0) _
    rw [a.hh.1]
    exact mat_full 0
  drate_de a ep π hp := vec_full_like a.hh 0

theorem fa_is {S : List ℕ} {D : Set ℝ} {C g b r : TParam} {C' g' b' r' : List ℕ → ℝ → ℝ} (hC : ParamIs S D C C') (hg : ParamIs S D g g') (hb : ParamIs S D b b')
    (hr : ParamIs S D r r') : HardeningIs S D (tFa C g b r) fun i => fa (C' i) (g' i) (b' i) (r' i) where
  nhist := rfl
  value h η hh := h0_is hh
  dvalue h η hh := dvalue_one hh
  rate a ep π hp := by
    have h1 := h0_is a.hh
    have h2 := hC.at a.hT
    have h3 := hg.at a.hT
    have h4 := hp.is
    have h5 := hb.at a.hT
    have h6 := hr.at a.hT
    eapply unsq_vec
    · tensI
    · intros; rfl
  drate_ds a ep π hp := vec_full_like a.hh 0
  drate_dh a ep π hp := by
    have h1 := h0_is a.hh
    have h2 := hC.at a.hT
    have h3 := hg.at a.hT
    have h4 := hp.is
    have h5 := hb.at a.hT
    have h6 := hr.at a.hT
    eapply unsq_mat1
    · tensI
    · intros; rfl
  drate_dep a ep π hp := by
    have h1 := h0_is a.hh
    have h2 := hC.at a.hT
    have h3 := hg.at a.hT
    have h4 := hp.is
    eapply unsq_mat
    · tensI
    · intros; rfl
  drate_de a ep π hp := vec_full_like a.hh 0

theorem faNoRecovery_is {S : List ℕ} {D : Set ℝ} {C g : TParam} {C' g' : List ℕ → ℝ → ℝ} (hC : ParamIs S D C C') (hg : ParamIs S D g g') :
    HardeningIs S D (tFaNoRecovery C g) fun i => faNoRecovery (C' i) (g' i) where
  nhist := rfl
  value h η hh := h0_is hh
  dvalue h η hh := dvalue_one hh
  rate a ep π hp := by
    have h1 := h0_is a.hh
    have h2 := hC.at a.hT
    have h3 := hg.at a.hT
    have h4 := hp.is
    eapply unsq_vec
    · tensI
    · intros; rfl
  drate_ds a ep π hp := vec_full_like a.hh 0
  drate_dh a ep π hp := by
    have h1 := h0_is a.hh
    have h3 := hg.at a.hT
    have h4 := hp.is
    eapply unsq_mat1
    · tensI
    · intros; rfl
  drate_dep a ep π hp := by
    have h1 := h0_is a.hh
    have h2 := hC.at a.hT
    have h3 := hg.at a.hT
    have h4 := hp.is
    eapply unsq_mat
    · tensI
    · intros; rfl
  drate_de a ep π hp := vec_full_like a.hh 0

/-- `p[None, ...]` of a vector valued parameter -/
theorem VecParamIs.at {S : List ℕ} {D : Set ℝ} {n : ℕ} {p : TParam} {P : List ℕ → Fin n → ℝ → ℝ} (h : VecParamIs S D p P) {T : Tensor} {τ : List ℕ → ℝ}
    (hT : TempT S D T τ) : Rep (n :: S) (Tensor.lead (p.call T)) (vecF fun i j => P i j (τ i)) := by
  obtain ⟨t, B, e, h1, h2, h3, h4⟩ := h.2 T τ hT
  rw [e]
  refine Rep.lead (by rw [h1]; exact (fits_cons _ _ _ _).2 ⟨.inl rfl, h3⟩) (by rw [h1]; simpa using h2) fun i hi => ?_
  obtain ⟨k, j, rfl, hk, hj⟩ := valid_cons_iff.1 hi
  rw [h1, vecF_cons' _ hk, ← h4 j hj ⟨k, hk⟩]
  change t.data ((if n = 1 then 0 else k) :: bidx B j) = _
  have : (if n = 1 then 0 else k) = k := by split_ifs <;> omega
  rw [this]

/-- `-p[None, ...] * x.unsqueeze(-1)`: both sides are broadcast -/
theorem VecParamIs.neg_mul_unsq {S : List ℕ} {D : Set ℝ} {n : ℕ} {p : TParam} {P : List ℕ → Fin n → ℝ → ℝ} (h : VecParamIs S D p P) {T : Tensor} {τ : List ℕ → ℝ}
    (hT : TempT S D T τ) {x : TE} {f : List ℕ → ℝ} (hx : Is S x f) :
    Is (n :: S) (-Tensor.lead (p.call T) * Tensor.unsq x) fun i => -vecF (fun i j => P i j (τ i)) i * f i.tail := by
  have hr := (h.at hT).neg.mul (hx.rep.unsq n)
  obtain ⟨t, B, e, h1, h2, h3, h4⟩ := h.2 T τ hT
  obtain ⟨y, rfl, hy, hf⟩ := hx
  rw [e] at hr ⊢
  have hb : bshape (t.shape ++ [1]) (1 :: y.shape) = some (n :: S) := by
    have h5 := bshape_append_one h3 h2
    rw [h1, hy, List.cons_append]
    simp only [bshape, h5]
    by_cases h6 : n = 1 <;> simp [h6]
  obtain ⟨u, hu, hu1, hu2⟩ := hr
  have e2 : -Tensor.lead (t : TE) * Tensor.unsq (y : TE) = _ := map2_ok (· * ·)
    (⟨t.shape ++ [1], fun i => -(t.data (i.take t.shape.length))⟩ : Tensor) (⟨1 :: y.shape, fun i => y.data i.tail⟩ : Tensor) hb
  obtain rfl : _ = u := by
    have := e2.symm.trans hu
    injection this
  refine ⟨_, e2, rfl, fun i hi => ?_⟩
  rw [← hu2 i hi]
  change _ = Tensor.data _ (bidx (n :: S) i)
  rw [bidx_self hi]

theorem chaboche_is {S : List ℕ} {D : Set ℝ} {n : ℕ} {C g : TParam} {C' g' : List ℕ → Fin n → ℝ → ℝ} (hC : VecParamIs S D C C') (hg : VecParamIs S D g g') :
    HardeningIs S D (tChaboche C g) fun i => chaboche (C' i) (g' i) where
  nhist := hC.1
  value h η hh := hh.isT.is.sumLast.congr fun i hi => Finset.sum_congr rfl fun j _ => vecF_cons η j i
  dvalue h η hh := by
    change Vec S (Tensor.full (C.pshape.headD 0 :: h.shape.tail) 1) _
    rw [hC.1]
    exact dvalue_one hh
  rate a ep π hp := by
    have h1 := a.hh.isT.is
    have h2 := hC.at a.hT
    have h3 := hg.at a.hT
    have h4 := hp.is
    dsimp only [tChaboche]
    rw [a.hh.1]
    eapply Vec.of_is
    · eapply Is.reshape
      tensI
    · intro i hi j
      simp only [vecF_cons]
      rfl
  drate_ds a ep π hp := vec_full_like a.hh 0
  drate_dh a ep π hp := by
    have h4 := (hg.neg_mul_unsq a.hT (hp.is.map abs)).diagEmbed.reshape
    dsimp only [tChaboche]
    rw [a.hh.1, hC.1]
    refine Mat.of_is h4 fun i hi r c => ?_
    change (if c.val = r.val then _ else _) = Matrix.diagonal _ r c
    simp only [vecF_cons, Matrix.diagonal_apply]
    by_cases h : r = c
    · subst h
      simp
    · rw [if_neg h, if_neg fun e => h (Fin.ext e.symm)]
  drate_dep a ep π hp := by
    have h1 := a.hh.isT.is
    have h2 := hC.at a.hT
    have h3 := hg.at a.hT
    have h4 := hp.is
    dsimp only [tChaboche]
    rw [a.hh.1]
    eapply Mat.of_is
    · eapply Is.reshape
      tensI
    · intro i hi r c
      simp only [List.tail_cons, vecF_cons]
      rfl
  drate_de a ep π hp := vec_full_like a.hh 0

theorem chabocheRecovery_is {S : List ℕ} {D : Set ℝ} {n : ℕ} {C g b r : TParam} {C' g' b' r' : List ℕ → Fin n → ℝ → ℝ} (hC : VecParamIs S D C C')
    (hg : VecParamIs S D g g') (hb : VecParamIs S D b b') (hr : VecParamIs S D r r') :
    HardeningIs S D (tChabocheRecovery C g b r) fun i => chabocheRecovery (C' i) (g' i) (b' i) (r' i) where
  nhist := hC.1
  value h η hh := hh.isT.is.sumLast.congr fun i hi => Finset.sum_congr rfl fun j _ => vecF_cons η j i
  dvalue h η hh := by
    change Vec S (Tensor.full (C.pshape.headD 0 :: h.shape.tail) 1) _
    rw [hC.1]
    exact dvalue_one hh
  rate a ep π hp := by
    have h1 := a.hh.isT.is
    have h2 := hC.at a.hT
    have h3 := hg.at a.hT
    have h4 := hp.is
    have h5 := hb.at a.hT
    have h6 := hr.at a.hT
    dsimp only [tChabocheRecovery]
    rw [a.hh.1]
    eapply Vec.of_is
    · eapply Is.reshape
      tensI
    · intro i hi j
      simp only [vecF_cons]
      rfl
  drate_ds a ep π hp := vec_full_like a.hh 0
  drate_dh a ep π hp := by
    have h1 := a.hh.isT.is
    have h4 := (hg.neg_mul_unsq a.hT (hp.is.map abs)).diagEmbed.reshape
    have h5 := hb.at a.hT
    have h6 := hr.at a.hT
    dsimp only [tChabocheRecovery]
    rw [a.hh.1, hC.1]
    eapply Mat.of_is
    · eapply Is.add_left h4
      eapply Is.rep
      eapply Is.reshape
      eapply Is.diagEmbed
      tensI
    · intro i hi r c
      change (if c.val = r.val then _ else _) + (if c.val = r.val then _ else _) =
        (Matrix.diagonal (fun j => -(g' i j (a.τ i)) * |π i|) +
          Matrix.diagonal (fun j => -(b' i j (a.τ i)) * r' i j (a.τ i) * |a.η i j| ^ (r' i j (a.τ i) - 1)) : Matrix (Fin n) (Fin n) ℝ) r c
      simp only [vecF_cons, Matrix.add_apply, Matrix.diagonal_apply]
      by_cases h : r = c
      · subst h
        simp
      · rw [if_neg h, if_neg h, if_neg fun e => h (Fin.ext e.symm), if_neg fun e => h (Fin.ext e.symm)]
  drate_dep a ep π hp := by
    have h1 := a.hh.isT.is
    have h2 := hC.at a.hT
    have h3 := hg.at a.hT
    have h4 := hp.is
    dsimp only [tChabocheRecovery]
    rw [a.hh.1]
    eapply Mat.of_is
    · eapply Is.reshape
      tensI
    · intro i hi r c
      simp only [List.tail_cons, vecF_cons]
      rfl
  drate_de a ep π hp := vec_full_like a.hh 0

/-! ## Loops over parts of the history -/

theorem offset_add_le {k : ℕ} (nh : Fin k → ℕ) (i : Fin k) : offset nh i + nh i ≤ ∑ j, nh j := by
  have h : ∀ j : Fin (i.val + 1), j.val < k := fun j => by omega
  have e : offset nh i + nh i = ∑ j : Fin (i.val + 1), nh ⟨j.val, h j⟩ := by
    rw [Fin.sum_univ_castSucc]
    rfl
  rw [e, show (∑ j : Fin (i.val + 1), nh ⟨j.val, h j⟩) = ∑ j ∈ Finset.univ.map (Fin.castLEEmb (show i.val + 1 ≤ k by omega)), nh j by
    rw [Finset.sum_map]; rfl]
  exact Finset.sum_le_sum_of_subset (Finset.subset_univ _)

/-- `h[..., o : o + n]` of one part -/
theorem hs_is {S : List ℕ} {k : ℕ} (nh : Fin k → ℕ) (i : Fin k) {h : Tensor} {η : List ℕ → Fin (∑ i, nh i) → ℝ} (hh : VecT S h η) :
    Vec (n := nh i) S (hs nh i h) fun j => Material.slice (η j) (offset nh i) (nh i) := by
  refine Vec.of_is (Is.slice (offset nh i) (nh i) hh.isT.is (offset_add_le nh i)) fun j _ l => ?_
  have := (pos nh i l).isLt
  rw [pos_val] at this
  change vecF η ((offset nh i + l.val) :: j) = _
  rw [vecF_cons' η this, Material.slice, dif_pos this]

theorem Vec.setSlice {S : List ℕ} {k : ℕ} {nh : Fin k → ℕ} (i : Fin k) {x y : TE} {v : List ℕ → Fin (∑ i, nh i) → ℝ} {w : List ℕ → Fin (nh i) → ℝ}
    (hx : Vec S x v) (hy : Vec S y w) :
    Vec S (Tensor.setSlice (offset nh i) (nh i) x y) fun j => writeSlice (v j) (offset nh i) (w j) := by
  refine Vec.of_is (Is.setSlice _ _ (offset_add_le nh i) hx.is hy.is.rep) fun j _ r => ?_
  change (if offset nh i ≤ r.val ∧ r.val < offset nh i + nh i then vecF w ((r.val - offset nh i) :: j) else vecF v (r.val :: j)) = _
  unfold writeSlice
  by_cases h : offset nh i ≤ r.val ∧ r.val < offset nh i + nh i
  · have h' : r.val - offset nh i < nh i := by omega
    rw [if_pos h, dif_pos ⟨h.1, h'⟩, vecF_cons' w h']
  · rw [if_neg h, dif_neg (by omega), vecF_cons]

theorem Mat.setBlock {S : List ℕ} {k : ℕ} {nh : Fin k → ℕ} (i : Fin k) {x y : TE} {v : List ℕ → Matrix (Fin (∑ i, nh i)) (Fin (∑ i, nh i)) ℝ}
    {w : List ℕ → Matrix (Fin (nh i)) (Fin (nh i)) ℝ} (hx : Mat S x v) (hy : Mat S y w) :
    Mat S (Tensor.setBlock (offset nh i) (nh i) x y) fun j => writeBlock (v j) (offset nh i) (w j) := by
  refine Mat.of_is (Is.setBlock _ _ (offset_add_le nh i) hx.is hy.is.rep) fun j _ r c => ?_
  change (if (offset nh i ≤ c.val ∧ c.val < offset nh i + nh i) ∧ (offset nh i ≤ r.val ∧ r.val < offset nh i + nh i) then
    matF w ((c.val - offset nh i) :: (r.val - offset nh i) :: j) else matF v (c.val :: r.val :: j)) = _
  unfold writeBlock
  by_cases h : (offset nh i ≤ c.val ∧ c.val < offset nh i + nh i) ∧ (offset nh i ≤ r.val ∧ r.val < offset nh i + nh i)
  · have h1 : r.val - offset nh i < nh i := by omega
    have h2 : c.val - offset nh i < nh i := by omega
    rw [if_pos h, dif_pos ⟨⟨h.2.1, h1⟩, h.1.1, h2⟩]
    exact matF_cons w ⟨_, h1⟩ ⟨_, h2⟩ j
  · rw [if_neg h, dif_neg (by omega)]
    exact matF_cons v r c j

/-- `x[..., o : o + n] = y` for rows of length one (`dflow_dhist`) -/
theorem Mat.setSlice {S : List ℕ} {k : ℕ} {nh : Fin k → ℕ} (i : Fin k) {x y : TE} {v : List ℕ → Fin (∑ i, nh i) → ℝ} {w : List ℕ → Fin (nh i) → ℝ}
    (hx : Mat (n := 1) S x fun j _ => v j) (hy : Mat (n := 1) S y fun j _ => w j) :
    Mat (n := 1) S (Tensor.setSlice (offset nh i) (nh i) x y) fun j _ => writeSlice (v j) (offset nh i) (w j) := by
  refine Mat.of_is (Is.setSlice _ _ (offset_add_le nh i) hx.is hy.is.rep) fun j _ r c => ?_
  change (if offset nh i ≤ c.val ∧ c.val < offset nh i + nh i then matF (fun j _ => w j) ((c.val - offset nh i) :: r.val :: j) else
    matF (fun j _ => v j) (c.val :: r.val :: j)) = _
  unfold writeSlice
  by_cases h : offset nh i ≤ c.val ∧ c.val < offset nh i + nh i
  · have h' : c.val - offset nh i < nh i := by omega
    rw [if_pos h, dif_pos ⟨h.1, h'⟩]
    exact matF_cons (fun j (_ : Fin 1) => w j) r ⟨_, h'⟩ j
  · rw [if_neg h, dif_neg (by omega), matF_cons]

/-- `x[..., o : o + n, 0:1] = y` -/
theorem Mat.setRows {S : List ℕ} {k : ℕ} {nh : Fin k → ℕ} (i : Fin k) {x y : TE} {v : List ℕ → Fin (∑ i, nh i) → ℝ} {w : List ℕ → Fin (nh i) → ℝ}
    (hx : Mat (m := 1) S x fun j r _ => v j r) (hy : Mat (m := 1) S y fun j r _ => w j r) :
    Mat (m := 1) S (Tensor.setRows (offset nh i) (nh i) x y) fun j r _ => writeSlice (v j) (offset nh i) (w j) r := by
  refine Mat.of_is (Is.setRows _ _ (offset_add_le nh i) hx.is hy.is.rep) fun j _ r c => ?_
  change (if offset nh i ≤ r.val ∧ r.val < offset nh i + nh i then matF (fun j r _ => w j r) (c.val :: (r.val - offset nh i) :: j) else
    matF (fun j r _ => v j r) (c.val :: r.val :: j)) = _
  unfold writeSlice
  by_cases h : offset nh i ≤ r.val ∧ r.val < offset nh i + nh i
  · have h' : r.val - offset nh i < nh i := by omega
    rw [if_pos h, dif_pos ⟨h.1, h'⟩]
    exact matF_cons (fun j r (_ : Fin 1) => w j r) ⟨_, h'⟩ c j
  · rw [if_neg h, dif_neg (by omega), matF_cons]

/-- a loop whose body keeps a relation keeps it -/
theorem foldl_rel {ι α β : Type*} (R : α → β → Prop) (f : α → ι → α) (g : β → ι → β) (hs : ∀ i x y, R x y → R (f x i) (g y i)) :
    ∀ (l : List ι) (x : α) (y : β), R x y → R (l.foldl f x) (l.foldl g y)
  | [], _, _, h => h
  | i :: l, _, _, h => foldl_rel R f g hs l _ _ (hs i _ _ h)

/-- `foldl` at each point -/
theorem foldl_point {ι P β : Type*} (g : P → β → ι → β) : ∀ (l : List ι) (y : P → β) (p : P),
    (l.foldl (fun v i p => g p (v p) i) y) p = l.foldl (g p) (y p)
  | [], _, _ => rfl
  | i :: l, y, p => foldl_point g l (fun p => g p (y p) i) p

theorem TE.bind_vec {S : List ℕ} {n : ℕ} {x : TE} {v : List ℕ → Fin n → ℝ} (h : Vec S x v) : ∃ t : Tensor, VecT S t v ∧
    ∀ {α : Type} (g : Tensor → Except String α), TE.bind x g = g t := by
  obtain ⟨t, rfl, ht⟩ := h
  exact ⟨t, ht, fun g => rfl⟩

/-- the arguments with a part of the history -/
noncomputable def FlowArgs.part {S : List ℕ} {D : Set ℝ} {n : ℕ} (a : FlowArgs S D n) {m : ℕ} (h : Tensor) (η : List ℕ → Fin m → ℝ) (hh : VecT S h η) : FlowArgs S D m where
  s := a.s
  h := h
  t := a.t
  T := a.T
  e := a.e
  σ := a.σ
  η := η
  θ := a.θ
  τ := a.τ
  ε := a.ε
  hs := a.hs
  hh := hh
  ht := a.ht
  hT := a.hT
  he := a.he

theorem fold_is {S : List ℕ} {k : ℕ} (x : Fin k → TE) (X : Fin k → List ℕ → ℝ) (hx : ∀ i, Is S (x i) (X i)) {z : TE} (hz : Is S z fun _ => 0) :
    Is S ((List.finRange k).foldl (fun v i => inplace (· + ·) v (x i)) z) fun p => (List.finRange k).foldl (fun v i => v + X i p) 0 :=
  Is.congr (foldl_rel (Is S) _ (fun f i p => f p + X i p) (fun i _ _ h => h.inplace (· + ·) (hx i).rep) _ _ _ hz)
    fun p _ => foldl_point (fun p v i => v + X i p) _ _ p

theorem Vec.congr {S : List ℕ} {n : ℕ} {x : TE} {f g : List ℕ → Fin n → ℝ} (h : Vec S x f) (e : ∀ i, Valid S i → f i = g i) : Vec S x g := by
  obtain ⟨t, rfl, hs, hf⟩ := h
  exact ⟨t, rfl, hs, fun i hi j => (hf i hi j).trans (congrFun (e i hi) j)⟩

theorem Mat.congr {S : List ℕ} {n m : ℕ} {x : TE} {f g : List ℕ → Fin n → Fin m → ℝ} (h : Mat S x f) (e : ∀ i, Valid S i → f i = g i) :
    Mat S x g := by
  obtain ⟨t, rfl, hs, hf⟩ := h
  exact ⟨t, rfl, hs, fun i hi r c => (hf i hi r c).trans (congrFun (congrFun (e i hi) r) c)⟩

theorem fold_vec {S : List ℕ} {k : ℕ} (nh : Fin k → ℕ) (x : Fin k → TE) (X : (i : Fin k) → List ℕ → Fin (nh i) → ℝ) (hx : ∀ i, Vec S (x i) (X i))
    {z : TE} (hz : Vec (n := ∑ i, nh i) S z fun _ _ => 0) :
    Vec (n := ∑ i, nh i) S ((List.finRange k).foldl (fun v i => setSlice (offset nh i) (nh i) v (x i)) z)
      fun p => (List.finRange k).foldl (fun v i => writeSlice v (offset nh i) (X i p)) 0 :=
  Vec.congr (foldl_rel (Vec S) _ (fun f i p => writeSlice (f p) (offset nh i) (X i p)) (fun i _ _ h => h.setSlice i (hx i)) _ _ _ hz)
    fun p _ => foldl_point (fun p v i => writeSlice v (offset nh i) (X i p)) _ _ p

theorem fold_mat {S : List ℕ} {k : ℕ} (nh : Fin k → ℕ) (x : Fin k → TE) (X : (i : Fin k) → List ℕ → Matrix (Fin (nh i)) (Fin (nh i)) ℝ)
    (hx : ∀ i, Mat S (x i) (X i)) {z : TE} (hz : Mat (n := ∑ i, nh i) (m := ∑ i, nh i) S z fun _ _ _ => 0) :
    Mat (n := ∑ i, nh i) (m := ∑ i, nh i) S ((List.finRange k).foldl (fun v i => setBlock (offset nh i) (nh i) v (x i)) z)
      fun p => (List.finRange k).foldl (fun v i => writeBlock v (offset nh i) (X i p)) (0 : Matrix (Fin (∑ i, nh i)) (Fin (∑ i, nh i)) ℝ) :=
  Mat.congr (foldl_rel (fun (x : TE) (v : List ℕ → Matrix (Fin (∑ i, nh i)) (Fin (∑ i, nh i)) ℝ) => Mat S x v) _
    (fun f i p => writeBlock (f p) (offset nh i) (X i p)) (fun i _ _ h => Mat.setBlock i h (hx i)) _ _ (fun _ => 0) hz)
    fun p _ => foldl_point (fun p v i => writeBlock v (offset nh i) (X i p)) _ _ p

theorem fold_row {S : List ℕ} {k : ℕ} (nh : Fin k → ℕ) (x : Fin k → TE) (X : (i : Fin k) → List ℕ → Fin (nh i) → ℝ)
    (hx : ∀ i, Mat (n := 1) S (x i) fun p _ => X i p) {z : TE} (hz : Mat (n := 1) (m := ∑ i, nh i) S z fun _ _ _ => 0) :
    Mat (n := 1) (m := ∑ i, nh i) S ((List.finRange k).foldl (fun v i => setSlice (offset nh i) (nh i) v (x i)) z)
      fun p _ => (List.finRange k).foldl (fun v i => writeSlice v (offset nh i) (X i p)) 0 :=
  Mat.congr (foldl_rel (fun (x : TE) (v : List ℕ → Fin (∑ i, nh i) → ℝ) => Mat (n := 1) S x fun p _ => v p) _
    (fun f i p => writeSlice (f p) (offset nh i) (X i p)) (fun i _ _ h => Mat.setSlice i h (hx i)) _ _ (fun _ => 0) hz)
    fun p _ => funext fun _ => foldl_point (fun p v i => writeSlice v (offset nh i) (X i p)) _ _ p

theorem fold_col {S : List ℕ} {k : ℕ} (nh : Fin k → ℕ) (x : Fin k → TE) (X : (i : Fin k) → List ℕ → Fin (nh i) → ℝ)
    (hx : ∀ i, Mat (m := 1) S (x i) fun p r _ => X i p r) {z : TE} (hz : Mat (n := ∑ i, nh i) (m := 1) S z fun _ _ _ => 0) :
    Mat (n := ∑ i, nh i) (m := 1) S ((List.finRange k).foldl (fun v i => setRows (offset nh i) (nh i) v (x i)) z)
      fun p r _ => (List.finRange k).foldl (fun v i => writeSlice v (offset nh i) (X i p)) (0 : Fin (∑ i, nh i) → ℝ) r :=
  Mat.congr (foldl_rel (fun (x : TE) (v : List ℕ → Fin (∑ i, nh i) → ℝ) => Mat (m := 1) S x fun p r _ => v p r) _
    (fun f i p => writeSlice (f p) (offset nh i) (X i p)) (fun i _ _ h => Mat.setRows i h (hx i)) _ _ (fun _ => 0) hz)
    fun p _ => funext fun r => funext fun _ => congrFun (foldl_point (fun p v i => writeSlice v (offset nh i) (X i p)) _ _ p) r

theorem superimposedKinematic_is {S : List ℕ} {D : Set ℝ} {k : ℕ} (nh : Fin k → ℕ) (models : Fin k → THardening) (L : (i : Fin k) → List ℕ → Hardening (nh i))
    (hm : ∀ i, HardeningIs S D (models i) (L i)) :
    HardeningIs S D (tSuperimposedKinematic models) fun p => superimposedKinematic nh fun i => L i p := by
  obtain rfl : nh = fun i => (models i).nhist := funext fun i => (hm i).nhist.symm
  refine ⟨rfl, fun h η hh => ?_, fun h η hh => ?_, fun a ep π hp => ?_, fun a ep π hp => ?_, fun a ep π hp => ?_, fun a ep π hp => ?_,
    fun a ep π hp => ?_⟩
  · refine fold_is _ (fun i p => (L i p).value (Material.slice (η p) (offset _ i) _)) (fun i => ?_) ?_
    · obtain ⟨t, ht, hb⟩ := TE.bind_vec (hs_is _ i hh)
      exact hb (models i).value ▸ (hm i).value t _ ht
    · rw [hh.1]
      exact Is.full S 0
  · refine fold_vec _ _ (fun i p => (L i p).dvalue (Material.slice (η p) (offset _ i) _)) (fun i => ?_) ?_
    · obtain ⟨t, ht, hb⟩ := TE.bind_vec (hs_is _ i hh)
      exact hb (models i).dvalue ▸ (hm i).dvalue t _ ht
    · rw [hh.1]
      exact vec_full 0
  · refine fold_vec _ _ (fun i p => (L i p).rate (a.σ p) (Material.slice (a.η p) (offset _ i) _) (a.θ p) (π p) (a.τ p) (a.ε p)) (fun i => ?_)
      (vec_full_like a.hh 0)
    obtain ⟨t, ht, hb⟩ := TE.bind_vec (hs_is _ i a.hh)
    exact hb (fun hi => (models i).rate a.s hi a.t ep a.T a.e) ▸ (hm i).rate (a.part t _ ht) ep π hp
  · refine fold_vec _ _ (fun i p => (L i p).drate_ds (a.σ p) (Material.slice (a.η p) (offset _ i) _) (a.θ p) (π p) (a.τ p) (a.ε p)) (fun i => ?_)
      (vec_full_like a.hh 0)
    obtain ⟨t, ht, hb⟩ := TE.bind_vec (hs_is _ i a.hh)
    exact hb (fun hi => (models i).drate_ds a.s hi a.t ep a.T a.e) ▸ (hm i).drate_ds (a.part t _ ht) ep π hp
  · refine fold_mat _ _ (fun i p => (L i p).drate_dh (a.σ p) (Material.slice (a.η p) (offset _ i) _) (a.θ p) (π p) (a.τ p) (a.ε p)) (fun i => ?_) ?_
    · obtain ⟨t, ht, hb⟩ := TE.bind_vec (hs_is _ i a.hh)
      exact hb (fun hi => (models i).drate_dh a.s hi a.t ep a.T a.e) ▸ (hm i).drate_dh (a.part t _ ht) ep π hp
    · rw [a.hh.1]
      exact mat_full 0
  · refine fold_col _ _ (fun i p => (L i p).drate_dep (a.σ p) (Material.slice (a.η p) (offset _ i) _) (a.θ p) (π p) (a.τ p) (a.ε p)) (fun i => ?_) ?_
    · obtain ⟨t, ht, hb⟩ := TE.bind_vec (hs_is _ i a.hh)
      exact hb (fun hi => (models i).drate_dep a.s hi a.t ep a.T a.e) ▸ (hm i).drate_dep (a.part t _ ht) ep π hp
    · rw [a.hh.1]
      exact mat_full 0
  · refine fold_vec _ _ (fun i p => (L i p).drate_de (a.σ p) (Material.slice (a.η p) (offset _ i) _) (a.θ p) (π p) (a.τ p) (a.ε p)) (fun i => ?_)
      (vec_full_like a.hh 0)
    obtain ⟨t, ht, hb⟩ := TE.bind_vec (hs_is _ i a.hh)
    exact hb (fun hi => (models i).drate_de a.s hi a.t ep a.T a.e) ▸ (hm i).drate_de (a.part t _ ht) ep π hp

end Pyoptmat.Spec
