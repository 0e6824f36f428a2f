import Verif.Proofs.TensorMask
import Verif.Props.Temperature

/-!
# C101: a batch of tests is evaluated test by test and time by time

The classes of `temperature.py`, `hardening.py`, `flowrules.py`, `damage.py` and `models.py` work on tensors: stress, temperature, ... of
shape `(ntime, nbatch)`, history of shape `(ntime, nbatch, nhist)`. The theorems of the other files are about one entry of such tensors. Here is why they apply: each
class, as the torch program it is (`Model/TensorMaterial.lean`), succeeds and does at every point exactly what the model of the
other files does with the numbers at that point, and every output has the right shape. `S` is any shape of the points, `D` the range of temperatures (only
`PiecewiseScaling` needs a restriction). Parameters may be numbers, or tensors that can be broadcast to the points, for example one value for each test.
-/

namespace Pyoptmat.Props

open Pyoptmat.Spec Pyoptmat.Tensor Pyoptmat.Material

/-! ### Parameters -/

/-- **C101.** A number, a tensor with one value for each test and a tensor with one value for each point are parameters of the points. -/
theorem C101_parameter_shapes (nb : ℕ) (S : List ℕ) (x : Tensor) :
    (x.shape = [] → Rep (nb :: S) x fun _ => x.data []) ∧ (x.shape = [nb] → Rep (nb :: S) x fun i => x.data [i.headD 0]) ∧
      (x.shape = nb :: S → Rep (nb :: S) x x.data) := by
  refine ⟨fun h => ⟨x, rfl, by rw [h]; rfl, fun i _ => by rw [h]; rfl⟩, fun h => ⟨x, rfl, ?_, fun i hi => ?_⟩, fun h => ⟨x, rfl, ?_, fun i hi => ?_⟩⟩
  · rw [h]; exact (fits_cons _ _ _ _).2 ⟨.inl rfl, by cases S <;> rfl⟩
  · obtain ⟨k, j, rfl, hk, hj⟩ := valid_cons_iff.1 hi
    rw [h]
    simp only [bidx, List.headD_cons]
    congr 2
    split_ifs <;> omega
  · rw [h]; exact bshape_self _
  · rw [h, bidx_self hi]

/-- **C101.** `ConstantParameter` -/
theorem C101_constant {S : List ℕ} {D : Set ℝ} {x : Tensor} {c : List ℕ → ℝ} (pScale scaling : ℝ → ℝ) (h : Rep S x c) :
    ParamIs S D (tConstant x pScale scaling) fun i T => Temperature.forward scaling (Temperature.constantValue pScale (c i)) T :=
  constant_is pScale scaling h

/-- **C101.** `ConstantParameter` with one value for each backstress, the same for all tests or different from test to test -/
theorem C101_constant_vector {D : Set ℝ} {nb n : ℕ} {S : List ℕ} (x : Tensor) (pScale scaling : ℝ → ℝ) :
    (x.shape = [n] → VecParamIs (nb :: S) D (tConstant x pScale scaling) fun _ (j : Fin n) _ => scaling (pScale (x.data [j.val]))) ∧
    (x.shape = [n, nb] → S ≠ [] →
      VecParamIs (nb :: S) D (tConstant x pScale scaling) fun i (j : Fin n) _ => scaling (pScale (x.data [j.val, i.headD 0]))) := by
  refine ⟨fun h => ⟨by simp [tConstant, h], fun T τ _ => ⟨_, [], rfl, h, by simp, rfl, fun i hi j => rfl⟩⟩,
    fun h hS => ⟨by simp [tConstant, h], fun T τ _ => ⟨_, [nb], rfl, h, ?_, ?_, fun i hi j => ?_⟩⟩⟩
  · simpa using List.length_pos_iff.2 hS
  · exact (fits_cons _ _ _ _).2 ⟨.inl rfl, by cases S <;> rfl⟩
  · obtain ⟨k, i, rfl, hk, hi'⟩ := valid_cons_iff.1 hi
    change scaling (pScale (x.data [j.val, if nb = 1 then 0 else k])) = scaling (pScale (x.data [j.val, k]))
    have : (if nb = 1 then 0 else k) = k := by split_ifs <;> omega
    rw [this]

/-- **C101.** `ShearModulusScaling` -/
theorem C101_shear {S : List ℕ} {D : Set ℝ} {A : Tensor} {a : List ℕ → ℝ} {mu : TParam} {M : List ℕ → ℝ → ℝ} (AScale scaling : ℝ → ℝ) (hA : Rep S A a)
    (hmu : ParamIs S D mu M) :
    ParamIs S D (tShear A mu AScale scaling) fun i T => Temperature.forward scaling (Temperature.shearValue AScale (a i) (M i)) T :=
  shear_is AScale scaling hA hmu

/-- **C101.** `ShearModulusScalingExp` -/
theorem C101_shear_exp {S : List ℕ} {D : Set ℝ} {A : Tensor} {a : List ℕ → ℝ} {mu : TParam} {M : List ℕ → ℝ → ℝ} (AScale scaling : ℝ → ℝ) (hA : Rep S A a)
    (hmu : ParamIs S D mu M) :
    ParamIs S D (tShearExp A mu AScale scaling) fun i T => Temperature.forward scaling (Temperature.shearExpValue AScale (a i) (M i)) T :=
  shearExp_is AScale scaling hA hmu

/-- **C101.** `MTSScaling` -/
theorem C101_mts {S : List ℕ} {D : Set ℝ} {tau0 g0 q p k b : Tensor} {tau0' g0' q' p' k' b' : List ℕ → ℝ} {mu : TParam} {M : List ℕ → ℝ → ℝ}
    (tau0Scale g0Scale qScale pScale scaling : ℝ → ℝ) (h1 : Rep S tau0 tau0') (h2 : Rep S g0 g0') (h3 : Rep S q q') (h4 : Rep S p p')
    (h5 : Rep S k k') (h6 : Rep S b b') (hmu : ParamIs S D mu M) :
    ParamIs S D (tMts tau0 g0 q p k b mu tau0Scale g0Scale qScale pScale scaling) fun i T => Temperature.forward scaling
      (Temperature.mtsValue (tau0Scale (tau0' i)) (g0Scale (g0' i)) (qScale (q' i)) (pScale (p' i)) (k' i) (b' i) (M i)) T :=
  mts_is tau0Scale g0Scale qScale pScale scaling h1 h2 h3 h4 h5 h6 hmu

/-- **C101.** `KMRateSensitivityScaling` -/
theorem C101_km_rate {S : List ℕ} {D : Set ℝ} {A b k : Tensor} {a b' k' : List ℕ → ℝ} {mu : TParam} {M : List ℕ → ℝ → ℝ} (AScale : ℝ → ℝ) (cutoff : ℝ)
    (scaling : ℝ → ℝ) (hA : Rep S A a) (hb : Rep S b b') (hk : Rep S k k') (hmu : ParamIs S D mu M) :
    ParamIs S D (tKmRate A mu b k AScale cutoff scaling) fun i T =>
      Temperature.forward scaling (Temperature.kmRateValue (AScale (a i)) (M i) (b' i) (k' i) cutoff) T :=
  kmRate_is AScale cutoff scaling hA hb hk hmu

/-- **C101.** `KMViscosityScaling` -/
theorem C101_km_viscosity {S : List ℕ} {D : Set ℝ} {A B eps0 b k : Tensor} {a B' eps0' b' k' : List ℕ → ℝ} {mu : TParam} {M : List ℕ → ℝ → ℝ}
    (AScale BScale scaling : ℝ → ℝ) (hA : Rep S A a) (hB : Rep S B B') (he : Rep S eps0 eps0') (hb : Rep S b b') (hk : Rep S k k')
    (hmu : ParamIs S D mu M) :
    ParamIs S D (tKmViscosity A B mu eps0 b k AScale BScale scaling) fun i T => Temperature.forward scaling
      (Temperature.kmViscosityValue (AScale (a i)) (BScale (B' i)) (M i) (eps0' i) (b' i) (k' i)) T :=
  kmViscosity_is AScale BScale scaling hA hB he hb hk hmu

/-- **C101.** `ArrheniusScaling` -/
theorem C101_arrhenius {S : List ℕ} {D : Set ℝ} {A Q : Tensor} {a q : List ℕ → ℝ} (AScale QScale scaling : ℝ → ℝ) (hA : Rep S A a) (hQ : Rep S Q q) :
    ParamIs S D (tArrhenius A Q AScale QScale scaling) fun i T => Temperature.forward scaling (Temperature.arrheniusValue (AScale (a i)) (QScale (q i))) T :=
  arrhenius_is AScale QScale scaling hA hQ

/-- **C101.** `InverseArrheniusScaling` -/
theorem C101_inverse_arrhenius {S : List ℕ} {D : Set ℝ} {A Q : Tensor} {a q : List ℕ → ℝ} (AScale QScale scaling : ℝ → ℝ) (hA : Rep S A a) (hQ : Rep S Q q) :
    ParamIs S D (tInverseArrhenius A Q AScale QScale scaling) fun i T =>
      Temperature.forward scaling (Temperature.inverseArrheniusValue (AScale (a i)) (QScale (q i))) T :=
  inverseArrhenius_is AScale QScale scaling hA hQ

/-- **C101.** `PolynomialScaling`, with coefficients that may differ from test to test: the polynomial with the coefficients of the point, highest power first -/
theorem C101_polynomial {S : List ℕ} {D : Set ℝ} {coefs : Tensor} {n : ℕ} {c : ℕ → List ℕ → ℝ} (scaleFn scaling : ℝ → ℝ)
    (hn : coefs.shape.getLast? = some (n + 1)) (hc : ∀ j ≤ n, Rep S (firstIndex j coefs) (c j)) :
    ParamIs S D (tPolynomial coefs scaleFn scaling) fun i T => scaling (∑ j ∈ Finset.range (n + 1), scaleFn (c j i) * T ^ (n - j)) := by
  intro T τ hT
  refine ((polynomial_is scaleFn scaling hn hc) T τ hT).congr fun i _ => congrArg scaling ?_
  generalize τ i = x
  have key : ∀ m, (List.range m).foldl (fun res j => res * x + scaleFn (c (j + 1) i)) (0 + scaleFn (c 0 i)) =
      ∑ j ∈ Finset.range (m + 1), scaleFn (c j i) * x ^ (m - j) := by
    intro m
    induction m with
    | zero => simp
    | succ m ih =>
      rw [List.range_succ, List.foldl_append, ih, Finset.sum_range_succ _ (m + 1)]
      simp only [List.foldl_cons, List.foldl_nil, Nat.sub_self, pow_zero, mul_one]
      rw [Finset.sum_mul]
      congr 1
      refine Finset.sum_congr rfl fun j hj => ?_
      rw [Nat.succ_sub (by have := Finset.mem_range.1 hj; omega), pow_succ, mul_assoc]
  exact key n

/-- **C101.** `PiecewiseScaling` with strictly increasing control temperatures and values that may differ from test to test (`values` of shape
`(npoints,)` or `(nbatch, npoints)`): between the first and the last control temperature the call gives, at every point, the height of the polyline through the values that go with
the point; with any temperature outside it raises. -/
theorem C101_piecewise {S B : List ℕ} {n : ℕ} {control values : Tensor} {c : ℕ → ℝ} {v : List ℕ → ℕ → ℝ} (scaleFn scaling : ℝ → ℝ) (hn : 0 < n)
    (hc : control.shape = [n + 1]) (hc' : ∀ j ≤ n, control.data [j] = c j) (hg : StrictGrid n c) (hv : values.shape = (n + 1) :: B)
    (hl : B.length < S.length) (hb : bshape B S = some S) (hv' : ∀ i, Valid S i → ∀ j ≤ n, values.data (j :: bidx B i) = v i j) :
    (∃ P : List ℕ → ℝ → ℝ, ParamIs S (Set.Icc (c 0) (c n)) (tPiecewise control values scaleFn scaling) P ∧
      ∀ i, ∀ T ∈ Set.Icc (c 0) (c n), ∃ w, OnPolyline n c (fun j => scaleFn (v i j)) T w ∧ P i T = scaling w) ∧
    ∀ T τ, IsT S T τ → (∃ i, Valid S i ∧ τ i ∉ Set.Icc (c 0) (c n)) → ∃ e, (tPiecewise control values scaleFn scaling).call T = .error e := by
  refine ⟨⟨_, piecewise_is scaleFn scaling hn hc hc' hg hv hl hb hv', fun i T hT => ?_⟩, fun T τ hT hi => ?_⟩
  · obtain ⟨w, -, e, h⟩ := Interp.hits_in_range hn hg (fun j => scaleFn (v i j)) hT.1 hT.2
    exact ⟨w, h, congrArg scaling e⟩
  · obtain ⟨i, hi, ho⟩ := hi
    refine piecewise_refuses scaleFn scaling hn hc hc' hg hv hl hb hv' hT hi ?_
    by_contra h
    push Not at h
    exact ho h

/-! ### Hardening -/

/-- **C101.** `VoceIsotropicHardeningModel` -/
theorem C101_voce {S : List ℕ} {D : Set ℝ} {R d : TParam} {R' d' : List ℕ → ℝ → ℝ} (hR : ParamIs S D R R') (hd : ParamIs S D d d') :
    HardeningIs S D (tVoce R d) fun i => voce (R' i) (d' i) := voce_is hR hd

/-- **C101.** `Theta0VoceIsotropicHardeningModel` -/
theorem C101_theta0_voce {S : List ℕ} {D : Set ℝ} {tau theta : TParam} {tau' theta' : List ℕ → ℝ → ℝ} (ht : ParamIs S D tau tau') (hh : ParamIs S D theta theta') :
    HardeningIs S D (tTheta0Voce tau theta) fun i => theta0Voce (tau' i) (theta' i) := theta0Voce_is ht hh

/-- **C101.** `Theta0RecoveryVoceIsotropicHardeningModel` -/
theorem C101_theta0_recovery {S : List ℕ} {D : Set ℝ} {tau theta R0 r1 r2 : TParam} {tau' theta' R0' r1' r2' : List ℕ → ℝ → ℝ} (ht : ParamIs S D tau tau')
    (hh : ParamIs S D theta theta') (h0 : ParamIs S D R0 R0') (h1 : ParamIs S D r1 r1') (h2 : ParamIs S D r2 r2') :
    HardeningIs S D (tTheta0Recovery tau theta R0 r1 r2) fun i => theta0Recovery (tau' i) (theta' i) (R0' i) (r1' i) (r2' i) :=
  theta0Recovery_is ht hh h0 h1 h2

/-- **C101.** `NoKinematicHardeningModel` -/
theorem C101_no_kinematic {S : List ℕ} {D : Set ℝ} : HardeningIs S D tNoKinematic fun _ => noKinematic := noKinematic_is

/-- **C101.** `FAKinematicHardeningModel` -/
theorem C101_fa {S : List ℕ} {D : Set ℝ} {C g b r : TParam} {C' g' b' r' : List ℕ → ℝ → ℝ} (hC : ParamIs S D C C') (hg : ParamIs S D g g')
    (hb : ParamIs S D b b') (hr : ParamIs S D r r') : HardeningIs S D (tFa C g b r) fun i => fa (C' i) (g' i) (b' i) (r' i) := fa_is hC hg hb hr

/-- **C101.** `FAKinematicHardeningModel` without the keywords `b` and `r`, when the shape of `C` can be broadcast to the points: no static recovery -/
theorem C101_fa_default {S : List ℕ} {D : Set ℝ} {C g : TParam} {C' g' : List ℕ → ℝ → ℝ} (hC : ParamIs S D C C') (hg : ParamIs S D g g')
    (hs : bshape C.pshape S = some S) : HardeningIs S D (tFaDefault C g) fun i => fa (C' i) (g' i) (fun _ => 0) (fun _ => 1) :=
  fa_is hC hg (constant_is _ _ ⟨_, rfl, hs, fun _ _ => rfl⟩) (constant_is _ _ ⟨_, rfl, hs, fun _ _ => rfl⟩)

/-- **C101.** `FAKinematicHardeningModelNoRecovery` -/
theorem C101_fa_no_recovery {S : List ℕ} {D : Set ℝ} {C g : TParam} {C' g' : List ℕ → ℝ → ℝ} (hC : ParamIs S D C C') (hg : ParamIs S D g g') :
    HardeningIs S D (tFaNoRecovery C g) fun i => faNoRecovery (C' i) (g' i) := faNoRecovery_is hC hg

/-- **C101.** `ChabocheHardeningModel`, any number of backstresses -/
theorem C101_chaboche {S : List ℕ} {D : Set ℝ} {n : ℕ} {C g : TParam} {C' g' : List ℕ → Fin n → ℝ → ℝ} (hC : VecParamIs S D C C') (hg : VecParamIs S D g g') :
    HardeningIs S D (tChaboche C g) fun i => chaboche (C' i) (g' i) := chaboche_is hC hg

/-- **C101.** `ChabocheHardeningModelRecovery` -/
theorem C101_chaboche_recovery {S : List ℕ} {D : Set ℝ} {n : ℕ} {C g b r : TParam} {C' g' b' r' : List ℕ → Fin n → ℝ → ℝ} (hC : VecParamIs S D C C')
    (hg : VecParamIs S D g g') (hb : VecParamIs S D b b') (hr : VecParamIs S D r r') :
    HardeningIs S D (tChabocheRecovery C g b r) fun i => chabocheRecovery (C' i) (g' i) (b' i) (r' i) := chabocheRecovery_is hC hg hb hr

/-- **C101.** `SuperimposedKinematicHardening` of any number of models -/
theorem C101_superimposed_kinematic {S : List ℕ} {D : Set ℝ} {k : ℕ} (nh : Fin k → ℕ) (models : Fin k → THardening)
    (L : (i : Fin k) → List ℕ → Hardening (nh i)) (hm : ∀ i, HardeningIs S D (models i) (L i)) :
    HardeningIs S D (tSuperimposedKinematic models) fun p => superimposedKinematic nh fun i => L i p := superimposedKinematic_is nh models L hm

/-! ### Flow rules -/

/-- **C101.** `PerfectViscoplasticity` -/
theorem C101_perfect {S : List ℕ} {D : Set ℝ} {n eta : TParam} {n' eta' : List ℕ → ℝ → ℝ} (hn : ParamIs S D n n') (he : ParamIs S D eta eta') :
    FlowIs S D (tPerfect n eta) fun i => perfect (n' i) (eta' i) := perfect_is hn he

/-- **C101.** `IsoKinViscoplasticity` with any two hardening models -/
theorem C101_iso_kin {S : List ℕ} {D : Set ℝ} {ni nk : ℕ} {n eta s0 : TParam} {iso kin : THardening} {n' eta' s0' : List ℕ → ℝ → ℝ}
    {I : List ℕ → Hardening ni} {K : List ℕ → Hardening nk} (hn : ParamIs S D n n') (he : ParamIs S D eta eta') (h0 : ParamIs S D s0 s0')
    (hI : HardeningIs S D iso I) (hK : HardeningIs S D kin K) :
    FlowIs S D (tIsoKin ⟨n, eta, s0, iso, kin⟩) fun i => isoKin (n' i) (eta' i) (s0' i) (I i) (K i) := isoKin_is hn he h0 hI hK

/-- **C101.** `RateIndependentFlowRuleWrapper` around any flow rule -/
theorem C101_rate_independent {S : List ℕ} {D : Set ℝ} {n : ℕ} {F : TFlowRule} {L : List ℕ → FlowRule n} {l r : Tensor} {l' r' : List ℕ → ℝ} (hF : FlowIs S D F L)
    (hl : Rep S l l') (hr : Rep S r r') : FlowIs S D (tRateIndependent F l r) fun i => rateIndependent (L i) (l' i) (r' i) := rateIndependent_is hF hl hr

/-- **C101.** `SuperimposedFlowRule` of any number of flow rules -/
theorem C101_superimposed {S : List ℕ} {D : Set ℝ} {k : ℕ} (nh : Fin k → ℕ) (models : Fin k → TFlowRule) (L : (i : Fin k) → List ℕ → FlowRule (nh i))
    (hm : ∀ i, FlowIs S D (models i) (L i)) : FlowIs S D (tSuperimposed models) fun p => superimposed nh fun i => L i p := superimposed_is nh models L hm

/-- **C101.** `KocksMeckingRegimeFlowRule`: each point is in its own regime -/
theorem C101_km_switch {S : List ℕ} {D : Set ℝ} {n : ℕ} {F1 F2 : TFlowRule} {L1 L2 : List ℕ → FlowRule n} {p : TKM} {P : List ℕ → KMParams} (h1 : FlowIs S D F1 L1)
    (h2 : FlowIs S D F2 L2) (hp : KMIs S D p P) : FlowIs S D (tKmSwitch F1 F2 p) fun i => kmSwitch (L1 i) (L2 i) (P i) := kmSwitch_is h1 h2 hp

/-- **C101.** `SoftKocksMeckingRegimeFlowRule` -/
theorem C101_km_soft {S : List ℕ} {D : Set ℝ} {n : ℕ} {F1 F2 : TFlowRule} {L1 L2 : List ℕ → FlowRule n} {p : TKM} {P : List ℕ → KMParams} {sf : Tensor}
    {sf' : List ℕ → ℝ} (h1 : FlowIs S D F1 L1) (h2 : FlowIs S D F2 L2) (hp : KMIs S D p P) (hs : Rep S sf sf') :
    FlowIs S D (tKmSoft F1 F2 p sf) fun i => kmSoft (L1 i) (L2 i) (P i) (sf' i) := kmSoft_is h1 h2 hp hs

/-! ### Damage and models -/

/-- **C101.** The damage models -/
theorem C101_damage {S : List ℕ} {D : Set ℝ} {A B C : TParam} {A' B' C' : List ℕ → ℝ → ℝ} (hA : ParamIs S D A A') (hB : ParamIs S D B B') (hC : ParamIs S D C C')
    (eps : ℝ) : DamageIs S D tNoDamage (fun _ => noDamage) ∧ DamageIs S D (tHayhurstLeckie A B C) (fun i => hayhurstLeckie (A' i) (B' i) (C' i)) ∧
      DamageIs S D (tConstantDamage A) (fun i => constantDamage (A' i)) ∧ DamageIs S D (tLarsonMiller A B C eps) fun i => larsonMiller (A' i) (B' i) (C' i) eps :=
  ⟨noDamage_is, hayhurstLeckie_is hA hB hC, constantDamage_is hA, larsonMiller_is hA hB hC eps⟩

/-- **C101.** `InelasticModel.forward` with any flow rule -/
theorem C101_inelastic {S : List ℕ} {D : Set ℝ} {n : ℕ} {E : TParam} {E' : List ℕ → ℝ → ℝ} {F : TFlowRule} {L : List ℕ → FlowRule n} (hE : ParamIs S D E E')
    (hF : FlowIs S D F L) : ModelIs S D (tInelastic E F) fun i => inelastic (E' i) (L i) := inelastic_is hE hF

/-- **C101.** `DamagedInelasticModel.forward` with any flow rule and any damage model -/
theorem C101_damaged {S : List ℕ} {D : Set ℝ} {n : ℕ} {E : TParam} {E' : List ℕ → ℝ → ℝ} {F : TFlowRule} {L : List ℕ → FlowRule n} {X : TDamage}
    {DL : List ℕ → Damage} (hE : ParamIs S D E E') (hF : FlowIs S D F L) (hX : DamageIs S D X DL) :
    ModelIs S D (tDamaged E F X) fun i => damaged (E' i) (L i) (DL i) := damaged_is hE hF hX

/-- **C101.** So tests do not influence each other: if two calls agree in the inputs at one point, they agree in all four outputs at that point, whatever
the other tests and times are. -/
theorem C101_independent {S : List ℕ} {D : Set ℝ} {m : ℕ} {M : Tensor → Tensor → Tensor → Tensor → Except String TOut} {L : List ℕ → Model m}
    (hM : ModelIs S D M L) {t y e T t' y' e' T' : Tensor} {τ τ' : List ℕ → ℝ} {v v' : List ℕ → Fin m → ℝ} (h1 : t.shape = S) (h2 : VecT S y v) (h3 : e.shape = S) (h4 : TempT S D T τ)
    (h1' : t'.shape = S) (h2' : VecT S y' v') (h3' : e'.shape = S) (h4' : TempT S D T' τ') {i : List ℕ} (hi : Valid S i)
    (et : t.data i = t'.data i) (ev : v i = v' i) (ee : e.data i = e'.data i) (eT : T.data i = T'.data i) :
    ∃ o o' : TOut, M t y e T = .ok o ∧ M t' y' e' T' = .ok o' ∧ ∀ j < m,
      o.ydot.data (j :: i) = o'.ydot.data (j :: i) ∧ (∀ r < m, o.J.data (j :: r :: i) = o'.J.data (j :: r :: i)) ∧
      o.Je.data (j :: i) = o'.Je.data (j :: i) ∧ o.JT.data (j :: i) = o'.JT.data (j :: i) := by
  obtain ⟨o, ho, a1, a2, a3, a4⟩ := hM t t.data y v e e.data T τ ⟨h1, fun _ _ => rfl⟩ h2 ⟨h3, fun _ _ => rfl⟩ h4
  obtain ⟨o', ho', b1, b2, b3, b4⟩ := hM t' t'.data y' v' e' e'.data T' τ' ⟨h1', fun _ _ => rfl⟩ h2' ⟨h3', fun _ _ => rfl⟩ h4'
  have eτ : τ i = τ' i := by rw [← h4.1.2 i hi, ← h4'.1.2 i hi, eT]
  refine ⟨o, o', ho, ho', fun j hj => ⟨?_, fun r hr => ?_, ?_, ?_⟩⟩
  · rw [a1.2 i hi ⟨j, hj⟩, b1.2 i hi ⟨j, hj⟩]
    beta_reduce
    rw [et, ev, ee, eτ]
  · rw [a2.2 i hi ⟨r, hr⟩ ⟨j, hj⟩, b2.2 i hi ⟨r, hr⟩ ⟨j, hj⟩]
    beta_reduce
    rw [et, ev, ee, eτ]
  · rw [a3.2 i hi ⟨j, hj⟩, b3.2 i hi ⟨j, hj⟩]
    beta_reduce
    rw [et, ev, ee, eτ]
  · rw [a4.2 i hi ⟨j, hj⟩, b4.2 i hi ⟨j, hj⟩]
    beta_reduce
    rw [et, ev, ee, eτ]

/-- **C101.** All of it for the standard material, in the notation of torch: `nb` tests, `nt` times, `n` backstresses; `E`, `n`, `eta`, `s0`, `R`, `d` constants of shape `(nb,)`,
`C` and `g` constants of shape `(nb, n)`; times, strain rates and temperatures of shape `(nt, nb)`, state of shape `(nt, nb, 2 + n)`. The call
succeeds, the rates have shape `(nt, nb, 2 + n)` and the Jacobian `(nt, nb, 2 + n, 2 + n)`, and the entries for time `k` and test `b` are those of the model with the constants of test `b`. -/
theorem C101_batch {nb nt n : ℕ} {E N eta s0 R d C g t y e T : Tensor} (hE : E.shape = [nb]) (hN : N.shape = [nb]) (heta : eta.shape = [nb])
    (hs0 : s0.shape = [nb]) (hR : R.shape = [nb]) (hd : d.shape = [nb]) (hC : C.shape = [n, nb]) (hg : g.shape = [n, nb])
    (ht : t.shape = [nb, nt]) (hy : y.shape = [1 + n + 1, nb, nt]) (he : e.shape = [nb, nt]) (hT : T.shape = [nb, nt]) :
    let cst := fun x : Tensor => tConstant x (fun a => a) (fun a => a)
    ∃ o : TOut, tInelastic (cst E) (tIsoKin ⟨cst N, cst eta, cst s0, tVoce (cst R) (cst d), tChaboche (cst C) (cst g)⟩) t y e T = .ok o ∧
      o.ydot.shape = [1 + n + 1, nb, nt] ∧ o.J.shape = [1 + n + 1, 1 + n + 1, nb, nt] ∧
      ∀ k < nt, ∀ b < nb,
        let out := inelastic (fun _ => E.data [b]) (isoKin (fun _ => N.data [b]) (fun _ => eta.data [b]) (fun _ => s0.data [b])
          (voce (fun _ => R.data [b]) (fun _ => d.data [b])) (chaboche (nback := n) (fun j _ => C.data [j.val, b]) (fun j _ => g.data [j.val, b])))
          (t.data [b, k]) (fun j => y.data [j.val, b, k]) (e.data [b, k]) (T.data [b, k])
        (∀ j : Fin (1 + n + 1), o.ydot.data [j.val, b, k] = out.ydot j) ∧ (∀ r c : Fin (1 + n + 1), o.J.data [c.val, r.val, b, k] = out.J r c) ∧
        (∀ j : Fin (1 + n + 1), o.Je.data [j.val, b, k] = out.Je j) := by
  intro cst
  have kc : ∀ x : Tensor, x.shape = [nb] → ParamIs [nb, nt] Set.univ (cst x) fun i _ => x.data [i.headD 0] := fun x hx =>
    C101_constant (fun a => a) (fun a => a) ((C101_parameter_shapes nb [nt] x).2.1 hx)
  have kv : ∀ x : Tensor, x.shape = [n, nb] → VecParamIs [nb, nt] Set.univ (cst x) fun i (j : Fin n) _ => x.data [j.val, i.headD 0] := fun x hx =>
    (C101_constant_vector x (fun a => a) (fun a => a)).2 hx (by simp)
  have hM := C101_inelastic (kc E hE) (C101_iso_kin (kc N hN) (kc eta heta) (kc s0 hs0) (C101_voce (kc R hR) (kc d hd)) (C101_chaboche (kv C hC) (kv g hg)))
  obtain ⟨o, ho, h1, h2, h3, h4⟩ := hM t t.data y (fun i j => y.data (j.val :: i)) e e.data T T.data ⟨ht, fun _ _ => rfl⟩ ⟨hy, fun _ _ _ => rfl⟩
    ⟨he, fun _ _ => rfl⟩ ⟨⟨hT, fun _ _ => rfl⟩, fun _ _ => trivial⟩
  refine ⟨o, ho, h1.1, h2.1, fun k hk b hb => ?_⟩
  have hv : Valid [nb, nt] [b, k] := valid_cons.2 ⟨hb, valid_cons.2 ⟨hk, List.Forall₂.nil⟩⟩
  exact ⟨fun j => h1.2 _ hv j, fun r c => h2.2 _ hv r c, fun j => h3.2 _ hv j⟩

/-- The hypotheses of `C101_batch` are met, here with two tests, three times and one backstress; and those of `C101_piecewise`, with two tests that have different
values. -/
example : let x : Tensor := ⟨[2], fun i => 1 + i.headD 0⟩
    let v : Tensor := ⟨[1, 2], fun i => 1 + i.tail.headD 0⟩
    let p : Tensor := ⟨[2, 3], fun _ => 1⟩
    let cst := fun x : Tensor => tConstant x (fun a => a) (fun a => a)
    ∃ o : TOut, tInelastic (cst x) (tIsoKin ⟨cst x, cst x, cst x, tVoce (cst x) (cst x), tChaboche (cst v) (cst v)⟩) p ⟨[1 + 1 + 1, 2, 3], fun _ => 1⟩ p p = .ok o ∧
      o.ydot.shape = [1 + 1 + 1, 2, 3] := by
  obtain ⟨o, h, h', -⟩ := C101_batch (nb := 2) (nt := 3) (n := 1) (E := ⟨[2], fun i => 1 + i.headD 0⟩) (N := ⟨[2], fun i => 1 + i.headD 0⟩)
    (eta := ⟨[2], fun i => 1 + i.headD 0⟩) (s0 := ⟨[2], fun i => 1 + i.headD 0⟩) (R := ⟨[2], fun i => 1 + i.headD 0⟩) (d := ⟨[2], fun i => 1 + i.headD 0⟩)
    (C := ⟨[1, 2], fun i => 1 + i.tail.headD 0⟩) (g := ⟨[1, 2], fun i => 1 + i.tail.headD 0⟩) (t := ⟨[2, 3], fun _ => 1⟩)
    (y := ⟨[1 + 1 + 1, 2, 3], fun _ => 1⟩) (e := ⟨[2, 3], fun _ => 1⟩) (T := ⟨[2, 3], fun _ => 1⟩) rfl rfl rfl rfl rfl rfl rfl rfl rfl rfl rfl rfl
  exact ⟨o, h, h'⟩

example : ∃ P, ParamIs [2, 3] (Set.Icc 300 500) (tPiecewise ⟨[3], fun i => 300 + 100 * i.headD 0⟩ ⟨[3, 2], fun i => i.headD 0 + i.tail.headD 0⟩ (fun x => x) fun x => x) P := by
  obtain ⟨⟨P, hP, -⟩, -⟩ := C101_piecewise (S := [2, 3]) (B := [2]) (n := 2) (control := ⟨[3], fun i => 300 + 100 * i.headD 0⟩)
    (values := ⟨[3, 2], fun i => i.headD 0 + i.tail.headD 0⟩) (c := fun j => 300 + 100 * j) (v := fun i j => j + i.headD 0) (fun x => x) (fun x => x)
    (by norm_num) rfl (fun j _ => by simp) (fun j _ => by push_cast; linarith) rfl (by simp) rfl (fun i hi j _ => by
      obtain ⟨k, i, rfl, hk, hi⟩ := valid_cons_iff.1 hi
      simp [bidx])
  have h : Set.Icc ((300 : ℝ) + 100 * ((0 : ℕ) : ℝ)) (300 + 100 * ((2 : ℕ) : ℝ)) = Set.Icc 300 500 := by norm_num
  exact ⟨P, h ▸ hP⟩

end Pyoptmat.Props
