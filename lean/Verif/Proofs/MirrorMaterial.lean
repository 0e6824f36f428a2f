import Verif.Spec.Mirror
import Verif.Proofs.UnitsMaterial

/-!
# Every law of the library treats tension and compression alike (for C124)
-/

namespace Pyoptmat.Mirror

open Pyoptmat.Material Pyoptmat.Spec

theorem sgn_neg (x : ℝ) : sgn (-x) = -sgn x := Real.sign_neg

/-! ## Isotropic hardening -/

theorem one_mul_fn {n : ℕ} (h : Fin n → ℝ) : (fun _ => (1 : ℝ)) * h = h := by funext i; simp

theorem voce_mirrors (R d : ℝ → ℝ) : HardeningMirrors 1 (fun _ => 1) (voce R d) where
  value h := by simp [voce]
  dvalue h i := by simp [voce]
  rate s h t ep T e := by rw [one_mul_fn, one_mul_fn]; simp [voce, abs_neg]
  drate_ds s h t ep T e := by rw [one_mul_fn]; simp [voce]
  drate_dh s h t ep T e i j := by rw [one_mul_fn]; simp [voce, abs_neg]
  drate_dep s h t ep T e := by rw [one_mul_fn]; funext i; simp [voce, sgn_neg]
  drate_de s h t ep T e := by rw [one_mul_fn]; simp [voce]

theorem theta0_mirrors (tau theta : ℝ → ℝ) : HardeningMirrors 1 (fun _ => 1) (theta0Voce tau theta) where
  value h := by simp [theta0Voce]
  dvalue h i := by simp [theta0Voce]
  rate s h t ep T e := by rw [one_mul_fn, one_mul_fn]; simp [theta0Voce, abs_neg]
  drate_ds s h t ep T e := by rw [one_mul_fn]; simp [theta0Voce]
  drate_dh s h t ep T e i j := by rw [one_mul_fn]; simp [theta0Voce, abs_neg]
  drate_dep s h t ep T e := by rw [one_mul_fn]; funext i; simp [theta0Voce, sgn_neg]
  drate_de s h t ep T e := by rw [one_mul_fn]; simp [theta0Voce]

theorem theta0Recovery_mirrors (tau theta R0 r1 r2 : ℝ → ℝ) : HardeningMirrors 1 (fun _ => 1) (theta0Recovery tau theta R0 r1 r2) where
  value h := by simp [theta0Recovery]
  dvalue h i := by simp [theta0Recovery]
  rate s h t ep T e := by rw [one_mul_fn, one_mul_fn]; simp [theta0Recovery, abs_neg]
  drate_ds s h t ep T e := by rw [one_mul_fn]; simp [theta0Recovery]
  drate_dh s h t ep T e i j := by rw [one_mul_fn]; simp [theta0Recovery, abs_neg]
  drate_dep s h t ep T e := by rw [one_mul_fn]; funext i; simp [theta0Recovery, sgn_neg]
  drate_de s h t ep T e := by rw [one_mul_fn]; simp [theta0Recovery]

/-! ## Kinematic hardening -/

theorem neg_fn {n : ℕ} (h : Fin n → ℝ) : (fun _ => (-1 : ℝ)) * h = -h := by funext i; simp

theorem noKinematic_mirrors : HardeningMirrors (-1) (fun _ => -1) noKinematic where
  value h := by simp [noKinematic]
  dvalue h i := i.elim0
  rate s h t ep T e := by funext i; exact i.elim0
  drate_ds s h t ep T e := by funext i; exact i.elim0
  drate_dh s h t ep T e i j := i.elim0
  drate_dep s h t ep T e := by funext i; exact i.elim0
  drate_de s h t ep T e := by funext i; exact i.elim0

theorem fa_mirrors (C g b r : ℝ → ℝ) : HardeningMirrors (-1) (fun _ => -1) (fa C g b r) where
  value h := by simp [fa]
  dvalue h i := by simp [fa]
  rate s h t ep T e := by rw [neg_fn, neg_fn]; funext i; simp [fa, abs_neg]; ring
  drate_ds s h t ep T e := by rw [neg_fn]; simp [fa]
  drate_dh s h t ep T e i j := by rw [neg_fn]; simp [fa, abs_neg]
  drate_dep s h t ep T e := by rw [neg_fn]; funext i; simp [fa, sgn_neg]
  drate_de s h t ep T e := by rw [neg_fn]; simp [fa]

theorem faNoRecovery_mirrors (C g : ℝ → ℝ) : HardeningMirrors (-1) (fun _ => -1) (faNoRecovery C g) where
  value h := by simp [faNoRecovery]
  dvalue h i := by simp [faNoRecovery]
  rate s h t ep T e := by rw [neg_fn, neg_fn]; funext i; simp [faNoRecovery, abs_neg]; ring
  drate_ds s h t ep T e := by rw [neg_fn]; simp [faNoRecovery]
  drate_dh s h t ep T e i j := by rw [neg_fn]; simp [faNoRecovery, abs_neg]
  drate_dep s h t ep T e := by rw [neg_fn]; funext i; simp [faNoRecovery, sgn_neg]
  drate_de s h t ep T e := by rw [neg_fn]; simp [faNoRecovery]

theorem chaboche_mirrors {nk : ℕ} (C g : Fin nk → ℝ → ℝ) : HardeningMirrors (-1) (fun _ => -1) (chaboche C g) where
  value h := by rw [neg_fn]; simp [chaboche]
  dvalue h i := by simp [chaboche]
  rate s h t ep T e := by rw [neg_fn, neg_fn]; funext i; simp [chaboche, abs_neg]; ring
  drate_ds s h t ep T e := by rw [neg_fn]; simp [chaboche]
  drate_dh s h t ep T e i j := by rw [neg_fn]; simp [chaboche, abs_neg]
  drate_dep s h t ep T e := by rw [neg_fn]; funext i; simp [chaboche, sgn_neg]
  drate_de s h t ep T e := by rw [neg_fn]; simp [chaboche]

theorem chabocheRecovery_mirrors {nk : ℕ} (C g b r : Fin nk → ℝ → ℝ) : HardeningMirrors (-1) (fun _ => -1) (chabocheRecovery C g b r) where
  value h := by rw [neg_fn]; simp [chabocheRecovery]
  dvalue h i := by simp [chabocheRecovery]
  rate s h t ep T e := by rw [neg_fn, neg_fn]; funext i; simp [chabocheRecovery, abs_neg]; ring
  drate_ds s h t ep T e := by rw [neg_fn]; simp [chabocheRecovery]
  drate_dh s h t ep T e i j := by rw [neg_fn]; simp [chabocheRecovery, abs_neg]
  drate_dep s h t ep T e := by rw [neg_fn]; funext i; simp [chabocheRecovery, sgn_neg]
  drate_de s h t ep T e := by rw [neg_fn]; simp [chabocheRecovery]

/-! ## Superposition -/

theorem slice_mul {N : ℕ} (p h : Fin N → ℝ) (o n : ℕ) : slice (p * h) o n = slice p o n * slice h o n := by
  funext j
  unfold slice
  by_cases hj : o + j.val < N
  · simp [hj]
  · simp [hj]

theorem writeSlice_mul {N n : ℕ} (p res : Fin N → ℝ) (o : ℕ) (x : Fin n → ℝ) :
    writeSlice (p * res) o (slice p o n * x) = p * writeSlice res o x := by
  funext r
  rw [Pi.mul_apply]
  unfold writeSlice
  by_cases hr : o ≤ r.val ∧ r.val - o < n
  · rw [dif_pos hr, dif_pos hr]
    have hlt : o + (r.val - o) < N := by have := r.isLt; omega
    simp only [Pi.mul_apply, slice, dif_pos hlt]
    congr 2
    exact Fin.ext (by change o + (r.val - o) = r.val; omega)
  · rw [dif_neg hr, dif_neg hr]
    rfl

theorem slice_neg {N : ℕ} (p : Fin N → ℝ) (o n : ℕ) : slice (-p) o n = -slice p o n := by
  funext j
  unfold slice
  by_cases hj : o + j.val < N
  · simp [hj]
  · simp [hj]

theorem fold_map {ι V : Type*} (φ : V → V) (g g' : V → ι → V) (v0 : V) (h0 : φ v0 = v0)
    (hg : ∀ v i, g' (φ v) i = φ (g v i)) (l : List ι) : l.foldl g' v0 = φ (l.foldl g v0) := by
  suffices h : ∀ v, l.foldl g' (φ v) = φ (l.foldl g v) by rw [← h, h0]
  induction l with
  | nil => intro v; rfl
  | cons i is ih => intro v; simp only [List.foldl_cons, hg, ih]

/-- The change of sign of a matrix. -/
def signM {N : ℕ} (p : Fin N → ℝ) (M : Matrix (Fin N) (Fin N) ℝ) : Matrix (Fin N) (Fin N) ℝ := fun i j => p i * p j * M i j

theorem writeBlock_sign {N n : ℕ} (p : Fin N → ℝ) (res : Matrix (Fin N) (Fin N) ℝ) (o : ℕ) (x x' : Matrix (Fin n) (Fin n) ℝ)
    (hx : ∀ i j, x' i j = slice p o n i * slice p o n j * x i j) :
    writeBlock (signM p res) o x' = signM p (writeBlock res o x) := by
  funext r q
  unfold signM writeBlock
  by_cases hr : (o ≤ r.val ∧ r.val - o < n) ∧ (o ≤ q.val ∧ q.val - o < n)
  · rw [dif_pos hr, dif_pos hr, hx]
    have h1 : o + (r.val - o) < N := by have := r.isLt; omega
    have h2 : o + (q.val - o) < N := by have := q.isLt; omega
    simp only [slice, dif_pos h1, dif_pos h2]
    congr 3
    · exact Fin.ext (by change o + (r.val - o) = r.val; omega)
    · exact Fin.ext (by change o + (q.val - o) = q.val; omega)
  · rw [dif_neg hr, dif_neg hr]

theorem writeSlice_map {N n : ℕ} (p res : Fin N → ℝ) (o : ℕ) (x x' : Fin n → ℝ) (a : ℝ) (hx : ∀ i, x' i = a * (slice p o n i * x i)) :
    writeSlice (fun i => a * (p i * res i)) o x' = fun i => a * (p i * writeSlice res o x i) := by
  have h1 : x' = a • (slice p o n * x) := funext hx
  have h2 : (fun i => a * (p i * res i)) = a • (p * res) := rfl
  rw [h1, h2, Units.writeSlice_smul, writeSlice_mul]
  rfl

theorem slice_lt {N o n : ℕ} (p : Fin N → ℝ) (h : o + n ≤ N) (i : Fin n) : slice p o n i = p ⟨o + i.val, by have := i.isLt; omega⟩ := by
  unfold slice
  rw [dif_pos]

theorem superKin_mirrors {k : ℕ} (nh : Fin k → ℕ) (v : ℝ) (p : Fin (∑ i, nh i) → ℝ) {H : (i : Fin k) → Hardening (nh i)}
    (h : ∀ i, HardeningMirrors v (slice p (offset nh i) (nh i)) (H i)) : HardeningMirrors v p (superimposedKinematic nh H) where
  value x := by
    refine fold_map (v * ·) (fun v i => v + (H i).value (slice x (offset nh i) (nh i))) _ 0 (mul_zero _) (fun w i => ?_) _
    rw [slice_mul, (h i).value, mul_add]
  dvalue x j := by
    have := fold_map (fun (w : Fin (∑ i, nh i) → ℝ) i => v * (p i * w i))
      (fun w i => writeSlice w (offset nh i) ((H i).dvalue (slice x (offset nh i) (nh i))))
      (fun w i => writeSlice w (offset nh i) ((H i).dvalue (slice (p * x) (offset nh i) (nh i)))) 0 (by funext i; simp)
      (fun w i => by
        rw [writeSlice_map p w (offset nh i) ((H i).dvalue (slice x (offset nh i) (nh i)))]
        intro j
        rw [slice_mul, (h i).dvalue, mul_assoc]) (List.finRange k)
    refine (congrFun this j).trans ?_
    rw [mul_assoc]; rfl
  rate s x t ep T e := by
    refine fold_map (p * ·) (fun w i => writeSlice w (offset nh i) ((H i).rate s (slice x (offset nh i) (nh i)) t ep T e)) _ 0 (mul_zero _)
      (fun w i => ?_) _
    rw [slice_mul, (h i).rate, writeSlice_mul]
  drate_ds s x t ep T e := by
    refine fold_map (-p * ·) (fun w i => writeSlice w (offset nh i) ((H i).drate_ds s (slice x (offset nh i) (nh i)) t ep T e)) _ 0 (mul_zero _)
      (fun w i => ?_) _
    rw [slice_mul, (h i).drate_ds, ← writeSlice_mul, slice_neg]
  drate_dh s x t ep T e i j := by
    refine congrFun (congrFun (fold_map (signM p) (fun w i => writeBlock w (offset nh i) ((H i).drate_dh s (slice x (offset nh i) (nh i)) t ep T e)) _ 0
      (by funext i j; simp [signM]) (fun w i => ?_) _) i) j
    refine writeBlock_sign p w _ _ _ fun i' j' => ?_
    rw [slice_mul, (h i).drate_dh]
  drate_dep s x t ep T e := by
    refine fold_map (-p * ·) (fun w i => writeSlice w (offset nh i) ((H i).drate_dep s (slice x (offset nh i) (nh i)) t ep T e)) _ 0 (mul_zero _)
      (fun w i => ?_) _
    rw [slice_mul, (h i).drate_dep, ← writeSlice_mul, slice_neg]
  drate_de s x t ep T e := by
    refine fold_map (-p * ·) (fun w i => writeSlice w (offset nh i) ((H i).drate_de s (slice x (offset nh i) (nh i)) t ep T e)) _ 0 (mul_zero _)
      (fun w i => ?_) _
    rw [slice_mul, (h i).drate_de, ← writeSlice_mul, slice_neg]

theorem super_mirrors {k : ℕ} (nh : Fin k → ℕ) (p : Fin (∑ i, nh i) → ℝ) {f : (i : Fin k) → FlowRule (nh i)}
    (h : ∀ i, FlowMirrors (slice p (offset nh i) (nh i)) (f i)) : FlowMirrors p (superimposed nh f) where
  flow s x t T e := by
    refine fold_map (fun v : ℝ => -v) (fun v i => v + (f i).flow s (slice x (offset nh i) (nh i)) t T e) _ 0 neg_zero (fun w i => ?_) _
    rw [slice_mul, (h i).flow]
    ring
  dflow_ds s x t T e := by
    refine fold_map (fun v : ℝ => v) (fun v i => v + (f i).dflow_ds s (slice x (offset nh i) (nh i)) t T e) _ 0 rfl (fun w i => ?_) _
    rw [slice_mul, (h i).dflow_ds]
  dflow_dh s x t T e := by
    refine fold_map (-p * ·) (fun w i => writeSlice w (offset nh i) ((f i).dflow_dh s (slice x (offset nh i) (nh i)) t T e)) _ 0 (mul_zero _)
      (fun w i => ?_) _
    rw [slice_mul, (h i).dflow_dh, ← writeSlice_mul, slice_neg]
  dflow_de s x t T e := by
    refine fold_map (fun v : ℝ => v) (fun v i => v + (f i).dflow_de s (slice x (offset nh i) (nh i)) t T e) _ 0 rfl (fun w i => ?_) _
    rw [slice_mul, (h i).dflow_de]
  hist s x t T e := by
    refine fold_map (p * ·) (fun w i => writeSlice w (offset nh i) ((f i).hist s (slice x (offset nh i) (nh i)) t T e)) _ 0 (mul_zero _)
      (fun w i => ?_) _
    rw [slice_mul, (h i).hist, writeSlice_mul]
  dhist_dh s x t T e i j := by
    refine congrFun (congrFun (fold_map (signM p) (fun w i => writeBlock w (offset nh i) ((f i).dhist_dh s (slice x (offset nh i) (nh i)) t T e)) _ 0
      (by funext i j; simp [signM]) (fun w i => ?_) _) i) j
    refine writeBlock_sign p w _ _ _ fun i' j' => ?_
    rw [slice_mul, (h i).dhist_dh]
  dhist_ds s x t T e := by
    refine fold_map (-p * ·) (fun w i => writeSlice w (offset nh i) ((f i).dhist_ds s (slice x (offset nh i) (nh i)) t T e)) _ 0 (mul_zero _)
      (fun w i => ?_) _
    rw [slice_mul, (h i).dhist_ds, ← writeSlice_mul, slice_neg]
  dhist_de s x t T e := by
    refine fold_map (-p * ·) (fun w i => writeSlice w (offset nh i) ((f i).dhist_de s (slice x (offset nh i) (nh i)) t T e)) _ 0 (mul_zero _)
      (fun w i => ?_) _
    rw [slice_mul, (h i).dhist_de, ← writeSlice_mul, slice_neg]

/-! ## Flow rules -/

theorem perfect_mirrors (n eta : ℝ → ℝ) (p : Fin 0 → ℝ) : FlowMirrors p (perfect n eta) where
  flow s h t T e := by simp [perfect, sgn_neg, abs_neg]
  dflow_ds s h t T e := by simp [perfect, abs_neg]
  dflow_dh s h t T e := by funext i; exact i.elim0
  dflow_de s h t T e := rfl
  hist s h t T e := by funext i; exact i.elim0
  dhist_dh s h t T e i := i.elim0
  dhist_ds s h t T e := by funext i; exact i.elim0
  dhist_de s h t T e := by funext i; exact i.elim0

section IsoKin

variable {ni nk : ℕ} {n eta s0 : ℝ → ℝ} {iso : Hardening ni} {kin : Hardening nk} {pi : Fin ni → ℝ} {pk : Fin nk → ℝ}

theorem isoPart_mul (h : Fin (ni + nk) → ℝ) : isoPart (Fin.append pi pk * h) = pi * isoPart h := by
  funext j
  simp [isoPart]

theorem kinPart_mul (h : Fin (ni + nk) → ℝ) : kinPart (Fin.append pi pk * h) = pk * kinPart h := by
  funext j
  simp [kinPart]

theorem append_mul (x : Fin ni → ℝ) (y : Fin nk → ℝ) : Fin.append (pi * x) (pk * y) = Fin.append pi pk * Fin.append x y := by
  funext i
  refine Fin.addCases (fun j => ?_) (fun j => ?_) i <;> simp

theorem append_neg_mul (x : Fin ni → ℝ) (y : Fin nk → ℝ) : Fin.append (-pi * x) (-pk * y) = -Fin.append pi pk * Fin.append x y := by
  funext i
  refine Fin.addCases (fun j => ?_) (fun j => ?_) i <;> simp

variable (hi : HardeningMirrors 1 pi iso) (hk : HardeningMirrors (-1) pk kin)

include hi hk in
theorem over_mirrors (s : ℝ) (h : Fin (ni + nk) → ℝ) :
    iso.value (isoPart (Fin.append pi pk * h)) = iso.value (isoPart h) ∧
      -s - kin.value (kinPart (Fin.append pi pk * h)) = -(s - kin.value (kinPart h)) := by
  rw [isoPart_mul, kinPart_mul, hi.value, hk.value]
  exact ⟨one_mul _, by ring⟩

include hi hk in
theorem isoKinFlow_mirrors (s : ℝ) (h : Fin (ni + nk) → ℝ) (T : ℝ) :
    isoKinFlow n eta s0 iso kin (-s) (Fin.append pi pk * h) T = -isoKinFlow n eta s0 iso kin s h T := by
  obtain ⟨h1, h2⟩ := over_mirrors hi hk s h
  unfold isoKinFlow
  dsimp only
  rw [h1, h2, sgn_neg, abs_neg]
  ring

include hi hk in
theorem isoKinDs_mirrors (s : ℝ) (h : Fin (ni + nk) → ℝ) (T : ℝ) :
    isoKinDs n eta s0 iso kin (-s) (Fin.append pi pk * h) T = isoKinDs n eta s0 iso kin s h T := by
  obtain ⟨h1, h2⟩ := over_mirrors hi hk s h
  unfold isoKinDs
  dsimp only
  rw [h1, h2, abs_neg]

include hi hk in
theorem isoKinDiso_mirrors (s : ℝ) (h : Fin (ni + nk) → ℝ) (T : ℝ) :
    isoKinDiso n eta s0 iso kin (-s) (Fin.append pi pk * h) T = -isoKinDiso n eta s0 iso kin s h T := by
  obtain ⟨h1, h2⟩ := over_mirrors hi hk s h
  unfold isoKinDiso
  dsimp only
  rw [h1, h2, sgn_neg, abs_neg]
  ring

include hi hk in
theorem isoKinDkin_mirrors (s : ℝ) (h : Fin (ni + nk) → ℝ) (T : ℝ) :
    isoKinDkin n eta s0 iso kin (-s) (Fin.append pi pk * h) T = isoKinDkin n eta s0 iso kin s h T := by
  obtain ⟨h1, h2⟩ := over_mirrors hi hk s h
  unfold isoKinDkin
  dsimp only
  rw [h1, h2, abs_neg]

include hi hk in
theorem isoKin_mirrors : FlowMirrors (Fin.append pi pk) (isoKin n eta s0 iso kin) where
  flow s h t T e := isoKinFlow_mirrors hi hk s h T
  dflow_ds s h t T e := isoKinDs_mirrors hi hk s h T
  dflow_dh s h t T e := by
    unfold isoKin
    dsimp only
    rw [← append_neg_mul, isoKinDiso_mirrors hi hk, isoKinDkin_mirrors hi hk, isoPart_mul, kinPart_mul]
    congr 1
    · funext j
      rw [hi.dvalue]
      simp only [Pi.mul_apply, Pi.neg_apply]
      ring
    · funext j
      rw [hk.dvalue]
      simp only [Pi.mul_apply, Pi.neg_apply]
      ring
  dflow_de s h t T e := rfl
  hist s h t T e := by
    unfold isoKin
    dsimp only
    rw [isoKinFlow_mirrors hi hk, isoPart_mul, kinPart_mul, hi.rate, hk.rate, append_mul]
  dhist_dh s h t T e i j := by
    unfold isoKin
    dsimp only
    rw [isoKinDiso_mirrors hi hk, isoKinDkin_mirrors hi hk, isoKinFlow_mirrors hi hk, isoPart_mul, kinPart_mul, hi.drate_dep, hk.drate_dep]
    refine Fin.addCases (fun i' => ?_) (fun i' => ?_) i <;> refine Fin.addCases (fun j' => ?_) (fun j' => ?_) j <;>
      simp only [Fin.append_left, Fin.append_right, hi.dvalue, hk.dvalue, hi.drate_dh, hk.drate_dh, Pi.mul_apply, Pi.neg_apply] <;> ring
  dhist_ds s h t T e := by
    unfold isoKin
    dsimp only
    rw [isoKinDs_mirrors hi hk, isoKinFlow_mirrors hi hk, isoPart_mul, kinPart_mul, hi.drate_dep, hk.drate_dep, hi.drate_ds, hk.drate_ds,
      ← append_neg_mul]
    congr 1
    · funext j
      simp only [Pi.mul_apply, Pi.neg_apply]
      ring
    · funext j
      simp only [Pi.mul_apply, Pi.neg_apply]
      ring
  dhist_de s h t T e := by
    unfold isoKin
    dsimp only
    rw [isoKinFlow_mirrors hi hk, isoPart_mul, kinPart_mul, hi.drate_de, hk.drate_de, ← append_neg_mul]

end IsoKin

section Rates

variable {n : ℕ} {p : Fin n → ℝ} {f f1 f2 : FlowRule n}

theorem g_mirrors (q : KMParams) (T e : ℝ) : q.g T (-e) = q.g T e := by
  unfold KMParams.g; rw [abs_neg]

theorem dg_mirrors (q : KMParams) (T e : ℝ) : q.dg T (-e) = -q.dg T e := by
  unfold KMParams.dg; rw [abs_neg, sgn_neg]; ring

theorem kmSwitch_mirrors (q : KMParams) (h1 : FlowMirrors p f1) (h2 : FlowMirrors p f2) : FlowMirrors p (kmSwitch f1 f2 q) where
  flow s h t T e := by
    simp only [kmSwitch, switchValues, g_mirrors]; split_ifs <;> [exact h2.flow s h t T e; exact h1.flow s h t T e]
  dflow_ds s h t T e := by
    simp only [kmSwitch, switchValues, g_mirrors]; split_ifs <;> [exact h2.dflow_ds s h t T e; exact h1.dflow_ds s h t T e]
  dflow_dh s h t T e := by
    simp only [kmSwitch, switchValues, g_mirrors]; split_ifs <;> [exact h2.dflow_dh s h t T e; exact h1.dflow_dh s h t T e]
  dflow_de s h t T e := by
    simp only [kmSwitch, switchValues, g_mirrors]; split_ifs <;> [exact h2.dflow_de s h t T e; exact h1.dflow_de s h t T e]
  hist s h t T e := by
    simp only [kmSwitch, switchValues, g_mirrors]; split_ifs <;> [exact h2.hist s h t T e; exact h1.hist s h t T e]
  dhist_dh s h t T e i j := by
    simp only [kmSwitch, switchValues, g_mirrors]; split_ifs <;> [exact h2.dhist_dh s h t T e i j; exact h1.dhist_dh s h t T e i j]
  dhist_ds s h t T e := by
    simp only [kmSwitch, switchValues, g_mirrors]; split_ifs <;> [exact h2.dhist_ds s h t T e; exact h1.dhist_ds s h t T e]
  dhist_de s h t T e := by
    simp only [kmSwitch, switchValues, g_mirrors]; split_ifs <;> [exact h2.dhist_de s h t T e; exact h1.dhist_de s h t T e]

theorem softF_mirrors (q : KMParams) (sf T e : ℝ) : softF q sf T (-e) = softF q sf T e := by
  unfold softF; rw [g_mirrors]

theorem softDF_mirrors (q : KMParams) (sf T e : ℝ) : softDF q sf T (-e) = -softDF q sf T e := by
  unfold softDF; rw [g_mirrors, dg_mirrors]; ring

theorem kmSoft_mirrors (q : KMParams) (sf : ℝ) (h1 : FlowMirrors p f1) (h2 : FlowMirrors p f2) : FlowMirrors p (kmSoft f1 f2 q sf) where
  flow s h t T e := by
    simp only [kmSoft, blend, softF_mirrors, h1.flow, h2.flow, smul_eq_mul]; ring
  dflow_ds s h t T e := by
    simp only [kmSoft, blend, softF_mirrors, h1.dflow_ds, h2.dflow_ds]
  dflow_dh s h t T e := by
    funext i
    simp only [kmSoft, blend, softF_mirrors, h1.dflow_dh, h2.dflow_dh, Pi.add_apply, Pi.smul_apply, Pi.mul_apply, smul_eq_mul]; ring
  dflow_de s h t T e := by
    simp only [kmSoft, blend, softF_mirrors, softDF_mirrors, h1.dflow_de, h2.dflow_de, h1.flow, h2.flow, smul_eq_mul]; ring
  hist s h t T e := by
    funext i
    simp only [kmSoft, blend, softF_mirrors, h1.hist, h2.hist, Pi.add_apply, Pi.smul_apply, Pi.mul_apply, smul_eq_mul]; ring
  dhist_dh s h t T e i j := by
    simp only [kmSoft, blend, softF_mirrors, h1.dhist_dh, h2.dhist_dh, Matrix.add_apply, Matrix.smul_apply, smul_eq_mul]; ring
  dhist_ds s h t T e := by
    funext i
    simp only [kmSoft, blend, softF_mirrors, h1.dhist_ds, h2.dhist_ds, Pi.add_apply, Pi.smul_apply, Pi.mul_apply, smul_eq_mul]; ring
  dhist_de s h t T e := by
    funext i
    simp only [kmSoft, blend, softF_mirrors, softDF_mirrors, h1.dhist_de, h2.dhist_de, h1.hist, h2.hist, Pi.add_apply, Pi.smul_apply, Pi.mul_apply,
      Pi.neg_apply, smul_eq_mul]
    ring

theorem rateIndependent_mirrors (lmbda epsRef : ℝ) (h : FlowMirrors p f) : FlowMirrors p (rateIndependent f lmbda epsRef) := by
  have h1 : ∀ e, riScale lmbda epsRef (-e) = riScale lmbda epsRef e := fun e => by unfold riScale; rw [abs_neg]
  have h2 : ∀ e, riDScale lmbda epsRef (-e) = -riDScale lmbda epsRef e := fun e => by unfold riDScale; rw [sgn_neg]; ring
  exact
    { flow := fun s x t T e => by simp only [rateIndependent, h1, h.flow]; ring
      dflow_ds := fun s x t T e => by simp only [rateIndependent, h1, h.dflow_ds]
      dflow_dh := fun s x t T e => by funext i; simp only [rateIndependent, h1, h.dflow_dh, Pi.mul_apply]; ring
      dflow_de := fun s x t T e => by simp only [rateIndependent, h1, h2, h.dflow_de, h.flow]; ring
      hist := fun s x t T e => by funext i; simp only [rateIndependent, h1, h.hist, Pi.mul_apply]; ring
      dhist_dh := fun s x t T e i j => by simp only [rateIndependent, h1, h.dhist_dh, Matrix.smul_apply, smul_eq_mul]; ring
      dhist_ds := fun s x t T e => by funext i; simp only [rateIndependent, h1, h.dhist_ds, Pi.mul_apply]; ring
      dhist_de := fun s x t T e => by
        funext i; simp only [rateIndependent, h1, h2, h.dhist_de, h.hist, Pi.mul_apply, Pi.neg_apply]; ring }

end Rates

/-! ## Damage -/

theorem noDamage_mirrors : DamageMirrors noDamage := by constructor <;> intros <;> simp [noDamage]

theorem constantDamage_mirrors (R : ℝ → ℝ) : DamageMirrors (constantDamage R) := by constructor <;> intros <;> simp [constantDamage]

theorem hayhurstLeckie_mirrors (A xi phi : ℝ → ℝ) : DamageMirrors (hayhurstLeckie A xi phi) := by
  constructor <;> intros <;> simp [hayhurstLeckie, abs_neg, sgn_neg]

theorem larsonMiller_mirrors (C A B : ℝ → ℝ) (eps : ℝ) : DamageMirrors (larsonMiller C A B eps) := by
  constructor <;> intros <;> simp [larsonMiller, abs_neg, sgn_neg]

/-! ## Material models -/

theorem inelastic_mirrors {n : ℕ} (E : ℝ → ℝ) {p : Fin n → ℝ} {f : FlowRule n} (h : FlowMirrors p f) :
    ModelMirrors (Fin.cons (-1) p) (inelastic E f) := by
  have h0 : ∀ y : Fin (n + 1) → ℝ, ((Fin.cons (-1) p : Fin (n + 1) → ℝ) * y) 0 = -y 0 := fun y => by simp
  have hs : ∀ y : Fin (n + 1) → ℝ, (fun j => ((Fin.cons (-1) p : Fin (n + 1) → ℝ) * y) (Fin.succ j)) = p * fun j => y j.succ := fun y => by
    funext j; simp
  refine ⟨fun t y e T => ?_, fun t y e T i j => ?_, fun t y e T => ?_⟩
  · unfold inelastic
    dsimp only
    rw [h0, hs, h.flow, h.hist]
    funext i
    refine Fin.cases ?_ (fun i => ?_) i
    · simp only [Fin.cons_zero, Pi.mul_apply]; ring
    · simp only [Fin.cons_succ, Pi.mul_apply]
  · unfold inelastic
    dsimp only
    rw [h0, hs, h.dflow_ds, h.dflow_dh, h.dhist_ds]
    refine Fin.cases ?_ (fun i => ?_) i <;> refine Fin.cases ?_ (fun j => ?_) j <;>
      simp only [Fin.cons_zero, Fin.cons_succ, Pi.mul_apply, Pi.neg_apply, h.dhist_dh] <;> ring
  · unfold inelastic
    dsimp only
    rw [h0, hs, h.dflow_de, h.dhist_de]
    funext i
    refine Fin.cases ?_ (fun i => ?_) i
    · simp only [Fin.cons_zero, Pi.mul_apply, Pi.neg_apply]; ring
    · simp only [Fin.cons_succ, Pi.mul_apply, Pi.neg_apply]

theorem damaged_mirrors {n : ℕ} (E : ℝ → ℝ) {p : Fin n → ℝ} {f : FlowRule n} {D : Damage} (h : FlowMirrors p f) (hD : DamageMirrors D) :
    ModelMirrors (cat3 (-1) p 1) (damaged E f D) := by
  have c0 : ∀ (a : ℝ) (b : Fin n → ℝ) (c : ℝ), cat3 a b c 0 = a := fun a b c => rfl
  have cm : ∀ {α : Type} (a : α) (b : Fin n → α) (c : α) (j : Fin n), cat3 a b c j.castSucc.succ = b j := fun a b c j => by simp [cat3]
  have cl : ∀ {α : Type} (a : α) (b : Fin n → α) (c : α), cat3 a b c (Fin.last (n + 1)) = c := fun a b c => by
    rw [← Fin.succ_last]; simp [cat3]
  have h0 : ∀ y : Fin (n + 2) → ℝ, ((cat3 (-1) p 1 : Fin (n + 2) → ℝ) * y) 0 = -y 0 := fun y => by simp [c0]
  have hm : ∀ y : Fin (n + 2) → ℝ, midPart ((cat3 (-1) p 1 : Fin (n + 2) → ℝ) * y) = p * midPart y := fun y => by
    funext j; simp only [midPart, Pi.mul_apply, cm]
  have hl : ∀ y : Fin (n + 2) → ℝ, ((cat3 (-1) p 1 : Fin (n + 2) → ℝ) * y) (Fin.last (n + 1)) = y (Fin.last (n + 1)) := fun y => by
    rw [Pi.mul_apply, cl, one_mul]
  have cases3 : ∀ {P : Fin (n + 2) → Prop}, P 0 → (∀ j : Fin n, P j.castSucc.succ) → P (Fin.last (n + 1)) → ∀ i, P i := by
    intro P a b c i
    refine Fin.cases a (fun i => ?_) i
    refine Fin.lastCases ?_ (fun j => b j) i
    exact c
  have c0' : ∀ (a : Fin (n + 2) → ℝ) (b : Fin n → Fin (n + 2) → ℝ) (c : Fin (n + 2) → ℝ), cat3 a b c 0 = a := fun a b c => rfl
  refine ⟨fun t y e T => ?_, fun t y e T i j => ?_, fun t y e T => ?_⟩
  · unfold damaged
    dsimp only
    rw [h0, hm, hl, neg_div, h.flow, h.hist, hD.rate]
    funext i
    revert i
    refine cases3 ?_ (fun j => ?_) ?_
    · simp only [Pi.mul_apply, c0]; ring
    · simp only [Pi.mul_apply, cm]
    · simp only [Pi.mul_apply, cl, one_mul]
  · unfold damaged
    dsimp only
    rw [h0, hm, hl, neg_div, h.dflow_ds, h.dflow_dh, h.dhist_ds, h.flow, hD.drate_ds, hD.drate_dd]
    revert i j
    refine cases3 ?_ (fun i => ?_) ?_ <;> refine cases3 ?_ (fun j => ?_) ?_ <;>
      simp only [Pi.mul_apply, Pi.neg_apply, c0, c0', cm, cl, h.dhist_dh, Pi.zero_apply] <;> ring
  · unfold damaged
    dsimp only
    rw [h0, hm, hl, neg_div, h.dflow_de, h.dhist_de, hD.drate_de]
    funext i
    revert i
    refine cases3 ?_ (fun j => ?_) ?_
    · simp only [Pi.mul_apply, Pi.neg_apply, c0]; ring
    · simp only [Pi.mul_apply, Pi.neg_apply, cm]
    · simp only [Pi.mul_apply, Pi.neg_apply, cl]; ring

end Pyoptmat.Mirror
