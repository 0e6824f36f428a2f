import Verif.Proofs.Split
import Verif.Model.Integrator
import Verif.Props.Integrate
import Verif.Props.Elastic

/-!
# C121: runs can be cut short and continued; the future does not influence the past
-/

namespace Pyoptmat.Props

open Pyoptmat.Chunktime Pyoptmat.Ode Pyoptmat.Control Pyoptmat.Material Pyoptmat.Spec Pyoptmat.Split

variable {β : Type*} {m : ℕ}

/-- **C121.** A run can be split at the end of any block: integrating up to row `i * n` (blocks of `n` rows) and then from there, starting with the state
reached, gives exactly the rows, warnings and errors of the run in one go, for every right hand side and configuration with the default guess. -/
theorem C121_two_parts (c : Config) (hg : c.guessType = "zero") (F : BFunc β m) (y0 : BVec β m ℝ) (nt : ℕ) (t : ℕ → β → ℝ) {n : ℕ}
    (hn : 0 < n) (i : ℕ) (hi : i * n < nt) :
    integrate c F y0 nt t n =
      match integrate c F y0 (i * n + 1) t n with
      | .error e => .error e
      | .ok (r1, w1) =>
        match integrate c F (r1.get (i * n)) (nt - i * n) (fun k => t (i * n + k)) n with
        | .error e => .error e
        | .ok (r2, w2) => .ok (fun j => if j ≤ i * n then r1 j else r2 (j - i * n), w1 || w2) := by
  rw [integrate_split c (by rw [hg]; decide) F y0 nt t hn i hi]
  cases integrate c F y0 (i * n + 1) t n with
  | error e => rfl
  | ok r1 =>
    obtain ⟨r1, w1⟩ := r1
    dsimp only
    cases integrate c F (r1.get (i * n)) (nt - i * n) (fun k => t (i * n + k)) n with
    | error e => rfl
    | ok r2 => rfl

/-- **C121.** With either guess, dropping the rows after the end of a block leaves the earlier rows as they were (and adds no warning). -/
theorem C121_truncate (c : Config) (F : BFunc β m) (y0 : BVec β m ℝ) (nt : ℕ) (t : ℕ → β → ℝ) {n : ℕ} (hn : 0 < n) (i : ℕ)
    (hi : i * n < nt) (res : Partial β m) (w : Bool) (h : integrate c F y0 nt t n = .ok (res, w)) :
    ∃ res' w', integrate c F y0 (i * n + 1) t n = .ok (res', w') ∧ (∀ k ≤ i * n, res' k = res k) ∧ (w' = true → w = true) :=
  integrate_prefix c F y0 nt t hn i hi res w h

/-- **C121.** Two runs whose times agree up to row `i * n`, and whose right hand sides agree when called at those times, agree up to row `i * n`, whatever
comes later: number of times, times, right hand side. With the default block size 1, that is every row. -/
theorem C121_causal (c : Config) {F F' : BFunc β m} (y0 : BVec β m ℝ) {nt nt' : ℕ} {t t' : ℕ → β → ℝ} {n : ℕ} (hn : 0 < n) (i : ℕ)
    (hi : i * n < nt) (hi' : i * n < nt') (ht : ∀ k ≤ i * n, t k = t' k)
    (hF : ∀ (L : ℕ) (ts : Fin L → β → ℝ) (y : Fin L → BVec β m ℝ), 0 < i → (∀ j, ∃ k ≤ i * n, ts j = t k) → F L ts y = F' L ts y)
    {res res' : Partial β m} {w w' : Bool} (h : integrate c F y0 nt t n = .ok (res, w)) (h' : integrate c F' y0 nt' t' n = .ok (res', w')) :
    ∀ k ≤ i * n, res k = res' k := by
  obtain ⟨a, wa, ha, ea, -⟩ := integrate_prefix c F y0 nt t hn i hi res w h
  obtain ⟨b, wb, hb, eb, -⟩ := integrate_prefix c F' y0 nt' t' hn i hi' res' w' h'
  have hc : integrate c F y0 (i * n + 1) t n = integrate c F' y0 (i * n + 1) t' n := by
    rcases Nat.eq_zero_or_pos i with rfl | hpos
    · rw [integrate_eq c F y0 (by omega) t hn, integrate_eq c F' y0 (by omega) t' hn, starts_head hn]
      rfl
    · refine integrate_congr c y0 (by omega) (fun k hk => ht k (by omega)) hn fun k L hk hL yS dy => ?_
      refine blockRJ_eq c.scheme (fun y => hF (L + 1) _ y hpos fun j => ?_) yS dy
      obtain ⟨q, hq, e⟩ := stack_row (t := t) (K := i * n + 1) hk hL j
      exact ⟨q, by omega, e⟩
  rw [ha, hb] at hc
  obtain ⟨e1, -⟩ := Prod.mk.inj (Except.ok.inj hc)
  intro k hk
  rw [← ea k hk, e1, eb k hk]

/-- **C121.** Simulated tests: two sets of histories (times, data and temperatures) for the same materials and control modes that agree up to row `i * n`
give the same results up to that row, under strain, stress and mixed control, with any keyword arguments with a positive block size `n`. -/
theorem C121_tests (I : Integrator) {n : ℕ} (hb : I.opts.blockSize = n) (hn : 0 < n) (i : ℕ) (model : β → Model (m + 1)) {nt nt' : ℕ}
    (hi : i * n < nt) (hi' : i * n < nt') (times times' data data' temps temps' : ℕ → β → ℝ) (control : β → ℝ)
    (hg : ∀ b, StrictGrid (nt - 1) fun k => times k b) (hg' : ∀ b, StrictGrid (nt' - 1) fun k => times' k b)
    (ht : ∀ k ≤ i * n, times k = times' k) (hd : ∀ k ≤ i * n, data k = data' k) (hT : ∀ k ≤ i * n, temps k = temps' k) :
    (∀ r r' w w', I.strain model nt times data temps = .ok (r, w) → I.strain model nt' times' data' temps' = .ok (r', w') →
      ∀ k ≤ i * n, r k = r' k) ∧
    (∀ r r' w w', I.stress model nt times data temps = .ok (r, w) → I.stress model nt' times' data' temps' = .ok (r', w') →
      ∀ k ≤ i * n, r k = r' k) ∧
    (∀ r r' w w', I.both model nt times temps data control = .ok (r, w) → I.both model nt' times' temps' data' control = .ok (r', w') →
      ∀ k ≤ i * n, r k = r' k) := by
  have hrun : ∀ (F F' : BFunc β (m + 1)),
      (∀ (L : ℕ) (ts : Fin L → β → ℝ) (y : Fin L → BVec β (m + 1) ℝ), 0 < i → (∀ j, ∃ k ≤ i * n, ts j = times k) → F L ts y = F' L ts y) →
      ∀ r r' w w', I.run F nt times = .ok (r, w) → I.run F' nt' times' = .ok (r', w') → ∀ k ≤ i * n, r k = r' k := by
    intro F F' hF r r' w w' h h'
    unfold Integrator.run odeint odeintAdjoint at h h'
    rw [hb] at h h'
    cases hu : I.useAdjoint with
    | true =>
      simp only [hu, if_true] at h h'
      cases hm : makeSolver I.method ["func", "y0", "scheme", "adjoint_params"] I.kw I.opts with
      | error e => rw [hm] at h; cases h
      | ok c =>
        rw [hm] at h h'
        exact C121_causal c 0 hn i hi hi' ht hF h h'
    | false =>
      simp only [hu, Bool.false_eq_true, if_false] at h h'
      cases hm : makeSolver I.method ["func", "y0", "scheme"] I.kw I.opts with
      | error e => rw [hm] at h; cases h
      | ok c =>
        rw [hm] at h h'
        exact C121_causal c 0 hn i hi hi' ht hF h h'
  have hrow : ∀ (b : β) (t : ℝ), 0 < i → (∃ k ≤ i * n, t = times k b) →
      rateFn nt (fun k => times k b) (fun k => data k b) t = rateFn nt' (fun k => times' k b) (fun k => data' k b) t ∧
      dataFn nt (fun k => times k b) (fun k => data k b) t = dataFn nt' (fun k => times' k b) (fun k => data' k b) t ∧
      dataFn nt (fun k => times k b) (fun k => temps k b) t = dataFn nt' (fun k => times' k b) (fun k => temps' k b) t := by
    rintro b t hpos ⟨k, hk, rfl⟩
    have hin : 0 < i * n := Nat.mul_pos hpos hn
    have e1 := rateFn_row (hg b) (fun k => data k b) (k := k) (by omega) (by omega)
    have e2 := rateFn_row (hg' b) (fun k => data' k b) (k := k) (by omega) (by omega)
    have e3 := dataFn_grid (hg b) (fun k => data k b) (k := k) (by omega) (by omega)
    have e4 := dataFn_grid (hg' b) (fun k => data' k b) (k := k) (by omega) (by omega)
    have e5 := dataFn_grid (hg b) (fun k => temps k b) (k := k) (by omega) (by omega)
    have e6 := dataFn_grid (hg' b) (fun k => temps' k b) (k := k) (by omega) (by omega)
    have e0 : times k b = times' k b := by rw [ht k hk]
    have er := rateData_congr (times := fun k => times k b) (times' := fun k => times' k b) (data := fun k => data k b)
      (data' := fun k => data' k b) (K := i * n + 1) (fun k hk => by rw [ht k (by omega)]) (fun k hk => by rw [hd k (by omega)]) (k := k) (by omega)
    refine ⟨?_, ?_, ?_⟩
    · rw [e1, e0, e2, er]
    · rw [e3, e0, e4, hd k hk]
    · rw [e5, e0, e6, hT k hk]
  refine ⟨?_, ?_, ?_⟩
  · refine hrun _ _ fun L ts y hpos hts => ?_
    have hr := fun (j : Fin L) b => hrow b (ts j b) hpos (by obtain ⟨k, hk, e⟩ := hts j; exact ⟨k, hk, by rw [e]⟩)
    simp only [Func.lift, strainFunc, (hr _ _).1, (hr _ _).2.2]
  · refine hrun _ _ fun L ts y hpos hts => ?_
    have hr := fun (j : Fin L) b => hrow b (ts j b) hpos (by obtain ⟨k, hk, e⟩ := hts j; exact ⟨k, hk, by rw [e]⟩)
    simp only [stressFunc, stressForward, (hr _ _).1, (hr _ _).2.1, (hr _ _).2.2]
  · refine hrun _ _ fun L ts y hpos hts => ?_
    have hr := fun (j : Fin L) b => hrow b (ts j b) hpos (by obtain ⟨k, hk, e⟩ := hts j; exact ⟨k, hk, by rw [e]⟩)
    simp only [bothFunc, bothForward, strainForward, stressForward, (hr _ _).1, (hr _ _).2.1, (hr _ _).2.2]

/-- **C121.** A strain controlled test can be stored at the end of a block and continued from the stored state with only the remaining rows of its
history (backward Euler): the right hand side built from the remaining rows, integrated from the stored state, gives exactly the remaining rows of the
uninterrupted run. -/
theorem C121_continue_strain (c : Config) (hs : c.scheme = .backwardEuler) (hz : c.guessType = "zero") (model : β → Model m) (nt : ℕ)
    (times strains temps : ℕ → β → ℝ) (hg : ∀ b, StrictGrid (nt - 1) fun k => times k b) {n : ℕ} (hn : 0 < n) (i : ℕ) (hi : i * n < nt)
    (res : Partial β m) (w : Bool) (h : solveStrain c model nt times strains temps n = .ok (res, w)) :
    ∃ r w', integrate c (Func.lift (strainFunc model (nt - i * n) (fun k => times (i * n + k)) (fun k => strains (i * n + k))
        fun k => temps (i * n + k))) (res.get (i * n)) (nt - i * n) (fun k => times (i * n + k)) n = .ok (r, w') ∧
      (∀ j, r j = res (i * n + j)) ∧ (w' = true → w = true) := by
  unfold solveStrain at h
  have h14 := (C14_every_time_filled c _ 0 nt times (n : ℤ) (by omega) res w h).1
  have h2 := C121_two_parts c hz (Func.lift (strainFunc model nt times strains temps)) 0 nt times hn i hi
  rw [h] at h2
  cases h1 : integrate c (Func.lift (strainFunc model nt times strains temps)) 0 (i * n + 1) times n with
  | error e => rw [h1] at h2; cases h2
  | ok r1 =>
    obtain ⟨r1, w1⟩ := r1
    rw [h1] at h2
    dsimp only at h2
    cases h3 : integrate c (Func.lift (strainFunc model nt times strains temps)) (r1.get (i * n)) (nt - i * n) (fun k => times (i * n + k)) n with
    | error e => rw [h3] at h2; cases h2
    | ok r2 =>
      obtain ⟨r2, w2⟩ := r2
      rw [h3] at h2
      obtain ⟨e1, e2⟩ := Prod.mk.inj (Except.ok.inj h2)
      have hget : res.get (i * n) = r1.get (i * n) := by
        rw [e1]
        simp [Partial.get]
      have hcongr : integrate c (Func.lift (strainFunc model (nt - i * n) (fun k => times (i * n + k)) (fun k => strains (i * n + k))
          fun k => temps (i * n + k))) (res.get (i * n)) (nt - i * n) (fun k => times (i * n + k)) n =
          integrate c (Func.lift (strainFunc model nt times strains temps)) (r1.get (i * n)) (nt - i * n) (fun k => times (i * n + k)) n := by
        rw [hget]
        refine integrate_congr c _ (by omega) (fun k _ => rfl) hn fun k L hk hL yS dy => ?_
        rw [hs]
        refine blockRJ_eq_backward (fun j b y => ?_) yS dy
        have hj := j.2
        have hg2 : StrictGrid (nt - i * n - 1) fun k => times (i * n + k) b := fun k hk => by
          exact hg b (i * n + k) (by omega)
        have a1 := rateFn_row hg2 (fun k => strains (i * n + k) b) (k := k + j.val) (by omega) (by omega)
        have a2 := rateFn_row (hg b) (fun k => strains k b) (k := i * n + (k + j.val)) (by omega) (by omega)
        have a3 := dataFn_grid hg2 (fun k => temps (i * n + k) b) (k := k + j.val) (by omega) (by omega)
        have a4 := dataFn_grid (hg b) (fun k => temps k b) (k := i * n + (k + j.val)) (by omega) (by omega)
        have a5 : rateData (fun k => times (i * n + k) b) (fun k => strains (i * n + k) b) (k + j.val) =
            rateData (fun k => times k b) (fun k => strains k b) (i * n + (k + j.val)) := by
          unfold rateData
          rw [if_neg (by omega), if_neg (by omega), show i * n + (k + j.val) - 1 = i * n + (k + j.val - 1) by omega]
        unfold strainFunc
        dsimp only
        rw [a1, a2, a3, a4, a5]
      refine ⟨r2, w2, hcongr.trans h3, fun j => ?_, fun hw => by rw [e2, hw, Bool.or_true]⟩
      rw [e1]
      dsimp only
      rcases Nat.eq_zero_or_pos j with rfl | hj
      · have h0 := (C14_every_time_filled c _ _ _ _ (n : ℤ) (by omega) r2 w2 h3).2
        obtain ⟨v, hv⟩ := (h14 (i * n)).2 hi
        rw [h0, if_pos (by omega), Nat.add_zero]
        rw [e1] at hv
        simp only [le_refl, if_true] at hv
        rw [hv]
        simp [Partial.get, hv]
      · rw [if_neg (by omega), show i * n + j - i * n = j by omega]

/-- **C121.** The adjoint pass can be split at any row `k0` too: first over the rows from `k0` on, which gives a parameter gradient `G2` and the gradient
`L2` with respect to the state at `k0`; then over the rows up to `k0`, with `L2` as upstream gradient of row `k0`. The parameter gradients add up. The three
passes may use different block sizes and direct solvers. -/
theorem C121_adjoint_two_parts [Fintype β] (s : Scheme) (d d1 d2 : Direct) (f : Func β m) {p : ℕ}
    (fp : β → ℝ → (Fin m → ℝ) → Matrix (Fin m) (Fin p) ℝ) (nt : ℕ) (t : ℕ → β → ℝ) (y g : ℕ → BVec β m ℝ) (q q1 q2 : ℤ)
    (hq : 0 < q) (hq1 : 0 < q1) (hq2 : 0 < q2) (k0 : ℕ) (hk0 : k0 < nt)
    (hA : s = .backwardEuler → ∀ k, k + 1 < nt → ∀ b,
      IsUnit (1 - (t (k + 1) b - t k b) • (f b (t (k + 1) b) (y (k + 1) b)).2).det) :
    ∃ G1 L1 G2 L2, rewind s d2 f fp (nt - k0) (fun k => t (k0 + k)) (fun k => y (k0 + k)) (fun k => g (k0 + k)) q2 = .ok (G2, L2) ∧
      rewind s d1 f fp (k0 + 1) t y (Function.update g k0 L2) q1 = .ok (G1, L1) ∧
      rewind s d f fp nt t y g q = .ok (G1 + G2, L1) := by
  have hA2 : s = .backwardEuler → ∀ k, k + 1 < nt - k0 → ∀ b,
      IsUnit (1 - (t (k0 + (k + 1)) b - t (k0 + k) b) • (f b (t (k0 + (k + 1)) b) (y (k0 + (k + 1)) b)).2).det := fun hs k hk b =>
    hA hs (k0 + k) (by omega) b
  have w := rewind_spec s d f fp nt (by omega) t y g q hq hA
  have w2 := rewind_spec s d2 f fp (nt - k0) (by omega) (fun k => t (k0 + k)) (fun k => y (k0 + k)) (fun k => g (k0 + k)) q2 hq2 hA2
  set N := nt - k0 - 1 with hN
  have flip2 : ∀ {α : Type _} (x : ℕ → α), ∀ j ≤ N, flipRows (nt - k0) (fun k => x (k0 + k)) j = flipRows nt x j := fun x j hj => by
    unfold flipRows
    dsimp only
    congr 1
    omega
  have a2 : ∀ j ≤ N, adj s f (flipRows (nt - k0) fun k => t (k0 + k)) (flipRows (nt - k0) fun k => y (k0 + k))
      (flipRows (nt - k0) fun k => g (k0 + k)) j = adj s f (flipRows nt t) (flipRows nt y) (flipRows nt g) j :=
    adj_congr s f N (flip2 t) (flip2 y) (flip2 g)
  have c2 : ∀ j < N, contrib s f fp (flipRows (nt - k0) fun k => t (k0 + k)) (flipRows (nt - k0) fun k => y (k0 + k))
      (flipRows (nt - k0) fun k => g (k0 + k)) j = contrib s f fp (flipRows nt t) (flipRows nt y) (flipRows nt g) j := fun j hj => by
    unfold contrib
    rw [a2 j (by omega), a2 (j + 1) (by omega), flip2 t j (by omega), flip2 t (j + 1) (by omega), flip2 y j (by omega), flip2 y (j + 1) (by omega),
      flip2 g (j + 1) (by omega)]
  set L2 := adj s f (flipRows nt t) (flipRows nt y) (flipRows nt g) N with hL2
  have w1 := rewind_spec s d1 f fp (k0 + 1) (by omega) t y (Function.update g k0 L2) q1 hq1 (fun hs k hk b => hA hs k (by omega) b)
  have flip1 : ∀ {α : Type _} (x : ℕ → α), ∀ j ≤ k0, flipRows (k0 + 1) x j = flipRows nt x (N + j) := fun x j hj => by
    unfold flipRows
    congr 1
    omega
  have a1 : ∀ j ≤ k0, adj s f (flipRows (k0 + 1) t) (flipRows (k0 + 1) y) (flipRows (k0 + 1) (Function.update g k0 L2)) j =
      adj s f (flipRows nt t) (flipRows nt y) (flipRows nt g) (N + j) := by
    intro j hj
    rw [← adj_shift s f (flipRows nt t) (flipRows nt y) (flipRows nt g) N
      (fun j => if j = 0 then L2 else flipRows nt g (N + j)) (by simp [hL2]) (fun j => by simp)]
    refine adj_congr s f k0 (flip1 t) (flip1 y) (fun j hj => ?_) j hj
    by_cases h0 : j = 0
    · subst h0
      simp [flipRows]
    · rw [if_neg h0, ← flip1 g j hj]
      unfold flipRows
      rw [Function.update_of_ne (by omega)]
  have c1 : ∀ j < k0, contrib s f fp (flipRows (k0 + 1) t) (flipRows (k0 + 1) y) (flipRows (k0 + 1) (Function.update g k0 L2)) j =
      contrib s f fp (flipRows nt t) (flipRows nt y) (flipRows nt g) (N + j) := fun j hj => by
    unfold contrib
    rw [a1 j (by omega), a1 (j + 1) (by omega), flip1 t j (by omega), flip1 t (j + 1) (by omega), flip1 y j (by omega), flip1 y (j + 1) (by omega),
      show flipRows (k0 + 1) (Function.update g k0 L2) (j + 1) = flipRows nt g (N + (j + 1)) by
        rw [← flip1 g (j + 1) (by omega)]
        unfold flipRows
        rw [Function.update_of_ne (by omega)]]
    rfl
  refine ⟨_, _, ∑ j ∈ Finset.range N, contrib s f fp (flipRows nt t) (flipRows nt y) (flipRows nt g) j, L2, ?_, w1, ?_⟩
  · rw [w2, a2 _ (by omega)]
    congr 2
    refine Finset.sum_congr (by rw [hN]) fun j hj => c2 j (by simpa [hN] using hj)
  · rw [w]
    congr 2
    · rw [show nt - 1 = N + k0 by omega, Finset.sum_range_add, add_comm]
      congr 1
      refine (Finset.sum_congr (by simp) fun j hj => c1 j ?_).symm
      simpa using hj
    · rw [show nt - 1 = N + k0 by omega, show k0 + 1 - 1 = k0 by omega, a1 k0 le_rfl]

/-- Non-vacuity of C121: a bar pulled elastically to the stress 4 in four steps is stored after two (block size 2) and continued with the remaining three
rows; the continued run ends at 4, too. -/
example (c : Config) (hs : c.scheme = .backwardEuler) (hr : c.rtol = 0) (ha : c.atol = 0) (hm : 2 ≤ c.miter) (hz : c.guessType = "zero") :
    ∃ (y : BVec Unit 3 ℝ) (r : Partial Unit 3) (w : Bool), integrate c (Func.lift (strainFunc (fun _ : Unit => inelastic (fun _ => 100)
        (isoKin (fun _ => 5) (fun _ => 300) (fun _ => 10) (voce (fun _ => 100) (fun _ => 10)) (chaboche (nback := 1) (fun _ _ => 1000) (fun _ _ => 2)))) 3
        (fun k _ => ((2 + k : ℕ) : ℝ)) (fun k _ => ((2 + k : ℕ) : ℝ) / 100) fun _ _ => 300)) y 3 (fun k _ => ((2 + k : ℕ) : ℝ)) 2 = .ok (r, w) ∧
      y () 0 = 2 ∧ (r.get 2) () 0 = 4 := by
  obtain ⟨res, h1, h2⟩ := C72_elastic_always_solved (β := Unit) c hs hr ha hm hz (fun _ _ => 100) (fun _ _ => 5) (fun _ _ => 300) (fun _ _ => 10)
    (fun _ _ => 100) (fun _ _ => 10) (fun _ (_ : Fin 1) _ => 1000) (fun _ _ _ => 2) 5 (by norm_num) (fun k _ => (k : ℝ)) (fun k _ => (k : ℝ) / 100)
    (fun _ _ => 300) (by intro b k hk; push_cast; linarith) (by intros; norm_num) 2 (by norm_num) (fun k _ => k) (by
      intro k b
      induction k with
      | zero => simp
      | succ k ih => rw [Finset.sum_range_succ, ← ih]; push_cast; ring) (by
      intro j k b hj _
      rw [Nat.abs_cast]
      have : (j : ℝ) ≤ 4 := by exact_mod_cast Nat.lt_succ_iff.1 hj
      linarith)
  obtain ⟨r, w, h3, h4, -⟩ := C121_continue_strain c hs hz _ 5 _ _ _ (by intro b k hk; push_cast; linarith) (n := 2) (by norm_num) 1 (by norm_num) res false h1
  refine ⟨_, r, w, h3, ?_, ?_⟩
  · simpa using (h2 2 () (by norm_num)).1
  · have := (h2 4 () (by norm_num)).1
    unfold Partial.get at this ⊢
    rw [h4]
    simpa using this

/-- Non-vacuity of C121 (adjoint pass): `y' = -y` with two unit steps, split after the first, in blocks of two and with different solvers. -/
example (s : Scheme) (y g : ℕ → BVec Unit 1 ℝ) (fp : Unit → ℝ → (Fin 1 → ℝ) → Matrix (Fin 1) (Fin 1) ℝ) :
    ∃ G1 L1 G2 L2, rewind s .pcr (fun _ _ y => (-y, -1)) fp (3 - 1) (fun k _ => ((1 + k : ℕ) : ℝ)) (fun k => y (1 + k)) (fun k => g (1 + k)) 1 =
        .ok (G2, L2) ∧
      rewind s .thomas (fun _ _ y => (-y, -1)) fp (1 + 1) (fun k _ => (k : ℝ)) y (Function.update g 1 L2) 1 = .ok (G1, L1) ∧
      rewind s .thomas (fun _ _ y => (-y, -1)) fp 3 (fun k _ => (k : ℝ)) y g 2 = .ok (G1 + G2, L1) :=
  C121_adjoint_two_parts s .thomas .thomas .pcr (fun _ _ y => (-y, -1)) fp 3 (fun k _ => (k : ℝ)) y g 2 1 1 (by norm_num) (by norm_num) (by norm_num)
    1 (by norm_num) fun _ k _ b => by
      simp only [Matrix.det_fin_one, Nat.cast_add, Nat.cast_one, add_sub_cancel_left, one_smul, sub_neg_eq_add, Matrix.add_apply, Matrix.one_apply_eq]
      norm_num

end Pyoptmat.Props
