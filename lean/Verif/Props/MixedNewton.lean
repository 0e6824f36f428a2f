import Verif.Props.GlobalNewton
import Verif.Props.MixedGrad

/-!
# Property C128: mixed batches of tests of Norton's law succeed whatever the step and block sizes
-/

namespace Pyoptmat.Props

open Pyoptmat.Newton Pyoptmat.Spec Pyoptmat.Ode Pyoptmat.Chunktime Pyoptmat.Material Pyoptmat.Control Pyoptmat.Proofs

variable {β : Type*}

open Classical in
/-- What bounds the response of one test at row `k`: under strain control (label 0) the elastically computed stress, under stress control (label 1) the strain of the imposed stresses, elastic and creep; nothing otherwise. -/
noncomputable def responseBound (E n eta : ℝ → ℝ) (label : ℝ) (times data temps : ℕ → ℝ) (k : ℕ) : ℝ :=
  if label = 0 then ∑ i ∈ Finset.range k, E (temps (i + 1)) * |data (i + 1) - data i|
  else if label = 1 then
    ∑ i ∈ Finset.range k, (|data (i + 1) - data i| / E (temps (i + 1)) + (times (i + 1) - times i) * (|data (i + 1)| / eta (temps (i + 1))) ^ n (temps (i + 1)))
  else 0

/-- What is assumed of the tests. The imposed strain (label 0) or stress (label 1) of each test only grows or stays, in its direction `dir b`; a stress controlled test does not start with a stress of the opposite direction. At the
temperatures of the tests modulus and drag stress are positive, the exponents not negative, and those of the strain controlled tests between `1` and `N`. `M` bounds the responses, `L` the slope of the stress rate of the strain controlled tests, `H` the
duration of every block of `blk` steps of these. -/
structure MixedNortonTests (E n eta : β → ℝ → ℝ) (nt : ℕ) (times data temps : ℕ → β → ℝ) (label : β → ℝ) (blk : ℤ) (dir : β → ℝ) (N M L H : ℝ) : Prop where
  grid : ∀ b, StrictGrid (nt - 1) fun k => times k b
  sign : ∀ b, dir b = 1 ∨ dir b = -1
  mono : ∀ b k, k + 1 < nt → 0 ≤ dir b * (data (k + 1) b - data k b)
  start : ∀ b, label b = 1 → 0 ≤ dir b * data 0 b
  pars : ∀ b k, k < nt → 0 < E b (temps k b) ∧ 0 ≤ n b (temps k b) ∧ 0 < eta b (temps k b)
  exponents : ∀ b, label b = 0 → ∀ k, 0 < k → k < nt → 1 ≤ n b (temps k b) ∧ n b (temps k b) ≤ N
  one_le : 1 ≤ N
  bound : ∀ b, responseBound (E b) (n b) (eta b) (label b) (fun k => times k b) (fun k => data k b) (fun k => temps k b) (nt - 1) ≤ M
  slope : 0 ≤ L ∧ ∀ b, label b = 0 → ∀ k, 0 < k → k < nt → E b (temps k b) * (n b (temps k b) * (M / eta b (temps k b)) ^ (n b (temps k b) - 1) / eta b (temps k b)) ≤ L
  block : ∀ b i j, i ≤ j → j < nt → (j : ℤ) ≤ i + blk → times j b - times i b ≤ H

theorem no_resistance {N : ℝ} (hN : 1 ≤ N) : ConvexResistance (fun _ => 0) (fun _ => 0) N := by
  have := power_resistance (E := 0) (n := 1) (eta := 1) (N := N) le_rfl le_rfl hN one_pos
  simpa using this

/-- for Norton's law the number of updates of a call does not depend on the states -/
theorem callUpdates_one (model : β → Model (0 + 1)) (rate base T : β → ℝ → ℝ) (q : ℕ) (t : Fin q → β → ℝ) (y : Fin q → β → Fin (0 + 1) → ℝ) :
    callUpdates model rate base T q t y = callUpdates model rate base T q t 0 := by
  unfold callUpdates stressSolve
  rw [stressRJ_one _ _ _ _ _ (fun x : Fin q × β => y x.1 x.2) (fun x : Fin q × β => (0 : Fin q → β → Fin (0 + 1) → ℝ) x.1 x.2)]

open Classical in
/-- **C128.** Newton's method converges on every block of a mixed batch (`solve_both`, backward Euler, default guess) of tests of Norton's law (`InelasticModel` with `PerfectViscoplasticity`), each under strain or stress control, that are only
loaded or held, without any restriction on the step sizes, the number of steps solved at once or the number of tests: the run succeeds without a warning once more than `j + 1` iterations are allowed, where
`(1 - 1/N)^j M (1 + L H) ≤ atol`; `N` and `L` concern the strain controlled tests only. No response points against the loading: the stresses of the strain controlled tests lie between zero and the elastically computed stress, the strains of
the stress controlled tests between zero and the strain of the imposed stresses. -/
theorem C128_mixed_succeeds (c : Config) (hs : c.scheme = .backwardEuler) (hg : c.guessType = "zero") (E n eta : β → ℝ → ℝ) (nt : ℕ) (hnt : 0 < nt) (times data temps : ℕ → β → ℝ) (label : β → ℝ) (blk : ℤ) (hb : 0 < blk)
    (dir : β → ℝ) (N M L H : ℝ) (h : MixedNortonTests E n eta nt times data temps label blk dir N M L H) (j : ℕ) (hj : (j : ℤ) + 1 < c.miter) (ha : (1 - 1 / N) ^ j * (M * (1 + L * H)) ≤ c.atol) :
    ∃ res, solveBoth c (fun b => inelastic (E b) (perfect (n b) (eta b))) nt times temps data label blk = .ok (res, false) ∧ ∀ k < nt, ∀ b,
      0 ≤ dir b * res.get k b 0 ∧ dir b * res.get k b 0 ≤ responseBound (E b) (n b) (eta b) (label b) (fun k => times k b) (fun k => data k b) (fun k => temps k b) k := by
  have dabs : ∀ b x, 0 ≤ dir b * x → dir b * x = |x| := by
    intro b x hx
    rcases h.sign b with q | q
    · rw [q, one_mul] at hx ⊢; exact (abs_of_nonneg hx).symm
    · rw [q, neg_one_mul] at hx ⊢; exact (abs_of_nonpos (by linarith)).symm
  have hd2 : ∀ b, dir b * dir b = 1 := fun b => by rcases h.sign b with q | q <;> rw [q] <;> norm_num
  have pos : ∀ b k, k < nt → label b = 1 → 0 ≤ dir b * data k b := by
    intro b k hk hl
    induction k with
    | zero => exact h.start b hl
    | succ k ih => have := h.mono b k hk; have := ih (by omega); linarith
  have creep : ∀ b x (nn ee : ℝ), 0 ≤ dir b * x → dir b * ((|x| / ee) ^ nn * Real.sign x) = if x = 0 then 0 else (|x| / ee) ^ nn := by
    intro b x nn ee hx
    rcases eq_or_ne x 0 with z | z
    · rw [if_pos z, z, Real.sign_zero]; ring
    · rw [if_neg z]
      have : dir b * Real.sign x = 1 := by
        rcases h.sign b with q | q
        · rw [q]; rw [q, one_mul] at hx; rw [Real.sign_of_pos (lt_of_le_of_ne hx z.symm)]; norm_num
        · rw [q]; rw [q, neg_one_mul] at hx; rw [Real.sign_of_neg (lt_of_le_of_ne (by linarith) z)]; norm_num
      linear_combination (|x| / ee) ^ nn * this
  set a : β → ℕ → ℝ := fun b k =>
    if label b = 0 then E b (temps (k + 1) b) * (dir b * ((data (k + 1) b - data k b) / (times (k + 1) b - times k b)))
    else if label b = 1 then dir b * ((data (k + 1) b - data k b) / (times (k + 1) b - times k b) / E b (temps (k + 1) b) +
      (|data (k + 1) b| / eta b (temps (k + 1) b)) ^ n b (temps (k + 1) b) * Real.sign (data (k + 1) b))
    else 0 with hadef
  have load : ∀ b k, k + 1 < nt → 0 ≤ a b k := by
    intro b k hk
    obtain ⟨p1, p2, p3⟩ := h.pars b (k + 1) hk
    have dt := sub_pos.2 (h.grid b k (by omega))
    have hm := h.mono b k hk
    simp only [hadef]
    split_ifs with e0 e1
    · refine mul_nonneg p1.le ?_
      rw [mul_div_assoc']
      exact div_nonneg hm dt.le
    · rw [mul_add, creep b _ _ _ (pos b (k + 1) hk e1), mul_div_assoc', mul_div_assoc']
      refine add_nonneg (div_nonneg (div_nonneg hm dt.le) p1.le) ?_
      split_ifs
      · exact le_rfl
      · exact Real.rpow_nonneg (div_nonneg (abs_nonneg _) p3.le) _
    · exact le_rfl
  have el : ∀ b k, k < nt → elasticSum (dir b * (0 : BVec β (0 + 1) ℝ) b 0) (fun k => times k b) (a b) k ≤
      responseBound (E b) (n b) (eta b) (label b) (fun k => times k b) (fun k => data k b) (fun k => temps k b) k := by
    intro b k hk
    rw [elasticSum]
    simp only [Pi.zero_apply, mul_zero, zero_add, responseBound]
    split_ifs with e0 e1
    · refine Finset.sum_le_sum fun i hi => ?_
      have hi := Finset.mem_range.1 hi
      have := sub_pos.2 (h.grid b i (by omega))
      rw [← dabs b _ (h.mono b i (by omega)), hadef]
      simp only [e0, if_true]
      refine le_of_eq ?_
      field_simp
    · refine Finset.sum_le_sum fun i hi => ?_
      have hi := Finset.mem_range.1 hi
      have dt := sub_pos.2 (h.grid b i (by omega))
      obtain ⟨p1, p2, p3⟩ := h.pars b (i + 1) (by omega)
      rw [← dabs b (data (i + 1) b - data i b) (h.mono b i (by omega)), hadef]
      simp only [e1, one_ne_zero, if_true, if_false]
      rw [mul_add (dir b), mul_add, creep b _ _ _ (pos b (i + 1) (by omega) e1)]
      refine add_le_add (le_of_eq ?_) (mul_le_mul_of_nonneg_left ?_ dt.le)
      · field_simp
      · split_ifs
        · exact Real.rpow_nonneg (div_nonneg (abs_nonneg _) p3.le) _
        · exact le_rfl
    · refine le_of_eq (Finset.sum_eq_zero fun i _ => ?_)
      simp only [hadef, e0, e1, if_false, mul_zero]
  have m0 : ∀ b : β, 0 ≤ M := by
    intro b
    refine le_trans ?_ ((el b (nt - 1) (by omega)).trans (h.bound b))
    rw [elasticSum]
    simp only [Pi.zero_apply, mul_zero, zero_add]
    refine Finset.sum_nonneg fun i hi => ?_
    have hi := Finset.mem_range.1 hi
    exact mul_nonneg (sub_nonneg.2 (h.grid b i (by omega)).le) (load b i (by omega))
  obtain ⟨res, h1, h2⟩ := convex_integrateB c hs hg (bothFunc (fun b => inelastic (E b) (perfect (n b) (eta b))) nt times data temps label) 0 nt hnt times blk hb (fun b k hk => (h.grid b k (by omega)).le)
    (sg := dir) (a := a) (G := fun b k => if label b = 0 then fun x => E b (temps (k + 1) b) * (x / eta b (temps (k + 1) b)) ^ n b (temps (k + 1) b) else fun _ => 0)
    (G' := fun b k => if label b = 0 then fun x => E b (temps (k + 1) b) * (n b (temps (k + 1) b) * (x / eta b (temps (k + 1) b)) ^ (n b (temps (k + 1) b) - 1) / eta b (temps (k + 1) b)) else fun _ => 0)
    (N := N) (L := L) (B := M * (1 + L * H)) (M := M) hd2 (fun b => by simp) load h.one_le
    (fun b k hk => by
      beta_reduce
      obtain ⟨p1, p2, p3⟩ := h.pars b (k + 1) hk
      by_cases e0 : label b = 0
      · obtain ⟨q1, q2⟩ := h.exponents b e0 (k + 1) (by omega) hk
        rw [if_pos e0, if_pos e0]
        exact power_resistance p1.le q1 q2 p3
      · rw [if_neg e0, if_neg e0]
        exact no_resistance h.one_le)
    (fun k len hlen0 hlen _ => by
      have hnt1 : 1 < nt := by omega
      set rate : β → ℝ → ℝ := fun b => rateFn nt (fun k => times k b) fun k => data k b with hrate
      set base : β → ℝ → ℝ := fun b => dataFn nt (fun k => times k b) fun k => data k b with hbase
      set T : β → ℝ → ℝ := fun b => dataFn nt (fun k => times k b) fun k => temps k b with hT
      set K : ℕ := callUpdates (fun b => inelastic (E b) (perfect (n b) (eta b))) rate base T (len + 1) (fun j b => times (k + j.val) b) 0 with hK
      refine ⟨fun b t y => if label b = 1 then (fun _ => if K = 0 then 0 else rate b t / E b (T b t) + (|base b t| / eta b (T b t)) ^ n b (T b t) * sgn (base b t), 0)
        else if label b = 0 then strainFunc (fun b => inelastic (E b) (perfect (n b) (eta b))) nt times data temps b t y else (0, 0),
        fun b i => if label b = 1 ∧ K = 0 then 0 else a b (k + i), ?_, ?_⟩
      · intro Y
        have sel := fun j b => C27_selection (β := Fin (len + 1) × β) (fun x => inelastic (E x.2) (perfect (n x.2) (eta x.2))) (fun x => rate x.2) (fun x => base x.2) (fun x => T x.2)
          (fun x => label x.2) (fun x => times (k + x.1.val) x.2) (fun x => Y x.1 x.2) (j, b)
        have val := fun j b => C113_recorded (fun b (_ : Unit) => inelastic (E b) (perfect (n b) (eta b))) () nt times data temps label (len + 1) (fun j b => times (k + j.val) b) Y rate base T hrate hbase hT j b
        refine Prod.ext ?_ ?_
        · funext j b
          refine (val j b).trans ?_
          rw [callUpdates_one, ← hK]
          simp only [Func.lift, recordedBoth]
          by_cases e1 : label b = 1
          · rw [if_pos e1, if_pos e1]
            have hTk : T b (times (k + j.val) b) = temps (k + j.val) b := dataFn_grid (h.grid b) (fun k => temps k b) (by have := j.2; omega) hnt1
            have hE : E b (T b (times (k + j.val) b)) ≠ 0 := by rw [hTk]; exact (h.pars b _ (by have := j.2; omega)).1.ne'
            rw [C105_inelastic (fun _ => E b) (fun _ => perfect (n b) (eta b)) _ _ _ _ _ _ (fun _ _ _ _ _ _ => rfl) (fun _ _ _ _ _ _ => rfl) (fun _ _ _ _ _ _ => rfl) () hE]
            funext i
            obtain rfl : i = 0 := Subsingleton.elim (α := Fin 1) i 0
            rfl
          · rw [if_neg e1, if_neg e1]
            by_cases e0 : label b = 0
            · rw [if_pos e0, if_pos e0]; rfl
            · rw [if_neg e0, if_neg e0]
        · funext j b
          obtain ⟨s0, s1, s2⟩ := sel j b
          simp only [Func.lift]
          by_cases e1 : label b = 1
          · rw [if_pos e1]
            refine (s1 e1).2.trans ?_
            ext i i'
            obtain rfl : i' = 0 := Subsingleton.elim (α := Fin 1) i' 0
            simp [stressForward, stressOut, stressJac]
          · rw [if_neg e1]
            by_cases e0 : label b = 0
            · rw [if_pos e0]; exact (s0 e0).2
            · rw [if_neg e0]; exact (s2 e0 e1).2
      · intro b i hi
        have hk : k + i + 1 < nt := by omega
        obtain ⟨p1, p2, p3⟩ := h.pars b (k + i + 1) hk
        have e1 : rate b (times (k + i + 1) b) = (data (k + i + 1) b - data (k + i) b) / (times (k + i + 1) b - times (k + i) b) := by
          have := rateFn_grid (h.grid b) (fun k => data k b) hk
          rw [eq_div_iff (sub_pos.2 (h.grid b (k + i) (by omega))).ne', mul_comm]; exact this
        have e2 : T b (times (k + i + 1) b) = temps (k + i + 1) b := dataFn_grid (h.grid b) (fun k => temps k b) hk hnt1
        have e3 : base b (times (k + i + 1) b) = data (k + i + 1) b := dataFn_grid (h.grid b) (fun k => data k b) hk hnt1
        refine ⟨?_, fun y hy => ?_⟩
        · beta_reduce
          split_ifs
          · exact ⟨le_rfl, load b (k + i) hk⟩
          · exact ⟨load b (k + i) hk, le_rfl⟩
        · beta_reduce
          by_cases l1 : label b = 1
          · have l0 : ¬ label b = 0 := by rw [l1]; norm_num
            simp only [l1, if_true, true_and, one_ne_zero, if_false, sub_zero, neg_zero, Matrix.zero_apply, and_true]
            rw [e1, e2, e3]
            by_cases hK0 : K = 0
            · rw [if_pos hK0, if_pos hK0, mul_zero]
            · rw [if_neg hK0, if_neg hK0, hadef]
              simp only [l1, one_ne_zero, if_true, if_false]
              rw [← mul_assoc, hd2, one_mul]
              rfl
          · simp only [l1, false_and, if_false]
            by_cases l0 : label b = 0
            · simp only [l0, if_true]
              obtain ⟨q1, q2⟩ := h.exponents b l0 (k + i + 1) (by omega) hk
              simp only [strainFunc]
              change (inelastic (E b) (perfect (n b) (eta b)) (times (k + i + 1) b) y (rate b (times (k + i + 1) b)) (T b (times (k + i + 1) b))).ydot 0 = _ ∧
                (inelastic (E b) (perfect (n b) (eta b)) (times (k + i + 1) b) y (rate b (times (k + i + 1) b)) (T b (times (k + i + 1) b))).J 0 0 = _
              rw [e1, e2]
              simp only [inelastic, perfect, Fin.cons_zero, sgn]
              rw [dabs b _ hy]
              refine ⟨?_, by ring⟩
              have key := creep b (y 0) (n b (temps (k + i + 1) b)) (eta b (temps (k + i + 1) b)) hy
              have e4 : (|y 0| / eta b (temps (k + i + 1) b)) ^ n b (temps (k + i + 1) b) * Real.sign (y 0) = dir b * (|y 0| / eta b (temps (k + i + 1) b)) ^ n b (temps (k + i + 1) b) := by
                have k2 : (if y 0 = 0 then 0 else (|y 0| / eta b (temps (k + i + 1) b)) ^ n b (temps (k + i + 1) b)) = (|y 0| / eta b (temps (k + i + 1) b)) ^ n b (temps (k + i + 1) b) := by
                  split_ifs with z
                  · rw [z, abs_zero, zero_div, Real.zero_rpow (by linarith)]
                  · rfl
                rw [k2] at key
                linear_combination dir b * key - (|y 0| / eta b (temps (k + i + 1) b)) ^ n b (temps (k + i + 1) b) * Real.sign (y 0) * hd2 b
              rw [e4, hadef]
              simp only [l0, if_true]
              linear_combination (-(E b (temps (k + i + 1) b) * ((data (k + i + 1) b - data (k + i) b) / (times (k + i + 1) b - times (k + i) b)))) * hd2 b
            · simp only [l0, if_false]
              rw [hadef]
              simp [l0, l1])
    (fun b => (el b _ (by omega)).trans (h.bound b)) h.slope.1
    (fun b k hk y hy0 hy => by
      beta_reduce
      obtain ⟨p1, p2, p4⟩ := h.pars b (k + 1) hk
      by_cases e0 : label b = 0
      · rw [if_pos e0]
        obtain ⟨q1, q2⟩ := h.exponents b e0 (k + 1) (by omega) hk
        refine le_trans ?_ (h.slope.2 b e0 (k + 1) (by omega) hk)
        refine mul_le_mul_of_nonneg_left ?_ p1.le
        refine div_le_div_of_nonneg_right (mul_le_mul_of_nonneg_left ?_ (by linarith)) p4.le
        exact Real.rpow_le_rpow (div_nonneg hy0 p4.le) (by gcongr) (by linarith)
      · rw [if_neg e0]
        exact h.slope.1) H h.block le_rfl j hj ha
  exact ⟨res, h1, fun k hk b => ⟨(h2 k hk b).1, (h2 k hk b).2.trans (el b k hk)⟩⟩

/-- **C128.** So there is an iteration limit that suffices for the given tests. -/
theorem C128_limit_exists (E n eta : β → ℝ → ℝ) (nt : ℕ) (hnt : 0 < nt) (times data temps : ℕ → β → ℝ) (label : β → ℝ) (blk : ℤ) (hb : 0 < blk) (dir : β → ℝ) (N M L H : ℝ)
    (h : MixedNortonTests E n eta nt times data temps label blk dir N M L H) (atol : ℝ) (hatol : 0 < atol) :
    ∃ limit : ℤ, ∀ c : Config, c.scheme = .backwardEuler → c.guessType = "zero" → c.atol = atol → limit ≤ c.miter →
      ∃ res, solveBoth c (fun b => inelastic (E b) (perfect (n b) (eta b))) nt times temps data label blk = .ok (res, false) := by
  have h1 : 0 ≤ 1 - 1 / N := by
    have := h.one_le
    rw [sub_nonneg, div_le_one (by linarith)]; exact this
  have h2 : 1 - 1 / N < 1 := by
    have := h.one_le
    have : 0 < 1 / N := by positivity
    linarith
  have lim := (tendsto_pow_atTop_nhds_zero_of_lt_one h1 h2).mul_const (M * (1 + L * H))
  rw [zero_mul] at lim
  obtain ⟨j, hj⟩ := (lim.eventually (gt_mem_nhds hatol)).exists
  refine ⟨(j : ℤ) + 2, fun c c1 c2 c3 c4 => ?_⟩
  obtain ⟨res, r, -⟩ := C128_mixed_succeeds c c1 c2 E n eta nt hnt times data temps label blk hb dir N M L H h j (by omega) (by rw [c3]; exact hj.le)
  exact ⟨res, r⟩

open Classical in
/-- **C128.** Creep tests need no bound at all: in a batch where no test is strain controlled (all labels other than 0), three iterations suffice with any absolute tolerance that is not negative, whatever the exponents and stresses. -/
theorem C128_creep_succeeds (c : Config) (hs : c.scheme = .backwardEuler) (hg : c.guessType = "zero") (hm : 2 < c.miter) (hatol : 0 ≤ c.atol) (E n eta : β → ℝ → ℝ) (nt : ℕ) (hnt : 0 < nt) (times data temps : ℕ → β → ℝ)
    (label : β → ℝ) (hlabel : ∀ b, label b ≠ 0) (blk : ℤ) (hb : 0 < blk) (dir : β → ℝ) (M H : ℝ) (h : MixedNortonTests E n eta nt times data temps label blk dir 1 M 0 H) :
    ∃ res, solveBoth c (fun b => inelastic (E b) (perfect (n b) (eta b))) nt times temps data label blk = .ok (res, false) ∧ ∀ k < nt, ∀ b,
      0 ≤ dir b * res.get k b 0 ∧ dir b * res.get k b 0 ≤ responseBound (E b) (n b) (eta b) (label b) (fun k => times k b) (fun k => data k b) (fun k => temps k b) k :=
  C128_mixed_succeeds c hs hg E n eta nt hnt times data temps label blk hb dir 1 M 0 H h 1 (by push_cast; linarith) (by norm_num; exact hatol)

/-- Non-vacuity: a tension test in strain control and a compressive creep test with a quadratic law, `E = η = 1`, in the same batch: loaded in one single step of 10 to a strain of 10 and to a stress of -1, and held for another step of 10; both
steps solved as one block, default options. The run succeeds; the stress lies between 0 and 10, the strain of the creep test between 0 and -21. -/
example : ∃ res, solveBoth (β := Bool)
    { scheme := .backwardEuler, method := .direct .thomas, rtol := 1e-6, atol := 1e-8, miter := 100, throwOnFail := true, guessType := "zero" }
    (fun _ => inelastic (fun _ => 1) (perfect (fun _ => 2) (fun _ => 1))) 3 (fun k _ => 10 * k) (fun _ _ => 0) (fun k b => if k = 0 then 0 else if b then 10 else -1) (fun b => if b then 0 else 1) 2 = .ok (res, false) ∧
    0 ≤ res.get 2 true 0 ∧ res.get 2 true 0 ≤ 10 ∧ -21 ≤ res.get 2 false 0 ∧ res.get 2 false 0 ≤ 0 := by
  obtain ⟨res, h1, h2⟩ := C128_mixed_succeeds (β := Bool)
    { scheme := .backwardEuler, method := .direct .thomas, rtol := 1e-6, atol := 1e-8, miter := 100, throwOnFail := true, guessType := "zero" } rfl rfl
    (fun _ _ => 1) (fun _ _ => 2) (fun _ _ => 1) 3 (by norm_num) (fun k _ => 10 * k) (fun k b => if k = 0 then 0 else if b then 10 else -1) (fun _ _ => 0) (fun b => if b then 0 else 1) 2 (by norm_num)
    (fun b => if b then 1 else -1) 2 21 42 20
    { grid := fun _ k _ => by push_cast; linarith
      sign := fun b => by cases b <;> simp
      mono := fun b k hk => by rcases k with _ | k <;> cases b <;> simp
      start := fun b _ => by simp
      pars := fun _ _ _ => by norm_num
      exponents := fun _ _ _ _ _ => by norm_num
      one_le := by norm_num
      bound := fun b => by cases b <;> simp [responseBound, Finset.sum_range_succ] <;> norm_num
      slope := ⟨by norm_num, fun _ _ _ _ _ => by norm_num⟩
      block := fun _ i j _ _ hij => by
        have : (j : ℝ) ≤ i + 2 := by exact_mod_cast hij
        linarith } 60 (by norm_num) (by norm_num)
  refine ⟨res, h1, ?_⟩
  have t := h2 2 (by norm_num) true
  have f := h2 2 (by norm_num) false
  simp [responseBound, Finset.sum_range_succ] at t f
  norm_num at t f
  exact ⟨t.1, t.2, by linarith [f.2], f.1⟩

end Pyoptmat.Props
