import Verif.Proofs.Interp
import Verif.Model.Temperature
import Mathlib.Analysis.SpecialFunctions.Pow.Asymptotics
import Mathlib.Algebra.Polynomial.Eval.Defs
import Mathlib.Tactic

/-!
# Properties C51–C54: temperature dependence of parameters
-/

namespace Pyoptmat.Props

open Pyoptmat.Temperature Pyoptmat.Interp Pyoptmat.Spec

/-! ### C51 -/

private lemma horner (T : ℝ) (l : List ℝ) : ∀ r, l.foldl (fun res c => res * T + c) r =
    r * T ^ l.length + ∑ i ∈ Finset.range l.length, l.getD i 0 * T ^ (l.length - 1 - i) := by
  induction l with
  | nil => intro r; simp
  | cons a l ih =>
    intro r
    rw [List.foldl_cons, ih, List.length_cons, Finset.sum_range_succ']
    have e : ∀ i, (a :: l).getD (i + 1) 0 * T ^ (l.length + 1 - 1 - (i + 1)) = l.getD i 0 * T ^ (l.length - 1 - i) := by
      intro i
      rw [List.getD_cons_succ]
      congr 2
      omega
    rw [Finset.sum_congr rfl fun i _ => e i]
    simp only [List.getD_cons_zero, Nat.add_sub_cancel, Nat.sub_zero]
    ring

/-- **C51** (polynomial, highest order first). For every non-empty list of coefficients, of any length, the value at every temperature is
`Σ_i c_i T^(n-1-i)`; the first coefficient goes with the highest power and the last one is the constant. -/
theorem C51_polynomial (scaleFn : List ℝ → List ℝ) (coefs : List ℝ) (h : scaleFn coefs ≠ []) (T : ℝ) :
    polynomialValue scaleFn coefs T =
      .ok (∑ i ∈ Finset.range (scaleFn coefs).length, (scaleFn coefs).getD i 0 * T ^ ((scaleFn coefs).length - 1 - i)) := by
  unfold polynomialValue
  generalize scaleFn coefs = l at h
  match l, h with
  | c0 :: rest, _ =>
    simp only [zero_add]
    have := horner T (c0 :: rest) 0
    rw [List.foldl_cons, zero_mul, zero_mul, zero_add, zero_add] at this
    rw [this]

/-- **C51** (consequences). One coefficient gives a constant parameter; at `T = 0` the value is the last coefficient; the empty list is refused. -/
theorem C51_special (c : ℝ) (init : List ℝ) (T : ℝ) :
    polynomialValue (fun l => l) [c] T = .ok c ∧ polynomialValue (fun l => l) (init ++ [c]) 0 = .ok c ∧
    ∃ e, polynomialValue (fun l => l) [] T = .error e := by
  refine ⟨by simp [polynomialValue], ?_, "index 0 is out of bounds", rfl⟩
  match init with
  | [] => simp [polynomialValue]
  | a :: l => simp [polynomialValue]

example : polynomialValue (fun l => l) [2, -1, 5] 10 = .ok 195 := by
  rw [C51_polynomial _ _ (by simp)]
  simp [Finset.sum_range_succ]
  norm_num

/-! ### C52 -/

/-- **C52** (piecewise linear). `n + 1` strictly increasing control temperatures, `n ≥ 1`: when all temperatures are in the range, the call
succeeds and each temperature gets the height of the polyline through its own row of control values (`C47_polyline`: the control value
at a control temperature, affine in between); when one of them is out of range the call fails. -/
theorem C52_piecewise (n q : ℕ) (hn : 0 < n) (control : ℕ → ℝ) (h : StrictGrid n control) (vcurr : ℕ → ℕ → ℝ) (T : ℕ → ℝ) :
    ((∀ k < q, control 0 ≤ T k ∧ T k ≤ control n) → ∃ out, piecewiseValue n q control vcurr T = .ok out ∧
      ∀ k < q, OnPolyline n control (fun j => vcurr j k) (T k) (out k)) ∧
    ((∃ k < q, T k < control 0 ∨ control n < T k) → ∃ e, piecewiseValue n q control vcurr T = .error e) := by
  constructor
  · intro hr
    have e : ∀ k ∈ List.range q, hits n control (fun j => vcurr j k) (T k) = [interpFn n control (fun j => vcurr j k) (T k)] := by
      intro k hk
      have := hr k (List.mem_range.1 hk)
      obtain ⟨v, e, e', -⟩ := hits_in_range hn h (fun j => vcurr j k) this.1 this.2
      rw [e, e']
    have e2 : ((List.range q).flatMap fun k => hits n control (fun j => vcurr j k) (T k)) =
        (List.range q).map fun k => interpFn n control (fun j => vcurr j k) (T k) := by
      rw [← flatMap_singleton]
      exact List.flatMap_congr e
    refine ⟨fun k => ((List.range q).map fun k => interpFn n control (fun j => vcurr j k) (T k)).getD k 0, ?_, ?_⟩
    · unfold piecewiseValue
      simp only [e2, List.length_map, List.length_range, if_true]
    · intro k hk
      have := hr k hk
      obtain ⟨v, e, e', hv⟩ := hits_in_range hn h (fun j => vcurr j k) this.1 this.2
      have : ((List.range q).map fun k => interpFn n control (fun j => vcurr j k) (T k)).getD k 0 =
          interpFn n control (fun j => vcurr j k) (T k) := by
        rw [List.getD_eq_getElem _ _ (by simpa using hk)]
        simp
      beta_reduce
      rw [this, e']
      exact hv
  · rintro ⟨k, hk, ho⟩
    refine ⟨"shape is invalid for input", ?_⟩
    have hlt := flatMap_length_lt (fun k => hits n control (fun j => vcurr j k) (T k)) 1 (List.range q)
      (fun k _ => hits_length_le h hn _ _) ⟨k, List.mem_range.2 hk, by rw [hits_out_of_range h _ ho]; simp⟩
    rw [List.length_range, mul_one] at hlt
    unfold piecewiseValue
    exact if_neg hlt.ne

example : ∃ out, piecewiseValue 2 2 (fun j => 100 * j) (fun j _ => (j : ℝ) ^ 2) (fun k => 150 * k) = .ok out ∧ out 1 = 5 / 2 := by
  have hg : StrictGrid 2 fun j : ℕ => (100 * j : ℝ) := by
    intro j _
    push_cast
    linarith
  obtain ⟨out, e, hp⟩ := (C52_piecewise 2 2 (by norm_num) (fun j => 100 * j) hg (fun j _ => (j : ℝ) ^ 2) (fun k => 150 * k)).1 (by
    intro k hk
    interval_cases k <;> norm_num)
  refine ⟨out, e, ?_⟩
  obtain ⟨j, hj, h0, h1, hv⟩ := hp 1 (by norm_num)
  interval_cases j
  · norm_num at h1
  · norm_num at hv ⊢
    exact hv

/-! ### C53 -/

/-- **C53** (the rate sensitivity is clipped). For every temperature and every parameter: with `cutoff ≥ 1` the value lies in `[1, cutoff]`; it is
`-mu b³ / (k T A)` when that lies in this range, `1` below it and `cutoff` above it. With `cutoff < 1` the value is always `cutoff`. -/
theorem C53_clipped (A : ℝ) (mu : ℝ → ℝ) (b k cutoff T : ℝ) :
    let raw := -(mu T * b ^ (3 : ℝ)) / (k * T * A)
    let v := kmRateValue A mu b k cutoff T
    (1 ≤ cutoff → 1 ≤ v ∧ v ≤ cutoff ∧ (1 ≤ raw → raw ≤ cutoff → v = raw) ∧ (raw ≤ 1 → v = 1) ∧ (cutoff ≤ raw → v = cutoff)) ∧
    (cutoff < 1 → v = cutoff) := by
  intro raw v
  have hv : v = min (max raw 1) cutoff := by
    simp only [v, raw, kmRateValue, clip, neg_mul]
  rw [hv]
  refine ⟨fun hc => ⟨le_min (le_max_right _ _) hc, min_le_right _ _, fun h1 h2 => ?_, fun h1 => ?_, fun h1 => ?_⟩, fun hc => ?_⟩
  · rw [max_eq_left h1, min_eq_left h2]
  · rw [max_eq_right h1, min_eq_left hc]
  · exact min_eq_right (h1.trans (le_max_left _ _))
  · exact min_eq_right (hc.le.trans (le_max_right _ _))

/-- **C53** (the Kocks–Mecking line). Take the rate sensitivity `n` and the viscosity `η` from the two classes with the same parameters, and the flow stress
`σ = η ε̇^(1/n)` of a perfect viscoplastic law. Wherever the unclipped rate sensitivity is in `[1, 20]`, for every positive rate
`log(σ/μ) = B + A g` with `g = k T / (μ b³) · log(ε̇₀/ε̇)`: a straight line in the normalised activation energy, with intercept `B` and
slope `A`. -/
theorem C53_kocks_mecking_line (A B : ℝ) (mu : ℝ → ℝ) (eps0 b k T rate : ℝ) (he : 0 < eps0) (hr : 0 < rate) (hmu : 0 < mu T)
    (h1 : 1 ≤ -(mu T * b ^ (3 : ℝ)) / (k * T * A)) (h2 : -(mu T * b ^ (3 : ℝ)) / (k * T * A) ≤ 20) :
    let n := kmRateValue A mu b k 20 T
    let η := kmViscosityValue A B mu eps0 b k T
    Real.log (η * rate ^ (1 / n) / mu T) = B + A * (k * T / (mu T * b ^ (3 : ℝ)) * Real.log (eps0 / rate)) := by
  intro n η
  have hn : n = -(mu T * b ^ (3 : ℝ)) / (k * T * A) := ((C53_clipped A mu b k 20 T).1 (by norm_num)).2.2.1 h1 h2
  have hn2 : kmRateValue A mu b k 1000 T = -(mu T * b ^ (3 : ℝ)) / (k * T * A) :=
    ((C53_clipped A mu b k 1000 T).1 (by norm_num)).2.2.1 h1 (h2.trans (by norm_num))
  have hη : η = Real.exp B * mu T * eps0 ^ (-1 / n) := by
    simp only [η, kmViscosityValue, forward, hn2, hn]
  have hn0 : n ≠ 0 := by rw [hn]; linarith
  have hm0 : mu T * b ^ (3 : ℝ) ≠ 0 := by
    intro h0
    rw [h0] at h1
    norm_num at h1
  have hd0 : k * T * A ≠ 0 := by
    intro h0
    rw [h0, div_zero] at h1
    norm_num at h1
  have e1 : η * rate ^ (1 / n) / mu T = Real.exp B * (eps0 ^ (-1 / n) * rate ^ (1 / n)) := by
    rw [hη]
    field_simp
  have p1 := Real.rpow_pos_of_pos he (-1 / n)
  have p2 := Real.rpow_pos_of_pos hr (1 / n)
  rw [e1, Real.log_mul (Real.exp_pos B).ne' (mul_pos p1 p2).ne', Real.log_exp, Real.log_mul p1.ne' p2.ne', Real.log_rpow he,
    Real.log_rpow hr, Real.log_div he.ne' hr.ne']
  have hinv : 1 / n = -(k * T * A) / (mu T * b ^ (3 : ℝ)) := by
    rw [hn]
    field_simp
  have hinv' : -1 / n = (k * T * A) / (mu T * b ^ (3 : ℝ)) := by
    rw [neg_div, hinv]
    ring
  rw [hinv, hinv']
  ring

/-- **C53** (the cutoffs of the two classes disagree). When the unclipped rate sensitivity exceeds 20, the default rate sensitivity is 20
while the viscosity uses a larger exponent: the flow stress at the reference rate is no longer `μ exp B`, for any reference rate other
than one. -/
theorem C53_cutoffs_disagree (A B : ℝ) (mu : ℝ → ℝ) (eps0 b k T : ℝ) (he : 0 < eps0) (he1 : eps0 ≠ 1) (hmu : 0 < mu T)
    (h : 20 < -(mu T * b ^ (3 : ℝ)) / (k * T * A)) :
    kmViscosityValue A B mu eps0 b k T * eps0 ^ (1 / kmRateValue A mu b k 20 T) ≠ mu T * Real.exp B := by
  have hn : kmRateValue A mu b k 20 T = 20 := ((C53_clipped A mu b k 20 T).1 (by norm_num)).2.2.2.2 h.le
  have hn2 : 20 < kmRateValue A mu b k 1000 T := by
    have hc := (C53_clipped A mu b k 1000 T).1 (by norm_num)
    rcases le_total (-(mu T * b ^ (3 : ℝ)) / (k * T * A)) 1000 with hle | hle
    · rw [hc.2.2.1 (by linarith) hle]; exact h
    · rw [hc.2.2.2.2 hle]; norm_num
  rw [hn]
  simp only [kmViscosityValue, forward]
  set m := kmRateValue A mu b k 1000 T
  have p1 := Real.exp_pos B
  rw [mul_assoc, ← Real.rpow_add he, mul_comm (Real.exp B)]
  intro heq
  have h1 : eps0 ^ (-1 / m + 1 / 20) = 1 := mul_left_cancel₀ (mul_pos hmu p1).ne' (by rw [mul_one]; exact heq)
  have hlog := congrArg Real.log h1
  rw [Real.log_rpow he, Real.log_one, mul_eq_zero] at hlog
  rcases hlog with h0 | h0
  · have : 1 / m < 1 / 20 := one_div_lt_one_div_of_lt (by norm_num) hn2
    rw [neg_div] at h0
    linarith
  · rcases Real.log_eq_zero.1 h0 with h0 | h0 | h0 <;> first | exact he1 h0 | linarith

example : kmRateValue (-1) (fun _ => 1) 1 1 20 (1 / 10) = 10 := by
  have := ((C53_clipped (-1) (fun _ => 1) 1 1 20 (1 / 10)).1 (by norm_num)).2.2.1 (by norm_num) (by norm_num)
  rw [this]
  norm_num

example : (20 : ℝ) < -((fun _ => 1 : ℝ → ℝ) (1 / 100) * 1 ^ (3 : ℝ)) / (1 * (1 / 100) * (-1)) := by norm_num

/-! ### C54 -/

/-- **C54** (Arrhenius). With positive prefactor and activation energy, over positive temperatures `A exp(-Q/T)` strictly increases and stays strictly between 0 and `A`, and
`A (1 - exp(-Q/T))` strictly decreases and stays strictly between 0 and `A`; the two sum to `A`. -/
theorem C54_arrhenius (A Q T1 T2 : ℝ) (hA : 0 < A) (hQ : 0 < Q) (h1 : 0 < T1) (h12 : T1 < T2) :
    (arrheniusValue A Q T1 < arrheniusValue A Q T2 ∧ inverseArrheniusValue A Q T2 < inverseArrheniusValue A Q T1) ∧
    (0 < arrheniusValue A Q T1 ∧ arrheniusValue A Q T1 < A) ∧
    (0 < inverseArrheniusValue A Q T1 ∧ inverseArrheniusValue A Q T1 < A) ∧
    arrheniusValue A Q T1 + inverseArrheniusValue A Q T1 = A := by
  have hQT : Q / T2 < Q / T1 := div_lt_div_of_pos_left hQ h1 h12
  have hexp : Real.exp (-Q / T1) < Real.exp (-Q / T2) := by
    rw [Real.exp_lt_exp, neg_div, neg_div]
    linarith
  have hpos := Real.exp_pos (-Q / T1)
  have hlt : Real.exp (-Q / T1) < 1 := by
    rw [Real.exp_lt_one_iff, neg_div]
    have := div_pos hQ h1
    linarith
  unfold arrheniusValue inverseArrheniusValue
  refine ⟨⟨by nlinarith, by nlinarith⟩, ⟨by positivity, by nlinarith⟩, ⟨mul_pos hA (by linarith), by nlinarith⟩, by ring⟩

/-- **C54** (mechanical threshold stress). With positive parameters, `0 ≤ T1 ≤ T2`, a shear modulus that does not grow with temperature, and `k T ≤ μ b³ g0` at
`T2`: the value does not grow with temperature and lies in `[0, tau0]`; it is `tau0` at absolute zero and 0 where `k T = μ b³ g0`. -/
theorem C54_mts (tau0 g0 q p k b : ℝ) (mu : ℝ → ℝ) (T1 T2 : ℝ) (ht : 0 < tau0) (hg : 0 < g0) (hq : 0 < q) (hp : 0 < p) (hk : 0 < k) (hb : 0 < b)
    (h1 : 0 ≤ T1) (h12 : T1 ≤ T2) (hmu : 0 < mu T2) (hdec : mu T2 ≤ mu T1) (hval : k * T2 ≤ mu T2 * b ^ (3 : ℝ) * g0) :
    (mtsValue tau0 g0 q p k b mu T2 ≤ mtsValue tau0 g0 q p k b mu T1) ∧
    (0 ≤ mtsValue tau0 g0 q p k b mu T2 ∧ mtsValue tau0 g0 q p k b mu T2 ≤ tau0) ∧
    (mtsValue tau0 g0 q p k b mu 0 = tau0) ∧
    (k * T2 = mu T2 * b ^ (3 : ℝ) * g0 → mtsValue tau0 g0 q p k b mu T2 = 0) := by
  have hb3 : 0 < b ^ (3 : ℝ) := Real.rpow_pos_of_pos hb 3
  have hmu1 : 0 < mu T1 := lt_of_lt_of_le hmu hdec
  set x1 := k * T1 / (mu T1 * b ^ (3 : ℝ) * g0) with hx1
  set x2 := k * T2 / (mu T2 * b ^ (3 : ℝ) * g0) with hx2
  have d2 : 0 < mu T2 * b ^ (3 : ℝ) * g0 := by positivity
  have d1 : 0 < mu T1 * b ^ (3 : ℝ) * g0 := by positivity
  have h2 : 0 ≤ T2 := h1.trans h12
  have x10 : 0 ≤ x1 := by positivity
  have x21 : x2 ≤ 1 := (div_le_one d2).2 hval
  have x20 : 0 ≤ x2 := by positivity
  have x12 : x1 ≤ x2 := by
    rw [hx1, hx2]
    apply div_le_div₀ (by positivity) (by nlinarith) d2
    gcongr
  have r12 : x1 ^ (1 / q) ≤ x2 ^ (1 / q) := Real.rpow_le_rpow x10 x12 (by positivity)
  have r2 : x2 ^ (1 / q) ≤ 1 := Real.rpow_le_one x20 x21 (by positivity)
  have r20 : 0 ≤ x2 ^ (1 / q) := Real.rpow_nonneg x20 _
  have e1 : mtsValue tau0 g0 q p k b mu T1 = tau0 * (1 - x1 ^ (1 / q)) ^ (1 / p) := rfl
  have e2 : mtsValue tau0 g0 q p k b mu T2 = tau0 * (1 - x2 ^ (1 / q)) ^ (1 / p) := rfl
  refine ⟨?_, ⟨?_, ?_⟩, ?_, ?_⟩
  · rw [e1, e2]
    exact mul_le_mul_of_nonneg_left (Real.rpow_le_rpow (by linarith) (by linarith) (by positivity)) ht.le
  · rw [e2]
    exact mul_nonneg ht.le (Real.rpow_nonneg (by linarith) _)
  · rw [e2]
    exact mul_le_of_le_one_right ht.le (Real.rpow_le_one (by linarith) (by linarith) (by positivity))
  · unfold mtsValue
    rw [mul_zero, zero_div, Real.zero_rpow (by positivity), sub_zero, Real.one_rpow, mul_one]
  · intro he
    have : x2 = 1 := by rw [hx2, he, div_self d2.ne']
    rw [e2, this, Real.one_rpow, sub_self, Real.zero_rpow (by positivity), mul_zero]

/-- **C54** (shear modulus scalings and constants). A constant parameter ignores the temperature; the two shear modulus scalings are proportional to the modulus, the exponential one
with a positive factor, and agree when the second is given the logarithm of the factor of the first; the output scaling is applied
to the value. -/
theorem C54_shear (A p : ℝ) (hA : 0 < A) (mu scaling sc : ℝ → ℝ) (T T' : ℝ) :
    constantValue sc p T = constantValue sc p T' ∧ constantValue sc p T = sc p ∧
    shearValue (fun x => x) A mu T = shearExpValue (fun x => x) (Real.log A) mu T ∧
    shearValue sc A mu T * mu T' = shearValue sc A mu T' * mu T ∧
    shearExpValue sc A mu T * mu T' = shearExpValue sc A mu T' * mu T ∧
    (0 < mu T → 0 < shearExpValue sc A mu T) ∧ forward scaling (shearValue sc A mu) T = scaling (sc A * mu T) := by
  refine ⟨rfl, rfl, ?_, ?_, ?_, ?_, rfl⟩
  · unfold shearValue shearExpValue
    rw [Real.exp_log hA]
  · unfold shearValue; ring
  · unfold shearExpValue; ring
  · intro h
    exact mul_pos (Real.exp_pos _) h

example : mtsValue 100 1 1 1 1 1 (fun _ => 1000) 500 = 50 := by
  unfold mtsValue; norm_num

example : (1 : ℝ) * 500 ≤ (fun _ => 1000 : ℝ → ℝ) 500 * 1 ^ (3 : ℝ) * 1 := by norm_num

end Pyoptmat.Props
