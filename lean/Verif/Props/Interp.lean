import Verif.Proofs.Interp

/-!
# Property C47: the time series interpolators

`n ≥ 1` intervals, strictly increasing times. "In range" is `times 0 ≤ t ≤ times n`.
-/

namespace Pyoptmat.Props

open Pyoptmat.Interp Pyoptmat.Spec

/-- **C47** (meaning of the specification). The polyline has one height at each time, goes through every recorded point, and stays between neighbouring
recorded values. -/
theorem C47_polyline (n : ℕ) (times vals : ℕ → ℝ) (h : StrictGrid n times) (t v : ℝ) (hv : OnPolyline n times vals t v) :
    (∀ v', OnPolyline n times vals t v' → v' = v) ∧ (∀ k ≤ n, t = times k → v = vals k) ∧
    ∃ j < n, times j ≤ t ∧ t ≤ times (j + 1) ∧ min (vals j) (vals (j + 1)) ≤ v ∧ v ≤ max (vals j) (vals (j + 1)) := by
  refine ⟨fun v' h' => polyline_unique h vals h' hv, ?_, ?_⟩
  · rintro k hk rfl
    obtain ⟨j, hj, h1, h2, e⟩ := hv
    have hd := h j hj
    have hkj : k = j ∨ k = j + 1 := by
      by_contra hne
      rcases Nat.lt_or_ge k j with hlt | hge
      · have := grid_lt h hlt (by omega); linarith
      · have := grid_lt h (i := j + 1) (j := k) (by omega) hk; linarith
    rcases hkj with rfl | rfl
    · rw [e]; simp
    · rw [e, div_self (by linarith)]; ring
  · obtain ⟨j, hj, h1, h2, e⟩ := hv
    have hd := h j hj
    have hd' : 0 < times (j + 1) - times j := by linarith
    set s := (t - times j) / (times (j + 1) - times j) with hs
    have s0 : 0 ≤ s := div_nonneg (by linarith) hd'.le
    have s1 : s ≤ 1 := by rw [hs, div_le_one hd']; linarith
    refine ⟨j, hj, h1, h2, ?_, ?_⟩
    · rcases le_total (vals j) (vals (j + 1)) with hle | hle
      · rw [min_eq_left hle, e]; nlinarith
      · rw [min_eq_right hle, e]; nlinarith
    · rcases le_total (vals j) (vals (j + 1)) with hle | hle
      · rw [max_eq_right hle, e]; nlinarith
      · rw [max_eq_left hle, e]; nlinarith

/-! ## `ArbitraryBatchTimeSeriesInterpolator` -/

/-- **C47.** If every query time is in the range of its own batch entry, the call succeeds and entry `(k, b)` of the result is the height of
the polyline of batch entry `b` at query `k`. -/
theorem C47_arbitrary_in_range (nb q n : ℕ) (hn : 0 < n) (times vals t : ℕ → ℕ → ℝ)
    (h : ∀ b < nb, StrictGrid n fun j => times j b)
    (hr : ∀ b < nb, ∀ k < q, times 0 b ≤ t k b ∧ t k b ≤ times n b) :
    ∃ out, arbitrary2d nb q n times vals t = .ok out ∧
      ∀ b < nb, ∀ k < q, OnPolyline n (fun j => times j b) (fun j => vals j b) (t k b) (out k b) := by
  have hh : ∀ b < nb, ∀ k < q, hits n (fun j => times j b) (fun j => vals j b) (t k b) =
      [interpFn n (fun j => times j b) (fun j => vals j b) (t k b)] := by
    intro b hb k hk
    obtain ⟨v, e, e', -⟩ := hits_in_range hn (h b hb) (fun j => vals j b) (hr b hb k hk).1 (hr b hb k hk).2
    rw [e, e']
  obtain ⟨h1, h2⟩ := flat_in_range nb q n times vals t _ hh
  refine ⟨fun k b => (flat nb q n times vals t).getD (b * q + k) 0, ?_, ?_⟩
  · unfold arbitrary2d
    simp only
    rw [if_pos h1]
  · intro b hb k hk
    beta_reduce
    rw [h2 b hb k hk]
    obtain ⟨v, -, e', e''⟩ := hits_in_range hn (h b hb) (fun j => vals j b) (hr b hb k hk).1 (hr b hb k hk).2
    rw [e']
    exact e''

/-- **C47.** If any query time is out of the range of its batch entry, the (two dimensional) call raises an error. -/
theorem C47_arbitrary_out_of_range_error (nb q n : ℕ) (hn : 0 < n) (times vals t : ℕ → ℕ → ℝ)
    (h : ∀ b < nb, StrictGrid n fun j => times j b)
    (hr : ∃ b < nb, ∃ k < q, t k b < times 0 b ∨ times n b < t k b) :
    ∃ e, arbitrary2d nb q n times vals t = .error e := by
  obtain ⟨b, hb, k, hk, ho⟩ := hr
  have hle : ∀ b ∈ List.range nb, ((List.range q).flatMap fun k =>
      hits n (fun j => times j b) (fun j => vals j b) (t k b)).length ≤ q := by
    intro b hb
    have := flatMap_length_le (fun k => hits n (fun j => times j b) (fun j => vals j b) (t k b)) 1 (List.range q)
      fun k _ => hits_length_le (h b (List.mem_range.1 hb)) hn _ _
    simpa using this
  have hlt : ((List.range q).flatMap fun k => hits n (fun j => times j b) (fun j => vals j b) (t k b)).length < q := by
    have := flatMap_length_lt (fun k => hits n (fun j => times j b) (fun j => vals j b) (t k b)) 1 (List.range q)
      (fun k _ => hits_length_le (h b hb) hn _ _)
      ⟨k, List.mem_range.2 hk, by rw [hits_out_of_range (h b hb) _ ho]; simp⟩
    simpa using this
  have := flatMap_length_lt (fun b => (List.range q).flatMap fun k => hits n (fun j => times j b) (fun j => vals j b) (t k b)) q
    (List.range nb) hle ⟨b, List.mem_range.2 hb, hlt⟩
  refine ⟨_, if_neg ?_⟩
  have h2 : (flat nb q n times vals t).length < (List.range nb).length * q := this
  rw [List.length_range] at h2
  omega

open Classical in
/-- **C47.** A one dimensional query silently drops the batch entries that are out of range: the result lists the heights of the in-range entries only,
in order (so it is right exactly when all are in range). -/
theorem C47_arbitrary_1d_drops_out_of_range (nb n : ℕ) (hn : 0 < n) (times vals : ℕ → ℕ → ℝ) (t : ℕ → ℝ)
    (h : ∀ b < nb, StrictGrid n fun j => times j b) :
    ∃ v : ℕ → ℝ, arbitrary1d nb n times vals t =
        ((List.range nb).filter fun b => decide (times 0 b ≤ t b ∧ t b ≤ times n b)).map v ∧
      ∀ b < nb, times 0 b ≤ t b → t b ≤ times n b → OnPolyline n (fun j => times j b) (fun j => vals j b) (t b) (v b) := by
  refine ⟨fun b => interpFn n (fun j => times j b) (fun j => vals j b) (t b), ?_, ?_⟩
  · unfold arbitrary1d flat
    have : ∀ l : List ℕ, (∀ b ∈ l, b < nb) → (l.flatMap fun b => (List.range 1).flatMap fun k =>
        hits n (fun j => times j b) (fun j => vals j b) ((fun _ b => t b) k b)) =
        (l.filter fun b => decide (times 0 b ≤ t b ∧ t b ≤ times n b)).map fun b =>
          interpFn n (fun j => times j b) (fun j => vals j b) (t b) := by
      intro l
      induction l with
      | nil => intro _; rfl
      | cons b l ih =>
        intro hl
        rw [List.flatMap_cons, ih fun b hb => hl b (by simp [hb]), List.filter_cons]
        have hb := h b (hl b (by simp))
        by_cases hr : times 0 b ≤ t b ∧ t b ≤ times n b
        · rw [if_pos (by simpa using hr), List.map_cons]
          obtain ⟨v, e, e', -⟩ := hits_in_range hn hb (fun j => vals j b) hr.1 hr.2
          have e1 : List.range 1 = [0] := rfl
          rw [e1, List.flatMap_cons, List.flatMap_nil, List.append_nil, e, e']
          rfl
        · rw [if_neg (by simpa using hr)]
          have ho : t b < times 0 b ∨ times n b < t b := by
            by_contra hc
            push Not at hc
            exact hr hc
          have e := hits_out_of_range hb (fun j => vals j b) ho
          have e1 : List.range 1 = [0] := rfl
          rw [e1, List.flatMap_cons, List.flatMap_nil, List.append_nil, e, List.nil_append]
    exact this _ fun b hb => List.mem_range.1 hb
  · intro b hb h0 h1
    obtain ⟨v, -, e', e''⟩ := hits_in_range hn (h b hb) (fun j => vals j b) h0 h1
    beta_reduce
    rw [e']
    exact e''

/-! ## `BatchTimeSeriesInterpolator` and the interpolation functions -/

/-- **C47.** `BatchTimeSeriesInterpolator` and `timeseries_interpolate_batch_times` / `…_single_times` return the height of the polyline for every
in-range time. -/
theorem C47_batch_in_range (n : ℕ) (hn : 0 < n) (times vals : ℕ → ℝ) (h : StrictGrid n times) (t : ℝ)
    (h0 : times 0 ≤ t) (h1 : t ≤ times n) :
    OnPolyline n times vals t (batchInterp n times vals t) ∧ OnPolyline n times vals t (fnInterp n times vals t) := by
  rcases h1.lt_or_eq with h1 | h1
  · obtain ⟨j, hj, h2, h3⟩ := exists_interval h0 h1
    have e := countIdx_mid h hj h2 h3
    constructor
    · refine ⟨j, hj, h2, h3.le, ?_⟩
      simp only [batchInterp, e, wrapPred, Nat.succ_ne_zero, if_false, Nat.add_sub_cancel, slope]
      ring
    · refine ⟨j, hj, h2, h3.le, ?_⟩
      simp only [fnInterp, e, wrapPred, Nat.succ_ne_zero, if_false, Nat.add_sub_cancel]
      ring
  · have e := countIdx_last h h1.ge
    obtain ⟨m, rfl⟩ : ∃ m, n = m + 1 := ⟨n - 1, by omega⟩
    have hm := h m (by omega)
    have key : vals (m + 1) = vals m + (t - times m) / (times (m + 1) - times m) * (vals (m + 1) - vals m) := by
      rw [h1, div_self (by linarith)]; ring
    constructor
    · refine ⟨m, by omega, by linarith, h1.le, ?_⟩
      simp only [batchInterp, e, wrapPred, if_true, Nat.add_sub_cancel]
      rw [h1, sub_self, mul_zero, add_zero]
      rw [h1] at key
      exact key
    · refine ⟨m, by omega, by linarith, h1.le, ?_⟩
      simp only [fnInterp, e, wrapPred, if_true, Nat.add_sub_cancel]
      rw [h1, sub_self, mul_zero, add_zero]
      rw [h1] at key
      exact key

/-- **C47.** Out of range: `BatchTimeSeriesInterpolator` continues the *last* segment, also for times before the first one; the interpolation functions use the
straight line through the last and the *first* recorded point. -/
theorem C47_batch_out_of_range (n : ℕ) (hn : 0 < n) (times vals : ℕ → ℝ) (h : StrictGrid n times) (t : ℝ)
    (ho : t < times 0 ∨ times n < t) :
    OnLine (times (n - 1)) (vals (n - 1)) (times n) (vals n) t (batchInterp n times vals t) ∧
    OnLine (times n) (vals n) (times 0) (vals 0) t (fnInterp n times vals t) := by
  have e : countIdx n times t = 0 := by
    rcases ho with ho | ho
    · exact countIdx_before h ho
    · exact countIdx_last h ho.le
  obtain ⟨m, rfl⟩ : ∃ m, n = m + 1 := ⟨n - 1, by omega⟩
  have hm := h m (by omega)
  have hd : times (m + 1) - times m ≠ 0 := by linarith
  have h0 := grid_lt h (i := 0) (j := m + 1) (by omega) le_rfl
  have hd' : times 0 - times (m + 1) ≠ 0 := by linarith
  constructor
  · simp only [OnLine, batchInterp, e, wrapPred, if_true, Nat.add_sub_cancel, slope]
    field_simp
    ring
  · simp only [OnLine, fnInterp, e, wrapPred, if_true, Nat.add_sub_cancel]
    field_simp
    ring

/-! ## `CheaterBatchTimeSeriesInterpolator` -/

/-- **C47.** The cheater is right for every batch entry when all entries share the grid and the query time, and the time is in range. -/
theorem C47_cheater_shared_grid (n : ℕ) (hn : 0 < n) (times vals : ℕ → ℕ → ℝ) (t : ℕ → ℝ) (b : ℕ)
    (h : StrictGrid n fun j => times j 0) (hb : ∀ j ≤ n, times j b = times j 0) (ht : t b = t 0)
    (h0 : times 0 0 ≤ t 0) (h1 : t 0 ≤ times n 0) :
    OnPolyline n (fun j => times j b) (fun j => vals j b) (t b) (cheaterInterp n times vals t b) := by
  obtain ⟨j, hj, hl⟩ := exists_loc hn (fun j => times j 0) h0 h1
  have hgi : max (argmaxFirst (fun j => decide (t 0 ≤ times j 0)) (n + 1)) 1 = j + 1 := by
    rcases hl with ⟨h2, h3⟩ | ⟨rfl, h3⟩
    · rw [argmaxFirst_eq _ (n + 1) (j + 1) (by omega)]
      · omega
      · simpa using h2
      · intro i hi
        have := grid_le h (i := i) (j := j) (by omega) (by omega)
        simp only [decide_eq_false_iff_not, not_le]
        linarith
    · rw [argmaxFirst_eq _ (n + 1) 0 (by omega)]
      · omega
      · simp [h3]
      · intro i hi; omega
  have hm := loc_mem h hj hl
  refine ⟨j, hj, ?_, ?_, ?_⟩
  · beta_reduce; rw [hb j (by omega), ht]; exact hm.1
  · beta_reduce; rw [hb (j + 1) (by omega), ht]; exact hm.2
  · simp only [cheaterInterp]
    classical
    rw [hgi]
    simp only [Nat.add_sub_cancel, slope]
    ring

/-- **C47.** In general the interval is chosen by batch entry 0: an entry whose own time lies elsewhere is extrapolated along the line of that interval; beyond the last time
of entry 0 everything is extrapolated along the *first* interval. -/
theorem C47_cheater_follows_entry_zero (n : ℕ) (hn : 0 < n) (times vals : ℕ → ℕ → ℝ) (t : ℕ → ℝ) (b : ℕ)
    (h : StrictGrid n fun j => times j b) :
    (∀ j < n, times j 0 < t 0 → t 0 ≤ times (j + 1) 0 → (StrictGrid n fun j => times j 0) →
      OnLine (times j b) (vals j b) (times (j + 1) b) (vals (j + 1) b) (t b) (cheaterInterp n times vals t b)) ∧
    ((∀ j ≤ n, times j 0 < t 0) →
      OnLine (times 0 b) (vals 0 b) (times 1 b) (vals 1 b) (t b) (cheaterInterp n times vals t b)) := by
  classical
  constructor
  · intro j hj h1 h2 hg
    have hgi : max (argmaxFirst (fun j => decide (t 0 ≤ times j 0)) (n + 1)) 1 = j + 1 := by
      rw [argmaxFirst_eq _ (n + 1) (j + 1) (by omega)]
      · omega
      · simpa using h2
      · intro i hi
        have := grid_le hg (i := i) (j := j) (by omega) (by omega)
        simp only [decide_eq_false_iff_not, not_le]
        linarith
    have hd : times (j + 1) b - times j b ≠ 0 := by have := h j hj; dsimp only at this; linarith
    simp only [cheaterInterp, OnLine]
    rw [hgi]
    simp only [Nat.add_sub_cancel, slope]
    field_simp
    ring
  · intro hbig
    have hgi : max (argmaxFirst (fun j => decide (t 0 ≤ times j 0)) (n + 1)) 1 = 1 := by
      rw [argmaxFirst_none _ (n + 1)]
      · rfl
      · intro i hi
        simp only [decide_eq_false_iff_not, not_le]
        exact hbig i (by omega)
    have hd : times 1 b - times 0 b ≠ 0 := by have := h 0 hn; dsimp only at this; linarith
    simp only [cheaterInterp, OnLine]
    rw [hgi]
    simp only [Nat.sub_self, slope, zero_add]
    field_simp
    ring

/-- Non-vacuity of C47: the grid `0, 1, 3` with values `0, 2, 2`; at `1/2` the height is `1`; the cheater extrapolates an entry whose own grid is different. -/
example : OnPolyline 2 (fun j => if j = 0 then 0 else if j = 1 then 1 else 3) (fun j => if j = 0 then 0 else 2) (1 / 2)
    (interpFn 2 (fun j => if j = 0 then 0 else if j = 1 then 1 else 3) (fun j => if j = 0 then 0 else 2) (1 / 2)) ∧
    OnPolyline 2 (fun j => if j = 0 then 0 else if j = 1 then 1 else 3) (fun j => if j = 0 then 0 else 2) (1 / 2) 1 := by
  have hg : StrictGrid 2 (fun j => if j = 0 then (0 : ℝ) else if j = 1 then 1 else 3) := by
    intro j hj
    interval_cases j <;> norm_num
  constructor
  · obtain ⟨v, -, e, h⟩ := hits_in_range (n := 2) (by norm_num) hg (fun j => if j = 0 then 0 else 2) (t := 1 / 2) (by norm_num) (by norm_num)
    rw [e]; exact h
  · exact ⟨0, by norm_num, by norm_num, by norm_num, by norm_num⟩

end Pyoptmat.Props
