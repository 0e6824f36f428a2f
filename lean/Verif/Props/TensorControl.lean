import Verif.Proofs.TensorSolve
import Verif.Props.Tensor

/-!
# C103: the interpolator, the control modes and the right hand sides of `solve_strain`, `solve_stress` and `solve_both` as torch programs

Recorded times, strains, ... are tensors of shape `(ntime, nbatch)`, here `[nb, nt]`; `x.data [b, j]` is the value of test `b` at time number `j`. The integrator calls the right hand
side with the times `t` of a block, shape `(q, nbatch)`, and states of shape `(q, nbatch, m)`; `y.data [j, b, k]` is component `j` for test `b` at time `k` of the block.
-/

namespace Pyoptmat.Props

open Pyoptmat.Tensor Pyoptmat.Material Pyoptmat.Spec

variable {nb nt q : ℕ}

private theorem grid_cases (h : 2 ≤ nt) : ∃ n, nt = n + 1 ∧ 0 < n := ⟨nt - 1, by omega, by omega⟩

/-- **C103.** `ArbitraryBatchTimeSeriesInterpolator(times, data)(t)` with two dimensional `t`: if every query is within the times of its own test, the call succeeds, the result has the shape of `t`, and
entry `(k, b)` is on the polyline through the points of test `b`, at the query `(k, b)`. -/
theorem C103_interpolate {times data t : Tensor} (hn : 2 ≤ nt) (ht : times.shape = [nb, nt]) (hd : data.shape = [nb, nt]) (hq : t.shape = [nb, q])
    (hg : ∀ b < nb, StrictGrid (nt - 1) fun j => times.data [b, j])
    (hr : ∀ b < nb, ∀ k < q, times.data [b, 0] ≤ t.data [b, k] ∧ t.data [b, k] ≤ times.data [b, nt - 1]) :
    ∃ (f : TInterp) (r : Tensor), tInterp times data = .ok f ∧ f.forward t = (r : TE) ∧ r.shape = [nb, q] ∧
      ∀ b < nb, ∀ k < q, OnPolyline (nt - 1) (fun j => times.data [b, j]) (fun j => data.data [b, j]) (t.data [b, k]) (r.data [b, k]) := by
  obtain ⟨n, rfl, h0⟩ := grid_cases hn
  simp only [Nat.add_sub_cancel] at hg hr ⊢
  obtain ⟨f, hf, -⟩ := interp_parts h0 ht hd
  obtain ⟨r, er, hs, hv⟩ := interp2d_is h0 ht hd hg hq (fun b hb k hk => hr b hb k hk)
  refine ⟨f, r, hf, ?_, hs, fun b hb k hk => ?_⟩
  · rw [tDataFn, hf] at er
    exact er
  · rw [hv [b, k] (valid_cons.2 ⟨hb, valid_cons.2 ⟨hk, List.Forall₂.nil⟩⟩)]
    obtain ⟨w, -, e', h⟩ := Interp.hits_in_range h0 (times := colT times b) (hg b hb) (colT data b) (hr b hb k hk).1 (hr b hb k hk).2
    change OnPolyline n _ _ _ (Interp.interpFn n (colT times b) (colT data b) (t.data [b, k]))
    exact (congrArg (OnPolyline n _ _ _) e').mpr h

/-- **C103.** With one query outside the times of its test the call fails: `reshape` finds too few numbers. -/
theorem C103_interpolate_refuses {times data t : Tensor} (hn : 2 ≤ nt) (ht : times.shape = [nb, nt]) (hd : data.shape = [nb, nt]) (hq : t.shape = [nb, q])
    (hg : ∀ b < nb, StrictGrid (nt - 1) fun j => times.data [b, j]) {b k : ℕ} (hb : b < nb) (hk : k < q)
    (ho : t.data [b, k] < times.data [b, 0] ∨ times.data [b, nt - 1] < t.data [b, k]) :
    ∃ f e, tInterp times data = .ok f ∧ f.forward t = .error e := by
  obtain ⟨n, rfl, h0⟩ := grid_cases hn
  obtain ⟨f, hf, -⟩ := interp_parts h0 ht hd
  obtain ⟨e, he⟩ := interp2d_refuses h0 ht hd hg hq hb hk ho
  rw [tDataFn, hf] at he
  exact ⟨f, e, hf, he⟩

/-- **C103.** One dimensional `t`, one query per test, all within range: a vector with the values of the tests; for a single test a tensor without dimensions. -/
theorem C103_interpolate_vector {times data t : Tensor} (hn : 2 ≤ nt) (ht : times.shape = [nb, nt]) (hd : data.shape = [nb, nt]) (hq : t.shape = [nb])
    (hg : ∀ b < nb, StrictGrid (nt - 1) fun j => times.data [b, j])
    (hr : ∀ b < nb, times.data [b, 0] ≤ t.data [b] ∧ t.data [b] ≤ times.data [b, nt - 1]) :
    ∃ (f : TInterp) (r : Tensor), tInterp times data = .ok f ∧ f.forward t = (r : TE) ∧ r.shape = (if nb = 1 then [] else [nb]) ∧
      ∀ b < nb, OnPolyline (nt - 1) (fun j => times.data [b, j]) (fun j => data.data [b, j]) (t.data [b]) (r.data (if nb = 1 then [] else [b])) := by
  obtain ⟨n, rfl, h0⟩ := grid_cases hn
  simp only [Nat.add_sub_cancel] at hg hr ⊢
  obtain ⟨f, hf, -⟩ := interp_parts h0 ht hd
  have e : ∀ b ∈ List.range nb, Interp.hits n (colT times b) (colT data b) (t.data [b]) = [Interp.interpFn n (colT times b) (colT data b) (t.data [b])] := by
    intro b hb
    have hb := List.mem_range.1 hb
    obtain ⟨w, e, e', -⟩ := Interp.hits_in_range h0 (times := colT times b) (hg b hb) (colT data b) (hr b hb).1 (hr b hb).2
    rw [e, e']
  have e2 := (List.flatMap_congr e).trans (Interp.flatMap_singleton _ _)
  have key := interp1d h0 ht hd hq
  dsimp only at key
  rw [e2, tDataFn, hf] at key
  have hp : ∀ b < nb, OnPolyline n (fun j => times.data [b, j]) (fun j => data.data [b, j]) (t.data [b]) (Interp.interpFn n (colT times b) (colT data b) (t.data [b])) := by
    intro b hb
    obtain ⟨w, -, e', h⟩ := Interp.hits_in_range h0 (times := colT times b) (hg b hb) (colT data b) (hr b hb).1 (hr b hb).2
    exact (congrArg (OnPolyline n _ _ _) e').mpr h
  simp only [List.length_map, List.length_range] at key
  by_cases h1 : nb = 1
  · subst h1
    rw [if_pos rfl] at key
    refine ⟨f, _, hf, key, by simp, fun b hb => ?_⟩
    obtain rfl : b = 0 := by omega
    exact hp 0 hb
  · rw [if_neg h1] at key
    refine ⟨f, _, hf, key, by simp [h1], fun b hb => ?_⟩
    rw [if_neg h1]
    change OnPolyline n _ _ _ (List.getD _ b 0)
    rw [List.getD_eq_getElem _ _ (by simpa using hb)]
    simpa using hp b hb

/-- **C103.** One dimensional `t` with a query out of range: no failure, but a result with fewer entries than tests. -/
theorem C103_interpolate_vector_short {times data t : Tensor} (hn : 2 ≤ nt) (ht : times.shape = [nb, nt]) (hd : data.shape = [nb, nt]) (hq : t.shape = [nb])
    (hg : ∀ b < nb, StrictGrid (nt - 1) fun j => times.data [b, j]) {b : ℕ} (hb : b < nb) (ho : t.data [b] < times.data [b, 0] ∨ times.data [b, nt - 1] < t.data [b]) :
    ∃ (f : TInterp) (r : Tensor), tInterp times data = .ok f ∧ f.forward t = (r : TE) ∧ r.shape.prod < nb := by
  obtain ⟨n, rfl, h0⟩ := grid_cases hn
  simp only [Nat.add_sub_cancel] at hg ho
  obtain ⟨f, hf, -⟩ := interp_parts h0 ht hd
  have hlt := Interp.flatMap_length_lt (fun b => Interp.hits n (colT times b) (colT data b) (t.data [b])) 1 (List.range nb)
    (fun b hb => Interp.hits_length_le (hg b (List.mem_range.1 hb)) h0 _ _) ⟨b, List.mem_range.2 hb, by
      rw [Interp.hits_out_of_range (times := colT times b) (hg b hb) _ ho]; simp⟩
  rw [List.length_range, mul_one] at hlt
  have key := interp1d h0 ht hd hq
  dsimp only at key
  rw [tDataFn, hf] at key
  split_ifs at key with h
  · refine ⟨f, _, hf, key, ?_⟩
    simp only [List.prod_nil]
    omega
  · refine ⟨f, _, hf, key, ?_⟩
    simpa using hlt

/-- The data of a run: times, recorded data and temperatures of shape `(nt, nb)` with at least two and strictly increasing times per test, temperatures from the interval `D`; block times within the
recorded ones and states for them. -/
structure Run (nb nt q m : ℕ) (D : Set ℝ) (times data temps t y : Tensor) : Prop where
  two : 2 ≤ nt
  times_shape : times.shape = [nb, nt]
  data_shape : data.shape = [nb, nt]
  temps_shape : temps.shape = [nb, nt]
  increasing : ∀ b < nb, StrictGrid (nt - 1) fun j => times.data [b, j]
  interval : D.OrdConnected
  inside : ∀ b < nb, ∀ j < nt, temps.data [b, j] ∈ D
  block : t.shape = [nb, q]
  state : y.shape = [m, nb, q]
  range : ∀ b < nb, ∀ k < q, times.data [b, 0] ≤ t.data [b, k] ∧ t.data [b, k] ≤ times.data [b, nt - 1]

private theorem interp_mem {n : ℕ} {times vals : ℕ → ℝ} {t v : ℝ} {D : Set ℝ} (hD : D.OrdConnected) (hg : StrictGrid n times) (hv : ∀ j ≤ n, vals j ∈ D)
    (h : OnPolyline n times vals t v) : v ∈ D := by
  obtain ⟨j, hj, h1, h2, rfl⟩ := h
  have hs := hg j hj
  have a0 : 0 ≤ (t - times j) / (times (j + 1) - times j) := div_nonneg (by linarith) (by linarith)
  have a1 : (t - times j) / (times (j + 1) - times j) ≤ 1 := (div_le_one (by linarith)).2 (by linarith)
  refine hD.uIcc_subset (hv j (by omega)) (hv (j + 1) (by omega)) ?_
  set θ := (t - times j) / (times (j + 1) - times j)
  rcases le_total (vals j) (vals (j + 1)) with h | h
  · rw [Set.uIcc_of_le h]
    constructor <;> nlinarith
  · rw [Set.uIcc_of_ge h]
    constructor <;> nlinarith

section
variable {D : Set ℝ} {m : ℕ} {times data temps t y : Tensor}

private theorem data_time (h : Run nb nt q m D times data temps t y) {x : Tensor} (hx : x.shape = [nb, nt]) : TimeFn nb q (tDataFn times x) t fun p =>
    Control.dataFn nt (fun k => times.data [p.2.val, k]) fun k => x.data [p.2.val, k] := by
  obtain ⟨n, rfl, h0⟩ := grid_cases h.two
  obtain ⟨r, er, hs, hv⟩ := interp2d_is h0 h.times_shape hx h.increasing h.block (fun b hb k hk => h.range b hb k hk)
  exact ⟨r, er, hs, fun p => hv _ (valid_pt p)⟩

private theorem rate_time (h : Run nb nt q m D times data temps t y) : TimeFn nb q (tRateFn times data) t fun p =>
    Control.rateFn nt (fun k => times.data [p.2.val, k]) fun k => data.data [p.2.val, k] := by
  obtain ⟨n, rfl, h0⟩ := grid_cases h.two
  obtain ⟨x, ex, hx, hx'⟩ := rates_is h.times_shape h.data_shape
  obtain ⟨r, er, hs, hv⟩ := interp2d_is h0 h.times_shape hx h.increasing h.block (fun b hb k hk => h.range b hb k hk)
  refine ⟨r, ?_, hs, fun p => ?_⟩
  · rw [tRateFn, ex]
    exact er
  · rw [hv _ (valid_pt p)]
    exact interpFn_congr _ (hx' p.2.val p.2.isLt) _

private theorem temp_mem (h : Run nb nt q m D times data temps t y) (p : Fin q × Fin nb) :
    Control.dataFn nt (fun k => times.data [p.2.val, k]) (fun k => temps.data [p.2.val, k]) (numOf nb q t p) ∈ D := by
  obtain ⟨n, rfl, h0⟩ := grid_cases h.two
  have hr := h.range p.2 p.2.isLt p.1 p.1.isLt
  obtain ⟨w, -, e', hw⟩ := Interp.hits_in_range h0 (times := colT times p.2) (h.increasing p.2 p.2.isLt) (colT temps p.2) hr.1 hr.2
  have := interp_mem h.interval (h.increasing p.2 p.2.isLt) (fun j hj => h.inside p.2 p.2.isLt j (by omega)) hw
  change Interp.interpFn n (colT times p.2) (colT temps p.2) (t.data [p.2.val, p.1.val]) ∈ D
  rw [e']
  exact this

variable {M : Tensor → Tensor → Tensor → Tensor → Except String TOut}

/-- **C103.** The right hand side `solve_strain` integrates, as a torch program: it succeeds, rates and Jacobians have shapes `(q, nb, m)` and `(q, nb, m, m)`, and the entries for time `k` of the block and
test `b` are those of `Control.strainFunc`, the function the theorems about integration are about, with the material, times, strains, temperatures and state of test `b`. -/
theorem C103_strain {L : ℕ → Model m} (hM : ModelIs [nb, q] D M fun i => L (i.headD 0)) (h : Run nb nt q m D times data temps t y) :
    ∃ R J : Tensor, tStrainFunc M times data temps t y = .ok (R, J) ∧ R.shape = [m, nb, q] ∧ J.shape = [m, m, nb, q] ∧ ∀ (k : Fin q) (b : Fin nb),
      let out := Control.strainFunc (fun b : Fin nb => L b.val) nt (fun j b => times.data [b.val, j]) (fun j b => data.data [b.val, j]) (fun j b => temps.data [b.val, j]) b
        (t.data [b.val, k.val]) fun j => y.data [j.val, b.val, k.val]
      (∀ j : Fin m, R.data [j.val, b.val, k.val] = out.1 j) ∧ ∀ r c : Fin m, J.data [c.val, r.val, b.val, k.val] = out.2 r c := by
  obtain ⟨R, J, e, h1, h2, h3⟩ := strainBased_is hM h.block h.state (rate_time h) (data_time h h.temps_shape) (temp_mem h)
  refine ⟨R, J, e, h1, h2, fun k b => ⟨fun j => ?_, fun r c => ?_⟩⟩
  · exact congrFun (congrFun (congrArg Prod.fst h3) (k, b)) j
  · exact congrFun (congrFun (congrFun (congrArg Prod.snd h3) (k, b)) r) c

/-- **C103.** The right hand side `solve_stress` integrates, as a torch program, with the solve for the strain rates over the whole block: it succeeds and is `Control.stressFunc`. -/
theorem C103_stress {L : ℕ → Model (m + 1)} (hM : ModelIs [nb, q] D M fun i => L (i.headD 0)) (h : Run nb nt q (m + 1) D times data temps t y) :
    ∃ R J : Tensor, tStressFunc M times data temps t y = .ok (R, J) ∧ R.shape = [m + 1, nb, q] ∧ J.shape = [m + 1, m + 1, nb, q] ∧
      let out := Control.stressFunc (fun b : Fin nb => L b.val) nt (fun j b => times.data [b.val, j]) (fun j b => data.data [b.val, j]) (fun j b => temps.data [b.val, j]) q
        (fun k b => t.data [b.val, k.val]) fun k b j => y.data [j.val, b.val, k.val]
      ∀ (k : Fin q) (b : Fin nb),
        (∀ j : Fin (m + 1), R.data [j.val, b.val, k.val] = out.1 k b j) ∧ ∀ r c : Fin (m + 1), J.data [c.val, r.val, b.val, k.val] = out.2 k b r c := by
  obtain ⟨R, J, e, h1, h2, h3⟩ := stressBased_is hM h.block h.state (rate_time h) (data_time h h.data_shape) (data_time h h.temps_shape) (temp_mem h)
  refine ⟨R, J, e, h1, h2, fun k b => ⟨fun j => ?_, fun r c => ?_⟩⟩
  · exact congrFun (congrFun (congrArg Prod.fst h3) (k, b)) j
  · exact congrFun (congrFun (congrFun (congrArg Prod.snd h3) (k, b)) r) c

/-- **C103.** The right hand side `solve_both` integrates, as a torch program, with labels of shape `(nb,)`: it succeeds and is `Control.bothFunc`. -/
theorem C103_both {L : ℕ → Model (m + 1)} {control : Tensor} (hc : control.shape = [nb]) (hM : ModelIs [nb, q] D M fun i => L (i.headD 0))
    (h : Run nb nt q (m + 1) D times data temps t y) :
    ∃ R J : Tensor, tBothFunc M times temps data control t y = .ok (R, J) ∧ R.shape = [m + 1, nb, q] ∧ J.shape = [m + 1, m + 1, nb, q] ∧
      let out := Control.bothFunc (fun b : Fin nb => L b.val) nt (fun j b => times.data [b.val, j]) (fun j b => data.data [b.val, j]) (fun j b => temps.data [b.val, j])
        (fun b => control.data [b.val]) q (fun k b => t.data [b.val, k.val]) fun k b j => y.data [j.val, b.val, k.val]
      ∀ (k : Fin q) (b : Fin nb),
        (∀ j : Fin (m + 1), R.data [j.val, b.val, k.val] = out.1 k b j) ∧ ∀ r c : Fin (m + 1), J.data [c.val, r.val, b.val, k.val] = out.2 k b r c := by
  obtain ⟨R, J, e, h1, h2, h3⟩ := bothBased_is hM h.block h.state hc (rate_time h) (data_time h h.data_shape) (data_time h h.temps_shape) (temp_mem h)
  refine ⟨R, J, e, h1, h2, fun k b => ⟨fun j => ?_, fun r c => ?_⟩⟩
  · exact congrFun (congrFun (congrArg Prod.fst h3) (k, b)) j
  · exact congrFun (congrFun (congrFun (congrArg Prod.snd h3) (k, b)) r) c

/-- **C103.** With a block time outside the recorded times of its test all three raise, whatever the material model is. -/
theorem C103_refuses {control : Tensor} (hn : 2 ≤ nt) (ht : times.shape = [nb, nt]) (hd : data.shape = [nb, nt]) (hq : t.shape = [nb, q])
    (hg : ∀ b < nb, StrictGrid (nt - 1) fun j => times.data [b, j]) {b k : ℕ} (hb : b < nb) (hk : k < q)
    (ho : t.data [b, k] < times.data [b, 0] ∨ times.data [b, nt - 1] < t.data [b, k]) :
    (∃ e, tStrainFunc M times data temps t y = .error e) ∧ (∃ e, tStressFunc M times data temps t y = .error e) ∧
      ∃ e, tBothFunc M times temps data control t y = .error e := by
  obtain ⟨n, rfl, h0⟩ := grid_cases hn
  obtain ⟨x, ex, hx, -⟩ := rates_is ht hd
  obtain ⟨e, he⟩ := interp2d_refuses h0 ht hx hg hq hb hk ho
  have hr : tRateFn times data t = .error e := by
    rw [tRateFn, ex]
    exact he
  have hs : tStrainBased M (tRateFn times data) (tDataFn times temps) t y = .error e := by
    unfold tStrainBased
    rw [hr]
    rfl
  refine ⟨⟨e, hs⟩, ⟨e, ?_⟩, ⟨e, ?_⟩⟩
  · unfold tStressFunc tStressBased
    rw [hr]
    rfl
  · unfold tBothFunc tBothBased
    rw [hs]
    rfl

end

/-- The hypotheses are met by two tests of a viscoplastic material with different constants, three recorded times that differ from test to test, and a block of two times. -/
example : let cst := fun x : Tensor => tConstant x (fun a => a) (fun a => a)
    let x : Tensor := ⟨[2], fun i => 1 + i.headD 0⟩
    let times : Tensor := ⟨[2, 3], fun i => (1 + i.headD 0) * i.tail.headD 0⟩
    let data : Tensor := ⟨[2, 3], fun i => i.tail.headD 0⟩
    let temps : Tensor := ⟨[2, 3], fun _ => 300⟩
    let t : Tensor := ⟨[2, 2], fun i => (1 + i.headD 0) * (1 / 2 + i.tail.headD 0)⟩
    let y : Tensor := ⟨[1, 2, 2], fun _ => 0⟩
    ∃ (L : ℕ → Model 1) (R J : Tensor), ModelIs [2, 2] Set.univ (tInelastic (cst x) (tPerfect (cst x) (cst x))) (fun i => L (i.headD 0)) ∧
      Run 2 3 2 1 Set.univ times data temps t y ∧ tBothFunc (tInelastic (cst x) (tPerfect (cst x) (cst x))) times temps data ⟨[2], fun i => i.headD 0⟩ t y = .ok (R, J) := by
  intro cst x times data temps t y
  have kc : ParamIs [2, 2] Set.univ (cst x) fun i _ => x.data [i.headD 0] := C101_constant (fun a => a) (fun a => a) ((C101_parameter_shapes 2 [2] x).2.1 rfl)
  have hM := C101_inelastic kc (C101_perfect kc kc)
  have hR : Run 2 3 2 1 Set.univ times data temps t y :=
    { two := by norm_num
      times_shape := rfl
      data_shape := rfl
      temps_shape := rfl
      increasing := fun b hb j hj => by
        change ((1 : ℝ) + (b : ℕ)) * (j : ℕ) < (1 + (b : ℕ)) * ((j + 1 : ℕ) : ℝ)
        push_cast
        have : (0 : ℝ) ≤ b := Nat.cast_nonneg b
        nlinarith
      interval := Set.ordConnected_univ
      inside := fun _ _ _ _ => trivial
      block := rfl
      state := rfl
      range := fun b hb k hk => by
        change ((1 : ℝ) + (b : ℕ)) * ((0 : ℕ) : ℝ) ≤ (1 + (b : ℕ)) * (1 / 2 + (k : ℕ)) ∧ (1 + (b : ℕ)) * (1 / 2 + (k : ℕ)) ≤ ((1 : ℝ) + (b : ℕ)) * ((2 : ℕ) : ℝ)
        have h0 : (0 : ℝ) ≤ b := Nat.cast_nonneg b
        have h1 : (0 : ℝ) ≤ k := Nat.cast_nonneg k
        have h2 : (k : ℝ) ≤ 1 := by exact_mod_cast (by omega : k ≤ 1)
        push_cast
        constructor <;> nlinarith }
  obtain ⟨R, J, e, -⟩ := C103_both (control := ⟨[2], fun i => i.headD 0⟩) rfl
    (L := fun b => inelastic (fun _ => x.data [b]) (perfect (fun _ => x.data [b]) (fun _ => x.data [b]))) hM hR
  exact ⟨fun b => inelastic (fun _ => x.data [b]) (perfect (fun _ => x.data [b]) (fun _ => x.data [b])), R, J, hM, hR, e⟩

end Pyoptmat.Props
