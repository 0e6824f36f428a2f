import Verif.Props.ExampleJacobians
import Verif.Props.Accuracy
import Verif.Props.Integrate
import Verif.Proofs.Sensitivity

/-!
# C133: simulations of the example systems
-/

namespace Pyoptmat.Props

open Pyoptmat.Ode Pyoptmat.Spec Pyoptmat.Examples Pyoptmat.Chunktime

variable {β : Type*} {m : ℕ}

/-! ## The chain -/

private theorem parts (v p : ℕ → ℝ) (n : ℕ) :
    ∑ i ∈ Finset.range n, v i * (p i - if 0 < i then p (i - 1) else 0) = (if 0 < n then v n * p (n - 1) else 0) - ∑ i ∈ Finset.range n, p i * (v (i + 1) - v i) := by
  induction n with
  | zero => simp
  | succ n ih =>
    rw [Finset.sum_range_succ, Finset.sum_range_succ, ih]
    by_cases h : 0 < n
    · simp only [if_pos h, if_pos (Nat.succ_pos n), Nat.add_sub_cancel]; ring
    · simp only [if_neg h, if_pos (Nat.succ_pos n), Nat.add_sub_cancel]; ring

private theorem stretch_entry {N : ℕ} (u : Fin N → ℝ) (i : Fin N) : stretch u i = entry u (i.val + 1) - u i := rfl

private theorem entry_fin {N : ℕ} (x : Fin N → ℝ) (i : Fin N) : entry x i.val = x i := by
  unfold entry
  rw [dif_pos i.2]

private theorem to_range {N : ℕ} (g : ℕ → ℝ) : ∑ i : Fin N, g i.val = ∑ i ∈ Finset.range N, g i := Fin.sum_univ_eq_sum_range g N

/-- The force of the elements on a mass. -/
private theorem force_eq {N : ℕ} (K M x : Fin N → ℝ) (hM : ∀ i, M i ≠ 0) (i : Fin N) :
    M i * elementForce K M x i = entry K i.val * (entry x (i.val + 1) - entry x i.val) -
      if 0 < i.val then entry K (i.val - 1) * (entry x (i.val - 1 + 1) - entry x (i.val - 1)) else 0 := by
  have hi := i.2
  have h := hM i
  rw [entry_fin, entry_fin]
  unfold elementForce
  have hx : ∀ k, 0 < k → k - 1 + 1 = k := fun k hk => by omega
  by_cases a : i.val + 1 < N
  · rw [if_pos a, if_neg (by omega : ¬ i.val + 1 = N)]
    by_cases b : 0 < i.val
    · rw [if_pos b, if_pos b, hx _ b, entry_fin]; field_simp; ring
    · rw [if_neg b, if_neg b]; field_simp; ring
  · have e : entry x (i.val + 1) = 0 := by unfold entry; rw [dif_neg a]
    rw [if_neg a, if_pos (by omega : i.val + 1 = N), e]
    by_cases b : 0 < i.val
    · rw [if_pos b, if_pos b, hx _ b, entry_fin]; field_simp; ring
    · rw [if_neg b, if_neg b]; field_simp; ring

/-- The power of the elements. -/
private theorem element_power {N : ℕ} (K M x v : Fin N → ℝ) (hM : ∀ i, M i ≠ 0) :
    ∑ i, v i * (M i * elementForce K M x i) = -∑ i, K i * stretch x i * stretch v i := by
  have e1 : ∑ i, v i * (M i * elementForce K M x i) = ∑ k ∈ Finset.range N, entry v k * ((fun k => entry K k * (entry x (k + 1) - entry x k)) k -
      if 0 < k then (fun k => entry K k * (entry x (k + 1) - entry x k)) (k - 1) else 0) := by
    refine Eq.trans (Finset.sum_congr rfl fun i _ => ?_) (to_range (N := N) fun k => entry v k * ((fun k => entry K k * (entry x (k + 1) - entry x k)) k -
      if 0 < k then (fun k => entry K k * (entry x (k + 1) - entry x k)) (k - 1) else 0))
    rw [force_eq K M x hM i]
    beta_reduce
    rw [entry_fin v]
  have e2 : ∑ i, K i * stretch x i * stretch v i = ∑ k ∈ Finset.range N, (fun k => entry K k * (entry x (k + 1) - entry x k)) k * (entry v (k + 1) - entry v k) := by
    refine Eq.trans (Finset.sum_congr rfl fun i _ => ?_) (to_range (N := N) fun k => (fun k => entry K k * (entry x (k + 1) - entry x k)) k * (entry v (k + 1) - entry v k))
    beta_reduce
    rw [entry_fin K, entry_fin x, entry_fin v, stretch_entry, stretch_entry]
  have e3 : entry v N = 0 := by unfold entry; rw [dif_neg (lt_irrefl N)]
  rw [e1, e2, parts, e3]
  simp

private theorem stretch_sub {N : ℕ} (x y : Fin N → ℝ) (a : ℝ) (w : Fin N → ℝ) (h : ∀ i, x i = y i + a * w i) (i : Fin N) : stretch x i = stretch y i + a * stretch w i := by
  unfold stretch
  split_ifs
  · rw [h, h]; ring
  · rw [h]; ring

/-- **C133.** Energy balance of one backward Euler step of the chain: the mechanical energy grows by at most the work of the force minus the heat of the dampers. -/
theorem C133_chain_energy {N : ℕ} (K C M : Fin N → ℝ) (cScale mScale : ℝ) (hM : ∀ i, 0 < M i * mScale) (hK : ∀ i, 0 ≤ K i) (force : β → ℝ → ℝ) (b : β) (t dt : ℝ) (y y' : Fin (N + N) → ℝ)
    (hstep : y' = y + dt • (massDamperSpring K C M cScale mScale force b t y').1) :
    energy K (fun i => M i * mScale) (disp y') (vel y') ≤ energy K (fun i => M i * mScale) (disp y) (vel y) +
      dt * (force b t * (if h : 0 < N then vel y' ⟨0, h⟩ else 0) - ∑ i, C i * cScale * stretch (vel y') i ^ 2) := by
  have hu : ∀ i, disp y' i = disp y i + dt * vel y' i := by
    intro i
    have := congrFun hstep (Fin.castAdd N i)
    simp only [massDamperSpring, Pi.add_apply, Pi.smul_apply, smul_eq_mul, Fin.append_left] at this
    exact this
  have hv : ∀ i, vel y' i = vel y i + dt * (elementForce K (fun i => M i * mScale) (disp y') i + (if i.val = 0 then force b t / (M i * mScale) else 0) +
      elementForce (fun i => C i * cScale) (fun i => M i * mScale) (vel y') i) := by
    intro i
    have := congrFun hstep (Fin.natAdd N i)
    simp only [massDamperSpring, Pi.add_apply, Pi.smul_apply, smul_eq_mul, Fin.append_right] at this
    exact this
  have p1 := element_power K (fun i => M i * mScale) (disp y') (vel y') fun i => (hM i).ne'
  have p2 := element_power (fun i => C i * cScale) (fun i => M i * mScale) (vel y') (vel y') fun i => (hM i).ne'
  have p3 : ∑ i : Fin N, vel y' i * (M i * mScale * (if i.val = 0 then force b t / (M i * mScale) else 0)) = force b t * (if h : 0 < N then vel y' ⟨0, h⟩ else 0) := by
    by_cases h : 0 < N
    · rw [dif_pos h, Finset.sum_eq_single ⟨0, h⟩]
      · rw [if_pos rfl, mul_div_cancel₀ _ (hM _).ne']; ring
      · intro j _ hj
        rw [if_neg (fun e => hj (Fin.ext e)), mul_zero, mul_zero]
      · intro hh
        exact absurd (Finset.mem_univ _) hh
    · rw [dif_neg h, mul_zero]
      exact Finset.sum_eq_zero fun i _ => absurd i.2 (by omega)
  have k1 : ∀ i, M i * mScale * vel y' i ^ 2 / 2 - M i * mScale * vel y i ^ 2 / 2 ≤ dt * (vel y' i * (M i * mScale * elementForce K (fun i => M i * mScale) (disp y') i) +
      vel y' i * (M i * mScale * (if i.val = 0 then force b t / (M i * mScale) else 0)) + vel y' i * (M i * mScale * elementForce (fun i => C i * cScale) (fun i => M i * mScale) (vel y') i)) := by
    intro i
    have h := hv i
    generalize (if i.val = 0 then force b t / (M i * mScale) else 0) = F at *
    generalize elementForce K (fun i => M i * mScale) (disp y') i = A at *
    generalize elementForce (fun i => C i * cScale) (fun i => M i * mScale) (vel y') i = B at *
    have e : vel y i = vel y' i - dt * (A + F + B) := by linarith
    rw [e]
    have := mul_nonneg (hM i).le (sq_nonneg (dt * (A + F + B)))
    nlinarith
  have k2 : ∀ i, K i * stretch (disp y') i ^ 2 / 2 - K i * stretch (disp y) i ^ 2 / 2 ≤ dt * (K i * stretch (disp y') i * stretch (vel y') i) := by
    intro i
    have h := stretch_sub (disp y') (disp y) dt (vel y') hu i
    have e : stretch (disp y) i = stretch (disp y') i - dt * stretch (vel y') i := by linarith
    rw [e]
    have := mul_nonneg (hK i) (sq_nonneg (dt * stretch (vel y') i))
    nlinarith
  have s1 := Finset.sum_le_sum fun i (_ : i ∈ Finset.univ) => k1 i
  have s2 := Finset.sum_le_sum fun i (_ : i ∈ Finset.univ) => k2 i
  rw [Finset.sum_sub_distrib, ← Finset.mul_sum, Finset.sum_add_distrib, Finset.sum_add_distrib, p1, p2, p3] at s1
  rw [Finset.sum_sub_distrib, ← Finset.mul_sum] at s2
  have e4 : ∑ i, C i * cScale * stretch (vel y') i * stretch (vel y') i = ∑ i, C i * cScale * stretch (vel y') i ^ 2 := Finset.sum_congr rfl fun i _ => by ring
  rw [e4] at s1
  unfold energy
  nlinarith

private theorem energy_zero {N : ℕ} (K M : Fin N → ℝ) (y : Fin (N + N) → ℝ) (h : y = 0) : energy K M (disp y) (vel y) = 0 := by
  subst h
  have e : ∀ i : Fin N, stretch (disp (0 : Fin (N + N) → ℝ)) i = 0 := fun i => by
    unfold stretch
    split_ifs <;> simp [disp]
  unfold energy
  simp [e, vel]

/-- **C133.** The step matrices of the chain are invertible for every step, however long. -/
theorem C133_chain_step_matrix {N : ℕ} (K C M : Fin N → ℝ) (cScale mScale : ℝ) (hM : ∀ i, 0 < M i * mScale) (hK : ∀ i, 0 ≤ K i) (hC : ∀ i, 0 ≤ C i * cScale) (force : β → ℝ → ℝ) (b : β) (t dt : ℝ)
    (hdt : 0 ≤ dt) (y : Fin (N + N) → ℝ) : IsUnit (1 - dt • (massDamperSpring K C M cScale mScale force b t y).2).det := by
  rw [isUnit_iff_ne_zero]
  intro h0
  obtain ⟨z, hz, hz0⟩ := Matrix.exists_mulVec_eq_zero_iff.2 h0
  have e1 : z = 0 + dt • (massDamperSpring K C M cScale mScale (fun _ _ => 0) b t z).1 := by
    rw [chain_affine K C M cScale mScale (fun (_ : β) _ => 0) b t t z y]
    have hl : chainLoad M mScale 0 = 0 := by
      funext r
      refine Fin.addCases (fun i => ?_) (fun i => ?_) r
      · rw [chainLoad, Fin.append_left]; rfl
      · rw [chainLoad, Fin.append_right]; simp
    rw [hl, add_zero, zero_add]
    have : z - dt • ((massDamperSpring K C M cScale mScale force b t y).2.mulVec z) = 0 := by
      rw [← hz0, Matrix.sub_mulVec, Matrix.one_mulVec, Matrix.smul_mulVec]
    exact sub_eq_zero.1 this
  have h := C133_chain_energy K C M cScale mScale hM hK (fun (_ : β) _ => 0) b t dt 0 z e1
  rw [energy_zero _ _ 0 rfl, zero_mul, zero_sub, zero_add] at h
  have h1 : 0 ≤ dt * ∑ i, C i * cScale * stretch (vel z) i ^ 2 := mul_nonneg hdt (Finset.sum_nonneg fun i _ => mul_nonneg (hC i) (sq_nonneg _))
  have h2 : 0 ≤ ∑ i, K i * stretch (disp z) i ^ 2 / 2 := Finset.sum_nonneg fun i _ => div_nonneg (mul_nonneg (hK i) (sq_nonneg _)) (by norm_num)
  unfold energy at h
  have h3 : ∀ i ∈ Finset.univ, 0 ≤ M i * mScale * vel z i ^ 2 / 2 := fun i _ => div_nonneg (mul_nonneg (hM i).le (sq_nonneg _)) (by norm_num)
  have h4 : ∑ i, M i * mScale * vel z i ^ 2 / 2 = 0 := le_antisymm (by linarith) (Finset.sum_nonneg h3)
  have h5 : ∀ i, vel z i = 0 := by
    intro i
    have := (Finset.sum_eq_zero_iff_of_nonneg h3).1 h4 i (Finset.mem_univ _)
    have := (hM i).ne'
    by_contra hne
    have h6 : 0 < M i * mScale * vel z i ^ 2 / 2 := by
      have := hM i
      have := sq_pos_of_ne_zero hne
      positivity
    linarith
  refine hz (funext fun r => ?_)
  refine Fin.addCases (fun i => ?_) (fun i => ?_) r
  · have := congrFun e1 (Fin.castAdd N i)
    simp only [massDamperSpring, Pi.add_apply, Pi.smul_apply, smul_eq_mul, Fin.append_left, h5 i, mul_zero, Pi.zero_apply, add_zero] at this
    exact this
  · exact h5 i

/-- **C133.** Simulations of the chain with backward Euler always complete without a warning: for all (positive) masses, stiffnesses, dampers, forces, (non-negative) time steps, tolerances, block sizes, linear solvers. -/
theorem C133_chain_completes {N : ℕ} (K C M : Fin N → ℝ) (cScale mScale : ℝ) (hM : ∀ i, 0 < M i * mScale) (hK : ∀ i, 0 ≤ K i) (hC : ∀ i, 0 ≤ C i * cScale) (force : β → ℝ → ℝ)
    (cfg : Config) (ha : 0 ≤ cfg.atol) (hm : 2 ≤ cfg.miter) (y0 : BVec β (N + N) ℝ) (nt : ℕ) (hnt : 0 < nt) (t : ℕ → β → ℝ) (ht : ∀ k b, k + 1 < nt → t k b ≤ t (k + 1) b) (n : ℤ) (hn : 0 < n)
    (hg : cfg.guessType = "zero" ∨ (cfg.guessType = "previous" ∧ n ≤ (nt : ℤ) - 1)) :
    ∃ res, integrate cfg (Func.lift (massDamperSpring K C M cScale mScale force)) y0 nt t n = .ok (res, false) := by
  have e : (fun (b : β) s y => ((massDamperSpring K C M cScale mScale force b s 0).2.mulVec y + chainLoad M mScale (force b s), (massDamperSpring K C M cScale mScale force b s 0).2)) =
      massDamperSpring K C M cScale mScale force := by
    funext b s y
    exact Prod.ext (chain_affine K C M cScale mScale force b s s y 0).symm rfl
  have := C18_linear_succeeds cfg ha hm (fun b s => (massDamperSpring K C M cScale mScale force b s 0).2) (fun b s => chainLoad M mScale (force b s)) y0 nt hnt t n hn hg
    fun _ k b hk => C133_chain_step_matrix K C M cScale mScale hM hK hC force b _ _ (sub_nonneg.2 (ht k b hk)) 0
  rw [e] at this
  exact this

/-- **C133.** With the tolerances zero, the energy of the simulated chain obeys the energy balance in every step, and does not grow in a step without force. -/
theorem C133_chain_dissipates {N : ℕ} (K C M : Fin N → ℝ) (cScale mScale : ℝ) (hM : ∀ i, 0 < M i * mScale) (hK : ∀ i, 0 ≤ K i) (hC : ∀ i, 0 ≤ C i * cScale) (force : β → ℝ → ℝ)
    (cfg : Config) (hs : cfg.scheme = .backwardEuler) (hr : cfg.rtol = 0) (ha : cfg.atol = 0) (hm : 0 ≤ cfg.miter) (y0 : BVec β (N + N) ℝ) (nt : ℕ) (t : ℕ → β → ℝ) (n : ℤ) (hn : 0 < n)
    (res : Partial β (N + N)) (h : integrate cfg (Func.lift (massDamperSpring K C M cScale mScale force)) y0 nt t n = .ok (res, false)) (b : β) (k : ℕ) (hk : k + 1 < nt) (ht : t k b ≤ t (k + 1) b) :
    let e : ℕ → ℝ := fun k => energy K (fun i => M i * mScale) (disp (res.get k b)) (vel (res.get k b))
    e (k + 1) ≤ e k + (t (k + 1) b - t k b) * (force b (t (k + 1) b) * (if h : 0 < N then vel (res.get (k + 1) b) ⟨0, h⟩ else 0) - ∑ i, C i * cScale * stretch (vel (res.get (k + 1) b)) i ^ 2) ∧
      (force b (t (k + 1) b) = 0 → e (k + 1) ≤ e k) := by
  have st := C15_exact_blocks_are_backward_euler cfg hs hm hr ha _ y0 nt t n hn res h k b hk
  have main := C133_chain_energy K C M cScale mScale hM hK force b (t (k + 1) b) (t (k + 1) b - t k b) (res.get k b) (res.get (k + 1) b) st
  refine ⟨main, fun h0 => main.trans ?_⟩
  rw [h0, zero_mul, zero_sub]
  have h1 : 0 ≤ (t (k + 1) b - t k b) * ∑ i, C i * cScale * stretch (vel (res.get (k + 1) b)) i ^ 2 :=
    mul_nonneg (sub_nonneg.2 ht) (Finset.sum_nonneg fun i _ => mul_nonneg (hC i) (sq_nonneg _))
  linarith

/-! ## The neurons -/

private theorem gate_step {a c e x x' δ : ℝ} (ha : 0 ≤ a) (hc : 0 ≤ c) (hc' : c ≤ 1) (he : 0 ≤ e) (hδ : 0 ≤ δ) (h : |x' - x - a * (c - x')| ≤ δ) (hx : -e ≤ x) (hx' : x ≤ 1 + e) :
    -(e + δ) ≤ x' ∧ x' ≤ 1 + (e + δ) := by
  have h := abs_le.1 h
  constructor
  · by_contra hn
    push Not at hn
    nlinarith [mul_nonneg ha hc]
  · by_contra hn
    push Not at hn
    nlinarith [mul_nonneg ha (sub_nonneg.2 hc'), mul_nonneg ha he, mul_nonneg ha hδ]

theorem neuron_gate {n : ℕ} (p : Neurons n) (Ic : ℝ) (y : Fin (n * 4) → ℝ) (i : Fin n) :
    p.rate Ic y (var i 1) = (p.mInf i - y (var i 1)) / p.tauM i ∧ p.rate Ic y (var i 2) = (p.hInf i - y (var i 2)) / p.tauH i ∧ p.rate Ic y (var i 3) = (p.nInf i - y (var i 3)) / p.tauN i := by
  have e : ∀ (c : Fin 4), finProdFinEquiv.symm (var i c) = (i, c) := fun c => Equiv.symm_apply_apply _ _
  refine ⟨?_, ?_, ?_⟩ <;> simp only [Neurons.rate, e]

/-- **C133.** The gating variables of the simulated neurons stay between 0 and 1, up to the stopping tolerance per step, whatever the currents, voltages, couplings and time steps. -/
theorem C133_gates {n : ℕ} (p : Neurons n) (hp : ∀ i, 0 < p.tauM i ∧ 0 < p.tauH i ∧ 0 < p.tauN i) (hm' : ∀ i, 0 ≤ p.mInf i ∧ p.mInf i ≤ 1) (hh : ∀ i, 0 ≤ p.hInf i ∧ p.hInf i ≤ 1)
    (hn' : ∀ i, 0 ≤ p.nInf i ∧ p.nInf i ≤ 1) (I : β → ℝ → ℝ) (cfg : Config) (hs : cfg.scheme = .backwardEuler) (hm : 0 ≤ cfg.miter) (y0 : BVec β (n * 4) ℝ) (nt : ℕ) (t : ℕ → β → ℝ) (blk : ℤ)
    (hb : 0 < blk) (res : Partial β (n * 4)) (h : integrate cfg (Func.lift (neurons p I)) y0 nt t blk = .ok (res, false)) (b : β) (ht : ∀ k, k + 1 < nt → t k b ≤ t (k + 1) b)
    (h0 : ∀ i, ∀ q : Fin 4, q ≠ 0 → 0 ≤ y0 b (var i q) ∧ y0 b (var i q) ≤ 1) (δ : ℝ) (hδ : ToleranceBound cfg (neurons p I) nt t res.get b δ) (k : ℕ) (hk : k < nt) (i : Fin n) (q : Fin 4) (hq : q ≠ 0) :
    -(k * δ) ≤ res.get k b (var i q) ∧ res.get k b (var i q) ≤ 1 + k * δ := by
  obtain ⟨-, f2⟩ := C14_every_time_filled cfg _ y0 nt t blk hb res false h
  have g0 : res.get 0 b = y0 b := by simp only [Partial.get]; rw [f2]; rfl
  induction k with
  | zero =>
    rw [g0]
    have := h0 i q hq
    push_cast
    constructor <;> linarith [this.1, this.2]
  | succ k ih =>
    obtain ⟨i1, i2⟩ := ih (by omega)
    have st := step_defect_le cfg hm _ y0 nt t blk hb res h b ht hδ k hk
    rw [hs] at st
    have hδ0 : 0 ≤ δ := (l2_nonneg _).trans st
    have hdt := sub_nonneg.2 (ht k hk)
    have st2 := (abs_le_l2 _ (var i q)).trans st
    simp only [defect, backwardDefect, Ode.rate, Pi.sub_apply, Pi.smul_apply, smul_eq_mul, neurons] at st2
    obtain ⟨r1, r2, r3⟩ := neuron_gate p (I b (t (k + 1) b)) (res.get (k + 1) b) i
    have e : (((k + 1 : ℕ) : ℝ)) * δ = k * δ + δ := by push_cast; ring
    rw [e]
    have key : ∀ c tau : ℝ, 0 < tau → 0 ≤ c → c ≤ 1 → p.rate (I b (t (k + 1) b)) (res.get (k + 1) b) (var i q) = (c - res.get (k + 1) b (var i q)) / tau →
        -(k * δ + δ) ≤ res.get (k + 1) b (var i q) ∧ res.get (k + 1) b (var i q) ≤ 1 + (k * δ + δ) := by
      intro c tau htau hc hc' hr
      rw [hr] at st2
      refine gate_step (a := (t (k + 1) b - t k b) / tau) (div_nonneg hdt htau.le) hc hc' (mul_nonneg (Nat.cast_nonneg k) hδ0) hδ0 ?_ i1 i2
      have : (t (k + 1) b - t k b) / tau * (c - res.get (k + 1) b (var i q)) = (t (k + 1) b - t k b) * ((c - res.get (k + 1) b (var i q)) / tau) := by ring
      rw [this]
      exact st2
    fin_cases q
    · exact absurd rfl hq
    · exact key _ _ (hp i).1 (hm' i).1 (hm' i).2 r1
    · exact key _ _ (hp i).2.1 (hh i).1 (hh i).2 r2
    · exact key _ _ (hp i).2.2 (hn' i).1 (hn' i).2 r3

/-- **C133.** What the coupling does: it adds `∑ g_j/C_j` times the difference of their voltages to the difference of the rates of any two neurons - positive conductances drive the voltages apart, and
(other than documented, neuron.py:111) the capacities and conductances of the two neurons themselves play no special role. -/
theorem C133_neuron_coupling {n : ℕ} (p : Neurons n) (Ic : ℝ) (y : Fin (n * 4) → ℝ) (i k : Fin n) :
    p.rate Ic y (var i 0) - p.rate Ic y (var k 0) = ({ p with gC := fun _ => 0 } : Neurons n).rate Ic y (var i 0) - ({ p with gC := fun _ => 0 } : Neurons n).rate Ic y (var k 0) +
      (∑ j, p.gC j / p.C j) * (y (var i 0) - y (var k 0)) := by
  have e : ∀ (i : Fin n) (c : Fin 4), finProdFinEquiv.symm (var i c) = (i, c) := fun i c => Equiv.symm_apply_apply _ _
  simp only [Neurons.rate, e]
  have h1 : ∀ i : Fin n, ∑ j, p.gC j * (y (var i 0) - y (var j 0)) / p.C j = (∑ j, p.gC j / p.C j) * y (var i 0) - ∑ j, p.gC j / p.C j * y (var j 0) := by
    intro i
    rw [Finset.sum_mul, ← Finset.sum_sub_distrib]
    exact Finset.sum_congr rfl fun j _ => by ring
  rw [h1, h1]
  simp
  ring

/-! ## The trajectory -/

/-- **C133.** The simulated trajectory, with the tolerances zero: the horizontal position is exact for every time grid, and the vertical one is below the parabola by `g/2` times the sum of the squared time steps. -/
theorem C133_trajectory (g : ℝ) (v a : β → ℝ) (cfg : Config) (hs : cfg.scheme = .backwardEuler) (hr : cfg.rtol = 0) (ha : cfg.atol = 0) (hm : 0 ≤ cfg.miter) (y0 : BVec β 2 ℝ) (nt : ℕ)
    (t : ℕ → β → ℝ) (n : ℤ) (hn : 0 < n) (res : Partial β 2) (h : integrate cfg (Func.lift (trajectory g v a)) y0 nt t n = .ok (res, false)) (b : β) (k : ℕ) (hk : k < nt) :
    res.get k b 0 = y0 b 0 + v b * Real.cos (a b) * (t k b - t 0 b) ∧
    res.get k b 1 = y0 b 1 + v b * Real.sin (a b) * (t k b - t 0 b) - g / 2 * (t k b ^ 2 - t 0 b ^ 2) - g / 2 * ∑ j ∈ Finset.range k, (t (j + 1) b - t j b) ^ 2 := by
  obtain ⟨-, f2⟩ := C14_every_time_filled cfg _ y0 nt t n hn res false h
  have g0 : res.get 0 b = y0 b := by simp only [Partial.get]; rw [f2]; rfl
  induction k with
  | zero => rw [g0]; simp
  | succ k ih =>
    obtain ⟨i1, i2⟩ := ih (by omega)
    have st := C15_exact_blocks_are_backward_euler cfg hs hm hr ha _ y0 nt t n hn res h k b hk
    have s0 := congrFun st 0
    have s1 := congrFun st 1
    simp [trajectory] at s0 s1
    rw [s0, s1, i1, i2, Finset.sum_range_succ]
    constructor <;> ring

/-! ## Non-vacuity -/

/-- The default options of the solver with backward Euler, but exact convergence. -/
def exactConfig : Config := { scheme := .backwardEuler, method := .direct .thomas, rtol := 0, atol := 0, miter := 100, throwOnFail := false, guessType := "zero" }

/-- Non-vacuity of C133: three masses, pushed with unit force until time 1, three steps: the run exists, and its energy does not grow in the last step. -/
example : ∃ res : Partial Unit (3 + 3), integrate exactConfig (Func.lift (massDamperSpring (fun _ => 1) (fun i => i.val) (fun i => 1 + i.val) 1e-4 1e-5 fun (_ : Unit) t => if t ≤ 1 then 1 else 0))
      (fun _ _ => 0) 4 (fun k _ => (k : ℝ)) 2 = .ok (res, false) ∧
    energy (fun _ => 1) (fun i => (1 + (i.val : ℝ)) * 1e-5) (disp (res.get 3 ())) (vel (res.get 3 ())) ≤
      energy (fun _ => 1) (fun i => (1 + (i.val : ℝ)) * 1e-5) (disp (res.get 2 ())) (vel (res.get 2 ())) := by
  have hM : ∀ i : Fin 3, (0 : ℝ) < (1 + (i.val : ℝ)) * 1e-5 := fun i => by positivity
  have hC : ∀ i : Fin 3, (0 : ℝ) ≤ (i.val : ℝ) * 1e-4 := fun i => by positivity
  obtain ⟨res, h⟩ := C133_chain_completes (β := Unit) (N := 3) (fun _ => 1) (fun i => i.val) (fun i => 1 + i.val) 1e-4 1e-5 hM (fun _ => zero_le_one) hC (fun _ t => if t ≤ 1 then 1 else 0)
    exactConfig le_rfl (by norm_num [exactConfig]) (fun _ _ => 0) 4 (by norm_num) (fun k _ => (k : ℝ)) (fun k _ _ => by push_cast; linarith) 2 (by norm_num) (Or.inl rfl)
  refine ⟨res, h, ?_⟩
  refine (C133_chain_dissipates (fun _ => 1) (fun i => i.val) (fun i => 1 + i.val) 1e-4 1e-5 hM (fun _ => zero_le_one) hC _ exactConfig rfl rfl rfl (by norm_num [exactConfig]) _ 4 _ 2 (by norm_num)
    res h () 2 (by norm_num) (by push_cast; linarith)).2 ?_
  norm_num

/-- Two neurons with leaks only (the equations are linear then). -/
noncomputable def leaky : Neurons 2 where
  C := fun _ => 1
  gNa := fun _ => 0
  ENa := fun _ => 0
  gK := fun _ => 0
  EK := fun _ => 0
  gL := fun _ => 1
  EL := fun _ => -65
  mInf := fun _ => 1 / 2
  tauM := fun _ => 1
  hInf := fun _ => 1
  tauH := fun _ => 1
  nInf := fun _ => 1 / 4
  tauN := fun _ => 1
  gC := fun _ => 0

/-- Non-vacuity of C133 for the neurons: a run exists, started with open and closed gates, and its gates stay between 0 and 1. -/
example : ∃ res : Partial Unit (2 * 4), integrate exactConfig (Func.lift (neurons leaky fun (_ : Unit) t => t)) (fun _ r => if r.val < 4 then 0 else 1) 5 (fun k _ => (k : ℝ)) 3 = .ok (res, false) ∧
    ∀ k < 5, ∀ i q, q ≠ 0 → 0 ≤ res.get k () (var i q) ∧ res.get k () (var i q) ≤ 1 := by
  have hJ : ∀ y, leaky.jacobian y = -1 := by
    intro y
    ext r s
    obtain ⟨⟨i, q⟩, rfl⟩ := finProdFinEquiv.surjective r
    obtain ⟨⟨j, q'⟩, rfl⟩ := finProdFinEquiv.surjective s
    simp only [Neurons.jacobian, leaky, Matrix.of_apply, Equiv.symm_apply_apply, Matrix.neg_apply, Matrix.one_apply, EmbeddingLike.apply_eq_iff_eq, Prod.mk.injEq]
    fin_cases q <;> fin_cases q' <;> by_cases h : i = j <;> simp [h]
  have hf : (fun (_ : Unit) t y => ((-1 : Matrix (Fin (2 * 4)) (Fin (2 * 4)) ℝ).mulVec y + leaky.rate t 0, (-1 : Matrix (Fin (2 * 4)) (Fin (2 * 4)) ℝ))) = neurons leaky fun (_ : Unit) t => t := by
    funext b t y
    refine Prod.ext (funext fun r => ?_) (hJ y).symm
    obtain ⟨⟨i, q⟩, rfl⟩ := finProdFinEquiv.surjective r
    rw [Matrix.neg_mulVec, Matrix.one_mulVec]
    simp only [neurons, Neurons.rate, leaky, Equiv.symm_apply_apply, Pi.add_apply, Pi.neg_apply, Pi.zero_apply]
    fin_cases q <;> simp [var] <;> ring
  obtain ⟨res, h⟩ := C18_linear_succeeds (β := Unit) (m := 2 * 4) exactConfig le_rfl (by norm_num [exactConfig]) (fun _ _ => -1) (fun _ t => leaky.rate t 0) (fun _ r => if r.val < 4 then 0 else 1) 5
    (by norm_num) (fun k _ => (k : ℝ)) 3 (by norm_num) (Or.inl rfl) (fun _ k b _ => by
      have : (1 - (((k + 1 : ℕ) : ℝ) - (k : ℝ)) • (-1 : Matrix (Fin (2 * 4)) (Fin (2 * 4)) ℝ)) = (2 : ℝ) • 1 := by
        have e : (((k + 1 : ℕ) : ℝ) - (k : ℝ)) = 1 := by push_cast; ring
        rw [e, one_smul, sub_neg_eq_add, two_smul]
      rw [this, Matrix.det_smul, Matrix.det_one]
      norm_num)
  rw [hf] at h
  refine ⟨res, h, fun k hk i q hq => ?_⟩
  have := C133_gates leaky (fun _ => ⟨one_pos, one_pos, one_pos⟩) (fun _ => by norm_num [leaky]) (fun _ => by norm_num [leaky]) (fun _ => by norm_num [leaky]) _ exactConfig rfl (by norm_num [exactConfig]) _ 5 _ 3
    (by norm_num) res h () (fun k _ => by push_cast; linarith) (fun i q _ => by split_ifs <;> norm_num) 0 ⟨le_rfl, le_rfl, Or.inl rfl⟩ k hk i q hq
  simpa using this

/-- Non-vacuity of C133 for the trajectory: the run exists, and with steps of length 1 it ends `3 g / 2` below the parabola. -/
example : ∃ res : Partial Unit 2, integrate exactConfig (Func.lift (trajectory 0.1 (fun (_ : Unit) => 2) fun _ => 0.7)) (fun _ _ => 0) 4 (fun k _ => (k : ℝ)) 2 = .ok (res, false) ∧
    res.get 3 () 1 = 2 * Real.sin 0.7 * 3 - 0.1 / 2 * 9 - 0.1 / 2 * 3 := by
  have hf : (fun (b : Unit) t y => ((0 : Matrix (Fin 2) (Fin 2) ℝ).mulVec y + (trajectory 0.1 (fun (_ : Unit) => 2) (fun _ => 0.7) b t 0).1, (0 : Matrix (Fin 2) (Fin 2) ℝ))) =
      trajectory 0.1 (fun (_ : Unit) => 2) fun _ => 0.7 := by
    funext b t y
    rw [Matrix.zero_mulVec, zero_add]
    rfl
  obtain ⟨res, h⟩ := C18_linear_succeeds (β := Unit) (m := 2) exactConfig le_rfl (by norm_num [exactConfig]) (fun _ _ => 0) (fun b t => (trajectory 0.1 (fun (_ : Unit) => 2) (fun _ => 0.7) b t 0).1)
    (fun _ _ => 0) 4 (by norm_num) (fun k _ => (k : ℝ)) 2 (by norm_num) (Or.inl rfl) (fun _ k b _ => by rw [smul_zero, sub_zero, Matrix.det_one]; exact isUnit_one)
  rw [hf] at h
  refine ⟨res, h, ?_⟩
  rw [(C133_trajectory 0.1 _ _ exactConfig rfl rfl rfl (by norm_num [exactConfig]) _ 4 _ 2 (by norm_num) res h () 3 (by norm_num)).2]
  simp only [Finset.sum_range_succ, Finset.sum_range_zero]
  norm_num

end Pyoptmat.Props
