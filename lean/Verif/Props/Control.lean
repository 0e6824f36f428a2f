import Verif.Proofs.Control
import Verif.Proofs.FlowRules
import Verif.Proofs.Models
import Verif.Props.Solvers
import Verif.Props.Integrate
import Verif.Props.Models

/-!
# Properties C26-C28: strain, stress and mixed control
-/

namespace Pyoptmat.Props

open Pyoptmat.Control Pyoptmat.Material Pyoptmat.Newton Pyoptmat.Solvers Pyoptmat.Spec Topology Filter

variable {β : Type*} {m : ℕ}

/-! ## C26: stress control -/

/-- **C26.** What `StressBasedModel` returns: the first component of the rate is a strain rate; the other components are the base model's rates
at the imposed stress (not at the first state variable, which is the strain) and that strain rate. If the solve did not warn, then at that strain rate the base model's stress rate
is the imposed one, up to `1e-10` in the whole batch or `1e-6` of the residual at zero strain rate in the whole batch. -/
theorem C26_stress_rate_imposed (model : β → Model (m + 1)) (srate stress T : β → ℝ → ℝ) (t : β → ℝ) (y : β → Fin (m + 1) → ℝ) :
    let out := (stressForward model srate stress T t y).1
    let yp : β → Fin (m + 1) → ℝ := fun b => Function.update (y b) 0 (stress b (t b))
    let rate : (β → ℝ) → β → Fin (m + 1) → ℝ := fun e b => (model b (t b) (yp b) (e b) (T b (t b))).ydot
    (∀ b i, i ≠ 0 → out b i = rate (fun b => out b 0) b i) ∧
    ((stressSolve model (fun b => srate b (t b)) (fun b => stress b (t b)) (fun b => T b (t b)) t y).warned = false →
      MetTolerance (fun b => |rate (fun b => out b 0) b 0 - srate b (t b)|) (fun b => |rate 0 b 0 - srate b (t b)|) 1e-6 1e-10) := by
  intro out yp rate
  constructor
  · intro b i hi
    simp only [out, rate, yp, stressForward, stressOut]
    rw [Function.update_of_ne hi, Function.update_self]
    rfl
  · intro hw
    have h := (C66_no_warning_meets_tolerance (stressRJ model (fun b => srate b (t b)) (fun b => stress b (t b)) (fun b => T b (t b)) t y)
      jacobiLinearSolve (fun x dx => x - dx) (fun r b => rowNorm (r b)) 0 1e-6 1e-10 100).2 (by norm_num) hw
    have e : ∀ b, out b 0 = (stressSolve model (fun b => srate b (t b)) (fun b => stress b (t b)) (fun b => T b (t b)) t y).x b 0 := by
      intro b
      simp only [out, stressForward, stressOut, Function.update_self]
    simp only [rate, e]
    rcases h with h | h
    · left
      intro b
      have hb := h b
      beta_reduce at hb
      rw [rowNorm_one] at hb
      exact hb
    · right
      intro b
      have hb := h b
      beta_reduce at hb
      rw [rowNorm_one, rowNorm_one] at hb
      exact hb

/-- **C26.** The Jacobian `StressBasedModel` returns is made of the base model's derivatives at the imposed stress and at the strain rate it returns: no
dependence on the strain, the strain rate depends on the history as the stress rate equation says, the history rows are the base model's. -/
theorem C26_returned_jacobian (model : β → Model (m + 1)) (srate stress T : β → ℝ → ℝ) (t : β → ℝ) (y : β → Fin (m + 1) → ℝ) (b : β) :
    let e := (stressForward model srate stress T t y).1 b 0
    let o := model b (t b) (Function.update (y b) 0 (stress b (t b))) e (T b (t b))
    (stressForward model srate stress T t y).1 b = (stressOut (model b) (stress b (t b)) (T b (t b)) (t b) (y b) e).1 ∧
    (stressForward model srate stress T t y).2 b = (stressOut (model b) (stress b (t b)) (T b (t b)) (t b) (y b) e).2 ∧
    ∀ i j, (stressForward model srate stress T t y).2 b i j = if j = 0 then 0 else if i = 0 then -o.J 0 j / o.Je 0 else o.J i j := by
  have h : (stressForward model srate stress T t y).1 b 0 =
      (stressSolve model (fun b => srate b (t b)) (fun b => stress b (t b)) (fun b => T b (t b)) t y).x b 0 := by
    simp only [stressForward, stressOut, Function.update_self]
  dsimp only
  rw [h]
  exact ⟨rfl, rfl, fun _ _ => rfl⟩

/-- **C26.** When the base model's stress rate is affine in the strain rate with the slope it reports (for instance every `InelasticModel` whose flow
rule does not look at the strain rate), the solve never warns, and the strain rate is exact, except that it is left at zero when zero already meets the absolute tolerance in
the whole batch. In all cases it is within `1e-10 / |slope|` of the exact one. -/
theorem C26_affine_exact (model : β → Model (m + 1)) (csr cs cT t : β → ℝ) (y : β → Fin (m + 1) → ℝ) (a : β → ℝ)
    (ha : ∀ b, a b ≠ 0)
    (hJ : ∀ b e, (model b (t b) (Function.update (y b) 0 (cs b)) e (cT b)).Je 0 = a b)
    (hE : ∀ b e, (model b (t b) (Function.update (y b) 0 (cs b)) e (cT b)).ydot 0 =
      (model b (t b) (Function.update (y b) 0 (cs b)) 0 (cT b)).ydot 0 + a b * e) :
    let s := stressSolve model csr cs cT t y
    let exact : β → ℝ := fun b => (csr b - (model b (t b) (Function.update (y b) 0 (cs b)) 0 (cT b)).ydot 0) / a b
    s.warned = false ∧ ((∀ b, s.x b 0 = exact b) ∨ ∀ b, s.x b 0 = 0) ∧ ∀ b, |s.x b 0 - exact b| ≤ 1e-10 / |a b| := by
  intro s exact
  obtain ⟨h1, h2, h3, h4⟩ := C66_returns_first_iterate (stressRJ model csr cs cT t y) jacobiLinearSolve (fun x dx => x - dx)
    (fun r b => rowNorm (r b)) 0 1e-6 1e-10 100
  have hs : s = newtonRaphson (stressRJ model csr cs cT t y) jacobiLinearSolve (fun x dx => x - dx)
    (fun r b => some (rowNorm (r b))) 0 1e-6 1e-10 (100 : ℕ) := rfl
  rw [← hs] at h1 h2 h3 h4
  have hone : ∀ b, newtonIterate (stressRJ model csr cs cT t y) jacobiLinearSolve (fun x dx => x - dx) 0 1 b 0 = exact b := by
    intro b
    simp only [newtonIterate, Function.iterate_one, Pi.sub_apply, jacobiLinearSolve, stressRJ, imposed, exact, Pi.zero_apply]
    rw [hJ b 0]
    have := ha b
    field_simp
    ring
  have hroot : ∀ b, (model b (t b) (Function.update (y b) 0 (cs b)) (exact b) (cT b)).ydot 0 = csr b := by
    intro b
    rw [hE b]
    simp only [exact]
    rw [mul_div_cancel₀ _ (ha b)]
    ring
  have hmet1 : MetTolerance (fun b => rowNorm ((stressRJ model csr cs cT t y (newtonIterate (stressRJ model csr cs cT t y) jacobiLinearSolve
      (fun x dx => x - dx) 0 1)).1 b)) (fun b => rowNorm ((stressRJ model csr cs cT t y 0).1 b)) 1e-6 1e-10 := by
    left
    intro b
    simp only [rowNorm_one, stressRJ, imposed]
    rw [hone b, hroot b, sub_self, abs_zero]
    norm_num
  have hit : s.iters ≤ 1 := by
    by_contra hlt
    exact h3 1 (by omega) hmet1
  have hw : s.warned = false := by
    by_contra hne
    exact (h4.1 (by simpa using hne)) 1 (by norm_num) hmet1
  have hpos : ∀ b, (0 : ℝ) ≤ 1e-10 / |a b| := fun b => div_nonneg (by norm_num) (abs_nonneg _)
  refine ⟨hw, ?_⟩
  rcases Nat.le_one_iff_eq_zero_or_eq_one.1 hit with h0 | h0
  · rw [h0] at h2
    have hx : ∀ b, s.x b 0 = 0 := fun b => by rw [h2]; rfl
    refine ⟨Or.inr hx, fun b => ?_⟩
    have hmet := (C66_no_warning_meets_tolerance (stressRJ model csr cs cT t y) jacobiLinearSolve (fun x dx => x - dx)
      (fun r b => rowNorm (r b)) 0 1e-6 1e-10 100).2 (by norm_num) hw
    have hs' : newtonRaphson (stressRJ model csr cs cT t y) jacobiLinearSolve (fun x dx => x - dx)
      (fun r b => some (rowNorm (r b))) 0 1e-6 1e-10 100 = s := rfl
    rw [hs', h2] at hmet
    have hR : |(model b (t b) (Function.update (y b) 0 (cs b)) 0 (cT b)).ydot 0 - csr b| ≤ 1e-10 := by
      simp only [newtonIterate, Function.iterate_zero, id, rowNorm_one, stressRJ, imposed, Pi.zero_apply] at hmet
      rcases hmet with hm | hm
      · exact hm b
      · have := hm b
        dsimp only at this
        have h0 := abs_nonneg ((model b (t b) (Function.update (y b) 0 (cs b)) 0 (cT b)).ydot 0 - csr b)
        norm_num at this
        nlinarith
    rw [hx b, zero_sub, abs_neg]
    simp only [exact]
    rw [abs_div, abs_sub_comm]
    exact div_le_div_of_nonneg_right hR (abs_nonneg _)
  · rw [h0] at h2
    have hx : ∀ b, s.x b 0 = exact b := fun b => by rw [h2]; exact hone b
    refine ⟨Or.inl hx, fun b => ?_⟩
    rw [hx b, sub_self, abs_zero]
    exact hpos b

/-- **C26.** The same for one test of a batch, whatever the other tests are (their materials may depend nonlinearly on the strain rate and their solves may fail): if the base model of *this* test is affine in
the strain rate, its strain rate is exact as soon as one Newton update was made in the batch, and always within `1e-10 / |slope|` of the exact one. -/
theorem C26_affine_test (model : β → Model (m + 1)) (csr cs cT t : β → ℝ) (y : β → Fin (m + 1) → ℝ) (b : β) (a : ℝ) (ha : a ≠ 0)
    (hJ : ∀ e, (model b (t b) (Function.update (y b) 0 (cs b)) e (cT b)).Je 0 = a)
    (hE : ∀ e, (model b (t b) (Function.update (y b) 0 (cs b)) e (cT b)).ydot 0 =
      (model b (t b) (Function.update (y b) 0 (cs b)) 0 (cT b)).ydot 0 + a * e) :
    let s := stressSolve model csr cs cT t y
    let exact : ℝ := (csr b - (model b (t b) (Function.update (y b) 0 (cs b)) 0 (cT b)).ydot 0) / a
    (0 < s.iters → s.x b 0 = exact) ∧ |s.x b 0 - exact| ≤ 1e-10 / |a| := by
  intro s exact
  obtain ⟨h1, h2, h3, h4⟩ := C66_returns_first_iterate (stressRJ model csr cs cT t y) jacobiLinearSolve (fun x dx => x - dx)
    (fun r b => rowNorm (r b)) 0 1e-6 1e-10 100
  have hs : s = newtonRaphson (stressRJ model csr cs cT t y) jacobiLinearSolve (fun x dx => x - dx)
    (fun r b => some (rowNorm (r b))) 0 1e-6 1e-10 (100 : ℕ) := rfl
  rw [← hs] at h1 h2 h3 h4
  have hone : ∀ j, newtonIterate (stressRJ model csr cs cT t y) jacobiLinearSolve (fun x dx => x - dx) 0 (j + 1) b 0 = exact := by
    intro j
    simp only [newtonIterate, Function.iterate_succ_apply']
    generalize (fun x => x - jacobiLinearSolve (stressRJ model csr cs cT t y x).2 (stressRJ model csr cs cT t y x).1)^[j] 0 = x
    simp only [Pi.sub_apply, jacobiLinearSolve, stressRJ, imposed, exact]
    rw [hJ, hE (x b 0)]
    field_simp
    ring
  have hpos : (0 : ℝ) ≤ 1e-10 / |a| := div_nonneg (by norm_num) (abs_nonneg _)
  have hex : 0 < s.iters → s.x b 0 = exact := by
    intro hi
    rw [h2, ← Nat.sub_add_cancel hi]
    exact hone _
  refine ⟨hex, ?_⟩
  rcases Nat.eq_zero_or_pos s.iters with h0 | h0
  · have hw : s.warned = false := by
      rw [hs]
      simp only [newtonRaphson, decide_eq_false_iff_not]
      have : s.iters ≠ 100 := by omega
      rw [hs] at this
      simp only [newtonRaphson] at this
      exact_mod_cast this
    rw [h0] at h2
    have hx : s.x b 0 = 0 := by rw [h2]; rfl
    have hmet := (C66_no_warning_meets_tolerance (stressRJ model csr cs cT t y) jacobiLinearSolve (fun x dx => x - dx)
      (fun r b => rowNorm (r b)) 0 1e-6 1e-10 100).2 (by norm_num) hw
    have hs' : newtonRaphson (stressRJ model csr cs cT t y) jacobiLinearSolve (fun x dx => x - dx)
      (fun r b => some (rowNorm (r b))) 0 1e-6 1e-10 100 = s := rfl
    rw [hs', h2] at hmet
    have hR : |(model b (t b) (Function.update (y b) 0 (cs b)) 0 (cT b)).ydot 0 - csr b| ≤ 1e-10 := by
      simp only [newtonIterate, Function.iterate_zero, id, rowNorm_one, stressRJ, imposed, Pi.zero_apply] at hmet
      rcases hmet with hm | hm
      · exact hm b
      · have := hm b
        dsimp only at this
        have h0 := abs_nonneg ((model b (t b) (Function.update (y b) 0 (cs b)) 0 (cT b)).ydot 0 - csr b)
        norm_num at this
        nlinarith
    rw [hx, zero_sub, abs_neg]
    simp only [exact]
    rw [abs_div, abs_sub_comm]
    exact div_le_div_of_nonneg_right hR (abs_nonneg _)
  · rw [hex h0, sub_self, abs_zero]
    exact hpos

/-- **C26.** For `InelasticModel` with a flow rule that does not look at the strain rate: the exact strain rate is elastic plus inelastic,
`σ̇ / E(T) + flow(σ, h)`. -/
theorem C26_inelastic (E : ℝ → ℝ) {n : ℕ} (f : FlowRule n) (csr cs cT t : β → ℝ) (y : β → Fin (n + 1) → ℝ)
    (hE : ∀ b, E (cT b) ≠ 0) (hf : ∀ s h t T e, f.flow s h t T e = f.flow s h t T 0) (hd : ∀ s h t T e, f.dflow_de s h t T e = 0) :
    let s := stressSolve (fun _ => inelastic E f) csr cs cT t y
    let exact : β → ℝ := fun b => csr b / E (cT b) + f.flow (cs b) (fun j => y b j.succ) (t b) (cT b) 0
    s.warned = false ∧ ((∀ b, s.x b 0 = exact b) ∨ ∀ b, s.x b 0 = 0) ∧ ∀ b, |s.x b 0 - exact b| ≤ 1e-10 / |E (cT b)| := by
  intro s exact
  have hu : ∀ b, (fun j : Fin n => Function.update (y b) 0 (cs b) j.succ) = fun j => y b j.succ := by
    intro b; funext j; rw [Function.update_of_ne (Fin.succ_ne_zero j)]
  have h := C26_affine_exact (fun _ => inelastic E f) csr cs cT t y (fun b => E (cT b)) hE
    (by intro b e; simp [inelastic, hd]) (by
      intro b e
      simp only [inelastic, Fin.cons_zero, Function.update_self]
      rw [hf _ _ _ _ e]
      ring)
  have he : ∀ b, (csr b - (inelastic E f (t b) (Function.update (y b) 0 (cs b)) 0 (cT b)).ydot 0) / E (cT b) = exact b := by
    intro b
    simp only [inelastic, Fin.cons_zero, Function.update_self, hu, exact]
    have := hE b
    field_simp
    ring
  simp only [he] at h
  exact h

/-- Non-vacuity: a power law creep test. -/
example : (∀ s h t T e, (perfect (fun _ => 3) (fun _ => 50)).flow s h t T e =
      (perfect (fun _ => 3) (fun _ => 50)).flow s h t T 0) ∧
    ∀ s h t T e, (perfect (fun _ => 3) (fun _ => 50)).dflow_de s h t T e = 0 :=
  ⟨fun _ _ _ _ _ => rfl, fun _ _ _ _ _ => rfl⟩

/-- **C26.** The derivative of the stress controlled rates with respect to the state, when the strain rate is the (continuous) exact solution
of the stress rate equation and the base model's derivatives are exact: column 0 (strain) vanishes, row 0 is `-J₀ / Je₀`, and the history rows are
`J_i - Je_i J₀ / Je₀`. -/
theorem C26_jacobian (M : Model (m + 1)) (csr cs cT t : ℝ) (y0 : Fin (m + 1) → ℝ) (e : (Fin (m + 1) → ℝ) → ℝ)
    (hc : ContinuousAt e y0) (hs : ∀ᶠ y in 𝓝 y0, (M t (Function.update y 0 cs) (e y) cT).ydot 0 = csr)
    (hM : ModelExact M t (Function.update y0 0 cs) (e y0) cT) (hJ : (M t (Function.update y0 0 cs) (e y0) cT).Je 0 ≠ 0) :
    let o := M t (Function.update y0 0 cs) (e y0) cT
    HasFDerivAt (fun y => (stressOut M cs cT t y (e y)).1)
      (matCLM fun i j => if j = 0 then 0 else if i = 0 then -o.J 0 j / o.Je 0 else o.J i j - o.Je i * o.J 0 j / o.Je 0) y0 :=
  stressOut_hasFDerivAt M csr cs cT t y0 e hc hs hM hJ

/-- **C26.** Hence the Jacobian `StressBasedModel` returns is exact if and only if every history rate that depends directly on the strain rate meets only history variables the
stress rate does not depend on. -/
theorem C26_jacobian_exact_iff (M : Model (m + 1)) (csr cs cT t : ℝ) (y0 : Fin (m + 1) → ℝ) (e : (Fin (m + 1) → ℝ) → ℝ)
    (hc : ContinuousAt e y0) (hs : ∀ᶠ y in 𝓝 y0, (M t (Function.update y 0 cs) (e y) cT).ydot 0 = csr)
    (hM : ModelExact M t (Function.update y0 0 cs) (e y0) cT) (hJ : (M t (Function.update y0 0 cs) (e y0) cT).Je 0 ≠ 0) :
    HasFDerivAt (fun y => (stressOut M cs cT t y (e y)).1) (matCLM (stressOut M cs cT t y0 (e y0)).2) y0 ↔
      ∀ i j, i ≠ 0 → j ≠ 0 → (M t (Function.update y0 0 cs) (e y0) cT).Je i * (M t (Function.update y0 0 cs) (e y0) cT).J 0 j = 0 := by
  have h := stressOut_hasFDerivAt M csr cs cT t y0 e hc hs hM hJ
  constructor
  · intro h2 i j hi hj
    have := matCLM_injective (h2.unique h)
    have h3 := congrFun (congrFun this i) j
    simp only [stressOut, stressJac, trueStressJac, hi, hj, if_false, imposed] at h3
    have h4 : (M t (Function.update y0 0 cs) (e y0) cT).Je i * (M t (Function.update y0 0 cs) (e y0) cT).J 0 j /
      (M t (Function.update y0 0 cs) (e y0) cT).Je 0 = 0 := by linarith
    exact (div_eq_zero_iff.1 h4).resolve_right hJ
  · intro h2
    have : (stressOut M cs cT t y0 (e y0)).2 = trueStressJac (M t (imposed cs y0) (e y0) cT) := by
      ext i j
      simp only [stressOut, stressJac, trueStressJac]
      by_cases hj : j = 0
      · simp [hj]
      · by_cases hi : i = 0
        · simp [hi]
        · simp only [hi, hj, if_false, imposed]
          rw [h2 i j hi hj]; ring
    rw [this]
    exact h

/-- **C26.** For the Voce-Chaboche viscoplastic model (whose history rates do not look at the strain rate) the returned Jacobian is exact under stress control. -/
theorem C26_voce_chaboche_jacobian {nk : ℕ} (E n eta s0 R d : ℝ → ℝ) (C g : Fin nk → ℝ → ℝ) (csr cs t T : ℝ)
    (y0 : Fin (1 + nk + 1) → ℝ) (hE : E T ≠ 0) (heta : 0 < eta T) (hn : 1 < n T) (hw : 0 ≤ s0 T + y0 1) :
    let f := isoKin n eta s0 (voce R d) (chaboche C g)
    let e : (Fin (1 + nk + 1) → ℝ) → ℝ := fun y => csr / E T + f.flow cs (fun j => y j.succ) t T 0
    HasFDerivAt (fun y => (stressOut (inelastic E f) cs T t y (e y)).1) (matCLM (stressOut (inelastic E f) cs T t y0 (e y0)).2) y0 := by
  intro f e
  have h1 : Function.update y0 0 cs 1 = y0 1 := by
    refine Function.update_of_ne ?_ _ _
    intro h
    have := congrArg Fin.val h
    simp at this
  have hM : ModelExact (inelastic E f) t (Function.update y0 0 cs) (e y0) T :=
    C24_voce_chaboche E n eta s0 R d C g t _ _ T heta hn (by rw [h1]; exact hw)
  have hu : ∀ y : Fin (1 + nk + 1) → ℝ, (fun j : Fin (1 + nk) => Function.update y 0 cs j.succ) = fun j => y j.succ := by
    intro y; funext j; rw [Function.update_of_ne (Fin.succ_ne_zero j)]
  have hsol : ∀ y, (inelastic E f t (Function.update y 0 cs) (e y) T).ydot 0 = csr := by
    intro y
    simp only [inelastic, Fin.cons_zero, Function.update_self, hu, e]
    have : f.flow cs (fun j => y j.succ) t T (csr / E T + f.flow cs (fun j => y j.succ) t T 0) = f.flow cs (fun j => y j.succ) t T 0 := rfl
    rw [this, add_sub_cancel_right, mul_div_cancel₀ _ hE]
  have hJe : ∀ i, i ≠ 0 → (inelastic E f t (Function.update y0 0 cs) (e y0) T).Je i = 0 := by
    intro i hi
    obtain ⟨j, rfl⟩ := Fin.exists_succ_eq.2 hi
    simp only [inelastic, Fin.cons_succ]
    simp only [f, isoKin]
    refine Fin.addCases (fun a => ?_) (fun a => ?_) j <;> simp [voce, chaboche]
  have hJ0 : (inelastic E f t (Function.update y0 0 cs) (e y0) T).Je 0 ≠ 0 := by
    have : (inelastic E f t (Function.update y0 0 cs) (e y0) T).Je 0 = E T * (1 - 0) := rfl
    rw [this]; simpa using hE
  have hcont : ContinuousAt e y0 := by
    have hF : FlowExact f cs (fun j => y0 j.succ) t T 0 := by
      refine isoKin_exact _ _ _ _ _ _ _ _ _ _ heta (voce_exact ..) (chaboche_exact ..) ?_ (Or.inl hn)
      have : (Fin.castAdd nk (0 : Fin 1)).succ = (1 : Fin (1 + nk + 1)) := by
        ext; simp; exact (Nat.mod_eq_of_lt (by omega)).symm
      change 0 ≤ s0 T + y0 (Fin.castAdd nk (0 : Fin 1)).succ
      rw [this]; exact hw
    exact flow_continuousAt f (csr / E T) cs t T y0 hF
  exact (C26_jacobian_exact_iff (inelastic E f) csr cs T t y0 e hcont (Eventually.of_forall hsol) hM hJ0).2
    fun i j hi _ => by rw [hJe i hi, zero_mul]

/-! ## C27: mixed control -/

/-- **C27.** Every batch entry labelled 0 gets exactly the strain controlled rate and Jacobian of that entry's own model, state, data and time, every entry labelled 1
the stress controlled ones, whatever the labels of the others; other labels get zeros. -/
theorem C27_selection (model : β → Model (m + 1)) (rate base T : β → ℝ → ℝ) (control : β → ℝ) (t : β → ℝ)
    (y : β → Fin (m + 1) → ℝ) (b : β) :
    let out := bothForward model rate base T control t y
    let o := model b (t b) (y b) (rate b (t b)) (T b (t b))
    let s := stressForward model rate base T t y
    (control b = 0 → out.1 b = o.ydot ∧ out.2 b = o.J) ∧
    (control b = 1 → out.1 b = s.1 b ∧ out.2 b = s.2 b) ∧
    (control b ≠ 0 → control b ≠ 1 → out.1 b = 0 ∧ out.2 b = 0) := by
  refine ⟨fun h => ?_, fun h => ?_, fun h h' => ?_⟩
  · have h1 : (0 : ℝ) ≠ 1 := by norm_num
    simp [bothForward, strainForward, h]
  · simp [bothForward, h]
  · simp [bothForward, h, h']

/-- **C27.** A stress controlled entry: with base models affine in the strain rate, the strain rate found for an entry depends on the rest of the batch by at most `2e-10 / |slope|`: two batches
that contain an entry with the same data give it strain rates that close (both are within `1e-10 / |slope|` of the exact one). -/
theorem C27_entries_independent {β' : Type*} (model : β → Model (m + 1)) (model' : β' → Model (m + 1))
    (srate stress T : β → ℝ → ℝ) (srate' stress' T' : β' → ℝ → ℝ) (t : β → ℝ) (t' : β' → ℝ)
    (y : β → Fin (m + 1) → ℝ) (y' : β' → Fin (m + 1) → ℝ) (a : β → ℝ) (a' : β' → ℝ) (ha : ∀ b, a b ≠ 0) (ha' : ∀ b, a' b ≠ 0)
    (hE : ∀ b e, (model b (t b) (Function.update (y b) 0 (stress b (t b))) e (T b (t b))).Je 0 = a b ∧
      (model b (t b) (Function.update (y b) 0 (stress b (t b))) e (T b (t b))).ydot 0 =
      (model b (t b) (Function.update (y b) 0 (stress b (t b))) 0 (T b (t b))).ydot 0 + a b * e)
    (hE' : ∀ b e, (model' b (t' b) (Function.update (y' b) 0 (stress' b (t' b))) e (T' b (t' b))).Je 0 = a' b ∧
      (model' b (t' b) (Function.update (y' b) 0 (stress' b (t' b))) e (T' b (t' b))).ydot 0 =
      (model' b (t' b) (Function.update (y' b) 0 (stress' b (t' b))) 0 (T' b (t' b))).ydot 0 + a' b * e)
    (b : β) (b' : β') (hm : model b = model' b') (hs : srate b = srate' b') (hσ : stress b = stress' b') (hT : T b = T' b')
    (ht : t b = t' b') (hy : y b = y' b') :
    |(stressForward model srate stress T t y).1 b 0 - (stressForward model' srate' stress' T' t' y').1 b' 0| ≤ 2e-10 / |a b| := by
  have h1 := (C26_affine_exact model (fun b => srate b (t b)) (fun b => stress b (t b)) (fun b => T b (t b)) t y a ha
    (fun b e => (hE b e).1) (fun b e => (hE b e).2)).2.2 b
  have h2 := (C26_affine_exact model' (fun b => srate' b (t' b)) (fun b => stress' b (t' b)) (fun b => T' b (t' b)) t' y' a' ha'
    (fun b e => (hE' b e).1) (fun b e => (hE' b e).2)).2.2 b'
  have haa : a b = a' b' := by
    rw [← (hE b 0).1, ← (hE' b' 0).1, hm, hσ, hT, ht, hy]
  beta_reduce at h2
  rw [← hm, ← hs, ← hσ, ← hT, ← ht, ← hy, ← haa] at h2
  simp only [stressForward, stressOut, Function.update_self]
  set u := (stressSolve model (fun b => srate b (t b)) (fun b => stress b (t b)) (fun b => T b (t b)) t y).x b 0
  set v := (stressSolve model' (fun b => srate' b (t' b)) (fun b => stress' b (t' b)) (fun b => T' b (t' b)) t' y').x b' 0
  set w := (srate b (t b) - (model b (t b) (Function.update (y b) 0 (stress b (t b))) 0 (T b (t b))).ydot 0) / a b
  have h3 : |u - v| ≤ |u - w| + |v - w| := by
    have := abs_sub_le u w v
    rwa [abs_sub_comm w v] at this
  have h4 : (2e-10 : ℝ) / |a b| = 1e-10 / |a b| + 1e-10 / |a b| := by ring
  rw [h4]
  linarith

/-- Non-vacuity of C27: a batch of two elastic tests, one of each kind. -/
example :
    let mdl : Fin 2 → Model 1 := fun _ => inelastic (fun _ => 100) (perfect (fun _ => 3) (fun _ => 50))
    let out := bothForward mdl (fun _ _ => 1) (fun _ _ => 0) (fun _ _ => 0) (fun b => if b = 0 then 0 else 1) 0 0
    out.1 0 0 = 100 ∧ (out.1 1 0 = 1 / 100 ∨ out.1 1 0 = 0) := by
  intro mdl out
  have hsel := C27_selection (β := Fin 2) (m := 0) (fun _ => inelastic (fun _ => 100) (perfect (fun _ => 3) (fun _ => 50)))
      (fun _ _ => 1) (fun _ _ => 0) (fun _ _ => 0) (fun b => if b = 0 then 0 else 1) 0 0
  constructor
  · rw [((hsel 0).1 rfl).1]
    simp [inelastic, perfect]
  · rw [((hsel 1).2.1 rfl).1]
    have h := (C26_inelastic (β := Fin 2) (fun _ => 100) (perfect (fun _ => 3) (fun _ => 50)) (fun _ => 1) 0 0 0 0
      (by intro b; norm_num) (fun _ _ _ _ _ => rfl) (fun _ _ _ _ _ => rfl)).2.1
    simp only [stressForward, stressOut, Function.update_self]
    rcases h with h | h
    · left
      have hf : ∀ hh, (perfect (fun _ => 3) (fun _ => 50)).flow 0 hh 0 0 0 = 0 := by
        intro hh; simp [perfect]
      have h1 : _ = (1 : ℝ) / 100 + (perfect (fun _ => 3) (fun _ => 50)).flow 0 _ 0 0 0 := h 1
      rw [hf, add_zero] at h1
      exact h1
    · right; exact h 1

/-! ## C28: the integrated tests see the recorded data exactly -/

/-- One test of an exactly solved `solve_strain` run, as a backward Euler history of its own material. -/
theorem strain_lane_backward (c : Ode.Config) (hs : c.scheme = .backwardEuler) (hm : 0 ≤ c.miter) (hr : c.rtol = 0) (ha : c.atol = 0) {m : ℕ}
    (model : β → Model m) (nt : ℕ) (times strains temps : ℕ → β → ℝ) (blk : ℤ) (hb : 0 < blk) (res : Ode.Partial β m)
    (h : solveStrain c model nt times strains temps blk = .ok (res, false)) (b : β) (M : Model m) (hmod : model b = M) :
    IsBackwardEuler (β := Unit) (fun _ s x => (M s x (rateFn nt (fun k => times k b) (fun k => strains k b) s)
      (dataFn nt (fun k => times k b) (fun k => temps k b) s)).ydot) nt (fun k _ => times k b) (fun k _ => res.get k b) ∧ res.get 0 b = 0 := by
  obtain ⟨-, f2⟩ := C14_every_time_filled c _ _ nt times blk hb res false h
  refine ⟨fun k _ hk => ?_, by unfold Ode.Partial.get; rw [f2]; rfl⟩
  have e := C15_exact_blocks_are_backward_euler c hs hm hr ha _ _ nt times blk hb res h k b hk
  simp only [strainFunc, hmod] at e
  exact e

/-- **C28.** `ModelIntegrator.solve_strain` with backward Euler and exact implicit solves: in every step of every test with an `InelasticModel` (whatever the materials of the other tests) the stress increment is
`E(T)` times (recorded strain increment minus `Δt` times the inelastic strain rate at the end of the step), with the recorded temperature at the end of the step. -/
theorem C28_strain_backward (c : Ode.Config) (hs : c.scheme = .backwardEuler) (hm : 0 ≤ c.miter) (hr : c.rtol = 0) (ha : c.atol = 0)
    {n : ℕ} (model : β → Model (n + 1)) (nt : ℕ) (times strains temps : ℕ → β → ℝ) (blk : ℤ) (hb : 0 < blk)
    (hg : ∀ b, StrictGrid (nt - 1) fun k => times k b) (res : Ode.Partial β (n + 1))
    (h : solveStrain c model nt times strains temps blk = .ok (res, false)) (k : ℕ) (b : β) (hk : k + 1 < nt)
    (E : ℝ → ℝ) (f : FlowRule n) (hmod : model b = inelastic E f) :
    let y := res.get
    let dt := times (k + 1) b - times k b
    y (k + 1) b 0 - y k b 0 = E (temps (k + 1) b) * ((strains (k + 1) b - strains k b) -
      dt * f.flow (y (k + 1) b 0) (fun j => y (k + 1) b j.succ) (times (k + 1) b) (temps (k + 1) b)
        (rateFn nt (fun k => times k b) (fun k => strains k b) (times (k + 1) b))) := by
  intro y dt
  have hbe := C15_exact_blocks_are_backward_euler c hs hm hr ha _ _ nt times blk hb res h k b hk
  have h0 := congrFun hbe 0
  simp only [strainFunc, hmod, inelastic, Pi.add_apply, Pi.smul_apply, smul_eq_mul, Fin.cons_zero] at h0
  rw [dataFn_grid (hg b) (fun k => temps k b) (k := k + 1) hk (by omega)] at h0
  have hrate := rateFn_grid (hg b) (fun k => strains k b) hk
  simp only [y, dt]
  linear_combination h0 + E (temps (k + 1) b) * hrate

/-- Non-vacuity of C28: a linearly viscous (Maxwell) material, two tests, any recorded strains: the integration succeeds without a warning, so the increments are the stated ones. -/
example (strains : ℕ → Bool → ℝ) : ∃ res, solveStrain (β := Bool)
    { scheme := .backwardEuler, method := .direct .thomas, rtol := 0, atol := 0, miter := 50, throwOnFail := true, guessType := "zero" }
    (fun _ => inelastic (fun _ => 100) (perfect (fun _ => 1) (fun _ => 50))) 4 (fun k _ => k) strains (fun _ _ => 300) 2 = .ok (res, false) := by
  let M : Bool → ℝ → Matrix (Fin 1) (Fin 1) ℝ := fun _ _ => Matrix.of fun _ _ => (-100 / 50 : ℝ)
  let c : Bool → ℝ → Fin 1 → ℝ := fun b t _ => 100 * rateFn 4 (fun k => (k : ℝ)) (fun k => strains k b) t
  have e : strainFunc (β := Bool) (fun _ => inelastic (fun _ => 100) (perfect (fun _ => 1) (fun _ => 50))) 4 (fun k _ => k) strains (fun _ _ => 300) =
      fun b t y => ((M b t).mulVec y + c b t, M b t) := by
    funext b t y
    refine Prod.ext ?_ ?_
    · funext i
      obtain rfl : i = 0 := Subsingleton.elim (α := Fin 1) i 0
      simp only [strainFunc, inelastic, perfect, Fin.cons_zero, Real.rpow_one, Pi.add_apply, Matrix.mulVec, dotProduct, M, c, Matrix.of_apply]
      rw [Fin.sum_univ_one]
      have h1 := sgn_mul_abs (y 0)
      linear_combination (-100 / 50) * h1
    · ext i j
      obtain rfl : i = 0 := Subsingleton.elim (α := Fin 1) i 0
      obtain rfl : j = 0 := Subsingleton.elim (α := Fin 1) j 0
      simp only [strainFunc, inelastic, perfect, Fin.cons_zero, sub_self, Real.rpow_zero, M, Matrix.of_apply]
      ring
  obtain ⟨res, h, -⟩ := C18_linear_integrate_exact (β := Bool) (m := 1)
    { scheme := .backwardEuler, method := .direct .thomas, rtol := 0, atol := 0, miter := 50, throwOnFail := true, guessType := "zero" }
    rfl rfl rfl (by norm_num) M c 0 4 (by norm_num) (fun k _ => k) 2 (by norm_num) (Or.inl rfl) (by
      intro k b hk
      rw [Matrix.det_fin_one]
      simp [M]
      norm_num)
  refine ⟨res, ?_⟩
  unfold solveStrain
  rw [e]
  exact h

/-- **C28.** With forward Euler the test lags: step `k → k + 1` uses the rate of the *previous* recorded increment, and the first step sees no strain rate at all. -/
theorem C28_strain_forward (c : Ode.Config) (hs : c.scheme = .forwardEuler) (hm : 0 ≤ c.miter) (hr : c.rtol = 0) (ha : c.atol = 0)
    {n : ℕ} (model : β → Model (n + 1)) (nt : ℕ) (times strains temps : ℕ → β → ℝ) (blk : ℤ) (hb : 0 < blk)
    (hg : ∀ b, StrictGrid (nt - 1) fun k => times k b) (res : Ode.Partial β (n + 1))
    (h : solveStrain c model nt times strains temps blk = .ok (res, false)) (k : ℕ) (b : β) (hk : k + 1 < nt)
    (E : ℝ → ℝ) (f : FlowRule n) (hmod : model b = inelastic E f) :
    let y := res.get
    let dt := times (k + 1) b - times k b
    let seen := if k = 0 then 0 else (strains k b - strains (k - 1) b) / (times k b - times (k - 1) b)
    y (k + 1) b 0 - y k b 0 = E (temps k b) * (dt * (seen -
      f.flow (y k b 0) (fun j => y k b j.succ) (times k b) (temps k b) seen)) := by
  intro y dt seen
  have hfe := exact_defect hm hr ha hb h k hk b
  rw [hs] at hfe
  simp only [Ode.defect, forwardDefect, Ode.rate] at hfe
  have h0 := congrFun hfe 0
  simp only [strainFunc, hmod, inelastic, Pi.sub_apply, Pi.smul_apply, smul_eq_mul, Fin.cons_zero, Pi.zero_apply] at h0
  rw [dataFn_grid (hg b) (fun k => temps k b) (k := k) (by omega) (by omega)] at h0
  have hrate : rateFn nt (fun k => times k b) (fun k => strains k b) (times k b) = seen := by
    unfold rateFn
    rw [interpFn_grid (times := fun k => times k b) (by omega) (hg b) _ (k := k) (by omega)]
    rfl
  rw [hrate] at h0
  simp only [y, dt]
  linarith

/-- **C28.** Stress control with backward Euler and exact strain rates (`C26_inelastic`): the recorded strain increments are `Δσ / E(T) + Δt · flow` at the recorded stress. -/
theorem C28_stress_backward {n : ℕ} (E : ℝ → ℝ) (f : FlowRule n) (nt : ℕ) (times stresses temps : ℕ → β → ℝ)
    (hg : ∀ b, StrictGrid (nt - 1) fun k => times k b) (hf : ∀ s h t T e, f.flow s h t T e = f.flow s h t T 0)
    (hE : ∀ T, E T ≠ 0) (rate : β → ℝ → (Fin (n + 1) → ℝ) → Fin (n + 1) → ℝ) (y : ℕ → β → Fin (n + 1) → ℝ)
    (hrate : ∀ b t z, ∃ e, rate b t z = (stressOut (inelastic E f) (dataFn nt (fun k => times k b) (fun k => stresses k b) t)
        (dataFn nt (fun k => times k b) (fun k => temps k b) t) t z e).1 ∧
      (inelastic E f t (Function.update z 0 (dataFn nt (fun k => times k b) (fun k => stresses k b) t)) e
        (dataFn nt (fun k => times k b) (fun k => temps k b) t)).ydot 0 = rateFn nt (fun k => times k b) (fun k => stresses k b) t)
    (hy : IsBackwardEuler rate nt times y) (k : ℕ) (b : β) (hk : k + 1 < nt) :
    y (k + 1) b 0 - y k b 0 = (stresses (k + 1) b - stresses k b) / E (temps (k + 1) b) +
      (times (k + 1) b - times k b) *
        f.flow (stresses (k + 1) b) (fun j => y (k + 1) b j.succ) (times (k + 1) b) (temps (k + 1) b) 0 := by
  have h0 := congrFun (hy k b hk) 0
  obtain ⟨e, h1, h2⟩ := hrate b (times (k + 1) b) (y (k + 1) b)
  rw [h1] at h0
  simp only [stressOut, Pi.add_apply, Pi.smul_apply, smul_eq_mul, Function.update_self] at h0
  have hd := dataFn_grid (hg b) (fun k => stresses k b) (k := k + 1) hk (by omega)
  have hT := dataFn_grid (hg b) (fun k => temps k b) (k := k + 1) hk (by omega)
  have hr := rateFn_grid (hg b) (fun k => stresses k b) hk
  rw [hd, hT] at h2
  simp only [inelastic, Fin.cons_zero, Function.update_self] at h2
  have hu : (fun j : Fin n => Function.update (y (k + 1) b) 0 (stresses (k + 1) b) j.succ) = fun j => y (k + 1) b j.succ := by
    funext j; rw [Function.update_of_ne (Fin.succ_ne_zero j)]
  rw [hu, hf] at h2
  rw [h0, ← hr, ← h2]
  have := hE (temps (k + 1) b)
  field_simp
  ring

end Pyoptmat.Props
