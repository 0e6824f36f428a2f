import Verif.Model.Integrator
import Verif.Props.Gradient

/-!
# Property C69, model integrators: the keyword arguments of `ModelIntegrator`
-/

namespace Pyoptmat.Props

open Pyoptmat.Chunktime Pyoptmat.Newton Pyoptmat.Spec Pyoptmat.Ode Pyoptmat.Control Pyoptmat.Material

variable {β : Type*} {m : ℕ}

/-- Specification: the option values a `ModelIntegrator` accepts. The keyword `adjoint_params` is the one a user may
give only without the adjoint. -/
def AcceptedOptions (i : Integrator) : Prop :=
  (i.method = "backward-euler" ∨ i.method = "forward-euler") ∧
  (∀ k ∈ i.kw, k ∈ ["block_size", "rtol", "atol", "miter", "linear_solve_method", "direct_solve_method",
    "direct_solve_min_size", "guess_type", "throw_on_fail"] ∨ (k = "adjoint_params" ∧ i.useAdjoint = false)) ∧
  (i.opts.linear = "dense" ∨ i.opts.linear = "direct") ∧
  (i.opts.direct = "thomas" ∨ i.opts.direct = "pcr" ∨ i.opts.direct = "hybrid")

/-- Specification: the solver the options describe. -/
structure SolverOf (i : Integrator) (c : Config) : Prop where
  scheme : c.scheme = if i.method = "backward-euler" then .backwardEuler else .forwardEuler
  method : c.method = if i.opts.linear = "dense" then .dense else
    .direct (if i.opts.direct = "thomas" then .thomas else if i.opts.direct = "pcr" then .pcr else .hybrid i.opts.minSize)
  rtol : c.rtol = i.opts.rtol
  atol : c.atol = i.opts.atol
  miter : c.miter = i.opts.miter
  throws : c.throwOnFail = i.opts.throwOnFail
  guess : c.guessType = i.opts.guess

private theorem method_of {l d : String} {k : ℤ} {r : SolveMethod} (hl : l = "dense" ∨ l = "direct")
    (hd : d = "thomas" ∨ d = "pcr" ∨ d = "hybrid") (h : solveMethodOfStrings l d k = .ok r) :
    r = if l = "dense" then .dense else
      .direct (if d = "thomas" then .thomas else if d = "pcr" then .pcr else .hybrid k) := by
  obtain ⟨-, -, h1, h2, h3, h4⟩ := C69_solver_strings_select k
  rcases hl with rfl | rfl
  · rw [h1 d hd] at h
    simpa using h.symm
  · rcases hd with rfl | rfl | rfl
    · rw [h2] at h; simpa using h.symm
    · rw [h3] at h; simpa using h.symm
    · rw [h4] at h; simpa using h.symm

private theorem run_eq (i : Integrator) (f : BFunc β m) (nt : ℕ) (times : ℕ → β → ℝ) :
    i.run f nt times = match makeSolver i.method
        (if i.useAdjoint then ["func", "y0", "scheme", "adjoint_params"] else ["func", "y0", "scheme"]) i.kw i.opts with
      | .error e => .error e
      | .ok c => integrate c f 0 nt times i.opts.blockSize := by
  unfold Integrator.run odeintAdjoint odeint
  by_cases h : i.useAdjoint = true
  · simp only [h, if_true]
    cases makeSolver i.method ["func", "y0", "scheme", "adjoint_params"] i.kw i.opts <;> rfl
  · simp only [h, Bool.false_eq_true, if_false]
    cases makeSolver i.method ["func", "y0", "scheme"] i.kw i.opts <;> rfl

private theorem keyword_iff (a : Bool) (k : String) :
    ((["func", "y0", "scheme", "adjoint_params"].contains k = false ∨ (a = false ∧ ["func", "y0", "scheme"].contains k = false)) ∧
      solverKeywords.contains k = true) ↔
    (k ∈ ["block_size", "rtol", "atol", "miter", "linear_solve_method", "direct_solve_method",
    "direct_solve_min_size", "guess_type", "throw_on_fail"] ∨ (k = "adjoint_params" ∧ a = false)) := by
  unfold solverKeywords
  simp only [List.contains_eq_mem, List.mem_cons, List.not_mem_nil, or_false, decide_eq_true_eq, decide_eq_false_iff_not]
  constructor
  · rintro ⟨h1, h2⟩
    rcases h2 with rfl | rfl | rfl | rfl | rfl | rfl | rfl | rfl | rfl | rfl | rfl | rfl | rfl <;> simp at h1 ⊢
    exact h1
  · rintro ((rfl | rfl | rfl | rfl | rfl | rfl | rfl | rfl | rfl) | ⟨rfl, rfl⟩) <;> simp

private theorem make_ok (i : Integrator) (h : AcceptedOptions i) : ∃ c, SolverOf i c ∧ makeSolver i.method
    (if i.useAdjoint then ["func", "y0", "scheme", "adjoint_params"] else ["func", "y0", "scheme"]) i.kw i.opts = .ok c := by
  obtain ⟨hm, hk, hl, hd⟩ := h
  obtain ⟨s, hs, hs'⟩ : ∃ s, intMethods i.method = .ok s ∧
      s = (if i.method = "backward-euler" then .backwardEuler else .forwardEuler) := by
    rcases hm with h | h <;> rw [h]
    · exact ⟨.backwardEuler, rfl, rfl⟩
    · exact ⟨.forwardEuler, rfl, rfl⟩
  obtain ⟨r, hr⟩ := ((C69_solver_strings i.opts.minSize).2.2 i.opts.linear i.opts.direct).2 ⟨hl, hd⟩
  have h1 : i.kw.any (fun k => (if i.useAdjoint then ["func", "y0", "scheme", "adjoint_params"]
      else ["func", "y0", "scheme"]).contains k) = false := by
    rw [List.any_eq_false]
    intro k hk1
    rw [Bool.not_eq_true]
    have := ((keyword_iff i.useAdjoint k).2 (hk k hk1)).1
    rcases this with this | ⟨h0, this⟩
    · by_cases ha : i.useAdjoint = true
      · simpa only [ha, if_true] using this
      · simp only [ha, Bool.false_eq_true, if_false]
        simp only [List.contains_eq_mem, List.mem_cons, List.not_mem_nil, or_false, decide_eq_false_iff_not] at this ⊢
        tauto
    · simpa only [h0, Bool.false_eq_true, if_false] using this
  have h2 : i.kw.any (fun k => !solverKeywords.contains k) = false := by
    rw [List.any_eq_false]
    intro k hk1
    have := ((keyword_iff i.useAdjoint k).2 (hk k hk1)).2
    rw [this]
    simp
  refine ⟨{ scheme := s, method := r, rtol := i.opts.rtol, atol := i.opts.atol, miter := i.opts.miter, throwOnFail := i.opts.throwOnFail, guessType := i.opts.guess }, ⟨hs', method_of hl hd hr, rfl, rfl, rfl, rfl, rfl⟩, ?_⟩
  unfold makeSolver
  rw [hs]
  simp only
  rw [h1, h2, hr]
  simp

private theorem make_error (i : Integrator) (h : ¬ AcceptedOptions i) : ∃ e, makeSolver i.method
    (if i.useAdjoint then ["func", "y0", "scheme", "adjoint_params"] else ["func", "y0", "scheme"]) i.kw i.opts = .error e := by
  have hT : ∀ k, (if i.useAdjoint then ["func", "y0", "scheme", "adjoint_params"] else ["func", "y0", "scheme"]).contains k = false →
      ["func", "y0", "scheme", "adjoint_params"].contains k = false ∨
        (i.useAdjoint = false ∧ ["func", "y0", "scheme"].contains k = false) := by
    intro k hk
    by_cases ha : i.useAdjoint = true
    · simp only [ha, if_true] at hk; exact Or.inl hk
    · simp only [ha, Bool.false_eq_true, if_false] at hk; exact Or.inr ⟨by simpa using ha, hk⟩
  generalize (if i.useAdjoint then ["func", "y0", "scheme", "adjoint_params"] else ["func", "y0", "scheme"]) = T at hT ⊢
  cases hmk : makeSolver i.method T i.kw i.opts with
  | error e => exact ⟨e, rfl⟩
  | ok c =>
    exfalso
    apply h
    unfold makeSolver at hmk
    cases hs : intMethods i.method with
    | error e => rw [hs] at hmk; simp at hmk
    | ok s =>
      rw [hs] at hmk
      simp only at hmk
      split_ifs at hmk with h0 h1
      cases hr : solveMethodOfStrings i.opts.linear i.opts.direct i.opts.minSize with
      | error e => rw [hr] at hmk; simp at hmk
      | ok r =>
        have hld := ((C69_solver_strings i.opts.minSize).2.2 i.opts.linear i.opts.direct).1 ⟨r, hr⟩
        refine ⟨((C69_solver_strings i.opts.minSize).1 i.method).1 ⟨s, hs⟩, fun k hk => ?_, hld.1, hld.2⟩
        rw [Bool.not_eq_true, List.any_eq_false] at h0 h1
        apply (keyword_iff i.useAdjoint k).1
        exact ⟨hT k (by simpa using h0 k hk), by simpa using h1 k hk⟩

/-- **C69 (model integrators).** A `ModelIntegrator` with an unknown method, an unknown keyword or an unknown solver name refuses every
strain controlled, stress controlled and mixed batch; with known ones every call is the integration from the zero
state with the solver the options describe and the given block size. -/
theorem C69_model_integrators (i : Integrator) :
    (AcceptedOptions i → ∃ c, SolverOf i c ∧
      (∀ (model : β → Model m) nt times strains temps,
        i.strain model nt times strains temps = solveStrain c model nt times strains temps i.opts.blockSize) ∧
      (∀ (model : β → Model (m + 1)) nt times stresses temps,
        i.stress model nt times stresses temps = solveStress c model nt times stresses temps i.opts.blockSize) ∧
      (∀ (model : β → Model (m + 1)) nt times temps idata control,
        i.both model nt times temps idata control = solveBoth c model nt times temps idata control i.opts.blockSize)) ∧
    (¬ AcceptedOptions i →
      (∀ (model : β → Model m) nt times strains temps, ∃ e, i.strain model nt times strains temps = .error e) ∧
      (∀ (model : β → Model (m + 1)) nt times stresses temps, ∃ e, i.stress model nt times stresses temps = .error e) ∧
      (∀ (model : β → Model (m + 1)) nt times temps idata control,
        ∃ e, i.both model nt times temps idata control = .error e)) := by
  constructor
  · intro h
    obtain ⟨c, hc, hmk⟩ := make_ok i h
    refine ⟨c, hc, ?_, ?_, ?_⟩
    · intros
      rw [Integrator.strain, run_eq, hmk]; rfl
    · intros
      rw [Integrator.stress, run_eq, hmk]; rfl
    · intros
      rw [Integrator.both, run_eq, hmk]; rfl
  · intro h
    obtain ⟨e, hmk⟩ := make_error i h
    refine ⟨?_, ?_, ?_⟩
    · intros
      rw [Integrator.strain, run_eq, hmk]; exact ⟨e, rfl⟩
    · intros
      rw [Integrator.stress, run_eq, hmk]; exact ⟨e, rfl⟩
    · intros
      rw [Integrator.both, run_eq, hmk]; exact ⟨e, rfl⟩

/-- **C69 (model integrators).** Choosing the adjoint or not never changes the simulated values, warnings or errors, as long as the
keyword `adjoint_params` is not given. -/
theorem C69_use_adjoint (i : Integrator) (hkw : "adjoint_params" ∉ i.kw) (a : Bool) :
    (∀ (model : β → Model m) nt times strains temps,
      ({ i with useAdjoint := a } : Integrator).strain model nt times strains temps = i.strain model nt times strains temps) ∧
    (∀ (model : β → Model (m + 1)) nt times stresses temps,
      ({ i with useAdjoint := a } : Integrator).stress model nt times stresses temps = i.stress model nt times stresses temps) ∧
    (∀ (model : β → Model (m + 1)) nt times temps idata control,
      ({ i with useAdjoint := a } : Integrator).both model nt times temps idata control =
        i.both model nt times temps idata control) := by
  have key : ∀ {n : ℕ} (f : BFunc β n) nt times,
      ({ i with useAdjoint := a } : Integrator).run f nt times = i.run f nt times := by
    intro n f nt times
    have h := (C85_same_values f 0 nt times i.method ([] : List Unit) [] i.kw i.opts hkw).1
    unfold Integrator.run
    simp only [h, ite_self]
  exact ⟨fun _ _ _ _ _ => key _ _ _, fun _ _ _ _ _ => key _ _ _, fun _ _ _ _ _ _ => key _ _ _⟩

/-- **C69 (model integrators).** `ModelIntegrator(model)` without any keyword: backward Euler, block size 1, the Thomas factorization, relative
tolerance `1e-6`, absolute tolerance `1e-8`, at most 100 updates, zero initial guess, a warning instead of an
exception. -/
theorem C69_defaults (model : β → Model m) (nt : ℕ) (times strains temps : ℕ → β → ℝ) :
    Integrator.strain {} model nt times strains temps =
      solveStrain { scheme := .backwardEuler, method := .direct .thomas, rtol := 1e-6, atol := 1e-8, miter := 100, throwOnFail := false, guessType := "zero" } model nt times strains temps 1 := by
  obtain ⟨c, hc, hmk⟩ := make_ok ({} : Integrator) (by simp [AcceptedOptions])
  have : c = { scheme := .backwardEuler, method := .direct .thomas, rtol := 1e-6, atol := 1e-8, miter := 100, throwOnFail := false, guessType := "zero" } := by
    obtain ⟨h1, h2, h3, h4, h5, h6, h7⟩ := hc
    cases c
    simp only [if_true] at h1 h2 h3 h4 h5 h6 h7
    subst h1 h2 h3 h4 h5 h6 h7
    rfl
  rw [Integrator.strain, run_eq, hmk, this]
  rfl

/-- Both cases occur: the defaults, a pcr solver with its keywords, and a misspelt keyword, an unknown
method, the `adjoint_params` keyword with and without the adjoint. -/
example : AcceptedOptions {} ∧
    AcceptedOptions { kw := ["direct_solve_method", "block_size"], opts := { direct := "pcr", blockSize := 10 } } ∧
    ¬ AcceptedOptions { kw := ["blocksize"] } ∧ ¬ AcceptedOptions { method := "rk4" } ∧
    ¬ AcceptedOptions { kw := ["adjoint_params"] } ∧ AcceptedOptions { kw := ["adjoint_params"], useAdjoint := false } := by
  refine ⟨?_, ?_, ?_, ?_, ?_, ?_⟩ <;> simp [AcceptedOptions]

end Pyoptmat.Props
