import Verif.Proofs.Reindex
import Verif.Model.Integrator
import Mathlib.Logic.Equiv.Basic

/-!
# C120: the order of the tests in a batch does not matter, nor does repeating tests
-/

namespace Pyoptmat.Props

open Pyoptmat.Chunktime Pyoptmat.Ode Pyoptmat.Control Pyoptmat.Material Pyoptmat.Spec Pyoptmat.Reindex

variable {β β' : Type*} {m : ℕ}

/-- **C120.** Integrating the same tests in another arrangement (test `b` of the new batch is a copy of test `e b`; every old test occurs) gives exactly
the same histories, the same warnings and the same errors, for every right hand side, configuration, grid and block size. -/
theorem C120_integrate {e : β' → β} (he : Function.Surjective e) {F : BFunc β m} {F' : BFunc β' m} (hF : SameTests e F F') (cfg : Config)
    (y0 : BVec β m ℝ) (nt : ℕ) (t : ℕ → β → ℝ) (q : ℤ) :
    integrate cfg F' (fun b => y0 (e b)) nt (fun k b => t k (e b)) q =
      (integrate cfg F y0 nt t q).map fun r => (fun j => (r.1 j).map fun x b => x (e b), r.2) :=
  integrate_pull he hF cfg y0 nt t q

/-- **C120.** In particular for right hand sides that treat every test on its own. -/
theorem C120_func {e : β' → β} (he : Function.Surjective e) (f : Func β m) (cfg : Config) (y0 : BVec β m ℝ) (nt : ℕ) (t : ℕ → β → ℝ) (q : ℤ) :
    integrate cfg (Func.lift fun b => f (e b)) (fun b => y0 (e b)) nt (fun k b => t k (e b)) q =
      (integrate cfg (Func.lift f) y0 nt t q).map fun r => (fun j => (r.1 j).map fun x b => x (e b), r.2) :=
  integrate_pull he (fun _ _ _ => rfl) cfg y0 nt t q

/-- `imethod(…)` of a `ModelIntegrator` for the new arrangement, whatever its keyword arguments. -/
theorem run_pull {e : β' → β} (he : Function.Surjective e) {F : BFunc β m} {F' : BFunc β' m} (hF : SameTests e F F') (i : Integrator) (nt : ℕ)
    (times : ℕ → β → ℝ) :
    i.run F' nt (fun k b => times k (e b)) = (i.run F nt times).map fun r => (fun j => (r.1 j).map fun x b => x (e b), r.2) := by
  have h := fun c => integrate_pull he hF c 0 nt times i.opts.blockSize
  unfold Integrator.run odeint odeintAdjoint
  cases i.useAdjoint with
  | true =>
    simp only [if_true]
    cases makeSolver i.method ["func", "y0", "scheme", "adjoint_params"] i.kw i.opts with
    | error e => rfl
    | ok c => exact h c
  | false =>
    simp only [Bool.false_eq_true, if_false]
    cases makeSolver i.method ["func", "y0", "scheme"] i.kw i.opts with
    | error e => rfl
    | ok c => exact h c

/-- **C120.** `solve_strain`, `solve_stress` and `solve_both` of a `ModelIntegrator` with any keyword arguments: the tests (their material
parameters, times, data, temperatures and control labels) in another arrangement give the results in that arrangement, exactly. Under stress control
this is not immediate: all tests (and times of a block) share one Newton solve for the strain rates. -/
theorem C120_model_integrator {e : β' → β} (he : Function.Surjective e) (i : Integrator) (model : β → Model (m + 1)) (nt : ℕ)
    (times data temps : ℕ → β → ℝ) (control : β → ℝ) :
    i.strain (fun b => model (e b)) nt (fun k b => times k (e b)) (fun k b => data k (e b)) (fun k b => temps k (e b)) =
        (i.strain model nt times data temps).map (fun r => (fun j => (r.1 j).map fun x b => x (e b), r.2)) ∧
    i.stress (fun b => model (e b)) nt (fun k b => times k (e b)) (fun k b => data k (e b)) (fun k b => temps k (e b)) =
        (i.stress model nt times data temps).map (fun r => (fun j => (r.1 j).map fun x b => x (e b), r.2)) ∧
    i.both (fun b => model (e b)) nt (fun k b => times k (e b)) (fun k b => temps k (e b)) (fun k b => data k (e b)) (fun b => control (e b)) =
        (i.both model nt times temps data control).map (fun r => (fun j => (r.1 j).map fun x b => x (e b), r.2)) :=
  ⟨run_pull he (strainFunc_pull model nt times data temps) i nt times, run_pull he (stressFunc_pull he model nt times data temps) i nt times,
    run_pull he (bothFunc_pull he model nt times data temps control) i nt times⟩

/-- **C120.** A batch of copies of one test gives that test's history, in every copy. -/
theorem C120_copies [Nonempty β] (i : Integrator) (model : Model (m + 1)) (nt : ℕ) (times data temps : ℕ → ℝ) (control : ℝ) :
    i.both (fun _ : β => model) nt (fun k _ => times k) (fun k _ => temps k) (fun k _ => data k) (fun _ => control) =
      (i.both (fun _ : Unit => model) nt (fun k _ => times k) (fun k _ => temps k) (fun k _ => data k) (fun _ => control)).map
        (fun r => (fun j => (r.1 j).map fun x _ => x (), r.2)) :=
  (C120_model_integrator (e := fun _ : β => ()) (fun _ => ⟨Classical.arbitrary β, rfl⟩) i (fun _ => model) nt (fun k _ => times k)
    (fun k _ => data k) (fun k _ => temps k) fun _ => control).2.2

/-- **C120.** The adjoint pass over a batch returns the sum of the parameter gradients, and side by side the initial state gradients, of the adjoint
passes over each of its tests alone; it fails exactly when each of them does. No hypothesis: it holds also for singular or wrong Jacobians and for any
states. -/
theorem C120_gradient_sum [Fintype β] (s : Scheme) (d : Direct) (f : Func β m) {p : ℕ}
    (fp : β → ℝ → (Fin m → ℝ) → Matrix (Fin m) (Fin p) ℝ) (nt : ℕ) (t : ℕ → β → ℝ) (y g : ℕ → BVec β m ℝ) (q : ℤ) :
    (∃ err, rewind s d f fp nt t y g q = .error err ∧
      ∀ b, rewind s d (fun _ : Unit => f b) (fun _ => fp b) nt (fun k _ => t k b) (fun k _ => y k b) (fun k _ => g k b) q = .error err) ∨
    ∃ (G : β → Fin p → ℝ) (L : β → Fin m → ℝ), rewind s d f fp nt t y g q = .ok (∑ b, G b, L) ∧
      ∀ b, rewind s d (fun _ : Unit => f b) (fun _ => fp b) nt (fun k _ => t k b) (fun k _ => y k b) (fun k _ => g k b) q =
        .ok (G b, fun _ => L b) := by
  unfold rewind
  cases blockStarts nt q with
  | error err => exact .inl ⟨err, rfl, fun _ => rfl⟩
  | ok starts =>
    have h := rewind_fold s d f fp nt q.toNat (flipRows nt t) (flipRows nt y) (flipRows nt g) starts
      (fun b => (0, fun _ => flipRows nt g 0 b))
    let one : β → (Fin p → ℝ) × BVec Unit m ℝ := fun b =>
      starts.foldl (rewindStep s d (fun _ => f b) (fun _ => fp b) nt q.toNat (alone b (flipRows nt t)) (alone b (flipRows nt y))
        (alone b (flipRows nt g))) (0, fun _ => flipRows nt g 0 b)
    refine .inr ⟨fun b => (one b).1, fun b => (one b).2 (), ?_, fun b => ?_⟩
    · rw [show (∑ b : β, ((0 : Fin p → ℝ), fun _ : Unit => flipRows nt g 0 b).1) = 0 from Finset.sum_const_zero] at h
      exact congrArg Except.ok h
    · rfl

/-- **C120.** Hence reordering a batch does not change the parameter gradient and reorders the initial state gradients. -/
theorem C120_gradient_order [Fintype β] [Fintype β'] (e : β' ≃ β) (s : Scheme) (d : Direct) (f : Func β m) {p : ℕ}
    (fp : β → ℝ → (Fin m → ℝ) → Matrix (Fin m) (Fin p) ℝ) (nt : ℕ) (t : ℕ → β → ℝ) (y g : ℕ → BVec β m ℝ) (q : ℤ) :
    rewind s d (fun b => f (e b)) (fun b => fp (e b)) nt (fun k b => t k (e b)) (fun k b => y k (e b)) (fun k b => g k (e b)) q =
      (rewind s d f fp nt t y g q).map fun r => (r.1, fun b => r.2 (e b)) := by
  rcases C120_gradient_sum s d f fp nt t y g q with ⟨err, h, hb⟩ | ⟨G, L, h, hb⟩ <;>
    rcases C120_gradient_sum s d (fun b => f (e b)) (fun b => fp (e b)) nt (fun k b => t k (e b)) (fun k b => y k (e b))
      (fun k b => g k (e b)) q with ⟨err', h', hb'⟩ | ⟨G', L', h', hb'⟩
  · unfold rewind at h h' ⊢
    cases hs : blockStarts nt q with
    | error x => rfl
    | ok x => rw [hs] at h; cases h
  · unfold rewind at h h'
    cases hs : blockStarts nt q with
    | error x => rw [hs] at h'; cases h'
    | ok x => rw [hs] at h; cases h
  · unfold rewind at h h'
    cases hs : blockStarts nt q with
    | error x => rw [hs] at h; cases h
    | ok x => rw [hs] at h'; cases h'
  · rw [h, h']
    have hG : ∀ b, G' b = G (e b) ∧ L' b = L (e b) := fun b => by
      have h1 := (hb' b).symm.trans (hb (e b))
      obtain ⟨h2, h3⟩ := Prod.mk.inj (Except.ok.inj h1)
      exact ⟨h2, congrFun h3 ()⟩
    rw [show G' = fun b => G (e b) from funext fun b => (hG b).1, show L' = fun b => L (e b) from funext fun b => (hG b).2,
      Equiv.sum_comp e G]
    rfl

/-- **C120.** Repeating every test of a batch `N` times multiplies the parameter gradient by `N`. -/
theorem C120_gradient_repeat [Fintype β] (N : ℕ) (s : Scheme) (d : Direct) (f : Func β m) {p : ℕ}
    (fp : β → ℝ → (Fin m → ℝ) → Matrix (Fin m) (Fin p) ℝ) (nt : ℕ) (t : ℕ → β → ℝ) (y g : ℕ → BVec β m ℝ) (q : ℤ) :
    rewind s d (fun b : Fin N × β => f b.2) (fun b => fp b.2) nt (fun k b => t k b.2) (fun k b => y k b.2) (fun k b => g k b.2) q =
      (rewind s d f fp nt t y g q).map fun r => ((N : ℝ) • r.1, fun b => r.2 b.2) := by
  rcases C120_gradient_sum s d f fp nt t y g q with ⟨err, h, hb⟩ | ⟨G, L, h, hb⟩ <;>
    rcases C120_gradient_sum s d (fun b : Fin N × β => f b.2) (fun b => fp b.2) nt (fun k b => t k b.2) (fun k b => y k b.2)
      (fun k b => g k b.2) q with ⟨err', h', hb'⟩ | ⟨G', L', h', hb'⟩
  · unfold rewind at h h' ⊢
    cases hs : blockStarts nt q with
    | error x => rfl
    | ok x => rw [hs] at h; cases h
  · unfold rewind at h h'
    cases hs : blockStarts nt q with
    | error x => rw [hs] at h'; cases h'
    | ok x => rw [hs] at h; cases h
  · unfold rewind at h h'
    cases hs : blockStarts nt q with
    | error x => rw [hs] at h; cases h
    | ok x => rw [hs] at h'; cases h'
  · rw [h, h']
    have hG : ∀ b, G' b = G b.2 ∧ L' b = L b.2 := fun b => by
      have h1 := (hb' b).symm.trans (hb b.2)
      obtain ⟨h2, h3⟩ := Prod.mk.inj (Except.ok.inj h1)
      exact ⟨h2, congrFun h3 ()⟩
    rw [show G' = fun b => G b.2 from funext fun b => (hG b).1, show L' = fun b => L b.2 from funext fun b => (hG b).2]
    rw [Fintype.sum_prod_type]
    simp only [Finset.sum_const, Finset.card_univ, Fintype.card_fin]
    simp only [Except.map]
    rw [← Nat.cast_smul_eq_nsmul ℝ]

/-- Three tests in reverse order, and two tests of which the first is listed twice. -/
example (i : Integrator) (model : Fin 3 → Model (m + 1)) (nt : ℕ) (times data temps : ℕ → Fin 3 → ℝ) :
    i.stress (fun b => model (Fin.rev b)) nt (fun k b => times k (Fin.rev b)) (fun k b => data k (Fin.rev b)) (fun k b => temps k (Fin.rev b)) =
      (i.stress model nt times data temps).map (fun r => (fun j => (r.1 j).map fun x b => x (Fin.rev b), r.2)) :=
  (C120_model_integrator (e := Fin.rev) Fin.rev_surjective i model nt times data temps fun _ => 0).2.1

example (i : Integrator) (model : Bool → Model (m + 1)) (nt : ℕ) (times data temps : ℕ → Bool → ℝ) :
    i.stress (fun b : Fin 3 => model (b == 2)) nt (fun k b => times k (b == 2)) (fun k b => data k (b == 2)) (fun k b => temps k (b == 2)) =
      (i.stress model nt times data temps).map (fun r => (fun j => (r.1 j).map fun x b => x (b == 2), r.2)) :=
  (C120_model_integrator (e := fun b : Fin 3 => b == 2) (fun c => by cases c <;> [exact ⟨0, rfl⟩; exact ⟨2, rfl⟩]) i model nt times data temps
    fun _ => 0).2.1

end Pyoptmat.Props
