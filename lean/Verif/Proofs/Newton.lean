import Verif.Model.Newton
import Mathlib.Tactic

/-! Helper lemmas: the chunk Newton loop. -/

namespace Pyoptmat.Newton

variable {X Res Jac β : Type*}

/-- One Newton update. -/
def update (fn : X → Res × Jac) (solve : Jac → Res → X) (sub : X → X → X) (x : X) : X :=
  sub x (solve (fn x).2 (fn x).1)

theorem loop_spec (fn : X → Res × Jac) (solve : Jac → Res → X) (sub : X → X → X)
    (nrm : Res → β → Option ℝ) (rtol atol : ℝ) (nR0 : β → Option ℝ) (fuel : ℕ) (x : X) :
    (loop fn solve sub nrm rtol atol nR0 fuel x).2 ≤ fuel ∧
    (loop fn solve sub nrm rtol atol nR0 fuel x).1 =
      (update fn solve sub)^[(loop fn solve sub nrm rtol atol nR0 fuel x).2] x ∧
    (∀ j < (loop fn solve sub nrm rtol atol nR0 fuel x).2,
      notConverged (nrm (fn ((update fn solve sub)^[j] x)).1) nR0 rtol atol) ∧
    ((loop fn solve sub nrm rtol atol nR0 fuel x).2 < fuel →
      ¬ notConverged (nrm (fn (loop fn solve sub nrm rtol atol nR0 fuel x).1).1) nR0 rtol atol) := by
  induction fuel generalizing x with
  | zero => simp [loop]
  | succ fuel ih =>
    rw [loop]
    split_ifs with h
    · obtain ⟨h1, h2, h3, h4⟩ := ih (sub x (solve (fn x).2 (fn x).1))
      refine ⟨by simpa using h1, ?_, ?_, ?_⟩
      · simp only [Function.iterate_succ, Function.comp]
        exact h2
      · intro j hj
        cases j with
        | zero => simpa using h
        | succ j =>
          simp only [Function.iterate_succ, Function.comp]
          exact h3 j (by simpa using hj)
      · intro hlt
        exact h4 (by simpa using hlt)
    · exact ⟨by simp, by simp, by simp, fun _ => h⟩

theorem not_notConverged_some {nR nR0 : β → ℝ} {rtol atol : ℝ}
    (h : ¬ notConverged (fun b => some (nR b)) (fun b => some (nR0 b)) rtol atol) :
    (∀ b, nR b ≤ atol) ∨ ∀ b, nR b ≤ rtol * nR0 b := by
  unfold notConverged at h
  simp only [gtAtol, gtRtol] at h
  by_contra hc
  push Not at hc
  exact h ⟨hc.1, hc.2⟩

end Pyoptmat.Newton
