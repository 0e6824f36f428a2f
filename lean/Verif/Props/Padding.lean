import Verif.Proofs.Padding
import Verif.Props.Integrate

/-!
# Property C104: tables with repeated rows (tests padded to a common length)
-/

namespace Pyoptmat.Props

open Pyoptmat Pyoptmat.Spec Pyoptmat.Control Pyoptmat.Material Pyoptmat.Ode Pyoptmat.Chunktime

variable {β : Type*} {m : ℕ}

/-- **C104.** The interval an interpolator selects always has positive length if the first one has, wherever rows are repeated: the quotients `0 / 0` of the
repeated rows are computed but never used. -/
theorem C104_never_divides_by_zero (times : ℕ → ℝ) (h0 : times 0 < times 1) (t : ℝ) (j : ℕ) (h : Interp.loc times t j) : times j < times (j + 1) := by
  rcases h with ⟨a, b⟩ | ⟨rfl, _⟩
  · linarith
  · exact h0

/-- Without a first interval of positive length it fails: the quotient of an empty interval is what the first time gets. -/
example : Interp.loc (fun _ => 1) 1 0 ∧ ¬ ((fun _ => 1 : ℕ → ℝ) 0 < (fun _ => 1 : ℕ → ℝ) (0 + 1)) := ⟨Or.inr ⟨rfl, rfl⟩, by simp⟩

/-- **C104.** A batch of `nb` tables of different lengths `N b`, padded to the same length by repeating rows: in range queries give the heights of each entry's own, unpadded,
polyline. -/
theorem C104_interpolate (nb q n : ℕ) (N : ℕ → ℕ) (σ : ℕ → ℕ → ℕ) (times vals t : ℕ → ℕ → ℝ) (hp : ∀ b < nb, Padding (σ b) n (N b))
    (hg : ∀ b < nb, StrictGrid (N b) fun j => times j b) (h0 : ∀ b < nb, ∀ k < q, times 0 b ≤ t k b) (h1 : ∀ b < nb, ∀ k < q, t k b ≤ times (N b) b) :
    ∃ r, Interp.arbitrary2d nb q n (fun j b => times (σ b j) b) (fun j b => vals (σ b j) b) t = .ok r ∧
      ∀ b < nb, ∀ k < q, OnPolyline (N b) (fun j => times j b) (fun j => vals j b) (t k b) (r k b) := by
  have key : ∀ b < nb, ∀ k < q, Interp.hits n (fun j => times (σ b j) b) (fun j => vals (σ b j) b) (t k b) =
      [Interp.interpFn (N b) (fun j => times j b) (fun j => vals j b) (t k b)] := by
    intro b hb k hk
    obtain ⟨v, e1, e2, -⟩ := Interp.hits_in_range (hp b hb).pos (hg b hb) (fun j => vals j b) (h0 b hb k hk) (h1 b hb k hk)
    rw [Interp.hits_padded (hp b hb) (fun j => times j b) (fun j => vals j b), e1, e2]
  obtain ⟨hl, hv⟩ := Interp.flat_in_range nb q n (fun j b => times (σ b j) b) (fun j b => vals (σ b j) b) t
    (fun k b => Interp.interpFn (N b) (fun j => times j b) (fun j => vals j b) (t k b)) key
  refine ⟨_, by unfold Interp.arbitrary2d; rw [if_pos hl], fun b hb k hk => ?_⟩
  rw [hv b hb k hk]
  obtain ⟨v, -, e2, e3⟩ := Interp.hits_in_range (hp b hb).pos (hg b hb) (fun j => vals j b) (h0 b hb k hk) (h1 b hb k hk)
  rw [e2]
  exact e3

/-- **C104.** What the control modes get to see of a padded table: at every time the same data and temperatures, at every recorded time the same rates. -/
theorem C104_control {σ : ℕ → ℕ} {n N : ℕ} (hp : Padding σ n N) (times data : ℕ → ℝ) (hg : StrictGrid N times) :
    (∀ t, dataFn (n + 1) (fun j => times (σ j)) (fun j => data (σ j)) t = dataFn (N + 1) times data t) ∧
    (∀ k ≤ n, dataFn (n + 1) (fun j => times (σ j)) (fun j => data (σ j)) (times (σ k)) = data (σ k)) ∧
    ∀ k ≤ n, rateFn (n + 1) (fun j => times (σ j)) (fun j => data (σ j)) (times (σ k)) =
      if σ k = 0 then 0 else (data (σ k) - data (σ k - 1)) / (times (σ k) - times (σ k - 1)) := by
  refine ⟨dataFn_padded hp times data, fun k hk => ?_, fun k hk => ?_⟩
  · rw [dataFn_padded hp]
    exact dataFn_grid (nt := N + 1) hg data (by have := hp.le_last hk; omega) (by have := hp.pos; omega)
  · rw [rateFn_padded hp hg data hk]
    unfold rateFn
    rw [Nat.add_sub_cancel, interpFn_grid hp.pos hg _ (hp.le_last hk)]
    rfl

private theorem const_on_groups {σ : ℕ → ℕ} {n N : ℕ} (hp : Padding σ n N) {α : Type*} (y : ℕ → α) (hy : ∀ k < n, σ (k + 1) = σ k → y (k + 1) = y k) :
    ∃ z : ℕ → α, ∀ k ≤ n, y k = z (σ k) := by
  have key : ∀ j ≤ n, ∀ i ≤ j, σ i = σ j → y i = y j := by
    intro j
    induction j with
    | zero => intro _ i hi _; rw [show i = 0 by omega]
    | succ j ih =>
      intro hj i hi e
      rcases Nat.lt_or_ge j i with h | h
      · rw [show i = j + 1 by omega]
      · have h1 := hp.le_of_le (i := i) (j := j) h (by omega)
        have h2 := hp.le_of_le (i := j) (j := j + 1) (by omega) hj
        rw [ih (by omega) i h (by omega), hy j (by omega) (by omega)]
  classical
  have hex : ∀ i ≤ N, ∃ k ≤ n, σ k = i := fun i hi => hp.surj hi
  refine ⟨fun i => if h : i ≤ N then y (hex i h).choose else y 0, fun k hk => ?_⟩
  have hN := hp.le_last hk
  beta_reduce
  rw [dif_pos hN]
  obtain ⟨c1, c2⟩ := (hex (σ k) hN).choose_spec
  rcases Nat.le_total k (hex (σ k) hN).choose with h | h
  · exact key _ c1 k h c2.symm
  · exact (key k hk _ h c2).symm

/-- **C104.** A trajectory solves the padded backward (forward) Euler equations iff each test's rows are those of a solution of its own, unpadded, equations, repeated like
the rows of the table; `rate'` and `rate` need to agree at the recorded times only. -/
theorem C104_trajectories (n : ℕ) (N : β → ℕ) (σ : β → ℕ → ℕ) (hp : ∀ b, Padding (σ b) n (N b)) (times : ℕ → β → ℝ)
    (rate' rate : β → ℝ → (Fin m → ℝ) → Fin m → ℝ) (hr : ∀ b, ∀ i ≤ N b, ∀ y, rate' b (times i b) y = rate b (times i b) y) (y : ℕ → β → Fin m → ℝ) :
    (IsBackwardEuler rate' (n + 1) (fun k b => times (σ b k) b) y ↔ ∀ b, ∃ z : ℕ → Fin m → ℝ,
      IsBackwardEuler (fun _ : Unit => rate b) (N b + 1) (fun k _ => times k b) (fun k _ => z k) ∧ ∀ k ≤ n, y k b = z (σ b k)) ∧
    (IsForwardEuler rate' (n + 1) (fun k b => times (σ b k) b) y ↔ ∀ b, ∃ z : ℕ → Fin m → ℝ,
      IsForwardEuler (fun _ : Unit => rate b) (N b + 1) (fun k _ => times k b) (fun k _ => z k) ∧ ∀ k ≤ n, y k b = z (σ b k)) := by
  have first : ∀ b, ∀ i < N b, ∃ k < n, σ b k = i ∧ σ b (k + 1) = i + 1 := by
    intro b i hi
    obtain ⟨k, hk, e⟩ := (hp b).surj (i := i + 1) (by omega)
    obtain ⟨j, h1, h2, h3⟩ := (hp b).exists_first hk (by omega)
    exact ⟨j, by omega, by omega, by omega⟩
  constructor
  · constructor
    · intro h b
      obtain ⟨z, hz⟩ := const_on_groups (hp b) (fun k => y k b) (fun k hk e => by
        have := h k b (by omega)
        beta_reduce at this
        rw [e, sub_self, zero_smul, add_zero] at this
        exact this)
      refine ⟨z, fun i _ hi => ?_, hz⟩
      obtain ⟨k, hk, e1, e2⟩ := first b i (by omega)
      have := h k b (by omega)
      beta_reduce at this
      have z1 := hz (k + 1) (by omega)
      have z0 := hz k (by omega)
      beta_reduce at z0 z1
      rw [z1, z0, e2, e1, hr b (i + 1) (by omega)] at this
      exact this
    · intro h k b hk
      obtain ⟨z, hz, hy⟩ := h b
      rw [hy (k + 1) (by omega), hy k (by omega)]
      beta_reduce
      rcases (hp b).step k (by omega) with e | e
      · rw [e, sub_self, zero_smul, add_zero]
      · have hN := (hp b).le_last (j := k + 1) (by omega)
        rw [e, hr b _ (by omega)]
        exact hz (σ b k) () (by omega)
  · constructor
    · intro h b
      obtain ⟨z, hz⟩ := const_on_groups (hp b) (fun k => y k b) (fun k hk e => by
        have := h k b (by omega)
        beta_reduce at this
        rw [e, sub_self, zero_smul, add_zero] at this
        exact this)
      refine ⟨z, fun i _ hi => ?_, hz⟩
      obtain ⟨k, hk, e1, e2⟩ := first b i (by omega)
      have := h k b (by omega)
      beta_reduce at this
      have z1 := hz (k + 1) (by omega)
      have z0 := hz k (by omega)
      beta_reduce at z0 z1
      rw [z1, z0, e2, e1, hr b i (by omega)] at this
      exact this
    · intro h k b hk
      obtain ⟨z, hz, hy⟩ := h b
      rw [hy (k + 1) (by omega), hy k (by omega)]
      beta_reduce
      rcases (hp b).step k (by omega) with e | e
      · rw [e, sub_self, zero_smul, add_zero]
      · have hN := (hp b).le_last (j := k + 1) (by omega)
        rw [e, hr b _ (by omega)]
        exact hz (σ b k) () (by omega)

/-- **C104.** Strain control of any model: the solutions for a padded batch are the solutions for the tests themselves, with rows repeated like those of the tables. -/
theorem C104_strain (model : β → Model m) (n : ℕ) (N : β → ℕ) (σ : β → ℕ → ℕ) (hp : ∀ b, Padding (σ b) n (N b)) (times strains temps : ℕ → β → ℝ)
    (hg : ∀ b, StrictGrid (N b) fun k => times k b) (y : ℕ → β → Fin m → ℝ) :
    IsBackwardEuler (Ode.rate (strainFunc model (n + 1) (fun k b => times (σ b k) b) (fun k b => strains (σ b k) b) (fun k b => temps (σ b k) b)))
        (n + 1) (fun k b => times (σ b k) b) y ↔
      ∀ b, ∃ z : ℕ → Fin m → ℝ,
        IsBackwardEuler (Ode.rate (strainFunc (fun _ : Unit => model b) (N b + 1) (fun k _ => times k b) (fun k _ => strains k b) (fun k _ => temps k b)))
          (N b + 1) (fun k _ => times k b) (fun k _ => z k) ∧ ∀ k ≤ n, y k b = z (σ b k) := by
  refine (C104_trajectories n N σ hp times _ (fun b => Ode.rate (strainFunc (fun _ : Unit => model b) (N b + 1) (fun k _ => times k b)
    (fun k _ => strains k b) (fun k _ => temps k b)) ()) ?_ y).1
  intro b i hi z
  obtain ⟨k, hk, rfl⟩ := (hp b).surj hi
  simp only [Ode.rate, strainFunc]
  rw [rateFn_padded (hp b) (hg b) (fun k => strains k b) hk, dataFn_padded (hp b) (fun k => times k b) (fun k => temps k b)]

/-- The strain rates found by a solver under stress control: `e csr cs T t z` for the imposed stress rate, stress, temperature, time and state (models.py:524-560). -/
noncomputable def stressRate (model : Model (m + 1)) (e : ℝ → ℝ → ℝ → ℝ → (Fin (m + 1) → ℝ) → ℝ) (nt : ℕ) (times stresses temps : ℕ → ℝ) (t : ℝ)
    (z : Fin (m + 1) → ℝ) : Fin (m + 1) → ℝ :=
  (stressOut model (dataFn nt times stresses t) (dataFn nt times temps t) t z
    (e (rateFn nt times stresses t) (dataFn nt times stresses t) (dataFn nt times temps t) t z)).1

/-- **C104.** The same for stress control, whatever the strain rates found by the solver of each test. -/
theorem C104_stress (model : β → Model (m + 1)) (e : β → ℝ → ℝ → ℝ → ℝ → (Fin (m + 1) → ℝ) → ℝ) (n : ℕ) (N : β → ℕ) (σ : β → ℕ → ℕ)
    (hp : ∀ b, Padding (σ b) n (N b)) (times stresses temps : ℕ → β → ℝ) (hg : ∀ b, StrictGrid (N b) fun k => times k b) (y : ℕ → β → Fin (m + 1) → ℝ) :
    IsBackwardEuler (fun b => stressRate (model b) (e b) (n + 1) (fun k => times (σ b k) b) (fun k => stresses (σ b k) b) (fun k => temps (σ b k) b))
        (n + 1) (fun k b => times (σ b k) b) y ↔
      ∀ b, ∃ z : ℕ → Fin (m + 1) → ℝ,
        IsBackwardEuler (fun _ : Unit => stressRate (model b) (e b) (N b + 1) (fun k => times k b) (fun k => stresses k b) (fun k => temps k b))
          (N b + 1) (fun k _ => times k b) (fun k _ => z k) ∧ ∀ k ≤ n, y k b = z (σ b k) := by
  refine (C104_trajectories n N σ hp times _ _ ?_ y).1
  intro b i hi z
  obtain ⟨k, hk, rfl⟩ := (hp b).surj hi
  simp only [stressRate]
  rw [rateFn_padded (hp b) (hg b) (fun k => stresses k b) hk, dataFn_padded (hp b) (fun k => times k b) (fun k => temps k b),
    dataFn_padded (hp b) (fun k => times k b) (fun k => stresses k b)]

/-- **C104.** A run of the integrator itself (with the default zero guesses), converged or not: wherever a test's times are repeated, so is its state, exactly. -/
theorem C104_run (c : Config) (hz : c.guessType = "zero") (f : Func β m) (y0 : BVec β m ℝ) (nt : ℕ) (t : ℕ → β → ℝ) (n : ℤ) (hn : 0 < n)
    (hA : c.scheme = .backwardEuler → ∀ k b y, k + 1 < nt → IsUnit (1 - (t (k + 1) b - t k b) • (f b (t (k + 1) b) y).2).det)
    (res : Partial β m) (w : Bool) (h : integrate c f y0 nt t n = .ok (res, w)) (k : ℕ) (hk : k + 1 < nt) (b : β) (h0 : t (k + 1) b = t k b) :
    res.get (k + 1) b = res.get k b := by
  refine zero_step_run c hz f y0 nt t n hn ?_ res w h k hk b h0
  intro hs N i hi Y q b'
  have := hA hs (i + q.val) b' (Y q.succ b') (by have := q.2; omega)
  simp only [Func.lift, Fin.val_succ]
  exact this

/-- **C104.** The same for right hand sides that couple the entries of a call, as stress control does. -/
theorem C104_run_coupled (c : Config) (hz : c.guessType = "zero") (f : BFunc β m) (y0 : BVec β m ℝ) (nt : ℕ) (t : ℕ → β → ℝ) (n : ℤ) (hn : 0 < n)
    (hA : c.scheme = .backwardEuler → ∀ (N i : ℕ), i + N < nt → ∀ (Y : Fin (N + 1) → BVec β m ℝ) (k : Fin N) (b : β),
      IsUnit (1 - (t (i + k.val + 1) b - t (i + k.val) b) • (f (N + 1) (fun j => t (i + j.val)) Y).2 k.succ b).det)
    (res : Partial β m) (w : Bool) (h : integrate c f y0 nt t n = .ok (res, w)) (k : ℕ) (hk : k + 1 < nt) (b : β) (h0 : t (k + 1) b = t k b) :
    res.get (k + 1) b = res.get k b := zero_step_run c hz f y0 nt t n hn hA res w h k hk b h0

/-- Two tests, of three and of two rows, padded to four rows. -/
def padTwo : Fin 2 → ℕ → ℕ := ![fun k => min k 2, fun k => min k 1]

theorem padTwo_padding (b : Fin 2) : Padding (padTwo b) 3 (![2, 1] b) := by
  fin_cases b <;> constructor <;> simp [padTwo] <;> intro k hk <;> omega

/-- C104 is not vacuous: the two tests above, times `0, 1, 2` and `0, 1`. -/
example (model : Fin 2 → Model 3) (strains temps : ℕ → Fin 2 → ℝ) (y : ℕ → Fin 2 → Fin 3 → ℝ)
    (hy : IsBackwardEuler (Ode.rate (strainFunc model 4 (fun k b => (padTwo b k : ℝ)) (fun k b => strains (padTwo b k) b) (fun k b => temps (padTwo b k) b)))
        4 (fun k b => (padTwo b k : ℝ)) y) : y 3 1 = y 1 1 ∧ y 3 0 = y 2 0 := by
  have h := (C104_strain model 3 ![2, 1] padTwo padTwo_padding (fun k _ => (k : ℝ)) strains temps (by intro b j _; simp) y).1 hy
  obtain ⟨z, -, h1⟩ := h 1
  obtain ⟨z', -, h0⟩ := h 0
  refine ⟨by rw [h1 3 (by norm_num), h1 1 (by norm_num)]; simp [padTwo], by rw [h0 3 (by norm_num), h0 2 (by norm_num)]; simp [padTwo]⟩

/-- And a run: decay, two tests, of which the second one has stopped after one step. -/
example : ∃ res, integrate { scheme := .backwardEuler, method := .direct .thomas, rtol := 1e-6, atol := 1e-8, miter := 100, throwOnFail := false, guessType := "zero" }
      (Func.lift fun (_ : Fin 2) _ y => ((-1 : Matrix (Fin 1) (Fin 1) ℝ).mulVec y + 0, -1)) (fun _ _ => 1) 4 (fun k b => (padTwo b k : ℝ)) 3 = .ok (res, false) ∧
    res.get 3 1 = res.get 1 1 := by
  have hdet : ∀ (k : ℕ) (b : Fin 2), IsUnit (1 - ((padTwo b (k + 1) : ℝ) - padTwo b k) • (-1 : Matrix (Fin 1) (Fin 1) ℝ)).det := by
    intro k b
    have hle : padTwo b k ≤ padTwo b (k + 1) := by
      fin_cases b
      · change min k 2 ≤ min (k + 1) 2; omega
      · change min k 1 ≤ min (k + 1) 1; omega
    have : (padTwo b k : ℝ) ≤ padTwo b (k + 1) := by exact_mod_cast hle
    rw [isUnit_iff_ne_zero, Matrix.det_fin_one]
    simp only [Matrix.sub_apply, Matrix.one_apply_eq, Matrix.smul_apply, Matrix.neg_apply, smul_eq_mul]
    linarith
  obtain ⟨res, h⟩ := C18_linear_succeeds (β := Fin 2) (m := 1)
    { scheme := .backwardEuler, method := .direct .thomas, rtol := 1e-6, atol := 1e-8, miter := 100, throwOnFail := false, guessType := "zero" } (by norm_num) (by norm_num)
    (fun _ _ => -1) (fun _ _ => 0) (fun _ _ => 1) 4 (by norm_num) (fun k b => (padTwo b k : ℝ)) 3 (by norm_num) (Or.inl rfl) (fun _ k b _ => hdet k b)
  refine ⟨res, h, ?_⟩
  have key := C104_run _ rfl (fun (_ : Fin 2) _ y => ((-1 : Matrix (Fin 1) (Fin 1) ℝ).mulVec y + 0, -1)) (fun _ _ => 1) 4 (fun k b => (padTwo b k : ℝ)) 3 (by norm_num)
    (fun _ k b _ _ => hdet k b) res false h
  rw [key 2 (by norm_num) 1 (by simp [padTwo]), key 1 (by norm_num) 1 (by simp [padTwo])]

end Pyoptmat.Props
