import Verif.Model.TensorNeural
import Verif.Spec.TensorNeural
import Verif.Props.TensorOde
import Verif.Props.FiniteDiff
import Mathlib.Analysis.SpecialFunctions.Trigonometric.Deriv

/-!
# C115: neural networks as right hand sides, on tensors
-/

namespace Pyoptmat.Props

open Pyoptmat.Tensor Pyoptmat.Spec Pyoptmat.Ode

/-- `fn` maps every slice of shape `a` to one of shape `b` by `G`, for leading dimensions `S`. -/
private def Acts (fn : TF) (a b : List ℕ) (G : (List ℕ → ℝ) → List ℕ → ℝ) (S : List ℕ) : Prop :=
  ∀ x : Tensor, x.shape = a ++ S → ∃ r : Tensor, fn x = (r : TE) ∧ r.shape = b ++ S ∧
    ∀ i is, Valid b i → Valid S is → r.data (i ++ is) = G (fun j => x.data (j ++ is)) i

private theorem acts_vmap {fn : TF} {a b S : List ℕ} {G : (List ℕ → ℝ) → List ℕ → ℝ} (h : Acts fn a b G S) (n : ℕ) :
    Acts (vmap fn) a b G (S ++ [n]) := by
  intro x hx
  have h1 : x.shape.getLast? = some n := by rw [hx, ← List.append_assoc]; simp
  have h2 : x.shape.dropLast = a ++ S := by rw [hx, ← List.append_assoc]; simp
  obtain ⟨r0, e0, s0, -⟩ := h ⟨x.shape.dropLast, fun i => x.data (i ++ [0])⟩ h2
  refine ⟨⟨r0.shape ++ [n], fun i => entry (fn ⟨x.shape.dropLast, fun j => x.data (j ++ [i.getLastD 0])⟩) i.dropLast⟩, ?_, ?_, ?_⟩
  · unfold vmap
    rw [h1]
    dsimp only
    rw [e0]
    rfl
  · dsimp only
    rw [s0, List.append_assoc]
  · intro i is hi his
    obtain ⟨js, k, rfl, hjs, -⟩ := valid_concat.1 his
    have e1 : (i ++ (js ++ [k])).dropLast = i ++ js := by rw [← List.append_assoc]; simp
    have e2 : (i ++ (js ++ [k])).getLastD 0 = k := by rw [← List.append_assoc]; simp
    dsimp only
    rw [e1, e2]
    obtain ⟨r, er, -, dr⟩ := h ⟨x.shape.dropLast, fun j => x.data (j ++ [k])⟩ h2
    rw [er]
    change r.data (i ++ js) = _
    rw [dr i js hi hjs]
    simp only [List.append_assoc]

private theorem acts_iterate {fn : TF} {a b : List ℕ} {G : (List ℕ → ℝ) → List ℕ → ℝ} (h : Acts fn a b G []) (S : List ℕ) :
    Acts (vmap^[S.length] fn) a b G S := by
  induction S using List.reverseRecOn with
  | nil => exact h
  | append_singleton S n ih =>
    rw [List.length_append, List.length_singleton, Function.iterate_succ_apply']
    exact acts_vmap ih n

/-- the matrix of partial derivatives of `N`, as a function of list indices -/
private noncomputable def jacOf {n p : ℕ} (N : (Fin n → ℝ) → Fin p → ℝ) (x : List ℕ → ℝ) (i : List ℕ) : ℝ :=
  if h : i.headD 0 < n ∧ i.tail.headD 0 < p then
    deriv (fun s => N (Function.update (fun j => x [j.val]) ⟨i.headD 0, h.1⟩ s) ⟨i.tail.headD 0, h.2⟩) (x [i.headD 0])
  else 0

private theorem acts_jacrev {n p : ℕ} {N : (Fin n → ℝ) → Fin p → ℝ} {model : TF} (h : ActsOnLast n p N model) :
    Acts (jacrev model) [n] [n, p] (jacOf N) [] := by
  intro x hx
  rw [List.append_nil] at hx
  obtain ⟨r, er, sr, -⟩ := h [] x hx
  refine ⟨_, by unfold jacrev; rw [er]; rfl, by dsimp only; rw [hx, sr]; rfl, ?_⟩
  intro i is hi his
  obtain ⟨j, k, rfl, hj, hk⟩ := valid2 hi
  obtain rfl : is = [] := by cases his; rfl
  dsimp only
  rw [hx]
  simp only [List.append_nil, List.length_singleton, List.take_succ_cons, List.take_zero, List.drop_succ_cons, List.drop_zero]
  have hh : [j, k].headD 0 < n ∧ [j, k].tail.headD 0 < p := ⟨hj, hk⟩
  unfold jacOf
  rw [dif_pos hh]
  change deriv _ (x.data [j]) = deriv _ (x.data [j])
  congr 1
  funext s
  obtain ⟨r', er', -, dr'⟩ := h [] ⟨[n], Function.update x.data [j] s⟩ rfl
  rw [er']
  change r'.data [k] = _
  rw [dr' ⟨k, hk⟩ [] List.Forall₂.nil]
  congr 1
  funext l
  dsimp only
  by_cases hl : l.val = j
  · have : l = ⟨j, hj⟩ := Fin.ext hl
    subst this
    simp
  · have h1 : ([l.val] : List ℕ) ≠ [j] := by simpa using hl
    have h2 : l ≠ ⟨[j, k].headD 0, hh.1⟩ := fun e => hl (congrArg Fin.val e)
    rw [Function.update_of_ne h1, Function.update_of_ne h2]

/-- **C115** (`jacobianize` on tensors). For a network that acts on the last dimension, with at least one leading dimension or none, whatever their sizes: both calls succeed, the value is the network's, and
the second result has shape `(..., p, n)` and holds at every batch index the partial derivatives of the network at the vector there. -/
theorem C115_jacobianize {n p : ℕ} {N : (Fin n → ℝ) → Fin p → ℝ} {model : TF} (h : ActsOnLast n p N model) (S : List ℕ) (x : Tensor) (hx : x.shape = n :: S) :
    ∃ R J : Tensor, jacobianize model x = .ok (R, J) ∧ R.shape = p :: S ∧ J.shape = n :: p :: S ∧
      ∀ is, Valid S is → (∀ i : Fin p, R.data (i.val :: is) = N (fun j => x.data (j.val :: is)) i) ∧
        ∀ (i : Fin p) (j : Fin n), DifferentiableAt ℝ N (fun j => x.data (j.val :: is)) →
          HasDerivAt (fun s => N (Function.update (fun j => x.data (j.val :: is)) j s) i) (J.data (j.val :: i.val :: is)) (x.data (j.val :: is)) := by
  obtain ⟨R, eR, sR, dR⟩ := h S x hx
  obtain ⟨J, eJ, sJ, dJ⟩ := acts_iterate (acts_jacrev h) S x hx
  refine ⟨R, J, ?_, sR, sJ, fun is his => ⟨fun i => dR i is his, fun i j hd => ?_⟩⟩
  · unfold jacobianize
    rw [eR]
    simp only [TE.bind_ok]
    have : R.shape.length - 1 = S.length := by rw [sR]; simp
    rw [this, eJ]
    rfl
  · have h1 := dJ [j.val, i.val] is (valid_cons.2 ⟨j.isLt, valid_cons.2 ⟨i.isLt, List.Forall₂.nil⟩⟩) his
    have hh : [j.val, i.val].headD 0 < n ∧ [j.val, i.val].tail.headD 0 < p := ⟨j.isLt, i.isLt⟩
    unfold jacOf at h1
    rw [dif_pos hh] at h1
    have h2 : J.data (j.val :: i.val :: is) = deriv (fun s => N (Function.update (fun j => x.data (j.val :: is)) j s) i) (x.data (j.val :: is)) := h1
    rw [h2]
    apply DifferentiableAt.hasDerivAt
    have h3 : HasDerivAt (fun s => Function.update (fun j : Fin n => x.data (j.val :: is)) j s) (Pi.single j (1 : ℝ)) (x.data (j.val :: is)) := hasDerivAt_update _ _ _
    have h4 : Function.update (fun j : Fin n => x.data (j.val :: is)) j (x.data (j.val :: is)) = fun j => x.data (j.val :: is) := Function.update_eq_self j (fun j : Fin n => x.data (j.val :: is))
    have hd' : HasFDerivAt N (fderiv ℝ N (fun j => x.data (j.val :: is))) (Function.update (fun j : Fin n => x.data (j.val :: is)) j (x.data (j.val :: is))) := by
      rw [h4]; exact hd.hasFDerivAt
    exact ((hasDerivAt_pi.mp (hd'.comp_hasDerivAt (x.data (j.val :: is)) h3)) i).differentiableAt

/-- the concatenated state and forces -/
private theorem cat_rows {nb m f q : ℕ} {y g : Tensor} (hy : y.shape = [m, nb, q]) (hg : g.shape = [f, nb, q]) :
    ∃ x : Tensor, cat (y : TE) (g : TE) = (x : TE) ∧ x.shape = [m + f, nb, q] ∧ ∀ b k : ℕ, (fun j : Fin (m + f) => x.data [j.val, b, k]) =
      Fin.append (fun j : Fin m => y.data [j.val, b, k]) (fun j : Fin f => g.data [j.val, b, k]) := by
  refine ⟨⟨[m + f, nb, q], fun i => if i.headD 0 < m then y.data i else g.data ((i.headD 0 - m) :: i.tail)⟩, ?_, rfl, ?_⟩
  · unfold cat
    simp only [TE.bind_ok, hy, hg, if_true]
  · intro b k
    funext j
    refine Fin.addCases (fun j => ?_) (fun j => ?_) j
    · simp
    · simp

/-- **C115** (`NeuralODE` as a right hand side). With a network that acts on the last dimension and at least one force, `NeuralODE.forward` on tensors of `q` times and `nb` tests computes, for every time and test, the
rate `N(y, F(t))` and its matrix of derivatives with respect to the state; the integration theorems (C109, C110) then apply. -/
theorem C115_right_hand_side {nb m f : ℕ} (hf : 0 < f) {P : Fin nb → Set ℝ} {N : (Fin (m + f) → ℝ) → Fin m → ℝ} (hN : Differentiable ℝ N) {F : Fin nb → ℝ → Fin f → ℝ}
    {model force : TF} (hM : ActsOnLast (m + f) m N model) (hF : ForceIs nb f P F force) :
    FuncIs nb m P (tNeuralOde model force) (Func.lift (neuralFunc N F)) := by
  intro q t y ht hy hP
  obtain ⟨g, eg, sg, dg⟩ := hF q t ht hP
  obtain ⟨x, ex, sx, dx⟩ := cat_rows hy sg
  obtain ⟨R, J, eJ, sR, sJ, dJ⟩ := C115_jacobianize hM [nb, q] x sx
  refine ⟨R, ⟨[m, m, nb, q], J.data⟩, ?_, sR, rfl, ?_⟩
  · unfold tNeuralOde
    rw [eg]
    simp only [TE.bind_ok]
    rw [ex]
    simp only [TE.bind_ok]
    rw [eJ]
    dsimp only
    unfold sliceDrop
    simp only [TE.bind_ok, sJ, sg, List.headD_cons]
    rw [if_neg (by omega), Nat.add_sub_cancel]
  · have hrow : ∀ (k : Fin q) (b : Fin nb), (fun j : Fin (m + f) => x.data [j.val, b.val, k.val]) = Fin.append (rowsOf nb m q y k b) (F b (timesOf nb q t k b)) := by
      intro k b
      rw [dx b.val k.val]
      congr 1
      funext j
      exact dg j b k
    have hv : ∀ (k : Fin q) (b : Fin nb), Valid [nb, q] [b.val, k.val] := fun k b => valid_cons.2 ⟨b.isLt, valid_cons.2 ⟨k.isLt, List.Forall₂.nil⟩⟩
    refine Prod.ext ?_ ?_
    · funext k b i
      have := (dJ [b.val, k.val] (hv k b)).1 i
      rw [hrow] at this
      exact this
    · funext k b i j
      have h1 := (dJ [b.val, k.val] (hv k b)).2 i (Fin.castAdd f j) hN.differentiableAt
      have hmap : ∀ s, Function.update (Fin.append (rowsOf nb m q y k b) (F b (timesOf nb q t k b))) (Fin.castAdd f j) s =
          Fin.append (Function.update (rowsOf nb m q y k b) j s) (F b (timesOf nb q t k b)) := by
        intro s
        funext l
        refine Fin.addCases (fun l => ?_) (fun l => ?_) l
        · by_cases hl : l = j
          · subst hl; simp
          · have : Fin.castAdd f l ≠ Fin.castAdd f j := fun h => hl (Fin.castAdd_injective m f h)
            simp [hl, this]
        · have : Fin.natAdd m l ≠ Fin.castAdd f j := by
            intro h
            have := congrArg Fin.val h
            simp at this
            have := j.isLt
            omega
          simp [this]
      have hval : x.data ((Fin.castAdd f j).val :: [b.val, k.val]) = rowsOf nb m q y k b j := by
        have := congrFun (hrow k b) (Fin.castAdd f j)
        simpa using this
      rw [hrow, hval] at h1
      simp only [hmap] at h1
      exact h1.deriv.symm

/-- **C115** (the Jacobian is the derivative). What `C115_right_hand_side` calls the matrix of derivatives is the derivative of the rate with respect to the state, the forces being held. -/
theorem C115_jacobian {nb m f : ℕ} {N : (Fin (m + f) → ℝ) → Fin m → ℝ} (hN : Differentiable ℝ N) (F : Fin nb → ℝ → Fin f → ℝ) (b : Fin nb) (t : ℝ) (y : Fin m → ℝ) :
    HasFDerivAt (fun y => (neuralFunc N F b t y).1) (Matrix.toLin' (neuralFunc N F b t y).2).toContinuousLinearMap y := by
  have h0 : Differentiable ℝ (fun y : Fin m → ℝ => Fin.append y (F b t)) := by
    rw [differentiable_pi]
    intro l
    refine Fin.addCases (fun l => ?_) (fun l => ?_) l
    · simp only [Fin.append_left]; fun_prop
    · simp only [Fin.append_right]; fun_prop
  have h1 : Differentiable ℝ (fun y => N (Fin.append y (F b t))) := hN.comp h0
  have h2 := (h1 y).hasFDerivAt
  refine h2.congr_fderiv ?_
  refine ContinuousLinearMap.coe_injective ?_
  refine LinearMap.pi_ext' fun j => ?_
  ext i
  have h3 : HasDerivAt (fun s => Function.update y j s) (Pi.single j (1 : ℝ)) (y j) := hasDerivAt_update _ _ _
  have h4 : HasFDerivAt (fun y => N (Fin.append y (F b t))) (fderiv ℝ (fun y => N (Fin.append y (F b t))) y) (Function.update y j (y j)) := by
    rw [Function.update_eq_self]; exact h2
  have h5 := (hasDerivAt_pi.mp (h4.comp_hasDerivAt (y j) h3)) i
  have h6 := h5.deriv
  simp only [Function.comp_def] at h6
  simp only [LinearMap.coe_comp, Function.comp_apply, LinearMap.single_apply, ContinuousLinearMap.coe_coe, LinearMap.coe_toContinuousLinearMap']
  rw [Matrix.toLin'_apply, Matrix.mulVec_single_one]
  exact h6.symm

/-- **C115** (integrating a neural ODE). Backward Euler with zero tolerances and no warning, any linear solver and block size: the first row of what the solver returns is `y0` and every later row satisfies the backward Euler
formula of its own test, `y_{k+1} = y_k + (t_{k+1} - t_k) N(y_{k+1}, F(t_{k+1}))`. -/
theorem C115_integrate {nb m f nt : ℕ} (hnb : 0 < nb) (hm : 0 < m) (hf : 0 < f) {P : Fin nb → Set ℝ} {N : (Fin (m + f) → ℝ) → Fin m → ℝ} (hN : Differentiable ℝ N) {F : Fin nb → ℝ → Fin f → ℝ}
    {model force : TF} (hM : ActsOnLast (m + f) m N model) (hF : ForceIs nb f P F force) (c : Config) (hs : c.scheme = .backwardEuler) (hi : 0 ≤ c.miter) (hr : c.rtol = 0) (ha : c.atol = 0)
    {y0 t : Tensor} (ht : t.shape = [nb, nt]) (hy : y0.shape = [m, nb]) (hP : ∀ (j : ℕ) (b : Fin nb), j < nt → t.data [b.val, j] ∈ P b) (garbage : List ℕ → ℝ) (q : ℤ) (hq : 0 < q) {Y : Tensor}
    (h : tIntegrate c (tNeuralOde model force) garbage y0 t q = .ok (Y, false)) :
    Y.shape = [m, nb, nt] ∧ (∀ (b : Fin nb) (j : Fin m), 0 < nt → Y.data [j.val, b.val, 0] = y0.data [j.val, b.val]) ∧
      ∀ (k : ℕ) (b : Fin nb) (j : Fin m), k + 1 < nt → Y.data [j.val, b.val, k + 1] = Y.data [j.val, b.val, k] +
        (t.data [b.val, k + 1] - t.data [b.val, k]) * N (Fin.append (fun i : Fin m => Y.data [i.val, b.val, k + 1]) (F b (t.data [b.val, k + 1]))) j :=
  C109_backward_euler hnb hm (C115_right_hand_side hf hN hM hF) c hs hi hr ha ht hy hP garbage q hq h

/-- **C115** (no forces). With force tensors of width zero the Jacobian returned has no columns, although the state has `m` components. -/
theorem C115_no_forces {nb m q : ℕ} {N : (Fin (m + 0) → ℝ) → Fin m → ℝ} {P : Fin nb → Set ℝ} {F : Fin nb → ℝ → Fin 0 → ℝ} {model force : TF} (hM : ActsOnLast (m + 0) m N model)
    (hF : ForceIs nb 0 P F force) {t y : Tensor} (ht : t.shape = [nb, q]) (hy : y.shape = [m, nb, q]) (hP : ∀ k b, timesOf nb q t k b ∈ P b) :
    ∃ R J : Tensor, tNeuralOde model force t y = .ok (R, J) ∧ R.shape = [m, nb, q] ∧ J.shape = [0, m, nb, q] := by
  obtain ⟨g, eg, sg, -⟩ := hF q t ht hP
  obtain ⟨x, ex, sx, -⟩ := cat_rows hy sg
  obtain ⟨R, J, eJ, sR, sJ, -⟩ := C115_jacobianize hM [nb, q] x sx
  refine ⟨R, ⟨[0, m, nb, q], J.data⟩, ?_, sR, rfl⟩
  unfold tNeuralOde
  rw [eg]
  simp only [TE.bind_ok]
  rw [ex]
  simp only [TE.bind_ok]
  rw [eJ]
  dsimp only
  unfold sliceDrop
  simp only [TE.bind_ok, sJ, sg, List.headD_cons, if_true]

private theorem vmap_shape {fn : TF} {A B : List ℕ} (h : ∀ z : Tensor, z.shape = A → ∃ r : Tensor, fn z = (r : TE) ∧ r.shape = B) (n : ℕ) (z : Tensor) (hz : z.shape = A ++ [n]) :
    ∃ r : Tensor, vmap fn z = (r : TE) ∧ r.shape = B ++ [n] := by
  obtain ⟨r, er, sr⟩ := h ⟨z.shape.dropLast, fun i => z.data (i ++ [0])⟩ (by dsimp only; rw [hz]; simp)
  have : z.shape.getLast? = some n := by rw [hz]; simp
  refine ⟨⟨r.shape ++ [n], fun i => entry (fn ⟨z.shape.dropLast, fun j => z.data (j ++ [i.getLastD 0])⟩) i.dropLast⟩, ?_, by dsimp only; rw [sr]⟩
  unfold vmap
  rw [this]
  dsimp only
  rw [er]
  rfl

/-- **C115** (a network with parameters of its own for every test). Let the network, called with times and tests, give `m` rates for each of them, but, called with one input vector, give `m` rates for each of the `nb` tests, as it
does when its parameters have a dimension for the tests. Then the Jacobian returned by `NeuralODE.forward` has a dimension too many: shape `(q, nb, nb, m, m)` instead of `(q, nb, m, m)`. -/
theorem C115_per_test_parameters {nb m f q : ℕ} (hf : 0 < f) {model force : TF} {t y g : Tensor}
    (hfull : ∀ x : Tensor, x.shape = [m + f, nb, q] → ∃ r : Tensor, model x = (r : TE) ∧ r.shape = [m, nb, q])
    (hvec : ∀ x : Tensor, x.shape = [m + f] → ∃ r : Tensor, model x = (r : TE) ∧ r.shape = [m, nb])
    (hg : force t = (g : TE)) (sg : g.shape = [f, nb, q]) (hy : y.shape = [m, nb, q]) :
    ∃ R J : Tensor, tNeuralOde model force t y = .ok (R, J) ∧ R.shape = [m, nb, q] ∧ J.shape = [m, m, nb, nb, q] := by
  obtain ⟨x, ex, sx, -⟩ := cat_rows hy sg
  obtain ⟨R, eR, sR⟩ := hfull x sx
  have h1 : ∀ z : Tensor, z.shape = [m + f] → ∃ r : Tensor, jacrev model z = (r : TE) ∧ r.shape = [m + f, m, nb] := by
    intro z hz
    obtain ⟨r, er, sr⟩ := hvec z hz
    exact ⟨_, by unfold jacrev; rw [er]; rfl, by dsimp only; rw [hz, sr]; rfl⟩
  have h3 : ∃ J : Tensor, vmap (vmap (jacrev model)) x = (J : TE) ∧ J.shape = [m + f, m, nb, nb, q] :=
    vmap_shape (B := [m + f, m, nb, nb]) (vmap_shape (A := [m + f]) (B := [m + f, m, nb]) h1 nb) q x sx
  obtain ⟨J, eJ, sJ⟩ := h3
  refine ⟨R, ⟨[m, m, nb, nb, q], J.data⟩, ?_, sR, rfl⟩
  have hj : jacobianize model x = .ok (R, J) := by
    unfold jacobianize
    rw [eR]
    simp only [TE.bind_ok]
    have : R.shape.length - 1 = 2 := by rw [sR]; rfl
    rw [this]
    change TE.bind (vmap (vmap (jacrev model)) x) _ = _
    rw [eJ]
    rfl
  unfold tNeuralOde
  rw [hg]
  simp only [TE.bind_ok]
  rw [ex]
  simp only [TE.bind_ok]
  rw [hj]
  dsimp only
  unfold sliceDrop
  simp only [TE.bind_ok, sJ, sg, List.headD_cons]
  rw [if_neg (by omega), Nat.add_sub_cancel]

/-- Non-vacuity: the network `x ↦ sin (x₀)` (state `x₀`, force `x₁`) acts on the last dimension, is differentiable, and its `NeuralODE` on tensors is the right hand side of `y' = sin y`. -/
example : FuncIs 3 1 (fun _ => Set.univ) (tNeuralOde (fun x => unsq (map Real.sin (sel 0 (x : TE)))) fun t => unsq (t : TE)) (Func.lift (neuralFunc (f := 1) (fun (x : Fin (1 + 1) → ℝ) _ => Real.sin (x 0)) fun _ t _ => t)) := by
  refine C115_right_hand_side (by norm_num) (f := 1) ?_ ?_ ?_
  · fun_prop
  · intro S x hx
    refine ⟨_, by unfold sel; simp only [TE.bind_ok, hx]; rfl, rfl, fun i is _ => ?_⟩
    rfl
  · intro q t ht _
    refine ⟨_, rfl, by dsimp only; rw [ht], fun j b k => rfl⟩

/-- Non-vacuity: a gain of its own for each of the three tests meets the hypotheses on the network in `C115_per_test_parameters`. -/
example (w : List ℕ → ℝ) (q : ℕ) (x : Tensor) : let model : TF := fun x => unsq (((⟨[3], w⟩ : Tensor) : TE) * sel 0 (x : TE))
    (x.shape = [1 + 1, 3, q + 1] → ∃ r : Tensor, model x = (r : TE) ∧ r.shape = [1, 3, q + 1]) ∧ (x.shape = [1 + 1] → ∃ r : Tensor, model x = (r : TE) ∧ r.shape = [1, 3]) := by
  intro model
  constructor
  · intro hx
    refine ⟨⟨[1, 3, q + 1], fun i => w (bidx [3] i.tail) * x.data (0 :: bidx [3, q + 1] i.tail)⟩, ?_, rfl⟩
    change unsq (map2 (· * ·) _ (sel 0 _)) = _
    unfold sel map2 unsq
    simp only [TE.bind_ok, hx]
    rfl
  · intro hx
    refine ⟨⟨[1, 3], fun i => w (bidx [3] i.tail) * x.data (0 :: bidx [] i.tail)⟩, ?_, rfl⟩
    change unsq (map2 (· * ·) _ (sel 0 _)) = _
    unfold sel map2 unsq
    simp only [TE.bind_ok, hx]
    rfl

end Pyoptmat.Props
