# Design of the formal model of pyoptmat

## Trusted base

* Lean 4.33.0's kernel and the three standard axioms `propext`, `Classical.choice`, `Quot.sound` (used through
  Mathlib). No axioms are added; no `native_decide`/`bv_decide`.
* The faithfulness of the hand-written model in `lean/Verif/Model/*.lean` to `/repo/pyoptmat/*.py`. Each definition cites
  the file and lines it models and says where it simplifies.
* Of `/repo/examples` the following functions are modelled: the `forward` methods of the systems in examples/ode (`Model/Examples.lean`), and `make_model`, `generate_input`, `downsample`,
  `load_subset_data`, `true_model` of examples/structural-inference (`Model/Inference.lean`). The scripts that call them, draw random samples, plot and store files are not modelled.
* Exact arithmetic: tensors hold elements of a field (`ℝ` whenever order, norms, powers or derivatives are needed; an
  arbitrary field for pure linear algebra). Floating point rounding is modelled only in `Model/Inexact.lean` (C130: arbitrary errors
  in every operation, of bounded size); overflow and dtype conversion are **not** modelled.
  `NaN` is modelled only where a property is about it (Newton exit test).
* Torch primitives are modelled by their mathematical meaning: `lu_factor`/`lu_solve` is multiplication by the matrix
  inverse, `linalg.solve` likewise, `bmm` matrix product, `torch.autograd.grad` the exact vector-Jacobian product.
  Indexing, slicing, `cat`, `flip`, `diff`, `reshape`/`transpose`/`flatten`, `as_strided` views and in-place slice
  assignments **are** modelled. The material laws are modelled twice: one test at a time (`Model/Hardening.lean`, ...) and as torch programs on tensors with shapes
  (`Model/TensorMaterial.lean`, with the meaning of broadcasting, indexing, masks and `einsum` in `Model/Tensor.lean`); C101 proves that the second does the first at every point.
* Devices, dtypes, memory use, the autograd graph, plotting and file I/O are not modelled.
* Pyro (C88 - C93) is modelled from its documented behaviour, it is not in /repo: a run records a trace of named sites, refuses two sites of one name except parameter statements,
  checks arguments and supports (validation is on by default), `poutine.replay` supplies the guide's values, a `Delta` has log density zero at its point, `PyroModule` attributes are
  sampled once per call, `Trace_ELBO` with one particle is (log density of the model) - (log density of the guide). Random draws are arguments. The priors of one variable have the same
  shape, and names do not clash with other attributes of the objects. Nothing is said about the quality of random numbers or about the optimizers.

## Conventions

* `β` is the batch index type. A batched tensor is a function of the batch index; every operation of the code that is
  elementwise in the batch is modelled pointwise, and those that couple batches (`torch.any`, `argmax`, masks) explicitly.
* The leading time dimension is a `List` (Python slices become `take`/`drop`; `zipWith` for elementwise operations); for
  cyclic reduction it is an addressable memory with strided views.
* `Verif/Model` model of the code; `Verif/Spec` what the properties mean, without reference to the model's helpers;
  `Verif/Props` the theorems, one file per area, each with an `example` showing that its hypotheses are satisfiable.

## Plan per property

| id | what is modelled | how it is proved |
|----|------------------|------------------|
| C01 | `thomas_solve` as a left-to-right pass over block rows | induction on rows; uniqueness from invertible blocks |
| C02 | PCR with explicit memory, strided views, in-place `-=`, chunk loop, `pad` | invariant "row j is coupled to row j-2^i" by induction on i, then on chunks |
| C03 | hybrid: block selection, PCR prefix, Thomas tail | same invariant plus induction on the tail, for every `min_size` |
| C04 | flat layout reshape, `solve_dense`, `solve_direct` | all equal to the unique solution |
| C05 | `_pow2` while loop | well-founded induction on the remaining count |
| C06 | the object's state (`self.B`) threaded through calls | Thomas: induction on history; PCR: concrete counterexample |
| C07 | `BidiagonalForwardOperator.forward` reshapes | direct computation of rows, all sizes |
| C08 | `to_dense` as a fold of block writes | fold invariant |
| C09 | `to_batched_coo` as entry list with duplicate summing | sum over entry list |
| C10-C13 | `newton_raphson_chunk` loop with in-place `x0`, `forward` aliasing | loop invariant, induction on remaining iterations |
| C14-C18, C23 | `FixedGridBlockSolver.integrate`, `block_update`, `_initial_guess`, both schemes | induction over blocks; residual zero iff recurrence; Frechet derivative of the residual |
| C19-C22 | `rewind`, `update_adjoint`, `accumulate` on flipped lists | adjoint recursion, summation by parts against the tangent recursion; induction over blocks |
| C24-C28 | constitutive models, control wrappers, rate interpolation | Frechet derivatives, chain rule; implicit relation |
| C29-C36 | flow rules | derivative calculus, region by region |
| C37-C42 | hardening models | derivative calculus; inductive invariants of the backward Euler map |
| C43-C46 | damage models | derivative calculus; positivity; explicit integration |
| C47-C50 | utility functions, NeuralODE slicing | order arguments on lists of times |
| C51-C54 | temperature parameters | algebra, monotonicity |
| C55-C57 | scaling functions, bounds helpers | algebra and order |
| C58-C65 | experiment generation and formatting, masks by type | list induction |
| C66-C68 | `solvers.py` loops | loop invariants |
| C69 | option strings and the keyword arguments of ModelIntegrator (Model/Integrator) | case analysis on strings; C69_model_integrators reduces every call to solveStrain/solveStress/solveBoth with the described solver |
| C70 | `PreconditionerReuseNonlinearSolver.solve` with the remembered preconditioner threaded through calls | loop invariant; affine case by one unfolding |
| C71 | `LarsonMillerDamage` derivatives | derivative calculus |
| C72, C73, C75 | backward Euler histories of the Voce-Chaboche and the perfectly viscoplastic models | invariants by induction over the steps |
| C74 | the implicit step of the Voce-Chaboche model, `solve_strain` | reduction to one scalar equation, intermediate value theorem and monotonicity, induction over steps |
| C76, C77 | mirror image and time scaling of histories | equivariance of the rates, induction over steps |
| C78, C79 | `ModelIntegrator.solve_stress`, `solve_both` end to end: the rates of a block are computed for the whole time x test batch at once, including the inner Newton solve for the strain rates | block tolerance theorem for batch-level right hand sides, C26, C27 |
| C80 | pairs of runs of `integrate`, `solve_strain`, `solve_both` | uniqueness of the step equations, induction over steps; a counterexample computed in the model for nonzero tolerances |
| C81, C82 | `FixedGridBlockSolver.integrate` with arbitrary tolerances against the exact solution of the differential equation, or against another run | truncation error by the mean value inequality, one-sided Lipschitz step estimate, discrete Gronwall by induction over steps |
| C83, C86 | the adjoint pass along exact trajectories and along solver output | implicit function theorem step by step; continuity of the adjoint recursion; C82 |
| C84, C85 | `odeint`, `odeint_adjoint`, the autograd function's leaf bookkeeping and option strings | C83 plus list induction over the parameters; case analysis on strings |
| C87 | `DeterministicModel`: attributes, factory call, `solve_both`, `convert_results` | C79 and C63 composed |
| C88 - C92 | `HierarchicalStatisticalModel`: constructor, `PyroSample` attributes, `forward`, guide, extra parameters, weights, on a model of Pyro's traces, parameter store, replay, plates and scaling | induction over the variables for guide and model runs; the sum of log densities is the log of Mathlib's normal densities; C91 by an explicit family of stores |
| C93 | `StatisticalModel` on the same model of Pyro | induction over the names |
| C94 | `block_update` and `integrate` (backward Euler, zero guess) with arbitrary tolerances near an exact solution | Newton-Kantorovich by induction over updates (each update a linear implicit recursion bounded by discrete Gronwall), then an invariant of the time loop keeping the states in the tube; the iterates form a Cauchy sequence whose limit is the only solution near the start (`C94_limit`) |
| C95 | `to_unrolled_csr` with the sizes torch infers, `lu_gmres`, `jacobi_gmres` with keyword arguments | membership in the entry list, maximum of the indices; C09, C68 |
| C96 | `Spec/Energy.lean`: stored energy and dissipation of a flow rule; every flow rule and kinematic model of the library | convexity of the spring energy makes backward Euler dissipative; telescoping sum over the steps; C15, C78 |
| C97 | the Voce-Chaboche model integrated by `solve_strain` / `solve_stress` | one-step comparison of the effective stress, induction over the hold; C15, C78 |
| C98 | perfect viscoplasticity integrated by `solve_strain` against exact solutions of Norton's law | monotone dissipative scalar equation: one-sided truncation error that telescopes with the stress rate; closed form by differentiation |
| C99 | hardening models with static recovery inside `inelastic`/`isoKin` | each implicit step is a convex combination of its targets; induction over the steps |
| C100 | `solveStrain` with `inelastic`/`perfect`, block Newton iteration | monotone Newton: the block residual is convex with a nonnegative inverse Jacobian, so iterates fall onto the exact block solution from above with factor 1 - 1/N; invariant over the time loop |
| C101 | `Model/Tensor.lean`: tensors with shapes, torch broadcasting, indexing, `cat`, `reshape`, masks; `Model/TensorMaterial.lean`: every class of temperature.py, hardening.py, flowrules.py, damage.py and the two material models as torch programs | each program refines the single-test model of the other files, by induction over the expression and (superimposed models) over the loop |
| C102 | the torch programs of C101 with vector valued temperature parameters | computation of the broadcast shapes; where they fit, the expression equals the one with a constant of the broadcast shape and C101 applies |
| C103 | `utility.ArbitraryBatchTimeSeriesInterpolator`, `StrainBasedModel`, `StressBasedModel`, `BothBasedModel`, `solvers.newton_raphson` and the rates of `ModelIntegrator` as torch programs on whole tensors (`Model/TensorControl.lean`) | entries of each operation; boolean indexing point by point; the Newton loop in lock step with the loop of `Model/Newton.lean` over the batch of points |
| C104 | interpolators (`Model/Interp.lean`), rates of `ModelIntegrator` (`Model/Control.lean`), `FixedGridBlockSolver` (`Model/Ode.lean`); `Spec.Padding` says which rows are repeated | the selected intervals of the padded table map one to one to those of the original; at a recorded time the first of equal rows decides; a Newton update keeps the row equations with zero time step, by induction over updates and blocks |
| C105 | what autograd records of `StressBasedModel.forward` (`Model/Autograd.lean`): the Newton updates with the run's number of updates, and the version counter of the tensor updated in place (torch's autograd semantics, modelled by hand, hence trusted) | chain rule for one update, induction over the updates; a recursion `d(k+1) ≤ ε(k) + θ(k) d(k)` with `ε, θ → 0` tends to zero; implicit function derivative; the number of updates from `loop_spec` |
| C106 | `creepFunc` (`Model/Autograd.lean`): `StressBasedModel.forward` around `InelasticModel`, entry by entry, with a number of updates per call; `rewind` (`Model/Ode.lean`) | the recorded rates are `σ̇/E + flow` and the history rates (C105), their Jacobian has a zero first column, so the determinant of a step is that of its history block; then C83 |
| C107 | Voce/Chaboche/recovery material with parameters depending on `q` (`Spec/Material` `VCParams`), run by `strainFunc` or `creepFunc` and differentiated by `rewind` | rates are C¹ jointly in parameters and state (`Proofs/SmoothFlow`: `max(0,x)^n` is C¹ for `n > 1`), admissible states by C39/C40, step matrices regular (`vc_step_det`, `vc_hist_det`), then C83/C106; `IsGradient` states existence and local uniqueness of the trajectory family and the derivative of the loss |
| C108 | `rewind` with arbitrary reported Jacobians; `damaged` with `larsonMiller`/`constantDamage` under `strainFunc` | discrete adjoint identity (`adjoint_identity`) for arbitrary Jacobians; counterexample solved in closed form (`lmState`); exactness from C25/C43, `Proofs/SmoothFlow` and C83 |
| C109 | `Model/TensorOde.lean`: ode.py's forward pass, the chunked Newton method and the linear solvers on whole tensors (shapes, broadcasting, reshape order); parallel cyclic reduction keeps its storage model | simulation proofs: each torch operation's entries (`Proofs/TensorFirst.lean`), then operators, solves, Newton iterates (`Proofs/TensorChunk.lean`, `Proofs/TensorOde.lean`), induction over the blocks with the invariant "rows before k written, the rest untouched" |
| C110 | `Model/TensorAdjoint.lean`: rewind, update_adjoint and accumulate on whole tensors; what torch.autograd.grad returns is an argument, assumed to be the vector-Jacobian product (`VjpIs`) | simulation of the lane level `rewind` step by step (`Proofs/TensorAdjoint.lean`), then C83 (implicit function theorem and discrete adjoint identity) and C109 |
| C111 | existing lane-level integrate and rewind; exact solutions and the variational equation in `Spec/Sensitivity.lean` | energy estimate and Gronwall argument in continuous time for the variational equation (`Proofs/Sensitivity.lean`); discrete tangents compared with exact sensitivities through the perturbed backward Euler estimate of C81; adjoint identity of C19; forward Euler in `Props/SensitivityForward.lean` |
| C112 | tensor programs of C101 (model), C103 (interpolation), C109 (integrate), C110 (rewind) composed | C109 gives the trajectory, C107 (invariant ranges, non-singular steps, exact derivative) the lane-level gradient, C110 transfers it to tensors |
| C113 | `tBothFunc`, `tSolveBoth`, `tRewind` on tensors; the derivative of the recorded rates of a call (`recordedBoth`), with the call's number of updates of the strain rate | selection by label (C27), recorded rates (C105), lane gradient by the implicit function theorem (`C113_lanes`), tensor `rewind` on rows of the run (`rewind_on`) |
| C114 | IsFrozenGradient in Props/InexactGrad (family of states with the step defects of the given states), model of rewind, tensor solve_strain / solve_both | C83 applied to the rates shifted by defect/step (times increase, so looked up by time); adjoint states depend on the Jacobians only; admissible region gives differentiability and invertible steps; tolerance from C15 |
| C115 | Model/TensorNeural: jacrev as exact partial derivatives, vmap slice by slice, jacobianize with shape-dependent number of vmaps, the slice [..., :-force.shape[-1]]; Spec/TensorNeural: ActsOnLast, ForceIs, neuralFunc | induction over batch dimensions; C109 for the integration; shape computations for the two limits |
| C116 | Model/Strided: v as a storage of single numbers with strides, as_strided with its bounds check, element-wise in-place updates; Spec/Strided: dense orders of dimensions | simulation of the block-wise program (Holds) for packed layouts; last chunk of pow2 reaches beyond the storage otherwise; first or second chunk for the hybrid method |
| C117 | Model/Visualize: kthvalue as entry of the sorted list with its range check, floor of n*alpha; the drawing as mean and band limits; BandIs in Props/Visualize counts samples | sorted lists: entries before / after the k-th; floor inequalities; union bound for the share inside |
| C118 | Spec/Units: Rescaled right hand sides, ModelRescaled, FlowRescaled, HardeningRescaled, DamageRescaled, VCParams.inUnits | matvec of the direct solvers commutes with scaling the right hand side (no invertibility needed); the Newton loop takes the same decisions; induction over blocks; algebra for each material law and combination |
| C119 | Model/Control solveStress with the inner newtonRaphson at its default tolerances; Props/SlowStress: the creep test | the inner loop makes no update, the rates at zero are zero, so the outer Newton loop makes none either; induction over blocks (integrate_traj) |
| C120 | Spec/Reindex SameTests: the new batch is a surjective copy of the old; Model/Ode integrate and rewind, Model/Control, Model/Integrator | the whole program commutes with copying: linear solvers entry by entry (Proofs/Reindex), any over the batch is invariant under surjections, induction over updates and blocks; rewind split by induction into single tests |
| C121 | integrate, rewind, solveStrain, Integrator.strain/stress/both | the block loop over a list of starts is split at a start; a block step depends only on the stored rows, the times and the right hand side at the block's rows; for the adjoint pass, the recursion of rewind_spec restarted at the split row |
| C122 | solveStrain, solveStress, inelastic, perfect | induction over the steps: if the order were violated by more than the tolerances, the flow of the higher stress would be larger, and the step equation (defect at most the tolerance) would give the opposite |
| C123 | integrate, solveStrain, solveStress, solveBoth; Spec/StepTolerance | the stopping test of the Newton iteration (C10) for the block residual, read row by row and test by test; the residual at the default guess is dt times the rates at the starting state |
| C124 | block solver, Newton loops, control modes, all material laws and their derivatives | conjugation by per-test orthogonal matrices commutes with every step of the solver (LU, Thomas, PCR, hybrid, dense), norms are unchanged; each law shown odd/even |
| C125 | Chaboche laws, isotropic-kinematic flow rule, control modes, block solver | instance of the coordinate theorem of C124 for permutation matrices |
| C126 | runs of `solveStrain`/`solveStress` at arbitrary tolerances | perturbed implicit steps keep the region up to the defect (induction over the steps), convexity of the stored energy |
| C127 | `rewind`, `tRewind`, `convertResults` with the specification `IsLossGradient`, `OutputGradient`, `NoTies` | chain rule with the strictly differentiable trajectory of the implicit function theorem; local linearity of maxima attained once, kink of maxima attained twice |
| C128 | `solveBoth` with `inelastic (perfect …)`, the inner Newton solve of stress control over the whole call included | monotone convergence of Newton's method on convex resistances (C100), with right hand sides that may differ from block to block: for one state the imposed stress replaces the whole state, so the number of inner updates of a call does not depend on the iterate and the strain rate is either exact or zero; `C128_mixed_succeeds`, `C128_limit_exists`, `C128_creep_succeeds` |
| C129 | the straight-line computation recorded by a run (`recordedBlock`, `recordedLoop`, `recordedIntegrate` in Model/Backprop): the updates of every block with their number fixed; dense and Thomas solves only (the other factorizations overwrite tensors saved for `backward`) | a run equals the recording with its own update counts (`C129_recorded`); for iterations with a fixed point at which the derivative of the update with respect to the iterate vanishes, derivatives of the iterates converge to the derivative of the fixed point, block after block along the trajectory (`C129_limit`; on short blocks without assuming convergence: `C129_small_blocks`); exactness for affine rates and forward Euler (`C129_linear`, `C129_forward`); counterexample for slow problems (`C129_no_update`) |
| C130 | Model/Inexact: the time loop with every rounding operation an arbitrary function | Stopping test of the Newton loop gives the computed norm; budget of the residual error; perturbation lemmas of C81 (`backward_compare`). Floating point model: every operation of the residual and of the returned states rounded with relative error u (no overflow or underflow). Not modelled: not-a-number or overflowing states, rounding of the division of the two norms in the relative test |
| C131 | the runs of Model/Control and Model/Ode, as for C81/C82; the noisy quantity w_k = (difference of the stresses) - E (difference of the strains) obeys a step in which the differentiated noise has cancelled | C131_strain_noise by induction over the recorded times with a case distinction on the sign of the rate difference (monotonicity keeps |w| within E eta plus the tolerances); C131_rates by discrete Gronwall as in C82; C131_creep by summing the step bounds of C123; examples run the solver on cubic creep laws |
| C132 | the four forward methods, term by term in the order of the code (Model/Examples) | the chain is shown to be linear with exactly the assembled matrix (sums over shifted diagonals); the others by Frechet derivatives of each component |
| C133 | the example systems (Model/Examples) in the integrator of Model/Ode; energy and elongations are defined in Spec/Examples | summation by parts gives the power of springs and dampers; energy balance per step by convexity; it makes the step matrix injective, so C18 applies; gates by induction over the steps with the step defects of C81 |
| C134 | make_model and true_model assembled from the modelled parts (Model/Inference), numbers as in the scripts | ranges of the scaled parameters from the clamp; existence by C74, bounds by C39, C40, C73 and, for runs with tolerances, C126; Theta0-Voce by C41; the polynomials by nlinarith |
| C135 | reshape and flatten of the last dimensions as the row-major bijection (Model/Inference), one row of one array | arithmetic of quotient and remainder |
| C136 | the three drivers of ModelIntegrator on batches that share one test | uniqueness of the step of the internal variables at a prescribed stress (C74 with zero modulus), induction over the steps with C28, C78, C79; existence by the flat trajectory lemma |

Not expressible in a model of the code: nothing on the list; the quality of random numbers, the optimizers, performance and GPU
behaviour are not claimed.
